import Verif.Model.TraceRec
import Verif.Props.TraceComp
import Verif.Props.Mass
import Verif.Lemmas.Hybrid

/-! # C85: reconstructing a trace of a form gives the trace of the reconstructed form -/

namespace Mifem.Props
open Mifem.Basis Mifem.Metric Mifem.TraceDisc Mifem.TraceRec Mifem.Three Finset

/-! ## The basis functions of the direction across a side -/

theorem node_first {nodes : List ℝ} (h : accepted nodes = true) {i : Nat} (hi : i < nodes.length) :
    (nodeBasis nodes [-1]).e i 0 = if i = 0 then 1 else 0 := by
  rw [← c48_kronecker nodes h i 0 hi (by omega)]
  have : nodes.head? = some (-1) := by
    simp only [accepted, Bool.and_eq_true, decide_eq_true_eq] at h; exact h.2
  have h0 : nodes.getD 0 0 = -1 := by
    rw [List.getD_eq_getElem?_getD, ← List.head?_eq_getElem?, this]; rfl
  simp only [nodeBasis, h0, List.getD_cons_zero]

theorem node_last {nodes : List ℝ} (h : accepted nodes = true) {i : Nat} (hi : i < nodes.length) :
    (nodeBasis nodes [1]).e i 0 = if i = nodes.length - 1 then 1 else 0 := by
  rw [← c48_kronecker nodes h i (nodes.length - 1) hi (by omega)]
  have : nodes.getLast? = some 1 := by
    simp only [accepted, Bool.and_eq_true, decide_eq_true_eq] at h; exact h.1.2
  have h0 : nodes.getD (nodes.length - 1) 0 = 1 := by
    rw [List.getD_eq_getElem?_getD, ← List.getLast?_eq_getElem?, this]; rfl
  simp only [nodeBasis, h0, List.getD_cons_zero]

section
variable (D B A : Arr ℝ) (w : Nat → ℝ)

theorem three_at_x (hA : A.cols = 1) (hB : B.cols = 1) {n : Nat} (hn : n < A.rows)
    (h : ∀ i < A.rows, A.e i 0 = if i = n then 1 else 0) :
    einsum (Basis.Three.kron3 D B A) w 0 = ∑ k ∈ range D.rows, ∑ j ∈ range B.rows, D.e k 0 * B.e j 0 * w (fIdx3 A.rows B.rows n j k) := by
  rw [three_recon _ _ _ hA hB]
  refine Finset.sum_congr rfl fun k _ => Finset.sum_congr rfl fun j _ => ?_
  rw [Finset.sum_eq_single n]
  · rw [h n hn, if_pos rfl, mul_one]
  · intro i hi hne; rw [h i (mem_range.mp hi), if_neg hne]; ring
  · intro hh; exact absurd (mem_range.mpr hn) hh

theorem three_at_y (hA : A.cols = 1) (hB : B.cols = 1) {n : Nat} (hn : n < B.rows)
    (h : ∀ i < B.rows, B.e i 0 = if i = n then 1 else 0) :
    einsum (Basis.Three.kron3 D B A) w 0 = ∑ k ∈ range D.rows, ∑ i ∈ range A.rows, D.e k 0 * A.e i 0 * w (fIdx3 A.rows B.rows i n k) := by
  rw [three_recon _ _ _ hA hB]
  refine Finset.sum_congr rfl fun k _ => ?_
  rw [Finset.sum_eq_single n]
  · refine Finset.sum_congr rfl fun i _ => ?_
    rw [h n hn, if_pos rfl, mul_one]
  · intro i hi hne; refine Finset.sum_eq_zero fun _ _ => ?_; rw [h i (mem_range.mp hi), if_neg hne]; ring
  · intro hh; exact absurd (mem_range.mpr hn) hh

theorem three_at_z (hA : A.cols = 1) (hB : B.cols = 1) {n : Nat} (hn : n < D.rows)
    (h : ∀ i < D.rows, D.e i 0 = if i = n then 1 else 0) :
    einsum (Basis.Three.kron3 D B A) w 0 = ∑ j ∈ range B.rows, ∑ i ∈ range A.rows, B.e j 0 * A.e i 0 * w (fIdx3 A.rows B.rows i j n) := by
  rw [three_recon _ _ _ hA hB, Finset.sum_eq_single n]
  · refine Finset.sum_congr rfl fun j _ => Finset.sum_congr rfl fun i _ => ?_
    rw [h n hn, if_pos rfl, one_mul]
  · intro i hi hne; refine Finset.sum_eq_zero fun _ _ => Finset.sum_eq_zero fun _ _ => ?_
    rw [h i (mem_range.mp hi), if_neg hne]; ring
  · intro hh; exact absurd (mem_range.mpr hn) hh

/-- Equal values of the two-dimensional sums. -/
theorem two_sum (hB : B.cols = 1) (c : Nat → ℝ) (g : Nat → Nat → ℝ) (h : ∀ j < B.rows, ∀ k < D.rows, c (fIdx2 B.rows j k) = g j k) :
    einsum (kron D B) c 0 = ∑ k ∈ range D.rows, ∑ j ∈ range B.rows, D.e k 0 * B.e j 0 * g j k := by
  rw [two_recon _ _ hB]
  refine Finset.sum_congr rfl fun k hk => Finset.sum_congr rfl fun j hj => ?_
  rw [h j (mem_range.mp hj) k (mem_range.mp hk)]
end

/-- The values of `w` at a list of indices. -/
def takeAt (l : List Nat) (w : Nat → ℝ) (i : Nat) : ℝ := w (l.getD i 0)

theorem takeAt_ravel (w : Nat → ℝ) {a b : Nat} {f : Nat → Nat → Nat} {i j : Nat} (hi : i < a) (hj : j < b) :
    takeAt (ravelF a b f) w (fIdx2 a i j) = w (f i j) := by
  rw [takeAt, List.getD_eq_getElem?_getD, Hybrid.ravelF_get hi hj]; rfl

theorem takeAt_left (w : Nat → ℝ) {a b : Nat} {f : Nat → Nat → Nat} {l : List Nat} {i j : Nat} (hi : i < a) (hj : j < b) :
    takeAt (ravelF a b f ++ l) w (fIdx2 a i j) = w (f i j) := by
  have h := Hybrid.ravelF_get (f := f) hi hj
  rw [takeAt, List.getD_eq_getElem?_getD, List.getElem?_append_left (List.getElem?_eq_some_iff.mp h).1, h]; rfl

theorem takeAt_right (w : Nat → ℝ) {a b a' b' n : Nat} {f f' : Nat → Nat → Nat} (hn : n = a' * b') {i j : Nat} (hi : i < a) (hj : j < b) :
    slice (takeAt (ravelF a' b' f' ++ ravelF a b f) w) n (fIdx2 a i j) = w (f i j) := by
  rw [slice, takeAt, List.getD_eq_getElem?_getD, List.getElem?_append_right (by rw [Mifem.ravelF_length]; omega), Mifem.ravelF_length, hn,
    Nat.add_sub_cancel_left, Hybrid.ravelF_get hi hj]
  rfl

/-! ## 0-forms -/

variable (nx ny nz xs ys zs : List ℝ) (e : Disc.Three.El ℝ) (s : Side)

theorem rec0_point (c : Nat → ℝ) (m : Nat) :
    let P := grid xs ys zs s m
    rec0 nx ny nz xs ys zs s c m = rec0 nx ny nz [P 0] [P 1] [P 2] s c 0 := by
  cases s <;> simp [rec0, tb0, einsum, kron, nodeBasis, grid]

/-- **C85, 0-forms.**  At every point of the grid of a side, the reconstruction of the values of a 0-form on the side is the
reconstruction of the 0-form at this point of the element. -/
theorem c85_0 (hx : accepted nx = true) (hy : accepted ny = true) (hz : accepted nz = true) (w : Nat → ℝ) (m : Nat) :
    let P := grid xs ys zs s m
    rec0 nx ny nz xs ys zs s (takeAt (dofs0 (nx.length - 1) (ny.length - 1) (nz.length - 1) s) w) m =
      Basis.Three.recon0 nx ny nz [P 0] [P 1] [P 2] w 0 := by
  intro P
  have ex := accepted_two hx; have ey := accepted_two hy; have ez := accepted_two hz
  have fx : nx.length - 1 + 1 = nx.length := by omega
  have fy : ny.length - 1 + 1 = ny.length := by omega
  have fz : nz.length - 1 + 1 = nz.length := by omega
  rw [rec0_point]
  obtain ⟨n, hn, hn'⟩ : ∃ n, n = P ∧ grid xs ys zs s m = n := ⟨P, rfl, rfl⟩
  clear_value P
  rw [hn', ← hn]
  unfold Basis.Three.recon0 rec0
  have L : ∀ i j k, ln0 (nx.length - 1) (ny.length - 1) (nz.length - 1) i j k = fIdx3 nx.length ny.length i j k := by
    intro i j k; rw [ln0, fx, fy]
  cases s <;> simp only [tb0, dofs0, fx, fy, fz, L]
  · rw [show n 0 = -1 from by rw [← hn']; rfl,
      three_at_x _ _ _ _ rfl rfl (n := 0) (show 0 < nx.length by omega) fun i hi => node_first hx hi]
    exact two_sum _ _ rfl _ _ fun j hj k hk => takeAt_ravel w hj hk
  · rw [show n 0 = 1 from by rw [← hn']; rfl,
      three_at_x _ _ _ _ rfl rfl (n := nx.length - 1) (show nx.length - 1 < nx.length by omega) fun i hi => node_last hx hi]
    exact two_sum _ _ rfl _ _ fun j hj k hk => takeAt_ravel w hj hk
  · rw [show n 1 = -1 from by rw [← hn']; rfl,
      three_at_y _ _ _ _ rfl rfl (n := 0) (show 0 < ny.length by omega) fun i hi => node_first hy hi]
    exact two_sum _ _ rfl _ _ fun j hj k hk => takeAt_ravel w hj hk
  · rw [show n 1 = 1 from by rw [← hn']; rfl,
      three_at_y _ _ _ _ rfl rfl (n := ny.length - 1) (show ny.length - 1 < ny.length by omega) fun i hi => node_last hy hi]
    exact two_sum _ _ rfl _ _ fun j hj k hk => takeAt_ravel w hj hk
  · rw [show n 2 = -1 from by rw [← hn']; rfl,
      three_at_z _ _ _ _ rfl rfl (n := 0) (show 0 < nz.length by omega) fun i hi => node_first hz hi]
    exact two_sum _ _ rfl _ _ fun j hj k hk => takeAt_ravel w hj hk
  · rw [show n 2 = 1 from by rw [← hn']; rfl,
      three_at_z _ _ _ _ rfl rfl (n := nz.length - 1) (show nz.length - 1 < nz.length by omega) fun i hi => node_last hz hi]
    exact two_sum _ _ rfl _ _ fun j hj k hk => takeAt_ravel w hj hk

/-! ## 1- and 2-forms in the reference element -/

/-- The direction across a side. -/
def nrm3 : Side → Fin 3
  | .N | .S => 0
  | .W | .E => 1
  | .B | .F => 2

/-- The components of a triple. -/
def comp3 (u : ℝ × ℝ × ℝ) : Fin 3 → ℝ := ![u.1, u.2.1, u.2.2]

theorem tb1_point (c : Nat → ℝ) (m : Nat) (a : Fin 2) :
    let P := grid xs ys zs s m
    einsum (tb1 nx ny nz xs ys zs s a) c m = einsum (tb1 nx ny nz [P 0] [P 1] [P 2] s a) c 0 := by
  fin_cases a <;> cases s <;> simp [tb1, einsum, kron, nodeBasis, edgeBasis, grid]

theorem tb2_point (c : Nat → ℝ) (m : Nat) :
    let P := grid xs ys zs s m
    einsum (tb2 nx ny nz xs ys zs s) c m = einsum (tb2 nx ny nz [P 0] [P 1] [P 2] s) c 0 := by
  cases s <;> simp [tb2, einsum, kron, edgeBasis, grid]

/-- The two families of a 1-trace are the components of the 1-form along the side. -/
theorem comp_1 (hx : accepted nx = true) (hy : accepted ny = true) (hz : accepted nz = true) (w : Nat → ℝ) (m : Nat) :
    let P := grid xs ys zs s m
    let c := takeAt (dofs1 (nx.length - 1) (ny.length - 1) (nz.length - 1) s) w
    let U := comp3 (Basis.Three.recon1 nx ny nz [P 0] [P 1] [P 2] w 0)
    einsum (tb1 nx ny nz xs ys zs s 0) c m = U (fst3 s) ∧
      einsum (tb1 nx ny nz xs ys zs s 1) (slice c (num1 nx ny nz s)) m = U (snd3 s) := by
  intro P c U
  have ex := accepted_two hx; have ey := accepted_two hy; have ez := accepted_two hz
  have fx : nx.length - 1 + 1 = nx.length := by omega
  have fy : ny.length - 1 + 1 = ny.length := by omega
  have fz : nz.length - 1 + 1 = nz.length := by omega
  rw [tb1_point nx ny nz xs ys zs s _ m 0, tb1_point nx ny nz xs ys zs s _ m 1]
  obtain ⟨n, hn, hn'⟩ : ∃ n, n = P ∧ grid xs ys zs s m = n := ⟨P, rfl, rfl⟩
  subst U c
  clear_value P
  rw [hn', ← hn]
  have L0 : ∀ i j k, ln1c0 (nx.length - 1) (ny.length - 1) (nz.length - 1) i j k = fIdx3 (nx.length - 1) ny.length i j k := by
    intro i j k; rw [ln1c0, fy]
  have L1 : ∀ i j k, ln1c1 (nx.length - 1) (ny.length - 1) (nz.length - 1) i j k =
      nb1c0 (nx.length - 1) (ny.length - 1) (nz.length - 1) + fIdx3 nx.length (ny.length - 1) i j k := by
    intro i j k; rw [ln1c1, fx, Nat.add_comm]
  have L2 : ∀ i j k, ln1c2 (nx.length - 1) (ny.length - 1) (nz.length - 1) i j k =
      nb1 (nx.length - 1) (ny.length - 1) (nz.length - 1) - nb1c2 (nx.length - 1) (ny.length - 1) (nz.length - 1) +
        fIdx3 nx.length ny.length i j k := by
    intro i j k; rw [ln1c2, fx, fy, nb1]; omega
  cases s <;> simp only [tb1, dofs1, num1, fst3, snd3, comp3, fx, fy, fz, L0, L1, L2, Basis.Three.recon1, Matrix.cons_val_zero,
    Matrix.cons_val_one, Matrix.cons_val]
  · rw [show n 0 = -1 from by rw [← hn']; rfl,
      three_at_x _ _ _ _ rfl rfl (n := 0) (show 0 < nx.length by omega) fun i hi => node_first hx hi,
      three_at_x _ _ _ _ rfl rfl (n := 0) (show 0 < nx.length by omega) fun i hi => node_first hx hi]
    exact ⟨two_sum _ _ rfl _ _ fun j hj k hk => takeAt_left w hj hk, two_sum _ _ rfl _ _ fun j hj k hk => takeAt_right w rfl hj hk⟩
  · rw [show n 0 = 1 from by rw [← hn']; rfl,
      three_at_x _ _ _ _ rfl rfl (n := nx.length - 1) (show nx.length - 1 < nx.length by omega) fun i hi => node_last hx hi,
      three_at_x _ _ _ _ rfl rfl (n := nx.length - 1) (show nx.length - 1 < nx.length by omega) fun i hi => node_last hx hi]
    exact ⟨two_sum _ _ rfl _ _ fun j hj k hk => takeAt_left w hj hk, two_sum _ _ rfl _ _ fun j hj k hk => takeAt_right w rfl hj hk⟩
  · rw [show n 1 = -1 from by rw [← hn']; rfl,
      three_at_y _ _ _ _ rfl rfl (n := 0) (show 0 < ny.length by omega) fun i hi => node_first hy hi,
      three_at_y _ _ _ _ rfl rfl (n := 0) (show 0 < ny.length by omega) fun i hi => node_first hy hi]
    exact ⟨two_sum _ _ rfl _ _ fun j hj k hk => takeAt_left w hj hk, two_sum _ _ rfl _ _ fun j hj k hk => takeAt_right w rfl hj hk⟩
  · rw [show n 1 = 1 from by rw [← hn']; rfl,
      three_at_y _ _ _ _ rfl rfl (n := ny.length - 1) (show ny.length - 1 < ny.length by omega) fun i hi => node_last hy hi,
      three_at_y _ _ _ _ rfl rfl (n := ny.length - 1) (show ny.length - 1 < ny.length by omega) fun i hi => node_last hy hi]
    exact ⟨two_sum _ _ rfl _ _ fun j hj k hk => takeAt_left w hj hk, two_sum _ _ rfl _ _ fun j hj k hk => takeAt_right w rfl hj hk⟩
  · rw [show n 2 = -1 from by rw [← hn']; rfl,
      three_at_z _ _ _ _ rfl rfl (n := 0) (show 0 < nz.length by omega) fun i hi => node_first hz hi,
      three_at_z _ _ _ _ rfl rfl (n := 0) (show 0 < nz.length by omega) fun i hi => node_first hz hi]
    exact ⟨two_sum _ _ rfl _ _ fun j hj k hk => takeAt_left w hj hk, two_sum _ _ rfl _ _ fun j hj k hk => takeAt_right w rfl hj hk⟩
  · rw [show n 2 = 1 from by rw [← hn']; rfl,
      three_at_z _ _ _ _ rfl rfl (n := nz.length - 1) (show nz.length - 1 < nz.length by omega) fun i hi => node_last hz hi,
      three_at_z _ _ _ _ rfl rfl (n := nz.length - 1) (show nz.length - 1 < nz.length by omega) fun i hi => node_last hz hi]
    exact ⟨two_sum _ _ rfl _ _ fun j hj k hk => takeAt_left w hj hk, two_sum _ _ rfl _ _ fun j hj k hk => takeAt_right w rfl hj hk⟩

/-- A 2-trace holds the component of the 2-form across the side. -/
theorem comp_2 (hx : accepted nx = true) (hy : accepted ny = true) (hz : accepted nz = true) (w : Nat → ℝ) (m : Nat) :
    let P := grid xs ys zs s m
    einsum (tb2 nx ny nz xs ys zs s) (takeAt (dofs2 (nx.length - 1) (ny.length - 1) (nz.length - 1) s) w) m =
      comp3 (Basis.Three.recon2 nx ny nz [P 0] [P 1] [P 2] w 0) (nrm3 s) := by
  intro P
  have ex := accepted_two hx; have ey := accepted_two hy; have ez := accepted_two hz
  have fx : nx.length - 1 + 1 = nx.length := by omega
  have fy : ny.length - 1 + 1 = ny.length := by omega
  rw [tb2_point]
  obtain ⟨n, hn, hn'⟩ : ∃ n, n = P ∧ grid xs ys zs s m = n := ⟨P, rfl, rfl⟩
  clear_value P
  rw [hn', ← hn]
  have L0 : ∀ i j k, ln2c0 (nx.length - 1) (ny.length - 1) (nz.length - 1) i j k = fIdx3 nx.length (ny.length - 1) i j k := by
    intro i j k; rw [ln2c0, fx]
  have L1 : ∀ i j k, ln2c1 (nx.length - 1) (ny.length - 1) (nz.length - 1) i j k =
      nb2c0 (nx.length - 1) (ny.length - 1) (nz.length - 1) + fIdx3 (nx.length - 1) ny.length i j k := by
    intro i j k; rw [ln2c1, fy, Nat.add_comm]
  have L2 : ∀ i j k, ln2c2 (nx.length - 1) (ny.length - 1) (nz.length - 1) i j k =
      nb2 (nx.length - 1) (ny.length - 1) (nz.length - 1) - nb2c2 (nx.length - 1) (ny.length - 1) (nz.length - 1) +
        fIdx3 (nx.length - 1) (ny.length - 1) i j k := by
    intro i j k; rw [ln2c2, nb2]; omega
  cases s <;> simp only [tb2, dofs2, nrm3, comp3, L0, L1, L2, Basis.Three.recon2, Matrix.cons_val_zero,
    Matrix.cons_val_one, Matrix.cons_val]
  · rw [show n 0 = -1 from by rw [← hn']; rfl,
      three_at_x _ _ _ _ rfl rfl (n := 0) (show 0 < nx.length by omega) fun i hi => node_first hx hi]
    exact two_sum _ _ rfl _ _ fun j hj k hk => takeAt_ravel w hj hk
  · rw [show n 0 = 1 from by rw [← hn']; rfl,
      three_at_x _ _ _ _ rfl rfl (n := nx.length - 1) (show nx.length - 1 < nx.length by omega) fun i hi => node_last hx hi]
    exact two_sum _ _ rfl _ _ fun j hj k hk => takeAt_ravel w hj hk
  · rw [show n 1 = -1 from by rw [← hn']; rfl,
      three_at_y _ _ _ _ rfl rfl (n := 0) (show 0 < ny.length by omega) fun i hi => node_first hy hi]
    exact two_sum _ _ rfl _ _ fun j hj k hk => takeAt_ravel w hj hk
  · rw [show n 1 = 1 from by rw [← hn']; rfl,
      three_at_y _ _ _ _ rfl rfl (n := ny.length - 1) (show ny.length - 1 < ny.length by omega) fun i hi => node_last hy hi]
    exact two_sum _ _ rfl _ _ fun j hj k hk => takeAt_ravel w hj hk
  · rw [show n 2 = -1 from by rw [← hn']; rfl,
      three_at_z _ _ _ _ rfl rfl (n := 0) (show 0 < nz.length by omega) fun i hi => node_first hz hi]
    exact two_sum _ _ rfl _ _ fun j hj k hk => takeAt_ravel w hj hk
  · rw [show n 2 = 1 from by rw [← hn']; rfl,
      three_at_z _ _ _ _ rfl rfl (n := nz.length - 1) (show nz.length - 1 < nz.length by omega) fun i hi => node_last hz hi]
    exact two_sum _ _ rfl _ _ fun j hj k hk => takeAt_ravel w hj hk

/-! ## Geometry of a side at one point -/

theorem grid_eq (m : Nat) : grid xs ys zs s m = onSide3 s (grid2 xs ys zs s m).1 (grid2 xs ys zs s m).2 := by cases s <;> rfl

theorem metricAt_side (a b : ℝ) : metricAt e s (onSide3 s a b) = metric e s a b := by cases s <;> rfl

theorem metricAt_grid (m : Nat) : metricAt e s (grid xs ys zs s m) = metric e s (grid2 xs ys zs s m).1 (grid2 xs ys zs s m).2 := by
  rw [grid_eq, metricAt_side]

/-- The normal is the row of the inverse across the side, times the Jacobian. -/
theorem crossJ_row {a b : ℝ} (h : Metric.Three.jacobian (e.J (onSide3 s a b)) ≠ 0) (c : Fin 3) :
    crossJ e s a b c = Metric.Three.jacobian (e.J (onSide3 s a b)) * Metric.Three.inverse (e.J (onSide3 s a b)) (nrm3 s) c := by
  have h1 := mul_inv_cancel₀ h
  have E : Metric.Three.inverse (e.J (onSide3 s a b)) = fun i j => (Metric.Three.jacobian (e.J (onSide3 s a b)))⁻¹ *
      (![![(e.J (onSide3 s a b)) 1 1 * (e.J (onSide3 s a b)) 2 2 - (e.J (onSide3 s a b)) 1 2 * (e.J (onSide3 s a b)) 2 1,
          (e.J (onSide3 s a b)) 2 1 * (e.J (onSide3 s a b)) 0 2 - (e.J (onSide3 s a b)) 2 2 * (e.J (onSide3 s a b)) 0 1,
          (e.J (onSide3 s a b)) 0 1 * (e.J (onSide3 s a b)) 1 2 - (e.J (onSide3 s a b)) 0 2 * (e.J (onSide3 s a b)) 1 1],
        ![(e.J (onSide3 s a b)) 1 2 * (e.J (onSide3 s a b)) 2 0 - (e.J (onSide3 s a b)) 1 0 * (e.J (onSide3 s a b)) 2 2,
          (e.J (onSide3 s a b)) 2 2 * (e.J (onSide3 s a b)) 0 0 - (e.J (onSide3 s a b)) 2 0 * (e.J (onSide3 s a b)) 0 2,
          (e.J (onSide3 s a b)) 0 2 * (e.J (onSide3 s a b)) 1 0 - (e.J (onSide3 s a b)) 0 0 * (e.J (onSide3 s a b)) 1 2],
        ![(e.J (onSide3 s a b)) 1 0 * (e.J (onSide3 s a b)) 2 1 - (e.J (onSide3 s a b)) 1 1 * (e.J (onSide3 s a b)) 2 0,
          (e.J (onSide3 s a b)) 2 0 * (e.J (onSide3 s a b)) 0 1 - (e.J (onSide3 s a b)) 2 1 * (e.J (onSide3 s a b)) 0 0,
          (e.J (onSide3 s a b)) 0 0 * (e.J (onSide3 s a b)) 1 1 - (e.J (onSide3 s a b)) 0 1 * (e.J (onSide3 s a b)) 1 0]] :
            Fin 3 → Fin 3 → ℝ) i j := by
    funext i j
    rw [Metric.Three.inverse, Metric.Three.jacobian]
    fin_cases i <;> fin_cases j <;> simp
  rw [E]
  dsimp only
  rw [← mul_assoc, h1, one_mul]
  cases s <;> fin_cases c <;> simp [crossJ, crossV, jac, nrm3, fullEp, onSide3] <;> ring

theorem side_metric_pos {a b : ℝ} (h : Metric.Three.jacobian (e.J (onSide3 s a b)) ≠ 0) : 0 < metric e s a b := by
  rw [metric_eq]
  by_contra hcon
  have h0 : crossJ e s a b 0 = 0 := by nlinarith [sq_nonneg (crossJ e s a b 0), sq_nonneg (crossJ e s a b 1), sq_nonneg (crossJ e s a b 2)]
  have h1 : crossJ e s a b 1 = 0 := by nlinarith [sq_nonneg (crossJ e s a b 0), sq_nonneg (crossJ e s a b 1), sq_nonneg (crossJ e s a b 2)]
  have h2 : crossJ e s a b 2 = 0 := by nlinarith [sq_nonneg (crossJ e s a b 0), sq_nonneg (crossJ e s a b 1), sq_nonneg (crossJ e s a b 2)]
  have hr := fun c => (mul_eq_zero.mp ((crossJ_row e s h c).symm.trans (by fin_cases c <;> assumption))).resolve_left h
  have := inv3_entry _ h (nrm3 s) (nrm3 s)
  rw [hr 0, hr 1, hr 2] at this
  simp at this

theorem unit_at {a b : ℝ} (h : 0 < metric e s a b) : dotV (unitNormal e s a b) (unitNormal e s a b) = 1 := by
  have h1 := metric_eq e s a b
  simp only [← unitNormal_scaled] at h1
  have h2 := Real.sq_sqrt h.le
  have h3 : metric e s a b * dotV (unitNormal e s a b) (unitNormal e s a b) = metric e s a b * 1 := by
    rw [dotV]
    linear_combination (-h1) + (-h2) * (unitNormal e s a b 0 ^ 2 + unitNormal e s a b 1 ^ 2 + unitNormal e s a b 2 ^ 2)
  exact mul_left_cancel₀ h.ne' h3

/-! ## 2-forms -/

theorem ltRec2_eq (t : Side) (c : Nat → ℝ) (m : Nat) :
    ltRec2 nx ny nz xs ys zs e s t c m =
      einsum (tb2 nx ny nz xs ys zs s) c m / Real.sqrt (metricAt e t (grid xs ys zs s m)) := by
  rw [ltRec2, einsum, range_map_sum, range_map_sum, Finset.sum_div]
  exact Finset.sum_congr rfl fun i _ => by ring

/-- **C85, 2-forms.**  The reconstruction of the values of a 2-form on a side is the component along the unit normal of the
reconstructed 2-form. -/
theorem c85_2 (hx : accepted nx = true) (hy : accepted ny = true) (hz : accepted nz = true) (he : OrthOK3 e) (w : Nat → ℝ) (m : Nat)
    (hJ : Metric.Three.jacobian (e.J (grid xs ys zs s m)) ≠ 0) :
    let P := grid xs ys zs s m
    let σ := (grid2 xs ys zs s m).1
    let τ := (grid2 xs ys zs s m).2
    rec2 nx ny nz xs ys zs e s (takeAt (dofs2 (nx.length - 1) (ny.length - 1) (nz.length - 1) s) w) m =
      dotV (Metric.Three.reconstruct2 e.orth (fun _ => e.J P) nx ny nz [P 0] [P 1] [P 2] w 0) (unitNormal e s σ τ) := by
  intro P σ τ
  have hP : P = onSide3 s σ τ := grid_eq xs ys zs s m
  have hJ' : Metric.Three.jacobian (e.J (onSide3 s σ τ)) ≠ 0 := by rw [← hP]; exact hJ
  have hm := side_metric_pos e s hJ'
  rw [rec2, ltRec2_eq, comp_2 nx ny nz xs ys zs s hx hy hz, metricAt_grid, div_eq_iff (Real.sqrt_pos.mpr hm).ne']
  change comp3 (Basis.Three.recon2 nx ny nz [P 0] [P 1] [P 2] w 0) (nrm3 s) = _ * Real.sqrt (metric e s σ τ)
  have hs := fun c => unitNormal_scaled e s σ τ c
  rw [dotV, add_mul, add_mul, mul_assoc, mul_assoc, mul_assoc, hs, hs, hs]
  simp only [Metric.Three.reconstruct2]
  rw [hP, value2_eq (three_diag_inv fun h => he h (onSide3 s σ τ)), value2_piola _ hJ', value2_piola _ hJ', value2_piola _ hJ',
    crossJ_row e s hJ', crossJ_row e s hJ', crossJ_row e s hJ']
  have i0 := inv3_entry _ hJ' (nrm3 s) 0
  have i1 := inv3_entry _ hJ' (nrm3 s) 1
  have i2 := inv3_entry _ hJ' (nrm3 s) 2
  have hi := mul_inv_cancel₀ hJ'
  generalize Basis.Three.recon2 nx ny nz [onSide3 s σ τ 0] [onSide3 s σ τ 1] [onSide3 s σ τ 2] w 0 = U
  generalize e.J (onSide3 s σ τ) = J at *
  generalize Metric.Three.inverse J = I at *
  generalize Metric.Three.jacobian J = d at *
  obtain ⟨u, v, w⟩ := U
  have key : d⁻¹ * (J 0 0 * u + J 0 1 * v + J 0 2 * w) * (d * I (nrm3 s) 0) + d⁻¹ * (J 1 0 * u + J 1 1 * v + J 1 2 * w) * (d * I (nrm3 s) 1) +
      d⁻¹ * (J 2 0 * u + J 2 1 * v + J 2 2 * w) * (d * I (nrm3 s) 2) =
      u * (if nrm3 s = 0 then 1 else 0) + v * (if nrm3 s = 1 then 1 else 0) + w * (if nrm3 s = 2 then 1 else 0) := by
    rw [← i0, ← i1, ← i2]
    linear_combination (u * (I (nrm3 s) 0 * J 0 0 + I (nrm3 s) 1 * J 1 0 + I (nrm3 s) 2 * J 2 0) +
      v * (I (nrm3 s) 0 * J 0 1 + I (nrm3 s) 1 * J 1 1 + I (nrm3 s) 2 * J 2 1) +
      w * (I (nrm3 s) 0 * J 0 2 + I (nrm3 s) 1 * J 1 2 + I (nrm3 s) 2 * J 2 2)) * hi
  rw [key]
  cases s <;> simp [nrm3, comp3]

/-! ## 1-forms -/

/-- The rows of the inverse are those of the two directions along the side, in this order. -/
theorem rec1_rows (c : Nat → ℝ) (m : Nat) (j : Fin 3) :
    rec1 nx ny nz xs ys zs e s c m j =
      einsum (tb1 nx ny nz xs ys zs s 0) c m * Metric.Three.inverse (e.J (grid xs ys zs s m)) (fst3 s) j +
        einsum (tb1 nx ny nz xs ys zs s 1) (slice c (num1 nx ny nz s)) m * Metric.Three.inverse (e.J (grid xs ys zs s m)) (snd3 s) j := by
  cases s <;> simp [rec1, iJAt, fst3, snd3]

/-- The vector of a 1-form differs from the one of its trace by a multiple of the normal. -/
theorem rec1_diff (hx : accepted nx = true) (hy : accepted ny = true) (hz : accepted nz = true) (he : OrthOK3 e) (w : Nat → ℝ) (m : Nat) :
    let P := grid xs ys zs s m
    ∃ l : ℝ, ∀ j, Metric.Three.reconstruct1 e.orth (fun _ => e.J P) nx ny nz [P 0] [P 1] [P 2] w 0 j =
      rec1 nx ny nz xs ys zs e s (takeAt (dofs1 (nx.length - 1) (ny.length - 1) (nz.length - 1) s) w) m j +
        l * Metric.Three.inverse (e.J P) (nrm3 s) j := by
  intro P
  obtain ⟨h0, h1⟩ := comp_1 nx ny nz xs ys zs s hx hy hz w m
  refine ⟨comp3 (Basis.Three.recon1 nx ny nz [P 0] [P 1] [P 2] w 0) (nrm3 s), fun j => ?_⟩
  rw [rec1_rows, h0, h1]
  change Metric.Three.value1 _ _ _ _ _ j = _
  rw [value1_eq (three_diag_inv fun h => he h P)]
  change _ = comp3 (Basis.Three.recon1 nx ny nz [P 0] [P 1] [P 2] w 0) (fst3 s) * Metric.Three.inverse (e.J P) (fst3 s) j +
    comp3 (Basis.Three.recon1 nx ny nz [P 0] [P 1] [P 2] w 0) (snd3 s) * Metric.Three.inverse (e.J P) (snd3 s) j + _
  generalize Basis.Three.recon1 nx ny nz [P 0] [P 1] [P 2] w 0 = U
  cases s <;> simp [nrm3, fst3, snd3, comp3] <;> ring

/-- **C85, 1-forms.**  The reconstruction of the values of a 1-form on a side has the same component along every tangent of
the side as the reconstructed 1-form, and so the same part along the side.  The part along the normal is arbitrary
(see `c85_1_counterexample`). -/
theorem c85_1_partial (hx : accepted nx = true) (hy : accepted ny = true) (hz : accepted nz = true) (he : OrthOK3 e) (w : Nat → ℝ) (m : Nat)
    (hJ : Metric.Three.jacobian (e.J (grid xs ys zs s m)) ≠ 0) :
    let P := grid xs ys zs s m
    let σ := (grid2 xs ys zs s m).1
    let τ := (grid2 xs ys zs s m).2
    let u := Metric.Three.reconstruct1 e.orth (fun _ => e.J P) nx ny nz [P 0] [P 1] [P 2] w 0
    let v := rec1 nx ny nz xs ys zs e s (takeAt (dofs1 (nx.length - 1) (ny.length - 1) (nz.length - 1) s) w) m
    dotV v (fun c => e.J P c (fst3 s)) = dotV u (fun c => e.J P c (fst3 s)) ∧
      dotV v (fun c => e.J P c (snd3 s)) = dotV u (fun c => e.J P c (snd3 s)) ∧
      tParaOf e s (fun _ _ => v) σ τ = tParaOf e s (fun _ _ => u) σ τ := by
  intro P σ τ u v
  obtain ⟨l, hl⟩ := rec1_diff nx ny nz xs ys zs e s hx hy hz he w m
  have hu : u = fun j => v j + l * Metric.Three.inverse (e.J P) (nrm3 s) j := funext hl
  have hP : P = onSide3 s σ τ := grid_eq xs ys zs s m
  have hJ' : Metric.Three.jacobian (e.J (onSide3 s σ τ)) ≠ 0 := by rw [← hP]; exact hJ
  have i0 := inv3_entry _ hJ (nrm3 s) (fst3 s)
  have i1 := inv3_entry _ hJ (nrm3 s) (snd3 s)
  rw [if_neg (by cases s <;> decide)] at i0 i1
  change Metric.Three.inverse (e.J P) (nrm3 s) 0 * e.J P 0 (fst3 s) + Metric.Three.inverse (e.J P) (nrm3 s) 1 * e.J P 1 (fst3 s) +
    Metric.Three.inverse (e.J P) (nrm3 s) 2 * e.J P 2 (fst3 s) = 0 at i0
  change Metric.Three.inverse (e.J P) (nrm3 s) 0 * e.J P 0 (snd3 s) + Metric.Three.inverse (e.J P) (nrm3 s) 1 * e.J P 1 (snd3 s) +
    Metric.Three.inverse (e.J P) (nrm3 s) 2 * e.J P 2 (snd3 s) = 0 at i1
  clear_value u v
  subst hu
  refine ⟨?_, ?_, ?_⟩
  · simp only [dotV]; linear_combination (-l) * i0
  · simp only [dotV]; linear_combination (-l) * i1
  · have hr : ∀ c, Metric.Three.inverse (e.J P) (nrm3 s) c =
        (Real.sqrt (metric e s σ τ) / Metric.Three.jacobian (e.J P)) * unitNormal e s σ τ c := by
      intro c
      have h1 := crossJ_row e s hJ' c
      rw [← unitNormal_scaled, ← hP] at h1
      rw [div_mul_eq_mul_div, eq_div_iff hJ]
      linear_combination -h1
    funext c
    simp only [tParaOf, hr]
    fin_cases c <;> simp [crossV] <;> ring

theorem dotV_comm (a b : Fin 3 → ℝ) : dotV a b = dotV b a := by simp only [dotV]; ring

theorem triple_cross (a b c : Fin 3 → ℝ) : crossV (crossV a b) c = fun i => b i * dotV a c - a i * dotV b c := by
  funext i; fin_cases i <;> simp [crossV, dotV] <;> ring

theorem cross_dot (x c r : Fin 3 → ℝ) : dotV x r * dotV c c = dotV x c * dotV c r + dotV (crossV x c) (crossV r c) := by
  simp [crossV, dotV]; ring

/-- **C85, 1-forms, orthogonal direction.**  Where the direction across the side is orthogonal to the side, the
reconstruction is the part along the side of the reconstructed 1-form. -/
theorem c85_1_orth (hx : accepted nx = true) (hy : accepted ny = true) (hz : accepted nz = true) (he : OrthOK3 e) (w : Nat → ℝ) (m : Nat)
    (hJ : Metric.Three.jacobian (e.J (grid xs ys zs s m)) ≠ 0)
    (ho : dotV (fun c => e.J (grid xs ys zs s m) c (nrm3 s)) (fun c => e.J (grid xs ys zs s m) c (fst3 s)) = 0 ∧
      dotV (fun c => e.J (grid xs ys zs s m) c (nrm3 s)) (fun c => e.J (grid xs ys zs s m) c (snd3 s)) = 0) :
    let P := grid xs ys zs s m
    rec1 nx ny nz xs ys zs e s (takeAt (dofs1 (nx.length - 1) (ny.length - 1) (nz.length - 1) s) w) m =
      tParaOf e s (fun _ _ => Metric.Three.reconstruct1 e.orth (fun _ => e.J P) nx ny nz [P 0] [P 1] [P 2] w 0)
        (grid2 xs ys zs s m).1 (grid2 xs ys zs s m).2 := by
  intro P
  obtain ⟨σ, hσ⟩ : ∃ σ, σ = (grid2 xs ys zs s m).1 := ⟨_, rfl⟩
  obtain ⟨τ, hτ⟩ : ∃ τ, τ = (grid2 xs ys zs s m).2 := ⟨_, rfl⟩
  have hP : P = onSide3 s σ τ := by rw [hσ, hτ]; exact grid_eq xs ys zs s m
  have hJP : Metric.Three.jacobian (e.J P) ≠ 0 := hJ
  have hJ' : Metric.Three.jacobian (e.J (onSide3 s σ τ)) ≠ 0 := by rw [← hP]; exact hJ
  have h3 := (c85_1_partial nx ny nz xs ys zs e s hx hy hz he w m hJ).2.2
  rw [← hσ, ← hτ] at h3 ⊢
  refine Eq.trans ?_ h3
  obtain ⟨v, hv⟩ : ∃ v, v = rec1 nx ny nz xs ys zs e s (takeAt (dofs1 (nx.length - 1) (ny.length - 1) (nz.length - 1) s) w) m := ⟨_, rfl⟩
  have hrow := fun j => rec1_rows nx ny nz xs ys zs e s (takeAt (dofs1 (nx.length - 1) (ny.length - 1) (nz.length - 1) s) w) m j
  rw [← hv] at hrow ⊢
  change ∀ j, v j = _ * Metric.Three.inverse (e.J P) (fst3 s) j + _ * Metric.Three.inverse (e.J P) (snd3 s) j at hrow
  -- the normal is parallel to the direction across the side, so the rows along the side are orthogonal to it
  have hc : ∀ r : Fin 3 → ℝ, dotV r (fun c => e.J P c (nrm3 s)) = 0 → dotV (crossJ e s σ τ) r = 0 := by
    intro r hr
    have h0 := triple_cross (fun c => jac e s σ τ c 0) (fun c => jac e s σ τ c 1) (fun c => e.J P c (nrm3 s))
    have o : dotV (fun c => jac e s σ τ c 0) (fun c => e.J P c (nrm3 s)) = 0 ∧
        dotV (fun c => jac e s σ τ c 1) (fun c => e.J P c (nrm3 s)) = 0 := by
      obtain ⟨o0, o1⟩ := ho
      change dotV (fun c => e.J P c (nrm3 s)) (fun c => e.J P c (fst3 s)) = 0 at o0
      change dotV (fun c => e.J P c (nrm3 s)) (fun c => e.J P c (snd3 s)) = 0 at o1
      rw [dotV_comm] at o0 o1
      rw [hP] at o0 o1 ⊢
      cases s <;> first | exact ⟨o0, o1⟩ | exact ⟨o1, o0⟩
    rw [o.1, o.2] at h0
    have h1 := cross_dot (crossJ e s σ τ) (fun c => e.J P c (nrm3 s)) r
    have h2 : crossV (crossJ e s σ τ) (fun c => e.J P c (nrm3 s)) = fun _ => 0 := by rw [h0]; funext i; ring
    rw [h2, dotV_comm (fun c => e.J P c (nrm3 s)) r, hr] at h1
    have h3 : dotV (fun c => e.J P c (nrm3 s)) (fun c => e.J P c (nrm3 s)) ≠ 0 := by
      intro hz
      have i0 := inv3_entry _ hJP (nrm3 s) (nrm3 s)
      simp only [dotV] at hz
      have z0 : e.J P 0 (nrm3 s) = 0 := by nlinarith [mul_self_nonneg (e.J P 0 (nrm3 s)), mul_self_nonneg (e.J P 1 (nrm3 s)), mul_self_nonneg (e.J P 2 (nrm3 s))]
      have z1 : e.J P 1 (nrm3 s) = 0 := by nlinarith [mul_self_nonneg (e.J P 0 (nrm3 s)), mul_self_nonneg (e.J P 1 (nrm3 s)), mul_self_nonneg (e.J P 2 (nrm3 s))]
      have z2 : e.J P 2 (nrm3 s) = 0 := by nlinarith [mul_self_nonneg (e.J P 0 (nrm3 s)), mul_self_nonneg (e.J P 1 (nrm3 s)), mul_self_nonneg (e.J P 2 (nrm3 s))]
      rw [z0, z1, z2] at i0
      simp at i0
    have h4 : dotV (crossJ e s σ τ) r * dotV (fun c => e.J P c (nrm3 s)) (fun c => e.J P c (nrm3 s)) = 0 := by
      rw [h1]; simp [dotV]
    exact (mul_eq_zero.mp h4).resolve_right h3
  have hf := hc (Metric.Three.inverse (e.J P) (fst3 s)) (by
    have := inv3_entry _ hJP (fst3 s) (nrm3 s)
    rw [if_neg (by cases s <;> decide)] at this
    exact this)
  have hg := hc (Metric.Three.inverse (e.J P) (snd3 s)) (by
    have := inv3_entry _ hJP (snd3 s) (nrm3 s)
    rw [if_neg (by cases s <;> decide)] at this
    exact this)
  have hvn : dotV v (unitNormal e s σ τ) * Real.sqrt (metric e s σ τ) = 0 := by
    have hs := fun c => unitNormal_scaled e s σ τ c
    rw [dotV, add_mul, add_mul, mul_assoc, mul_assoc, mul_assoc, hs, hs, hs, hrow, hrow, hrow]
    simp only [dotV] at hf hg
    linear_combination einsum (tb1 nx ny nz xs ys zs s 0) (takeAt (dofs1 (nx.length - 1) (ny.length - 1) (nz.length - 1) s) w) m * hf +
      einsum (tb1 nx ny nz xs ys zs s 1) (slice (takeAt (dofs1 (nx.length - 1) (ny.length - 1) (nz.length - 1) s) w) (num1 nx ny nz s)) m * hg
  have hm := side_metric_pos e s hJ'
  have hvn := (mul_eq_zero.mp hvn).resolve_right (Real.sqrt_pos.mpr hm).ne'
  have hu := unit_at e s hm
  simp only [dotV] at hvn hu
  funext c
  fin_cases c <;> simp [tParaOf, crossV]
  · linear_combination (-(v 0)) * hu + unitNormal e s σ τ 0 * hvn
  · linear_combination (-(v 1)) * hu + unitNormal e s σ τ 1 * hvn
  · linear_combination (-(v 2)) * hu + unitNormal e s σ τ 2 * hvn

/-! ## The direction of the normal -/

/-- On elements that keep the orientation, the outward normal points out of the element: away from the element along the
direction across the side (backwards at the beginning of the axis). -/
theorem c84_outward {a b : ℝ} (h : 0 < Metric.Three.jacobian (e.J (onSide3 s a b))) :
    0 < (outward3 s : ℝ) * dotV (outwardNormal e s a b) (fun c => e.J (onSide3 s a b) c (nrm3 s)) := by
  have hm := side_metric_pos e s h.ne'
  have key : dotV (unitNormal e s a b) (fun c => e.J (onSide3 s a b) c (nrm3 s)) * Real.sqrt (metric e s a b) =
      Metric.Three.jacobian (e.J (onSide3 s a b)) := by
    have i0 := inv3_entry _ h.ne' (nrm3 s) (nrm3 s)
    rw [if_pos rfl] at i0
    have hs := fun c => unitNormal_scaled e s a b c
    have r := fun c => (hs c).trans (crossJ_row e s h.ne' c)
    rw [dotV]
    linear_combination e.J (onSide3 s a b) 0 (nrm3 s) * r 0 + e.J (onSide3 s a b) 1 (nrm3 s) * r 1 + e.J (onSide3 s a b) 2 (nrm3 s) * r 2 +
      Metric.Three.jacobian (e.J (onSide3 s a b)) * i0
  have hp : 0 < dotV (unitNormal e s a b) (fun c => e.J (onSide3 s a b) c (nrm3 s)) := by
    by_contra hcon
    have := mul_nonpos_of_nonpos_of_nonneg (not_lt.mp hcon) (Real.sqrt_nonneg (metric e s a b))
    rw [key] at this
    exact absurd h (not_lt.mpr this)
  have : (outward3 s : ℝ) * dotV (outwardNormal e s a b) (fun c => e.J (onSide3 s a b) c (nrm3 s)) =
      dotV (unitNormal e s a b) (fun c => e.J (onSide3 s a b) c (nrm3 s)) := by
    cases s <;> simp [outward3, outwardNormal, dotV] <;> ring
  rw [this]
  exact hp

/-! ## Both elements of a trace element -/

variable {e}

section both
variable {e' : Disc.Three.El ℝ} {s} {t : Side}

/-- Parallel sides have the same basis functions. -/
theorem tb_parallel (hp : parallel3 s t = true) :
    tb0 nx ny nz xs ys zs s = tb0 nx ny nz xs ys zs t ∧ tb1 nx ny nz xs ys zs s = tb1 nx ny nz xs ys zs t ∧
      tb2 nx ny nz xs ys zs s = tb2 nx ny nz xs ys zs t ∧ grid2 xs ys zs s = grid2 xs ys zs t := by
  cases s <;> cases t <;> first | exact absurd hp (by decide) | exact ⟨rfl, rfl, rfl, rfl⟩

theorem metric_both (he : SmoothEl3 e) (he' : SmoothEl3 e') (hp : parallel3 s t = true) {c : Fin 3 → ℝ}
    (hm : ∀ σ ∈ Ref, ∀ τ ∈ Ref, e.map (onSide3 s σ τ) = e'.map (onSide3 t σ τ) + c) {a b : ℝ} (ha : a ∈ Ref) (hb : b ∈ Ref) :
    metric e s a b = metric e' t a b := by
  have key := fun i => tangent_agree3 he he' hm ha hb i
  have hj : ∀ i k, jac e s a b i k = jac e' t a b i k := by
    intro i k
    have := key i
    cases s <;> cases t <;> first
      | (exact absurd hp (by decide))
      | (simp only [fst3, snd3] at this
         fin_cases k <;> simp [jac, fullEp_eq, this])
  simp only [metric, TraceDisc.gram, hj]

/-- **C85, both elements.**  The reconstructions of 0- and 2-traces do not depend on the element the trace element is looked at
from.  Those of 1-traces do (see `c85_1_counterexample`), but not their components along the side. -/
theorem c85_both (he : SmoothEl3 e) (he' : SmoothEl3 e') (hp : parallel3 s t = true) {c : Fin 3 → ℝ}
    (hm : ∀ σ ∈ Ref, ∀ τ ∈ Ref, e.map (onSide3 s σ τ) = e'.map (onSide3 t σ τ) + c) (a : Nat → ℝ) (m : Nat)
    (h1 : (grid2 xs ys zs s m).1 ∈ Ref) (h2 : (grid2 xs ys zs s m).2 ∈ Ref) :
    rec0 nx ny nz xs ys zs s a m = rec0 nx ny nz xs ys zs t a m ∧
      rec2 nx ny nz xs ys zs e s a m = rec2 nx ny nz xs ys zs e' t a m := by
  obtain ⟨b0, _, b2, g⟩ := tb_parallel nx ny nz xs ys zs hp
  refine ⟨by rw [rec0, rec0, b0], ?_⟩
  rw [rec2, rec2, ltRec2_eq, ltRec2_eq, metricAt_grid, metricAt_grid, b2, metric_both he he' hp hm h1 h2, g]

/-- **C85, local traces.**  The reconstruction of a 2-form on side `s` of an element `e`, whose trace element belongs to side `t` of
the neighbour `e'`, is the one of the trace element provided that the neighbour has the same metric on its sides `s` and `t`: it is
evaluated at the coordinates of side `s`.  Without this it is wrong (`c85_local_counterexample`). -/
theorem c85_local_partial (he : SmoothEl3 e) (he' : SmoothEl3 e') (hp : parallel3 s t = true) {c : Fin 3 → ℝ}
    (hm : ∀ σ ∈ Ref, ∀ τ ∈ Ref, e.map (onSide3 s σ τ) = e'.map (onSide3 t σ τ) + c) (a : Nat → ℝ) (m : Nat)
    (h1 : (grid2 xs ys zs s m).1 ∈ Ref) (h2 : (grid2 xs ys zs s m).2 ∈ Ref)
    (hg : metricAt e' t (grid xs ys zs s m) = metricAt e' t (grid xs ys zs t m)) :
    ltRec2 nx ny nz xs ys zs e' s t a m = rec2 nx ny nz xs ys zs e s a m := by
  obtain ⟨_, _, b2, g⟩ := tb_parallel nx ny nz xs ys zs hp
  rw [rec2, ltRec2_eq, ltRec2_eq, hg, metricAt_grid, metricAt_grid, metric_both he he' hp hm h1 h2, g]

end both

/-! ## Cases: two skewed elements that share a side, and a tapered element beside a box -/

/-- An affine element. -/
def affEl (A : Fin 3 → Fin 3 → ℝ) (b : Fin 3 → ℝ) : Disc.Three.El ℝ where
  map v i := A i 0 * v 0 + A i 1 * v 1 + A i 2 * v 2 + b i
  J _ := A
  orth := false

theorem affEl_smooth (A : Fin 3 → Fin 3 → ℝ) (b : Fin 3 → ℝ) : SmoothEl3 (affEl A b) := by
  refine ⟨fun v _ i k => ?_, fun h => by cases h⟩
  have h := ((hasDerivAt_id (v k)).const_mul (A i k)).hasDerivWithinAt (s := Ref)
  simp only [mul_one] at h
  fin_cases k
  · have := h.add_const (A i 1 * v 1 + A i 2 * v 2 + b i)
    simp only [affEl]
    refine this.congr_of_eventuallyEq ?_ ?_
    · exact Filter.Eventually.of_forall fun t => by simp [Function.update]; ring
    · simp [Function.update]; ring
  · have := h.add_const (A i 0 * v 0 + A i 2 * v 2 + b i)
    simp only [affEl]
    refine this.congr_of_eventuallyEq ?_ ?_
    · exact Filter.Eventually.of_forall fun t => by simp [Function.update]; ring
    · simp [Function.update]; ring
  · have := h.add_const (A i 0 * v 0 + A i 1 * v 1 + b i)
    simp only [affEl]
    refine this.congr_of_eventuallyEq ?_ ?_
    · exact Filter.Eventually.of_forall fun t => by simp [Function.update]; ring
    · simp [Function.update]; ring

/-- `(x + y, y, z)`, and the element `(x + y + 2, y - x - 1, z)` behind its side S. -/
def skewA : Disc.Three.El ℝ := affEl ![![1, 1, 0], ![0, 1, 0], ![0, 0, 1]] ![0, 0, 0]
@[inherit_doc skewA] def skewB : Disc.Three.El ℝ := affEl ![![1, 1, 0], ![-1, 1, 0], ![0, 0, 1]] ![2, -1, 0]

theorem skew_meet : ∀ σ ∈ Ref, ∀ τ ∈ Ref, skewA.map (onSide3 .S σ τ) = skewB.map (onSide3 .N σ τ) + 0 := by
  intro σ _ τ _
  funext i
  fin_cases i <;> simp [skewA, skewB, affEl, onSide3] <;> ring

/-- The values of a 1-form with component 1 along the second direction, on a side of degree 1. -/
def unitDof (i : Nat) : ℝ := if i < 2 then 2 else 0

theorem unitDof_val (s : Side) (hs : s = .N ∨ s = .S) :
    einsum (tb1 [-1, 1] [-1, 1] [-1, 1] [0] [0] [0] s 0) unitDof 0 = 1 ∧
      einsum (tb1 [-1, 1] [-1, 1] [-1, 1] [0] [0] [0] s 1) (slice unitDof (num1 [-1, 1] [-1, 1] [-1, 1] s)) 0 = 0 := by
  rcases hs with rfl | rfl <;>
    simp [tb1, einsum, kron, nodeBasis, edgeBasis, lagrangeAt, edgeAt, derivAt, derivNodes, Basis.offDiag, cI, xiXj, node, slice, unitDof,
      num1, List.range_succ] <;> norm_num

/-- **The full claim fails for 1-forms**: the reconstruction on a trace element has a part along the normal, and depends on the
element the trace element is looked at from. -/
theorem c85_1_counterexample :
    rec1 [-1, 1] [-1, 1] [-1, 1] [0] [0] [0] skewA .S unitDof 0 = ![0, 1, 0] ∧
      rec1 [-1, 1] [-1, 1] [-1, 1] [0] [0] [0] skewB .N unitDof 0 = ![1 / 2, 1 / 2, 0] ∧
      dotV (rec1 [-1, 1] [-1, 1] [-1, 1] [0] [0] [0] skewA .S unitDof 0) (unitNormal skewA .S 0 0) ≠ 0 := by
  have hA : rec1 [-1, 1] [-1, 1] [-1, 1] [0] [0] [0] skewA .S unitDof 0 = ![0, 1, 0] := by
    funext c
    rw [rec1_rows, (unitDof_val .S (Or.inr rfl)).1, (unitDof_val .S (Or.inr rfl)).2]
    fin_cases c <;> simp [Metric.Three.inverse, skewA, affEl, fst3, snd3, grid]
  have hB : rec1 [-1, 1] [-1, 1] [-1, 1] [0] [0] [0] skewB .N unitDof 0 = ![1 / 2, 1 / 2, 0] := by
    funext c
    rw [rec1_rows, (unitDof_val .N (Or.inl rfl)).1, (unitDof_val .N (Or.inl rfl)).2]
    fin_cases c <;> simp [Metric.Three.inverse, skewB, affEl, fst3, snd3, grid] <;> norm_num
  refine ⟨hA, hB, ?_⟩
  rw [hA]
  have h2 := (Real.sqrt_pos.mpr (show (0 : ℝ) < 1 ^ 2 + 1 ^ 2 by norm_num)).ne'
  have : dotV ![0, 1, 0] (unitNormal skewA .S 0 0) = -1 / Real.sqrt (1 ^ 2 + 1 ^ 2) := by
    simp [dotV, unitNormal, crossV, jac, skewA, affEl]
  rw [this]
  exact div_ne_zero (by norm_num) h2

/-- `(x, (2 + x) y, z)`: a side S three times as large as its side N; and the box behind the side S. -/
def taper : Disc.Three.El ℝ where
  map v := ![v 0, (2 + v 0) * v 1, v 2]
  J v := ![![1, 0, 0], ![v 1, 2 + v 0, 0], ![0, 0, 1]]
  orth := false
@[inherit_doc taper] def behind : Disc.Three.El ℝ := affEl ![![1, 0, 0], ![0, 3, 0], ![0, 0, 1]] ![2, 0, 0]

theorem taper_smooth : SmoothEl3 taper := by
  refine ⟨fun v _ a b => ?_, fun h => by cases h⟩
  have hid := (hasDerivAt_id (v b)).hasDerivWithinAt (s := Ref)
  have hc := fun c : ℝ => (hasDerivAt_const (v b) c).hasDerivWithinAt (s := Ref)
  fin_cases a <;> fin_cases b <;> simp only [taper] <;> simp [Function.update] <;> first
    | exact hid
    | exact hc _
    | (have := (hid.const_add 2).mul_const (v 1)
       simpa using this)
    | (have := hid.const_mul (2 + v 0)
       simpa using this)

theorem taper_meet : ∀ σ ∈ Ref, ∀ τ ∈ Ref, behind.map (onSide3 .N σ τ) = taper.map (onSide3 .S σ τ) + 0 := by
  intro σ _ τ _
  funext i
  fin_cases i <;> simp [taper, behind, affEl, onSide3] <;> norm_num

/-- **The claim fails for local traces of 2-forms**: the value on side N of the box is three times too large, because the metric of
its trace element is taken at the opposite side of the tapered neighbour. -/
theorem c85_local_counterexample (c : Nat → ℝ) :
    ltRec2 [-1, 1] [-1, 1] [-1, 1] [0] [0] [0] taper .N .S c 0 = 3 * rec2 [-1, 1] [-1, 1] [-1, 1] [0] [0] [0] behind .N c 0 := by
  rw [rec2, ltRec2_eq, ltRec2_eq]
  have h1 : metricAt taper .S (grid [0] [0] [0] .N 0) = 1 := by simp [metricAt, gramAt, jacAt, grid, taper]; norm_num
  have h2 : metricAt behind .N (grid [0] [0] [0] .N 0) = 3 ^ 2 := by simp [metricAt, gramAt, jacAt, grid, behind, affEl]; norm_num
  rw [h1, h2, Real.sqrt_one, Real.sqrt_sq (by norm_num)]
  ring

/-! ## Cases that meet the hypotheses -/

theorem accepted_unit : accepted ([-1, 0, 1] : List ℝ) = true ∧ accepted ([-1, 1] : List ℝ) = true := by
  constructor <;> simp only [accepted, List.length_cons, List.length_nil, List.range_succ, List.range_zero] <;> norm_num [node]

/-- The skewed element has a matrix with determinant 1, it is not orthogonal, and the grid may hold any points: `c85_1_partial` and
`c85_2` apply on all its sides. -/
example (s : Side) (w : Nat → ℝ) : rec2 [-1, 0, 1] [-1, 1] [-1, 0, 1] [1 / 2, 1] [0, 1 / 3] [1 / 4] skewA s
    (takeAt (dofs2 2 1 2 s) w) 0 = dotV (Metric.Three.reconstruct2 skewA.orth (fun _ => skewA.J (grid [1 / 2, 1] [0, 1 / 3] [1 / 4] s 0))
      [-1, 0, 1] [-1, 1] [-1, 0, 1] [grid [1 / 2, 1] [0, 1 / 3] [1 / 4] s 0 0] [grid [1 / 2, 1] [0, 1 / 3] [1 / 4] s 0 1]
      [grid [1 / 2, 1] [0, 1 / 3] [1 / 4] s 0 2] w 0)
      (unitNormal skewA s (grid2 [1 / 2, 1] [0, 1 / 3] [1 / 4] s 0).1 (grid2 [1 / 2, 1] [0, 1 / 3] [1 / 4] s 0).2) :=
  c85_2 _ _ _ _ _ _ skewA s accepted_unit.1 accepted_unit.2 accepted_unit.1 (by intro h; cases h) w 0
    (by simp [skewA, affEl, Metric.Three.jacobian])

/-- Both skewed elements give the same values of 2-forms on the side between them. -/
example (a : Nat → ℝ) : rec2 [-1, 0, 1] [-1, 1] [-1, 0, 1] [0] [1 / 2] [1 / 4] skewA .S a 0 =
    rec2 [-1, 0, 1] [-1, 1] [-1, 0, 1] [0] [1 / 2] [1 / 4] skewB .N a 0 :=
  (c85_both _ _ _ _ _ _ (affEl_smooth _ _) (affEl_smooth _ _) rfl skew_meet a 0 (by simp [grid2, Ref]; norm_num)
    (by simp [grid2, Ref]; norm_num)).2

/-- The tapered element is orthogonal to its sides in the middle of them. -/
example : dotV (fun c => taper.J (grid [0] [0] [0] .S 0) c (nrm3 .S)) (fun c => taper.J (grid [0] [0] [0] .S 0) c (fst3 .S)) = 0 ∧
    dotV (fun c => taper.J (grid [0] [0] [0] .S 0) c (nrm3 .S)) (fun c => taper.J (grid [0] [0] [0] .S 0) c (snd3 .S)) = 0 ∧
    Metric.Three.jacobian (taper.J (grid [0] [0] [0] .S 0)) ≠ 0 := by
  simp [dotV, taper, grid, nrm3, fst3, snd3, Metric.Three.jacobian]; norm_num

/-- For the skewed elements the metric is the same on all sides, so the local trace is right. -/
example (a : Nat → ℝ) : ltRec2 [-1, 0, 1] [-1, 1] [-1, 0, 1] [0] [1 / 2] [1 / 4] skewB .S .N a 0 =
    rec2 [-1, 0, 1] [-1, 1] [-1, 0, 1] [0] [1 / 2] [1 / 4] skewA .S a 0 :=
  c85_local_partial _ _ _ _ _ _ (affEl_smooth _ _) (affEl_smooth _ _) rfl skew_meet a 0 (by simp [grid2, Ref]; norm_num)
    (by simp [grid2, Ref]; norm_num) rfl

/-- The matrix of the skewed element has a positive determinant: `c84_outward` applies. -/
example : 0 < Metric.Three.jacobian (skewA.J (onSide3 .E 0 (1 / 2))) := by simp [skewA, affEl, Metric.Three.jacobian]

end Mifem.Props
