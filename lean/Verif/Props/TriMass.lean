import Verif.Model.TriMass
import Verif.Props.TriRecCont
import Verif.Props.Vortex

/-!
# C98: mass matrices of forms on triangular meshes
-/

namespace Mifem.Props

open Mifem.Tri Mifem.Basis Mifem.Disc Mifem.Quadrature Mifem.Vortex Finset Polynomial

/-! ## Bilinear forms as sums over the quadrature points -/

section
variable {p : Nat} {nodes : List ℝ}

/-- A sum over the raveled tensor grid. -/
noncomputable def gridSum (r : Rule ℝ) (F : ℝ → ℝ → ℝ) : ℝ :=
  ∑ j ∈ range r.n, ∑ i ∈ range r.n, r.w i * r.w j * F (r.x i) (r.x j)

theorem ravel2 (r : Rule ℝ) {i j : Nat} (hi : i < r.n) (hj : j < r.n) :
    ravelWeight [r, r] (j * r.n + i) = r.w i * r.w j := by
  have h1 : (j * r.n + i) % r.n = i := by rw [Nat.mul_add_mod_self_right, Nat.mod_eq_of_lt hi]
  have h2 : (j * r.n + i) / r.n = j := by
    rw [Nat.mul_comm, Nat.mul_add_div (by omega), Nat.div_eq_of_lt hi, Nat.add_zero]
  simp [ravelWeight, unravelF, tensorWeights, weightLoop, tensordot, h1, h2, Nat.mod_eq_of_lt hj]

theorem tri_grid_point (r : Rule ℝ) {i j : Nat} (hi : i < r.n) (hj : j < r.n) :
    Basis.Two.meshgrid (rpts r) (rpts r) (j * r.n + i) = (r.x i, r.x j) := by
  have h1 : (j * r.n + i) % r.n = i := by rw [Nat.mul_add_mod_self_right, Nat.mod_eq_of_lt hi]
  have h2 : (j * r.n + i) / r.n = j := by
    rw [Nat.mul_comm, Nat.mul_add_div (by omega), Nat.div_eq_of_lt hi, Nat.add_zero]
  simp only [Basis.Two.meshgrid, rpts_length, h1, h2, rpts_getD r hi, rpts_getD r hj]

theorem grid_sum (r : Rule ℝ) (F : ℝ → ℝ → ℝ) :
    ∑ m ∈ range (r.n * r.n), ravelWeight [r, r] m *
      F (Basis.Two.meshgrid (rpts r) (rpts r) m).1 (Basis.Two.meshgrid (rpts r) (rpts r) m).2 = gridSum r F := by
  rw [gridSum, sum_range_mul]
  refine sum_congr rfl fun j hj => sum_congr rfl fun i hi => ?_
  rw [fIdx2, Nat.add_comm i, Nat.mul_comm r.n, ravel2 r (mem_range.1 hi) (mem_range.1 hj), tri_grid_point r (mem_range.1 hi) (mem_range.1 hj)]

/-- The determinant of the Jacobian matrix at a point of the reference element. -/
noncomputable def detAt (pts : Fin 3 → ℝ × ℝ) (x y : ℝ) : ℝ := Matrix.det (Matrix.of (jacobianMatrix pts ![x, y]))

theorem detAt_eq (pts : Fin 3 → ℝ × ℝ) (x y : ℝ) : detAt pts x y = (y + 1) / 8 * cross (pts 0) (pts 1) (pts 2) := by
  have := jacobian_eq pts ![x, y] two_ne_zero
  simp only [jacobian, Matrix.cons_val_one, Matrix.cons_val_fin_one] at this
  rw [← this, detAt, Matrix.det_fin_two]
  rfl

theorem two_jacobian (pts : Fin 3 → ℝ × ℝ) (xs ys : List ℝ) (m : Nat) :
    Metric.Two.jacobian (gridJ pts xs ys m) = detAt pts (Basis.Two.meshgrid xs ys m).1 (Basis.Two.meshgrid xs ys m).2 := by
  rw [gridJ, Metric.two_det, detAt]

theorem cols_zero (xs ys : List ℝ) : (basisS0 nodes xs ys).cols = ys.length * xs.length := by
  simp [basisS0, vstack, sumRows, kron, row0, nodeBasis]
theorem cols_two (xs ys : List ℝ) : (basisS2 nodes xs ys).cols = ys.length * xs.length := by
  simp [basisS2, kron, edgeBasis]

/-- The number of dofs of 0-forms in an element. -/
theorem rows_zero (h : TriNodes p nodes) (xs ys : List ℝ) : (basisS0 nodes xs ys).rows = 1 + p * (p + 1) := by
  simp [basisS0, vstack, sumRows, kron, rowsFrom, nodeBasis, h.len]
theorem rows_two (h : TriNodes p nodes) (xs ys : List ℝ) : (basisS2 nodes xs ys).rows = p * p := by
  simp [basisS2, kron, edgeBasis, h.len]

theorem form_zero (h : TriNodes p nodes) (pts : Fin 3 → ℝ × ℝ) (gauss : Nat → Rule ℝ) (a b : Nat → ℝ) :
    ∑ i ∈ range (1 + p * (p + 1)), ∑ j ∈ range (1 + p * (p + 1)), a i * massZero gauss p nodes pts i j * b j =
      gridSum (gauss (p + 1)) fun x y => recon0 nodes [x] [y] a 0 * recon0 nodes [x] [y] b 0 * detAt pts x y := by
  set r := gauss (p + 1)
  have e := Metric.inner0_form (fun m => Metric.Two.jacobian (gridJ pts (rpts r) (rpts r) m)) (ravelWeight [r, r])
    (basisS0 nodes (rpts r) (rpts r)) (basisS0 nodes (rpts r) (rpts r)) a b
  rw [rows_zero h, cols_zero, rpts_length] at e
  refine Eq.trans e ?_
  rw [← grid_sum]
  refine sum_congr rfl fun m _ => ?_
  have g := fun w => (c97_meshgrid p nodes (rpts r) (rpts r) (fun _ => 1) pts w m).1
  simp only [recon0] at g
  simp only [recon0, two_jacobian, g]
  ring

theorem recon2_eq_grid (pts : Fin 3 → ℝ × ℝ) (xs ys : List ℝ) (w : Nat → ℝ) (m : Nat)
    (hd : detAt pts (Basis.Two.meshgrid xs ys m).1 (Basis.Two.meshgrid xs ys m).2 ≠ 0) :
    recon2 nodes pts xs ys w m = (detAt pts (Basis.Two.meshgrid xs ys m).1 (Basis.Two.meshgrid xs ys m).2)⁻¹ *
      einsum (basisS2 nodes xs ys) w m := by
  have i1 : Metric.Two.inverseJacobian (inverseAt pts xs ys m) =
      (detAt pts (Basis.Two.meshgrid xs ys m).1 (Basis.Two.meshgrid xs ys m).2)⁻¹ := by
    rw [← two_jacobian] at hd ⊢
    simp only [inverseAt, gridJ, Metric.Two.inverseJacobian, Metric.Two.inverse, Metric.Two.jacobian] at hd ⊢
    simp
    field_simp
  simp only [recon2, einsum, range_map_sum, i1, mul_sum]
  exact sum_congr rfl fun r _ => by ring

/-- Gauss nodes are away from the singular vertex. -/
theorem det_pos {pts : Fin 3 → ℝ × ℝ} (hpos : 0 < cross (pts 0) (pts 1) (pts 2)) {x y : ℝ} (hy : -1 < y) : 0 < detAt pts x y := by
  rw [detAt_eq]
  have : 0 < (y + 1) / 8 := by linarith
  exact mul_pos this hpos

theorem grid_index {r : Rule ℝ} {m : Nat} (hm : m < r.n * r.n) : ∃ i < r.n, ∃ j < r.n, m = j * r.n + i := by
  have h0 : 0 < r.n := Nat.pos_of_ne_zero fun h => by simp [h] at hm
  exact ⟨m % r.n, Nat.mod_lt _ h0, m / r.n, (Nat.div_lt_iff_lt_mul h0).2 hm, by rw [Nat.mul_comm]; exact (Nat.div_add_mod m r.n).symm⟩

theorem grid_det {pts : Fin 3 → ℝ × ℝ} (hpos : 0 < cross (pts 0) (pts 1) (pts 2)) {n : Nat} {r : Rule ℝ} (hr : GaussRule n r) {m : Nat}
    (hm : m < r.n * r.n) :
    0 < detAt pts (Basis.Two.meshgrid (rpts r) (rpts r) m).1 (Basis.Two.meshgrid (rpts r) (rpts r) m).2 := by
  obtain ⟨i, hi, j, hj, rfl⟩ := grid_index hm
  rw [tri_grid_point r hi hj]
  exact det_pos hpos (hr.2.1 j (hr.1 ▸ hj)).1

theorem form_two (h : TriNodes p nodes) {pts : Fin 3 → ℝ × ℝ} (hpos : 0 < cross (pts 0) (pts 1) (pts 2))
    {gauss : Nat → Rule ℝ} (hg : ∀ d, GaussRule (d + 1) (gauss d)) (a b : Nat → ℝ) :
    ∑ i ∈ range (p * p), ∑ j ∈ range (p * p), a i * massTwo gauss p nodes pts i j * b j =
      gridSum (gauss (p + 1)) fun x y => recon2 nodes pts [x] [y] a 0 * recon2 nodes pts [x] [y] b 0 * detAt pts x y := by
  set r := gauss (p + 1)
  have hr : GaussRule (p + 2) r := hg (p + 1)
  have e := Metric.innerTop_form (fun m => Metric.Two.jacobian (gridJ pts (rpts r) (rpts r) m)) (ravelWeight [r, r])
    (basisS2 nodes (rpts r) (rpts r)) (basisS2 nodes (rpts r) (rpts r)) a b (fun m hm => by
      rw [cols_two, rpts_length] at hm
      rw [two_jacobian]; exact (grid_det hpos hr hm).ne')
  rw [rows_two h, cols_two, rpts_length] at e
  refine Eq.trans e ?_
  rw [← grid_sum]
  refine sum_congr rfl fun m hm => ?_
  have g := fun w => (c97_meshgrid p nodes (rpts r) (rpts r) (fun _ => 1) pts w m).2.2.2
  have hd := (grid_det hpos hr (mem_range.1 hm)).ne'
  simp only [← g, recon2_eq_grid pts _ _ _ m hd, two_jacobian]
  ring

theorem massInner_eq (T : Nat → Int) (pts : Fin 3 → ℝ × ℝ) (xs ys : List ℝ) (q : Nat → ℝ) (i j : Nat) :
    let O : Fin 2 → Arr ℝ := ![(basisInner nodes T xs ys).1, (basisInner nodes T xs ys).2]
    massInner nodes T pts xs ys q i j = Metric.Two.innerInner1 false true (gridJ pts xs ys) q O O i j := by
  intro O
  simp only [massInner, Metric.Two.innerInner1]
  congr 1
  funext k l i j
  fin_cases k <;> fin_cases l <;> simp [O]

theorem massOuter_eq (T : Nat → Int) (pts : Fin 3 → ℝ × ℝ) (xs ys : List ℝ) (q : Nat → ℝ) (i j : Nat) :
    let O : Fin 2 → Arr ℝ := ![(basisOuter nodes T xs ys).1, (basisOuter nodes T xs ys).2]
    massOuter nodes T pts xs ys q i j = Metric.Two.innerOuter1 false true (gridJ pts xs ys) q O O i j := by
  intro O
  simp only [massOuter, Metric.Two.innerOuter1]
  congr 1
  funext k l i j
  fin_cases k <;> fin_cases l <;> simp [O]

theorem sizes_inner (h : TriNodes p nodes) (T : Nat → Int) (xs ys : List ℝ) :
    (basisInner nodes T xs ys).1.rows = p ^ 2 ∧ (basisInner nodes T xs ys).2.rows = p * (p + 1) ∧
    (basisInner nodes T xs ys).1.cols = ys.length * xs.length ∧ (basisInner nodes T xs ys).2.cols = ys.length * xs.length := by
  simp [basisInner, withTransition, basisDx, basisDy, kron, rowsFrom, vstack, nodeBasis, edgeBasis, h.len, sq]
theorem sizes_outer (h : TriNodes p nodes) (T : Nat → Int) (xs ys : List ℝ) :
    (basisOuter nodes T xs ys).1.rows = p * (p + 1) ∧ (basisOuter nodes T xs ys).2.rows = p ^ 2 ∧
    (basisOuter nodes T xs ys).1.cols = ys.length * xs.length ∧ (basisOuter nodes T xs ys).2.cols = ys.length * xs.length := by
  simp [basisOuter, withTransition, basisDx, basisDy, kron, rowsFrom, vstack, nodeBasis, edgeBasis, h.len, sq]

theorem form_inner (h : TriNodes p nodes) (T : Nat → Int) (pts : Fin 3 → ℝ × ℝ) (gauss : Nat → Rule ℝ) (a b : Nat → ℝ) :
    ∑ i ∈ range (p ^ 2 + p * (p + 1)), ∑ j ∈ range (p ^ 2 + p * (p + 1)), a i * massOneInner gauss p nodes T pts i j * b j =
      gridSum (gauss (p + 1)) fun x y => (∑ k, reconInner p nodes T pts [x] [y] a 0 k * reconInner p nodes T pts [x] [y] b 0 k) *
        detAt pts x y := by
  set r := gauss (p + 1)
  obtain ⟨s1, s2, s3, s4⟩ := sizes_inner h T (rpts r) (rpts r)
  let O : Fin 2 → Arr ℝ := ![(basisInner nodes T (rpts r) (rpts r)).1, (basisInner nodes T (rpts r) (rpts r)).2]
  have e := Metric.innerInner1_form (orth := false) (same := true) (gridJ pts (rpts r) (rpts r)) (fun m ho => by simp at ho)
    (ravelWeight [r, r]) O O (r.n * r.n) (fun k => by fin_cases k <;> simp [O, s3, s4, rpts_length]) (fun _ => rfl) a b
  simp only [O, Matrix.cons_val_zero, Matrix.cons_val_one, Matrix.cons_val_fin_one, s1, s2, ← massInner_eq] at e
  refine Eq.trans e ?_
  rw [← grid_sum]
  refine sum_congr rfl fun m hm => ?_
  have g := fun w => (c97_meshgrid p nodes (rpts r) (rpts r) T pts w m).2.1
  simp only [← g, two_jacobian]
  simp only [Fin.sum_univ_two, Metric.Two.valueInner1, reconInner, inverseAt, gridJ]
  simp
  ring

theorem form_outer (h : TriNodes p nodes) (T : Nat → Int) (pts : Fin 3 → ℝ × ℝ) (gauss : Nat → Rule ℝ) (a b : Nat → ℝ) :
    ∑ i ∈ range (p * (p + 1) + p ^ 2), ∑ j ∈ range (p * (p + 1) + p ^ 2), a i * massOneOuter gauss p nodes T pts i j * b j =
      gridSum (gauss (p + 1)) fun x y => (∑ k, reconOuter p nodes T pts [x] [y] a 0 k * reconOuter p nodes T pts [x] [y] b 0 k) *
        detAt pts x y := by
  set r := gauss (p + 1)
  obtain ⟨s1, s2, s3, s4⟩ := sizes_outer h T (rpts r) (rpts r)
  let O : Fin 2 → Arr ℝ := ![(basisOuter nodes T (rpts r) (rpts r)).1, (basisOuter nodes T (rpts r) (rpts r)).2]
  have e := Metric.innerOuter1_form (orth := false) (same := true) (gridJ pts (rpts r) (rpts r)) (fun m ho => by simp at ho)
    (ravelWeight [r, r]) O O (r.n * r.n) (fun k => by fin_cases k <;> simp [O, s3, s4, rpts_length]) (fun _ => rfl) a b
  simp only [O, Matrix.cons_val_zero, Matrix.cons_val_one, Matrix.cons_val_fin_one, s1, s2, ← massOuter_eq] at e
  refine Eq.trans e ?_
  rw [← grid_sum]
  refine sum_congr rfl fun m hm => ?_
  have g := fun w => (c97_meshgrid p nodes (rpts r) (rpts r) T pts w m).2.2.1
  simp only [← g, two_jacobian]
  simp only [Fin.sum_univ_two, Metric.Two.valueOuter1, reconOuter, inverseAt, gridJ]
  simp
  ring

end

end Mifem.Props
