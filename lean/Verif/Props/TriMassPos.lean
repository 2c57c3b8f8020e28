import Verif.Props.TriMass

/-!
# C98: the mass matrices on triangles are symmetric positive definite
-/

namespace Mifem.Props

open Mifem.Tri Mifem.Basis Mifem.Metric Mifem.Disc Mifem.Quadrature Mifem.Vortex Finset

section
variable {p : Nat} {nodes : List ℝ}

theorem unisolvent_from {A : Arr ℝ} (h : Unisolvent A) (k : Nat) : Unisolvent (rowsFrom k A) := by
  intro w hw i hi
  have hi' : i < A.rows - k := hi
  have := h (fun r => if r < k then 0 else w (r - k)) (fun c hc => ?_) (k + i) (by omega)
  · simpa using this
  · have e := hw c hc
    simp only [einsum, range_map_sum, rowsFrom] at e ⊢
    have hk : A.rows = k + (A.rows - k) := by omega
    rw [hk, sum_range_add, sum_eq_zero, zero_add]
    · refine Eq.trans (sum_congr rfl fun r _ => ?_) e
      rw [if_neg (by omega), Nat.add_sub_cancel_left]
    · intro r hr
      rw [if_pos (mem_range.1 hr), mul_zero]

theorem unisolvent_dx {xs ys : List ℝ} (hx : Enough nodes xs) (hy : Enough nodes ys) : Unisolvent (basisDx nodes xs ys) :=
  unisolvent_kron (unisolvent_from hy.node 1) hx.edge
theorem unisolvent_dy {xs ys : List ℝ} (hx : Enough nodes xs) (hy : Enough nodes ys) : Unisolvent (basisDy nodes xs ys) :=
  unisolvent_kron hy.edge hx.node
theorem unisolvent_two {xs ys : List ℝ} (hx : Enough nodes xs) (hy : Enough nodes ys) : Unisolvent (basisS2 nodes xs ys) :=
  unisolvent_kron hy.edge hx.edge

theorem unisolvent_zero (h : TriNodes p nodes) {xs ys : List ℝ} (hx : Enough nodes xs) (hy : Enough nodes ys) :
    Unisolvent (basisS0 nodes xs ys) := by
  intro w hw r hr
  rw [rows_zero h] at hr
  have hu := unisolvent_kron hy.node hx.node (fun r => w (ln0 p (r % (p + 1)) (r / (p + 1)))) (fun c hc => ?_)
  · have hrows : (kron (nodeBasis nodes ys) (nodeBasis nodes xs)).rows = (p + 1) * (p + 1) := by
      simp [kron, nodeBasis, h.len]
    rw [hrows] at hu
    rcases Nat.eq_zero_or_pos r with rfl | h0
    · have := hu 0 (by positivity)
      simpa [ln0_eq] using this
    · have := hu (p + r) (by nlinarith)
      beta_reduce at this
      have e : ln0 p ((p + r) % (p + 1)) ((p + r) / (p + 1)) = r := by
        have hd : 1 ≤ (p + r) / (p + 1) := (Nat.one_le_div_iff (by omega)).2 (by omega)
        rw [ln0_eq, if_neg (by omega)]
        have := Nat.div_add_mod (p + r) (p + 1)
        obtain ⟨k, hk⟩ : ∃ k, (p + r) / (p + 1) = k + 1 := ⟨(p + r) / (p + 1) - 1, by omega⟩
        rw [hk] at this ⊢
        simp only [Nat.add_sub_cancel]
        nlinarith
      rwa [e] at this
  · have hc' : c < (basisS0 nodes xs ys).cols := by rw [cols_zero]; exact hc
    have e := hw c hc'
    have g := (c97_meshgrid p nodes xs ys (fun _ => 1) (fun _ => (0, 0)) w c).1
    rw [recon0] at g
    rw [g, recon0_sum h] at e
    have l1 : (nodeBasis nodes ys).rows = p + 1 := h.len
    have l2 : (nodeBasis nodes xs).rows = p + 1 := h.len
    have hc2 : c < ys.length * xs.length := hc
    have hx0 : 0 < xs.length := Nat.pos_of_ne_zero fun h => by simp [h] at hc2
    have ec : c = fIdx2 (nodeBasis nodes xs).cols (c % xs.length) (c / xs.length) := by
      show c = c % xs.length + xs.length * (c / xs.length)
      rw [Nat.mod_add_div]
    rw [ec, einsum_kron (nodeBasis nodes ys) (nodeBasis nodes xs) _ (a := c % xs.length) (Nat.mod_lt _ hx0), l1, l2]
    refine Eq.trans (sum_congr rfl fun j hj => sum_congr rfl fun i hi => ?_) e
    have hi := mem_range.1 hi
    have e1 : fIdx2 (p + 1) i j % (p + 1) = i := by rw [fIdx2, Nat.add_mul_mod_self_left, Nat.mod_eq_of_lt hi]
    have e2 : fIdx2 (p + 1) i j / (p + 1) = j := by
      rw [fIdx2, Nat.add_mul_div_left _ _ (by omega), Nat.div_eq_of_lt hi, Nat.zero_add]
    rw [e1, e2]
    rfl

/-- Two blocks of a 1-form with a transition matrix. -/
theorem transition_zero {T : Nat → Int} (hT : ∀ r, T r ≠ 0) {A B : Arr ℝ} (hA : Unisolvent A) (hB : Unisolvent B) (w : Nat → ℝ)
    (h1 : ∀ c < A.cols, einsum (withTransition T (A, B)).1 w c = 0)
    (h2 : ∀ c < B.cols, einsum (withTransition T (A, B)).2 (slice w A.rows) c = 0) : ∀ i < A.rows + B.rows, w i = 0 := by
  have e := einsum_transition T A B w
  have nz : ∀ r, (T r : ℝ) * w r = 0 → w r = 0 := fun r h => (mul_eq_zero.1 h).resolve_left (by exact_mod_cast hT r)
  intro i hi
  by_cases hc : i < A.rows
  · exact nz i (hA _ (fun c hc => (e c).1 ▸ h1 c hc) i hc)
  · have := hB _ (fun c hc => (e c).2 ▸ h2 c hc) (i - A.rows) (by omega)
    simp only [slice] at this
    rw [show A.rows + (i - A.rows) = i by omega] at this
    exact nz i this

theorem weight_pos {n : Nat} {r : Rule ℝ} (hr : GaussRule n r) {m : Nat} (hm : m < r.n * r.n) : 0 < ravelWeight [r, r] m := by
  obtain ⟨i, hi, j, hj, rfl⟩ := grid_index hm
  rw [ravel2 r hi hj]
  exact mul_pos (gauss_pos hr (hr.1 ▸ hi)) (gauss_pos hr (hr.1 ▸ hj))

/-- A quadrature of squares is positive unless the values vanish at all points. -/
theorem gridSum_pos {n : Nat} {r : Rule ℝ} (hr : GaussRule n r) {pts : Fin 3 → ℝ × ℝ} (hpos : 0 < cross (pts 0) (pts 1) (pts 2))
    {N : ℝ → ℝ → ℝ} (hN : ∀ x y, 0 ≤ N x y)
    (hne : ¬ ∀ m < r.n * r.n, N (Basis.Two.meshgrid (rpts r) (rpts r) m).1 (Basis.Two.meshgrid (rpts r) (rpts r) m).2 = 0) :
    0 < gridSum r fun x y => N x y * detAt pts x y := by
  rw [← grid_sum]
  have := sum_pos_of (n := r.n * r.n) (q := fun m => ravelWeight [r, r] m *
      detAt pts (Basis.Two.meshgrid (rpts r) (rpts r) m).1 (Basis.Two.meshgrid (rpts r) (rpts r) m).2)
    (F := fun m => N (Basis.Two.meshgrid (rpts r) (rpts r) m).1 (Basis.Two.meshgrid (rpts r) (rpts r) m).2)
    (fun m hm => mul_pos (weight_pos hr hm) (grid_det hpos hr hm)) (fun m _ => hN _ _) (by push Not at hne; exact hne)
  refine lt_of_lt_of_eq this (sum_congr rfl fun m _ => by ring)

/-- The coefficients vanish with the vector. -/
theorem inner_zero {J : M2 ℝ} (hJ : Metric.Two.jacobian J ≠ 0) {u v : ℝ}
    (h0 : u * Metric.Two.inverse J 0 0 + v * Metric.Two.inverse J 1 0 = 0)
    (h1 : u * Metric.Two.inverse J 0 1 + v * Metric.Two.inverse J 1 1 = 0) : u = 0 ∧ v = 0 := by
  have inv := two_inv_mul _ hJ
  have m00 := congrFun (congrFun inv 0) 0
  have m01 := congrFun (congrFun inv 0) 1
  have m10 := congrFun (congrFun inv 1) 0
  have m11 := congrFun (congrFun inv 1) 1
  simp [Matrix.mul_apply, Fin.sum_univ_two] at m00 m01 m10 m11
  constructor
  · linear_combination h0 * J 0 0 + h1 * J 1 0 - u * m00 - v * m10
  · linear_combination h0 * J 0 1 + h1 * J 1 1 - u * m01 - v * m11

theorem outer_zero {J : M2 ℝ} (hJ : Metric.Two.jacobian J ≠ 0) {u v : ℝ}
    (h0 : u * Metric.Two.inverse J 1 1 - v * Metric.Two.inverse J 0 1 = 0)
    (h1 : -u * Metric.Two.inverse J 1 0 + v * Metric.Two.inverse J 0 0 = 0) : u = 0 ∧ v = 0 := by
  have inv := two_inv_mul _ hJ
  have m00 := congrFun (congrFun inv 0) 0
  have m01 := congrFun (congrFun inv 0) 1
  have m10 := congrFun (congrFun inv 1) 0
  have m11 := congrFun (congrFun inv 1) 1
  simp [Matrix.mul_apply, Fin.sum_univ_two] at m00 m01 m10 m11
  constructor
  · linear_combination h0 * J 1 1 - h1 * J 0 1 - u * m11 + v * m01
  · linear_combination h1 * J 0 0 - h0 * J 1 0 + u * m10 - v * m00

/-- **C98, symmetry.** -/
theorem c98_symmetric (h : TriNodes p nodes) (T : Nat → Int) {pts : Fin 3 → ℝ × ℝ} (hpos : 0 < cross (pts 0) (pts 1) (pts 2))
    {gauss : Nat → Rule ℝ} (hg : ∀ d, GaussRule (d + 1) (gauss d)) :
    (∀ i < 1 + p * (p + 1), ∀ j < 1 + p * (p + 1), massZero gauss p nodes pts i j = massZero gauss p nodes pts j i) ∧
    (∀ i < p ^ 2 + p * (p + 1), ∀ j < p ^ 2 + p * (p + 1), massOneInner gauss p nodes T pts i j = massOneInner gauss p nodes T pts j i) ∧
    (∀ i < p * (p + 1) + p ^ 2, ∀ j < p * (p + 1) + p ^ 2, massOneOuter gauss p nodes T pts i j = massOneOuter gauss p nodes T pts j i) ∧
    ∀ i < p * p, ∀ j < p * p, massTwo gauss p nodes pts i j = massTwo gauss p nodes pts j i := by
  refine ⟨fun i hi j hj => symm_of_form _ _ (fun a b => ?_) i j hi hj, fun i hi j hj => symm_of_form _ _ (fun a b => ?_) i j hi hj,
    fun i hi j hj => symm_of_form _ _ (fun a b => ?_) i j hi hj, fun i hi j hj => symm_of_form _ _ (fun a b => ?_) i j hi hj⟩
  · rw [form_zero h, form_zero h]; congr 1; funext x y; ring
  · rw [form_inner h, form_inner h]; congr 1; funext x y; simp only [Fin.sum_univ_two]; ring
  · rw [form_outer h, form_outer h]; congr 1; funext x y; simp only [Fin.sum_univ_two]; ring
  · rw [form_two h hpos hg, form_two h hpos hg]; congr 1; funext x y; ring

/-- **C98, positive definite.**  The local mass matrices are positive definite on every triangle that is not degenerate. -/
theorem c98_positive (h : TriNodes p nodes) {T : Nat → Int} (hT : ∀ r, T r = 1 ∨ T r = -1) {pts : Fin 3 → ℝ × ℝ}
    (hpos : 0 < cross (pts 0) (pts 1) (pts 2)) {gauss : Nat → Rule ℝ} (hg : ∀ d, GaussRule (d + 1) (gauss d)) :
    PosDefN (1 + p * (p + 1)) (massZero gauss p nodes pts) ∧
    PosDefN (p ^ 2 + p * (p + 1)) (massOneInner gauss p nodes T pts) ∧
    PosDefN (p * (p + 1) + p ^ 2) (massOneOuter gauss p nodes T pts) ∧
    PosDefN (p * p) (massTwo gauss p nodes pts) := by
  have hr : GaussRule (p + 2) (gauss (p + 1)) := hg (p + 1)
  have hE : Enough nodes (rpts (gauss (p + 1))) := gauss_enough h.acc hr (by rw [h.len]; omega)
  have hl := rpts_length (gauss (p + 1))
  have hT' : ∀ r, T r ≠ 0 := fun r => by rcases hT r with e | e <;> rw [e] <;> decide
  refine ⟨fun a ha => ?_, fun a ha => ?_, fun a ha => ?_, fun a ha => ?_⟩ <;> obtain ⟨i0, hi0, hne⟩ := ha
  · rw [form_zero h]
    refine gridSum_pos hr hpos (fun _ _ => mul_self_nonneg _) fun h0 => hne ?_
    refine unisolvent_zero h hE hE a (fun c hc => ?_) i0 (by rw [rows_zero h]; exact hi0)
    rw [cols_zero, hl] at hc
    have g := (c97_meshgrid p nodes (rpts (gauss (p + 1))) (rpts (gauss (p + 1))) T pts a c).1
    exact g.trans (mul_self_eq_zero.1 (h0 c hc))
  · rw [form_inner h]
    refine gridSum_pos hr hpos (fun _ _ => sum_nonneg fun k _ => mul_self_nonneg _) fun h0 => hne ?_
    have hz : ∀ c < (gauss (p + 1)).n * (gauss (p + 1)).n,
        einsum (basisInner nodes T (rpts (gauss (p + 1))) (rpts (gauss (p + 1)))).1 a c = 0 ∧
        einsum (basisInner nodes T (rpts (gauss (p + 1))) (rpts (gauss (p + 1)))).2 (slice a (p ^ 2)) c = 0 := by
      intro c hc
      have h0 := h0 c hc
      rw [sum_eq_zero_iff_of_nonneg (fun k _ => mul_self_nonneg _)] at h0
      have g := (c97_meshgrid p nodes (rpts (gauss (p + 1))) (rpts (gauss (p + 1))) T pts a c).2.1
      have v0 := mul_self_eq_zero.1 (h0 0 (mem_univ _))
      have v1 := mul_self_eq_zero.1 (h0 1 (mem_univ _))
      rw [← g] at v0 v1
      have hd := grid_det hpos hr hc
      rw [← two_jacobian] at hd
      refine inner_zero hd.ne' ?_ ?_
      · simpa [reconInner, inverseAt, gridJ] using v0
      · simpa [reconInner, inverseAt, gridJ] using v1
    have hR : (basisDx nodes (rpts (gauss (p + 1))) (rpts (gauss (p + 1)))).rows = p ^ 2 := (sizes_inner h T _ _).1
    have hR' : (basisDy nodes (rpts (gauss (p + 1))) (rpts (gauss (p + 1)))).rows = p * (p + 1) := by
      simp [basisDy, kron, nodeBasis, edgeBasis, h.len]
    have hC := (sizes_inner h T (rpts (gauss (p + 1))) (rpts (gauss (p + 1)))).2.2
    rw [hl] at hC
    refine transition_zero hT' (unisolvent_dx hE hE) (unisolvent_dy hE hE) a (fun c hc => (hz c ?_).1) (fun c hc => ?_) i0 ?_
    · rw [← hC.1]; exact hc
    · rw [hR]; exact (hz c (by rw [← hC.2]; exact hc)).2
    · rw [hR, hR']; exact hi0
  · rw [form_outer h]
    refine gridSum_pos hr hpos (fun _ _ => sum_nonneg fun k _ => mul_self_nonneg _) fun h0 => hne ?_
    have hz : ∀ c < (gauss (p + 1)).n * (gauss (p + 1)).n,
        einsum (basisOuter nodes T (rpts (gauss (p + 1))) (rpts (gauss (p + 1)))).1 a c = 0 ∧
        einsum (basisOuter nodes T (rpts (gauss (p + 1))) (rpts (gauss (p + 1)))).2 (slice a (p * (p + 1))) c = 0 := by
      intro c hc
      have h0 := h0 c hc
      rw [sum_eq_zero_iff_of_nonneg (fun k _ => mul_self_nonneg _)] at h0
      have g := (c97_meshgrid p nodes (rpts (gauss (p + 1))) (rpts (gauss (p + 1))) T pts a c).2.2.1
      have v0 := mul_self_eq_zero.1 (h0 0 (mem_univ _))
      have v1 := mul_self_eq_zero.1 (h0 1 (mem_univ _))
      rw [← g] at v0 v1
      have hd := grid_det hpos hr hc
      rw [← two_jacobian] at hd
      refine outer_zero hd.ne' ?_ ?_
      · simpa [reconOuter, inverseAt, gridJ] using v0
      · simpa [reconOuter, inverseAt, gridJ] using v1
    have hR : (basisDy nodes (rpts (gauss (p + 1))) (rpts (gauss (p + 1)))).rows = p * (p + 1) := (sizes_outer h T _ _).1
    have hR' : (basisDx nodes (rpts (gauss (p + 1))) (rpts (gauss (p + 1)))).rows = p ^ 2 := (sizes_inner h T _ _).1
    have hC := (sizes_outer h T (rpts (gauss (p + 1))) (rpts (gauss (p + 1)))).2.2
    rw [hl] at hC
    refine transition_zero hT' (unisolvent_dy hE hE) (unisolvent_dx hE hE) a (fun c hc => (hz c ?_).1) (fun c hc => ?_) i0 ?_
    · rw [← hC.1]; exact hc
    · rw [hR]; exact (hz c (by rw [← hC.2]; exact hc)).2
    · rw [hR, hR']; exact hi0
  · rw [form_two h hpos hg]
    refine gridSum_pos hr hpos (fun _ _ => mul_self_nonneg _) fun h0 => hne ?_
    refine unisolvent_two hE hE a (fun c hc => ?_) i0 (by rw [rows_two h]; exact hi0)
    rw [cols_two, hl] at hc
    have g := (c97_meshgrid p nodes (rpts (gauss (p + 1))) (rpts (gauss (p + 1))) T pts a c).2.2.2
    have e := mul_self_eq_zero.1 (h0 c hc)
    have hd := (grid_det hpos hr hc).ne'
    rw [← g, recon2_eq_grid pts _ _ _ c hd] at e
    exact (mul_eq_zero.1 e).resolve_left (inv_ne_zero hd)

end

end Mifem.Props
