import Verif.Model.TriEnergy
import Verif.Props.TriMassCache
import Verif.Props.TriMassInt
import Verif.Props.TriMassPos
import Verif.Props.Norms

/-!
# C99: energies and norms of forms on triangular meshes
-/

namespace Mifem.Props

open Mifem.Tri Mifem.Basis Mifem.Disc Mifem.Quadrature Mifem.Vortex Finset MeasureTheory

section
variable {p : Nat} {nodes : List ℝ}

theorem values_point (k : Kind) (xs ys : List ℝ) (e : FormElt ℝ) (m c : Nat) :
    values k p nodes xs ys e m c = values k p nodes [(Basis.Two.meshgrid xs ys c).1] [(Basis.Two.meshgrid xs ys c).2] e m 0 := by
  obtain ⟨h0, h1, h2, h3⟩ := c97_meshgrid p nodes xs ys e.T e.pts e.w c
  cases k with
  | zero => exact h0
  | inner => exact congrFun h1 _
  | outer => exact congrFun h2 _
  | two => exact h3

theorem elementEnergy_grid (n : Nat) (k : Kind) (r : Rule ℝ) (e : FormElt ℝ) :
    elementEnergy n k p nodes r e =
      gridSum r fun x y => (∑ i ∈ range k.comps, values k p nodes [x] [y] e i 0 ^ n) * detAt e.pts x y := by
  rw [← grid_sum]
  simp only [elementEnergy, range_map_sum, rpts_length, two_jacobian]
  refine sum_congr rfl fun m _ => ?_
  rw [sum_congr rfl fun i _ => by rw [values_point]]
  ring

theorem Poly2.pow {d : Nat} {F : ℝ → ℝ → ℝ} (h : Poly2 d F) (n : Nat) : Poly2 (n * d) fun x y => F x y ^ n := by
  induction n with
  | zero => simpa using Poly2.const 0 1
  | succ n ih => exact ((ih.mul h).mono (by rw [Nat.succ_mul])).congr fun x y => pow_succ _ _

theorem poly_values (h : TriNodes p nodes) {k : Kind} (hk : k ≠ .two) {e : FormElt ℝ} (hpos : 0 < cross (e.pts 0) (e.pts 1) (e.pts 2))
    (m : Nat) : ∃ F, Poly2 p F ∧ ∀ x y, -1 < y → values k p nodes [x] [y] e m 0 = F x y := by
  cases k with
  | zero => exact ⟨_, poly_recon0 h e.w, fun _ _ _ => rfl⟩
  | inner => exact poly_reconInner h e.T hpos e.w _
  | outer => exact poly_reconOuter h e.T hpos e.w _
  | two => exact absurd rfl hk

/-- Gauss quadrature of degree `d` of a function that agrees with a polynomial away from the singular vertex. -/
theorem exact_degree {d D : Nat} {gauss : Nat → Rule ℝ} (hg : ∀ d, GaussRule (d + 1) (gauss d)) {F G : ℝ → ℝ → ℝ} (hG : Poly2 D G)
    (hd : D ≤ 2 * d + 1) (h : ∀ x y, -1 < y → F x y = G x y) : gridSum (gauss d) F = squareInt F := by
  rw [gridSum_congr (hg d) h, squareInt_congr h]
  exact poly2_exact (gauss_integrates (hg d)) (hG.mono (by omega))

theorem element_energy_integral (h : TriNodes p nodes) {k : Kind} (hk : k ≠ .two) {gauss : Nat → Rule ℝ} (hg : ∀ d, GaussRule (d + 1) (gauss d))
    {n d : Nat} (hd : n * p ≤ 2 * d) {e : FormElt ℝ} (hpos : 0 < cross (e.pts 0) (e.pts 1) (e.pts 2)) (φ : (Fin 2 → ℝ) → Nat → ℝ)
    (hφ : ∀ v ∈ openSquare, ∀ i < k.comps, φ (mapping e.pts v) i = values k p nodes [v 0] [v 1] e i 0) :
    elementEnergy n k p nodes (gauss d) e = ∫ x in insideTri e.pts, ∑ i ∈ range k.comps, φ x i ^ n := by
  choose F hF eF using fun m => poly_values h hk hpos m
  have hP : Poly2 (n * p + 1) fun x y => (∑ i ∈ range k.comps, F i x y ^ n) * detAt e.pts x y :=
    (Poly2.sum (range k.comps) (fun i x y => F i x y ^ n) fun i _ => (hF i).pow n).mul (poly_det e.pts)
  rw [elementEnergy_grid, exact_degree hg hP (by omega) fun x y hy => by simp only [eF _ x y hy]]
  rw [triangle_integral hpos hP _ fun v hv => ?_]
  · exact squareInt_congr fun x y hy => by simp only [eF _ x y hy]
  · rw [sum_congr rfl fun i hi => by rw [hφ v hv i (mem_range.1 hi), eF i _ _ (hv 1).1]]

/-- **C99, energies.**  `compute_Ln_energy` of a 0- or 1-form is the integral of the `n`-th powers of its components over the
triangles of all cores, for every quadrature degree `d` with `n p ≤ 2 d`; in particular the energy for `n = 2` with the default
degree `p + 1`. -/
theorem c99_energy (h : TriNodes p nodes) {k : Kind} (hk : k ≠ .two) {gauss : Nat → Rule ℝ} (hg : ∀ d, GaussRule (d + 1) (gauss d))
    {n : Nat} (hn : 1 ≤ n) {d : Option Nat} (hd : n * p ≤ 2 * d.getD (p + 1)) (cores : List (List (FormElt ℝ)))
    (hpos : ∀ e ∈ cores.flatten, 0 < cross (e.pts 0) (e.pts 1) (e.pts 2)) (φ : FormElt ℝ → (Fin 2 → ℝ) → Nat → ℝ)
    (hφ : ∀ e ∈ cores.flatten, ∀ v ∈ openSquare, ∀ i < k.comps, φ e (mapping e.pts v) i = values k p nodes [v 0] [v 1] e i 0) :
    lnEnergy gauss n k p nodes d cores =
      some (cores.flatten.map fun e => ∫ x in insideTri e.pts, ∑ i ∈ range k.comps, φ e x i ^ n).sum := by
  rw [lnEnergy, if_neg (by omega)]
  rw [List.map_flatten, List.sum_flatten, List.map_map]
  refine congrArg some (congrArg List.sum (List.map_congr_left fun es hes => ?_))
  refine congrArg List.sum (List.map_congr_left fun e he => ?_)
  have hm : e ∈ cores.flatten := List.mem_flatten.2 ⟨es, hes, he⟩
  exact element_energy_integral h hk hg hd (hpos e hm) (φ e) (hφ e hm)

/-! ## Positivity -/

/-- The number of local dofs. -/
def kindDofs (p : Nat) : Kind → Nat
  | .zero => 1 + p * (p + 1)
  | .inner => p ^ 2 + p * (p + 1)
  | .outer => p * (p + 1) + p ^ 2
  | .two => p * p

/-- A form vanishes if its values at enough Gauss points do. -/
theorem values_zero (h : TriNodes p nodes) (k : Kind) {n : Nat} {r : Rule ℝ} (hr : GaussRule n r) (hn : p + 1 ≤ n) {e : FormElt ℝ}
    (hT : ∀ r, e.T r = 1 ∨ e.T r = -1) (hpos : 0 < cross (e.pts 0) (e.pts 1) (e.pts 2))
    (h0 : ∀ i < k.comps, ∀ c < r.n * r.n, values k p nodes (rpts r) (rpts r) e i c = 0) : ∀ i < kindDofs p k, e.w i = 0 := by
  have hE : Enough nodes (rpts r) := gauss_enough h.acc hr (by rw [h.len]; omega)
  have hl := rpts_length r
  have hT' : ∀ r, e.T r ≠ 0 := fun r => by rcases hT r with e | e <;> rw [e] <;> decide
  cases k with
  | zero =>
    intro i hi
    refine unisolvent_zero h hE hE e.w (fun c hc => ?_) i (by rw [rows_zero h]; exact hi)
    rw [cols_zero, hl] at hc
    exact h0 0 (by decide) c hc
  | inner =>
    intro i hi
    have hz : ∀ c < r.n * r.n, einsum (basisInner nodes e.T (rpts r) (rpts r)).1 e.w c = 0 ∧
        einsum (basisInner nodes e.T (rpts r) (rpts r)).2 (slice e.w (p ^ 2)) c = 0 := by
      intro c hc
      have hd := grid_det hpos hr hc
      rw [← two_jacobian] at hd
      refine inner_zero hd.ne' ?_ ?_
      · simpa [values, reconInner, inverseAt, gridJ] using h0 0 (by decide) c hc
      · simpa [values, reconInner, inverseAt, gridJ] using h0 1 (by decide) c hc
    have hR : (basisDx nodes (rpts r) (rpts r)).rows = p ^ 2 := (sizes_inner h e.T _ _).1
    have hR' : (basisDy nodes (rpts r) (rpts r)).rows = p * (p + 1) := by
      simp [basisDy, kron, nodeBasis, edgeBasis, h.len]
    have hC := (sizes_inner h e.T (rpts r) (rpts r)).2.2
    rw [hl] at hC
    refine transition_zero hT' (unisolvent_dx hE hE) (unisolvent_dy hE hE) e.w (fun c hc => (hz c ?_).1) (fun c hc => ?_) i ?_
    · rw [← hC.1]; exact hc
    · rw [hR]; exact (hz c (by rw [← hC.2]; exact hc)).2
    · rw [hR, hR']; exact hi
  | outer =>
    intro i hi
    have hz : ∀ c < r.n * r.n, einsum (basisOuter nodes e.T (rpts r) (rpts r)).1 e.w c = 0 ∧
        einsum (basisOuter nodes e.T (rpts r) (rpts r)).2 (slice e.w (p * (p + 1))) c = 0 := by
      intro c hc
      have hd := grid_det hpos hr hc
      rw [← two_jacobian] at hd
      refine outer_zero hd.ne' ?_ ?_
      · simpa [values, reconOuter, inverseAt, gridJ] using h0 0 (by decide) c hc
      · simpa [values, reconOuter, inverseAt, gridJ] using h0 1 (by decide) c hc
    have hR : (basisDy nodes (rpts r) (rpts r)).rows = p * (p + 1) := (sizes_outer h e.T _ _).1
    have hR' : (basisDx nodes (rpts r) (rpts r)).rows = p ^ 2 := (sizes_inner h e.T _ _).1
    have hC := (sizes_outer h e.T (rpts r) (rpts r)).2.2
    rw [hl] at hC
    refine transition_zero hT' (unisolvent_dy hE hE) (unisolvent_dx hE hE) e.w (fun c hc => (hz c ?_).1) (fun c hc => ?_) i ?_
    · rw [← hC.1]; exact hc
    · rw [hR]; exact (hz c (by rw [← hC.2]; exact hc)).2
    · rw [hR, hR']; exact hi
  | two =>
    intro i hi
    refine unisolvent_two hE hE e.w (fun c hc => ?_) i (by rw [rows_two h]; exact hi)
    rw [cols_two, hl] at hc
    have hd := (grid_det hpos hr hc).ne'
    have := h0 0 (by decide) c hc
    rw [values, recon2_eq_grid e.pts _ _ _ c hd] at this
    exact (mul_eq_zero.1 this).resolve_left (inv_ne_zero hd)

theorem values_of_zero (k : Kind) (h : TriNodes p nodes) (xs ys : List ℝ) {e : FormElt ℝ} (h0 : ∀ i < kindDofs p k, e.w i = 0) (m c : Nat) :
    values k p nodes xs ys e m c = 0 := by
  have hz : ∀ (A : Arr ℝ) (w : Nat → ℝ), (∀ i < A.rows, w i = 0) → einsum A w c = 0 := fun A w hw => by
    rw [einsum, range_map_sum]
    exact sum_eq_zero fun i hi => by rw [hw i (mem_range.1 hi), mul_zero]
  cases k with
  | zero => exact hz _ _ fun i hi => h0 i (by rw [rows_zero h] at hi; exact hi)
  | inner =>
    have e1 := hz (basisInner nodes e.T xs ys).1 e.w fun i hi => h0 i (by rw [(sizes_inner h e.T xs ys).1] at hi; simp only [kindDofs]; omega)
    have e2 := hz (basisInner nodes e.T xs ys).2 (slice e.w (p ^ 2)) fun i hi => h0 _ (by
      rw [(sizes_inner h e.T xs ys).2.1] at hi; simp only [kindDofs]; omega)
    simp only [values, reconInner, e1, e2]
    split_ifs <;> simp
  | outer =>
    have e1 := hz (basisOuter nodes e.T xs ys).1 e.w fun i hi => h0 i (by rw [(sizes_outer h e.T xs ys).1] at hi; simp only [kindDofs]; omega)
    have e2 := hz (basisOuter nodes e.T xs ys).2 (slice e.w (p * (p + 1))) fun i hi => h0 _ (by
      rw [(sizes_outer h e.T xs ys).2.1] at hi; simp only [kindDofs]; omega)
    simp only [values, reconOuter, e1, e2]
    split_ifs <;> simp
  | two => exact hz _ _ fun i hi => h0 i (by
      have : i < (basisS2 nodes xs ys).rows := hi
      rw [rows_two h] at this; exact this)

theorem element_definite (h : TriNodes p nodes) (k : Kind) {n : Nat} (hn : Even n) (hn0 : n ≠ 0) {d : Nat} {r : Rule ℝ}
    (hr : GaussRule (d + 1) r) (hd : p ≤ d) {e : FormElt ℝ} (hT : ∀ r, e.T r = 1 ∨ e.T r = -1)
    (hpos : 0 < cross (e.pts 0) (e.pts 1) (e.pts 2)) :
    0 ≤ elementEnergy n k p nodes r e ∧ (elementEnergy n k p nodes r e = 0 ↔ ∀ i < kindDofs p k, e.w i = 0) := by
  by_cases h0 : ∀ i < kindDofs p k, e.w i = 0
  · have : elementEnergy n k p nodes r e = 0 := by
      rw [elementEnergy_grid, gridSum]
      refine sum_eq_zero fun j _ => sum_eq_zero fun i _ => ?_
      simp [values_of_zero k h _ _ h0, hn0]
    exact ⟨this.ge, fun _ => h0, fun _ => this⟩
  · have : 0 < elementEnergy n k p nodes r e := by
      rw [elementEnergy_grid]
      refine gridSum_pos hr hpos (fun _ _ => sum_nonneg fun _ _ => hn.pow_nonneg _) fun hz => h0 ?_
      refine values_zero h k hr (by omega) hT hpos fun i hi c hc => ?_
      have := (sum_eq_zero_iff_of_nonneg (fun _ _ => hn.pow_nonneg _)).1 (hz c hc) i (mem_range.2 hi)
      rw [values_point]
      exact (pow_eq_zero_iff hn0).1 this
    exact ⟨this.le, fun e => absurd e this.ne', fun e => absurd e h0⟩

/-- **C99, positive energies.**  For even `n` and a quadrature degree of at least `p` (as by default) the energy is not negative, and it
is 0 only if all local dofs of all elements are 0; this holds for all kinds of forms.  The norm is the root of the energy. -/
theorem c99_definite (h : TriNodes p nodes) (k : Kind) {gauss : Nat → Rule ℝ} (hg : ∀ d, GaussRule (d + 1) (gauss d))
    {n : Nat} (hn : Even n) (hn0 : n ≠ 0) {d : Option Nat} (hd : p ≤ d.getD (p + 1)) (cores : List (List (FormElt ℝ)))
    (hT : ∀ e ∈ cores.flatten, ∀ r, e.T r = 1 ∨ e.T r = -1)
    (hpos : ∀ e ∈ cores.flatten, 0 < cross (e.pts 0) (e.pts 1) (e.pts 2)) :
    ∃ x, lnEnergy gauss n k p nodes d cores = some x ∧ 0 ≤ x ∧ triNorm gauss n k p nodes d cores = .val (x ^ (1 / (n : ℝ))) ∧
      (x = 0 ↔ ∀ e ∈ cores.flatten, ∀ i < kindDofs p k, e.w i = 0) ∧
      (x ^ (1 / (n : ℝ)) = 0 ↔ ∀ e ∈ cores.flatten, ∀ i < kindDofs p k, e.w i = 0) := by
  have hx : lnEnergy gauss n k p nodes d cores =
      some (cores.flatten.map (elementEnergy n k p nodes (gauss (d.getD (p + 1))))).sum := by
    rw [lnEnergy, if_neg hn0, List.map_flatten, List.sum_flatten, List.map_map]
    rfl
  set x := (cores.flatten.map (elementEnergy n k p nodes (gauss (d.getD (p + 1))))).sum with hxd
  have hD := fun e he => element_definite h k hn hn0 (hg (d.getD (p + 1))) hd (hT e he) (hpos e he)
  have x0 : 0 ≤ x := List.sum_nonneg fun y hy => by
    obtain ⟨e, he, rfl⟩ := List.mem_map.1 hy
    exact (hD e he).1
  have hz : x = 0 ↔ ∀ e ∈ cores.flatten, ∀ i < kindDofs p k, e.w i = 0 := by
    have : ∀ l : List (FormElt ℝ), (∀ e ∈ l, e ∈ cores.flatten) →
        ((l.map (elementEnergy n k p nodes (gauss (d.getD (p + 1))))).sum = 0 ↔ ∀ e ∈ l, ∀ i < kindDofs p k, e.w i = 0) := by
      intro l
      induction l with
      | nil => simp
      | cons e l ih =>
        intro hl
        have he := hD e (hl e (by simp))
        have hl' : ∀ e ∈ l, e ∈ cores.flatten := fun e he => hl e (by simp [he])
        have nn : 0 ≤ (l.map (elementEnergy n k p nodes (gauss (d.getD (p + 1))))).sum := List.sum_nonneg fun y hy => by
          obtain ⟨e, he, rfl⟩ := List.mem_map.1 hy
          exact (hD e (hl' e he)).1
        rw [List.map_cons, List.sum_cons, add_eq_zero_iff_of_nonneg he.1 nn, ih hl', he.2]
        simp
    exact this _ fun _ h => h
  refine ⟨x, hx, x0, ?_, hz, ?_⟩
  · have n1 : n ≠ 1 := by rintro rfl; exact absurd hn (by decide)
    rw [triNorm, hx]
    show Norms.npRoot x n = _
    rw [Norms.npRoot, if_neg hn0, if_neg n1, if_neg (not_lt.2 x0)]
  · rw [Real.rpow_eq_zero x0 (by positivity), hz]

/-- **C99, distribution.**  Energies and errors do not depend on how the elements are distributed. -/
theorem c99_distribution (gauss : Nat → Rule ℝ) (n : Nat) (k : Kind) (p : Nat) (nodes : List ℝ) (d : Option Nat) (f : Nat → (Fin 2 → ℝ) → ℝ)
    {cores cores' : List (List (FormElt ℝ))} (h : cores.flatten.Perm cores'.flatten) :
    lnEnergy gauss n k p nodes d cores = lnEnergy gauss n k p nodes d cores' ∧
    triErrorL gauss n k p nodes d f cores = triErrorL gauss n k p nodes d f cores' := by
  constructor
  · have e : ∀ cs : List (List (FormElt ℝ)), (cs.map fun es => (es.map (elementEnergy n k p nodes (gauss (d.getD (p + 1))))).sum).sum =
        (cs.flatten.map (elementEnergy n k p nodes (gauss (d.getD (p + 1))))).sum := fun cs => by
      rw [List.map_flatten, List.sum_flatten, List.map_map]; rfl
    simp only [lnEnergy, e, (h.map _).sum_eq]
  · refine (c76_distribution (n := n) ?_).1
    rw [← List.map_flatten, ← List.map_flatten]
    exact h.map _

end

end Mifem.Props
