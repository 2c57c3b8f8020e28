import Verif.Props.TriMass
import Mathlib.MeasureTheory.Integral.IntervalIntegral.Basic

/-!
# C98: the mass matrices are exact
-/

namespace Mifem.Props

open Mifem.Tri Mifem.Basis Mifem.Disc Mifem.Quadrature Mifem.Vortex Finset Polynomial

/-! ## Polynomials in two variables -/

/-- Sums of products of polynomials of degrees at most `d`. -/
inductive Poly2 (d : Nat) : (ℝ → ℝ → ℝ) → Prop
  | prod (f g : ℝ[X]) (hf : f.natDegree ≤ d) (hg : g.natDegree ≤ d) : Poly2 d fun x y => f.eval x * g.eval y
  | add {F G : ℝ → ℝ → ℝ} (hF : Poly2 d F) (hG : Poly2 d G) : Poly2 d fun x y => F x y + G x y

theorem Poly2.congr {d : Nat} {F G : ℝ → ℝ → ℝ} (h : Poly2 d F) (e : ∀ x y, G x y = F x y) : Poly2 d G := by
  rwa [show G = F from funext fun x => funext fun y => e x y]

theorem Poly2.const (d : Nat) (c : ℝ) : Poly2 d fun _ _ => c := by
  have := Poly2.prod (d := d) (C c) 1 (by simp) (by simp)
  simpa using this

theorem Poly2.sum {d : Nat} {ι : Type*} (s : Finset ι) (F : ι → ℝ → ℝ → ℝ) (h : ∀ i ∈ s, Poly2 d (F i)) :
    Poly2 d fun x y => ∑ i ∈ s, F i x y := by
  classical
  induction s using Finset.induction_on with
  | empty => simpa using Poly2.const d 0
  | insert a s ha ih =>
    simp only [Finset.sum_insert ha]
    exact .add (h a (by simp)) (ih fun i hi => h i (by simp [hi]))

theorem Poly2.mono {d e : Nat} (hde : d ≤ e) {F : ℝ → ℝ → ℝ} (h : Poly2 d F) : Poly2 e F := by
  induction h with
  | prod f g hf hg => exact .prod f g (hf.trans hde) (hg.trans hde)
  | add _ _ a b => exact .add a b

theorem Poly2.mul {d e : Nat} {F G : ℝ → ℝ → ℝ} (hF : Poly2 d F) (hG : Poly2 e G) : Poly2 (d + e) fun x y => F x y * G x y := by
  induction hF with
  | prod f g hf hg =>
    induction hG with
    | prod f' g' hf' hg' =>
      have := Poly2.prod (d := d + e) (f * f') (g * g') (natDegree_mul_le.trans (by omega)) (natDegree_mul_le.trans (by omega))
      exact this.congr fun x y => by simp only [eval_mul]; ring
    | add _ _ a b =>
      simp only [mul_add]
      exact .add a b
  | add _ _ a b =>
    simp only [add_mul]
    exact .add a b

theorem Poly2.smul {d : Nat} {F : ℝ → ℝ → ℝ} (c : ℝ) (h : Poly2 d F) : Poly2 d fun x y => c * F x y := by
  have := (Poly2.const 0 c).mul h
  rwa [Nat.zero_add] at this

theorem Poly2.continuous {d : Nat} {F : ℝ → ℝ → ℝ} (h : Poly2 d F) : Continuous fun v : ℝ × ℝ => F v.1 v.2 := by
  induction h with
  | prod f g _ _ => exact (f.continuous.comp continuous_fst).mul (g.continuous.comp continuous_snd)
  | add _ _ a b => exact a.add b

/-- The integral over the reference element. -/
noncomputable def squareInt (F : ℝ → ℝ → ℝ) : ℝ := ∫ y in (-1 : ℝ)..1, ∫ x in (-1 : ℝ)..1, F x y

theorem gridSum_add (r : Rule ℝ) (F G : ℝ → ℝ → ℝ) : gridSum r (fun x y => F x y + G x y) = gridSum r F + gridSum r G := by
  simp only [gridSum, mul_add, sum_add_distrib]

theorem squareInt_add {d : Nat} {F G : ℝ → ℝ → ℝ} (hF : Poly2 d F) (hG : Poly2 d G) :
    squareInt (fun x y => F x y + G x y) = squareInt F + squareInt G := by
  have c1 : ∀ {H : ℝ → ℝ → ℝ}, Poly2 d H → ∀ y, Continuous fun x => H x y := fun h y =>
    h.continuous.comp (continuous_id.prodMk continuous_const)
  have c2 : ∀ {H : ℝ → ℝ → ℝ}, Poly2 d H → Continuous fun y => ∫ x in (-1 : ℝ)..1, H x y := fun h => by
    apply intervalIntegral.continuous_parametric_intervalIntegral_of_continuous' (f := fun y x => _)
    exact h.continuous.comp continuous_swap
  unfold squareInt
  rw [← intervalIntegral.integral_add ((c2 hF).intervalIntegrable _ _) ((c2 hG).intervalIntegrable _ _)]
  congr 1
  funext y
  exact intervalIntegral.integral_add ((c1 hF y).intervalIntegrable _ _) ((c1 hG y).intervalIntegrable _ _)

/-- A rule exact up to degree `d` integrates these functions exactly. -/
theorem poly2_exact {r : Rule ℝ} {d : Nat} (hr : Integrates r d) {F : ℝ → ℝ → ℝ} (h : Poly2 d F) : gridSum r F = squareInt F := by
  induction h with
  | prod f g hf hg =>
    have e1 : gridSum r (fun x y => f.eval x * g.eval y) =
        (∑ i ∈ range r.n, r.w i * f.eval (r.x i)) * ∑ j ∈ range r.n, r.w j * g.eval (r.x j) := by
      rw [gridSum, mul_comm, sum_mul]
      refine sum_congr rfl fun j _ => ?_
      rw [mul_sum]
      exact sum_congr rfl fun i _ => by ring
    rw [e1, hr f hf, hr g hg, squareInt]
    simp only [intervalIntegral.integral_mul_const, intervalIntegral.integral_const_mul]
  | add hF hG a b => rw [gridSum_add, a, b, squareInt_add hF hG]

/-- Only values away from the singular vertex matter. -/
theorem squareInt_congr {F G : ℝ → ℝ → ℝ} (h : ∀ x y, -1 < y → F x y = G x y) : squareInt F = squareInt G := by
  unfold squareInt
  refine intervalIntegral.integral_congr_ae (Filter.Eventually.of_forall fun y hy => ?_)
  rw [Set.uIoc_of_le (by norm_num)] at hy
  simp only [h _ y hy.1]

theorem gridSum_congr {n : Nat} {r : Rule ℝ} (hr : GaussRule n r) {F G : ℝ → ℝ → ℝ} (h : ∀ x y, -1 < y → F x y = G x y) :
    gridSum r F = gridSum r G := by
  unfold gridSum
  refine sum_congr rfl fun j hj => sum_congr rfl fun i _ => ?_
  rw [h _ _ (hr.2.1 j (hr.1 ▸ mem_range.1 hj)).1]

/-- The Gauss quadrature of a function that agrees with a polynomial away from the singular vertex. -/
theorem exact_of {p d : Nat} {gauss : Nat → Rule ℝ} (hg : ∀ d, GaussRule (d + 1) (gauss d)) {F G : ℝ → ℝ → ℝ} (hG : Poly2 d G)
    (hd : d ≤ 2 * p + 3) (h : ∀ x y, -1 < y → F x y = G x y) : gridSum (gauss (p + 1)) F = squareInt F := by
  rw [gridSum_congr (hg (p + 1)) h, squareInt_congr h]
  exact poly2_exact (gauss_integrates (hg (p + 1))) (hG.mono (by omega))

/-! ## The basis functions -/

section
variable {p : Nat} {nodes : List ℝ}

theorem lagrange_poly (h : TriNodes p nodes) {i : Nat} (hi : i < p + 1) :
    ∃ f : ℝ[X], f.natDegree ≤ p ∧ ∀ x, lagrangeAt nodes i x = f.eval x := by
  obtain ⟨f, hf, e⟩ := bas_within h.acc false (i := i) (by simpa [basRows, h.len] using hi)
  refine ⟨f, ?_, fun x => ?_⟩
  · simpa [basDeg, h.len] using hf
  · rw [← e]; simp [bas, nodeBasis]

theorem edge_poly (h : TriNodes p nodes) {i : Nat} (hi : i < p) :
    ∃ f : ℝ[X], f.natDegree ≤ p - 1 ∧ ∀ x, edgeAt nodes i x = f.eval x := by
  obtain ⟨f, hf, e⟩ := bas_within h.acc true (i := i) (by simpa [basRows, h.len] using hi)
  refine ⟨f, ?_, fun x => ?_⟩
  · simpa [basDeg, h.len] using hf
  · rw [← e]; simp [bas, edgeBasis]

/-- A function of η that vanishes at the singular vertex. -/
theorem divide {f : ℝ[X]} {d : Nat} (hf : f.natDegree ≤ d) (h0 : f.eval (-1) = 0) :
    ∃ g : ℝ[X], g.natDegree ≤ d - 1 ∧ ∀ y, f.eval y = (y + 1) * g.eval y := by
  obtain ⟨g, e⟩ := dvd_iff_isRoot.2 (show IsRoot f (-1) from h0)
  refine ⟨g, ?_, fun y => ?_⟩
  · by_cases hz : g = 0
    · simp [hz]
    have hm : (X - C (-1 : ℝ)).Monic := monic_X_sub_C _
    rw [e, hm.natDegree_mul' hz, natDegree_X_sub_C] at hf
    omega
  · rw [e]; simp

theorem lagrange_divide (h : TriNodes p nodes) {j : Nat} (hj : j < p) :
    ∃ g : ℝ[X], g.natDegree ≤ p - 1 ∧ ∀ y, lagrangeAt nodes (j + 1) y = (y + 1) * g.eval y := by
  obtain ⟨f, hf, e⟩ := lagrange_poly h (i := j + 1) (by omega)
  have := lagrange_node h (i := j + 1) (k := 0) (by omega) (by omega)
  rw [h.symmetric.first, e, if_neg (by omega)] at this
  obtain ⟨g, hg, e'⟩ := divide hf this
  exact ⟨g, hg, fun y => by rw [e, e']⟩

theorem poly_recon0 (h : TriNodes p nodes) (w : Nat → ℝ) : Poly2 p fun x y => recon0 nodes [x] [y] w 0 := by
  simp only [recon0_sum h]
  refine Poly2.sum _ _ fun j hj => Poly2.sum _ _ fun i hi => ?_
  obtain ⟨f, hf, ef⟩ := lagrange_poly h (mem_range.1 hi)
  obtain ⟨g, hg, eg⟩ := lagrange_poly h (mem_range.1 hj)
  have := (Poly2.prod f g hf hg).smul (w (ln0 p i j))
  exact this.congr fun x y => by rw [ef, eg]; ring

/-- Coefficients of `dξ` carry a factor `η + 1`. -/
theorem poly_dx (h : TriNodes p nodes) (I : Nat → Nat → Nat) (w : Nat → ℝ) :
    ∃ F, Poly2 (p - 1) F ∧ ∀ x y, ∑ j ∈ range (p + 1), ∑ i ∈ range p, lagrangeAt nodes j y * edgeAt nodes i x * dxVal I w i j =
      (y + 1) * F x y := by
  have hp := h.one_le
  have hL : ∀ j, ∃ g : ℝ[X], j < p → g.natDegree ≤ p - 1 ∧ ∀ y, lagrangeAt nodes (j + 1) y = (y + 1) * g.eval y := fun j => by
    by_cases hj : j < p
    · obtain ⟨g, hg⟩ := lagrange_divide h hj
      exact ⟨g, fun _ => hg⟩
    · exact ⟨0, fun h => absurd h hj⟩
  choose g hg using hL
  refine ⟨fun x y => ∑ j ∈ range p, ∑ i ∈ range p, (g j).eval y * edgeAt nodes i x * dxVal I w i (j + 1), ?_, fun x y => ?_⟩
  · refine Poly2.sum _ _ fun j hj => Poly2.sum _ _ fun i hi => ?_
    obtain ⟨f, hf, ef⟩ := edge_poly h (mem_range.1 hi)
    have := (Poly2.prod f (g j) hf (hg j (mem_range.1 hj)).1).smul (dxVal I w i (j + 1))
    exact this.congr fun x y => by rw [ef]; ring
  · rw [sum_range_succ', mul_sum]
    simp only [dxVal, if_true, mul_zero, sum_const_zero, add_zero]
    refine sum_congr rfl fun j hj => ?_
    rw [mul_sum]
    refine sum_congr rfl fun i _ => ?_
    rw [(hg j (mem_range.1 hj)).2]
    ring

theorem poly_dy (h : TriNodes p nodes) (I : Nat → Nat → Nat) (w : Nat → ℝ) :
    Poly2 p fun x y => ∑ j ∈ range p, ∑ i ∈ range (p + 1), edgeAt nodes j y * lagrangeAt nodes i x * w (I i j) := by
  refine Poly2.sum _ _ fun j hj => Poly2.sum _ _ fun i hi => ?_
  obtain ⟨f, hf, ef⟩ := lagrange_poly h (mem_range.1 hi)
  obtain ⟨g, hg, eg⟩ := edge_poly h (mem_range.1 hj)
  have := (Poly2.prod f g hf (hg.trans (by omega))).smul (w (I i j))
  exact this.congr fun x y => by rw [ef, eg]; ring

/-- The Jacobian matrix: the first column vanishes at the singular vertex, the second depends on ξ only. -/
theorem jac_columns (pts : Fin 3 → ℝ × ℝ) (k : Fin 2) :
    ∃ α β γ : ℝ, ∀ x y, jacobianMatrix pts ![x, y] k 0 = (y + 1) * α ∧ jacobianMatrix pts ![x, y] k 1 = β + γ * x := by
  fin_cases k
  · refine ⟨((pts 1).1 - (pts 2).1) / 4, ((pts 1).1 + (pts 2).1 - 2 * (pts 0).1) / 4, ((pts 1).1 - (pts 2).1) / 4, fun x y => ?_⟩
    simp [jacobianMatrix, Region.Two.transfiniteJ, Region.Two.mapCr, Region.Two.mapCs, edges]
    constructor <;> ring
  · refine ⟨((pts 1).2 - (pts 2).2) / 4, ((pts 1).2 + (pts 2).2 - 2 * (pts 0).2) / 4, ((pts 1).2 - (pts 2).2) / 4, fun x y => ?_⟩
    simp [jacobianMatrix, Region.Two.transfiniteJ, Region.Two.mapCr, Region.Two.mapCs, edges]
    constructor <;> ring

theorem poly_linear (β γ : ℝ) : Poly2 1 fun x _ => β + γ * x := by
  have := Poly2.prod (d := 1) (C β + C γ * X) 1 (by
    refine (natDegree_add_le _ _).trans ?_
    rw [natDegree_C]
    exact max_le (by omega) ((natDegree_C_mul_le _ _).trans natDegree_X_le)) (by simp)
  simpa using this

theorem poly_det (pts : Fin 3 → ℝ × ℝ) : Poly2 1 (detAt pts) := by
  have := Poly2.prod (d := 1) 1 (C (cross (pts 0) (pts 1) (pts 2) / 8) * (X + C 1)) (by simp) (by
    refine (natDegree_C_mul_le _ _).trans ?_
    rw [natDegree_X_add_C])
  exact this.congr fun x y => by rw [detAt_eq]; simp; ring

/-- The inverse of the Jacobian matrix. -/
theorem jac_inverse {pts : Fin 3 → ℝ × ℝ} (hpos : 0 < cross (pts 0) (pts 1) (pts 2)) :
    ∃ A0 A1 B0 C0 B1 C1 : ℝ, ∀ x y, -1 < y → Metric.Two.inverse (jacobianMatrix pts ![x, y]) 0 0 = (B1 + C1 * x) / (y + 1) ∧
      Metric.Two.inverse (jacobianMatrix pts ![x, y]) 0 1 = (B0 + C0 * x) / (y + 1) ∧
      Metric.Two.inverse (jacobianMatrix pts ![x, y]) 1 0 = A1 ∧ Metric.Two.inverse (jacobianMatrix pts ![x, y]) 1 1 = A0 := by
  obtain ⟨α0, β0, γ0, e0⟩ := jac_columns pts 0
  obtain ⟨α1, β1, γ1, e1⟩ := jac_columns pts 1
  set c := cross (pts 0) (pts 1) (pts 2) / 8 with hc
  have hc0 : c ≠ 0 := by rw [hc]; positivity
  have hdet : ∀ x y, (y + 1) * α0 * (β1 + γ1 * x) - (β0 + γ0 * x) * ((y + 1) * α1) = (y + 1) * c := fun x y => by
    have := detAt_eq pts x y
    rw [detAt, Matrix.det_fin_two] at this
    simp only [Matrix.of_apply, (e0 x y).1, (e0 x y).2, (e1 x y).1, (e1 x y).2] at this
    rw [this, hc]; ring
  refine ⟨α0 / c, -α1 / c, -β0 / c, -γ0 / c, β1 / c, γ1 / c, fun x y hy => ?_⟩
  have hy' : y + 1 ≠ 0 := by linarith
  simp only [Metric.Two.inverse, (e0 x y).1, (e0 x y).2, (e1 x y).1, (e1 x y).2, hdet]
  refine ⟨?_, ?_, ?_, ?_⟩ <;> simp <;> field_simp
  ring

/-- 1-forms are polynomials of degree `p` away from the singular vertex. -/
theorem poly_reconInner (h : TriNodes p nodes) (T : Nat → Int) {pts : Fin 3 → ℝ × ℝ} (hpos : 0 < cross (pts 0) (pts 1) (pts 2))
    (w : Nat → ℝ) (k : Fin 2) :
    ∃ F, Poly2 p F ∧ ∀ x y, -1 < y → reconInner p nodes T pts [x] [y] w 0 k = F x y := by
  have hp := h.one_le
  obtain ⟨U, hU, eU⟩ := poly_dx h (iDx p) fun r => (T r : ℝ) * w r
  have hV := poly_dy h (lnInnerDy p) fun r => (T r : ℝ) * w r
  obtain ⟨A0, A1, B0, C0, B1, C1, e⟩ := jac_inverse hpos
  have hU' : ∀ β γ : ℝ, Poly2 p fun x y => U x y * (β + γ * x) := fun β γ => (hU.mul (poly_linear β γ)).mono (by omega)
  fin_cases k
  · refine ⟨_, (hU' B1 C1).add (hV.smul A1), fun x y hy => ?_⟩
    have hy' : y + 1 ≠ 0 := by linarith
    obtain ⟨e1, e2, e3, e4⟩ := e x y hy
    rw [reconInner_sum h]
    simp only [innerU, eU, innerV, Fin.zero_eta, e1, e3]
    field_simp
  · refine ⟨_, (hU' B0 C0).add (hV.smul A0), fun x y hy => ?_⟩
    have hy' : y + 1 ≠ 0 := by linarith
    obtain ⟨e1, e2, e3, e4⟩ := e x y hy
    rw [reconInner_sum h]
    simp only [innerU, eU, innerV, Fin.mk_one, e2, e4]
    field_simp

theorem poly_reconOuter (h : TriNodes p nodes) (T : Nat → Int) {pts : Fin 3 → ℝ × ℝ} (hpos : 0 < cross (pts 0) (pts 1) (pts 2))
    (w : Nat → ℝ) (k : Fin 2) :
    ∃ F, Poly2 p F ∧ ∀ x y, -1 < y → reconOuter p nodes T pts [x] [y] w 0 k = F x y := by
  have hp := h.one_le
  obtain ⟨V, hV, eV⟩ := poly_dx h (oDx p) fun r => (T r : ℝ) * w r
  have hU := poly_dy h (lnOuterDy p) fun r => (T r : ℝ) * w r
  obtain ⟨A0, A1, B0, C0, B1, C1, e⟩ := jac_inverse hpos
  have hV' : ∀ β γ : ℝ, Poly2 p fun x y => V x y * (β + γ * x) := fun β γ => (hV.mul (poly_linear β γ)).mono (by omega)
  fin_cases k
  · refine ⟨_, ((hV' B0 C0).smul (-1)).add (hU.smul A0), fun x y hy => ?_⟩
    have hy' : y + 1 ≠ 0 := by linarith
    obtain ⟨e1, e2, e3, e4⟩ := e x y hy
    rw [reconOuter_sum h]
    simp only [outerU, eV, outerV, Fin.zero_eta, Matrix.cons_val_zero, e2, e4]
    field_simp
    ring
  · refine ⟨_, (hV' B1 C1).add (hU.smul (-A1)), fun x y hy => ?_⟩
    have hy' : y + 1 ≠ 0 := by linarith
    obtain ⟨e1, e2, e3, e4⟩ := e x y hy
    rw [reconOuter_sum h]
    simp only [outerU, eV, outerV, Fin.mk_one, Matrix.cons_val_one, Matrix.cons_val_fin_one, e1, e3]
    field_simp
    ring

/-! ## Exactness -/

/-- **C98, exactness.**  The mass matrices of 0-forms and 1-forms give the `L²` products of the reconstructions over the element:
the integral over the reference element of the product of the values times the determinant of the Jacobian matrix, whatever the
cochains, the degree and the triangle. -/
theorem c98_exact (h : TriNodes p nodes) (T : Nat → Int) {pts : Fin 3 → ℝ × ℝ} (hpos : 0 < cross (pts 0) (pts 1) (pts 2))
    {gauss : Nat → Rule ℝ} (hg : ∀ d, GaussRule (d + 1) (gauss d)) (a b : Nat → ℝ) :
    ∑ i ∈ range (1 + p * (p + 1)), ∑ j ∈ range (1 + p * (p + 1)), a i * massZero gauss p nodes pts i j * b j =
      squareInt (fun x y => recon0 nodes [x] [y] a 0 * recon0 nodes [x] [y] b 0 * detAt pts x y) ∧
    ∑ i ∈ range (p ^ 2 + p * (p + 1)), ∑ j ∈ range (p ^ 2 + p * (p + 1)), a i * massOneInner gauss p nodes T pts i j * b j =
      squareInt (fun x y => (∑ k, reconInner p nodes T pts [x] [y] a 0 k * reconInner p nodes T pts [x] [y] b 0 k) * detAt pts x y) ∧
    ∑ i ∈ range (p * (p + 1) + p ^ 2), ∑ j ∈ range (p * (p + 1) + p ^ 2), a i * massOneOuter gauss p nodes T pts i j * b j =
      squareInt (fun x y => (∑ k, reconOuter p nodes T pts [x] [y] a 0 k * reconOuter p nodes T pts [x] [y] b 0 k) * detAt pts x y) := by
  rw [form_zero h, form_inner h, form_outer h]
  refine ⟨?_, ?_, ?_⟩
  · exact exact_of hg (((poly_recon0 h a).mul (poly_recon0 h b)).mul (poly_det pts)) (by omega) fun _ _ _ => rfl
  · choose F hF eF using fun k => poly_reconInner h T hpos a k
    choose G hG eG using fun k => poly_reconInner h T hpos b k
    refine exact_of hg ((Poly2.sum univ (fun k x y => F k x y * G k x y) fun k _ => (hF k).mul (hG k)).mul (poly_det pts)) (by omega)
      fun x y hy => ?_
    simp only [eF _ x y hy, eG _ x y hy]
  · choose F hF eF using fun k => poly_reconOuter h T hpos a k
    choose G hG eG using fun k => poly_reconOuter h T hpos b k
    refine exact_of hg ((Poly2.sum univ (fun k x y => F k x y * G k x y) fun k _ => (hF k).mul (hG k)).mul (poly_det pts)) (by omega)
      fun x y hy => ?_
    simp only [eF _ x y hy, eG _ x y hy]

/-- The density of a 2-form in the reference element. -/
noncomputable def coef2 (p : Nat) (nodes : List ℝ) (w : Nat → ℝ) (x y : ℝ) : ℝ :=
  ∑ j ∈ range p, ∑ i ∈ range p, edgeAt nodes j y * edgeAt nodes i x * w (ln2 p i j)

theorem poly_coef2 (h : TriNodes p nodes) (w : Nat → ℝ) : Poly2 (p - 1) (coef2 p nodes w) := by
  refine Poly2.sum _ _ fun j hj => Poly2.sum _ _ fun i hi => ?_
  obtain ⟨f, hf, ef⟩ := edge_poly h (mem_range.1 hi)
  obtain ⟨g, hg, eg⟩ := edge_poly h (mem_range.1 hj)
  have := (Poly2.prod f g hf hg).smul (w (ln2 p i j))
  exact this.congr fun x y => by rw [ef, eg]; ring

theorem recon2_coef (h : TriNodes p nodes) {pts : Fin 3 → ℝ × ℝ} (hpos : 0 < cross (pts 0) (pts 1) (pts 2)) (w : Nat → ℝ) (x : ℝ)
    {y : ℝ} (hy : -1 < y) : recon2 nodes pts [x] [y] w 0 = (detAt pts x y)⁻¹ * coef2 p nodes w x y := by
  have hd : detAt pts x y ≠ 0 := (det_pos hpos hy).ne'
  rw [recon2_sum h, coef2]
  congr 1
  rw [detAt, Matrix.det_fin_two] at hd ⊢
  simp only [Matrix.of_apply] at hd ⊢
  simp only [Metric.Two.inverseJacobian, Metric.Two.inverse]
  simp
  field_simp

theorem Poly2.difference {d : Nat} {F : ℝ → ℝ → ℝ} (h : Poly2 d F) : ∃ G, Poly2 d G ∧ ∀ x y, F x y - F x (-1) = (y + 1) * G x y := by
  induction h with
  | prod f g hf hg =>
    obtain ⟨g', hg', e⟩ := Props.divide (f := g - C (g.eval (-1))) (d := d) ((natDegree_sub_C).trans_le hg) (by simp)
    refine ⟨_, Poly2.prod f g' hf (hg'.trans (by omega)), fun x y => ?_⟩
    have := e y
    simp only [eval_sub, eval_C] at this
    linear_combination f.eval x * this
  | add _ _ a b =>
    obtain ⟨G, hG, e⟩ := a
    obtain ⟨G', hG', e'⟩ := b
    exact ⟨_, hG.add hG', fun x y => by linear_combination e x y + e' x y⟩

/-- A polynomial that vanishes for `η = -1`. -/
theorem Poly2.divide {d : Nat} {F : ℝ → ℝ → ℝ} (h : Poly2 d F) (h0 : ∀ x, F x (-1) = 0) :
    ∃ G, Poly2 d G ∧ ∀ x y, F x y = (y + 1) * G x y := by
  obtain ⟨G, hG, e⟩ := h.difference
  exact ⟨G, hG, fun x y => by rw [← e, h0, sub_zero]⟩

/-- **C98, 2-forms.**  The mass matrix of 2-forms gives the `L²` product if the density of one of them vanishes on the singular side of the
reference element.  (Missing: other 2-forms, for which the product does not exist, see `c98_two_forms_fails`.) -/
theorem c98_two_forms_partial (h : TriNodes p nodes) {pts : Fin 3 → ℝ × ℝ} (hpos : 0 < cross (pts 0) (pts 1) (pts 2))
    {gauss : Nat → Rule ℝ} (hg : ∀ d, GaussRule (d + 1) (gauss d)) (a b : Nat → ℝ)
    (h0 : ∀ x, ∑ j ∈ range p, ∑ i ∈ range p, edgeAt nodes j (-1) * edgeAt nodes i x * b (ln2 p i j) = 0) :
    ∑ i ∈ range (p * p), ∑ j ∈ range (p * p), a i * massTwo gauss p nodes pts i j * b j =
      squareInt fun x y => recon2 nodes pts [x] [y] a 0 * recon2 nodes pts [x] [y] b 0 * detAt pts x y := by
  rw [form_two h hpos hg]
  obtain ⟨G, hG, e⟩ := (poly_coef2 h b).divide h0
  have hp := h.one_le
  refine exact_of hg (((poly_coef2 h a).mul hG).smul (8 / cross (pts 0) (pts 1) (pts 2))) (by omega) fun x y hy => ?_
  have hy' : y + 1 ≠ 0 := by linarith
  rw [recon2_coef h hpos _ _ hy, recon2_coef h hpos _ _ hy, e, detAt_eq]
  field_simp

/-- **C98, 2-forms, disagreement.**  Where the density does not vanish on the singular side, the square of a reconstructed 2-form times
the determinant is not integrable along η: the exact norm does not exist, though the mass matrix gives a number for it. -/
theorem c98_two_forms_fails (h : TriNodes p nodes) {pts : Fin 3 → ℝ × ℝ} (hpos : 0 < cross (pts 0) (pts 1) (pts 2)) (a : Nat → ℝ)
    (x : ℝ) (h0 : ∑ j ∈ range p, ∑ i ∈ range p, edgeAt nodes j (-1) * edgeAt nodes i x * a (ln2 p i j) ≠ 0) :
    ¬ IntervalIntegrable (fun y => recon2 nodes pts [x] [y] a 0 * recon2 nodes pts [x] [y] a 0 * detAt pts x y) MeasureTheory.volume (-1) 1 := by
  intro hi
  obtain ⟨G, hG, e⟩ := ((poly_coef2 h a).mul (poly_coef2 h a)).difference
  set c := cross (pts 0) (pts 1) (pts 2)
  set W := coef2 p nodes a x (-1) with hW
  have hW0 : W ≠ 0 := h0
  have cG : Continuous fun y => 8 / c * G x y := continuous_const.mul (hG.continuous.comp (continuous_const.prodMk continuous_id))
  have h1 : IntervalIntegrable (fun y => (c / 8 / W ^ 2) * (recon2 nodes pts [x] [y] a 0 * recon2 nodes pts [x] [y] a 0 * detAt pts x y -
      8 / c * G x y)) MeasureTheory.volume (-1) 1 := (hi.sub (cG.intervalIntegrable _ _)).const_mul _
  have h2 : IntervalIntegrable (fun y => (y - (-1))⁻¹) MeasureTheory.volume (-1 : ℝ) 1 := by
    refine h1.congr_ae ?_
    refine (MeasureTheory.ae_restrict_iff' measurableSet_uIoc).2 (Filter.Eventually.of_forall fun y hy => ?_)
    rw [Set.uIoc_of_le (by norm_num)] at hy
    have hy' : y + 1 ≠ 0 := by linarith [hy.1]
    have ey := e x y
    beta_reduce
    have hd : detAt pts x y = (y + 1) / 8 * c := detAt_eq pts x y
    rw [recon2_coef h hpos _ _ hy.1, hd]
    have hc : c ≠ 0 := hpos.ne'
    rw [sub_neg_eq_add]
    rw [← hW] at ey
    field_simp
    linear_combination ey
  have := intervalIntegrable_sub_inv_iff.1 h2
  rcases this with h | h
  · norm_num at h
  · exact h (by simp)

end

end Mifem.Props
