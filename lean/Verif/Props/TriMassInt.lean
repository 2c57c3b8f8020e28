import Verif.Props.TriMassExact
import Mathlib.MeasureTheory.Function.Jacobian
import Mathlib.MeasureTheory.Integral.Prod
import Mathlib.Analysis.Calculus.FDeriv.Mul
import Mathlib.Analysis.Calculus.FDeriv.Pi

/-!
# C98: the integral over the triangle
-/

namespace Mifem.Props

open Mifem.Tri Mifem.Basis Mifem.Disc Mifem.Quadrature Mifem.Vortex Finset MeasureTheory

/-- The inside of a triangle. -/
def insideTri (pts : Fin 3 → ℝ × ℝ) : Set (Fin 2 → ℝ) :=
  {x | ∃ a b c, 0 < a ∧ 0 < b ∧ 0 < c ∧ a + b + c = 1 ∧ bary pts a b c = x}

/-- The inside of the reference element. -/
def openSquare : Set (Fin 2 → ℝ) := {v | ∀ i, -1 < v i ∧ v i < 1}

theorem openSquare_open : IsOpen openSquare := by
  have : openSquare = ⋂ i : Fin 2, {v : Fin 2 → ℝ | -1 < v i} ∩ {v | v i < 1} := by
    ext v; simp [openSquare]
  rw [this]
  exact isOpen_iInter_of_finite fun i =>
    (isOpen_lt continuous_const (continuous_apply i)).inter (isOpen_lt (continuous_apply i) continuous_const)

theorem image_square (pts : Fin 3 → ℝ × ℝ) : mapping pts '' openSquare = insideTri pts := by
  ext x
  constructor
  · rintro ⟨v, hv, rfl⟩
    have h0 := hv 0
    have h1 := hv 1
    refine ⟨_, _, _, ?_, ?_, ?_, ?_, (mapping_eq pts v two_ne_zero).symm⟩
    · linarith
    · have : 0 < (v 0 + 1) / 2 := by linarith
      have : 0 < (v 1 + 1) / 2 := by linarith
      positivity
    · have : 0 < 1 - (v 0 + 1) / 2 := by linarith
      have : 0 < (v 1 + 1) / 2 := by linarith
      positivity
    · ring
  · rintro ⟨a, b, c, ha, hb, hc, hs, rfl⟩
    have hbc : 0 < b + c := by linarith
    refine ⟨![(b - c) / (b + c), 2 * (b + c) - 1], ?_, ?_⟩
    · intro i
      fin_cases i
      · simp only [Fin.zero_eta, Matrix.cons_val_zero]
        constructor
        · rw [lt_div_iff₀ hbc]; linarith
        · rw [div_lt_iff₀ hbc]; linarith
      · simp only [Fin.mk_one, Matrix.cons_val_one, Matrix.cons_val_fin_one]
        constructor <;> linarith
    · rw [mapping_eq _ _ two_ne_zero]
      simp only [Matrix.cons_val_zero, Matrix.cons_val_one, Matrix.cons_val_fin_one]
      congr 1
      · linarith
      · field_simp; ring
      · field_simp; ring

/-- The Jacobian matrix as a linear map. -/
noncomputable def jacMap (pts : Fin 3 → ℝ × ℝ) (v : Fin 2 → ℝ) : (Fin 2 → ℝ) →L[ℝ] (Fin 2 → ℝ) :=
  LinearMap.toContinuousLinearMap (Matrix.toLin' (Matrix.of (jacobianMatrix pts v)))

theorem jacMap_det (pts : Fin 3 → ℝ × ℝ) (v : Fin 2 → ℝ) : (jacMap pts v).det = detAt pts (v 0) (v 1) := by
  rw [ContinuousLinearMap.det, jacMap, LinearMap.coe_toContinuousLinearMap, LinearMap.det_toLin', detAt]
  rw [show ![v 0, v 1] = v from by ext i; fin_cases i <;> rfl]

theorem mapping_poly (pts : Fin 3 → ℝ × ℝ) (k : Fin 2) :
    ∃ α β γ : ℝ, ∀ v : Fin 2 → ℝ, mapping pts v k = α + (v 1 + 1) * (β + γ * v 0) ∧
      jacobianMatrix pts v k 0 = (v 1 + 1) * γ ∧ jacobianMatrix pts v k 1 = β + γ * v 0 := by
  fin_cases k
  · refine ⟨(pts 0).1, ((pts 1).1 + (pts 2).1 - 2 * (pts 0).1) / 4, ((pts 1).1 - (pts 2).1) / 4, fun v => ⟨?_, ?_⟩⟩
    · rw [mapping_eq pts v two_ne_zero]
      simp [bary]; ring
    · simp [jacobianMatrix, Region.Two.transfiniteJ, Region.Two.mapCr, Region.Two.mapCs, edges]
      constructor <;> ring
  · refine ⟨(pts 0).2, ((pts 1).2 + (pts 2).2 - 2 * (pts 0).2) / 4, ((pts 1).2 - (pts 2).2) / 4, fun v => ⟨?_, ?_⟩⟩
    · rw [mapping_eq pts v two_ne_zero]
      simp [bary]; ring
    · simp [jacobianMatrix, Region.Two.transfiniteJ, Region.Two.mapCr, Region.Two.mapCs, edges]
      constructor <;> ring

theorem mapping_fderiv (pts : Fin 3 → ℝ × ℝ) (v : Fin 2 → ℝ) : HasFDerivAt (mapping pts) (jacMap pts v) v := by
  rw [hasFDerivAt_pi']
  intro k
  obtain ⟨α, β, γ, e⟩ := mapping_poly pts k
  simp only [fun v => (e v).1]
  have h0 := hasFDerivAt_apply (𝕜 := ℝ) (0 : Fin 2) v
  have h1 := hasFDerivAt_apply (𝕜 := ℝ) (1 : Fin 2) v
  have := ((h1.add_const (1 : ℝ)).mul ((h0.const_mul γ).const_add β)).const_add α
  refine this.congr_fderiv ?_
  ext w
  simp [jacMap, Matrix.toLin'_apply, Matrix.mulVec, dotProduct, Fin.sum_univ_two, (e v).2.1, (e v).2.2]
  ring

theorem mapping_inj {pts : Fin 3 → ℝ × ℝ} (hpos : 0 < cross (pts 0) (pts 1) (pts 2)) : Set.InjOn (mapping pts) openSquare := by
  intro w hw v hv e
  have h2 : (2 : ℝ) ≠ 0 := two_ne_zero
  rw [mapping_eq _ _ h2, mapping_eq _ _ h2] at e
  have e0 := congrFun e 0
  have e1 := congrFun e 1
  simp only [bary, Matrix.cons_val_zero, Matrix.cons_val_one, Matrix.cons_val_fin_one] at e0 e1
  have k1 : ((w 0 + 1) / 2 * ((w 1 + 1) / 2) - (v 0 + 1) / 2 * ((v 1 + 1) / 2)) * cross (pts 0) (pts 1) (pts 2) = 0 := by
    simp only [cross]
    linear_combination ((pts 2).2 - (pts 0).2) * e0 - ((pts 2).1 - (pts 0).1) * e1
  have k2 : ((1 - (w 0 + 1) / 2) * ((w 1 + 1) / 2) - (1 - (v 0 + 1) / 2) * ((v 1 + 1) / 2)) * cross (pts 0) (pts 1) (pts 2) = 0 := by
    simp only [cross]
    linear_combination -((pts 1).2 - (pts 0).2) * e0 + ((pts 1).1 - (pts 0).1) * e1
  have k1 := (mul_eq_zero.1 k1).resolve_right hpos.ne'
  have k2 := (mul_eq_zero.1 k2).resolve_right hpos.ne'
  have w1 : w 1 = v 1 := by linear_combination 2 * k1 + 2 * k2
  have w0 : (w 0 - v 0) * (v 1 + 1) = 0 := by rw [w1] at k1; linear_combination 4 * k1
  have w0 := (mul_eq_zero.1 w0).resolve_right (by linarith [(hv 1).1])
  funext i
  fin_cases i
  · exact sub_eq_zero.1 w0
  · exact w1

/-- The integral over the triangle, by the reference element. -/
theorem triangle_integral {pts : Fin 3 → ℝ × ℝ} (hpos : 0 < cross (pts 0) (pts 1) (pts 2)) {d : Nat} {F : ℝ → ℝ → ℝ} (hF : Poly2 d F)
    (g : (Fin 2 → ℝ) → ℝ) (hg : ∀ v ∈ openSquare, g (mapping pts v) * detAt pts (v 0) (v 1) = F (v 0) (v 1)) :
    ∫ x in insideTri pts, g x = squareInt F := by
  rw [← image_square, integral_image_eq_integral_abs_det_fderiv_smul volume openSquare_open.measurableSet
    (fun v _ => (mapping_fderiv pts v).hasFDerivWithinAt) (mapping_inj hpos)]
  have e1 : ∫ v in openSquare, |(jacMap pts v).det| • g (mapping pts v) = ∫ v in openSquare, F (v 0) (v 1) := by
    refine setIntegral_congr_fun openSquare_open.measurableSet fun v hv => ?_
    beta_reduce
    rw [jacMap_det, abs_of_pos (det_pos hpos (hv 1).1), smul_eq_mul, mul_comm, hg v hv]
  rw [e1]
  have mp := volume_preserving_finTwoArrow ℝ
  have e2 : ∫ v in openSquare, F (v 0) (v 1) = ∫ u in Set.Ioo (-1 : ℝ) 1 ×ˢ Set.Ioo (-1 : ℝ) 1, F u.1 u.2 := by
    have := mp.setIntegral_preimage_emb (MeasurableEquiv.measurableEmbedding _) (fun u => F u.1 u.2) (Set.Ioo (-1 : ℝ) 1 ×ˢ Set.Ioo (-1 : ℝ) 1)
    rw [← this]
    have es : openSquare = MeasurableEquiv.finTwoArrow ⁻¹' (Set.Ioo (-1 : ℝ) 1 ×ˢ Set.Ioo (-1 : ℝ) 1) := by
      ext v
      simp [openSquare, Fin.forall_fin_two, MeasurableEquiv.finTwoArrow]
    rw [es]
    rfl
  rw [e2]
  have hint : IntegrableOn (fun u : ℝ × ℝ => F u.1 u.2) (Set.Ioo (-1 : ℝ) 1 ×ˢ Set.Ioo (-1 : ℝ) 1) (volume.prod volume) := by
    refine (hF.continuous.continuousOn.integrableOn_compact (isCompact_Icc.prod isCompact_Icc)).mono_set
      (Set.prod_mono Set.Ioo_subset_Icc_self Set.Ioo_subset_Icc_self)
  rw [Measure.volume_eq_prod, ← Measure.prod_restrict]
  rw [IntegrableOn, ← Measure.prod_restrict] at hint
  rw [integral_prod_symm _ hint, squareInt]
  rw [intervalIntegral.integral_of_le (by norm_num), integral_Ioc_eq_integral_Ioo]
  refine setIntegral_congr_fun measurableSet_Ioo fun y _ => ?_
  beta_reduce
  rw [intervalIntegral.integral_of_le (by norm_num), integral_Ioc_eq_integral_Ioo]

/-- Values given on the reference element are values on the triangle. -/
theorem field_exists {β : Type*} {pts : Fin 3 → ℝ × ℝ} (hpos : 0 < cross (pts 0) (pts 1) (pts 2)) (G : (Fin 2 → ℝ) → β) :
    ∃ φ : (Fin 2 → ℝ) → β, ∀ v ∈ openSquare, φ (mapping pts v) = G v := by
  refine ⟨fun x => G (Function.invFunOn (mapping pts) openSquare x), fun v hv => ?_⟩
  beta_reduce
  rw [(mapping_inj hpos).leftInvOn_invFunOn hv]

section
variable {p : Nat} {nodes : List ℝ}

/-- **C98, `L²` products of 0-forms.**  For the fields `φ`, `ψ` reconstructed in a triangle, the mass matrix gives the integral of their
product over the triangle. -/
theorem c98_zero_forms (h : TriNodes p nodes) {pts : Fin 3 → ℝ × ℝ} (hpos : 0 < cross (pts 0) (pts 1) (pts 2))
    {gauss : Nat → Rule ℝ} (hg : ∀ d, GaussRule (d + 1) (gauss d)) (a b : Nat → ℝ) (φ ψ : (Fin 2 → ℝ) → ℝ)
    (hφ : ∀ v ∈ openSquare, φ (mapping pts v) = recon0 nodes [v 0] [v 1] a 0)
    (hψ : ∀ v ∈ openSquare, ψ (mapping pts v) = recon0 nodes [v 0] [v 1] b 0) :
    ∑ i ∈ range (1 + p * (p + 1)), ∑ j ∈ range (1 + p * (p + 1)), a i * massZero gauss p nodes pts i j * b j =
      ∫ x in insideTri pts, φ x * ψ x := by
  rw [(c98_exact h (fun _ => 1) hpos hg a b).1]
  exact (triangle_integral hpos (((poly_recon0 h a).mul (poly_recon0 h b)).mul (poly_det pts)) _
    fun v hv => by beta_reduce; rw [hφ v hv, hψ v hv]).symm

/-- **C98, `L²` products of 1-forms.**  The same for the vector fields reconstructed from inner and outer 1-forms. -/
theorem c98_one_forms (h : TriNodes p nodes) (T : Nat → Int) {pts : Fin 3 → ℝ × ℝ} (hpos : 0 < cross (pts 0) (pts 1) (pts 2))
    {gauss : Nat → Rule ℝ} (hg : ∀ d, GaussRule (d + 1) (gauss d)) (a b : Nat → ℝ) (φ ψ : (Fin 2 → ℝ) → Fin 2 → ℝ) :
    ((∀ v ∈ openSquare, φ (mapping pts v) = reconInner p nodes T pts [v 0] [v 1] a 0) →
      (∀ v ∈ openSquare, ψ (mapping pts v) = reconInner p nodes T pts [v 0] [v 1] b 0) →
      ∑ i ∈ range (p ^ 2 + p * (p + 1)), ∑ j ∈ range (p ^ 2 + p * (p + 1)), a i * massOneInner gauss p nodes T pts i j * b j =
        ∫ x in insideTri pts, dotProduct (φ x) (ψ x)) ∧
    ((∀ v ∈ openSquare, φ (mapping pts v) = reconOuter p nodes T pts [v 0] [v 1] a 0) →
      (∀ v ∈ openSquare, ψ (mapping pts v) = reconOuter p nodes T pts [v 0] [v 1] b 0) →
      ∑ i ∈ range (p * (p + 1) + p ^ 2), ∑ j ∈ range (p * (p + 1) + p ^ 2), a i * massOneOuter gauss p nodes T pts i j * b j =
        ∫ x in insideTri pts, dotProduct (φ x) (ψ x)) := by
  obtain ⟨-, e1, e2⟩ := c98_exact h T hpos hg a b
  rw [e1, e2]
  refine ⟨fun hφ hψ => ?_, fun hφ hψ => ?_⟩
  · choose F hF eF using fun k => poly_reconInner h T hpos a k
    choose G hG eG using fun k => poly_reconInner h T hpos b k
    rw [triangle_integral hpos ((Poly2.sum univ (fun k x y => F k x y * G k x y) fun k _ => (hF k).mul (hG k)).mul (poly_det pts)) _
      fun v hv => by simp only [dotProduct, hφ v hv, hψ v hv, eF _ (v 0) (v 1) (hv 1).1, eG _ (v 0) (v 1) (hv 1).1]]
    exact squareInt_congr fun x y hy => by simp only [eF _ x y hy, eG _ x y hy]
  · choose F hF eF using fun k => poly_reconOuter h T hpos a k
    choose G hG eG using fun k => poly_reconOuter h T hpos b k
    rw [triangle_integral hpos ((Poly2.sum univ (fun k x y => F k x y * G k x y) fun k _ => (hF k).mul (hG k)).mul (poly_det pts)) _
      fun v hv => by simp only [dotProduct, hφ v hv, hψ v hv, eF _ (v 0) (v 1) (hv 1).1, eG _ (v 0) (v 1) (hv 1).1]]
    exact squareInt_congr fun x y hy => by simp only [eF _ x y hy, eG _ x y hy]

end

end Mifem.Props
