import Verif.Lemmas.Metric
import Verif.Props.Basis
import Mathlib.LinearAlgebra.CrossProduct
import Mathlib.Analysis.Calculus.FDeriv.Comp
import Mathlib.Analysis.Calculus.FDeriv.Add
import Mathlib.Analysis.Calculus.FDeriv.Pi
import Mathlib.Topology.Algebra.Module.FiniteDimension
import Mathlib.LinearAlgebra.Matrix.ToLin

/-!
# C53, C54, C56, C57: metric terms, values in physical space, inner products, wedge products
-/

namespace Mifem.Props
open Mifem.Basis Mifem.Metric Finset

section algebra
variable {K : Type*} [Field K]

/-! ## C53 -/

/-- C53 (3D): `Jacobian` is the determinant of the Jacobian matrix, `inverse_Jacobian_matrix` its two-sided inverse,
`inverse_Jacobian` the reciprocal; `metric_matrix` is `Jᵀ J`, `metric` its determinant and
`inverse_metric_matrix` its inverse. -/
theorem c53_metric_3d (J : M3 K) (h : Matrix.det (Matrix.of J) ≠ 0) :
    Three.jacobian J = Matrix.det (Matrix.of J) ∧
    Matrix.of (Three.inverse J) * Matrix.of J = 1 ∧ Matrix.of J * Matrix.of (Three.inverse J) = 1 ∧
    Three.inverseJacobian (Three.inverse J) = (Matrix.det (Matrix.of J))⁻¹ ∧
    Matrix.of (Three.metricMatrix J) = (Matrix.of J).transpose * Matrix.of J ∧
    Three.metric J = Matrix.det ((Matrix.of J).transpose * Matrix.of J) ∧
    Matrix.of (Three.inverseMetricMatrix (Three.inverse J)) * ((Matrix.of J).transpose * Matrix.of J) = 1 := by
  rw [← three_det] at h
  have h1 := three_inv_mul J h
  have h2 : Matrix.of J * Matrix.of (Three.inverse J) = 1 := mul_eq_one_comm.1 h1
  refine ⟨three_det J, h1, h2, ?_, three_metric J, ?_, ?_⟩
  · have e : Three.inverseJacobian (Three.inverse J) = Matrix.det (Matrix.of (Three.inverse J)) :=
      three_det (Three.inverse J)
    rw [e]
    refine eq_inv_of_mul_eq_one_left ?_
    rw [← Matrix.det_mul, h1, Matrix.det_one]
  · rw [Matrix.det_mul, Matrix.det_transpose, Three.metric, three_det, sq]
  · rw [three_imetric, Matrix.mul_assoc, ← Matrix.mul_assoc _ _ (Matrix.of J), ← Matrix.transpose_mul, h2,
      Matrix.transpose_one, Matrix.one_mul, h1]

/-- C53 (2D). -/
theorem c53_metric_2d (J : M2 K) (h : Matrix.det (Matrix.of J) ≠ 0) :
    Two.jacobian J = Matrix.det (Matrix.of J) ∧
    Matrix.of (Two.inverse J) * Matrix.of J = 1 ∧ Matrix.of J * Matrix.of (Two.inverse J) = 1 ∧
    Two.inverseJacobian (Two.inverse J) = (Matrix.det (Matrix.of J))⁻¹ ∧
    Matrix.of (Two.metricMatrix J) = (Matrix.of J).transpose * Matrix.of J ∧
    Two.metric J = Matrix.det ((Matrix.of J).transpose * Matrix.of J) ∧
    Matrix.of (Two.inverseMetricMatrix (Two.inverse J)) * ((Matrix.of J).transpose * Matrix.of J) = 1 := by
  rw [← two_det] at h
  have h1 := two_inv_mul J h
  have h2 : Matrix.of J * Matrix.of (Two.inverse J) = 1 := mul_eq_one_comm.1 h1
  refine ⟨two_det J, h1, h2, ?_, two_metric J, ?_, ?_⟩
  · have e : Two.inverseJacobian (Two.inverse J) = Matrix.det (Matrix.of (Two.inverse J)) :=
      two_det (Two.inverse J)
    rw [e]
    refine eq_inv_of_mul_eq_one_left ?_
    rw [← Matrix.det_mul, h1, Matrix.det_one]
  · rw [Matrix.det_mul, Matrix.det_transpose, Two.metric, two_det, sq]
  · rw [two_imetric, Matrix.mul_assoc, ← Matrix.mul_assoc _ _ (Matrix.of J), ← Matrix.transpose_mul, h2,
      Matrix.transpose_one, Matrix.one_mul, h1]

/-- A sheared, stretched element meets the hypotheses. -/
example : Matrix.det (Matrix.of (![![2, 1, 0], ![0, 1, 1], ![1, 0, 3]] : M3 ℚ)) ≠ 0 := by
  rw [Matrix.det_fin_three]; simp; norm_num
example : Matrix.det (Matrix.of (![![2, 1], ![1, 3]] : M2 ℚ)) ≠ 0 := by
  rw [Matrix.det_fin_two]; simp; norm_num

end algebra

/-- The linear map of a square array. -/
noncomputable def lin {n : Nat} (A : Fin n → Fin n → ℝ) : (Fin n → ℝ) →L[ℝ] (Fin n → ℝ) :=
  LinearMap.toContinuousLinearMap (Matrix.toLin' (Matrix.of A))

theorem lin_apply {n : Nat} (A : Fin n → Fin n → ℝ) (v : Fin n → ℝ) (i : Fin n) : lin A v i = ∑ j, A i j * v j := by
  simp [lin, Matrix.toLin'_apply, Matrix.mulVec, dotProduct]

theorem affine_hasFDeriv {n : Nat} (origin delta xi : Fin n → ℝ) :
    HasFDerivAt (fun (x : Fin n → ℝ) (j : Fin n) => (x j + 1) * (1 / 2) * delta j + origin j)
      (lin fun j l => if j = l then delta l / 2 else 0) xi := by
  rw [hasFDerivAt_pi']
  intro j
  have h1 : HasFDerivAt (fun x : Fin n → ℝ => x j) (ContinuousLinearMap.proj (R := ℝ) (φ := fun _ => ℝ) j) xi :=
    hasFDerivAt_apply j xi
  have h2 := (((h1.add_const (1 : ℝ)).mul_const (1 / 2)).mul_const (delta j)).add_const (origin j)
  refine h2.congr_fderiv ?_
  ext v
  simp [lin_apply]
  ring

/-- C53 (3D): the Jacobian matrix is the derivative of the element mapping, whenever the one of the region is the
derivative of the mapping of the region.  For an element marked orthogonal the off-diagonal entries of the region must
vanish at that point. -/
theorem c53_derivative_3d (orth : Bool) (region : (Fin 3 → ℝ) → (Fin 3 → ℝ)) (A : M3 ℝ) (origin delta xi : Fin 3 → ℝ)
    (hreg : HasFDerivAt region (lin A) (fun j => (xi j + 1) * (1 / 2) * delta j + origin j))
    (ho : orth = true → ∀ i j, i ≠ j → A i j = 0) :
    HasFDerivAt (Three.elementMap region origin delta) (lin (Three.jacobianMatrix orth A delta)) xi := by
  refine (hreg.comp xi (affine_hasFDeriv origin delta xi)).congr_fderiv ?_
  ext v i
  cases orth with
  | false => simp [lin_apply, Three.jacobianMatrix, Fin.sum_univ_three]; ring
  | true =>
    have h' := ho rfl
    fin_cases i <;> simp [lin_apply, Three.jacobianMatrix, Fin.sum_univ_three, h' 0 1 (by decide), h' 0 2 (by decide),
      h' 1 0 (by decide), h' 1 2 (by decide), h' 2 0 (by decide), h' 2 1 (by decide)] <;> ring

/-- C53 (2D). -/
theorem c53_derivative_2d (orth : Bool) (region : (Fin 2 → ℝ) → (Fin 2 → ℝ)) (A : M2 ℝ) (origin delta xi : Fin 2 → ℝ)
    (hreg : HasFDerivAt region (lin A) (fun j => (xi j + 1) * (1 / 2) * delta j + origin j))
    (ho : orth = true → ∀ i j, i ≠ j → A i j = 0) :
    HasFDerivAt (Two.elementMap region origin delta) (lin (Two.jacobianMatrix orth A delta)) xi := by
  refine (hreg.comp xi (affine_hasFDeriv origin delta xi)).congr_fderiv ?_
  ext v i
  cases orth with
  | false => simp [lin_apply, Two.jacobianMatrix, Fin.sum_univ_two]; ring
  | true =>
    have h' := ho rfl
    fin_cases i <;> simp [lin_apply, Two.jacobianMatrix, Fin.sum_univ_two, h' 0 1 (by decide),
      h' 1 0 (by decide)] <;> ring

/-- The hypotheses hold, e.g. for a region that is a sheared box. -/
example : HasFDerivAt (Three.elementMap (fun x => lin ![![2, 1, 0], ![0, 1, 1], ![1, 0, 3]] x) ![0, 0, 0]
    ![1 / 2, 1 / 4, 1]) (lin (Three.jacobianMatrix false ![![2, 1, 0], ![0, 1, 1], ![1, 0, 3]] ![1 / 2, 1 / 4, 1]))
    ![0, 0, 0] :=
  c53_derivative_3d false _ _ _ _ _ (ContinuousLinearMap.hasFDerivAt _) (by simp)

/-! ## C54: pullbacks -/

section pullback
variable {K : Type*} [Field K]

/-- The entries of `iJ J = 1`. -/
theorem inv3_entry (J : M3 K) (h : Three.jacobian J ≠ 0) (a b : Fin 3) :
    Three.inverse J a 0 * J 0 b + Three.inverse J a 1 * J 1 b + Three.inverse J a 2 * J 2 b = if a = b then 1 else 0 := by
  have := congrFun (congrFun (three_inv_mul J h) a) b
  simpa [Matrix.mul_apply, Fin.sum_univ_three, Matrix.one_apply] using this

theorem inv2_entry (J : M2 K) (h : Two.jacobian J ≠ 0) (a b : Fin 2) :
    Two.inverse J a 0 * J 0 b + Two.inverse J a 1 * J 1 b = if a = b then 1 else 0 := by
  have := congrFun (congrFun (two_inv_mul J h) a) b
  simpa [Matrix.mul_apply, Fin.sum_univ_two, Matrix.one_apply] using this

/-- The tangent vector of the element along direction `a`: column `a` of the Jacobian matrix. -/
def tangent {n : Nat} (J : Fin n → Fin n → K) (a : Fin n) : Fin n → K := fun x => J x a

/-- C54 (3D, 1-forms): the value in physical space, paired with the tangent vector of direction `a`, is the component
`a` in the reference element, so integrals along curves are kept. -/
theorem c54_line_3d (orth : Bool) (A : M3 K) (delta : Fin 3 → K)
    (h : Three.jacobian (Three.jacobianMatrix orth A delta) ≠ 0) (u : Fin 3 → K) (a : Fin 3) :
    let J := Three.jacobianMatrix orth A delta
    dotProduct (Three.value1 orth (Three.inverse J) (u 0) (u 1) (u 2)) (tangent J a) = u a := by
  intro J
  have e := fun x => value1_eq (three_diag_inv (three_diag_jac orth A delta)) (u 0) (u 1) (u 2) x
  have i0 := inv3_entry J h 0 a
  have i1 := inv3_entry J h 1 a
  have i2 := inv3_entry J h 2 a
  simp only [dotProduct, Fin.sum_univ_three, tangent]
  rw [e 0, e 1, e 2]
  fin_cases a <;> simp at i0 i1 i2 ⊢ <;> linear_combination u 0 * i0 + u 1 * i1 + u 2 * i2

/-- C54 (3D, 2-forms): the flux of the value through the face spanned by the other two tangent vectors is the
component in the reference element. -/
theorem c54_flux_3d (orth : Bool) (A : M3 K) (delta : Fin 3 → K)
    (h : Three.jacobian (Three.jacobianMatrix orth A delta) ≠ 0) (u : Fin 3 → K) (a : Fin 3) :
    let J := Three.jacobianMatrix orth A delta
    dotProduct (Three.value2 orth (Three.inverse J) (u 0) (u 1) (u 2))
      (crossProduct (tangent J (a + 1)) (tangent J (a + 2))) = u a := by
  intro J
  rw [value2_eq (three_diag_inv (three_diag_jac orth A delta))]
  have h1 := inv_mul_cancel₀ h
  simp only [dotProduct, Fin.sum_univ_three]
  rw [value2_piola J h, value2_piola J h, value2_piola J h]
  obtain ⟨r, hr⟩ : ∃ r, r = (Three.jacobian J)⁻¹ := ⟨_, rfl⟩
  change (Three.jacobian J)⁻¹ * Three.jacobian J = 1 at h1
  rw [← hr] at h1 ⊢
  unfold Three.jacobian at h1
  fin_cases a <;> simp [crossProduct, tangent] <;>
    first | linear_combination u 0 * h1 | linear_combination u 1 * h1 | linear_combination u 2 * h1

/-- C54 (3D, 3-forms): value times volume factor. -/
theorem c54_volume_3d (J : Nat → M3 K) (m : Nat) (h : Three.jacobian (J m) ≠ 0) (nx ny nz xs ys zs : List K)
    (w : Nat → K) :
    Three.reconstruct3 J nx ny nz xs ys zs w m * Matrix.det (Matrix.of (J m))
      = Basis.Three.recon3 nx ny nz xs ys zs w m := by
  rw [Three.reconstruct3, valueTop_eq, ← three_det]
  have e := (c53_metric_3d (J m) (by rwa [← three_det])).2.2.2.1
  rw [e, ← three_det]
  change (Three.jacobian (J m))⁻¹ * Basis.Three.recon3 nx ny nz xs ys zs w m * Three.jacobian (J m) = _
  field_simp

/-- C54 (2D, inner 1-forms). -/
theorem c54_line_2d (orth : Bool) (A : M2 K) (delta : Fin 2 → K)
    (h : Two.jacobian (Two.jacobianMatrix orth A delta) ≠ 0) (u : Fin 2 → K) (a : Fin 2) :
    let J := Two.jacobianMatrix orth A delta
    dotProduct (Two.valueInner1 orth (Two.inverse J) (u 0) (u 1)) (tangent J a) = u a := by
  intro J
  have e := fun x => valueInner_eq (two_diag_inv (two_diag_jac orth A delta)) (u 0) (u 1) x
  have i0 := inv2_entry J h 0 a
  have i1 := inv2_entry J h 1 a
  simp only [dotProduct, Fin.sum_univ_two, tangent]
  rw [e 0, e 1]
  fin_cases a <;> simp at i0 i1 ⊢ <;> linear_combination u 0 * i0 + u 1 * i1

/-- A quarter turn: the normal of an edge with tangent `t`. -/
def normalOf (t : Fin 2 → K) : Fin 2 → K := ![t 1, -t 0]

/-- C54 (2D, outer 1-forms): the flux through the edge with tangent `J e_1` is the first component, the flux through
the edge with tangent `J e_0` the second one (with the normal on the other side). -/
theorem c54_flux_2d (orth : Bool) (A : M2 K) (delta : Fin 2 → K)
    (h : Two.jacobian (Two.jacobianMatrix orth A delta) ≠ 0) (u v : K) :
    let J := Two.jacobianMatrix orth A delta
    dotProduct (Two.valueOuter1 orth (Two.inverse J) u v) (normalOf (tangent J 1)) = u ∧
    dotProduct (Two.valueOuter1 orth (Two.inverse J) u v) (-normalOf (tangent J 0)) = v := by
  intro J
  rw [valueOuter_eq (two_diag_inv (two_diag_jac orth A delta))]
  have h1 := inv_mul_cancel₀ h
  simp only [dotProduct, Fin.sum_univ_two]
  rw [valueOuter_piola J, valueOuter_piola J]
  change (Two.jacobian J)⁻¹ * Two.jacobian J = 1 at h1
  obtain ⟨r, hr⟩ : ∃ r, r = (Two.jacobian J)⁻¹ := ⟨_, rfl⟩
  rw [← hr] at h1 ⊢
  unfold Two.jacobian at h1
  constructor <;> simp [normalOf, tangent] <;>
    first | linear_combination u * h1 | linear_combination v * h1

/-- C54 (2D, 2-forms). -/
theorem c54_area_2d (J : Nat → M2 K) (m : Nat) (h : Two.jacobian (J m) ≠ 0) (nx ny xs ys : List K)
    (w : Nat → K) :
    Two.reconstruct2 J nx ny xs ys w m * Matrix.det (Matrix.of (J m)) = Basis.Two.recon2 nx ny xs ys w m := by
  rw [Two.reconstruct2, two_value2_eq, ← two_det]
  have e := (c53_metric_2d (J m) (by rwa [← two_det])).2.2.2.1
  rw [e, ← two_det]
  change (Two.jacobian (J m))⁻¹ * Basis.Two.recon2 nx ny xs ys w m * Two.jacobian (J m) = _
  field_simp

/-- A sheared element and an orthogonal one meet the hypotheses. -/
example : Three.jacobian (Three.jacobianMatrix false ![![2, 1, 0], ![0, 1, 1], ![1, 0, 3]] ![1, 1 / 2, 1 / 4] : M3 ℚ) ≠ 0 := by
  simp [Three.jacobian, Three.jacobianMatrix]; norm_num
example : Three.jacobian (Three.jacobianMatrix true ![![2, 1, 0], ![0, 1, 1], ![1, 0, 3]] ![1, 1 / 2, 1 / 4] : M3 ℚ) ≠ 0 := by
  simp [Three.jacobian, Three.jacobianMatrix]
example : Two.jacobian (Two.jacobianMatrix false ![![2, 1], ![1, 1]] ![1, 1 / 2] : M2 ℚ) ≠ 0 := by
  simp [Two.jacobian, Two.jacobianMatrix]; norm_num

/-! ### reconstruction matrices -/

theorem mulVec_hstack3 (b : Fin 3 → Arr K) (f : Fin 3 → Nat → K) (w : Nat → K) (m : Nat) :
    mulVec (Three.hstack3 (scaleT (b 0) (f 0)) (scaleT (b 1) (f 1)) (scaleT (b 2) (f 2))) w m
      = f 0 m * einsum (b 0) w m + f 1 m * einsum (b 1) (slice w (b 0).rows) m
        + f 2 m * einsum (b 2) (slice w ((b 0).rows + (b 1).rows)) m := by
  rw [mulVec, range_map_sum]
  change ∑ i ∈ range ((b 0).rows + (b 1).rows + (b 2).rows), (if i < (b 0).rows then (b 0).e i m * f 0 m
      else if i < (b 0).rows + (b 1).rows then (b 1).e (i - (b 0).rows) m * f 1 m
      else (b 2).e (i - ((b 0).rows + (b 1).rows)) m * f 2 m) * w i = _
  rw [Finset.sum_range_add, Finset.sum_range_add, einsum_eq, einsum_eq, einsum_eq, Finset.mul_sum, Finset.mul_sum,
    Finset.mul_sum]
  congr 1
  · congr 1
    · refine Finset.sum_congr rfl fun i hi => ?_
      rw [if_pos (mem_range.1 hi)]; ring
    · refine Finset.sum_congr rfl fun i hi => ?_
      have := mem_range.1 hi
      rw [if_neg (by omega), if_pos (by omega), Nat.add_sub_cancel_left]; simp only [slice]; ring
  · refine Finset.sum_congr rfl fun i hi => ?_
    rw [if_neg (by omega), if_neg (by omega), Nat.add_sub_cancel_left]; simp only [slice]; ring

theorem mulVec_hstack2 (b : Fin 2 → Arr K) (f : Fin 2 → Nat → K) (w : Nat → K) (m : Nat) :
    mulVec (Two.hstack2 (scaleT (b 0) (f 0)) (scaleT (b 1) (f 1))) w m
      = f 0 m * einsum (b 0) w m + f 1 m * einsum (b 1) (slice w (b 0).rows) m := by
  rw [mulVec, range_map_sum]
  change ∑ i ∈ range ((b 0).rows + (b 1).rows), (if i < (b 0).rows then (b 0).e i m * f 0 m
      else (b 1).e (i - (b 0).rows) m * f 1 m) * w i = _
  rw [Finset.sum_range_add, einsum_eq, einsum_eq, Finset.mul_sum, Finset.mul_sum]
  congr 1
  · refine Finset.sum_congr rfl fun i hi => ?_
    rw [if_pos (mem_range.1 hi)]; ring
  · refine Finset.sum_congr rfl fun i hi => ?_
    rw [if_neg (by omega), Nat.add_sub_cancel_left]; simp only [slice]; ring

end pullback

section concrete
variable {K : Type*} [Field K]

/-! The sizes of the arrays of basis functions. -/

theorem rows3_1 {nx ny nz : List K} (hx : nx ≠ []) (hy : ny ≠ []) (hz : nz ≠ []) (xs ys zs : List K) :
    (Three.basis1 nx ny nz xs ys zs 0).rows = Mifem.Three.nb1c0 (nx.length - 1) (ny.length - 1) (nz.length - 1) ∧
    (Three.basis1 nx ny nz xs ys zs 1).rows = Mifem.Three.nb1c1 (nx.length - 1) (ny.length - 1) (nz.length - 1) ∧
    (Three.basis1 nx ny nz xs ys zs 2).rows = Mifem.Three.nb1c2 (nx.length - 1) (ny.length - 1) (nz.length - 1) := by
  have ex : nx.length - 1 + 1 = nx.length := Nat.sub_add_cancel (List.length_pos_iff.2 hx)
  have ey : ny.length - 1 + 1 = ny.length := Nat.sub_add_cancel (List.length_pos_iff.2 hy)
  have ez : nz.length - 1 + 1 = nz.length := Nat.sub_add_cancel (List.length_pos_iff.2 hz)
  refine ⟨?_, ?_, ?_⟩ <;>
    simp [Three.basis1, Basis.Three.kron3, kron, nodeBasis, edgeBasis, Mifem.Three.nb1c0, Mifem.Three.nb1c1,
      Mifem.Three.nb1c2, ex, ey, ez] <;> ring

theorem rows3_2 {nx ny nz : List K} (hx : nx ≠ []) (hy : ny ≠ []) (hz : nz ≠ []) (xs ys zs : List K) :
    (Three.basis2 nx ny nz xs ys zs 0).rows = Mifem.Three.nb2c0 (nx.length - 1) (ny.length - 1) (nz.length - 1) ∧
    (Three.basis2 nx ny nz xs ys zs 1).rows = Mifem.Three.nb2c1 (nx.length - 1) (ny.length - 1) (nz.length - 1) ∧
    (Three.basis2 nx ny nz xs ys zs 2).rows = Mifem.Three.nb2c2 (nx.length - 1) (ny.length - 1) (nz.length - 1) := by
  have ex : nx.length - 1 + 1 = nx.length := Nat.sub_add_cancel (List.length_pos_iff.2 hx)
  have ey : ny.length - 1 + 1 = ny.length := Nat.sub_add_cancel (List.length_pos_iff.2 hy)
  have ez : nz.length - 1 + 1 = nz.length := Nat.sub_add_cancel (List.length_pos_iff.2 hz)
  refine ⟨?_, ?_, ?_⟩ <;>
    simp [Three.basis2, Basis.Three.kron3, kron, nodeBasis, edgeBasis, Mifem.Three.nb2c0, Mifem.Three.nb2c1,
      Mifem.Three.nb2c2, ex, ey, ez] <;> ring

theorem recon1_eq {nx ny nz : List K} (hx : nx ≠ []) (hy : ny ≠ []) (hz : nz ≠ []) (xs ys zs : List K)
    (w : Nat → K) (m : Nat) :
    let b := Three.basis1 nx ny nz xs ys zs
    Basis.Three.recon1 nx ny nz xs ys zs w m
      = (einsum (b 0) w m, einsum (b 1) (slice w (b 0).rows) m, einsum (b 2) (slice w ((b 0).rows + (b 1).rows)) m) := by
  intro b
  obtain ⟨h0, h1, _⟩ := rows3_1 hx hy hz xs ys zs
  have h0' : (b 0).rows = _ := h0
  have h1' : (b 1).rows = _ := h1
  rw [h0', h1']
  simp only [Basis.Three.recon1, Mifem.Three.nb1, Nat.add_sub_cancel]
  rfl

theorem recon2_eq {nx ny nz : List K} (hx : nx ≠ []) (hy : ny ≠ []) (hz : nz ≠ []) (xs ys zs : List K)
    (w : Nat → K) (m : Nat) :
    let b := Three.basis2 nx ny nz xs ys zs
    Basis.Three.recon2 nx ny nz xs ys zs w m
      = (einsum (b 0) w m, einsum (b 1) (slice w (b 0).rows) m, einsum (b 2) (slice w ((b 0).rows + (b 1).rows)) m) := by
  intro b
  obtain ⟨h0, h1, _⟩ := rows3_2 hx hy hz xs ys zs
  have h0' : (b 0).rows = _ := h0
  have h1' : (b 1).rows = _ := h1
  rw [h0', h1']
  simp only [Basis.Three.recon2, Mifem.Three.nb2, Nat.add_sub_cancel]
  rfl

theorem cols3_1 (nx ny nz xs ys zs : List K) (k : Fin 3) :
    (Three.basis1 nx ny nz xs ys zs k).cols = zs.length * ys.length * xs.length := by
  fin_cases k <;> rfl
theorem cols3_2 (nx ny nz xs ys zs : List K) (k : Fin 3) :
    (Three.basis2 nx ny nz xs ys zs k).cols = zs.length * ys.length * xs.length := by
  fin_cases k <;> rfl

theorem rowsI {nx ny : List K} (hx : nx ≠ []) (hy : ny ≠ []) (xs ys : List K) :
    (Two.basisInner1 nx ny xs ys 0).rows = Mifem.Two.nbI1c0 (nx.length - 1) (ny.length - 1) ∧
    (Two.basisInner1 nx ny xs ys 1).rows = Mifem.Two.nbI1c1 (nx.length - 1) (ny.length - 1) := by
  have ex : nx.length - 1 + 1 = nx.length := Nat.sub_add_cancel (List.length_pos_iff.2 hx)
  have ey : ny.length - 1 + 1 = ny.length := Nat.sub_add_cancel (List.length_pos_iff.2 hy)
  refine ⟨?_, ?_⟩ <;>
    simp [Two.basisInner1, Basis.Two.basisDxi, Basis.Two.basisDet, kron, nodeBasis, edgeBasis, Mifem.Two.nbI1c0,
      Mifem.Two.nbI1c1, ex, ey] <;> ring

theorem rowsO {nx ny : List K} (hx : nx ≠ []) (hy : ny ≠ []) (xs ys : List K) :
    (Two.basisOuter1 nx ny xs ys 0).rows = Mifem.Two.nbO1c0 (nx.length - 1) (ny.length - 1) ∧
    (Two.basisOuter1 nx ny xs ys 1).rows = Mifem.Two.nbO1c1 (nx.length - 1) (ny.length - 1) := by
  have ex : nx.length - 1 + 1 = nx.length := Nat.sub_add_cancel (List.length_pos_iff.2 hx)
  have ey : ny.length - 1 + 1 = ny.length := Nat.sub_add_cancel (List.length_pos_iff.2 hy)
  refine ⟨?_, ?_⟩ <;>
    simp [Two.basisOuter1, Basis.Two.basisDxi, Basis.Two.basisDet, kron, nodeBasis, edgeBasis, Mifem.Two.nbO1c0,
      Mifem.Two.nbO1c1, ex, ey] <;> ring

theorem reconI_eq {nx ny : List K} (hx : nx ≠ []) (hy : ny ≠ []) (xs ys : List K) (w : Nat → K) (m : Nat) :
    let b := Two.basisInner1 nx ny xs ys
    Basis.Two.reconInner1 nx ny xs ys w m = (einsum (b 0) w m, einsum (b 1) (slice w (b 0).rows) m) := by
  intro b
  have h0' : (b 0).rows = _ := (rowsI hx hy xs ys).1
  rw [h0']
  rfl

theorem reconO_eq {nx ny : List K} (hx : nx ≠ []) (hy : ny ≠ []) (xs ys : List K) (w : Nat → K) (m : Nat) :
    let b := Two.basisOuter1 nx ny xs ys
    Basis.Two.reconOuter1 nx ny xs ys w m = (einsum (b 0) w m, einsum (b 1) (slice w (b 0).rows) m) := by
  intro b
  have h0' : (b 0).rows = _ := (rowsO hx hy xs ys).1
  rw [h0']
  rfl

theorem colsI (nx ny xs ys : List K) (k : Fin 2) : (Two.basisInner1 nx ny xs ys k).cols = ys.length * xs.length := by
  fin_cases k <;> rfl
theorem colsO (nx ny xs ys : List K) (k : Fin 2) : (Two.basisOuter1 nx ny xs ys k).cols = ys.length * xs.length := by
  fin_cases k <;> rfl

/-- C54: a reconstruction matrix applied to a cochain gives the reconstructed values (3D, 1- and 2-forms). -/
theorem c54_matrix_3d (orth : Bool) (A : Nat → M3 K) (delta : Fin 3 → K) (nx ny nz xs ys zs : List K)
    (hx : nx ≠ []) (hy : ny ≠ []) (hz : nz ≠ []) (w : Nat → K) (m : Nat) (x : Fin 3) :
    let J := fun m => Three.jacobianMatrix orth (A m) delta
    mulVec (Three.reconMatrix1 orth (fun m => Three.inverse (J m)) (Three.basis1 nx ny nz xs ys zs) x) w m
      = Three.reconstruct1 orth J nx ny nz xs ys zs w m x ∧
    mulVec (Three.reconMatrix2 orth (fun m => Three.inverse (J m)) (Three.basis2 nx ny nz xs ys zs) x) w m
      = Three.reconstruct2 orth J nx ny nz xs ys zs w m x := by
  intro J
  have hd : ∀ m, DiagIf3 orth (Three.inverse (J m)) := fun m => three_diag_inv (three_diag_jac orth (A m) delta)
  constructor
  · have e : Three.reconMatrix1 orth (fun m => Three.inverse (J m)) (Three.basis1 nx ny nz xs ys zs) x
      = Three.hstack3 (scaleT (Three.basis1 nx ny nz xs ys zs 0) (fun m => Three.inverse (J m) 0 x))
        (scaleT (Three.basis1 nx ny nz xs ys zs 1) (fun m => Three.inverse (J m) 1 x))
        (scaleT (Three.basis1 nx ny nz xs ys zs 2) (fun m => Three.inverse (J m) 2 x)) := by
      have : ∀ a, (if x ≠ a ∧ orth = true then scaleT (Three.basis1 nx ny nz xs ys zs a) (fun _ => 0)
          else scaleT (Three.basis1 nx ny nz xs ys zs a) (fun m => Three.inverse (J m) a x))
          = scaleT (Three.basis1 nx ny nz xs ys zs a) (fun m => Three.inverse (J m) a x) := by
        intro a
        split_ifs with h
        · simp only [hd _ h.2 a x (Ne.symm h.1)]
        · rfl
      simp only [Three.reconMatrix1, this]
    rw [e, mulVec_hstack3 _ (fun a m => Three.inverse (J m) a x), Three.reconstruct1, recon1_eq hx hy hz]
    simp only [value1_eq (hd m)]
    ring
  · let cof : Fin 3 → Fin 3 → Nat → K := fun k a m => Three.value2 false (Three.inverse (J m))
      (if a = 0 then 1 else 0) (if a = 1 then 1 else 0) (if a = 2 then 1 else 0) k
    have e : Three.reconMatrix2 orth (fun m => Three.inverse (J m)) (Three.basis2 nx ny nz xs ys zs) x
      = Three.hstack3 (scaleT (Three.basis2 nx ny nz xs ys zs 0) (cof x 0))
        (scaleT (Three.basis2 nx ny nz xs ys zs 1) (cof x 1))
        (scaleT (Three.basis2 nx ny nz xs ys zs 2) (cof x 2)) := by
      unfold Three.reconMatrix2
      cases ho : orth with
      | false => fin_cases x <;> simp [cof, Three.value2]
      | true =>
        have h' := fun m => hd m ho
        fin_cases x <;> simp [cof, Three.value2, fun m => h' m 0 1 (by decide), fun m => h' m 0 2 (by decide),
          fun m => h' m 1 0 (by decide), fun m => h' m 1 2 (by decide), fun m => h' m 2 0 (by decide),
          fun m => h' m 2 1 (by decide)]
    rw [e, mulVec_hstack3 _ (cof x), Three.reconstruct2, recon2_eq hx hy hz]
    simp only [value2_eq (hd m)]
    fin_cases x <;> simp [cof, Three.value2] <;> ring

/-- C54: the same in 2D. -/
theorem c54_matrix_2d (orth : Bool) (A : Nat → M2 K) (delta : Fin 2 → K) (nx ny xs ys : List K)
    (hx : nx ≠ []) (hy : ny ≠ []) (w : Nat → K) (m : Nat) (x : Fin 2) :
    let J := fun m => Two.jacobianMatrix orth (A m) delta
    mulVec (Two.reconMatrixInner1 orth (fun m => Two.inverse (J m)) (Two.basisInner1 nx ny xs ys) x) w m
      = Two.reconstructInner1 orth J nx ny xs ys w m x ∧
    mulVec (Two.reconMatrixOuter1 orth (fun m => Two.inverse (J m)) (Two.basisOuter1 nx ny xs ys) x) w m
      = Two.reconstructOuter1 orth J nx ny xs ys w m x := by
  intro J
  have hd : ∀ m, DiagIf2 orth (Two.inverse (J m)) := fun m => two_diag_inv (two_diag_jac orth (A m) delta)
  constructor
  · have e : Two.reconMatrixInner1 orth (fun m => Two.inverse (J m)) (Two.basisInner1 nx ny xs ys) x
      = Two.hstack2 (scaleT (Two.basisInner1 nx ny xs ys 0) (fun m => Two.inverse (J m) 0 x))
        (scaleT (Two.basisInner1 nx ny xs ys 1) (fun m => Two.inverse (J m) 1 x)) := by
      have : ∀ a, (if x ≠ a ∧ orth = true then scaleT (Two.basisInner1 nx ny xs ys a) (fun _ => 0)
          else scaleT (Two.basisInner1 nx ny xs ys a) (fun m => Two.inverse (J m) a x))
          = scaleT (Two.basisInner1 nx ny xs ys a) (fun m => Two.inverse (J m) a x) := by
        intro a
        split_ifs with h
        · simp only [hd _ h.2 a x (Ne.symm h.1)]
        · rfl
      simp only [Two.reconMatrixInner1, this]
    rw [e, mulVec_hstack2 _ (fun a m => Two.inverse (J m) a x), Two.reconstructInner1, reconI_eq hx hy]
    simp only [valueInner_eq (hd m)]
    ring
  · let cof : Fin 2 → Fin 2 → Nat → K := fun k a m => Two.valueOuter1 false (Two.inverse (J m))
      (if a = 0 then 1 else 0) (if a = 1 then 1 else 0) k
    have e : Two.reconMatrixOuter1 orth (fun m => Two.inverse (J m)) (Two.basisOuter1 nx ny xs ys) x
      = Two.hstack2 (scaleT (Two.basisOuter1 nx ny xs ys 0) (cof x 0))
        (scaleT (Two.basisOuter1 nx ny xs ys 1) (cof x 1)) := by
      unfold Two.reconMatrixOuter1
      cases ho : orth with
      | false => fin_cases x <;> simp [cof, Two.valueOuter1]
      | true =>
        have h' := fun m => hd m ho
        fin_cases x <;> simp [cof, Two.valueOuter1, fun m => h' m 0 1 (by decide), fun m => h' m 1 0 (by decide)]
    rw [e, mulVec_hstack2 _ (cof x), Two.reconstructOuter1, reconO_eq hx hy]
    simp only [valueOuter_eq (hd m)]
    fin_cases x <;> simp [cof, Two.valueOuter1] <;> ring

/-! ## C56: inner products

`a` is the cochain of `other` (rows), `b` the one of `self` (columns); `same` is `other is self`. -/

/-- The sum over the quadrature points `m` of weight times volume factor times `F m`. -/
def quad3 (n : Nat) (q : Nat → K) (J : Nat → M3 K) (F : Nat → K) : K :=
  ∑ m ∈ range n, q m * Matrix.det (Matrix.of (J m)) * F m
def quad2 (n : Nat) (q : Nat → K) (J : Nat → M2 K) (F : Nat → K) : K :=
  ∑ m ∈ range n, q m * Matrix.det (Matrix.of (J m)) * F m

theorem c56_0form_3d (J : Nat → M3 K) (q : Nat → K) (ox oy oz nx ny nz xs ys zs : List K) (a b : Nat → K) :
    let O := Three.basis0 ox oy oz xs ys zs
    let S := Three.basis0 nx ny nz xs ys zs
    ∑ i ∈ range O.rows, ∑ j ∈ range S.rows, a i * inner0 (fun m => Three.jacobian (J m)) q O S i j * b j
      = quad3 (zs.length * ys.length * xs.length) q J fun m =>
          Basis.Three.recon0 ox oy oz xs ys zs a m * Basis.Three.recon0 nx ny nz xs ys zs b m := by
  intro O S
  rw [inner0_form]
  simp only [quad3, ← three_det]
  rfl

theorem c56_1form_3d (orth same : Bool) (A : Nat → M3 K) (delta : Fin 3 → K) (q : Nat → K)
    (ox oy oz nx ny nz xs ys zs : List K) (hox : ox ≠ []) (hoy : oy ≠ []) (hoz : oz ≠ []) (hx : nx ≠ []) (hy : ny ≠ [])
    (hz : nz ≠ []) (hs : same = true → ox = nx ∧ oy = ny ∧ oz = nz) (a b : Nat → K) :
    let J := fun m => Three.jacobianMatrix orth (A m) delta
    ∑ i ∈ range (Mifem.Three.nb1 (ox.length - 1) (oy.length - 1) (oz.length - 1)),
      ∑ j ∈ range (Mifem.Three.nb1 (nx.length - 1) (ny.length - 1) (nz.length - 1)),
        a i * Three.inner1 orth same J q (Three.basis1 ox oy oz xs ys zs) (Three.basis1 nx ny nz xs ys zs) i j * b j
      = quad3 (zs.length * ys.length * xs.length) q J fun m =>
          dotProduct (Three.reconstruct1 orth J ox oy oz xs ys zs a m) (Three.reconstruct1 orth J nx ny nz xs ys zs b m) := by
  intro J
  obtain ⟨o0, o1, o2⟩ := rows3_1 hox hoy hoz xs ys zs
  obtain ⟨r0, r1, r2⟩ := rows3_1 hx hy hz xs ys zs
  rw [Mifem.Three.nb1, Mifem.Three.nb1, ← o0, ← o1, ← o2, ← r0, ← r1, ← r2]
  rw [inner1_form J (fun m => three_diag_jac orth (A m) delta) q _ _ _ (cols3_1 nx ny nz xs ys zs)
    (fun h => by obtain ⟨e1, e2, e3⟩ := hs h; rw [e1, e2, e3])]
  simp only [quad3, ← three_det, Three.reconstruct1, recon1_eq hx hy hz, recon1_eq hox hoy hoz, dotProduct]

theorem c56_2form_3d (orth same : Bool) (A : Nat → M3 K) (delta : Fin 3 → K) (q : Nat → K)
    (ox oy oz nx ny nz xs ys zs : List K) (hox : ox ≠ []) (hoy : oy ≠ []) (hoz : oz ≠ []) (hx : nx ≠ []) (hy : ny ≠ [])
    (hz : nz ≠ []) (hs : same = true → ox = nx ∧ oy = ny ∧ oz = nz) (a b : Nat → K) :
    let J := fun m => Three.jacobianMatrix orth (A m) delta
    ∑ i ∈ range (Mifem.Three.nb2 (ox.length - 1) (oy.length - 1) (oz.length - 1)),
      ∑ j ∈ range (Mifem.Three.nb2 (nx.length - 1) (ny.length - 1) (nz.length - 1)),
        a i * Three.inner2 orth same J q (Three.basis2 ox oy oz xs ys zs) (Three.basis2 nx ny nz xs ys zs) i j * b j
      = quad3 (zs.length * ys.length * xs.length) q J fun m =>
          dotProduct (Three.reconstruct2 orth J ox oy oz xs ys zs a m) (Three.reconstruct2 orth J nx ny nz xs ys zs b m) := by
  intro J
  obtain ⟨o0, o1, o2⟩ := rows3_2 hox hoy hoz xs ys zs
  obtain ⟨r0, r1, r2⟩ := rows3_2 hx hy hz xs ys zs
  rw [Mifem.Three.nb2, Mifem.Three.nb2, ← o0, ← o1, ← o2, ← r0, ← r1, ← r2]
  rw [inner2_form J (fun m => three_diag_jac orth (A m) delta) q _ _ _ (cols3_2 nx ny nz xs ys zs)
    (fun h => by obtain ⟨e1, e2, e3⟩ := hs h; rw [e1, e2, e3])]
  simp only [quad3, ← three_det, Three.reconstruct2, recon2_eq hx hy hz, recon2_eq hox hoy hoz, dotProduct]

theorem c56_3form_3d (J : Nat → M3 K) (hJ : ∀ m, Matrix.det (Matrix.of (J m)) ≠ 0) (q : Nat → K)
    (ox oy oz nx ny nz xs ys zs : List K) (a b : Nat → K) :
    let O := Three.basis3 ox oy oz xs ys zs
    let S := Three.basis3 nx ny nz xs ys zs
    ∑ i ∈ range O.rows, ∑ j ∈ range S.rows, a i * innerTop (fun m => Three.jacobian (J m)) q O S i j * b j
      = quad3 (zs.length * ys.length * xs.length) q J fun m =>
          Three.reconstruct3 J ox oy oz xs ys zs a m * Three.reconstruct3 J nx ny nz xs ys zs b m := by
  intro O S
  rw [innerTop_form _ _ _ _ _ _ (fun m _ => by rw [three_det]; exact hJ m)]
  simp only [quad3, Three.reconstruct3, valueTop_eq, (c53_metric_3d _ (hJ _)).2.2.2.1, three_det]
  rfl

theorem c56_0form_2d (J : Nat → M2 K) (q : Nat → K) (ox oy nx ny xs ys : List K) (a b : Nat → K) :
    let O := Basis.Two.basis0 ox oy xs ys
    let S := Basis.Two.basis0 nx ny xs ys
    ∑ i ∈ range O.rows, ∑ j ∈ range S.rows, a i * inner0 (fun m => Two.jacobian (J m)) q O S i j * b j
      = quad2 (ys.length * xs.length) q J fun m =>
          Basis.Two.recon0 ox oy xs ys a m * Basis.Two.recon0 nx ny xs ys b m := by
  intro O S
  rw [inner0_form]
  simp only [quad2, ← two_det]
  rfl

theorem c56_inner_1form_2d (orth same : Bool) (A : Nat → M2 K) (delta : Fin 2 → K) (q : Nat → K)
    (ox oy nx ny xs ys : List K) (hox : ox ≠ []) (hoy : oy ≠ []) (hx : nx ≠ []) (hy : ny ≠ [])
    (hs : same = true → ox = nx ∧ oy = ny) (a b : Nat → K) :
    let J := fun m => Two.jacobianMatrix orth (A m) delta
    ∑ i ∈ range (Mifem.Two.nbI1 (ox.length - 1) (oy.length - 1)),
      ∑ j ∈ range (Mifem.Two.nbI1 (nx.length - 1) (ny.length - 1)),
        a i * Two.innerInner1 orth same J q (Two.basisInner1 ox oy xs ys) (Two.basisInner1 nx ny xs ys) i j * b j
      = quad2 (ys.length * xs.length) q J fun m =>
          dotProduct (Two.reconstructInner1 orth J ox oy xs ys a m) (Two.reconstructInner1 orth J nx ny xs ys b m) := by
  intro J
  obtain ⟨o0, o1⟩ := rowsI hox hoy xs ys
  obtain ⟨r0, r1⟩ := rowsI hx hy xs ys
  rw [Mifem.Two.nbI1, Mifem.Two.nbI1, ← o0, ← o1, ← r0, ← r1]
  rw [innerInner1_form J (fun m => two_diag_jac orth (A m) delta) q _ _ _ (colsI nx ny xs ys)
    (fun h => by obtain ⟨e1, e2⟩ := hs h; rw [e1, e2])]
  simp only [quad2, ← two_det, Two.reconstructInner1, reconI_eq hx hy, reconI_eq hox hoy, dotProduct]

theorem c56_outer_1form_2d (orth same : Bool) (A : Nat → M2 K) (delta : Fin 2 → K) (q : Nat → K)
    (ox oy nx ny xs ys : List K) (hox : ox ≠ []) (hoy : oy ≠ []) (hx : nx ≠ []) (hy : ny ≠ [])
    (hs : same = true → ox = nx ∧ oy = ny) (a b : Nat → K) :
    let J := fun m => Two.jacobianMatrix orth (A m) delta
    ∑ i ∈ range (Mifem.Two.nbO1 (ox.length - 1) (oy.length - 1)),
      ∑ j ∈ range (Mifem.Two.nbO1 (nx.length - 1) (ny.length - 1)),
        a i * Two.innerOuter1 orth same J q (Two.basisOuter1 ox oy xs ys) (Two.basisOuter1 nx ny xs ys) i j * b j
      = quad2 (ys.length * xs.length) q J fun m =>
          dotProduct (Two.reconstructOuter1 orth J ox oy xs ys a m) (Two.reconstructOuter1 orth J nx ny xs ys b m) := by
  intro J
  obtain ⟨o0, o1⟩ := rowsO hox hoy xs ys
  obtain ⟨r0, r1⟩ := rowsO hx hy xs ys
  rw [Mifem.Two.nbO1, Mifem.Two.nbO1, ← o0, ← o1, ← r0, ← r1]
  rw [innerOuter1_form J (fun m => two_diag_jac orth (A m) delta) q _ _ _ (colsO nx ny xs ys)
    (fun h => by obtain ⟨e1, e2⟩ := hs h; rw [e1, e2])]
  simp only [quad2, ← two_det, Two.reconstructOuter1, reconO_eq hx hy, reconO_eq hox hoy, dotProduct]

theorem c56_2form_2d (J : Nat → M2 K) (hJ : ∀ m, Matrix.det (Matrix.of (J m)) ≠ 0) (q : Nat → K)
    (ox oy nx ny xs ys : List K) (a b : Nat → K) :
    let O := Basis.Two.basis2 ox oy xs ys
    let S := Basis.Two.basis2 nx ny xs ys
    ∑ i ∈ range O.rows, ∑ j ∈ range S.rows, a i * innerTop (fun m => Two.jacobian (J m)) q O S i j * b j
      = quad2 (ys.length * xs.length) q J fun m =>
          Two.reconstruct2 J ox oy xs ys a m * Two.reconstruct2 J nx ny xs ys b m := by
  intro O S
  rw [innerTop_form _ _ _ _ _ _ (fun m _ => by rw [two_det]; exact hJ m)]
  simp only [quad2, Two.reconstruct2, two_value2_eq, (c53_metric_2d _ (hJ _)).2.2.2.1, two_det]
  rfl

/-! ## C57: wedge products -/

/-- C57 (3D): the wedge product of a 2-form (`other`) and a 1-form (`self`) is the quadrature of the dot product of
the values in physical space, whatever the mapping of the element; the matrix does not depend on it. -/
theorem c57_wedge_12_3d (orth : Bool) (A : Nat → M3 K) (delta : Fin 3 → K)
    (hJ : ∀ m, Matrix.det (Matrix.of (Three.jacobianMatrix orth (A m) delta)) ≠ 0) (q : Nat → K)
    (ox oy oz nx ny nz xs ys zs : List K) (hox : ox ≠ []) (hoy : oy ≠ []) (hoz : oz ≠ []) (hx : nx ≠ []) (hy : ny ≠ [])
    (hz : nz ≠ []) (a b : Nat → K) :
    let J := fun m => Three.jacobianMatrix orth (A m) delta
    ∑ i ∈ range (Mifem.Three.nb2 (ox.length - 1) (oy.length - 1) (oz.length - 1)),
      ∑ j ∈ range (Mifem.Three.nb1 (nx.length - 1) (ny.length - 1) (nz.length - 1)),
        a i * Three.wedge12 q (Three.basis2 ox oy oz xs ys zs) (Three.basis1 nx ny nz xs ys zs) i j * b j
      = quad3 (zs.length * ys.length * xs.length) q J fun m =>
          dotProduct (Three.reconstruct2 orth J ox oy oz xs ys zs a m) (Three.reconstruct1 orth J nx ny nz xs ys zs b m) := by
  intro J
  obtain ⟨o0, o1, o2⟩ := rows3_2 hox hoy hoz xs ys zs
  obtain ⟨r0, r1, r2⟩ := rows3_1 hx hy hz xs ys zs
  rw [Mifem.Three.nb2, Mifem.Three.nb1, ← o0, ← o1, ← o2, ← r0, ← r1, ← r2]
  rw [wedge12_form q _ _ _ (cols3_1 nx ny nz xs ys zs), quad3]
  refine Finset.sum_congr rfl fun m _ => ?_
  have hm : Three.jacobian (J m) ≠ 0 := by rw [three_det]; exact hJ m
  have hd := three_diag_inv (three_diag_jac orth (A m) delta)
  simp only [Three.reconstruct1, Three.reconstruct2, recon1_eq hx hy hz, recon2_eq hox hoy hoz, dotProduct,
    Fin.sum_univ_three]
  have e1 := fun u v w x => value1_eq (orth := orth) (iJ := Three.inverse (J m)) hd u v w x
  have e2 := fun u v w => value2_eq (orth := orth) (iJ := Three.inverse (J m)) hd u v w
  simp only [e1, e2, value2_piola _ hm, ← three_det]
  have i0 := fun c => inv3_entry (J m) hm 0 c
  have i1 := fun c => inv3_entry (J m) hm 1 c
  have i2 := fun c => inv3_entry (J m) hm 2 c
  have i00 := i0 0; have i01 := i0 1; have i02 := i0 2
  have i10 := i1 0; have i11 := i1 1; have i12 := i1 2
  have i20 := i2 0; have i21 := i2 1; have i22 := i2 2
  simp only [if_true, Fin.reduceEq, if_false] at i00 i01 i02 i10 i11 i12 i20 i21 i22
  have hr := inv_mul_cancel₀ hm
  generalize einsum (Three.basis2 ox oy oz xs ys zs 0) a m = u0
  generalize einsum (Three.basis2 ox oy oz xs ys zs 1) (slice a _) m = u1
  generalize einsum (Three.basis2 ox oy oz xs ys zs 2) (slice a _) m = u2
  generalize einsum (Three.basis1 nx ny nz xs ys zs 0) b m = v0
  generalize einsum (Three.basis1 nx ny nz xs ys zs 1) (slice b _) m = v1
  generalize einsum (Three.basis1 nx ny nz xs ys zs 2) (slice b _) m = v2
  generalize Three.jacobian (J m) = d at hr ⊢
  generalize d⁻¹ = r at hr ⊢
  generalize Three.inverse (J m) = I at i00 i01 i02 i10 i11 i12 i20 i21 i22 ⊢
  linear_combination (-q m * (r * d)) * (u0 * v0 * i00 + u1 * v0 * i01 + u2 * v0 * i02 + u0 * v1 * i10 + u1 * v1 * i11
    + u2 * v1 * i12 + u0 * v2 * i20 + u1 * v2 * i21 + u2 * v2 * i22) - q m * (u0 * v0 + u1 * v1 + u2 * v2) * hr

/-- C57 (3D): 3-form and 0-form.  Missing: the call itself, which always raises (`c57_3form_refused`). -/
theorem c57_wedge_30_3d_partial (J : Nat → M3 K) (hJ : ∀ m, Matrix.det (Matrix.of (J m)) ≠ 0) (q : Nat → K)
    (ox oy oz nx ny nz xs ys zs : List K) (a b : Nat → K) :
    let O := Three.basis0 ox oy oz xs ys zs
    let S := Three.basis3 nx ny nz xs ys zs
    ∑ i ∈ range O.rows, ∑ j ∈ range S.rows, a i * Three.wedge30 q O S i j * b j
      = quad3 (zs.length * ys.length * xs.length) q J fun m =>
          Basis.Three.recon0 ox oy oz xs ys zs a m * Three.reconstruct3 J nx ny nz xs ys zs b m := by
  intro O S
  rw [wedge30_form, quad3]
  refine Finset.sum_congr rfl fun m _ => ?_
  have := c54_volume_3d J m (by rw [three_det]; exact hJ m) nx ny nz xs ys zs b
  change q m * (Basis.Three.recon0 ox oy oz xs ys zs a m * Basis.Three.recon3 nx ny nz xs ys zs b m) = _
  rw [← this]
  ring

/-- C57 (2D): 0-form and 2-form, either way round. -/
theorem c57_wedge_02_2d (J : Nat → M2 K) (hJ : ∀ m, Matrix.det (Matrix.of (J m)) ≠ 0) (q : Nat → K)
    (ox oy nx ny xs ys : List K) (a b : Nat → K) :
    let B0 := Basis.Two.basis0 ox oy xs ys
    let B2 := Basis.Two.basis2 nx ny xs ys
    (∑ i ∈ range B0.rows, ∑ j ∈ range B2.rows, a i * Two.wedge02 q B0 B2 i j * b j
      = quad2 (ys.length * xs.length) q J fun m =>
          Basis.Two.recon0 ox oy xs ys a m * Two.reconstruct2 J nx ny xs ys b m) ∧
    (∑ i ∈ range B2.rows, ∑ j ∈ range B0.rows, b i * Two.wedge02 q B2 B0 i j * a j
      = quad2 (ys.length * xs.length) q J fun m =>
          Two.reconstruct2 J nx ny xs ys b m * Basis.Two.recon0 ox oy xs ys a m) := by
  intro B0 B2
  constructor
  · have := wedge30_form q B0 B2 a b
    change ∑ i ∈ range B0.rows, ∑ j ∈ range B2.rows, a i * Two.wedge02 q B0 B2 i j * b j = _ at this
    rw [this, quad2]
    refine Finset.sum_congr rfl fun m _ => ?_
    have := c54_area_2d J m (by rw [two_det]; exact hJ m) nx ny xs ys b
    change q m * (Basis.Two.recon0 ox oy xs ys a m * Basis.Two.recon2 nx ny xs ys b m) = _
    rw [← this]
    ring
  · have := wedge30_form q B2 B0 b a
    change ∑ i ∈ range B2.rows, ∑ j ∈ range B0.rows, b i * Two.wedge02 q B2 B0 i j * a j = _ at this
    rw [this, quad2]
    refine Finset.sum_congr rfl fun m _ => ?_
    have := c54_area_2d J m (by rw [two_det]; exact hJ m) nx ny xs ys b
    change q m * (Basis.Two.recon2 nx ny xs ys b m * Basis.Two.recon0 ox oy xs ys a m) = _
    rw [← this]
    ring

/-- C57 (2D): outer 1-form (`other`) and inner 1-form (`self`). -/
theorem c57_wedge_11_2d (orth : Bool) (A : Nat → M2 K) (delta : Fin 2 → K)
    (hJ : ∀ m, Matrix.det (Matrix.of (Two.jacobianMatrix orth (A m) delta)) ≠ 0) (q : Nat → K)
    (ox oy nx ny xs ys : List K) (hox : ox ≠ []) (hoy : oy ≠ []) (hx : nx ≠ []) (hy : ny ≠ []) (a b : Nat → K) :
    let J := fun m => Two.jacobianMatrix orth (A m) delta
    ∑ i ∈ range (Mifem.Two.nbO1 (ox.length - 1) (oy.length - 1)),
      ∑ j ∈ range (Mifem.Two.nbI1 (nx.length - 1) (ny.length - 1)),
        a i * Two.wedge11 q (Two.basisOuter1 ox oy xs ys) (Two.basisInner1 nx ny xs ys) i j * b j
      = quad2 (ys.length * xs.length) q J (fun m =>
          dotProduct (Two.reconstructOuter1 orth J ox oy xs ys a m) (Two.reconstructInner1 orth J nx ny xs ys b m)) := by
  intro J
  obtain ⟨o0, o1⟩ := rowsO hox hoy xs ys
  obtain ⟨r0, r1⟩ := rowsI hx hy xs ys
  rw [Mifem.Two.nbO1, Mifem.Two.nbI1, ← o0, ← o1, ← r0, ← r1]
  rw [wedge11_form q _ _ _ (colsI nx ny xs ys), quad2]
  refine Finset.sum_congr rfl fun m _ => ?_
  have hm : Two.jacobian (J m) ≠ 0 := by rw [two_det]; exact hJ m
  have hd := two_diag_inv (two_diag_jac orth (A m) delta)
  simp only [Two.reconstructInner1, Two.reconstructOuter1, reconI_eq hx hy, reconO_eq hox hoy, dotProduct,
    Fin.sum_univ_two]
  have e1 := fun u v x => valueInner_eq (orth := orth) (iJ := Two.inverse (J m)) hd u v x
  have e2 := fun u v => valueOuter_eq (orth := orth) (iJ := Two.inverse (J m)) hd u v
  simp only [e1, e2, valueOuter_piola, ← two_det]
  have i00 := inv2_entry (J m) hm 0 0
  have i01 := inv2_entry (J m) hm 0 1
  have i10 := inv2_entry (J m) hm 1 0
  have i11 := inv2_entry (J m) hm 1 1
  simp only [if_true, Fin.reduceEq, if_false] at i00 i01 i10 i11
  have hr := inv_mul_cancel₀ hm
  generalize einsum (Two.basisOuter1 ox oy xs ys 0) a m = u0
  generalize einsum (Two.basisOuter1 ox oy xs ys 1) (slice a _) m = u1
  generalize einsum (Two.basisInner1 nx ny xs ys 0) b m = v0
  generalize einsum (Two.basisInner1 nx ny xs ys 1) (slice b _) m = v1
  generalize Two.jacobian (J m) = d at hr ⊢
  generalize d⁻¹ = r at hr ⊢
  generalize Two.inverse (J m) = I at i00 i01 i10 i11 ⊢
  linear_combination (-q m * (r * d)) * (u0 * v0 * i00 + u1 * v0 * i01 + u0 * v1 * i10 + u1 * v1 * i11)
    - q m * (u0 * v0 + u1 * v1) * hr

theorem wedge11_swap (q : Nat → K) (O S : Fin 2 → Arr K) (hc : ∀ a, (O a).cols = (S a).cols) (i j : Nat) :
    Two.wedge11 q O S i j = Two.wedge11 q S O j i := by
  have h : ∀ (a b : Fin 2) (x y : Nat),
      (if a = b then ((List.range (S a).cols).map fun m => (O a).e x m * ((S b).e y m * q m)).sum else 0)
      = if b = a then ((List.range (O b).cols).map fun m => (S b).e y m * ((O a).e x m * q m)).sum else 0 := by
    intro a b x y
    by_cases hab : a = b
    · subst hab
      rw [if_pos rfl, if_pos rfl, hc]
      exact congrArg List.sum (List.map_congr_left fun m _ => by ring)
    · rw [if_neg hab, if_neg (Ne.symm hab)]
  exact h _ _ _ _

/-- C57 (2D): inner 1-form (`other`) and outer 1-form (`self`). -/
theorem c57_wedge_11_swap_2d (orth : Bool) (A : Nat → M2 K) (delta : Fin 2 → K)
    (hJ : ∀ m, Matrix.det (Matrix.of (Two.jacobianMatrix orth (A m) delta)) ≠ 0) (q : Nat → K)
    (ox oy nx ny xs ys : List K) (hox : ox ≠ []) (hoy : oy ≠ []) (hx : nx ≠ []) (hy : ny ≠ []) (a b : Nat → K) :
    let J := fun m => Two.jacobianMatrix orth (A m) delta
    ∑ i ∈ range (Mifem.Two.nbI1 (nx.length - 1) (ny.length - 1)),
      ∑ j ∈ range (Mifem.Two.nbO1 (ox.length - 1) (oy.length - 1)),
        b i * Two.wedge11 q (Two.basisInner1 nx ny xs ys) (Two.basisOuter1 ox oy xs ys) i j * a j
      = quad2 (ys.length * xs.length) q J (fun m =>
          dotProduct (Two.reconstructInner1 orth J nx ny xs ys b m) (Two.reconstructOuter1 orth J ox oy xs ys a m)) := by
  intro J
  have h := c57_wedge_11_2d orth A delta hJ q ox oy nx ny xs ys hox hoy hx hy a b
  simp only [dotProduct_comm (Two.reconstructInner1 _ _ _ _ _ _ _ _)]
  refine Eq.trans ?_ h
  refine Eq.trans Finset.sum_comm (Finset.sum_congr rfl fun i _ => Finset.sum_congr rfl fun j _ => ?_)
  rw [wedge11_swap q _ _ (fun k => by rw [colsI, colsO])]
  ring

end concrete

/-! ### What is accepted

One element of a 3D mesh with the Jacobian matrix `diag(2, 3, 5)`, one element of a 2D mesh with `diag(2, 3)`, and
nodes `-1, 1` meet the hypotheses above. -/
example : ∀ m : Nat, Matrix.det (Matrix.of (Three.jacobianMatrix true
    ((fun _ => ![![2, 0, 0], ![0, 3, 0], ![0, 0, 5]] : Nat → M3 ℚ) m) ![1, 1 / 2, 1 / 4])) ≠ 0 := by
  intro m; rw [Matrix.det_fin_three]; simp [Three.jacobianMatrix]
example : ∀ m : Nat, Matrix.det (Matrix.of (Two.jacobianMatrix false
    ((fun m => ![![2, 1], ![(m : ℚ), 3 + m]] : Nat → M2 ℚ) m) ![1, 1 / 2])) ≠ 0 := by
  intro m; rw [Matrix.det_fin_two]; simp [Two.jacobianMatrix]
  intro h
  have : (0 : ℚ) ≤ m := Nat.cast_nonneg m
  linarith
example : Two.innerInner1 (K := ℚ) false true (fun _ => ![![2, 1], ![0, 3]]) (fun _ => 1) (Two.basisInner1 [-1, 1] [-1, 1] [0] [0])
    (Two.basisInner1 [-1, 1] [-1, 1] [0] [0]) 0 2 = -1 / 48 := by decide +kernel

/-- C57: in 3D the wedge product of a 3-form is refused for every class of standard forms, although
`c57_wedge_30_3d_partial` shows that the matrix it would return is right. -/
theorem c57_3form_refused (k : Nat) : Three.wedgeAccepted 3 k (Three.className k) = false := by
  have h : Three.className k ≠ "_0Form" := by
    intro h
    have := congrArg (fun s => s.toList.take 2) h
    simp [Three.className, ToString.toString, String.toList_append] at this
  simpa [Three.wedgeAccepted] using h

/-- C57: the wedge product of a 1-form and a 2-form is accepted. -/
theorem c57_1form_accepted (k : Nat) : Three.wedgeAccepted 1 k (Three.className k) = true ↔ k = 2 := by
  simp [Three.wedgeAccepted]; omega

/-- C56, C57 fail for mixed orientations in 2D: the inner product of an inner 1-form and an outer 1-form is accepted
and is not the integral of the dot product; the wedge product of an inner 1-form with itself is accepted and is not
zero. -/
theorem c56_mixed_orientation_fails :
    Two.innerAccepted 1 1 = true ∧
    ∃ (q : Nat → ℚ) (J : Nat → M2 ℚ) (nx ny xs ys : List ℚ) (a b : Nat → ℚ),
      (∀ m, Matrix.det (Matrix.of (J m)) ≠ 0) ∧ accepted nx = true ∧ accepted ny = true ∧
      ∑ i ∈ range (Mifem.Two.nbO1 (nx.length - 1) (ny.length - 1)),
        ∑ j ∈ range (Mifem.Two.nbI1 (nx.length - 1) (ny.length - 1)),
          a i * Two.innerInner1 true false J q (Two.basisOuter1 nx ny xs ys) (Two.basisInner1 nx ny xs ys) i j * b j
        ≠ quad2 (ys.length * xs.length) q J (fun m =>
          dotProduct (Two.reconstructOuter1 true J nx ny xs ys a m) (Two.reconstructInner1 true J nx ny xs ys b m)) := by
  refine ⟨rfl, fun _ => 4, fun _ => ![![2, 0], ![0, 3]], [-1, 1], [-1, 1], [0], [0], fun _ => 1, fun _ => 1,
    fun m => ?_, by decide +kernel, by decide +kernel, ?_⟩
  · rw [Matrix.det_fin_two]; norm_num
  · rw [quad2]
    simp only [Matrix.det_fin_two]
    decide +kernel

theorem c57_self_wedge_fails :
    Two.wedgeAccepted 1 1 = true ∧
    ∃ (q : Nat → ℚ) (nx ny xs ys : List ℚ) (a : Nat → ℚ), accepted nx = true ∧ accepted ny = true ∧
      ∑ i ∈ range (Mifem.Two.nbI1 (nx.length - 1) (ny.length - 1)),
        ∑ j ∈ range (Mifem.Two.nbI1 (nx.length - 1) (ny.length - 1)),
          a i * Two.wedge11 q (Two.basisInner1 nx ny xs ys) (Two.basisInner1 nx ny xs ys) i j * a j ≠ 0 :=
  ⟨rfl, fun _ => 4, [-1, 1], [-1, 1], [0], [0], fun _ => 1, by decide +kernel, by decide +kernel, by decide +kernel⟩

end Mifem.Props
