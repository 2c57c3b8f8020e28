import Verif.Props.TriMesh
import Mathlib.Tactic.FieldSimp
import Mathlib.Tactic.Positivity
import Mathlib.Analysis.Calculus.Deriv.Basic
import Mathlib.Analysis.Calculus.Deriv.Add
import Mathlib.Analysis.Calculus.Deriv.Mul
import Mathlib.Analysis.SpecialFunctions.Integrals.Basic

/-! # C62: the mapping of a triangular element -/

namespace Mifem.Props
open Mifem.Tri

section
variable {K : Type*} [Field K]

/-- The point with barycentric coordinates: a convex combination of the vertices for coordinates in `[0, 1]`. -/
def bary (p : Fin 3 → K × K) (a b c : K) : Fin 2 → K :=
  ![a * (p 0).1 + b * (p 1).1 + c * (p 2).1, a * (p 0).2 + b * (p 1).2 + c * (p 2).2]

/-- The mapping in closed form. -/
theorem mapping_eq (p : Fin 3 → K × K) (v : Fin 2 → K) (h2 : (2 : K) ≠ 0) :
    mapping p v = bary p (1 - (v 1 + 1) / 2) ((v 0 + 1) / 2 * ((v 1 + 1) / 2)) ((1 - (v 0 + 1) / 2) * ((v 1 + 1) / 2)) := by
  funext i
  fin_cases i <;>
    simp [mapping, bary, Region.Two.transfinite, Region.Two.mapC, edges] <;> field_simp <;> ring

/-- The determinant in closed form. -/
theorem jacobian_eq (p : Fin 3 → K × K) (v : Fin 2 → K) (h2 : (2 : K) ≠ 0) :
    jacobian p v = (v 1 + 1) / 8 * cross (p 0) (p 1) (p 2) := by
  rw [show (8 : K) = 2 * 2 * 2 by norm_num]
  simp [jacobian, jacobianMatrix, cross, Region.Two.transfiniteJ, Region.Two.mapCr, Region.Two.mapCs, edges]
  field_simp
  ring

end

section
variable {F : Type*} [Field F] [LinearOrder F] [IsStrictOrderedRing F]

/-- C62: the reference square `[-1, 1]²` is mapped onto the triangle: every point of the square goes to a convex
combination of the vertices, and every convex combination is attained. -/
theorem c62_onto (p : Fin 3 → F × F) (x : Fin 2 → F) :
    (∃ v, (∀ i, -1 ≤ v i ∧ v i ≤ 1) ∧ mapping p v = x) ↔
      ∃ a b c, 0 ≤ a ∧ 0 ≤ b ∧ 0 ≤ c ∧ a + b + c = 1 ∧ bary p a b c = x := by
  have h2 : (2 : F) ≠ 0 := two_ne_zero
  constructor
  · rintro ⟨v, hv, rfl⟩
    have h0 := hv 0
    have h1 := hv 1
    refine ⟨_, _, _, ?_, ?_, ?_, ?_, (mapping_eq p v h2).symm⟩
    · linarith
    · apply mul_nonneg <;> linarith
    · apply mul_nonneg <;> linarith
    · ring
  · rintro ⟨a, b, c, ha, hb, hc, hs, rfl⟩
    rcases eq_or_lt_of_le (add_nonneg hb hc) with h | h
    · have hb0 : b = 0 := by linarith
      have hc0 : c = 0 := by linarith
      refine ⟨![0, -1], ?_, ?_⟩
      · intro i; fin_cases i <;> simp
      · rw [mapping_eq p _ h2, hb0, hc0, show a = 1 by linarith]
        simp
    · refine ⟨![2 * (b / (b + c)) - 1, 2 * (b + c) - 1], ?_, ?_⟩
      · have q1 : 0 ≤ b / (b + c) := by positivity
        have q2 : b / (b + c) ≤ 1 := by rw [div_le_one h]; linarith
        intro i
        fin_cases i
        · simp only [Fin.zero_eta, Matrix.cons_val_zero]; constructor <;> linarith
        · simp only [Fin.mk_one, Matrix.cons_val_one, Matrix.cons_val_fin_one]; constructor <;> linarith
      · rw [mapping_eq p _ h2]
        simp only [Matrix.cons_val_zero, Matrix.cons_val_one, Matrix.cons_val_fin_one]
        have e1 : (2 * (b + c) - 1 + 1) / 2 = b + c := by ring
        have e2 : (2 * (b / (b + c)) - 1 + 1) / 2 = b / (b + c) := by ring
        rw [e1, e2, div_mul_cancel₀ _ h.ne', sub_mul, div_mul_cancel₀ _ h.ne', show 1 - (b + c) = a by linarith]
        congr 1
        ring

/-- C62: the edges of the square go to the edges of the triangle in the documented directions: the D edge (`ξ = 1`) `0 → 1`, the U
edge (`ξ = -1`) `0 → 2`, the R edge (`η = 1`) `2 → 1`; the L edge (`η = -1`) goes to vertex 0. -/
theorem c62_edges (p : Fin 3 → F × F) (t : F) :
    mapping p ![1, t] = bary p ((1 - t) / 2) ((1 + t) / 2) 0 ∧
    mapping p ![-1, t] = bary p ((1 - t) / 2) 0 ((1 + t) / 2) ∧
    mapping p ![t, 1] = bary p 0 ((1 + t) / 2) ((1 - t) / 2) ∧
    mapping p ![t, -1] = bary p 1 0 0 := by
  have h2 : (2 : F) ≠ 0 := two_ne_zero
  refine ⟨?_, ?_, ?_, ?_⟩ <;> rw [mapping_eq p _ h2] <;>
    simp only [Matrix.cons_val_zero, Matrix.cons_val_one, Matrix.cons_val_fin_one] <;> congr 1 <;> field_simp <;> ring

/-- C62: for a cell accepted by the construction, the determinant of the Jacobian matrix is positive away from the
singular vertex (and zero there), and the mapping is injective there. -/
theorem c62_not_folded (pt : Nat → F × F) (c d : Cell) (h : fixCell pt c = some d) (v : Fin 2 → F) (hv : -1 < v 1) :
    0 < jacobian (fun a => pt (d a)) v ∧
    ∀ w : Fin 2 → F, mapping (fun a => pt (d a)) w = mapping (fun a => pt (d a)) v → w = v := by
  have h2 : (2 : F) ≠ 0 := two_ne_zero
  have hc := ((c61_orientation pt c).1 d h).1
  constructor
  · rw [jacobian_eq _ _ h2]
    have : 0 < (v 1 + 1) / 8 := by linarith
    exact mul_pos this hc
  · intro w hw
    rw [mapping_eq _ _ h2, mapping_eq _ _ h2] at hw
    have e0 := congrFun hw 0
    have e1 := congrFun hw 1
    simp only [bary, Matrix.cons_val_zero, Matrix.cons_val_one, Matrix.cons_val_fin_one] at e0 e1
    set q := fun a => pt (d a) with hq
    change 0 < cross (q 0) (q 1) (q 2) at hc
    have k1 : ((w 0 + 1) / 2 * ((w 1 + 1) / 2) - (v 0 + 1) / 2 * ((v 1 + 1) / 2)) * cross (q 0) (q 1) (q 2) = 0 := by
      simp only [cross]
      linear_combination ((q 2).2 - (q 0).2) * e0 - ((q 2).1 - (q 0).1) * e1
    have k2 : ((1 - (w 0 + 1) / 2) * ((w 1 + 1) / 2) - (1 - (v 0 + 1) / 2) * ((v 1 + 1) / 2)) * cross (q 0) (q 1) (q 2) = 0 := by
      simp only [cross]
      linear_combination -((q 1).2 - (q 0).2) * e0 + ((q 1).1 - (q 0).1) * e1
    have k1 := (mul_eq_zero.1 k1).resolve_right hc.ne'
    have k2 := (mul_eq_zero.1 k2).resolve_right hc.ne'
    have w1 : w 1 = v 1 := by linear_combination 2 * k1 + 2 * k2
    have w0 : (w 0 - v 0) * (v 1 + 1) = 0 := by rw [w1] at k1; linear_combination 4 * k1
    have w0 := (mul_eq_zero.1 w0).resolve_right (by linarith)
    funext i
    fin_cases i
    · exact sub_eq_zero.1 w0
    · exact w1

end

/-- C62: the Jacobian matrix consists of the partial derivatives of the mapping. -/
theorem c62_jacobian (p : Fin 3 → ℝ × ℝ) (v : Fin 2 → ℝ) (i j : Fin 2) :
    HasDerivAt (fun t => mapping p (Function.update v j t) i) (jacobianMatrix p v i j) (v j) := by
  have h2 : (2 : ℝ) ≠ 0 := two_ne_zero
  have lin : ∀ (f : ℝ → ℝ) (a b : ℝ), (∀ t, f t = a * t + b) → HasDerivAt f a (v j) := by
    intro f a b hf
    rw [show f = fun t => a * t + b from funext hf]
    simpa using ((hasDerivAt_id (v j)).const_mul a).add_const b
  have e := fun t => congrFun (mapping_eq p (Function.update v j t) h2) i
  simp only [e]
  apply lin _ _ (bary p (1 - (Function.update v j 0 1 + 1) / 2) ((Function.update v j 0 0 + 1) / 2 * ((Function.update v j 0 1 + 1) / 2)) ((1 - (Function.update v j 0 0 + 1) / 2) * ((Function.update v j 0 1 + 1) / 2)) i)
  intro t
  fin_cases i <;> fin_cases j <;>
    simp [bary, jacobianMatrix, Region.Two.transfiniteJ, Region.Two.mapCr, Region.Two.mapCs, edges] <;> ring

/-- C62: the reported area (Heron's formula) is half the cross product of the edges, and it is the integral of the
determinant over the reference square. -/
theorem c62_area (p : Fin 3 → ℝ × ℝ) (h : 0 < cross (p 0) (p 1) (p 2)) :
    area p = cross (p 0) (p 1) (p 2) / 2 ∧
    ∫ s in (-1 : ℝ)..1, ∫ r in (-1 : ℝ)..1, jacobian p ![r, s] = area p := by
  have key : area p = cross (p 0) (p 1) (p 2) / 2 := by
    simp only [area]
    set a := distance (p 0) (p 1) with ha
    set b := distance (p 0) (p 2) with hb
    set c := distance (p 2) (p 1) with hc
    have a2 : a ^ 2 = ((p 0).1 - (p 1).1) ^ 2 + ((p 0).2 - (p 1).2) ^ 2 := by
      rw [ha, distance, Real.sq_sqrt (by positivity)]
    have b2 : b ^ 2 = ((p 0).1 - (p 2).1) ^ 2 + ((p 0).2 - (p 2).2) ^ 2 := by
      rw [hb, distance, Real.sq_sqrt (by positivity)]
    have c2 : c ^ 2 = ((p 2).1 - (p 1).1) ^ 2 + ((p 2).2 - (p 1).2) ^ 2 := by
      rw [hc, distance, Real.sq_sqrt (by positivity)]
    have e : (a + b + c) / 2 * ((a + b + c) / 2 - a) * ((a + b + c) / 2 - b) * ((a + b + c) / 2 - c)
        = (4 * a ^ 2 * b ^ 2 - (a ^ 2 + b ^ 2 - c ^ 2) ^ 2) / 16 := by ring
    rw [e, a2, b2, c2]
    rw [show (4 * (((p 0).1 - (p 1).1) ^ 2 + ((p 0).2 - (p 1).2) ^ 2) * (((p 0).1 - (p 2).1) ^ 2 + ((p 0).2 - (p 2).2) ^ 2) -
      (((p 0).1 - (p 1).1) ^ 2 + ((p 0).2 - (p 1).2) ^ 2 + (((p 0).1 - (p 2).1) ^ 2 + ((p 0).2 - (p 2).2) ^ 2) -
        (((p 2).1 - (p 1).1) ^ 2 + ((p 2).2 - (p 1).2) ^ 2)) ^ 2) / 16 = (cross (p 0) (p 1) (p 2) / 2) ^ 2 by
        simp only [cross]; ring]
    exact Real.sqrt_sq (by positivity)
  refine ⟨key, ?_⟩
  rw [key]
  have : ∀ r s : ℝ, jacobian p ![r, s] = (s + 1) / 8 * cross (p 0) (p 1) (p 2) := fun r s => by
    rw [jacobian_eq _ _ two_ne_zero]; simp
  simp only [this, intervalIntegral.integral_const, smul_eq_mul]
  rw [intervalIntegral.integral_const_mul, intervalIntegral.integral_mul_const, intervalIntegral.integral_div,
    intervalIntegral.integral_add (by simp) (by simp), integral_id, integral_one]
  ring

/-- The unit triangle: an accepted cell with area 1/2. -/
example : fixCell (fun i => if i = 0 then ((0 : ℚ), (0 : ℚ)) else if i = 1 then (0, 1) else (1, 0)) ![0, 1, 2] = some ![0, 2, 1] := by
  decide +kernel

end Mifem.Props
