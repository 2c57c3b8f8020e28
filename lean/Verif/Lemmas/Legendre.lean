import Mathlib.Algebra.Polynomial.Derivative
import Mathlib.Algebra.Polynomial.Eval.Degree
import Mathlib.Algebra.Polynomial.Degree.Lemmas
import Mathlib.Algebra.Polynomial.Div
import Mathlib.Algebra.CharZero.Defs
import Mathlib.Algebra.Field.Basic
import Mathlib.LinearAlgebra.Lagrange
import Mathlib.Tactic.LinearCombination
import Mathlib.Tactic.FieldSimp
import Mathlib.Tactic.Ring

/-! # Legendre polynomials over a field of characteristic zero -/

namespace Mifem.Legendre
open Polynomial

variable {F : Type*} [Field F] [CharZero F]

/-- The Legendre polynomials, by Bonnet's recursion. -/
noncomputable def P : Nat → F[X]
  | 0 => 1
  | 1 => X
  | n + 2 => C (1 / ((n : F) + 2)) * (((2 * n + 3 : Nat) : F[X]) * X * P (n + 1) - ((n + 1 : Nat) : F[X]) * P n)

omit [CharZero F] in
theorem P_zero : (P 0 : F[X]) = 1 := by rw [P]
omit [CharZero F] in
theorem P_one : (P 1 : F[X]) = X := by rw [P]

theorem bonnet (n : Nat) :
    ((n : F[X]) + 2) * P (n + 2) = (2 * (n : F[X]) + 3) * X * P (n + 1) - ((n : F[X]) + 1) * P n := by
  have h : ((n : F[X]) + 2) * C (1 / ((n : F) + 2)) = 1 := by
    have h0 : ((n : F) + 2) ≠ 0 := by exact_mod_cast (Nat.succ_ne_zero (n + 1))
    have : ((n : F[X]) + 2) = C ((n : F) + 2) := by simp only [C_add, C_eq_natCast, C_ofNat]
    rw [this, ← C_mul, mul_one_div, div_self h0, C_1]
  rw [P]
  push_cast
  linear_combination ((2 * (n : F[X]) + 3) * X * P (n + 1) - ((n : F[X]) + 1) * P n) * h

theorem cast_ne (n : Nat) : ((n : F[X]) + 2) ≠ 0 := by exact_mod_cast (Nat.succ_ne_zero (n + 1))

theorem deriv_both (n : Nat) :
    derivative (P (n + 1) : F[X]) = X * derivative (P n) + ((n : F[X]) + 1) * P n ∧
    X * derivative (P (n + 1) : F[X]) - derivative (P n) = ((n : F[X]) + 1) * P (n + 1) := by
  induction n with
  | zero => simp [P_zero, P_one]
  | succ n ih =>
    obtain ⟨h1, h2⟩ := ih
    have hb := bonnet (F := F) n
    have hd : ((n : F[X]) + 2) * derivative (P (n + 2)) =
        (2 * (n : F[X]) + 3) * (P (n + 1) + X * derivative (P (n + 1))) - ((n : F[X]) + 1) * derivative (P n) := by
      have := congrArg derivative hb
      simp only [derivative_mul, derivative_add, derivative_sub, derivative_natCast, derivative_X, derivative_ofNat,
        derivative_one] at this
      linear_combination this
    have k1 : derivative (P (n + 1 + 1) : F[X]) = X * derivative (P (n + 1)) + (((n + 1 : Nat) : F[X]) + 1) * P (n + 1) := by
      apply mul_left_cancel₀ (cast_ne n)
      push_cast
      linear_combination hd + ((n : F[X]) + 1) * h2
    refine ⟨k1, ?_⟩
    push_cast at k1 ⊢
    linear_combination X * k1 - hb + X * h2 - h1

theorem deriv_up (n : Nat) : derivative (P (n + 1) : F[X]) = X * derivative (P n) + ((n : F[X]) + 1) * P n := (deriv_both n).1
theorem deriv_down (n : Nat) :
    X * derivative (P (n + 1) : F[X]) - derivative (P n) = ((n : F[X]) + 1) * P (n + 1) := (deriv_both n).2

theorem deriv_mul (n : Nat) :
    (1 - X ^ 2) * derivative (P (n + 1) : F[X]) = ((n : F[X]) + 1) * (P n - X * P (n + 1)) := by
  linear_combination deriv_up (F := F) n - X * deriv_down (F := F) n

/-- Legendre's equation. -/
theorem ode (n : Nat) :
    derivative ((1 - X ^ 2) * derivative (P n : F[X])) = -((n : F[X]) * ((n : F[X]) + 1) * P n) := by
  cases n with
  | zero => simp [P_zero]
  | succ n =>
    rw [deriv_mul]
    simp only [derivative_mul, derivative_add, derivative_sub, derivative_natCast, derivative_X, derivative_one]
    push_cast
    linear_combination (-(n : F[X]) - 1) * deriv_down (F := F) n

theorem P_eval_one (n : Nat) : (P n : F[X]).eval 1 = 1 := by
  suffices (P n : F[X]).eval 1 = 1 ∧ (P (n + 1) : F[X]).eval 1 = 1 from this.1
  induction n with
  | zero => simp [P_zero, P_one]
  | succ n ih =>
    refine ⟨ih.2, ?_⟩
    have h := congrArg (eval 1) (bonnet (F := F) n)
    simp only [eval_mul, eval_add, eval_sub, eval_natCast, eval_ofNat, eval_X, eval_one, ih.1, ih.2] at h
    have h0 : ((n : F) + 2) ≠ 0 := by exact_mod_cast (Nat.succ_ne_zero (n + 1))
    apply mul_left_cancel₀ h0
    linear_combination h

theorem comp_neg (n : Nat) : (P n : F[X]).comp (-X) = (-1) ^ n * P n := by
  suffices (P n : F[X]).comp (-X) = (-1) ^ n * P n ∧ (P (n + 1) : F[X]).comp (-X) = (-1) ^ (n + 1) * P (n + 1) from this.1
  induction n with
  | zero => simp [P_zero, P_one]
  | succ n ih =>
    refine ⟨ih.2, ?_⟩
    have hb := bonnet (F := F) n
    have h := congrArg (fun q => q.comp (-X)) hb
    simp only [mul_comp, add_comp, sub_comp, natCast_comp, ofNat_comp, X_comp, one_comp, ih.1, ih.2] at h
    apply mul_left_cancel₀ (cast_ne (F := F) n)
    rw [pow_succ, pow_succ] at *
    linear_combination h - (-1) ^ n * hb

theorem eval_neg (n : Nat) (x : F) : (P n : F[X]).eval (-x) = (-1) ^ n * (P n).eval x := by
  have h := congrArg (eval x) (comp_neg (F := F) n)
  simpa [eval_comp] using h

theorem eval_neg_one (n : Nat) : (P n : F[X]).eval (-1) = (-1) ^ n := by rw [eval_neg, P_eval_one, mul_one]

/-- The leading coefficients. -/
def lead : Nat → F
  | 0 => 1
  | n + 1 => (2 * n + 1) / (n + 1) * lead n

theorem lead_ne (n : Nat) : (lead n : F) ≠ 0 := by
  induction n with
  | zero => simp [lead]
  | succ n ih =>
    rw [lead]
    refine mul_ne_zero (div_ne_zero ?_ ?_) ih
    · exact_mod_cast (Nat.succ_ne_zero (2 * n))
    · exact_mod_cast (Nat.succ_ne_zero n)

theorem degree_le_coeff (n : Nat) : (P n : F[X]).natDegree ≤ n ∧ (P n : F[X]).coeff n = lead n := by
  suffices ((P n : F[X]).natDegree ≤ n ∧ (P n : F[X]).coeff n = lead n) ∧
      ((P (n + 1) : F[X]).natDegree ≤ n + 1 ∧ (P (n + 1) : F[X]).coeff (n + 1) = lead (n + 1)) from this.1
  induction n with
  | zero => simp [P_zero, P_one, lead]
  | succ n ih =>
    refine ⟨ih.2, ?_⟩
    obtain ⟨⟨d0, -⟩, d1, c1⟩ := ih
    have e : (P (n + 2) : F[X]) = C ((2 * n + 3) / (n + 2) : F) * (X * P (n + 1)) - C ((n + 1) / (n + 2) : F) * P n := by
      rw [P]
      simp only [div_eq_mul_inv, C_mul, C_add, one_mul, C_eq_natCast, C_ofNat, C_1]
      push_cast
      ring
    constructor
    · rw [e]
      refine (natDegree_sub_le _ _).trans (max_le ?_ ?_)
      · refine (natDegree_C_mul_le _ _).trans (natDegree_mul_le.trans ?_ : (X * P (n + 1) : F[X]).natDegree ≤ _)
        have h := natDegree_X_le (R := F)
        exact (Nat.add_le_add h d1).trans (by omega)
      · exact (natDegree_C_mul_le _ _).trans (by omega)
    · rw [e, coeff_sub, coeff_C_mul, coeff_C_mul, coeff_X_mul, c1, coeff_eq_zero_of_natDegree_lt (by omega : (P n : F[X]).natDegree < n + 1 + 1)]
      rw [lead.eq_2 (n + 1)]
      push_cast
      rw [mul_zero, sub_zero]
      congr 1
      ring_nf

theorem natDegree_P (n : Nat) : (P n : F[X]).natDegree = n :=
  le_antisymm (degree_le_coeff n).1 (le_natDegree_of_ne_zero (by rw [(degree_le_coeff n).2]; exact lead_ne n))

theorem P_ne (n : Nat) : (P n : F[X]) ≠ 0 := by
  intro h
  have := (degree_le_coeff (F := F) n).2
  rw [h, coeff_zero] at this
  exact lead_ne n this.symm

/-! ## The integral over `[-1, 1]` -/

/-- The integral over `[-1, 1]` of a polynomial, from the integrals of the powers. -/
noncomputable def I : F[X] →ₗ[F] F := Polynomial.lsum fun k => ((1 - (-1) ^ (k + 1)) / ((k : F) + 1)) • LinearMap.id

omit [CharZero F] in
theorem I_monomial (k : Nat) (a : F) : I (monomial k a) = (1 - (-1) ^ (k + 1)) / ((k : F) + 1) * a := by
  simp [I]

omit [CharZero F] in
theorem I_C_mul (a : F) (f : F[X]) : I (C a * f) = a * I f := by
  rw [← smul_eq_C_mul, map_smul, smul_eq_mul]

/-- The integral of a derivative. -/
theorem I_deriv (g : F[X]) : I (derivative g) = g.eval 1 - g.eval (-1) := by
  induction g using Polynomial.induction_on' with
  | add p q hp hq => simp only [derivative_add, map_add, hp, hq, eval_add]; ring
  | monomial n a =>
    rw [derivative_monomial, I_monomial]
    cases n with
    | zero => simp
    | succ n =>
      have h0 : ((n : F) + 1) ≠ 0 := by exact_mod_cast (Nat.succ_ne_zero n)
      simp only [Nat.add_sub_cancel, eval_monomial, one_pow, Nat.cast_succ]
      field_simp

theorem I_parts (f g : F[X]) :
    I (derivative f * g) = f.eval 1 * g.eval 1 - f.eval (-1) * g.eval (-1) - I (f * derivative g) := by
  have h := I_deriv (f * g)
  rw [derivative_mul, map_add, eval_mul, eval_mul] at h
  linear_combination h

/-- Integration by parts with the weight `1 - x²`. -/
theorem I_weight (n : Nat) (g : F[X]) :
    I ((1 - X ^ 2) * derivative (P n) * derivative g) = (n : F) * ((n : F) + 1) * I (P n * g) := by
  have h := I_parts ((1 - X ^ 2) * derivative (P n)) g
  rw [ode] at h
  have e : -((n : F[X]) * ((n : F[X]) + 1) * P n) * g = C (-((n : F) * ((n : F) + 1))) * (P n * g) := by
    simp only [C_neg, C_mul, C_add, C_eq_natCast, C_1]; ring
  rw [e, I_C_mul] at h
  simp at h
  linear_combination -h

theorem orth_ne {m n : Nat} (hmn : m ≠ n) : I (P n * P m : F[X]) = 0 := by
  have h1 := I_weight (F := F) n (P m)
  have h2 := I_weight (F := F) m (P n)
  have e : (1 - X ^ 2) * derivative (P n) * derivative (P m) = (1 - X ^ 2) * derivative (P m) * derivative (P n : F[X]) := by ring
  rw [e, h2, mul_comm (P m)] at h1
  have hz : (((m : F) - n) * (m + n + 1)) * I (P n * P m : F[X]) = 0 := by linear_combination h1
  rcases mul_eq_zero.1 hz with h | h
  · rcases mul_eq_zero.1 h with h | h
    · exact absurd (by exact_mod_cast sub_eq_zero.1 h) hmn
    · exact absurd h (by exact_mod_cast (Nat.succ_ne_zero (m + n)))
  · exact h

/-- `P n` is orthogonal to everything of lower degree. -/
theorem orth (n : Nat) : ∀ (d : Nat), d ≤ n → ∀ g : F[X], g.degree < d → I (P n * g) = 0 := by
  intro d
  induction d with
  | zero =>
    intro _ g hg
    have : g = 0 := by rw [← degree_eq_bot]; exact Nat.WithBot.lt_zero_iff.1 hg
    simp [this]
  | succ d ih =>
    intro hd g hg
    have hlead := lead_ne (F := F) d
    have key : (g - C (g.coeff d / lead d) * P d).degree < (d : WithBot Nat) := by
      rw [degree_lt_iff_coeff_zero]
      intro m hm
      rw [coeff_sub, coeff_C_mul]
      rcases Nat.lt_or_ge d m with h | h
      · rw [(degree_lt_iff_coeff_zero _ _).1 hg m (by omega),
          coeff_eq_zero_of_natDegree_lt (p := P d) (by rw [natDegree_P]; exact h)]
        simp
      · have : m = d := by omega
        subst this
        rw [(degree_le_coeff m).2]
        field_simp
        ring
    have h := ih (by omega) _ key
    have e : P n * (g - C (g.coeff d / lead d) * P d) = P n * g - C (g.coeff d / lead d) * (P n * P d) := by ring
    rw [e, map_sub, I_C_mul, orth_ne (by omega), mul_zero, sub_zero] at h
    exact h

theorem orth' {n : Nat} {g : F[X]} (h : g.natDegree < n) : I (P n * g) = 0 :=
  orth n n le_rfl g ((degree_le_natDegree).trans_lt (by exact_mod_cast h))

/-- The norm of `P n`. -/
theorem I_norm (n : Nat) : I (P n * P n : F[X]) = 2 / (2 * n + 1) := by
  have h0 : (2 * (n : F) + 1) ≠ 0 := by exact_mod_cast (Nat.succ_ne_zero (2 * n))
  rw [eq_div_iff h0]
  have h1 := I_deriv (X * (P n * P n) : F[X])
  have e1 : derivative (X * (P n * P n) : F[X]) = P n * P n + C 2 * (P n * (X * derivative (P n))) := by
    simp only [derivative_mul, derivative_X, C_ofNat]; ring
  rw [e1, map_add, I_C_mul] at h1
  simp only [eval_mul, eval_X, P_eval_one, eval_neg_one] at h1
  have h2 : I (P n * (X * derivative (P n)) : F[X]) = n * I (P n * P n : F[X]) := by
    cases n with
    | zero => simp [P_zero]
    | succ n =>
      have e2 : P (n + 1) * (X * derivative (P (n + 1))) =
          C ((n : F) + 1) * (P (n + 1) * P (n + 1)) + P (n + 1) * derivative (P n) := by
        simp only [C_add, C_eq_natCast, C_1]
        linear_combination P (n + 1) * deriv_down (F := F) n
      rw [e2, map_add, I_C_mul, orth' ((natDegree_derivative_le _).trans_lt (by rw [natDegree_P]; omega)), add_zero]
      push_cast; rfl
  rw [h2] at h1
  have h3 : ((-1 : F) ^ n) * (-1) ^ n = 1 := by rw [← pow_add, ← two_mul, pow_mul]; simp
  linear_combination h1 + h3

/-- The integral of `P n` with something of the same degree, by the leading coefficient. -/
theorem I_same {n : Nat} {g : F[X]} (hg : g.natDegree ≤ n) : I (P n * g) = g.coeff n / lead n * (2 / (2 * n + 1)) := by
  have hlead := lead_ne (F := F) n
  have key : (g - C (g.coeff n / lead n) * P n).degree < (n : WithBot Nat) := by
    rw [degree_lt_iff_coeff_zero]
    intro m hm
    rw [coeff_sub, coeff_C_mul]
    rcases Nat.lt_or_ge n m with h | h
    · rw [coeff_eq_zero_of_natDegree_lt (p := g) (by omega),
        coeff_eq_zero_of_natDegree_lt (p := P n) (by rw [natDegree_P]; exact h)]
      simp
    · have : m = n := by omega
      subst this
      rw [(degree_le_coeff m).2]
      field_simp
      ring
  have h := orth n n le_rfl _ key
  have e : P n * (g - C (g.coeff n / lead n) * P n) = P n * g - C (g.coeff n / lead n) * (P n * P n) := by ring
  rw [e, map_sub, I_C_mul, I_norm] at h
  linear_combination h

end Mifem.Legendre
