import Verif.Model.Quadrature
import Verif.Lemmas.LegendreRoots
import Verif.Lemmas.Discretize
import Mathlib.Analysis.SpecialFunctions.Integrals.Basic
import Mathlib.Data.List.GetD
import Mathlib.MeasureTheory.Integral.Pi
import Mathlib.Analysis.SpecialFunctions.Trigonometric.Basic
import Mathlib.Topology.Algebra.MvPolynomial

/-! # C70: what the quadrature rules integrate

The specification is the integral over `[-1, 1]` (or the cube), and the zeros of the Legendre polynomials `P n` and their
derivatives. -/

namespace Mifem.Props
open Polynomial
open Mifem.Quadrature
open Mifem.Disc (Rule)
open Mifem.Legendre (P I Zeros)

/-- The rule gives the integral over `[-1, 1]` of every polynomial of degree at most `d`. -/
def Integrates (r : Rule ℝ) (d : Nat) : Prop :=
  ∀ f : ℝ[X], f.natDegree ≤ d → ∑ q ∈ Finset.range r.n, r.w q * f.eval (r.x q) = ∫ t in (-1 : ℝ)..1, f.eval t

/-! ## Legendre polynomials -/

theorem leg_eval {F : Type*} [Field F] [LinearOrder F] [CharZero F] (n : Nat) (x : F) : leg n x = (P n).eval x := by
  suffices leg n x = (P n).eval x ∧ leg (n + 1) x = (P (n + 1)).eval x from this.1
  induction n with
  | zero => simp [leg, Legendre.P_zero, Legendre.P_one]
  | succ n ih =>
    refine ⟨ih.2, ?_⟩
    have h0 : ((n : F) + 2) ≠ 0 := by exact_mod_cast (Nat.succ_ne_zero (n + 1))
    have h := congrArg (eval x) (Legendre.bonnet (F := F) n)
    simp only [eval_mul, eval_add, eval_sub, eval_natCast, eval_ofNat, eval_X, eval_one] at h
    rw [leg, ih.1, ih.2, div_eq_iff h0, ← h]
    ring

theorem I_integral (f : ℝ[X]) : I f = ∫ t in (-1 : ℝ)..1, f.eval t := by
  induction f using Polynomial.induction_on' with
  | add p q hp hq =>
    simp only [map_add, hp, hq, eval_add]
    rw [intervalIntegral.integral_add] <;> exact (Polynomial.continuous _).intervalIntegrable _ _
  | monomial n a =>
    rw [Legendre.I_monomial]
    simp only [eval_monomial]
    rw [intervalIntegral.integral_const_mul, integral_pow, one_pow]
    ring

/-- The polynomials used in the code are the Legendre polynomials: of degree `n`, with value 1 in 1, and orthogonal to all
polynomials of lower degree. -/
theorem c70_legendre (n : Nat) :
    ∃ L : ℝ[X], (∀ x, leg n x = L.eval x) ∧ L.natDegree = n ∧ leg n (1 : ℝ) = 1 ∧
      ∀ g : ℝ[X], g.natDegree < n → ∫ t in (-1 : ℝ)..1, leg n t * g.eval t = 0 := by
  refine ⟨P n, leg_eval n, Legendre.natDegree_P n, ?_, fun g hg => ?_⟩
  · rw [leg_eval, Legendre.P_eval_one]
  · have h := I_integral (P n * g)
    rw [Legendre.orth' hg] at h
    rw [h]
    simp only [leg_eval, eval_mul]

example : leg 3 (2 : ℚ) = 17 := by norm_num [leg]

/-! ## Newton's method -/

/-- `legendre_prime` is the derivative. -/
theorem c70_prime (n : Nat) (x : ℝ) (hx : x ^ 2 ≠ 1) : HasDerivAt (fun t => leg n t) (legendrePrime x n) x := by
  have e : (fun t : ℝ => leg n t) = fun t => (P n).eval t := funext fun t => leg_eval n t
  rw [e]
  have : legendrePrime x n = (derivative (P n)).eval x := by
    rw [legendrePrime]
    split
    · next h => subst h; simp [Legendre.P_zero]
    · split
      · next h => subst h; simp [Legendre.P_one]
      · obtain ⟨k, rfl⟩ : ∃ k, n = k + 1 := ⟨n - 1, by omega⟩
        have h := congrArg (eval x) (Legendre.deriv_mul (F := ℝ) k)
        simp only [eval_mul, eval_add, eval_sub, eval_natCast, eval_X, eval_one, eval_pow] at h
        rw [Nat.add_sub_cancel, leg_eval, leg_eval, div_eq_iff (sub_ne_zero.2 hx.symm)]
        push_cast
        linear_combination -h
  rw [this]
  exact (P n).hasDerivAt x

theorem prime_eval (n : Nat) (x : ℝ) (hx : x ^ 2 ≠ 1) : legendrePrime x n = (derivative (P n)).eval x := by
  have h1 := c70_prime n x hx
  have e : (fun t : ℝ => leg n t) = fun t => (P n).eval t := funext fun t => leg_eval n t
  rw [e] at h1
  exact h1.unique ((P n).hasDerivAt x)

/-- The quotient in Newton's method is that of the first and second derivative of the Legendre polynomial, so the method looks for
zeros of the derivative. -/
theorem c70_newton_step (n : Nat) (x : ℝ) (hx : x ^ 2 ≠ 1) :
    primeLobatto x n / doublePrime x n = (derivative (P n)).eval x / (derivative (derivative (P n))).eval x := by
  have h1 : (1 - x ^ 2) ≠ 0 := sub_ne_zero.2 hx.symm
  have ho := congrArg (eval x) (Legendre.ode (F := ℝ) n)
  rw [derivative_mul] at ho
  simp [eval_mul, eval_add, eval_sub, eval_pow] at ho
  have hd : doublePrime x n = (1 - x ^ 2) ^ 2 * (derivative (derivative (P n))).eval x := by
    rw [doublePrime, prime_eval n x hx, leg_eval]
    linear_combination (-(1 - x ^ 2)) * ho
  rw [primeLobatto, hd, prime_eval n x hx, mul_div_mul_left _ _ (pow_ne_zero 2 h1)]

/-- What Newton's method returns is a step from some last point; the step is shorter than the tolerance unless all turns are used. -/
theorem newton_last (f df : ℝ → ℝ) (tol : ℝ) (turns : Nat) (x : ℝ) :
    ∃ a, newton f df tol (turns + 1) x = a - f a / df a ∧ (|f a / df a| < tol ∨ a = (fun x => x - f x / df x)^[turns] x) := by
  induction turns generalizing x with
  | zero =>
    refine ⟨x, ?_, Or.inr rfl⟩
    simp [newton]
  | succ turns ih =>
    rw [newton]
    by_cases h : |x - f x / df x - x| < tol
    · refine ⟨x, if_pos h, Or.inl ?_⟩
      have : x - f x / df x - x = -(f x / df x) := by ring
      rwa [this, abs_neg] at h
    · obtain ⟨a, h1, h2⟩ := ih (x - f x / df x)
      refine ⟨a, (if_neg h).trans h1, ?_⟩
      rcases h2 with h2 | h2
      · exact Or.inl h2
      · exact Or.inr (by rw [h2, Function.iterate_succ_apply])

/-- A node found by Newton's method within the tolerance: the derivative of the Legendre polynomial in the last point is smaller than
the tolerance times the second derivative there. -/
theorem c70_newton_found (n : Nat) (tol x : ℝ) :
    ∃ a, newton (primeLobatto · n) (doublePrime · n) tol 99 x = a - primeLobatto a n / doublePrime a n ∧
      (a = (fun x => x - primeLobatto x n / doublePrime x n)^[98] x ∨
        (a ^ 2 ≠ 1 → (derivative (derivative (P n))).eval a ≠ 0 →
          |(derivative (P n)).eval a| < tol * |(derivative (derivative (P n))).eval a|)) := by
  obtain ⟨a, h1, h2⟩ := newton_last (primeLobatto · n) (doublePrime · n) tol 98 x
  refine ⟨a, h1, ?_⟩
  rcases h2 with h2 | h2
  · right
    intro ha hd
    simp only [c70_newton_step n a ha, abs_div] at h2
    rwa [div_lt_iff₀ (abs_pos.2 hd)] at h2
  · exact Or.inl h2

/-- Newton's method stays in a zero of the derivative. -/
theorem c70_newton_stays (n : Nat) (tol : ℝ) (ht : 0 < tol) (a : ℝ) (ha : a ^ 2 ≠ 1) (hz : (derivative (P n)).eval a = 0)
    (turns : Nat) : newton (primeLobatto · n) (doublePrime · n) tol turns a = a := by
  cases turns with
  | zero => rfl
  | succ t =>
    have h : primeLobatto a n / doublePrime a n = 0 := by rw [c70_newton_step n a ha, hz, zero_div]
    rw [newton]
    simp [h, ht]

/-! ## Lobatto -/

/-- Newton's method has found the zeros of the derivative of the Legendre polynomial, one from each starting point. -/
def Found (L : Lib ℝ) (p : Nat) : Prop := Zeros (derivative (P p)) (p - 1) fun i => nodal L p (i + 1)

theorem nodal_zero (L : Lib ℝ) (p : Nat) : nodal L p 0 = 1 := if_pos rfl
theorem nodal_last (L : Lib ℝ) (k : Nat) : nodal L (k + 1) (k + 1) = -1 := by simp [nodal]

theorem deriv_neg (n : Nat) (x : ℝ) : (derivative (P n)).eval (-x) = (-1) ^ (n + 1) * (derivative (P n)).eval x := by
  have h := congrArg (fun q : ℝ[X] => (derivative q).eval x) (Legendre.comp_neg (F := ℝ) n)
  simp only [derivative_comp, derivative_neg, derivative_X, eval_mul, Polynomial.eval_neg, eval_one, eval_comp, eval_X] at h
  have e : ((-1) ^ n * P n : ℝ[X]) = C ((-1) ^ n) * P n := by simp
  rw [e, derivative_C_mul, eval_mul, eval_C] at h
  rw [pow_succ]
  linear_combination -h

/-- The nodes lie symmetric. -/
theorem nodal_symm {L : Lib ℝ} {k : Nat} (h : Found L (k + 1)) (q : Nat) (hq : q ≤ k + 1) :
    nodal L (k + 1) (k + 1 - q) = -nodal L (k + 1) q := by
  rcases Nat.eq_zero_or_pos q with h0 | h0
  · subst h0; rw [Nat.sub_zero, nodal_zero, nodal_last]
  rcases Nat.lt_or_ge q (k + 1) with hk | hk
  · have h' : Zeros (derivative (P (k + 1))) k fun i => nodal L (k + 1) (i + 1) := h
    have hy : Zeros (derivative (P (k + 1))) k fun i => -nodal L (k + 1) (k - i) := by
      constructor
      · intro i hi
        have := h'.1 (k - 1 - i) (by omega)
        beta_reduce at this ⊢
        rw [show k - 1 - i + 1 = k - i by omega] at this
        refine ⟨by linarith [this.2.1], by linarith [this.1], ?_⟩
        rw [deriv_neg, this.2.2, mul_zero]
      · intro i j hij hj
        have := h'.2 (k - 1 - j) (k - 1 - i) (by omega) (by omega)
        beta_reduce at this ⊢
        rw [show k - 1 - j + 1 = k - j by omega, show k - 1 - i + 1 = k - i by omega] at this
        linarith
    have := h'.unique (Legendre.deriv_ne k) (Legendre.natDegree_deriv k).le hy (k - q) (by omega)
    beta_reduce at this
    rw [show k + 1 - q = k - q + 1 by omega, this, show k - (k - q) = q by omega]
  · have : q = k + 1 := by omega
    subst this
    rw [Nat.sub_self, nodal_zero, nodal_last, neg_neg]

theorem nodal_anti {L : Lib ℝ} {k : Nat} (h : Found L (k + 1)) (i j : Nat) (hij : i < j) (hj : j ≤ k + 1) :
    nodal L (k + 1) j < nodal L (k + 1) i := by
  have h' : Zeros (derivative (P (k + 1))) k fun i => nodal L (k + 1) (i + 1) := h
  rcases Nat.eq_zero_or_pos i with h0 | h0
  · subst h0
    rw [nodal_zero]
    rcases Nat.lt_or_ge j (k + 1) with hk | hk
    · have := (h'.1 (j - 1) (by omega)).2.1
      beta_reduce at this
      rwa [show j - 1 + 1 = j by omega] at this
    · have : j = k + 1 := by omega
      subst this; rw [nodal_last]; norm_num
  · rcases Nat.lt_or_ge j (k + 1) with hk | hk
    · have := h'.2 (i - 1) (j - 1) (by omega) (by omega)
      beta_reduce at this
      rwa [show j - 1 + 1 = j by omega, show i - 1 + 1 = i by omega] at this
    · have : j = k + 1 := by omega
      subst this
      have := (h'.1 (i - 1) (by omega)).1
      beta_reduce at this
      rw [show i - 1 + 1 = i by omega] at this
      rwa [nodal_last]

theorem quad_single {L : Lib ℝ} {c : Category} {p : Nat} {r : Rule ℝ} (h : quad L [(c, p)] = some [r]) :
    checkP c p = true ∧ r = compute L c p := by
  simp only [quad, List.all_cons, List.all_nil, Bool.and_true, List.map_cons, List.map_nil] at h
  split at h
  · next hc => exact ⟨hc, by simpa using h.symm⟩
  · exact absurd h (by simp)

theorem lobatto_data {L : Lib ℝ} {p : Nat} {r : Rule ℝ} (hr : quad L [(.lobatto, p)] = some [r]) :
    ∃ k, p = k + 1 ∧ r = computeLobatto L (k + 1) := by
  obtain ⟨h1, h2⟩ := quad_single hr
  have : 1 ≤ p := by simpa [checkP] using h1
  exact ⟨p - 1, by omega, by rw [Nat.sub_add_cancel this]; exact h2⟩

theorem lobatto_roots {L : Lib ℝ} {k : Nat} (h : Found L (k + 1)) (i : Nat) (h1 : 1 ≤ i) (h2 : i < k + 1) :
    (derivative (P (k + 1))).eval (nodal L (k + 1) i) = 0 := by
  have h' : Zeros (derivative (P (k + 1))) k fun i => nodal L (k + 1) (i + 1) := h
  have := (h'.1 (i - 1) (by omega)).2.2
  beta_reduce at this
  rwa [Nat.sub_add_cancel h1] at this

theorem nodal_inj {L : Lib ℝ} {k : Nat} (h : Found L (k + 1)) :
    Set.InjOn (nodal L (k + 1)) (Finset.range (k + 2) : Finset Nat) := by
  intro i hi j hj hij
  simp only [Finset.coe_range, Set.mem_Iio] at hi hj
  rcases Nat.lt_trichotomy i j with h' | h' | h'
  · exact absurd (nodal_anti h i j h' (by omega)) (by rw [hij]; exact lt_irrefl _)
  · exact h'
  · exact absurd (nodal_anti h j i h' (by omega)) (by rw [hij]; exact lt_irrefl _)

/-- The reversal of the nodes but not of the weights does no harm. -/
theorem lobatto_sum {L : Lib ℝ} {k : Nat} (h : Found L (k + 1)) (g : ℝ → ℝ) :
    ∑ q ∈ Finset.range (computeLobatto L (k + 1)).n, (computeLobatto L (k + 1)).w q * g ((computeLobatto L (k + 1)).x q) =
      ∑ i ∈ Finset.range (k + 2), 2 / (((k : ℝ) + 1) * (k + 2) * (P (k + 1)).eval (nodal L (k + 1) i) ^ 2) * g (nodal L (k + 1) i) := by
  rw [← Finset.sum_range_reflect]
  refine Finset.sum_congr rfl fun q hq => ?_
  have hq : q < k + 2 := Finset.mem_range.1 hq
  simp only [computeLobatto]
  rw [show k + 2 - 1 - q = k + 1 - q by omega, nodal_symm h q (by omega), leg_eval, Legendre.eval_neg, mul_pow, ← pow_mul,
    mul_comm (k + 1) 2, pow_mul, Nat.sub_sub_self (by omega : q ≤ k + 1)]
  push_cast
  rw [show (k : ℝ) + 1 + 1 = k + 2 by ring]
  norm_num

/-- Lobatto quadrature of order `p` integrates polynomials of degree up to `2p - 1` exactly. -/
theorem c70_lobatto (L : Lib ℝ) (p : Nat) (r : Rule ℝ) (hr : quad L [(.lobatto, p)] = some [r]) (h : Found L p) :
    r.n = p + 1 ∧ Integrates r (2 * p - 1) := by
  obtain ⟨k, rfl, rfl⟩ := lobatto_data hr
  refine ⟨rfl, fun f hf => ?_⟩
  rw [lobatto_sum h fun t => f.eval t, ← I_integral]
  exact Legendre.lobatto_exact k _ (nodal_inj h) (nodal_zero L _) (nodal_last L k) (lobatto_roots h) f (by omega)

/-- The degree cannot be raised. -/
theorem c70_lobatto_sharp (L : Lib ℝ) (p : Nat) (r : Rule ℝ) (hr : quad L [(.lobatto, p)] = some [r]) (h : Found L p) :
    ¬ Integrates r (2 * p) := by
  obtain ⟨k, rfl, rfl⟩ := lobatto_data hr
  intro hI
  have hw := Legendre.I_weight (F := ℝ) (k + 1) (P (k + 1))
  rw [Legendre.I_norm] at hw
  have hs := hI ((1 - X ^ 2) * derivative (P (k + 1)) * derivative (P (k + 1))) (by
    refine natDegree_mul_le.trans ?_
    have h1 : ((1 - X ^ 2) * derivative (P (k + 1)) : ℝ[X]).natDegree = k + 2 := Legendre.natDegree_Q k
    rw [h1, Legendre.natDegree_deriv]
    omega)
  rw [← I_integral, hw, lobatto_sum h fun t => ((1 - X ^ 2) * derivative (P (k + 1)) * derivative (P (k + 1)) : ℝ[X]).eval t,
    Finset.sum_eq_zero] at hs
  · have : (0 : ℝ) < ((k + 1 : Nat) : ℝ) * (((k + 1 : Nat) : ℝ) + 1) * (2 / (2 * ((k + 1 : Nat) : ℝ) + 1)) := by positivity
    linarith
  · intro i hi
    have hi : i < k + 2 := Finset.mem_range.1 hi
    rcases Nat.eq_zero_or_pos i with h0 | h0
    · subst h0; rw [nodal_zero]; simp
    rcases Nat.lt_or_ge i (k + 1) with h' | h'
    · simp [lobatto_roots h i h0 h']
    · have : i = k + 1 := by omega
      subst this; rw [nodal_last]; simp

/-- The nodes grow from -1 to 1 and lie symmetric, and the weights are positive and symmetric. -/
theorem c70_lobatto_nodes (L : Lib ℝ) (p : Nat) (r : Rule ℝ) (hr : quad L [(.lobatto, p)] = some [r]) (h : Found L p) :
    r.x 0 = -1 ∧ r.x p = 1 ∧ (∀ i j, i < j → j ≤ p → r.x i < r.x j) ∧
      (∀ q ≤ p, r.x (p - q) = -r.x q ∧ r.w (p - q) = r.w q ∧ 0 < r.w q) := by
  obtain ⟨k, rfl, rfl⟩ := lobatto_data hr
  refine ⟨?_, ?_, fun i j hij hj => ?_, fun q hq => ⟨?_, ?_, ?_⟩⟩
  · simp only [computeLobatto, Nat.sub_zero, nodal_last]
  · simp only [computeLobatto, Nat.sub_self, nodal_zero]
  · exact nodal_anti h _ _ (by omega) (by omega)
  · simp only [computeLobatto]
    rw [Nat.sub_sub_self hq, nodal_symm h q hq, neg_neg]
  · simp only [computeLobatto]
    rw [nodal_symm h q hq, leg_eval, leg_eval, Legendre.eval_neg, mul_pow, ← pow_mul, mul_comm (k + 1) 2, pow_mul]
    norm_num
  · have hne : (P (k + 1)).eval (nodal L (k + 1) q) ≠ 0 := by
      intro h0
      rcases Nat.eq_zero_or_pos q with hq0 | hq0
      · subst hq0; rw [nodal_zero, Legendre.P_eval_one] at h0; exact one_ne_zero h0
      rcases Nat.lt_or_ge q (k + 1) with h' | h'
      · exact Legendre.simple k _ h0 (lobatto_roots h q hq0 h')
      · have : q = k + 1 := by omega
        subst this
        rw [nodal_last, Legendre.eval_neg_one] at h0
        exact pow_ne_zero _ (by norm_num) h0
    simp only [computeLobatto, leg_eval]
    positivity

/-- Such nodes exist for every order, and no others. -/
theorem c70_lobatto_zeros (p : Nat) (hp : 1 ≤ p) :
    ∃ z : Nat → ℝ, Zeros (derivative (P p)) (p - 1) z ∧ ∀ y, Zeros (derivative (P p)) (p - 1) y → ∀ i < p - 1, y i = z i := by
  obtain ⟨k, rfl⟩ : ∃ k, p = k + 1 := ⟨p - 1, by omega⟩
  obtain ⟨z, hz⟩ := Legendre.deriv_zeros_exist k
  exact ⟨z, hz, fun y hy => hy.unique (Legendre.deriv_ne k) (Legendre.natDegree_deriv k).le hz⟩

/-- Found zeros: a starting point in the zero itself is enough. -/
theorem c70_found (p : Nat) (hp : 1 ≤ p) (z : Nat → ℝ) (hz : Zeros (derivative (P p)) (p - 1) z) (L : Lib ℝ) (he : 0 < L.eps10)
    (hs : ∀ i, 1 ≤ i → i < p → L.cosines p i = z (i - 1)) : Found L p := by
  have e : ∀ i < p - 1, nodal L p (i + 1) = z i := by
    intro i hi
    have hz' := hz.1 i hi
    rw [nodal, if_neg (by omega), if_neg (by omega), hs (i + 1) (by omega) (by omega), Nat.add_sub_cancel]
    refine c70_newton_stays p _ he _ ?_ hz'.2.2 99
    nlinarith [hz'.1, hz'.2.1]
  exact ⟨fun i hi => by beta_reduce; rw [e i hi]; exact hz.1 i hi, fun i j hij hj => by
    beta_reduce
    rw [e i (by omega), e j hj]; exact hz.2 i j hij hj⟩

/-- If the points returned by Newton's method come close to the zeros, the sums come close to the integral. -/
theorem c70_lobatto_limit {ι : Type*} (l : Filter ι) (L : ι → Lib ℝ) (p : Nat) (hp : 1 ≤ p) (r : ι → Rule ℝ)
    (hr : ∀ s, quad (L s) [(.lobatto, p)] = some [r s]) (z : Nat → ℝ) (hz : Zeros (derivative (P p)) (p - 1) z)
    (hc : ∀ i, 1 ≤ i → i < p → Filter.Tendsto (fun s => nodal (L s) p i) l (nhds (z (i - 1))))
    (f : ℝ[X]) (hf : f.natDegree ≤ 2 * p - 1) :
    Filter.Tendsto (fun s => ∑ q ∈ Finset.range (r s).n, (r s).w q * f.eval ((r s).x q)) l
      (nhds (∫ t in (-1 : ℝ)..1, f.eval t)) := by
  obtain ⟨k, rfl⟩ : ∃ k, p = k + 1 := ⟨p - 1, by omega⟩
  set M : Lib ℝ := ⟨fun _ => ⟨0, 0, 0⟩, fun _ => ⟨0, 0, 0⟩, fun _ => ⟨0, 0, 0⟩, fun _ i => z (i - 1), 1⟩ with hM
  have hF : Found M (k + 1) := c70_found (k + 1) hp z hz M one_pos fun i _ _ => rfl
  have hq : quad M [(.lobatto, k + 1)] = some [computeLobatto M (k + 1)] := by simp [quad, checkP, compute]
  rw [← (c70_lobatto M (k + 1) _ hq hF).2 f hf]
  have hrs : r = fun s => computeLobatto (L s) (k + 1) := funext fun s => by
    obtain ⟨-, h2⟩ := quad_single (hr s)
    exact h2
  rw [hrs]
  have ht : ∀ i ≤ k + 1, Filter.Tendsto (fun s => nodal (L s) (k + 1) i) l (nhds (nodal M (k + 1) i)) := by
    intro i hi
    rcases Nat.eq_zero_or_pos i with h0 | h0
    · subst h0; simp only [nodal_zero]; exact tendsto_const_nhds
    rcases Nat.lt_or_ge i (k + 1) with h' | h'
    · have e : nodal M (k + 1) i = z (i - 1) := by
        rw [nodal, if_neg (by omega), if_neg (by omega)]
        have hz' := hz.1 (i - 1) (by omega)
        refine c70_newton_stays (k + 1) _ one_pos _ ?_ hz'.2.2 99
        show z (i - 1) ^ 2 ≠ 1
        nlinarith [hz'.1, hz'.2.1]
      rw [e]
      exact hc i h0 h'
    · have : i = k + 1 := by omega
      subst this; simp only [nodal_last]; exact tendsto_const_nhds
  have hw := (c70_lobatto_nodes M (k + 1) _ hq hF).2.2.2
  refine tendsto_finsetSum _ fun q hq => ?_
  have hq : q < k + 2 := Finset.mem_range.1 hq
  simp only [computeLobatto, leg_eval]
  refine Filter.Tendsto.mul (Filter.Tendsto.div tendsto_const_nhds ?_ ?_) ?_
  · exact tendsto_const_nhds.mul ((((P (k + 1)).continuous.tendsto _).comp (ht q (by omega))).pow 2)
  · intro h0
    have := (hw q (by omega)).2.2
    simp only [computeLobatto, leg_eval, h0, div_zero, lt_irrefl] at this
  · exact (f.continuous.tendsto _).comp (ht (k + 1 - q) (by omega))

/-! ## Gauss -/

/-- The documented result of `scipy.special.roots_legendre(n)` and `numpy.polynomial.legendre.leggauss(n)`: the nodes are the zeros
of the Legendre polynomial of degree `n`, the weights those of Gauss' rule. -/
def GaussRule (n : Nat) (r : Rule ℝ) : Prop :=
  r.n = n ∧ (∀ q < n, -1 < r.x q ∧ r.x q < 1 ∧ (P n).eval (r.x q) = 0) ∧ (∀ i j, i < j → j < n → r.x i < r.x j) ∧
    ∀ q < n, r.w q = 2 / ((1 - r.x q ^ 2) * (derivative (P n)).eval (r.x q) ^ 2)

theorem gauss_inj {n : Nat} {r : Rule ℝ} (h : GaussRule n r) : Set.InjOn r.x (Finset.range n : Finset Nat) := by
  intro i hi j hj hij
  simp only [Finset.coe_range, Set.mem_Iio] at hi hj
  rcases Nat.lt_trichotomy i j with h' | h' | h'
  · exact absurd (h.2.2.1 i j h' hj) (by rw [hij]; exact lt_irrefl _)
  · exact h'
  · exact absurd (h.2.2.1 j i h' hi) (by rw [hij]; exact lt_irrefl _)

theorem gauss_integrates {k : Nat} {r : Rule ℝ} (h : GaussRule (k + 1) r) : Integrates r (2 * k + 1) := by
  intro f hf
  rw [← I_integral, ← Legendre.gauss_exact k r.x (gauss_inj h) (fun i hi => (h.2.1 i hi).2.2) f hf, h.1]
  refine Finset.sum_congr rfl fun q hq => ?_
  rw [h.2.2.2 q (Finset.mem_range.1 hq)]

/-- Gauss quadrature of order `p` has `p + 1` nodes and integrates polynomials of degree up to `2p + 1` exactly, not more. -/
theorem c70_gauss (L : Lib ℝ) (hL : ∀ n, GaussRule n (L.rootsLegendre n)) (p : Nat) (r : Rule ℝ)
    (hr : quad L [(.gauss, p)] = some [r]) :
    r.n = p + 1 ∧ Integrates r (2 * p + 1) ∧ ¬ Integrates r (2 * p + 2) := by
  obtain ⟨-, rfl⟩ := quad_single hr
  have h : GaussRule (p + 1) (L.rootsLegendre (p + 1)) := hL _
  refine ⟨h.1, gauss_integrates h, fun hI => ?_⟩
  have hs := hI (P (p + 1) * P (p + 1)) (natDegree_mul_le.trans (by rw [Legendre.natDegree_P]; omega))
  rw [← I_integral, Legendre.I_norm, Finset.sum_eq_zero] at hs
  · have : (0 : ℝ) < 2 / (2 * ((p + 1 : Nat) : ℝ) + 1) := by positivity
    linarith
  · intro q hq
    have hq : q < p + 1 := by
      have := Finset.mem_range.1 hq
      rwa [compute, computeGauss, h.1] at this
    rw [compute, computeGauss, eval_mul, (h.2.1 q hq).2.2]
    ring

/-- Rules as `roots_legendre` promises exist for all orders. -/
theorem c70_gauss_exists (n : Nat) : ∃ r, GaussRule n r := by
  obtain ⟨z, hz⟩ := Legendre.zeros_exist n
  refine ⟨⟨n, fun q => z (n - 1 - q), fun q => 2 / ((1 - z (n - 1 - q) ^ 2) * (derivative (P n)).eval (z (n - 1 - q)) ^ 2)⟩, rfl,
    fun q hq => ?_, fun i j hij hj => ?_, fun q _ => rfl⟩
  · exact hz.1 (n - 1 - q) (by omega)
  · exact hz.2 (n - 1 - j) (n - 1 - i) (by omega) (by omega)

/-- 'extended_Gauss' of order `p` integrates polynomials of degree up to `2p - 3` exactly. -/
theorem c70_extended (L : Lib ℝ) (hL : ∀ n, GaussRule n (L.leggauss n)) (p : Nat) (r : Rule ℝ)
    (hr : quad L [(.extendedGauss, p)] = some [r]) :
    r.n = p + 1 ∧ r.x 0 = -1 ∧ r.x p = 1 ∧ Integrates r (2 * p - 3) := by
  obtain ⟨hp, rfl⟩ := quad_single hr
  have hp : 2 ≤ p := by simpa [checkP] using hp
  obtain ⟨k, rfl⟩ : ∃ k, p = k + 2 := ⟨p - 2, by omega⟩
  refine ⟨rfl, rfl, by simp [compute, computeExtended], fun f hf => ?_⟩
  have h : GaussRule (k + 1) (L.leggauss (k + 1)) := hL _
  rw [← gauss_integrates h f (by omega), h.1]
  simp only [compute, computeExtended]
  rw [Finset.sum_range_succ', Finset.sum_range_succ]
  simp only [Nat.add_sub_cancel, Nat.add_one_ne_zero, if_false, if_true, zero_mul, add_zero,
    show k + 2 - 1 = k + 1 by omega]
  refine Finset.sum_congr rfl fun q hq => ?_
  have hq := Finset.mem_range.1 hq
  rw [if_neg (by omega), if_neg (by omega)]

/-- The rules meet the hypotheses made about rules in C52 and C67. -/
theorem c70_exact (r : Rule ℝ) (d : Nat) : Integrates r d ↔ Disc.Exact r d := by
  constructor
  · intro h k hk
    have := h (X ^ k) (by rw [natDegree_X_pow]; exact hk)
    simp only [eval_pow, eval_X] at this
    rw [this, integral_pow, one_pow]
  · intro h f hf
    rw [← I_integral]
    have e : ∀ t, f.eval t = ∑ k ∈ Finset.range (d + 1), f.coeff k * t ^ k := fun t => eval_eq_sum_range' (by omega) t
    simp only [e, Finset.mul_sum]
    rw [Finset.sum_comm]
    conv_rhs => rw [f.as_sum_range' (d + 1) (by omega), map_sum]
    refine Finset.sum_congr rfl fun k hk => ?_
    rw [Legendre.I_monomial, ← h k (by have := Finset.mem_range.1 hk; omega), Finset.sum_mul]
    refine Finset.sum_congr rfl fun q _ => by ring

/-! ## More directions -/

theorem sum_ravel (n M : Nat) (g : Nat → Nat → ℝ) :
    ∑ m ∈ Finset.range (n * M), g (m % n) (m / n) = ∑ b ∈ Finset.range M, ∑ a ∈ Finset.range n, g a b := by
  induction M with
  | zero => simp
  | succ M ih =>
    rw [Nat.mul_succ, Finset.sum_range_add, ih, Finset.sum_range_succ]
    congr 1
    refine Finset.sum_congr rfl fun a ha => ?_
    have ha := Finset.mem_range.1 ha
    rw [Nat.mul_add_mod, Nat.mod_eq_of_lt ha, Nat.mul_add_div (by omega), Nat.div_eq_of_lt ha, Nat.add_zero]

theorem length_unravelF (shape : List Nat) (m : Nat) : (unravelF shape m).length = shape.length := by
  induction shape generalizing m with
  | nil => rfl
  | cons n s ih => simp [unravelF, ih]

theorem sum_prod_ravel (gs : List (Nat × (Nat → ℝ))) :
    ∑ m ∈ Finset.range (gs.map (·.1)).prod, (List.zipWith (fun g a => g.2 a) gs (unravelF (gs.map (·.1)) m)).prod =
      (gs.map fun g => ∑ a ∈ Finset.range g.1, g.2 a).prod := by
  induction gs with
  | nil => simp [unravelF]
  | cons g gs ih =>
    simp only [List.map_cons, List.prod_cons, unravelF, List.zipWith_cons_cons]
    rw [sum_ravel g.1 _ fun a b => g.2 a * (List.zipWith (fun g a => g.2 a) gs (unravelF (gs.map (·.1)) b)).prod, ← ih,
      Finset.mul_sum]
    refine Finset.sum_congr rfl fun b _ => ?_
    rw [Finset.sum_mul]

theorem zipWith_prod {α β : Type*} (f : α → β → ℝ) (l : List α) (l' : List β) (h : l.length = l'.length) :
    (List.zipWith f l l').prod = ∏ i : Fin l.length, f l[i] (l'[i]'(by rw [← h]; exact i.2)) := by
  rw [← List.prod_ofFn]
  congr 1
  refine List.ext_getElem (by simp [h]) fun i h1 h2 => ?_
  simp

theorem weightLoop_eq (ws : List (Nat → ℝ)) (A : List Nat → ℝ) (n : Nat) (idx : List Nat) (h : idx.length = n + ws.length) :
    weightLoop A n ws idx = A (idx.take n) * (List.zipWith (fun b a => b a) ws (idx.drop n)).prod := by
  induction ws generalizing A n with
  | nil =>
    have : idx.length = n := by simpa using h
    simp [weightLoop, ← this]
  | cons b ws ih =>
    have hn : n < idx.length := by rw [h]; simp
    rw [weightLoop, ih _ _ (by rw [h, List.length_cons]; omega), List.drop_eq_getElem_cons hn, List.zipWith_cons_cons, List.prod_cons,
      tensordot, List.take_take, Nat.min_eq_left (by omega), mul_assoc]
    congr 2
    rw [List.getD_eq_getElem _ _ (by simp; omega)]
    simp

theorem tensorWeights_eq (rs : List (Rule ℝ)) (idx : List Nat) (h : idx.length = rs.length) :
    tensorWeights rs idx = (List.zipWith (fun r a => r.w a) rs idx).prod := by
  cases rs with
  | nil => simp [tensorWeights]
  | cons r rs =>
    cases idx with
    | nil => simp at h
    | cons a idx =>
      rw [tensorWeights, weightLoop_eq _ _ _ _ (by simp at h ⊢; omega)]
      simp [List.zipWith_map_left]

/-- The sum of a product of functions of one coordinate each. -/
theorem ravel_monomial (rs : List (Rule ℝ)) (k : Fin rs.length → Nat) :
    ∑ m ∈ Finset.range (rs.map (·.n)).prod, ravelWeight rs m * ∏ i : Fin rs.length, ravelNode rs i m ^ k i =
      ∏ i : Fin rs.length, ∑ a ∈ Finset.range rs[i].n, rs[i].w a * rs[i].x a ^ k i := by
  set gs : List (Nat × (Nat → ℝ)) := List.ofFn fun i : Fin rs.length => (rs[i].n, fun a => rs[i].w a * rs[i].x a ^ k i) with hgs
  have hl : gs.length = rs.length := by simp [hgs]
  have h1 : gs.map (·.1) = rs.map (·.n) := List.ext_getElem (by simp [hl]) fun i h1 h2 => by simp [hgs]
  have h := sum_prod_ravel gs
  rw [h1] at h
  have h2 : (gs.map fun g => ∑ a ∈ Finset.range g.1, g.2 a) =
      List.ofFn fun i : Fin rs.length => ∑ a ∈ Finset.range rs[i].n, rs[i].w a * rs[i].x a ^ k i :=
    List.ext_getElem (by simp [hl]) fun i h1 h2 => by simp [hgs]
  rw [h2, List.prod_ofFn] at h
  rw [← h]
  refine Finset.sum_congr rfl fun m _ => ?_
  have hlen : (unravelF (rs.map (·.n)) m).length = rs.length := by rw [length_unravelF]; simp
  rw [ravelWeight, tensorWeights_eq rs _ hlen, zipWith_prod _ _ _ hlen.symm, ← Finset.prod_mul_distrib]
  have h3 : List.zipWith (fun g a => g.2 a) gs (unravelF (rs.map (·.n)) m) =
      List.ofFn fun i : Fin rs.length => rs[i].w ((unravelF (rs.map (·.n)) m)[i]'(by rw [hlen]; exact i.2)) *
        rs[i].x ((unravelF (rs.map (·.n)) m)[i]'(by rw [hlen]; exact i.2)) ^ k i :=
    List.ext_getElem (by simp [hl, hlen]) fun i h1 h2 => by simp [hgs]
  rw [h3, List.prod_ofFn]
  refine Finset.prod_congr rfl fun i _ => ?_
  congr 2
  rw [ravelNode, meshNode, List.getElem?_eq_getElem i.2, List.getD_eq_getElem _ _ (by rw [hlen]; exact i.2)]
  rfl

/-- The integral of a monomial over the cube. -/
theorem cube_monomial (n : Nat) (k : Fin n → Nat) :
    ∫ x in Set.univ.pi (fun _ : Fin n => Set.Icc (-1 : ℝ) 1), ∏ i, x i ^ k i = ∏ i, ∫ t in (-1 : ℝ)..1, t ^ k i := by
  rw [MeasureTheory.volume_pi, MeasureTheory.Measure.restrict_pi_pi,
    MeasureTheory.integral_fintype_prod_eq_prod (fun i (t : ℝ) => t ^ k i)]
  refine Finset.prod_congr rfl fun i _ => ?_
  rw [intervalIntegral.integral_of_le (by norm_num), MeasureTheory.integral_Icc_eq_integral_Ioc]

/-- The tensor product of rules, raveled, integrates over the cube every polynomial whose degree in each variable is one that the
rule of that direction integrates. -/
theorem c70_ndim (rs : List (Rule ℝ)) (d : Fin rs.length → Nat) (hd : ∀ i : Fin rs.length, Integrates rs[i] (d i))
    (f : MvPolynomial (Fin rs.length) ℝ) (hf : ∀ i, f.degreeOf i ≤ d i) :
    ∑ m ∈ Finset.range (rs.map (·.n)).prod, ravelWeight rs m * MvPolynomial.eval (fun i : Fin rs.length => ravelNode rs i m) f =
      ∫ x in Set.univ.pi (fun _ : Fin rs.length => Set.Icc (-1 : ℝ) 1), MvPolynomial.eval x f := by
  simp only [MvPolynomial.eval_eq', Finset.mul_sum]
  rw [Finset.sum_comm, MeasureTheory.integral_finsetSum]
  · refine Finset.sum_congr rfl fun k hk => ?_
    rw [MeasureTheory.integral_const_mul, cube_monomial]
    have e : ∀ m, ravelWeight rs m * (f.coeff k * ∏ i : Fin rs.length, ravelNode rs i m ^ k i) =
        f.coeff k * (ravelWeight rs m * ∏ i : Fin rs.length, ravelNode rs i m ^ k i) := fun m => by ring
    simp only [e]
    rw [← Finset.mul_sum, ravel_monomial]
    congr 1
    refine Finset.prod_congr rfl fun i _ => ?_
    have := hd i (X ^ k i) (by rw [natDegree_X_pow]; exact (MvPolynomial.monomial_le_degreeOf i hk).trans (hf i))
    simpa only [eval_pow, eval_X] using this
  · intro k _
    refine ContinuousOn.integrableOn_compact (isCompact_univ_pi fun _ => isCompact_Icc) (Continuous.continuousOn ?_)
    exact continuous_const.mul (continuous_finsetProd _ fun i _ => (continuous_apply i).pow _)

/-- The degree that a rule integrates. -/
def exactDegree : Category × Nat → Nat
  | (.gauss, p) => 2 * p + 1
  | (.lobatto, p) => 2 * p - 1
  | (.extendedGauss, p) => 2 * p - 3
  | (.chebyshev, _) => 0

/-- `Quadrature(p, category).quad_ndim_ravel` for Gauss and Lobatto rules, in any number of directions. -/
theorem c70_quad (L : Lib ℝ) (hG : ∀ n, GaussRule n (L.rootsLegendre n)) (ps : List (Category × Nat)) (rs : List (Rule ℝ))
    (h : quad L ps = some rs) (hc : ∀ c ∈ ps, c.1 = .gauss ∨ (c.1 = .lobatto ∧ Found L c.2)) :
    rs.length = ps.length ∧ ∀ f : MvPolynomial (Fin rs.length) ℝ,
      (∀ i (hi : i < rs.length) (hi' : i < ps.length), f.degreeOf ⟨i, hi⟩ ≤ exactDegree ps[i]) →
      ∑ m ∈ Finset.range (rs.map (·.n)).prod, ravelWeight rs m * MvPolynomial.eval (fun i : Fin rs.length => ravelNode rs i m) f =
        ∫ x in Set.univ.pi (fun _ : Fin rs.length => Set.Icc (-1 : ℝ) 1), MvPolynomial.eval x f := by
  have hrs : rs = ps.map (fun c => compute L c.1 c.2) ∧ ∀ c ∈ ps, checkP c.1 c.2 = true := by
    rw [quad] at h
    split at h
    · next ha => exact ⟨by simpa using h.symm, fun c hc => (List.all_eq_true.1 ha) c hc⟩
    · exact absurd h (by simp)
  obtain ⟨rfl, hck⟩ := hrs
  have hl : (ps.map fun c => compute L c.1 c.2).length = ps.length := by simp
  refine ⟨hl, fun f hf => c70_ndim _ (fun i => exactDegree (ps[i.1]'(by rw [← hl]; exact i.2))) (fun i => ?_) f
    fun i => hf i.1 i.2 (by rw [← hl]; exact i.2)⟩
  have hi : i.1 < ps.length := by rw [← hl]; exact i.2
  have hm : ps[i.1] ∈ ps := List.getElem_mem hi
  have e : (ps.map fun c => compute L c.1 c.2)[i] = compute L ps[i.1].1 ps[i.1].2 := by simp
  rw [e]
  have h1 := hc _ hm
  have h2 := hck _ hm
  generalize ps[i.1] = c at h1 h2
  obtain ⟨c, p⟩ := c
  have hq : quad L [(c, p)] = some [compute L c p] := by simp only at h2; simp [quad, h2]
  rcases h1 with h1 | ⟨h1, h3⟩
  · simp only at h1; subst h1
    exact (c70_gauss L hG p _ hq).2.1
  · simp only at h1; subst h1
    exact (c70_lobatto L p _ hq h3).2

/-! ## Cases -/

/-- A library with exact numbers: Gauss' rules as promised, the cosines and the tolerance of the code. -/
noncomputable def lib70 : Lib ℝ where
  rootsLegendre n := (c70_gauss_exists n).choose
  leggauss n := (c70_gauss_exists n).choose
  chebgauss n := ⟨n, fun q => Real.cos ((2 * q + 1) / (2 * n) * Real.pi), fun _ => Real.pi / n⟩
  cosines p i := Real.cos (i / p * Real.pi)
  eps10 := 10 / 2 ^ 52

/-- With the starting points of the code, orders 1 and 2 are found without any error. -/
theorem found70 : Found lib70 1 ∧ Found lib70 2 := by
  refine ⟨⟨fun i hi => absurd hi (by omega), fun i j _ hj => absurd hj (by omega)⟩, ?_⟩
  have hd : derivative (P 2 : ℝ[X]) = 3 * X := by
    have := Legendre.deriv_up (F := ℝ) 1
    rw [this, Legendre.P_one]
    simp
    ring
  have hc : lib70.cosines 2 1 = 0 := by
    show Real.cos (((1 : Nat) : ℝ) / ((2 : Nat) : ℝ) * Real.pi) = 0
    rw [show ((1 : Nat) : ℝ) / ((2 : Nat) : ℝ) * Real.pi = Real.pi / 2 by push_cast; ring, Real.cos_pi_div_two]
  refine c70_found 2 (by omega) (fun _ => 0) ⟨fun i hi => ⟨by norm_num, by norm_num, by rw [hd]; simp⟩, fun i j hij hj => by omega⟩
    lib70 (by norm_num [lib70]) fun i h1 h2 => ?_
  have : i = 1 := by omega
  subst this
  exact hc

/-- Simpson's rule. -/
example : ∀ f : ℝ[X], f.natDegree ≤ 3 → 1 / 3 * f.eval (-1) + 4 / 3 * f.eval 0 + 1 / 3 * f.eval 1 = ∫ t in (-1 : ℝ)..1, f.eval t := by
  intro f hf
  have h := (c70_lobatto lib70 2 _ rfl found70.2).2 f hf
  have hc : nodal lib70 2 1 = 0 := by
    have h1 := nodal_symm found70.2 1 (by omega)
    simp only [show 1 + 1 - 1 = 1 by omega] at h1
    show nodal lib70 (1 + 1) 1 = 0
    linarith
  rw [← h]
  simp [compute, computeLobatto, Finset.sum_range_succ, hc, nodal_zero, nodal_last lib70 1, leg]
  norm_num

example : ∃ r, quad lib70 [(.gauss, 3)] = some [r] ∧ Integrates r 7 := by
  obtain ⟨-, h, -⟩ := c70_gauss lib70 (fun n => (c70_gauss_exists n).choose_spec) 3 _ rfl
  exact ⟨_, rfl, h⟩

/-- A Gauss rule and a Lobatto rule together. -/
example : ∃ rs, quad lib70 [(.gauss, 3), (.lobatto, 2)] = some rs ∧ rs.length = 2 := by
  obtain ⟨h, -⟩ := c70_quad lib70 (fun n => (c70_gauss_exists n).choose_spec) [(.gauss, 3), (.lobatto, 2)] _ rfl (by
    intro c hc
    simp only [List.mem_cons, List.not_mem_nil, or_false] at hc
    rcases hc with rfl | rfl
    · exact Or.inl rfl
    · exact Or.inr ⟨rfl, found70.2⟩)
  exact ⟨_, rfl, h⟩

/-- Order 0 is refused for Lobatto rules. -/
example : quad lib70 [(.lobatto, 0)] = none := rfl

end Mifem.Props
