import Verif.Lemmas.GaussRules
import Mathlib.Analysis.Calculus.Deriv.Polynomial
import Mathlib.Analysis.Calculus.LocalExtr.Rolle
import Mathlib.Topology.Algebra.Polynomial
import Mathlib.Topology.Order.IntermediateValue
import Mathlib.Tactic.Positivity
import Mathlib.Tactic.Linarith

/-! # Real zeros of Legendre polynomials and of their derivatives -/

namespace Mifem.Legendre
open Polynomial

theorem lead_pos (n : Nat) : 0 < (lead n : ℝ) := by
  induction n with
  | zero => simp [lead]
  | succ n ih => rw [lead]; positivity

/-- A polynomial with `n` known zeros is the product of the linear factors. -/
theorem P_eq_prod (n : Nat) (x : Nat → ℝ) (hx : Set.InjOn x (Finset.range n : Finset Nat)) (hr : ∀ i < n, (P n).eval (x i) = 0)
    (z : ℝ) : (P n).eval z = lead n * ∏ j ∈ Finset.range n, (z - x j) := by
  have hmon : (∏ j ∈ Finset.range n, (X - C (x j))).Monic := monic_prod_X_sub_C _ _
  have hdeg : (∏ j ∈ Finset.range n, (X - C (x j))).natDegree = n := by
    rw [natDegree_prod_of_monic _ _ fun i _ => monic_X_sub_C _]; simp
  have h : P n - C (lead n) * ∏ j ∈ Finset.range n, (X - C (x j)) = 0 := by
    refine Polynomial.eq_zero_of_degree_lt_of_eval_index_eq_zero _ hx ?_ ?_
    · rw [Finset.card_range, degree_lt_iff_coeff_zero]
      intro m hm
      rw [coeff_sub, coeff_C_mul]
      rcases Nat.lt_or_ge n m with h | h
      · rw [coeff_eq_zero_of_natDegree_lt (p := P n) (by rw [natDegree_P]; exact h),
          coeff_eq_zero_of_natDegree_lt (by rw [hdeg]; exact h)]
        simp
      · have : m = n := by omega
        subst this
        have hc : (∏ j ∈ Finset.range m, (X - C (x j))).coeff m = 1 := by
          have := hmon.coeff_natDegree
          rwa [hdeg] at this
        rw [(degree_le_coeff m).2, hc]
        ring
    · intro i hi
      rw [eval_sub, hr i (Finset.mem_range.1 hi), eval_mul, eval_prod, Finset.prod_eq_zero hi (by simp)]
      ring
  have h2 := congrArg (eval z) (sub_eq_zero.1 h)
  rw [h2, eval_mul, eval_C, eval_prod]
  simp

/-- The sign of the product between two zeros. -/
theorem prod_sign (n i : Nat) (hi : i ≤ n) (x : Nat → ℝ) (z : ℝ) (ha : ∀ j < i, z < x j) (hb : ∀ j < n, i ≤ j → x j < z) :
    0 < (-1) ^ i * ∏ j ∈ Finset.range n, (z - x j) := by
  induction n with
  | zero =>
    have : i = 0 := by omega
    subst this; simp
  | succ n ih =>
    rw [Finset.prod_range_succ]
    rcases Nat.lt_or_ge n i with h | h
    · have : i = n + 1 := by omega
      subst this
      have key : ∀ m ≤ n + 1, 0 < (-1 : ℝ) ^ m * ∏ j ∈ Finset.range m, (z - x j) := by
        intro m hm
        induction m with
        | zero => simp
        | succ m ihm =>
          rw [Finset.prod_range_succ, pow_succ]
          have h1 := ihm (by omega)
          have h2 := ha m (by omega)
          have : (-1 : ℝ) ^ m * -1 * ((∏ j ∈ Finset.range m, (z - x j)) * (z - x m)) =
            ((-1) ^ m * ∏ j ∈ Finset.range m, (z - x j)) * (x m - z) := by ring
          rw [this]
          exact mul_pos h1 (by linarith)
      have := key (n + 1) le_rfl
      rwa [Finset.prod_range_succ] at this
    · have h1 := ih h fun j hj hij => hb j (by omega) hij
      have h2 := hb n (by omega) h
      rw [← mul_assoc]
      exact mul_pos h1 (by linarith)

/-- A sign change gives a zero. -/
theorem zero_between (f : ℝ[X]) {a b : ℝ} (hab : a < b) (i : Nat) (ha : 0 < (-1) ^ (i + 1) * f.eval a) (hb : 0 < (-1) ^ i * f.eval b) :
    ∃ z, a < z ∧ z < b ∧ f.eval z = 0 := by
  have hc : ContinuousOn (fun t => (-1) ^ i * f.eval t) (Set.Icc a b) := (continuous_const.mul f.continuous).continuousOn
  have ha' : (-1 : ℝ) ^ i * f.eval a < 0 := by
    have : (-1 : ℝ) ^ (i + 1) * f.eval a = -((-1) ^ i * f.eval a) := by ring
    linarith
  obtain ⟨z, hz, hz0⟩ := intermediate_value_Ioo hab.le hc ⟨ha', hb⟩
  refine ⟨z, hz.1, hz.2, ?_⟩
  rcases mul_eq_zero.1 hz0 with h | h
  · exact absurd h (pow_ne_zero _ (by norm_num))
  · exact h

/-- `x 0 > x 1 > ... > x (n - 1)` are zeros of `f` in `(-1, 1)`. -/
def Zeros (f : ℝ[X]) (n : Nat) (x : Nat → ℝ) : Prop :=
  (∀ i < n, -1 < x i ∧ x i < 1 ∧ f.eval (x i) = 0) ∧ ∀ i j, i < j → j < n → x j < x i

theorem Zeros.inj {f : ℝ[X]} {n : Nat} {x : Nat → ℝ} (h : Zeros f n x) : Set.InjOn x (Finset.range n : Finset Nat) := by
  intro i hi j hj hij
  simp only [Finset.coe_range, Set.mem_Iio] at hi hj
  rcases Nat.lt_trichotomy i j with h' | h' | h'
  · exact absurd (h.2 i j h' hj) (by rw [hij]; exact lt_irrefl _)
  · exact h'
  · exact absurd (h.2 j i h' hi) (by rw [hij]; exact lt_irrefl _)

/-- Zeros chosen between consecutive points of a decreasing sequence. -/
theorem zeros_choose (f : ℝ[X]) (n : Nat) (y : Nat → ℝ) (hy : ∀ i < n, y (i + 1) < y i) (h0 : y 0 ≤ 1) (hn : -1 ≤ y n)
    (hz : ∀ i < n, ∃ z, y (i + 1) < z ∧ z < y i ∧ f.eval z = 0) :
    ∃ z : Nat → ℝ, Zeros f n z ∧ ∀ i < n, y (i + 1) < z i ∧ z i < y i := by
  have mono : ∀ d i, i + d ≤ n → y (i + d) ≤ y i := by
    intro d
    induction d with
    | zero => intro i _; exact le_rfl
    | succ d ih => intro i hi; exact (hy (i + d) (by omega)).le.trans (ih i (by omega))
  have mono' : ∀ i j, i ≤ j → j ≤ n → y j ≤ y i := fun i j hij hj => by
    have := mono (j - i) i (by omega)
    rwa [Nat.add_sub_cancel' hij] at this
  choose! z hz using hz
  refine ⟨z, ⟨fun i hi => ⟨?_, ?_, (hz i hi).2.2⟩, fun i j hij hj => ?_⟩, fun i hi => ⟨(hz i hi).1, (hz i hi).2.1⟩⟩
  · exact (hn.trans (mono' (i + 1) n (by omega) le_rfl)).trans_lt (hz i hi).1
  · exact (hz i hi).2.1.trans_le ((mono' 0 i (by omega) (by omega)).trans h0)
  · exact ((hz j hj).2.1.trans_le (mono' (i + 1) j (by omega) (by omega))).trans (hz i (by omega)).1

theorem zeros_step (n : Nat) (x : Nat → ℝ) (hx : Zeros (P n) n x) (hs : ∀ i < n, 0 < (-1) ^ (i + 1) * (P (n + 1)).eval (x i)) :
    ∃ z : Nat → ℝ, Zeros (P (n + 1)) (n + 1) z ∧ ∀ i < n + 1, 0 < (-1) ^ (i + 1) * (P (n + 2)).eval (z i) := by
  set y : Nat → ℝ := fun i => if i = 0 then 1 else if i ≤ n then x (i - 1) else -1 with hy
  have y0 : y 0 = 1 := by simp [hy]
  have yn : y (n + 1) = -1 := by simp [hy]
  have yi : ∀ i < n, y (i + 1) = x i := fun i hi => by
    simp only [hy, Nat.add_eq_zero_iff, one_ne_zero, and_false, if_false, Nat.add_sub_cancel]
    rw [if_pos (by omega)]
  have ysign : ∀ i ≤ n + 1, 0 < (-1) ^ i * (P (n + 1)).eval (y i) := by
    intro i hi
    rcases Nat.eq_zero_or_pos i with h | h
    · subst h; rw [y0, P_eval_one]; simp
    obtain ⟨i, rfl⟩ : ∃ j, i = j + 1 := ⟨i - 1, by omega⟩
    rcases Nat.lt_or_ge i n with h' | h'
    · rw [yi i h']; exact hs i h'
    · have : i = n := by omega
      subst this
      rw [yn, eval_neg_one, ← mul_pow]
      simp
  have ymono : ∀ i < n + 1, y (i + 1) < y i := by
    intro i hi
    rcases Nat.eq_zero_or_pos i with h | h
    · subst h
      rcases Nat.eq_zero_or_pos n with h' | h'
      · subst h'; rw [yn, y0]; norm_num
      · rw [yi 0 h', y0]; exact (hx.1 0 h').2.1
    obtain ⟨i, rfl⟩ : ∃ j, i = j + 1 := ⟨i - 1, by omega⟩
    rw [yi i (by omega)]
    rcases Nat.lt_or_ge (i + 1) n with h' | h'
    · rw [yi _ h']; exact hx.2 i (i + 1) (by omega) h'
    · have : i + 1 = n := by omega
      subst this
      rw [yn]; exact (hx.1 i (by omega)).1
  obtain ⟨z, hz, hb⟩ := zeros_choose (P (n + 1)) (n + 1) y ymono y0.le yn.ge fun i hi =>
    zero_between _ (ymono i hi) i (ysign (i + 1) (by omega)) (ysign i (by omega))
  refine ⟨z, hz, fun i hi => ?_⟩
  have hbn := congrArg (eval (z i)) (bonnet (F := ℝ) n)
  simp only [eval_mul, eval_add, eval_sub, eval_natCast, eval_ofNat, eval_X, eval_one, (hz.1 i hi).2.2, mul_zero, zero_sub] at hbn
  have hsg := prod_sign n i (by omega) x (z i) (fun j hj => by
      have := (hb i hi).2
      obtain ⟨i, rfl⟩ : ∃ j, i = j + 1 := ⟨i - 1, by omega⟩
      rw [yi i (by omega)] at this
      rcases Nat.lt_or_ge j i with h | h
      · exact this.trans (hx.2 j i h (by omega))
      · have : j = i := by omega
        subst this; assumption) (fun j hj hij => by
      have := (hb i hi).1
      rw [yi i (by omega)] at this
      rcases Nat.lt_or_ge i j with h | h
      · exact (hx.2 i j h hj).trans this
      · have : j = i := by omega
        subst this; assumption)
  have hP := P_eq_prod n x hx.inj (fun i hi => (hx.1 i hi).2.2) (z i)
  have hl := lead_pos n
  have h1 : 0 < (-1) ^ i * (P n).eval (z i) := by
    rw [hP]
    have : (-1 : ℝ) ^ i * (lead n * ∏ j ∈ Finset.range n, (z i - x j)) = lead n * ((-1) ^ i * ∏ j ∈ Finset.range n, (z i - x j)) := by
      ring
    rw [this]
    exact mul_pos hl hsg
  have h2 : (-1) ^ (i + 1) * (P (n + 2)).eval (z i) = ((n : ℝ) + 1) / (n + 2) * ((-1) ^ i * (P n).eval (z i)) := by
    have h0 : ((n : ℝ) + 2) ≠ 0 := by positivity
    field_simp
    rw [pow_succ]
    linear_combination (-(-1) ^ i) * hbn
  rw [h2]
  exact mul_pos (by positivity) h1

/-- `P n` has `n` zeros in `(-1, 1)`. -/
theorem zeros_exist (n : Nat) : ∃ z : Nat → ℝ, Zeros (P n) n z := by
  suffices ∃ z : Nat → ℝ, Zeros (P n) n z ∧ ∀ i < n, 0 < (-1) ^ (i + 1) * (P (n + 1)).eval (z i) from
    ⟨this.choose, this.choose_spec.1⟩
  induction n with
  | zero => exact ⟨fun _ => 0, ⟨fun i hi => absurd hi (by omega), fun i j _ hj => absurd hj (by omega)⟩, fun i hi => absurd hi (by omega)⟩
  | succ n ih => obtain ⟨x, hx, hs⟩ := ih; exact zeros_step n x hx hs

/-- The derivative of `P (n + 1)` has `n` zeros in `(-1, 1)`. -/
theorem deriv_zeros_exist (n : Nat) : ∃ z : Nat → ℝ, Zeros (derivative (P (n + 1))) n z := by
  obtain ⟨y, hy⟩ := zeros_exist (n + 1)
  obtain ⟨z, hz, -⟩ := zeros_choose (derivative (P (n + 1))) n y (fun i hi => hy.2 i (i + 1) (by omega) (by omega))
    (hy.1 0 (by omega)).2.1.le (hy.1 n (by omega)).1.le (by
      intro i hi
      obtain ⟨c, hc, hc0⟩ := exists_deriv_eq_zero (f := fun t => (P (n + 1)).eval t) (hy.2 i (i + 1) (by omega) (by omega))
        (P (n + 1)).continuous.continuousOn (by rw [(hy.1 i (by omega)).2.2, (hy.1 (i + 1) (by omega)).2.2])
      exact ⟨c, hc.1, hc.2, by rwa [Polynomial.deriv] at hc0⟩)
  exact ⟨z, hz⟩

/-- A polynomial of degree `n` has at most one such list of zeros. -/
theorem Zeros.unique {f : ℝ[X]} {n : Nat} (hf : f ≠ 0) (hd : f.natDegree ≤ n) {x y : Nat → ℝ} (hx : Zeros f n x) (hy : Zeros f n y) :
    ∀ i < n, x i = y i := by
  have img : ∀ z : Nat → ℝ, Zeros f n z → (Finset.range n).image z = f.roots.toFinset := by
    intro z hz
    refine Finset.eq_of_subset_of_card_le ?_ ?_
    · intro a ha
      obtain ⟨i, hi, rfl⟩ := Finset.mem_image.1 ha
      simp [hf, (hz.1 i (Finset.mem_range.1 hi)).2.2]
    · rw [Finset.card_image_of_injOn hz.inj, Finset.card_range]
      exact (Multiset.toFinset_card_le _).trans ((card_roots' f).trans hd)
  have anti : ∀ z : Nat → ℝ, Zeros f n z → StrictMono fun i : Fin n => -z i := fun z hz i j hij =>
    neg_lt_neg (hz.2 i j hij j.2)
  have hr : Set.range (fun i : Fin n => -x i) = Set.range fun i : Fin n => -y i := by
    ext a
    have h := (img x hx).trans (img y hy).symm
    have h' : ∀ b, (∃ i < n, x i = b) ↔ ∃ i < n, y i = b := fun b => by
      have := congrArg (b ∈ ·) h
      simpa using this
    constructor
    · rintro ⟨i, rfl⟩
      obtain ⟨j, hj, hj'⟩ := (h' (x i)).1 ⟨i, i.2, rfl⟩
      exact ⟨⟨j, hj⟩, by simp [hj']⟩
    · rintro ⟨i, rfl⟩
      obtain ⟨j, hj, hj'⟩ := (h' (y i)).2 ⟨i, i.2, rfl⟩
      exact ⟨⟨j, hj⟩, by simp [hj']⟩
  have he := ((anti x hx).range_inj (anti y hy)).1 hr
  intro i hi
  have := congrFun he ⟨i, hi⟩
  simpa using this

end Mifem.Legendre
