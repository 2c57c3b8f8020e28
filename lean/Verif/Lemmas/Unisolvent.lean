import Verif.Lemmas.Metric

/-! Helper lemmas: the basis functions are determined by their values at sufficiently many points. -/

namespace Mifem.Metric
open Mifem.Basis Finset Polynomial

section
variable {K : Type*} [Field K]

/-- No combination of the rows vanishes in all columns. -/
def Unisolvent (A : Arr K) : Prop :=
  ∀ w : Nat → K, (∀ c < A.cols, einsum A w c = 0) → ∀ i < A.rows, w i = 0

theorem unisolvent_kron {A B : Arr K} (hA : Unisolvent A) (hB : Unisolvent B) : Unisolvent (kron A B) := by
  intro w hw r hr
  have hr' : r < A.rows * B.rows := hr
  have hBpos : 0 < B.rows := by
    rcases Nat.eq_zero_or_pos B.rows with h | h
    · rw [h] at hr'; simp at hr'
    · exact h
  have key : ∀ b < B.cols, ∀ j < A.rows, einsum B (fun i => w (fIdx2 B.rows i j)) b = 0 := by
    intro b hb
    refine hA (fun j => einsum B (fun i => w (fIdx2 B.rows i j)) b) ?_
    intro a ha
    have hc : fIdx2 B.cols b a < A.cols * B.cols := by
      have : (a + 1) * B.cols ≤ A.cols * B.cols := Nat.mul_le_mul_right _ ha
      rw [Nat.add_mul, one_mul] at this
      rw [fIdx2, Nat.mul_comm]
      omega
    have h1 := hw (fIdx2 B.cols b a) hc
    rw [einsum_kron A B w hb] at h1
    rw [einsum_eq, ← h1]
    refine Finset.sum_congr rfl fun j _ => ?_
    rw [einsum_eq, Finset.mul_sum]
    exact Finset.sum_congr rfl fun i _ => by ring
  have h2 := hB (fun i => w (fIdx2 B.rows i (r / B.rows)))
    (fun b hb => key b hb (r / B.rows) (Nat.div_lt_of_lt_mul (by rw [Nat.mul_comm]; exact hr'))) (r % B.rows)
    (Nat.mod_lt _ hBpos)
  have e : fIdx2 B.rows (r % B.rows) (r / B.rows) = r := by rw [fIdx2, Nat.mod_add_div]
  simp only [e] at h2
  exact h2

/-- A polynomial of low degree vanishing at the points vanishes. -/
theorem zero_at {xs : List K} (hxs : xs.Nodup) {f : K[X]} (hf : f.degree < xs.length)
    (h : ∀ c < xs.length, f.eval (xs.getD c 0) = 0) : f = 0 := by
  refine Polynomial.eq_zero_of_degree_lt_of_eval_index_eq_zero (range xs.length) (distinct_of_nodup hxs)
    (by rw [card_range]; exact hf) ?_
  intro c hc
  exact h c (mem_range.1 hc)

theorem interp_degree {nodes : List K} (h : Distinct nodes) (w : Nat → K) :
    (∑ i ∈ range nodes.length, C (w i) * lag nodes i).degree < nodes.length := by
  refine lt_of_le_of_lt (degree_sum_le _ _) ?_
  rw [Finset.sup_lt_iff (by exact_mod_cast WithBot.bot_lt_coe _)]
  intro i hi
  refine lt_of_le_of_lt ?_ (lag_degree_lt h (mem_range.1 hi))
  by_cases h0 : w i = 0
  · simp [h0]
  · rw [degree_C_mul h0]

theorem interp_node {nodes : List K} (h : Distinct nodes) (w : Nat → K) {k : Nat} (hk : k < nodes.length) :
    (∑ i ∈ range nodes.length, C (w i) * lag nodes i).eval (node nodes k) = w k := by
  rw [eval_finsetSum, Finset.sum_eq_single k]
  · rw [eval_mul, eval_C, lag, Lagrange.eval_basis_self h (mem_range.2 hk), mul_one]
  · intro i hi hik
    rw [eval_mul, lag, Lagrange.eval_basis_of_ne hik (mem_range.2 hk), mul_zero]
  · intro hc; exact absurd (mem_range.2 hk) hc

theorem unisolvent_node {nodes xs : List K} (h : Distinct nodes) (hxs : xs.Nodup)
    (hl : nodes.length ≤ xs.length) : Unisolvent (nodeBasis nodes xs) := by
  intro w hw i hi
  have hi' : i < nodes.length := hi
  have h0 : ∑ i ∈ range nodes.length, C (w i) * lag nodes i = 0 := by
    refine zero_at hxs (lt_of_lt_of_le (interp_degree h w) (by exact_mod_cast hl)) fun c hc => ?_
    have := hw c hc
    rw [einsum_eq] at this
    rw [eval_finsetSum]
    refine Eq.trans (Finset.sum_congr rfl fun i _ => ?_) this
    rw [eval_mul, eval_C, ← lagrangeAt_eq, mul_comm]
    rfl
  have := interp_node h w hi'
  rw [h0, eval_zero] at this
  exact this.symm

theorem unisolvent_edge [CharZero K] {nodes xs : List K} (h : Distinct nodes) (hxs : xs.Nodup)
    (hl : nodes.length - 1 ≤ xs.length) : Unisolvent (edgeBasis nodes xs) := by
  intro w hw i hi
  have hi' : i < nodes.length - 1 := hi
  obtain ⟨p, hp⟩ : ∃ p, nodes.length = p + 1 := ⟨nodes.length - 1, by omega⟩
  have hn : nodes ≠ [] := by rintro rfl; simp at hp
  let W : Nat → K := fun j => ∑ i ∈ range j, w i
  have hW : ∀ j, W (j + 1) - W j = w j := fun j => by
    simp only [W]; rw [Finset.sum_range_succ]; ring
  have hder := deriv_interp h hp W
  simp only [hW] at hder
  have hdeg := interp_degree h W
  rw [hp] at hdeg
  have h0 : derivative (∑ i ∈ range (p + 1), C (W i) * lag nodes i) = 0 := by
    by_cases hz : ∑ i ∈ range (p + 1), C (W i) * lag nodes i = 0
    · rw [hz, derivative_zero]
    refine zero_at hxs ?_ fun c hc => ?_
    · refine lt_of_lt_of_le (degree_derivative_lt hz) ?_
      have h1 : (∑ i ∈ range (p + 1), C (W i) * lag nodes i).degree ≤ (p : WithBot Nat) := by
        have := hdeg
        rw [degree_eq_natDegree hz] at this ⊢
        have h2 : (∑ i ∈ range (p + 1), C (W i) * lag nodes i).natDegree < p + 1 := by exact_mod_cast this
        exact_mod_cast Nat.lt_succ_iff.1 h2
      exact h1.trans (by exact_mod_cast (by omega : p ≤ xs.length))
    · rw [hder, eval_finsetSum]
      have := hw c hc
      rw [einsum_eq] at this
      have e : (edgeBasis nodes xs).rows = p := by show nodes.length - 1 = p; omega
      rw [e] at this
      refine Eq.trans (Finset.sum_congr rfl fun i hi => ?_) this
      rw [eval_mul, eval_C, ← edgeAt_eq h (by have := mem_range.1 hi; omega), mul_comm]
      rfl
  have hC := eq_C_of_derivative_eq_zero h0
  have e1 := interp_node h W (k := i + 1) (by omega)
  have e0 := interp_node h W (k := i) (by omega)
  rw [hp, hC, eval_C] at e1 e0
  rw [← hW i, ← e1, ← e0, sub_self]

/-- A quadratic form of gram type is definite. -/
theorem sum_pos_of {K : Type*} [Field K] [LinearOrder K] [IsStrictOrderedRing K] {n : Nat} {q F : Nat → K}
    (hq : ∀ m < n, 0 < q m) (hF : ∀ m < n, 0 ≤ F m) (hne : ∃ m < n, F m ≠ 0) : 0 < ∑ m ∈ range n, q m * F m := by
  obtain ⟨m, hm, hne⟩ := hne
  refine Finset.sum_pos' (fun i hi => mul_nonneg (hq i (mem_range.1 hi)).le (hF i (mem_range.1 hi)))
    ⟨m, mem_range.2 hm, mul_pos (hq m hm) (lt_of_le_of_ne (hF m hm) (Ne.symm hne))⟩

end
end Mifem.Metric
