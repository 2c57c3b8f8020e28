import Verif.Model.Basis
import Mathlib.LinearAlgebra.Lagrange
import Mathlib.Algebra.Polynomial.Derivative
import Mathlib.Algebra.BigOperators.Group.Finset.Basic
import Mathlib.Algebra.BigOperators.Intervals
import Mathlib.Tactic.Ring
import Mathlib.Tactic.FieldSimp
import Mathlib.Tactic.Linarith

/-! Helper lemmas: the coded basis functions are the Lagrange polynomials and the associated edge
polynomials. -/

namespace Mifem.Basis
open Finset Polynomial

section
variable {K : Type*} [Field K]

/-- the nodes are pairwise different. -/
def Distinct (nodes : List K) : Prop := Set.InjOn (node nodes) (range nodes.length)

theorem distinct_of_nodup {nodes : List K} (h : nodes.Nodup) : Distinct nodes := by
  intro i hi j hj hij
  simp only [coe_range, Set.mem_Iio] at hi hj
  simp only [node, List.getD_eq_getElem?_getD, List.getElem?_eq_getElem hi, List.getElem?_eq_getElem hj,
    Option.getD_some] at hij
  exact (List.Nodup.getElem_inj_iff h).1 hij

/-- the Lagrange polynomial. -/
noncomputable def lag (nodes : List K) (i : Nat) : K[X] := Lagrange.basis (range nodes.length) (node nodes) i

theorem foldl_mul_ite (i : Nat) (f : Nat → K) (n : Nat) :
    (List.range n).foldl (fun b j => if i ≠ j then b * f j else b) 1 = ∏ j ∈ (range n).erase i, f j := by
  induction n with
  | zero => simp
  | succ n ih =>
    rw [List.range_succ, List.foldl_append, ih, Finset.range_add_one]
    simp only [List.foldl_cons, List.foldl_nil]
    by_cases h : i = n
    · subst h; simp
    · rw [if_pos h, Finset.erase_insert_of_ne (fun e => h e.symm), Finset.prod_insert (by simp), mul_comm]

theorem lagrangeAt_eq (nodes : List K) (i : Nat) (x : K) : lagrangeAt nodes i x = (lag nodes i).eval x := by
  unfold lagrangeAt lag Lagrange.basis Lagrange.basisDivisor
  rw [foldl_mul_ite i (fun j => (x - node nodes j) / (node nodes i - node nodes j)), eval_prod]
  refine Finset.prod_congr rfl fun j _ => ?_
  simp [div_eq_inv_mul]

theorem range_map_sum (f : Nat → K) (n : Nat) : ((List.range n).map f).sum = ∑ i ∈ range n, f i := by
  induction n with
  | zero => simp
  | succ n ih => rw [List.range_succ, List.map_append, List.sum_append, ih, Finset.sum_range_succ]; simp

theorem range_map_prod (f : Nat → K) (n : Nat) : ((List.range n).map f).prod = ∏ i ∈ range n, f i := by
  induction n with
  | zero => simp
  | succ n ih => rw [List.range_succ, List.map_append, List.prod_append, ih, Finset.prod_range_succ]; simp

theorem cI_eq (nodes : List K) {k : Nat} (hk : k < nodes.length) :
    cI nodes k = ∏ j ∈ (range nodes.length).erase k, (node nodes k - node nodes j) := by
  unfold cI
  rw [range_map_prod, ← Finset.mul_prod_erase _ _ (mem_range.2 hk)]
  have : xiXj nodes k k = 1 := by simp [xiXj]
  rw [this, one_mul]
  refine Finset.prod_congr rfl fun j hj => ?_
  rw [xiXj, if_neg]
  exact fun e => (Finset.mem_erase.1 hj).1 e.symm

theorem cI_ne {nodes : List K} (h : Distinct nodes) {k : Nat} (hk : k < nodes.length) : cI nodes k ≠ 0 := by
  rw [cI_eq nodes hk, Finset.prod_ne_zero_iff]
  intro j hj hz
  obtain ⟨h1, h2⟩ := Finset.mem_erase.1 hj
  exact h1 (h (by simpa using mem_range.1 h2) (by simpa using hk) (sub_eq_zero.1 hz).symm)

/-- derivative of a Lagrange polynomial at another node. -/
theorem deriv_lag_ne {nodes : List K} (h : Distinct nodes) {k j : Nat} (hk : k < nodes.length)
    (hj : j < nodes.length) (hkj : k ≠ j) :
    (derivative (lag nodes j)).eval (node nodes k) = offDiag nodes k j := by
  have hkm : k ∈ (range nodes.length).erase j := Finset.mem_erase.2 ⟨hkj, mem_range.2 hk⟩
  have hjm : j ∈ (range nodes.length).erase k := Finset.mem_erase.2 ⟨hkj.symm, mem_range.2 hj⟩
  have hkj' : node nodes k - node nodes j ≠ 0 := by
    intro hz
    exact hkj (h (by simpa using hk) (by simpa using hj) (sub_eq_zero.1 hz))
  have hjk' : node nodes j - node nodes k ≠ 0 := fun hz => hkj' (by rw [← neg_sub, hz, neg_zero])
  have hset : ((range nodes.length).erase k).erase j = ((range nodes.length).erase j).erase k :=
    Finset.erase_right_comm
  rw [offDiag, if_neg hkj, xiXj, if_neg hkj, cI_eq nodes hk, cI_eq nodes hj,
    ← Finset.mul_prod_erase _ _ hjm, ← Finset.mul_prod_erase _ _ hkm, hset]
  have hlag : lag nodes j = Lagrange.basisDivisor (node nodes j) (node nodes k) *
      ∏ m ∈ ((range nodes.length).erase j).erase k, Lagrange.basisDivisor (node nodes j) (node nodes m) := by
    rw [lag, Lagrange.basis]
    exact (Finset.mul_prod_erase _ (fun m => Lagrange.basisDivisor (node nodes j) (node nodes m)) hkm).symm
  rw [hlag, derivative_mul, eval_add, eval_mul, eval_mul, Lagrange.eval_basisDivisor_right, zero_mul, add_zero]
  have hd : (derivative (Lagrange.basisDivisor (node nodes j) (node nodes k))).eval (node nodes k)
      = (node nodes j - node nodes k)⁻¹ := by
    simp [Lagrange.basisDivisor]
  rw [hd, eval_prod]
  have hp : ∏ m ∈ ((range nodes.length).erase j).erase k,
      eval (node nodes k) (Lagrange.basisDivisor (node nodes j) (node nodes m))
      = (∏ m ∈ ((range nodes.length).erase j).erase k, (node nodes k - node nodes m)) /
        (∏ m ∈ ((range nodes.length).erase j).erase k, (node nodes j - node nodes m)) := by
    rw [← Finset.prod_div_distrib]
    refine Finset.prod_congr rfl fun m _ => ?_
    simp [Lagrange.basisDivisor, div_eq_inv_mul]
  rw [hp]
  have hz : (∏ m ∈ ((range nodes.length).erase j).erase k, (node nodes j - node nodes m)) ≠ 0 := by
    have := cI_ne h hj
    rw [cI_eq nodes hj, ← Finset.mul_prod_erase _ _ hkm] at this
    exact right_ne_zero_of_mul this
  field_simp

theorem sum_lag {nodes : List K} (h : Distinct nodes) (hn : nodes ≠ []) :
    ∑ j ∈ range nodes.length, lag nodes j = 1 := by
  refine Lagrange.sum_basis h ?_
  rw [Finset.nonempty_range_iff]
  simpa using hn

theorem sum_deriv_lag {nodes : List K} (h : Distinct nodes) (hn : nodes ≠ []) :
    ∑ j ∈ range nodes.length, derivative (lag nodes j) = 0 := by
  rw [← derivative_sum, sum_lag h hn, derivative_one]

theorem derivNodes_eq {nodes : List K} (h : Distinct nodes) {k j : Nat} (hk : k < nodes.length)
    (hj : j < nodes.length) : derivNodes nodes k j = (derivative (lag nodes j)).eval (node nodes k) := by
  have hn : nodes ≠ [] := by rintro rfl; simp at hk
  unfold derivNodes
  by_cases hkj : k = j
  · subst hkj
    rw [if_pos rfl, range_map_sum]
    have h0 := congrArg (eval (node nodes k)) (sum_deriv_lag h hn)
    rw [eval_finsetSum, eval_zero, ← Finset.add_sum_erase _ _ (mem_range.2 hk)] at h0
    rw [← Finset.add_sum_erase _ _ (mem_range.2 hk), offDiag, if_pos rfl, zero_add, eq_comm, eq_neg_iff_add_eq_zero,
      ← h0]
    congr 1
    refine Finset.sum_congr rfl fun m hm => ?_
    obtain ⟨h1, h2⟩ := Finset.mem_erase.1 hm
    exact (deriv_lag_ne h hk (mem_range.1 h2) h1.symm).symm
  · rw [if_neg hkj, deriv_lag_ne h hk hj hkj]

theorem lag_degree_lt {nodes : List K} (h : Distinct nodes) {j : Nat} (hj : j < nodes.length) :
    (lag nodes j).degree < nodes.length := by
  have := Lagrange.degree_basis h (mem_range.2 hj)
  rw [lag, this, card_range]
  exact_mod_cast Nat.sub_lt (by omega) one_pos

/-- Lagrange interpolation reproduces polynomials of degree at most `p`. -/
theorem reproduce {nodes : List K} (h : Distinct nodes) {f : K[X]} (hf : f.degree < nodes.length) (x : K) :
    ∑ i ∈ range nodes.length, f.eval (node nodes i) * lagrangeAt nodes i x = f.eval x := by
  have := Lagrange.eq_interpolate (s := range nodes.length) (v := node nodes) h (f := f)
    (by rw [card_range]; exact hf)
  conv_rhs => rw [this]
  rw [Lagrange.interpolate_apply, eval_finsetSum]
  refine Finset.sum_congr rfl fun i _ => ?_
  rw [lagrangeAt_eq, eval_mul, eval_C, lag]

theorem derivAt_eq {nodes : List K} (h : Distinct nodes) {j : Nat} (hj : j < nodes.length) (x : K) :
    derivAt nodes j x = (derivative (lag nodes j)).eval x := by
  unfold derivAt
  rw [range_map_sum, ← reproduce h (f := derivative (lag nodes j))
    (lt_of_le_of_lt (degree_derivative_le) (lag_degree_lt h hj)) x]
  refine Finset.sum_congr rfl fun k hk => ?_
  rw [derivNodes_eq h (mem_range.1 hk) hj]

theorem foldl_sub (f : Nat → K) (n : Nat) :
    (List.range n).foldl (fun b j => b - f j) 0 = -∑ j ∈ range n, f j := by
  induction n with
  | zero => simp
  | succ n ih =>
    rw [List.range_succ, List.foldl_append, ih, Finset.sum_range_succ]
    simp only [List.foldl_cons, List.foldl_nil]
    ring

/-- the edge polynomial. -/
noncomputable def edg (nodes : List K) (i : Nat) : K[X] := -∑ j ∈ range (i + 1), derivative (lag nodes j)

theorem edgeAt_eq {nodes : List K} (h : Distinct nodes) {i : Nat} (hi : i < nodes.length) (x : K) :
    edgeAt nodes i x = (edg nodes i).eval x := by
  unfold edgeAt edg
  rw [foldl_sub, eval_neg, eval_finsetSum]
  congr 1
  refine Finset.sum_congr rfl fun j hj => ?_
  exact derivAt_eq h (by have := mem_range.1 hj; omega) x

/-- summation by parts. -/
theorem by_parts {R : Type*} [CommRing R] (a d : Nat → R) (p : Nat) (h0 : ∑ j ∈ range (p + 1), d j = 0) :
    ∑ i ∈ range (p + 1), a i * d i = ∑ i ∈ range p, (a (i + 1) - a i) * -∑ j ∈ range (i + 1), d j := by
  have key : ∀ n, ∑ i ∈ range (n + 1), a i * d i
      = a n * (∑ j ∈ range (n + 1), d j) + ∑ i ∈ range n, (a (i + 1) - a i) * -∑ j ∈ range (i + 1), d j := by
    intro n
    induction n with
    | zero => simp
    | succ n ih =>
      rw [Finset.sum_range_succ, ih, Finset.sum_range_succ (fun i => (a (i + 1) - a i) * _) n,
        Finset.sum_range_succ d (n + 1)]
      ring
  rw [key p, h0, mul_zero, zero_add]

/-- the derivative of an interpolant is the edge interpolant of the differences. -/
theorem deriv_interp {nodes : List K} (h : Distinct nodes) {p : Nat} (hp : nodes.length = p + 1) (a : Nat → K) :
    derivative (∑ i ∈ range (p + 1), C (a i) * lag nodes i)
      = ∑ i ∈ range p, C (a (i + 1) - a i) * edg nodes i := by
  have hn : nodes ≠ [] := by rintro rfl; simp at hp
  have h0 := sum_deriv_lag h hn
  rw [hp] at h0
  have := by_parts (fun i => C (a i)) (fun j => derivative (lag nodes j)) p h0
  rw [derivative_sum]
  simp only [derivative_mul, derivative_C, zero_mul, zero_add]
  rw [this]
  refine Finset.sum_congr rfl fun i _ => ?_
  rw [C_sub, edg]

/-- value of `Σ_{j ≤ i} l_j` at the node `k`. -/
theorem sum_lag_node {nodes : List K} (h : Distinct nodes) {i k : Nat} (hi : i < nodes.length)
    (hk : k < nodes.length) :
    (∑ j ∈ range (i + 1), lag nodes j).eval (node nodes k) = if k ≤ i then 1 else 0 := by
  rw [eval_finsetSum]
  by_cases hki : k ≤ i
  · rw [if_pos hki, Finset.sum_eq_single k]
    · exact Lagrange.eval_basis_self h (mem_range.2 hk)
    · intro j hj hjk
      exact Lagrange.eval_basis_of_ne hjk (mem_range.2 hk)
    · intro hc; exact absurd (mem_range.2 (by omega)) hc
  · rw [if_neg hki]
    refine Finset.sum_eq_zero fun j hj => ?_
    exact Lagrange.eval_basis_of_ne (by have := mem_range.1 hj; omega) (mem_range.2 hk)

/-- entries of a Kronecker product in terms of pairs of indices. -/
theorem kron_e (A B : Arr K) {i j : Nat} (hi : i < B.rows) {a b : Nat} (ha : a < B.cols) :
    (kron A B).e (fIdx2 B.rows i j) (fIdx2 B.cols a b) = A.e j b * B.e i a := by
  unfold kron fIdx2
  simp only
  rw [Nat.add_mul_div_left _ _ (by omega), Nat.add_mul_div_left _ _ (by omega), Nat.add_mul_mod_self_left,
    Nat.add_mul_mod_self_left, Nat.div_eq_of_lt hi, Nat.div_eq_of_lt ha, Nat.mod_eq_of_lt hi, Nat.mod_eq_of_lt ha,
    Nat.zero_add, Nat.zero_add]

theorem sum_range_mul (f : Nat → K) (a b : Nat) :
    ∑ r ∈ range (a * b), f r = ∑ j ∈ range a, ∑ i ∈ range b, f (fIdx2 b i j) := by
  induction a with
  | zero => simp
  | succ a ih =>
    rw [Nat.succ_mul, Finset.sum_range_add, ih, Finset.sum_range_succ]
    congr 1
    refine Finset.sum_congr rfl fun i _ => ?_
    rw [fIdx2, Nat.add_comm, Nat.mul_comm]

/-- contraction of a Kronecker product with a cochain. -/
theorem einsum_kron (A B : Arr K) (w : Nat → K) {a b : Nat} (ha : a < B.cols) :
    einsum (kron A B) w (fIdx2 B.cols a b)
      = ∑ j ∈ range A.rows, ∑ i ∈ range B.rows, A.e j b * B.e i a * w (fIdx2 B.rows i j) := by
  unfold einsum
  rw [range_map_sum]
  have : (kron A B).rows = A.rows * B.rows := rfl
  rw [this, sum_range_mul]
  refine Finset.sum_congr rfl fun j _ => Finset.sum_congr rfl fun i hi => ?_
  rw [kron_e A B (mem_range.1 hi) ha]

end
end Mifem.Basis
