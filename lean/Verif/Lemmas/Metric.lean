import Verif.Model.Metric
import Verif.Lemmas.Basis
import Mathlib.LinearAlgebra.Matrix.Determinant.Basic
import Mathlib.LinearAlgebra.Matrix.NonsingularInverse
import Mathlib.Tactic.FinCases
import Mathlib.Tactic.FieldSimp
import Mathlib.Tactic.Ring
import Mathlib.Tactic.LinearCombination
import Mathlib.Algebra.BigOperators.Ring.Finset

/-! Helper lemmas on the metric terms, the pullbacks and the inner products. -/

namespace Mifem.Metric
open Mifem.Basis Finset

section
variable {K : Type*} [Field K]

theorem three_det (J : M3 K) : Three.jacobian J = Matrix.det (Matrix.of J) := by
  rw [Matrix.det_fin_three]; simp only [Three.jacobian, Matrix.of_apply]; ring

theorem two_det (J : M2 K) : Two.jacobian J = Matrix.det (Matrix.of J) := by
  rw [Matrix.det_fin_two]; simp only [Two.jacobian, Matrix.of_apply]

theorem three_inv_mul (J : M3 K) (h : Three.jacobian J ≠ 0) : Matrix.of (Three.inverse J) * Matrix.of J = 1 := by
  unfold Three.jacobian at h
  obtain ⟨r, hr⟩ : ∃ r, r = 1 / (J 0 0 * J 1 1 * J 2 2 + J 0 1 * J 1 2 * J 2 0 + J 0 2 * J 1 0 * J 2 1
    - J 0 0 * J 1 2 * J 2 1 - J 0 1 * J 1 0 * J 2 2 - J 0 2 * J 1 1 * J 2 0) := ⟨_, rfl⟩
  have h1 := one_div_mul_cancel h
  rw [← hr] at h1
  ext i j
  fin_cases i <;> fin_cases j <;>
    simp only [Matrix.mul_apply, Fin.sum_univ_three, Three.inverse, ← hr, Matrix.of_apply, Matrix.one_apply] <;>
    simp <;> first | ring1 | linear_combination h1

theorem two_inv_mul (J : M2 K) (h : Two.jacobian J ≠ 0) : Matrix.of (Two.inverse J) * Matrix.of J = 1 := by
  unfold Two.jacobian at h
  obtain ⟨r, hr⟩ : ∃ r, r = 1 / (J 0 0 * J 1 1 - J 0 1 * J 1 0) := ⟨_, rfl⟩
  have h1 := one_div_mul_cancel h
  rw [← hr] at h1
  ext i j
  fin_cases i <;> fin_cases j <;>
    simp only [Matrix.mul_apply, Fin.sum_univ_two, Two.inverse, ← hr, Matrix.of_apply, Matrix.one_apply] <;>
    simp <;> first | ring1 | linear_combination h1

theorem three_metric (J : M3 K) : Matrix.of (Three.metricMatrix J) = (Matrix.of J).transpose * Matrix.of J := by
  ext i j
  fin_cases i <;> fin_cases j <;>
    simp [Matrix.mul_apply, Fin.sum_univ_three, Three.metricMatrix] <;> ring

theorem two_metric (J : M2 K) : Matrix.of (Two.metricMatrix J) = (Matrix.of J).transpose * Matrix.of J := by
  ext i j
  fin_cases i <;> fin_cases j <;>
    simp [Matrix.mul_apply, Fin.sum_univ_two, Two.metricMatrix] <;> ring

theorem three_imetric (J : M3 K) :
    Matrix.of (Three.inverseMetricMatrix J) = Matrix.of J * (Matrix.of J).transpose := by
  ext i j
  fin_cases i <;> fin_cases j <;>
    simp [Matrix.mul_apply, Fin.sum_univ_three, Three.inverseMetricMatrix] <;> ring

theorem two_imetric (J : M2 K) :
    Matrix.of (Two.inverseMetricMatrix J) = Matrix.of J * (Matrix.of J).transpose := by
  ext i j
  fin_cases i <;> fin_cases j <;>
    simp [Matrix.mul_apply, Fin.sum_univ_two, Two.inverseMetricMatrix] <;> ring

/-- `orth` implies that the off-diagonal entries vanish. -/
def DiagIf3 (orth : Bool) (J : M3 K) : Prop := orth = true → ∀ a b, a ≠ b → J a b = 0
def DiagIf2 (orth : Bool) (J : M2 K) : Prop := orth = true → ∀ a b, a ≠ b → J a b = 0

theorem three_diag_jac (orth : Bool) (A : M3 K) (d : Fin 3 → K) : DiagIf3 orth (Three.jacobianMatrix orth A d) := by
  intro h a b hab; simp [Three.jacobianMatrix, h, hab]
theorem two_diag_jac (orth : Bool) (A : M2 K) (d : Fin 2 → K) : DiagIf2 orth (Two.jacobianMatrix orth A d) := by
  intro h a b hab; simp [Two.jacobianMatrix, h, hab]

theorem three_diag_inv {orth : Bool} {J : M3 K} (h : DiagIf3 orth J) : DiagIf3 orth (Three.inverse J) := by
  intro ho
  have h' := h ho
  have e := fun a b hab => h' a b hab
  intro a b hab
  fin_cases a <;> fin_cases b <;> first | exact absurd rfl hab | skip
  all_goals simp [Three.inverse, h' 0 1 (by decide), h' 0 2 (by decide), h' 1 0 (by decide), h' 1 2 (by decide),
    h' 2 0 (by decide), h' 2 1 (by decide)]

theorem two_diag_inv {orth : Bool} {J : M2 K} (h : DiagIf2 orth J) : DiagIf2 orth (Two.inverse J) := by
  intro ho
  have h' := h ho
  intro a b hab
  fin_cases a <;> fin_cases b <;> first | exact absurd rfl hab | skip
  all_goals simp [Two.inverse, h' 0 1 (by decide), h' 1 0 (by decide)]

theorem value1_eq {orth : Bool} {iJ : M3 K} (h : DiagIf3 orth iJ) (u v w : K) (j : Fin 3) :
    Three.value1 orth iJ u v w j = u * iJ 0 j + v * iJ 1 j + w * iJ 2 j := by
  unfold Three.value1
  cases orth with
  | false => simp
  | true =>
    have h' := h rfl
    fin_cases j <;> simp [h' 0 1 (by decide), h' 0 2 (by decide), h' 1 0 (by decide), h' 1 2 (by decide),
      h' 2 0 (by decide), h' 2 1 (by decide)]

theorem value2_eq {orth : Bool} {iJ : M3 K} (h : DiagIf3 orth iJ) (u v w : K) :
    Three.value2 orth iJ u v w = Three.value2 false iJ u v w := by
  cases orth with
  | false => rfl
  | true =>
    have h' := h rfl
    funext j
    fin_cases j <;> simp [Three.value2, h' 0 1 (by decide), h' 0 2 (by decide), h' 1 0 (by decide),
      h' 1 2 (by decide), h' 2 0 (by decide), h' 2 1 (by decide)]

theorem valueInner_eq {orth : Bool} {iJ : M2 K} (h : DiagIf2 orth iJ) (u v : K) (j : Fin 2) :
    Two.valueInner1 orth iJ u v j = u * iJ 0 j + v * iJ 1 j := by
  unfold Two.valueInner1
  cases orth with
  | false => simp
  | true =>
    have h' := h rfl
    fin_cases j <;> simp [h' 0 1 (by decide), h' 1 0 (by decide)]

theorem valueOuter_eq {orth : Bool} {iJ : M2 K} (h : DiagIf2 orth iJ) (u v : K) :
    Two.valueOuter1 orth iJ u v = Two.valueOuter1 false iJ u v := by
  cases orth with
  | false => rfl
  | true =>
    have h' := h rfl
    funext j
    fin_cases j <;> simp [Two.valueOuter1, h' 0 1 (by decide), h' 1 0 (by decide)]

/-! ### sums -/

theorem einsum_eq (A : Arr K) (w : Nat → K) (c : Nat) : einsum A w c = ∑ i ∈ range A.rows, A.e i c * w i := by
  rw [einsum, range_map_sum]

theorem gram_eq (q : Nat → K) (O S : Arr K) (i j : Nat) :
    gram q O S i j = ∑ m ∈ range S.cols, q m * O.e i m * S.e j m := by rw [gram, range_map_sum]

theorem gram_form (q : Nat → K) (O S : Arr K) (a b : Nat → K) :
    ∑ i ∈ range O.rows, ∑ j ∈ range S.rows, a i * gram q O S i j * b j
      = ∑ m ∈ range S.cols, q m * (einsum O a m * einsum S b m) := by
  simp only [gram_eq, einsum_eq, Finset.sum_mul_sum]
  simp only [Finset.mul_sum, Finset.sum_mul]
  rw [Finset.sum_comm]
  refine Eq.trans ?_ (Finset.sum_comm)
  refine Eq.trans Finset.sum_comm (Finset.sum_congr rfl fun i _ => ?_)
  refine Eq.trans Finset.sum_comm (Finset.sum_congr rfl fun m _ => ?_)
  exact Finset.sum_congr rfl fun j _ => by ring

/-- Offsets of the blocks. -/
def off3 (R : Fin 3 → Nat) : Fin 3 → Nat := ![0, R 0, R 0 + R 1]
def off2 (R : Fin 2 → Nat) : Fin 2 → Nat := ![0, R 0]

theorem sum_split3 (R : Fin 3 → Nat) (f : Nat → K) :
    ∑ i ∈ range (R 0 + R 1 + R 2), f i = ∑ k, ∑ i ∈ range (R k), f (off3 R k + i) := by
  rw [Finset.sum_range_add, Finset.sum_range_add, Fin.sum_univ_three]
  simp [off3]

theorem sum_split2 (R : Fin 2 → Nat) (f : Nat → K) :
    ∑ i ∈ range (R 0 + R 1), f i = ∑ k, ∑ i ∈ range (R k), f (off2 R k + i) := by
  rw [Finset.sum_range_add, Fin.sum_univ_two]
  simp [off2]

theorem bmat3_block (R C : Fin 3 → Nat) (B : Fin 3 → Fin 3 → Nat → Nat → K) (k l : Fin 3) {i j : Nat}
    (hi : i < R k) (hj : j < C l) :
    bmat3 (R 0) (R 1) (C 0) (C 1) B (off3 R k + i) (off3 C l + j) = B k l i j := by
  have e1 : ¬ (R 0 + R 1 + i < R 0) := by omega
  have e2 : ¬ (C 0 + C 1 + j < C 0) := by omega
  have k1 : R 0 + R 1 + i - (R 0 + R 1) = i := by omega
  have k2 : C 0 + C 1 + j - (C 0 + C 1) = j := by omega
  fin_cases k <;> fin_cases l <;> simp only [bmat3, off3] <;> simp at hi hj <;> simp [hi, hj, e1, e2, k1, k2]

theorem bmat2_block (R C : Fin 2 → Nat) (B : Fin 2 → Fin 2 → Nat → Nat → K) (k l : Fin 2) {i j : Nat}
    (hi : i < R k) (hj : j < C l) :
    bmat2 (R 0) (C 0) B (off2 R k + i) (off2 C l + j) = B k l i j := by
  fin_cases k <;> fin_cases l <;> simp_all [bmat2, off2]

theorem bmat3_form (R C : Fin 3 → Nat) (B : Fin 3 → Fin 3 → Nat → Nat → K) (a b : Nat → K) :
    ∑ i ∈ range (R 0 + R 1 + R 2), ∑ j ∈ range (C 0 + C 1 + C 2), a i * bmat3 (R 0) (R 1) (C 0) (C 1) B i j * b j
      = ∑ k, ∑ l, ∑ i ∈ range (R k), ∑ j ∈ range (C l), slice a (off3 R k) i * B k l i j * slice b (off3 C l) j := by
  rw [sum_split3]
  refine Finset.sum_congr rfl fun k _ => ?_
  simp only [sum_split3 C]
  rw [Finset.sum_comm]
  refine Finset.sum_congr rfl fun l _ => Finset.sum_congr rfl fun i hi => Finset.sum_congr rfl fun j hj => ?_
  rw [bmat3_block R C B k l (mem_range.1 hi) (mem_range.1 hj)]
  rfl

theorem bmat2_form (R C : Fin 2 → Nat) (B : Fin 2 → Fin 2 → Nat → Nat → K) (a b : Nat → K) :
    ∑ i ∈ range (R 0 + R 1), ∑ j ∈ range (C 0 + C 1), a i * bmat2 (R 0) (C 0) B i j * b j
      = ∑ k, ∑ l, ∑ i ∈ range (R k), ∑ j ∈ range (C l), slice a (off2 R k) i * B k l i j * slice b (off2 C l) j := by
  rw [sum_split2]
  refine Finset.sum_congr rfl fun k _ => ?_
  simp only [sum_split2 C]
  rw [Finset.sum_comm]
  refine Finset.sum_congr rfl fun l _ => Finset.sum_congr rfl fun i hi => Finset.sum_congr rfl fun j hj => ?_
  rw [bmat2_block R C B k l (mem_range.1 hi) (mem_range.1 hj)]
  rfl

/-- Transposed gram matrices. -/
theorem gram_swap (q : Nat → K) (O S : Arr K) (h : O.cols = S.cols) (i j : Nat) : gram q O S i j = gram q S O j i := by
  rw [gram_eq, gram_eq, h]
  exact Finset.sum_congr rfl fun m _ => by ring

theorem gram_congr {q q' : Nat → K} (O S : Arr K) (i j : Nat) (h : ∀ m, q m = q' m) : gram q O S i j = gram q' O S i j := by
  rw [funext h]

theorem gram_zero (O S : Arr K) (i j : Nat) : gram (fun _ => 0) O S i j = (0 : K) := by
  rw [gram_eq]; simp

/-! ### inner products -/

theorem three_imetric_symm (iJ : M3 K) (k l : Fin 3) :
    Three.inverseMetricMatrix iJ k l = Three.inverseMetricMatrix iJ l k := by
  simp [Three.inverseMetricMatrix, min_comm, max_comm]

theorem two_imetric_symm (iJ : M2 K) (k l : Fin 2) :
    Two.inverseMetricMatrix iJ k l = Two.inverseMetricMatrix iJ l k := by
  simp [Two.inverseMetricMatrix, min_comm, max_comm]

theorem three_imetric_apply (iJ : M3 K) (k l : Fin 3) :
    Three.inverseMetricMatrix iJ k l = iJ k 0 * iJ l 0 + iJ k 1 * iJ l 1 + iJ k 2 * iJ l 2 := by
  have := congrFun (congrFun (three_imetric iJ) k) l
  simpa [Matrix.mul_apply, Fin.sum_univ_three] using this

theorem two_imetric_apply (iJ : M2 K) (k l : Fin 2) :
    Two.inverseMetricMatrix iJ k l = iJ k 0 * iJ l 0 + iJ k 1 * iJ l 1 := by
  have := congrFun (congrFun (two_imetric iJ) k) l
  simpa [Matrix.mul_apply, Fin.sum_univ_two] using this

theorem three_imetric_diag {orth : Bool} {iJ : M3 K} (h : DiagIf3 orth iJ) :
    DiagIf3 orth (Three.inverseMetricMatrix iJ) := by
  intro ho a b hab
  have h' := h ho
  rw [three_imetric_apply]
  fin_cases a <;> fin_cases b <;> first | exact absurd rfl hab | skip
  all_goals simp [h' 0 1 (by decide), h' 0 2 (by decide), h' 1 0 (by decide), h' 1 2 (by decide),
      h' 2 0 (by decide), h' 2 1 (by decide)]

theorem two_imetric_diag {orth : Bool} {iJ : M2 K} (h : DiagIf2 orth iJ) :
    DiagIf2 orth (Two.inverseMetricMatrix iJ) := by
  intro ho a b hab
  have h' := h ho
  rw [two_imetric_apply]
  fin_cases a <;> fin_cases b <;> first | exact absurd rfl hab | skip
  all_goals simp [h' 0 1 (by decide), h' 1 0 (by decide)]

/-- A block matrix of gram matrices with weights `c k l`. -/
theorem bmat3_gram (n : Nat) (O S : Fin 3 → Arr K) (hS : ∀ k, (S k).cols = n) (c : Fin 3 → Fin 3 → Nat → K)
    (B : Fin 3 → Fin 3 → Nat → Nat → K) (hB : ∀ k l i j, B k l i j = gram (c k l) (O k) (S l) i j) (a b : Nat → K) :
    ∑ i ∈ range ((O 0).rows + (O 1).rows + (O 2).rows), ∑ j ∈ range ((S 0).rows + (S 1).rows + (S 2).rows),
      a i * bmat3 (O 0).rows (O 1).rows (S 0).rows (S 1).rows B i j * b j
      = ∑ m ∈ range n, ∑ k, ∑ l, c k l m * (einsum (O k) (slice a (off3 (fun k => (O k).rows) k)) m
          * einsum (S l) (slice b (off3 (fun k => (S k).rows) l)) m) := by
  rw [bmat3_form (fun k => (O k).rows) (fun k => (S k).rows) B a b]
  symm
  refine Eq.trans Finset.sum_comm (Finset.sum_congr rfl fun k _ => Eq.trans Finset.sum_comm
    (Finset.sum_congr rfl fun l _ => ?_))
  simp only [hB]
  rw [gram_form, hS]

theorem bmat2_gram (n : Nat) (O S : Fin 2 → Arr K) (hS : ∀ k, (S k).cols = n) (c : Fin 2 → Fin 2 → Nat → K)
    (B : Fin 2 → Fin 2 → Nat → Nat → K) (hB : ∀ k l i j, B k l i j = gram (c k l) (O k) (S l) i j) (a b : Nat → K) :
    ∑ i ∈ range ((O 0).rows + (O 1).rows), ∑ j ∈ range ((S 0).rows + (S 1).rows),
      a i * bmat2 (O 0).rows (S 0).rows B i j * b j
      = ∑ m ∈ range n, ∑ k, ∑ l, c k l m * (einsum (O k) (slice a (off2 (fun k => (O k).rows) k)) m
          * einsum (S l) (slice b (off2 (fun k => (S k).rows) l)) m) := by
  rw [bmat2_form (fun k => (O k).rows) (fun k => (S k).rows) B a b]
  symm
  refine Eq.trans Finset.sum_comm (Finset.sum_congr rfl fun k _ => Eq.trans Finset.sum_comm
    (Finset.sum_congr rfl fun l _ => ?_))
  simp only [hB]
  rw [gram_form, hS]

/-- The block of an inner product, all cases at once. -/
theorem block_all {t : Nat} {orth same : Bool} (c : Fin t → Fin t → Nat → K)
    (hc : orth = true → ∀ k l, k ≠ l → ∀ m, c k l m = 0) (hcs : ∀ k l m, c k l m = c l k m)
    (O S : Fin t → Arr K) (n : Nat) (hS : ∀ k, (S k).cols = n) (hs : same = true → O = S) (k l : Fin t) (i j : Nat) :
    (if k = l then gram (c k l) (O k) (S l) i j else if orth then 0 else if k < l then gram (c k l) (O k) (S l) i j
      else if same then gram (c l k) (O l) (S k) j i else gram (c k l) (O k) (S l) i j)
    = gram (c k l) (O k) (S l) i j := by
  by_cases hkl : k = l
  · rw [if_pos hkl]
  rw [if_neg hkl]
  cases ho : orth with
  | true =>
    have : c k l = fun _ => 0 := funext fun m => hc ho k l hkl m
    rw [this, gram_zero]
    simp
  | false =>
    simp only [Bool.false_eq_true, if_false]
    by_cases h1 : k < l
    · rw [if_pos h1]
    rw [if_neg h1]
    cases hsame : same with
    | false => simp only [Bool.false_eq_true, if_false]
    | true =>
      have := hs hsame
      subst this
      simp only [if_true]
      rw [gram_swap _ _ _ ((hS l).trans (hS k).symm)]
      exact gram_congr _ _ _ _ fun m => hcs l k m

theorem inner1_form {orth same : Bool} (J : Nat → M3 K) (hJ : ∀ m, DiagIf3 orth (J m)) (q : Nat → K)
    (O S : Fin 3 → Arr K) (n : Nat) (hS : ∀ k, (S k).cols = n) (hs : same = true → O = S) (a b : Nat → K) :
    ∑ i ∈ range ((O 0).rows + (O 1).rows + (O 2).rows), ∑ j ∈ range ((S 0).rows + (S 1).rows + (S 2).rows),
      a i * Three.inner1 orth same J q O S i j * b j
      = ∑ m ∈ range n, q m * Three.jacobian (J m) * ∑ x,
          Three.value1 orth (Three.inverse (J m)) (einsum (O 0) a m) (einsum (O 1) (slice a (O 0).rows) m)
            (einsum (O 2) (slice a ((O 0).rows + (O 1).rows)) m) x
          * Three.value1 orth (Three.inverse (J m)) (einsum (S 0) b m) (einsum (S 1) (slice b (S 0).rows) m)
            (einsum (S 2) (slice b ((S 0).rows + (S 1).rows)) m) x := by
  unfold Three.inner1
  refine (bmat3_gram n O S hS (fun k l m => q m * (Three.jacobian (J m) *
    Three.inverseMetricMatrix (Three.inverse (J m)) k l)) _
    (fun k l i j => block_all (fun k l m => q m * (Three.jacobian (J m) *
      Three.inverseMetricMatrix (Three.inverse (J m)) k l))
      (fun ho k l hkl m => by simp [three_imetric_diag (three_diag_inv (hJ m)) ho k l hkl])
      (fun k l m => by simp only [three_imetric_symm _ k l]) O S n hS hs k l i j) a b).trans ?_
  refine Finset.sum_congr rfl fun m _ => ?_
  have s0 : ∀ w : Nat → K, slice w 0 = w := fun w => funext fun i => by simp [slice]
  simp only [value1_eq (three_diag_inv (hJ m)), three_imetric_apply, Fin.sum_univ_three, off3, s0,
    Matrix.cons_val_zero, Matrix.cons_val_one, Matrix.cons_val]
  ring

/-- Cofactors of the inverse metric, as used for 2-forms. -/
def cofG (g : M3 K) : M3 K :=
  ![![g 1 1 * g 2 2 - g 1 2 * g 2 1, g 1 2 * g 2 0 - g 1 0 * g 2 2, g 1 0 * g 2 1 - g 1 1 * g 2 0],
    ![g 1 2 * g 2 0 - g 1 0 * g 2 2, g 2 2 * g 0 0 - g 2 0 * g 0 2, g 2 0 * g 0 1 - g 2 1 * g 0 0],
    ![g 1 0 * g 2 1 - g 1 1 * g 2 0, g 2 0 * g 0 1 - g 2 1 * g 0 0, g 0 0 * g 1 1 - g 0 1 * g 1 0]]

theorem slice_zero (w : Nat → K) : slice w 0 = w := funext fun i => by simp [slice]

theorem inner2_form {orth same : Bool} (J : Nat → M3 K) (hJ : ∀ m, DiagIf3 orth (J m)) (q : Nat → K)
    (O S : Fin 3 → Arr K) (n : Nat) (hS : ∀ k, (S k).cols = n) (hs : same = true → O = S) (a b : Nat → K) :
    ∑ i ∈ range ((O 0).rows + (O 1).rows + (O 2).rows), ∑ j ∈ range ((S 0).rows + (S 1).rows + (S 2).rows),
      a i * Three.inner2 orth same J q O S i j * b j
      = ∑ m ∈ range n, q m * Three.jacobian (J m) * ∑ x,
          Three.value2 orth (Three.inverse (J m)) (einsum (O 0) a m) (einsum (O 1) (slice a (O 0).rows) m)
            (einsum (O 2) (slice a ((O 0).rows + (O 1).rows)) m) x
          * Three.value2 orth (Three.inverse (J m)) (einsum (S 0) b m) (einsum (S 1) (slice b (S 0).rows) m)
            (einsum (S 2) (slice b ((S 0).rows + (S 1).rows)) m) x := by
  unfold Three.inner2
  let c : Fin 3 → Fin 3 → Nat → K := fun k l m => q m * Three.jacobian (J m) *
    cofG (Three.inverseMetricMatrix (Three.inverse (J m))) k l
  have hg := fun m => three_imetric_diag (three_diag_inv (hJ m))
  have hc : orth = true → ∀ k l, k ≠ l → ∀ m, c k l m = 0 := by
    intro ho k l hkl m
    have h' := hg m ho
    fin_cases k <;> fin_cases l <;> first | exact absurd rfl hkl | skip
    all_goals simp [c, cofG, h' 0 1 (by decide), h' 0 2 (by decide), h' 1 0 (by decide), h' 1 2 (by decide),
      h' 2 0 (by decide), h' 2 1 (by decide)]
  have hcs : ∀ k l m, c k l m = c l k m := by
    intro k l m
    fin_cases k <;> fin_cases l <;> simp [c, cofG]
  refine (bmat3_gram n O S hS c _ (fun k l i j => Eq.trans ?_ (block_all (orth := orth) (same := same) c hc hcs
    O S n hS hs k l i j)) a b).trans ?_
  · by_cases hkl : k = l
    · subst hkl
      cases ho : orth with
      | false => fin_cases k <;> simp [c, cofG]
      | true =>
        have h' := fun m => hg m ho
        fin_cases k <;> simp [c, cofG, fun m => h' m 0 1 (by decide), fun m => h' m 0 2 (by decide),
          fun m => h' m 1 0 (by decide), fun m => h' m 1 2 (by decide), fun m => h' m 2 0 (by decide),
          fun m => h' m 2 1 (by decide)]
    · cases ho : orth with
      | false =>
        fin_cases k <;> fin_cases l <;> first | exact absurd rfl hkl | simp [c, cofG]
      | true => simp [hkl]
  refine Finset.sum_congr rfl fun m _ => ?_
  simp only [value2_eq (three_diag_inv (hJ m)), c]
  simp only [Three.value2, three_imetric_apply, cofG, Fin.sum_univ_three, off3, slice_zero,
    Matrix.cons_val_zero, Matrix.cons_val_one, Matrix.cons_val, Bool.false_eq_true, if_false]
  ring

theorem innerInner1_form {orth same : Bool} (J : Nat → M2 K) (hJ : ∀ m, DiagIf2 orth (J m)) (q : Nat → K)
    (O S : Fin 2 → Arr K) (n : Nat) (hS : ∀ k, (S k).cols = n) (hs : same = true → O = S) (a b : Nat → K) :
    ∑ i ∈ range ((O 0).rows + (O 1).rows), ∑ j ∈ range ((S 0).rows + (S 1).rows),
      a i * Two.innerInner1 orth same J q O S i j * b j
      = ∑ m ∈ range n, q m * Two.jacobian (J m) * ∑ x,
          Two.valueInner1 orth (Two.inverse (J m)) (einsum (O 0) a m) (einsum (O 1) (slice a (O 0).rows) m) x
          * Two.valueInner1 orth (Two.inverse (J m)) (einsum (S 0) b m) (einsum (S 1) (slice b (S 0).rows) m) x := by
  unfold Two.innerInner1
  refine (bmat2_gram n O S hS (fun k l m => q m * (Two.jacobian (J m) *
    Two.inverseMetricMatrix (Two.inverse (J m)) k l)) _
    (fun k l i j => block_all (fun k l m => q m * (Two.jacobian (J m) *
      Two.inverseMetricMatrix (Two.inverse (J m)) k l))
      (fun ho k l hkl m => by simp [two_imetric_diag (two_diag_inv (hJ m)) ho k l hkl])
      (fun k l m => by simp only [two_imetric_symm _ k l]) O S n hS hs k l i j) a b).trans ?_
  refine Finset.sum_congr rfl fun m _ => ?_
  simp only [valueInner_eq (two_diag_inv (hJ m)), two_imetric_apply, Fin.sum_univ_two, off2, slice_zero,
    Matrix.cons_val_zero, Matrix.cons_val_one]
  ring

theorem innerOuter1_form {orth same : Bool} (J : Nat → M2 K) (hJ : ∀ m, DiagIf2 orth (J m)) (q : Nat → K)
    (O S : Fin 2 → Arr K) (n : Nat) (hS : ∀ k, (S k).cols = n) (hs : same = true → O = S) (a b : Nat → K) :
    ∑ i ∈ range ((O 0).rows + (O 1).rows), ∑ j ∈ range ((S 0).rows + (S 1).rows),
      a i * Two.innerOuter1 orth same J q O S i j * b j
      = ∑ m ∈ range n, q m * Two.jacobian (J m) * ∑ x,
          Two.valueOuter1 orth (Two.inverse (J m)) (einsum (O 0) a m) (einsum (O 1) (slice a (O 0).rows) m) x
          * Two.valueOuter1 orth (Two.inverse (J m)) (einsum (S 0) b m) (einsum (S 1) (slice b (S 0).rows) m) x := by
  unfold Two.innerOuter1
  let g := fun m => Two.inverseMetricMatrix (Two.inverse (J m))
  let c : Fin 2 → Fin 2 → Nat → K := fun k l m => q m *
    (![![Two.jacobian (J m) * g m 1 1, -Two.jacobian (J m) * g m 1 0],
      ![-Two.jacobian (J m) * g m 0 1, Two.jacobian (J m) * g m 0 0]] k l)
  have hg := fun m => two_imetric_diag (two_diag_inv (hJ m))
  have hc : orth = true → ∀ k l, k ≠ l → ∀ m, c k l m = 0 := by
    intro ho k l hkl m
    have h' := hg m ho
    fin_cases k <;> fin_cases l <;> first | exact absurd rfl hkl | skip
    all_goals simp [c, g, h' 0 1 (by decide), h' 1 0 (by decide)]
  have hcs : ∀ k l m, c k l m = c l k m := by
    intro k l m
    have := two_imetric_symm (Two.inverse (J m)) 0 1
    fin_cases k <;> fin_cases l <;> simp [c, g, this]
  refine (bmat2_gram n O S hS c _ (fun k l i j => Eq.trans ?_ (block_all (orth := orth) (same := same) c hc hcs
    O S n hS hs k l i j)) a b).trans ?_
  · fin_cases k <;> fin_cases l <;> simp [c, g]
  refine Finset.sum_congr rfl fun m _ => ?_
  simp only [valueOuter_eq (two_diag_inv (hJ m)), c]
  simp only [g, Two.valueOuter1, two_imetric_apply, Fin.sum_univ_two, off2, slice_zero,
    Matrix.cons_val_zero, Matrix.cons_val_one, Bool.false_eq_true, if_false]
  ring

theorem inner0_form (detJ q : Nat → K) (O S : Arr K) (a b : Nat → K) :
    ∑ i ∈ range O.rows, ∑ j ∈ range S.rows, a i * inner0 detJ q O S i j * b j
      = ∑ m ∈ range S.cols, q m * detJ m * (einsum O a m * einsum S b m) := by
  rw [← gram_form]
  refine Finset.sum_congr rfl fun i _ => Finset.sum_congr rfl fun j _ => ?_
  rw [inner0, range_map_sum, gram_eq]
  congr 2
  exact Finset.sum_congr rfl fun m _ => by ring

theorem valueTop_eq (detiJ : Nat → K) (B : Arr K) (w : Nat → K) (m : Nat) :
    Three.value3 detiJ B w m = detiJ m * einsum B w m := by
  rw [Three.value3, range_map_sum, einsum_eq, Finset.mul_sum]
  exact Finset.sum_congr rfl fun m _ => by ring

theorem two_value2_eq (detiJ : Nat → K) (B : Arr K) (w : Nat → K) (m : Nat) :
    Two.value2 detiJ B w m = detiJ m * einsum B w m := valueTop_eq detiJ B w m

theorem innerTop_form (detJ q : Nat → K) (O S : Arr K) (a b : Nat → K) (h : ∀ m < S.cols, detJ m ≠ 0) :
    ∑ i ∈ range O.rows, ∑ j ∈ range S.rows, a i * innerTop detJ q O S i j * b j
      = ∑ m ∈ range S.cols, q m * detJ m * (((detJ m)⁻¹ * einsum O a m) * ((detJ m)⁻¹ * einsum S b m)) := by
  have e : ∀ m ∈ range S.cols, q m * detJ m * (((detJ m)⁻¹ * einsum O a m) * ((detJ m)⁻¹ * einsum S b m))
      = (q m * (detJ m)⁻¹) * (einsum O a m * einsum S b m) := by
    intro m hm
    have := h m (mem_range.1 hm)
    field_simp
  rw [Finset.sum_congr rfl e, ← gram_form]
  refine Finset.sum_congr rfl fun i _ => Finset.sum_congr rfl fun j _ => ?_
  rw [innerTop, range_map_sum, gram_eq]
  congr 2
  exact Finset.sum_congr rfl fun m _ => by ring

theorem wedge12_form (q : Nat → K) (O S : Fin 3 → Arr K) (n : Nat) (hS : ∀ k, (S k).cols = n) (a b : Nat → K) :
    ∑ i ∈ range ((O 0).rows + (O 1).rows + (O 2).rows), ∑ j ∈ range ((S 0).rows + (S 1).rows + (S 2).rows),
      a i * Three.wedge12 q O S i j * b j
      = ∑ m ∈ range n, q m * (einsum (O 0) a m * einsum (S 0) b m
          + einsum (O 1) (slice a (O 0).rows) m * einsum (S 1) (slice b (S 0).rows) m
          + einsum (O 2) (slice a ((O 0).rows + (O 1).rows)) m
            * einsum (S 2) (slice b ((S 0).rows + (S 1).rows)) m) := by
  unfold Three.wedge12
  refine (bmat3_gram n O S hS (fun k l m => if k = l then q m else 0) _ (fun k l i j => ?_) a b).trans ?_
  · by_cases h : k = l
    · simp [h]
    · simp [h, gram_zero]
  refine Finset.sum_congr rfl fun m _ => ?_
  simp [Fin.sum_univ_three, off3, slice_zero]
  ring

theorem wedge11_form (q : Nat → K) (O S : Fin 2 → Arr K) (n : Nat) (hS : ∀ k, (S k).cols = n) (a b : Nat → K) :
    ∑ i ∈ range ((O 0).rows + (O 1).rows), ∑ j ∈ range ((S 0).rows + (S 1).rows),
      a i * Two.wedge11 q O S i j * b j
      = ∑ m ∈ range n, q m * (einsum (O 0) a m * einsum (S 0) b m
          + einsum (O 1) (slice a (O 0).rows) m * einsum (S 1) (slice b (S 0).rows) m) := by
  unfold Two.wedge11
  refine (bmat2_gram n O S hS (fun k l m => if k = l then q m else 0) _ (fun k l i j => ?_) a b).trans ?_
  · by_cases h : k = l
    · subst h
      simp only [if_true]
      rw [range_map_sum, gram_eq]
      exact Finset.sum_congr rfl fun m _ => by ring
    · simp [h, gram_zero]
  refine Finset.sum_congr rfl fun m _ => ?_
  simp [Fin.sum_univ_two, off2, slice_zero]
  ring

theorem wedge30_form (q : Nat → K) (O S : Arr K) (a b : Nat → K) :
    ∑ i ∈ range O.rows, ∑ j ∈ range S.rows, a i * Three.wedge30 q O S i j * b j
      = ∑ m ∈ range S.cols, q m * (einsum O a m * einsum S b m) := by
  rw [← gram_form]
  refine Finset.sum_congr rfl fun i _ => Finset.sum_congr rfl fun j _ => ?_
  rw [Three.wedge30, range_map_sum, gram_eq]
  congr 2
  exact Finset.sum_congr rfl fun m _ => by ring

/-- The value of a 2-form is `J u / det J`. -/
theorem value2_piola (J : M3 K) (h : Three.jacobian J ≠ 0) (u v w : K) (k : Fin 3) :
    Three.value2 false (Three.inverse J) u v w k = (Three.jacobian J)⁻¹ * (J k 0 * u + J k 1 * v + J k 2 * w) := by
  have h1 := inv_mul_cancel₀ h
  obtain ⟨r, hr⟩ : ∃ r, r = (Three.jacobian J)⁻¹ := ⟨_, rfl⟩
  rw [← hr] at h1 ⊢
  have e : Three.inverse J = ![![r * (J 1 1 * J 2 2 - J 1 2 * J 2 1), r * (J 2 1 * J 0 2 - J 2 2 * J 0 1), r * (J 0 1 * J 1 2 - J 0 2 * J 1 1)],
    ![r * (J 1 2 * J 2 0 - J 1 0 * J 2 2), r * (J 2 2 * J 0 0 - J 2 0 * J 0 2), r * (J 0 2 * J 1 0 - J 0 0 * J 1 2)],
    ![r * (J 1 0 * J 2 1 - J 1 1 * J 2 0), r * (J 2 0 * J 0 1 - J 2 1 * J 0 0), r * (J 0 0 * J 1 1 - J 0 1 * J 1 0)]] := by
    rw [hr, Three.inverse, Three.jacobian, one_div]
  rw [e]
  unfold Three.jacobian at h1
  fin_cases k <;> simp [Three.value2]
  · linear_combination (r * (J 0 0 * u + J 0 1 * v + J 0 2 * w)) * h1
  · linear_combination (r * (J 1 0 * u + J 1 1 * v + J 1 2 * w)) * h1
  · linear_combination (r * (J 2 0 * u + J 2 1 * v + J 2 2 * w)) * h1

/-- The value of an outer 1-form is `J u / det J`. -/
theorem valueOuter_piola (J : M2 K) (u v : K) (k : Fin 2) :
    Two.valueOuter1 false (Two.inverse J) u v k = (Two.jacobian J)⁻¹ * (J k 0 * u + J k 1 * v) := by
  fin_cases k <;> simp [Two.valueOuter1, Two.inverse, Two.jacobian] <;> ring

end
end Mifem.Metric
