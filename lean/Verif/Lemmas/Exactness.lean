import Verif.Lemmas.Incidence2D
import Verif.Lemmas.Incidence3D
import Mathlib.Algebra.BigOperators.Intervals

/-! Discrete Poincaré lemmas on boxes, and building cochains from their values on cells. -/

namespace Mifem
open Finset

theorem exists_fIdx2 {R : Type*} {a : Nat} (f : Nat → Nat → R) :
    ∃ x : Nat → R, ∀ i j, i < a → x (fIdx2 a i j) = f i j :=
  ⟨fun r => f (r % a) (r / a), fun i j hi => by simp only [fIdx2_mod hi, fIdx2_div hi]⟩

theorem exists_fIdx3 {R : Type*} {a b : Nat} (f : Nat → Nat → Nat → R) :
    ∃ x : Nat → R, ∀ i j k, i < a → j < b → x (fIdx3 a b i j k) = f i j k :=
  ⟨fun r => f (r % a) (r / a % b) (r / a / b), fun i j k hi hj => by
    simp only [fIdx3_eq, fIdx2_mod hi, fIdx2_div hi, fIdx2_mod hj, fIdx2_div hj]⟩

theorem applyM_congr {R : Type*} [Ring R] {n : Nat} {E : Nat → Nat → Int} {x y : Nat → R}
    (h : ∀ c < n, x c = y c) (r : Nat) : applyM n E x r = applyM n E y r := by
  unfold applyM
  refine Finset.sum_congr rfl fun c hc => ?_
  rw [h c (by simpa using hc)]

section box
variable {R : Type*} [AddCommGroup R]

theorem poincare2 {p0 p1 : Nat} (u0 u1 : Nat → Nat → R)
    (h : ∀ i j, i < p0 → j < p1 → u0 i j - u0 i (j+1) - u1 i j + u1 (i+1) j = 0) :
    ∃ φ : Nat → Nat → R, (∀ i j, i < p0 → j < p1 + 1 → φ (i+1) j - φ i j = u0 i j) ∧
      (∀ i j, i < p0 + 1 → j < p1 → φ i (j+1) - φ i j = u1 i j) := by
  refine ⟨fun i j => (∑ a ∈ range i, u0 a 0) + ∑ b ∈ range j, u1 i b, ?_, ?_⟩
  · intro i j hi hj
    have key : ∑ b ∈ range j, (u1 (i+1) b - u1 i b) = u0 i j - u0 i 0 := by
      rw [← Finset.sum_range_sub (fun b => u0 i b) j]
      refine Finset.sum_congr rfl fun b hb => ?_
      have hb' : b < j := by simpa using hb
      have := h i b hi (by omega)
      rw [← sub_eq_zero, ← this]; abel
    rw [Finset.sum_sub_distrib] at key
    simp only [Finset.sum_range_succ]
    rw [show (∑ a ∈ range i, u0 a 0) + u0 i 0 + ∑ b ∈ range j, u1 (i+1) b - ((∑ a ∈ range i, u0 a 0) + ∑ b ∈ range j, u1 i b)
      = u0 i 0 + (∑ b ∈ range j, u1 (i+1) b - ∑ b ∈ range j, u1 i b) by abel, key]
    abel
  · intro i j hi hj
    simp only [Finset.sum_range_succ]; abel

theorem poincare3_1 {p0 p1 p2 : Nat} (u0 u1 u2 : Nat → Nat → Nat → R)
    (h0 : ∀ i j k, i < p0 + 1 → j < p1 → k < p2 → (u1 i j k + u2 i (j+1) k) - (u1 i j (k+1) + u2 i j k) = 0)
    (h1 : ∀ i j k, i < p0 → j < p1 + 1 → k < p2 → (u0 i j (k+1) + u2 i j k) - (u0 i j k + u2 (i+1) j k) = 0)
    (h2 : ∀ i j k, i < p0 → j < p1 → k < p2 + 1 → (u0 i j k + u1 (i+1) j k) - (u0 i (j+1) k + u1 i j k) = 0) :
    ∃ φ : Nat → Nat → Nat → R,
      (∀ i j k, i < p0 → j < p1 + 1 → k < p2 + 1 → φ (i+1) j k - φ i j k = u0 i j k) ∧
      (∀ i j k, i < p0 + 1 → j < p1 → k < p2 + 1 → φ i (j+1) k - φ i j k = u1 i j k) ∧
      (∀ i j k, i < p0 + 1 → j < p1 + 1 → k < p2 → φ i j (k+1) - φ i j k = u2 i j k) := by
  obtain ⟨ψ, hψ0, hψ1⟩ := poincare2 (p0 := p0) (p1 := p1) (fun i j => u0 i j 0) (fun i j => u1 i j 0)
    (fun i j hi hj => by have := h2 i j 0 hi hj (by omega); rw [← this]; abel)
  refine ⟨fun i j k => ψ i j + ∑ c ∈ range k, u2 i j c, ?_, ?_, ?_⟩
  · intro i j k hi hj hk
    have key : ∑ c ∈ range k, (u2 (i+1) j c - u2 i j c) = u0 i j k - u0 i j 0 := by
      rw [← Finset.sum_range_sub (fun c => u0 i j c) k]
      refine Finset.sum_congr rfl fun c hc => ?_
      have hc' : c < k := by simpa using hc
      have := h1 i j c hi hj (by omega)
      rw [← sub_eq_zero, ← neg_eq_zero, ← this]; abel
    rw [Finset.sum_sub_distrib] at key
    have e := hψ0 i j hi hj
    rw [show ψ (i+1) j + ∑ c ∈ range k, u2 (i+1) j c - (ψ i j + ∑ c ∈ range k, u2 i j c)
      = (ψ (i+1) j - ψ i j) + (∑ c ∈ range k, u2 (i+1) j c - ∑ c ∈ range k, u2 i j c) by abel, key, e]
    abel
  · intro i j k hi hj hk
    have key : ∑ c ∈ range k, (u2 i (j+1) c - u2 i j c) = u1 i j k - u1 i j 0 := by
      rw [← Finset.sum_range_sub (fun c => u1 i j c) k]
      refine Finset.sum_congr rfl fun c hc => ?_
      have hc' : c < k := by simpa using hc
      have := h0 i j c hi hj (by omega)
      rw [← sub_eq_zero, ← this]; abel
    rw [Finset.sum_sub_distrib] at key
    have e := hψ1 i j hi hj
    rw [show ψ i (j+1) + ∑ c ∈ range k, u2 i (j+1) c - (ψ i j + ∑ c ∈ range k, u2 i j c)
      = (ψ i (j+1) - ψ i j) + (∑ c ∈ range k, u2 i (j+1) c - ∑ c ∈ range k, u2 i j c) by abel, key, e]
    abel
  · intro i j k _ _ _
    simp only [Finset.sum_range_succ]; abel

theorem poincare3_2 {p0 p1 p2 : Nat} (w0 w1 w2 : Nat → Nat → Nat → R)
    (h : ∀ i j k, i < p0 → j < p1 → k < p2 →
      (w0 (i+1) j k + w1 i (j+1) k + w2 i j (k+1)) - (w0 i j k + w1 i j k + w2 i j k) = 0) :
    ∃ u0 u1 u2 : Nat → Nat → Nat → R,
      (∀ i j k, i < p0 + 1 → j < p1 → k < p2 → (u1 i j k + u2 i (j+1) k) - (u1 i j (k+1) + u2 i j k) = w0 i j k) ∧
      (∀ i j k, i < p0 → j < p1 + 1 → k < p2 → (u0 i j (k+1) + u2 i j k) - (u0 i j k + u2 (i+1) j k) = w1 i j k) ∧
      (∀ i j k, i < p0 → j < p1 → k < p2 + 1 → (u0 i j k + u1 (i+1) j k) - (u0 i (j+1) k + u1 i j k) = w2 i j k) := by
  refine ⟨fun i j k => ∑ c ∈ range k, w1 i j c,
    fun i j k => (∑ a ∈ range i, w2 a j 0) - ∑ c ∈ range k, w0 i j c, fun _ _ _ => 0, ?_, ?_, ?_⟩
  · intro i j k _ _ _; simp only [Finset.sum_range_succ]; abel
  · intro i j k _ _ _; simp only [Finset.sum_range_succ]; abel
  · intro i j k hi hj hk
    have key : ∑ c ∈ range k, ((w1 i j c - w1 i (j+1) c) + (w0 i j c - w0 (i+1) j c)) = w2 i j k - w2 i j 0 := by
      rw [← Finset.sum_range_sub (fun c => w2 i j c) k]
      refine Finset.sum_congr rfl fun c hc => ?_
      have hc' : c < k := by simpa using hc
      have := h i j c hi hj (by omega)
      rw [← sub_eq_zero, ← neg_eq_zero, ← this]; abel
    rw [Finset.sum_add_distrib, Finset.sum_sub_distrib, Finset.sum_sub_distrib] at key
    simp only [Finset.sum_range_succ]
    rw [← sub_eq_zero] at key ⊢
    rw [← key]; abel

end box
end Mifem
