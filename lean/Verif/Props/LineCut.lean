import Verif.Model.LineCut
import Mathlib.Tactic.NormNum
import Mathlib.Tactic.Ring
import Mathlib.Tactic.Linarith
import Mathlib.Tactic.LinearCombination

/-!
# C124: intersection of lines
-/

namespace Mifem.Props.Cut124
open Mifem.LineCut

/-- `p` is on the line through `a` and `b`. -/
def On (a b p : ℚ × ℚ) : Prop := ∃ t : ℚ, p.1 = a.1 + t * (b.1 - a.1) ∧ p.2 = a.2 + t * (b.2 - a.2)

/-- The line through `b1` and `b2` has the direction of that through `a1` and `a2`. -/
def Parallel (a1 a2 b1 b2 : ℚ × ℚ) : Prop := ∃ k : ℚ, b2.1 - b1.1 = k * (a2.1 - a1.1) ∧ b2.2 - b1.2 = k * (a2.2 - a1.2)

theorem on_det {a b p : ℚ × ℚ} (h : On a b p) : det a b = p.1 * (b.2 - a.2) - p.2 * (b.1 - a.1) := by
  obtain ⟨t, h1, h2⟩ := h
  unfold det
  rw [h1, h2]
  ring

/-- **C124 (common point).**  The point found is on both lines. -/
theorem c124_on (a1 a2 b1 b2 p : ℚ × ℚ) (h : cut a1 a2 b1 b2 = some p) : On a1 a2 p ∧ On b1 b2 p := by
  unfold cut at h
  dsimp only at h
  split at h
  · cases h
  · next hne =>
    have hp := Option.some.inj h
    subst hp
    unfold det at hne ⊢
    dsimp only at hne ⊢
    constructor
    · refine ⟨((a1.1 - b1.1) * (b1.2 - b2.2) - (a1.2 - b1.2) * (b1.1 - b2.1)) /
        ((a1.1 - a2.1) * (b1.2 - b2.2) - (b1.1 - b2.1) * (a1.2 - a2.2)), ?_, ?_⟩
      · rw [div_mul_eq_mul_div, div_eq_iff hne, add_mul, div_mul_cancel₀ _ hne]
        ring
      · rw [div_mul_eq_mul_div, div_eq_iff hne, add_mul, div_mul_cancel₀ _ hne]
        ring
    · refine ⟨((a1.1 - b1.1) * (a1.2 - a2.2) - (a1.2 - b1.2) * (a1.1 - a2.1)) /
        ((a1.1 - a2.1) * (b1.2 - b2.2) - (b1.1 - b2.1) * (a1.2 - a2.2)), ?_, ?_⟩
      · rw [div_mul_eq_mul_div, div_eq_iff hne, add_mul, div_mul_cancel₀ _ hne]
        ring
      · rw [div_mul_eq_mul_div, div_eq_iff hne, add_mul, div_mul_cancel₀ _ hne]
        ring

/-- **C124 (only point).**  The point found is the only one on both lines. -/
theorem c124_only (a1 a2 b1 b2 p q : ℚ × ℚ) (h : cut a1 a2 b1 b2 = some p) (ha : On a1 a2 q) (hb : On b1 b2 q) : q = p := by
  have e1 := on_det ha
  have e2 := on_det hb
  unfold cut at h
  dsimp only at h
  split at h
  · cases h
  · next hne =>
    have hp := Option.some.inj h
    subst hp
    rw [e1, e2]
    unfold det at hne ⊢
    dsimp only at hne ⊢
    ext
    · dsimp only
      rw [eq_div_iff hne]
      ring
    · dsimp only
      rw [eq_div_iff hne]
      ring

/-- **C124 (none).**  For two different points `a1`, `a2`, no point is given exactly if the lines have the same direction. -/
theorem c124_none (a1 a2 b1 b2 : ℚ × ℚ) (hne : a1 ≠ a2) : cut a1 a2 b1 b2 = none ↔ Parallel a1 a2 b1 b2 := by
  have hdiv : cut a1 a2 b1 b2 = none ↔ (a1.1 - a2.1) * (b1.2 - b2.2) - (b1.1 - b2.1) * (a1.2 - a2.2) = 0 := by
    unfold cut det
    dsimp only
    split
    · next h => exact ⟨fun _ => h, fun _ => rfl⟩
    · next h => exact ⟨fun h' => (by cases h'), fun h' => absurd h' h⟩
  rw [hdiv]
  constructor
  · intro h
    by_cases hx : a2.1 - a1.1 = 0
    · have hy : a2.2 - a1.2 ≠ 0 := by
        intro hy
        apply hne
        ext <;> linarith
      refine ⟨(b2.2 - b1.2) / (a2.2 - a1.2), ?_, ?_⟩
      · rw [hx, mul_zero]
        have : (b2.1 - b1.1) * (a2.2 - a1.2) = 0 := by linear_combination -h + (b2.2 - b1.2) * hx
        rcases mul_eq_zero.mp this with h' | h'
        · exact h'
        · exact absurd h' hy
      · rw [div_mul_cancel₀ _ hy]
    · refine ⟨(b2.1 - b1.1) / (a2.1 - a1.1), ?_, ?_⟩
      · rw [div_mul_cancel₀ _ hx]
      · rw [div_mul_eq_mul_div, eq_div_iff hx]
        linear_combination h
  · rintro ⟨k, h1, h2⟩
    linear_combination (a2.1 - a1.1) * h2 - (a2.2 - a1.2) * h1

/-- **C124 (same lines).**  Also for lines that are the same no point is given, though all of their points are common. -/
theorem c124_same : cut (0, 0) (1, 0) (2, 0) (3, 0) = none ∧ On (0, 0) (1, 0) (2, 0) ∧ On (2, 0) (3, 0) (2, 0) :=
  ⟨by decide +kernel, ⟨2, by norm_num, by norm_num⟩, ⟨0, by norm_num, by norm_num⟩⟩

example : cut (0, 0) (1, 1) (1, 0) (0, 1) = some (1 / 2, 1 / 2) := by decide +kernel
example : cut (0, 0) (1, 0) (0, 1) (1, 2) = some (-1, 0) := by decide +kernel
example : On (0, 0) (1, 1) (1 / 2, 1 / 2) ∧ On (1, 0) (0, 1) (1 / 2, 1 / 2) :=
  ⟨⟨1 / 2, by norm_num, by norm_num⟩, ⟨1 / 2, by norm_num, by norm_num⟩⟩
example : Parallel (0, 0) (1, 0) (0, 1) (1, 1) := ⟨1, by norm_num, by norm_num⟩

end Mifem.Props.Cut124
