import Verif.Model.EdgePlot
import Mathlib.Tactic.Common
import Mathlib.Tactic.IntervalCases
import Mathlib.Tactic.Ring

/-!
# C123: places of dofs of 1-edge-forms

Specification: the dofs of an element are numbered edge by edge, in the order of the table of the basis functions of 1-edge-forms
(`/repo/objects/CSCG/_3d/spaces/base/num_basis.py` 45-56).
-/

namespace Mifem.Props.Edge123
open Mifem.EdgePlot

/-- The edges in order, each with the direction it runs in. -/
def order : List ((Char × Char) × ℕ) :=
  [(('W', 'B'), 0), (('E', 'B'), 0), (('W', 'F'), 0), (('E', 'F'), 0), (('N', 'B'), 1), (('S', 'B'), 1), (('N', 'F'), 1), (('S', 'F'), 1),
   (('N', 'W'), 2), (('S', 'W'), 2), (('N', 'E'), 2), (('S', 'E'), 2)]

/-- The degree in a direction. -/
def deg (px py pz : ℕ) : ℕ → ℕ
  | 0 => px
  | 1 => py
  | _ => pz

/-- The number of dofs on the first `e` edges. -/
def before (px py pz e : ℕ) : ℕ := ((order.take e).map fun x => deg px py pz x.2).sum

/-- The side of an element with a letter: coordinate and value. -/
def OnSide (c : Char) (x y z : ℚ) : Prop :=
  (c = 'N' ∧ x = -1) ∨ (c = 'S' ∧ x = 1) ∨ (c = 'W' ∧ y = -1) ∨ (c = 'E' ∧ y = 1) ∨ (c = 'B' ∧ z = -1) ∨ (c = 'F' ∧ z = 1)

theorem four_spec (p l : ℕ) (a b c d : Char × Char) (hl : l < p) :
    four l p a b c d = (a, l) ∧ four (p + l) p a b c d = (b, l) ∧ four (2 * p + l) p a b c d = (c, l) ∧ four (3 * p + l) p a b c d = (d, l) := by
  unfold four
  refine ⟨by rw [if_pos hl], ?_, ?_, ?_⟩
  · rw [if_neg (by omega), if_pos (by omega)]
    congr 1; omega
  · rw [if_neg (by omega), if_neg (by omega), if_pos (by omega)]
    congr 1; omega
  · rw [if_neg (by omega), if_neg (by omega), if_neg (by omega)]
    congr 1; omega

theorem decode_first {px py pz m : ℕ} (h : m < 4 * px) : decode px py pz m = some (four m px ('W', 'B') ('E', 'B') ('W', 'F') ('E', 'F')) := by
  unfold decode
  rw [if_pos h]

theorem decode_second {px py pz m : ℕ} (h : m < 4 * py) :
    decode px py pz (4 * px + m) = some (four m py ('N', 'B') ('S', 'B') ('N', 'F') ('S', 'F')) := by
  unfold decode
  rw [if_neg (by omega)]
  dsimp only
  rw [show 4 * px + m - 4 * px = m by omega, if_pos h]

theorem decode_third {px py pz m : ℕ} (h : m < 4 * pz) :
    decode px py pz (4 * px + 4 * py + m) = some (four m pz ('N', 'W') ('S', 'W') ('N', 'E') ('S', 'E')) := by
  unfold decode
  rw [if_neg (by omega)]
  dsimp only
  rw [show 4 * px + 4 * py + m - 4 * px = 4 * py + m by omega, if_neg (by omega), show 4 * py + m - 4 * py = m by omega, if_pos h]

/-- **C123 (edge of a dof).**  The `l`-th dof of each edge is found to be the `l`-th of that edge. -/
theorem c123_decode (px py pz e l : ℕ) (edge : Char × Char) (dir : ℕ) (he : order[e]? = some (edge, dir)) (hl : l < deg px py pz dir) :
    decode px py pz (before px py pz e + l) = some (edge, l) := by
  have hlt : e < 12 := (List.getElem?_eq_some_iff.mp he).1
  interval_cases e <;> simp only [order, List.getElem?_cons_zero, List.getElem?_cons_succ, Option.some.injEq, Prod.mk.injEq] at he <;>
    obtain ⟨rfl, rfl⟩ := he <;> simp only [deg] at hl <;>
    simp only [before, order, List.take, List.map_cons, List.map_nil, List.sum_cons, List.sum_nil, deg]
  · rw [show 0 + l = l by omega, decode_first (by omega), (four_spec px l _ _ _ _ hl).1]
  · rw [show px + 0 + l = px + l by omega, decode_first (by omega), (four_spec px l _ _ _ _ hl).2.1]
  · rw [show px + (px + 0) + l = 2 * px + l by omega, decode_first (by omega), (four_spec px l _ _ _ _ hl).2.2.1]
  · rw [show px + (px + (px + 0)) + l = 3 * px + l by omega, decode_first (by omega), (four_spec px l _ _ _ _ hl).2.2.2]
  · rw [show px + (px + (px + (px + 0))) + l = 4 * px + l by omega, decode_second (by omega), (four_spec py l _ _ _ _ hl).1]
  · rw [show px + (px + (px + (px + (py + 0)))) + l = 4 * px + (py + l) by omega, decode_second (by omega), (four_spec py l _ _ _ _ hl).2.1]
  · rw [show px + (px + (px + (px + (py + (py + 0))))) + l = 4 * px + (2 * py + l) by omega, decode_second (by omega),
      (four_spec py l _ _ _ _ hl).2.2.1]
  · rw [show px + (px + (px + (px + (py + (py + (py + 0)))))) + l = 4 * px + (3 * py + l) by omega, decode_second (by omega),
      (four_spec py l _ _ _ _ hl).2.2.2]
  · rw [show px + (px + (px + (px + (py + (py + (py + (py + 0))))))) + l = 4 * px + 4 * py + l by omega, decode_third (by omega),
      (four_spec pz l _ _ _ _ hl).1]
  · rw [show px + (px + (px + (px + (py + (py + (py + (py + (pz + 0)))))))) + l = 4 * px + 4 * py + (pz + l) by omega, decode_third (by omega),
      (four_spec pz l _ _ _ _ hl).2.1]
  · rw [show px + (px + (px + (px + (py + (py + (py + (py + (pz + (pz + 0))))))))) + l = 4 * px + 4 * py + (2 * pz + l) by omega,
      decode_third (by omega), (four_spec pz l _ _ _ _ hl).2.2.1]
  · rw [show px + (px + (px + (px + (py + (py + (py + (py + (pz + (pz + (pz + 0)))))))))) + l = 4 * px + 4 * py + (3 * pz + l) by omega,
      decode_third (by omega), (four_spec pz l _ _ _ _ hl).2.2.2]

/-- **C123 (refused).**  Exactly the numbers from the number of dofs on are refused. -/
theorem c123_refused (px py pz index : ℕ) : decode px py pz index = none ↔ 4 * (px + py + pz) ≤ index := by
  unfold decode
  by_cases h1 : index < 4 * px
  · rw [if_pos h1]
    constructor
    · intro h; cases h
    · intro h; omega
  · rw [if_neg h1]
    dsimp only
    by_cases h2 : index - 4 * px < 4 * py
    · rw [if_pos h2]
      constructor
      · intro h; cases h
      · intro h; omega
    · rw [if_neg h2]
      by_cases h3 : index - 4 * px - 4 * py < 4 * pz
      · rw [if_pos h3]
        constructor
        · intro h; cases h
        · intro h; omega
      · rw [if_neg h3]
        simp only [true_iff]
        omega

/-- **C123 (points).**  The points drawn for an edge are on both sides that its name has, with the given coordinate in the direction of the edge. -/
theorem c123_place (e : ℕ) (edge : Char × Char) (dir : ℕ) (he : order[e]? = some (edge, dir)) (N : ℚ) :
    ∃ x y z, place edge N = some (dir, x, y, z) ∧ OnSide edge.1 x y z ∧ OnSide edge.2 x y z ∧
      (dir = 0 → x = N) ∧ (dir = 1 → y = N) ∧ (dir = 2 → z = N) := by
  have hlt : e < 12 := (List.getElem?_eq_some_iff.mp he).1
  interval_cases e <;> simp only [order, List.getElem?_cons_zero, List.getElem?_cons_succ, Option.some.injEq, Prod.mk.injEq] at he <;>
    obtain ⟨rfl, rfl⟩ := he <;> refine ⟨_, _, _, rfl, ?_⟩ <;> simp [OnSide]

example : decode 2 3 1 13 = some (('S', 'B'), 2) ∧ before 2 3 1 5 = 11 := by decide
example : order[5]? = some (('S', 'B'), 1) ∧ 2 < deg 2 3 1 1 := by decide
example : place ('S', 'B') (1 / 2) = some (1, 1, 1 / 2, -1) := by decide +kernel
example : decode 2 3 1 24 = none := by decide

end Mifem.Props.Edge123
