import Mathlib.Analysis.SpecialFunctions.Trigonometric.Inverse
import Verif.Model.Tri

/-!
# Angles and quality of a triangular cell

Python sources:
* `/repo/components/functions/_2dSpace/angles_of_triangle.py` lines 11-33
* `/repo/objects/miUsGrid/triangular/mesh/elements/element/main.py` lines 78-84, 104-113

Numbers are real numbers; `nan` (a division by zero) and the `ValueError` of `math.acos` are both `none`.
-/

namespace Mifem.CellShape
open Mifem.Tri

/-- angles_of_triangle.py 24-26 and 29-31: `math.acos(num / den) * 180 / math.pi`. -/
noncomputable def degrees (num den : ℝ) : Option ℝ :=
  open Classical in
  if den = 0 then none
  else if num / den < -1 ∨ 1 < num / den then none
  else some (Real.arccos (num / den) * 180 / Real.pi)

/-- angles_of_triangle.py 11-33; element/main.py 78-84. -/
noncomputable def angles (p : Fin 3 → ℝ × ℝ) : Option (ℝ × ℝ × ℝ) := do
  let a := distance (p 1) (p 2); let b := distance (p 0) (p 2); let c := distance (p 0) (p 1)
  let α ← degrees (b ^ 2 + c ^ 2 - a ^ 2) (2 * b * c)
  let β ← degrees (a ^ 2 + c ^ 2 - b ^ 2) (2 * a * c)
  let γ ← degrees (a ^ 2 + b ^ 2 - c ^ 2) (2 * a * b)
  return (α, β, γ)

/-- element/main.py 104-113. -/
noncomputable def quality (p : Fin 3 → ℝ × ℝ) : Option ℝ := do
  let (α, β, γ) ← angles p
  let diff := |α - 60| + |β - 60| + |γ - 60|
  return |1 - diff / 240|

end Mifem.CellShape
