import Mathlib.Algebra.Order.Field.Rat

/-!
# Intersection of lines

Python source: `/repo/components/functions/_2dSpace/line_intersection.py` lines 4-41 (`find_line_intersection`).

Coordinates are rational numbers (floats in the code).
-/

namespace Mifem.LineCut

/-- 4-5: `__det__`. -/
def det (a b : ℚ × ℚ) : ℚ := a.1 * b.2 - a.2 * b.1

/-- 30-41. -/
def cut (a1 a2 b1 b2 : ℚ × ℚ) : Option (ℚ × ℚ) :=
  let xdiff := (a1.1 - a2.1, b1.1 - b2.1)
  let ydiff := (a1.2 - a2.2, b1.2 - b2.2)
  let div := det xdiff ydiff
  if div = 0 then none
  else
    let d := (det a1 a2, det b1 b2)
    some (det d xdiff / div, det d ydiff / div)

end Mifem.LineCut
