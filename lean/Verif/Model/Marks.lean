import Mathlib.Algebra.Order.Round
import Mathlib.Data.Rat.Floor
import Mathlib.Data.Nat.Digits.Defs
import Verif.Model.EWC

/-!
# Marks of elements with respect to the metric

Python sources:
* `/repo/objects/CSCG/_3d/mesh/elements/element/types_wrt_metric/{base,orthogonal}.py`
* `/repo/objects/CSCG/_2d/mesh/elements/element/types_wrt_metric/{orthogonal,parallelogram}.py`
* `/repo/objects/CSCG/_3d/mesh/elements/main.py` lines 262-267, `_2d/mesh/elements/main.py` lines 194-199
* `/repo/objects/CSCG/_3d/mesh/domain/regions/region/types_wrt_metric/orthogonal.py` lines 56-63

Floats are exact rational numbers; `round` and `'%.3f'` round to the nearest decimal number, halves to even, as Python
does with exact values.
-/

namespace Mifem.Marks
open Mifem.EWC (Key)

/-- Rounding to the nearest integer, halves to even. -/
def rhe (q : ℚ) : ℤ :=
  let f := ⌊q⌋
  if 2 * (q - f) < 1 then f else if 1 < 2 * (q - f) then f + 1 else if f % 2 = 0 then f else f + 1

/-- Python's `round(x, d)`. -/
def roundTo (d : Nat) (x : ℚ) : ℚ := rhe (x * 10 ^ d) / 10 ^ d

/-- The decimal digits of a natural number. -/
def natStr (n : Nat) : Key := if n = 0 then ['0'] else (Nat.digits 10 n).reverse.map Nat.digitChar

/-- The last `d` decimal digits of a natural number. -/
def fracStr : Nat → Nat → Key
  | 0, _ => []
  | d + 1, m => Nat.digitChar (m / 10 ^ d % 10) :: fracStr d m

/-- `n / 10 ^ d` written with `d` decimals. -/
def decimal (d n : Nat) : Key := natStr (n / 10 ^ d) ++ '.' :: fracStr d n

/-- Python's `'%.df' % x` for `x ≥ 0`. -/
def fmt (d : Nat) (x : ℚ) : Key := decimal d (rhe (x * 10 ^ d)).toNat

/-- `_3d/.../orthogonal.py` 14-28: the mark of an orthogonal element. -/
def orth3 (L : Fin 3 → ℚ) : Key :=
  let x := roundTo 6 (L 0); let y := roundTo 6 (L 1); let z := roundTo 6 (L 2)
  "Orth.".toList ++
  (if x = y ∧ y = z then fmt 3 x
   else if x = y then ['x', 'y'] ++ fmt 4 x ++ 'z' :: fmt 4 z
   else if x = z then ['x', 'z'] ++ fmt 4 x ++ 'y' :: fmt 4 y
   else if y = z then ['y', 'z'] ++ fmt 4 y ++ 'x' :: fmt 4 x
   else 'x' :: (fmt 3 x ++ 'y' :: (fmt 3 y ++ 'z' :: fmt 3 z)))

/-- `_2d/.../orthogonal.py` 17-23. -/
def orth2 (L : Fin 2 → ℚ) : Key :=
  let x := roundTo 5 (L 0); let y := roundTo 5 (L 1)
  "Orth.".toList ++ (if x = y then fmt 4 x else 'x' :: (fmt 4 x ++ 'y' :: fmt 4 y))

/-- `_2d/.../parallelogram.py` 23-33: the angle of the left edge, its length, the angle between left and upper edge, the
length of the upper edge. -/
def par2 (aL L aLU U : ℚ) : Key :=
  "Parallelogram.".toList ++ ("aL".toList ++ (fmt 5 (roundTo 6 aL) ++ ("_L".toList ++ (fmt 5 (roundTo 6 L) ++
    ('_' :: (fmt 5 (roundTo 6 aLU) ++ ("_U".toList ++ fmt 5 (roundTo 6 U))))))))

/-- `_3d/.../region/types_wrt_metric/orthogonal.py` 62: the lengths of an element. -/
def lengths (region spacing : Fin 3 → ℚ) : Fin 3 → ℚ := fun i => spacing i * region i

end Mifem.Marks
