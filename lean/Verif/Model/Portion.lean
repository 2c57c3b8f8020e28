import Mathlib.Order.Defs.LinearOrder
import Mathlib.Algebra.Notation.Defs
import Mathlib.Data.Nat.Notation

/-!
# Portions of discrete fields in a rectangle (2-D)

Python sources (`/repo/objects/CSCG/_2d/`):
* `discreteFields/base/portion.py` lines 19-106 (`___PRIVATE_parse_region_wise_structured_data_indices___`)
* `discreteFields/scalar/portion.py` lines 24-70, `discreteFields/vector/portion.py` lines 24-70 (`xy_range`)
* `mesh/domain/regions/region/interpolations/base.py` lines 83-88 (`mapping_Xr_at_s0`, `mapping_Ys_at_r0`)

One region: `X`, `Y` is its mapping; `r`, `s` the grid in the region.  Numbers are from an ordered set `K` (rounding is not
modelled).  `none` is an exception.
-/

namespace Mifem.Portion

variable {K : Type} [LinearOrder K] [Zero K] [One K]

/-- portion.py 19-106 for one region: the bounds of the indices; `some none`: the region is not in the result.  The indices found by
`for … break` (67-93) are `findIdx?`; a comparison with `None` (99) and the last entry of an empty list (62) are exceptions. -/
def indices (X Y : K → K → K) (r s : List K) (x y : K × K) : Option (Option ((ℕ × ℕ) × (ℕ × ℕ))) :=
  if ¬ (x.1 < x.2) ∨ ¬ (y.1 < y.2) then none
  else if x.1 ≥ X 1 0 ∨ x.2 ≤ X 0 0 ∨ y.1 ≥ Y 0 1 ∨ y.2 ≤ Y 0 0 then some none
  else
    let x0 := if x.1 < X 0 0 then X 0 0 else x.1
    let x1 := if x.2 > X 1 0 then X 1 0 else x.2
    let y0 := if y.1 < Y 0 0 then Y 0 0 else y.1
    let y1 := if y.2 > Y 0 1 then Y 0 1 else y.2
    if ¬ (x0 < x1) ∨ ¬ (y0 < y1) then none
    else
      let R := r.map fun a => X a 0
      let S := s.map fun b => Y 0 b
      match R.head?, R.getLast?, S.head?, S.getLast? with
      | some Rh, some Rl, some Sh, some Sl =>
        if x0 > Rl ∨ x1 < Rh ∨ y0 > Sl ∨ y1 < Sh then some none
        else
          let xu := (R.findIdx? fun a => a > x1).getD R.length
          let yu := (S.findIdx? fun a => a > y1).getD S.length
          match R.findIdx? fun a => a ≥ x0, S.findIdx? fun a => a ≥ y0 with
          | some xl, some yl =>
            if xl = xu ∨ yl = yu then some none
            else if xl < xu ∧ yl < yu then some (some ((xl, xu), (yl, yu)))
            else none
          | _, _ => none
      | _, _, _, _ => none

/-- `l[a:b]`. -/
def slice {α : Type} (l : List α) (a b : ℕ) : List α := (l.take b).drop a

/-- The data of a structured field in the region: coordinates and values at the grid points (the arrays of the coordinates and of the
components together). -/
def sample {α : Type} (X Y : K → K → K) (v : K → K → α) (r s : List K) : List (List (K × K × α)) :=
  r.map fun a => s.map fun b => (X a b, Y a b, v a b)

/-- scalar/portion.py 24-70 for one region. -/
def xyRange {α : Type} (X Y : K → K → K) (v : K → K → α) (r s : List K) (x y : K × K) : Option (List (List (K × K × α))) :=
  (indices X Y r s x y).map fun
    | none => []
    | some ((xl, xu), (yl, yu)) => (slice (sample X Y v r s) xl xu).map fun row => slice row yl yu

end Mifem.Portion
