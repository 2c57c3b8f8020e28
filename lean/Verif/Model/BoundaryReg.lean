/-!
# Regularity of the distribution of boundaries of 3-D domains

Python source: `/repo/objects/CSCG/_3d/mesh/domain/boundaries.py` lines 78-131 (`___PRIVATE_if_is_Regular__one_region_corner_interface___`).

Regions are numbered from 0 to `n - 1` in the order of the map, sides 0 to 5 are `NSWEBF`.  `none` is an exception (no region of that name).
-/

namespace Mifem.BoundaryReg

/-- What is at a side of a region in `regions.map`: a boundary, or a region (then the name begins with `R:`). -/
inductive Cell
  | bd (b : Nat)
  | reg (r : Nat)
deriving DecidableEq

/-- 96-103: `check_directions`. -/
def directions (i : Nat) : List Nat :=
  if i = 0 ∨ i = 1 then [2, 3, 4, 5] else if i = 2 ∨ i = 3 then [0, 1, 4, 5] else [0, 1, 2, 3]

/-- 105-117: the loop over the directions. -/
def along (n : Nat) (map : Nat → Nat → Cell) (rn i : Nat) : List Nat → Option Bool
  | [] => some true
  | cd :: l =>
    match map rn cd with
    | .bd _ => along n map rn i l
    | .reg R => if R < n then (if map R i = map rn i then along n map rn i l else some false) else none

/-- 94-120: one side. -/
def side (n : Nat) (map : Nat → Nat → Cell) (rn i : Nat) : Option Bool :=
  match map rn i with
  | .bd _ => along n map rn i (directions i)
  | .reg _ => some true

/-- A loop that is left at the first `False` or exception (122-125). -/
def loop (f : Nat → Option Bool) : List Nat → Option Bool
  | [] => some true
  | x :: l =>
    match f x with
    | some true => loop f l
    | o => o

/-- 83-131. -/
def regular (n : Nat) (map : Nat → Nat → Cell) : Option Bool :=
  if n = 1 then some true
  else loop (fun rn => loop (side n map rn) (List.range 6)) (List.range n)

end Mifem.BoundaryReg
