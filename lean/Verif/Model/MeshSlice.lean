import Mathlib.Data.Rat.Defs

/-!
# Perpendicular slices of 3-D meshes

Python source: `/repo/objects/CSCG/_3d/mesh/subGeometry/mesh_perpendicular_slice.py` lines 59-153 (elements of the slice of a region) and 155-186
(`___PRIVATE_locate_index_in_spacing___`).

Positions are rational numbers (they are floats in the code).  A slice has one position in one direction and two bounds in the other two.  `none` is
an exception.
-/

namespace Mifem.MeshSlice

/-- 172-184 for one position, from the node `j` on; after the last node there is either an index error or a failed assertion. -/
def locate (p : ℚ) : ℕ → List ℚ → Option (ℕ × ℕ)
  | _, [] => none
  | j, s :: l =>
    if p = s then some (j, j)
    else
      match l with
      | [] => none
      | s' :: l' => if s < p ∧ p < s' then some (j, j + 1) else locate p (j + 1) (s' :: l')

/-- 93-109: `PTA_info`. -/
def plane (p : ℚ) (spacing : List ℚ) : Option (ℕ × ℚ) :=
  match locate p 0 spacing with
  | none => none
  | some (loc, _) =>
    match (spacing.drop loc).take 2 with
    | [a, b] => if a ≤ p ∧ p < b then some (loc, -1 + 2 * (p - a) / (b - a)) else none
    | [a] => if a = 1 then some (loc - 1, 1) else none
    | _ => none

/-- 111-113: the range of indices between two bounds. -/
def between (lo hi : ℚ) (spacing : List ℚ) : Option (ℕ × ℕ) :=
  match locate lo 0 spacing, locate hi 0 spacing with
  | some A1, some A2 => some (A1.1, A2.2)
  | _, _ => none

/-- `RS.r`, `RS.s`, `RS.t`: one position, or two bounds. -/
inductive Arg
  | one (p : ℚ)
  | two (lo hi : ℚ)

/-- 91-116 for one direction: the range of indices, and `PTA_info`. -/
def index (a : Arg) (spacing : List ℚ) : Option ((ℕ × ℕ) × Option (ℕ × ℚ)) :=
  match a with
  | .one p => (plane p spacing).map fun q => ((0, spacing.length), some q)
  | .two lo hi => (between lo hi spacing).map fun r => (r, none)

/-- 73-138: whether the element with the indices `i`, `j`, `k` is in the slice, and the position in it.  `pta` is the direction the slice is
perpendicular to; `PTA_info` is that of the last direction with one position. -/
def slice (pta : Fin 3) (r s t : Arg) (sp1 sp2 sp3 : List ℚ) (i j k : ℕ) : Option (Option ℚ) :=
  match index r sp1, index s sp2, index t sp3 with
  | some (r1, p1), some (r2, p2), some (r3, p3) =>
    match (p3 <|> p2 <|> p1) with
    | some (loc, pos) =>
      if (r1.1 ≤ i ∧ i < r1.2) ∧ (r2.1 ≤ j ∧ j < r2.2) ∧ (r3.1 ≤ k ∧ k < r3.2) then
        if (match pta with | 0 => i | 1 => j | 2 => k) = loc then some (some pos) else some none
      else some none
    | none => none
  | _, _, _ => none

end Mifem.MeshSlice
