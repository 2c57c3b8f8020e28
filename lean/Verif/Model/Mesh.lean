import Verif.Model.Naive

/-!
# Element numbering and element map of the structured meshes

Model of `/repo/objects/CSCG/_2d/mesh/main.py` (`___PRIVATE_generate_element_global_numbering___` l.134-352,
`___PRIVATE_generate_element_map___` l.433-443, `___PRIVATE_fetch_side_element___` l.445-539,
`___PRIVATE_modify_elements_map_wr2_periodic_setting___` l.552-572,
`___PRIVATE_do_find_region_name_and_local_indices_of_element___` l.611-642), of
`/repo/objects/CSCG/_3d/mesh/main.py` (l.198-553, l.825-964), and of
`/repo/objects/CSCG/_2d/mesh/periodicSetting/periodic_boundary_pairs/regular/region_edge_pair.py` (l.29-73; 3D:
`region_side_pair.py` l.29-82). The 2D and the 3D functions differ in the number of indices only, so indices are lists.

Simplifications: regions are numbered in the order of `regions.names`; an array of element numbers is a function of the
indices together with its shape; floating point decisions of the numbering scheme ('SWV0') are replaced by a parameter
(any block size, any of the alternatives).
-/

namespace Mifem.Mesh
open Mifem.Naive

/-! ## Numbering of the elements of one region -/

/-- place of index `i` in an array of the given shape, counted in F order. -/
def fNum : List Nat → List Nat → Nat
  | n :: ns, i :: is => i + n * fNum ns is
  | _, _ => 0

/-- place of index `i` in an array of the given shape, counted in C order. -/
def cNum : List Nat → List Nat → Nat
  | _ :: ns, i :: is => i * ns.prod + cNum ns is
  | _, _ => 0

/-- an array of element numbers. -/
structure EArr where
  shape : List Nat
  at_ : List Nat → Nat

/-- `np.arange(start, start + num).reshape(shape, order='F')` (2D l.156-159). -/
def arangeF (start : Nat) (shape : List Nat) : EArr := ⟨shape, fun i => start + fNum shape i⟩

/-- `np.arange(start, start + num).reshape(shape, order='C')` (2D l.169-172). -/
def arangeC (start : Nat) (shape : List Nat) : EArr := ⟨shape, fun i => start + cNum shape i⟩

/-- `A.sort()`. -/
def ins (x : Nat) : List Nat → List Nat
  | [] => [x]
  | y :: ys => if x ≤ y then x :: y :: ys else y :: ins x ys

def sort : List Nat → List Nat
  | [] => []
  | x :: xs => ins x (sort xs)

/-- first row and number of rows of block `m` of `B = A // X` blocks; the last one takes the rest
(`R = A % X`; 2D l.304-322, 3D l.340-345, 417-420). -/
def width (A X m : Nat) : Nat := if m ≠ A / X - 1 then X else X + A % X

/-- is index `a` in the slice of block `m` (`m*X:(m+1)*X`, or `m*X:` for the last block)? -/
def inBlock (A X m a : Nat) : Bool := if m ≠ A / X - 1 then m * X ≤ a && a < (m + 1) * X else m * X ≤ a

/-- 2D l.310-322: one round of the loop over the blocks, on `(_E_, N)`. -/
def block2 (A0 A1 X : Nat) (s : (List Nat → Nat) × Nat) (n : Nat) : (List Nat → Nat) × Nat :=
  (fun i =>
    if inBlock A0 X n (i.getD 0 0) then s.2 + fNum [width A0 X n, A1] [i.getD 0 0 - n * X, i.getD 1 0]
    else s.1 i,
   s.2 + width A0 X n * A1)

/-- 2D l.286-324: numbering in blocks of `X` rows; `np.empty` is an arbitrary array; `none` if `N == end` fails. -/
def blocks2 (junk : List Nat → Nat) (start A0 A1 X : Nat) : Option EArr :=
  let r := (List.range (A0 / X)).foldl (block2 A0 A1 X) (junk, start)
  if r.2 = start + A0 * A1 then some ⟨[A0, A1], r.1⟩ else none

/-- 3D l.425-455: one round of the inner loop over the blocks (block `m` along axis 0, block `n` along axis 1). The cubic
case l.347-382 is the same with `A0 = A1 = A2`, `X = Y`. -/
def block3 (A0 A1 A2 X Y n : Nat) (s : (List Nat → Nat) × Nat) (m : Nat) : (List Nat → Nat) × Nat :=
  (fun i =>
    if inBlock A0 X m (i.getD 0 0) && inBlock A1 Y n (i.getD 1 0) then
      s.2 + fNum [width A0 X m, width A1 Y n, A2] [i.getD 0 0 - m * X, i.getD 1 0 - n * Y, i.getD 2 0]
    else s.1 i,
   s.2 + width A0 X m * width A1 Y n * A2)

/-- 3D l.396-457: numbering in blocks of `X` times `Y` columns. -/
def blocks3 (junk : List Nat → Nat) (start A0 A1 A2 X Y : Nat) : Option EArr :=
  let r := (List.range (A1 / Y)).foldl (fun s n => (List.range (A0 / X)).foldl (block3 A0 A1 A2 X Y n) s) (junk, start)
  if r.2 = start + A0 * A1 * A2 then some ⟨[A0, A1, A2], r.1⟩ else none

/-- `E.transpose(axes)`. -/
def transpose (E : EArr) (axes : List Nat) : EArr :=
  ⟨axes.map fun s => E.shape.getD s 0, fun i => E.at_ ((List.range axes.length).map fun s => i.getD (axes.idxOf s) 0)⟩

/-- the alternatives tried (2D l.330-336; 3D l.465-479). -/
def allAxes (dim : Nat) : List (List Nat) :=
  if dim = 2 then [[0, 1], [1, 0]] else [[0, 1, 2], [0, 2, 1], [1, 0, 2], [1, 2, 0], [2, 0, 1], [2, 1, 0]]

/-- the array transposed to the designed shape; `none` is 'SHOULD NEVER REACH HERE.' -/
def toShape (E : EArr) (layout : List Nat) : Option EArr :=
  ((allAxes layout.length).find? fun ax => (transpose E ax).shape = layout).map (transpose E)

/-- which of the ways to number the elements of a region is taken. -/
inductive Scheme
  | plainF  -- EDM None, 'cores_no_more_than_regions', or 'SWV0' with one core (2D l.150-162, 178-188, 205-209)
  | plainC  -- 'chaotic' (2D l.164-176)
  | designF -- 'SWV0', at most 3 elements per core (2D l.248-252)
  | sortF   -- 'SWV0', sorted layout (2D l.213-218, 262-268, 275-279)
  | blocks (cne X Y : Nat) -- 'SWV0', blocks (2D l.282-324, 3D l.334-384, 396-457)

/-- 2D l.292-301, 3D l.403-415: the block size made from the rounded float `X` (any number here) for a direction with `A`
elements. In the cubic case (3D l.338-352) the number comes from an integer search and is bounded in the same way. -/
def blockSize (raise : Bool) (X A : Nat) : Nat :=
  let X := if X = 0 then 1 else X
  let X := if raise && decide (X < 2) then 2 else X
  if A < X then A else X

/-- the numbers of the elements of one region with the given layout (2 or 3 numbers) starting with `start`. -/
def regionNumbering (junk : List Nat → Nat) (sch : Scheme) (start : Nat) (layout : List Nat) : Option EArr :=
  match sch with
  | .plainF => some (arangeF start layout)
  | .plainC => some (arangeC start layout)
  | .designF => toShape (arangeF start layout) layout
  | .sortF => toShape (arangeF start (sort layout)) layout
  | .blocks cne X Y =>
    match sort layout with
    | [A0, A1] =>
      (blocks2 junk start A0 A1 (blockSize (decide (4 ≤ cne) && decide (2 ≤ A0)) X A0)).bind fun E => toShape E layout
    | [A0, A1, A2] =>
      let raise := decide (4 < cne) && decide (2 ≤ A0) && decide (2 ≤ A1)
      (blocks3 junk start A0 A1 A2 (blockSize raise X A0) (blockSize raise Y A1)).bind fun E => toShape E layout
    | _ => none

/-! ## All regions -/

/-- 2D l.150-162 etc.: the regions one after the other, `current_num += num_elements_in_region`. -/
def meshNumbering (junk : List Nat → Nat) : Nat → List (Scheme × List Nat) → Option (List EArr)
  | _, [] => some []
  | start, (sch, lay) :: rest =>
    (regionNumbering junk sch start lay).bind fun E => (meshNumbering junk (start + lay.prod) rest).map fun r => E :: r

/-- 2D l.611-620: number of the region that contains element `i`: the first accumulated number of elements above `i`. -/
def findRegion : Nat → List EArr → Nat → Option Nat
  | _, [], _ => none
  | acc, E :: rest, i => if i < acc + E.shape.prod then some 0 else (findRegion (acc + E.shape.prod) rest i).map (· + 1)

/-- `np.argwhere(numbering == i)[0]` (2D l.622): the first index (in C order) with value `i`. -/
def argwhere (E : EArr) (i : Nat) : Option (List Nat) := (cOrder E.shape).find? fun x => E.at_ x == i

/-- region and local indices of element `i`; `none` when an exception is raised. -/
def find (M : List EArr) (i : Nat) : Option (Nat × List Nat) :=
  (findRegion 0 M i).bind fun r => (M[r]?).bind fun E => (argwhere E i).map fun x => (r, x)

/-! ## The element map -/

/-- what is attached to a side of a region, or of an element: a boundary of the domain, or another one. -/
inductive Att
  | bnd (b : Nat)
  | other (r : Nat)
deriving DecidableEq

/-- `numbering[what_attached][.., -1 or 0, ..]`; `none` is `IndexError`. `fixed` is the index in direction `d`. -/
def sideOf (E : EArr) (i : List Nat) (d fixed : Nat) : Option Nat :=
  if (List.range E.shape.length).all fun t => t == d || i.getD t 0 < E.shape.getD t 0 then some (E.at_ (i.set d fixed)) else none

/-- `___PRIVATE_fetch_side_element___` for side number `j` (direction `j / 2`, lower side if `j` is even): 2D l.457-534,
3D l.838-936. -/
def fetchSide (M : List EArr) (rmap : Nat → Nat → Att) (r : Nat) (i : List Nat) (j : Nat) : Option Att :=
  (M[r]?).bind fun E =>
    let d := j / 2
    if j % 2 = 0 then
      if i.getD d 0 = 0 then
        match rmap r j with
        | .bnd b => some (.bnd b)
        | .other s => (M[s]?).bind fun E' => (sideOf E' i d (E'.shape.getD d 0 - 1)).map .other
      else some (.other (E.at_ (i.set d (i.getD d 0 - 1))))
    else
      if i.getD d 0 = E.shape.getD d 0 - 1 then
        match rmap r j with
        | .bnd b => some (.bnd b)
        | .other s => (M[s]?).bind fun E' => (sideOf E' i d 0).map .other
      else some (.other (E.at_ (i.set d (i.getD d 0 + 1))))

/-- the sides of element `e`, before periodic boundaries are considered. -/
def elementMap (dim : Nat) (M : List EArr) (rmap : Nat → Nat → Att) (e : Nat) : Option (List Att) :=
  (find M e).bind fun x => (List.range (2 * dim)).mapM fun j => fetchSide M rmap x.1 x.2 j

/-! ## Periodic boundaries -/

/-- `MEGN[r][.., 0 or -1, ..].ravel('F')`: the elements along side `j` of an array. -/
def alongSide (E : EArr) (j : Nat) : List Nat :=
  let d := j / 2
  let fixed := if j % 2 = 0 then 0 else E.shape.getD d 0 - 1
  (fOrder (E.shape.set d 1)).map fun i => E.at_ (i.set d fixed)

/-- the opposite side. -/
def opp (j : Nat) : Nat := if j % 2 = 0 then j + 1 else j - 1

/-- a pair of element sides `e1-S1|S2-e2`. -/
structure Pair where
  e1 : Nat
  s1 : Nat
  e2 : Nat
  s2 : Nat

/-- `correspondance_of_element_edges` (l.37-73) for side `j` of region `r` and the opposite side of region `s`; `none` is
`IndexError` (`ESN2[i]`). -/
def correspond (j : Nat) : List Nat → List Nat → Option (List Pair)
  | [], _ => some []
  | _ :: _, [] => none
  | a :: as, b :: bs => (correspond j as bs).map fun r => (if a < b then ⟨a, j, b, opp j⟩ else ⟨b, opp j, a, j⟩) :: r

/-- all pairs of element sides (2D l.541-550); a periodic pair of region sides is `(r, j, s)`. -/
def allPairs (M : List EArr) : List (Nat × Nat × Nat) → Option (List Pair)
  | [] => some []
  | (r, j, s) :: rest =>
    (M[r]?).bind fun E => (M[s]?).bind fun E' =>
      (correspond j (alongSide E j) (alongSide E' (opp j))).bind fun c => (allPairs M rest).map fun t => c ++ t

/-- 2D l.557-568: the map of one element after all pairs have been entered. -/
def applyPair (e : Nat) (m : List Att) (p : Pair) : List Att :=
  let m := if e = p.e1 then m.set p.s1 (.other p.e2) else m
  if e = p.e2 then m.set p.s2 (.other p.e1) else m

/-- the final map of element `e`. -/
def finalMap (dim : Nat) (M : List EArr) (rmap : Nat → Nat → Att) (pairs : List Pair) (e : Nat) : Option (List Att) :=
  (elementMap dim M rmap e).map fun m => pairs.foldl (applyPair e) m

end Mifem.Mesh
