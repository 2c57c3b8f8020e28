import Verif.Model.Mesh
import Mathlib.Algebra.Field.Defs
import Mathlib.Logic.Function.Basic
import Mathlib.Data.Nat.Cast.Defs

/-!
# Model of domains: the region map

Source: `objects/CSCG/_3d/mesh/domain/base.py`, `objects/CSCG/_2d/mesh/domain/regions/main.py` (the same code with edges for
sides), `objects/CSCG/_3d/mesh/domain/inputs/` (`base.py`, `cuboid.py`, `cuboid_periodic.py`), `objects/CSCG/_2d/mesh/domain/inputs/`
(`rectangle.py`, `rectangle_periodic.py`), `objects/CSCG/_3d/mesh/periodicSetting/`.

Regions have names in a type `ν`; boundaries are numbered in the order of `boundary_region_sides`.  Names of regions start with
`R:`, names of boundaries do not (`inputs/base.py` 96–127), so that they can be told apart.
-/

namespace Mifem.Domain

open Mifem.Mesh (opp)

/-- What is attached to a side: a boundary or a region. -/
inductive Att (ν : Type) where
  | bnd (b : ℕ)
  | reg (r : ν)
deriving DecidableEq

/-! ## Corner numbers -/

/-- `___PRIVATE_check_duplicated_corner___` (3D 242–266, 2D 108–129): the number of a corner that is known already.  `close` is
"at a distance of at most 1e-9". -/
def checkDup {C : Type} [DecidableEq C] (close : C → C → Bool) (pool : List C) (c : C) : Option ℕ :=
  if c ∈ pool then some (pool.idxOf c) else pool.findIdx? fun p => close p c

/-- The corners of one region (3D 103–117, 2D 90–103): numbers and new pool; `_current_number_` is the length of the pool. -/
def numberCorners {C : Type} [DecidableEq C] (close : C → C → Bool) : List C → List C → List ℕ × List C
  | pool, [] => ([], pool)
  | pool, c :: cs =>
    match checkDup close pool c with
    | some k => let r := numberCorners close pool cs; (k :: r.1, r.2)
    | none => let r := numberCorners close (pool ++ [c]) cs; (pool.length :: r.1, r.2)

/-- All regions in their order: `_region_corner_global_numbering_`.  (The reshaping to `(2, 2, 2)` and back with order `F` is
the identity.) -/
def numberRegions {C ν : Type} [DecidableEq C] (close : C → C → Bool) : List C → List (ν × List C) → List (ν × List ℕ)
  | _, [] => []
  | pool, (r, cs) :: rest => let n := numberCorners close pool cs; (r, n.1) :: numberRegions close n.2 rest

/-- `_side_corner_local_numbering_` (`_3d/.../inheriting/topology.py` 69–80), `_edge_corner_local_numbering_`
(`_2d/.../inheriting/topology.py` 53–61). -/
def sideCorners (dim j : ℕ) : List ℕ :=
  if dim = 2 then match j with
    | 0 => [0, 2] | 1 => [1, 3] | 2 => [0, 1] | _ => [2, 3]
  else match j with
    | 0 => [0, 2, 4, 6] | 1 => [1, 3, 5, 7] | 2 => [0, 1, 4, 5] | 3 => [2, 3, 6, 7] | 4 => [0, 1, 2, 3] | _ => [4, 5, 6, 7]

/-- `___PRIVATE_found_side_corner_global_numbering___` (3D 222–239, 2D 227–240). -/
def sideNumbers (dim : ℕ) (c : List ℕ) (j : ℕ) : List ℕ := (sideCorners dim j).map fun k => c.getD k 0

/-! ## The region map -/

/-- The regions that have a side with the corners of side `j` of region `r` (3D 138–149, 2D 146–157). -/
def found {ν : Type} [DecidableEq ν] (dim : ℕ) (nums : List (ν × List ℕ)) (r : ν) (c : List ℕ) (j : ℕ) : List (Att ν) :=
  nums.flatMap fun x => if x.1 = r then [] else
    (List.range (2 * dim)).flatMap fun jj => if sideNumbers dim c j = sideNumbers dim x.2 jj then [.reg x.1] else []

/-- The boundaries that side `j` of region `r` is listed in (3D 151–155, 2D 158–163); `bnds` are the lists of sides. -/
def listed {ν : Type} [DecidableEq ν] (bnds : List (List (ν × ℕ))) (r : ν) (j : ℕ) : List (Att ν) :=
  bnds.zipIdx.flatMap fun x => x.1.flatMap fun y => if y = (r, j) then [.bnd x.2] else []

/-- `_rm_[rn][i]` while it is a list, and when it has been replaced by its one entry. -/
inductive Entry (ν : Type) where
  | pend (l : List (Att ν))
  | done (x : Att ν)
deriving DecidableEq

/-- Replace one entry. -/
def put {ν : Type} [DecidableEq ν] (rm : ν → ℕ → Entry ν) (r : ν) (j : ℕ) (e : Entry ν) : ν → ℕ → Entry ν :=
  fun r' j' => if r' = r ∧ j' = j then e else rm r' j'

/-- One side in the check (3D 162–196, 2D 169–201): a list with one entry is replaced by it; a list with a region and a boundary
is a crack: the other side must be one as well, and both get the boundary.  `none` when an assertion fails. -/
def checkSide {ν : Type} [DecidableEq ν] (rm : ν → ℕ → Entry ν) (r : ν) (j : ℕ) : Option (ν → ℕ → Entry ν) :=
  match rm r j with
  | .pend [x] => some (put rm r j (.done x))
  | .pend [.reg s, .bnd b] => crack s b
  | .pend [.bnd b, .reg s] => crack s b
  | _ => none
where
  crack (s : ν) (b : ℕ) : Option (ν → ℕ → Entry ν) :=
    match rm s (opp j) with
    | .pend l => if l.length = 2 ∧ Att.reg r ∈ l ∧ Att.bnd b ∈ l then
        some (put (put rm s (opp j) (.pend [.bnd b])) r j (.done (.bnd b))) else none
    | .done _ => none

/-- All sides in order. -/
def checkSides {ν : Type} [DecidableEq ν] : (ν → ℕ → Entry ν) → List (ν × ℕ) → Option (ν → ℕ → Entry ν)
  | rm, [] => some rm
  | rm, x :: l => (checkSide rm x.1 x.2).bind fun rm => checkSides rm l

/-- The check of the pairing (3D 203–212, 2D 206–216): the first side of the neighbour to which this region is attached is the
opposite one. -/
def paired {ν : Type} [DecidableEq ν] (dim : ℕ) (rm : ν → ℕ → Entry ν) (r : ν) (j : ℕ) : Bool :=
  match rm r j with
  | .done (.reg s) =>
    match (List.range (2 * dim)).find? fun k => rm s k = .done (.reg r) with
    | some k => j / 2 == k / 2 && j != k
    | none => false
  | _ => true

/-- The sides of all regions. -/
def allSides {ν : Type} (dim : ℕ) (names : List ν) : List (ν × ℕ) := names.flatMap fun r => (List.range (2 * dim)).map fun j => (r, j)

/-- The lists before the check. -/
def initial {ν : Type} [DecidableEq ν] (dim : ℕ) (nums : List (ν × List ℕ)) (bnds : List (List (ν × ℕ))) (r : ν) (j : ℕ) : List (Att ν) :=
  (match nums.find? fun x => x.1 = r with
    | some x => found dim nums r x.2 j
    | none => []) ++ listed bnds r j

/-- `___PRIVATE_generate_region_map___` (3D 121–220, 2D 131–225). -/
def regionMap {C ν : Type} [DecidableEq C] [DecidableEq ν] (dim : ℕ) (close : C → C → Bool) (regs : List (ν × List C))
    (bnds : List (List (ν × ℕ))) : Option (ν → ℕ → Entry ν) :=
  let sides := allSides dim (regs.map Prod.fst)
  (checkSides (fun r j => .pend (initial dim (numberRegions close [] regs) bnds r j)) sides).bind fun rm =>
    if sides.all fun x => paired dim rm x.1 x.2 then some rm else none

/-! ## Periodic boundaries -/

/-- The pairs of region sides of a pair of boundaries (`regular/main.py` 25–36, `region_side_pair.py` 6–20). -/
def sidePairs {ν : Type} (one two : List (ν × ℕ)) : Option (List (ν × ℕ × ν)) :=
  if one.length = two.length ∧ (one.zip two).all fun x => x.2.2 == opp x.1.2 then some ((one.zip two).map fun x => (x.1.1, x.1.2, x.2.1))
  else none

/-- `___PRIVATE_periodic_boundary_requirement_checker___` (`inputs/base.py` 131–149): boundaries exist and occur in one pair at
most; `pool` are those seen before. -/
def checkPairs (n : ℕ) : List ℕ → List (ℕ × ℕ) → Bool
  | _, [] => true
  | pool, (a, b) :: l => a < n && b < n && !pool.contains a && !pool.contains b && a != b && checkPairs n (a :: b :: pool) l

/-- `boundary_region_sides` (`_3d/.../inputs/base.py` 257–281), `boundary_region_edges` (`_2d/.../inputs/base.py` 200–223): regions
and sides exist.  (The 3D check for a side listed twice in one boundary is left out: such a list is refused by the region map.) -/
def bndsOK {ν : Type} [DecidableEq ν] (dim : ℕ) (names : List ν) (bnds : List (List (ν × ℕ))) : Bool :=
  bnds.all fun l => l.all fun y => names.contains y.1 && decide (y.2 < 2 * dim)

/-- All pairs of region sides (`periodicSetting/main.py` 42–50). -/
def periodic {ν : Type} (bnds : List (List (ν × ℕ))) : List (ℕ × ℕ) → Option (List (ν × ℕ × ν))
  | [] => some []
  | (a, b) :: l => (sidePairs (bnds.getD a []) (bnds.getD b [])).bind fun p => (periodic bnds l).map fun q => p ++ q

/-! ## Rectangles and cuboids -/

/-- `cuboid.py` 43–71 and `cuboid_periodic.py` 45–73: names (the name `R:ii_j_k` is `(1, 0, 0)` here) and corners. -/
def cuboid {K : Type} [Add K] [Mul K] [NatCast K] (x0 y0 z0 hx hy hz : K) (L0 L1 L2 : ℕ) : List ((ℕ × ℕ × ℕ) × List (K × K × K)) :=
  (List.range L2).flatMap fun (k : ℕ) => (List.range L1).flatMap fun (j : ℕ) => (List.range L0).map fun (i : ℕ) =>
    let x := x0 + (i : K) * hx
    let y := y0 + (j : K) * hy
    let z := z0 + (k : K) * hz
    ((i, j, k), [(x, y, z), (x + hx, y, z), (x, y + hy, z), (x + hx, y + hy, z), (x, y, z + hz), (x + hx, y, z + hz),
      (x, y + hy, z + hz), (x + hx, y + hy, z + hz)])

/-- `cuboid.py` 73–93, `cuboid_periodic.py` 75–96: North, South, West, East, Back, Front. -/
def cuboidBnds (L0 L1 L2 : ℕ) : List (List ((ℕ × ℕ × ℕ) × ℕ)) :=
  [(List.range L2).flatMap fun k => (List.range L1).map fun j => ((0, j, k), 0),
   (List.range L2).flatMap fun k => (List.range L1).map fun j => ((L0 - 1, j, k), 1),
   (List.range L2).flatMap fun k => (List.range L0).map fun i => ((i, 0, k), 2),
   (List.range L2).flatMap fun k => (List.range L0).map fun i => ((i, L1 - 1, k), 3),
   (List.range L1).flatMap fun j => (List.range L0).map fun i => ((i, j, 0), 4),
   (List.range L1).flatMap fun j => (List.range L0).map fun i => ((i, j, L2 - 1), 5)]

/-- `rectangle.py` 46–63, `rectangle_periodic.py` 50–67. -/
def rectangle {K : Type} [Add K] [Mul K] [NatCast K] (x0 y0 hx hy : K) (L0 L1 : ℕ) : List ((ℕ × ℕ) × List (K × K)) :=
  (List.range L0).flatMap fun (i : ℕ) => (List.range L1).map fun (j : ℕ) =>
    let x := x0 + (i : K) * hx
    let y := y0 + (j : K) * hy
    ((i, j), [(x, y), (x + hx, y), (x, y + hy), (x + hx, y + hy)])

/-- `rectangle.py` 65–75, `rectangle_periodic.py` 69–79: Upper, Down, Left, Right. -/
def rectangleBnds (L0 L1 : ℕ) : List (List ((ℕ × ℕ) × ℕ)) :=
  [(List.range L1).map fun j => ((0, j), 0), (List.range L1).map fun j => ((L0 - 1, j), 1),
   (List.range L0).map fun i => ((i, 0), 2), (List.range L0).map fun i => ((i, L1 - 1), 3)]

/-- `'R:' + (i+1)*'i' + '_' + (j+1)*'j' + '_' + (k+1)*'k'` (`cuboid.py` 55). -/
def name3 (i j k : ℕ) : List Char :=
  "R:".toList ++ List.replicate (i + 1) 'i' ++ ['_'] ++ List.replicate (j + 1) 'j' ++ ['_'] ++ List.replicate (k + 1) 'k'

/-- `'R:' + (i+1)*'i' + '_' + (j+1)*'j'` (`rectangle.py` 55). -/
def name2 (i j : ℕ) : List Char := "R:".toList ++ List.replicate (i + 1) 'i' ++ ['_'] ++ List.replicate (j + 1) 'j'

/-- `___PRIVATE_region_name_requirement_checker___` (`inputs/base.py` 96–111; the comparison with the name of the domain is left
out). -/
def nameOK (s : List Char) : Bool :=
  2 < s.length && s.take 2 == "R:".toList && ((s.drop 2).filter (· != '_')) != [] && ((s.drop 2).filter (· != '_')).all Char.isAlpha

end Mifem.Domain
