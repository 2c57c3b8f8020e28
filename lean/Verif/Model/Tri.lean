import Mathlib.Algebra.Order.Field.Basic
import Mathlib.Data.Fin.VecNotation
import Mathlib.Data.List.FinRange
import Verif.Model.Region

/-!
# Triangular meshes and their forms

Python sources, all under `/repo/objects/miUsGrid/triangular/`:
* `mesh/construct/main.py` lines 75-153 (orientation of the cells, element map)
* `mesh/elements/element/coordinate_transformation/main.py` (mapping of an element)
* `mesh/elements/element/main.py` lines 60-76 (edge lengths, area)
* `forms/standard/base/numbering/Naive.py` (numbering of the dofs)
* `forms/standard/_1/{base,inner,outer}/IDT.py` (edges whose dofs receive a minus)
* `space/{local_numbering,num_basis,incidence_matrix}.py`
* `forms/standard/base/coboundary.py` lines 28-86

An element map entry is a string: `''` before the boundaries are parsed, `str(other) + sign + str(edge)` for an
internal edge, a boundary name otherwise; here it is a value of `Option Nbr` (`none` for `''` and for boundary names,
which `boundaries/main.py` 47-94 writes only over `''`).  Everything is seen from the master core, which holds all cells.
-/

namespace Mifem.Tri
open Mifem.Region

/-- The numbers of the three vertices of a cell. -/
abbrev Cell := Fin 3 → Nat

/-! ## Orientation of the cells -/

section
variable {F : Type*} [Field F] [LinearOrder F]

/-- construct/main.py 78. -/
def orientation (p0 p1 p2 : F × F) : F := (p1.2 - p0.2) * (p2.1 - p1.1) - (p1.1 - p0.1) * (p2.2 - p1.2)

/-- construct/main.py 76-87: vertices 1 and 2 of a clockwise cell are exchanged; `none`: raises. -/
def fixCell (pt : Nat → F × F) (c : Cell) : Option Cell :=
  let o := orientation (pt (c 0)) (pt (c 1)) (pt (c 2))
  if 0 < o then some ![c 0, c 2, c 1] else if o < 0 then some c else none

/-- construct/main.py 76. -/
def fixCells (pt : Nat → F × F) (cells : List Cell) : Option (List Cell) := cells.mapM (fixCell pt)

end

/-! ## Element map -/

/-- An internal edge: number of the neighbour, sign `-`, edge of the neighbour. -/
structure Nbr where
  other : Nat
  minus : Bool
  edge : Fin 3
deriving DecidableEq, Repr

/-- `ELEMENT_MAP` (construct/main.py 90-92). -/
abbrev EMap := Nat → Fin 3 → Option Nbr

/-- construct/main.py 97-99. -/
def edgeOf (c : Cell) : Fin 3 → Nat × Nat := ![(c 0, c 1), (c 0, c 2), (c 2, c 1)]

/-- construct/main.py 110-115 with 127-137: the dictionary `Tes` in its order, with the sign and edge of each key. -/
def tes (d : Cell) : List ((Nat × Nat) × Bool × Fin 3) :=
  [((d 0, d 1), false, 0), ((d 0, d 2), false, 1), ((d 2, d 1), false, 2),
   ((d 1, d 0), true, 0), ((d 2, d 0), true, 1), ((d 1, d 2), true, 2)]

/-- construct/main.py 103-106. -/
def shared (c d : Cell) : Nat := ([c 0, c 1, c 2].filter (· ∈ [d 0, d 1, d 2])).length

/-- construct/main.py 117-124: the first edge of `c` found in `tes d`; if there is none, the last values of the loop
variables are used. -/
def findEdge (c d : Cell) : Fin 3 × Bool × Fin 3 :=
  let hit := (List.finRange 3).findSome? fun m => ((tes d).find? fun t => edgeOf c m = t.1).map fun t => (m, t.2)
  hit.getD (2, true, 2)

/-- construct/main.py 139-144. -/
def link (em : EMap) (i j : Nat) (r : Fin 3 × Bool × Fin 3) : EMap :=
  Function.update (Function.update em i (Function.update (em i) r.1 (some ⟨j, r.2.1, r.2.2⟩))) j
    (Function.update (Function.update em i (Function.update (em i) r.1 (some ⟨j, r.2.1, r.2.2⟩)) j) r.2.2
      (some ⟨i, r.2.1, r.1⟩))

/-- construct/main.py 101-152: the loop over `j`; `none`: raises. -/
def mapLoop (cell : Nat → Cell) (i : Nat) : List Nat → EMap → Option EMap
  | [], em => some em
  | j :: js, em =>
    let s := shared (cell i) (cell j)
    if s = 2 then mapLoop cell i js (link em i j (findEdge (cell i) (cell j)))
    else if s ≤ 1 then mapLoop cell i js em
    else if (em i 0).isSome ∧ (em i 1).isSome ∧ (em i 2).isSome then some em
    else none

/-- construct/main.py 94-152: the loop over `i`. -/
def mapLoops (cell : Nat → Cell) (n : Nat) : List Nat → EMap → Option EMap
  | [], em => some em
  | i :: is, em => (mapLoop cell i ((List.range n).drop (i + 1)) em).bind (mapLoops cell n is)

/-- construct/main.py 89-152. -/
def elementMap (cell : Nat → Cell) (n : Nat) : Option EMap := mapLoops cell n (List.range n) fun _ _ => none

/-! ## Mapping of an element -/

section
variable {K : Type*} [Field K]

/-- coordinate_transformation/main.py 24-65: the left edge is the singular vertex. -/
def edges (p : Fin 3 → K × K) : Two.Edges K where
  D := ⟨fun o => (p 0).1 + o * ((p 1).1 - (p 0).1), fun o => (p 0).2 + o * ((p 1).2 - (p 0).2),
    fun _ => (p 1).1 - (p 0).1, fun _ => (p 1).2 - (p 0).2⟩
  R := ⟨fun o => (p 2).1 + o * ((p 1).1 - (p 2).1), fun o => (p 2).2 + o * ((p 1).2 - (p 2).2),
    fun _ => (p 1).1 - (p 2).1, fun _ => (p 1).2 - (p 2).2⟩
  U := ⟨fun o => (p 0).1 + o * ((p 2).1 - (p 0).1), fun o => (p 0).2 + o * ((p 2).2 - (p 0).2),
    fun _ => (p 2).1 - (p 0).1, fun _ => (p 2).2 - (p 0).2⟩
  L := ⟨fun _ => (p 0).1, fun _ => (p 0).2, fun _ => 0, fun _ => 0⟩

/-- coordinate_transformation/main.py 69-73. -/
def mapping (p : Fin 3 → K × K) (v : Fin 2 → K) : Fin 2 → K :=
  Two.transfinite (edges p) ![(v 0 + 1) / 2, (v 1 + 1) / 2]

/-- coordinate_transformation/main.py 75-80. -/
def jacobianMatrix (p : Fin 3 → K × K) (v : Fin 2 → K) : Metric.M2 K :=
  fun i j => (1 / 2) * Two.transfiniteJ (edges p) ![(v 0 + 1) / 2, (v 1 + 1) / 2] i j

/-- coordinate_transformation/main.py 82-88. -/
def jacobian (p : Fin 3 → K × K) (v : Fin 2 → K) : K :=
  let J := jacobianMatrix p v
  J 0 0 * J 1 1 - J 0 1 * J 1 0

end

/-- `components/functions/_2dSpace/distance.py`. -/
noncomputable def distance (p q : ℝ × ℝ) : ℝ := Real.sqrt ((p.1 - q.1) ^ 2 + (p.2 - q.2) ^ 2)

/-- element/main.py 71-76: the area by Heron's formula. -/
noncomputable def area (p : Fin 3 → ℝ × ℝ) : ℝ :=
  let a := distance (p 0) (p 1); let b := distance (p 0) (p 2); let c := distance (p 2) (p 1)
  let s := (a + b + c) / 2
  Real.sqrt (s * (s - a) * (s - b) * (s - c))

/-! ## Numbering of the dofs -/

/-- The parts of an element that are numbered together: a vertex, the dofs inside an edge, the dofs inside the element
(two blocks for 1-forms, `0` for `dy`, `1` for `dx`). -/
inductive Slot
  | vertex (a : Fin 3)
  | edge (m : Fin 3)
  | inner (b : Fin 2)
deriving DecidableEq, Repr

/-- Number of dofs of the slots, and the order of the steps. -/
structure Form where
  edgeLen : Nat
  innerLen : Fin 2 → Nat
  slots : List Slot

/-- Naive.py 74-177, steps 0 to 6 (for `p = 1` the steps of edges and of the block are skipped; they are empty here). -/
def form0 (p : Nat) : Form where
  edgeLen := p - 1
  innerLen := ![(p - 1) ^ 2, 0]
  slots := [.vertex 0, .edge 1, .inner 0, .edge 0, .vertex 2, .edge 2, .vertex 1]

/-- Naive.py 263-354: upper edge, inner `dy`, lower edge, inner `dx`, right edge. -/
def form1Outer (p : Nat) : Form where
  edgeLen := p
  innerLen := fun _ => p * (p - 1)
  slots := [.edge 1, .inner 0, .edge 0, .inner 1, .edge 2]

/-- Naive.py 415-503: inner `dx`, right edge, upper edge, inner `dy`, lower edge. -/
def form1Inner (p : Nat) : Form where
  edgeLen := p
  innerLen := fun _ => p * (p - 1)
  slots := [.inner 1, .edge 2, .edge 1, .inner 0, .edge 0]

/-- The numbers of an element, slot by slot (the rows, columns and blocks of `numbering_c` are disjoint). -/
abbrev Nums := Slot → List Nat

/-- The variables `current`, `point_numbering` (`none` for -1), `numbering`. -/
structure St where
  current : Nat
  point : Nat → Option Nat
  done : Nat → Nums

/-- Naive.py 219-235 and 21-37: the dofs of an edge of an element that has been numbered. -/
def edgeDofs (a : Nums) (r : Nbr) : List Nat := if r.minus then (a (.edge r.edge)).reverse else a (.edge r.edge)

/-- `np.arange(current, current + k)`, `current += k`. -/
def fresh (k : Nat) (st : St) : List Nat × St := (List.range' st.current k, { st with current := st.current + k })

/-- One step of the numbering of element `c`: vertices as in Naive.py 75-81, edges as in 85-101, blocks as in 109-110;
`none`: raises. -/
def slotStep (f : Form) (v : Cell) (em : Fin 3 → Option Nbr) (c : Nat) (s : Slot) (st : St) : Option (List Nat × St) :=
  match s with
  | .vertex a =>
    match st.point (v a) with
    | some k => some ([k], st)
    | none => some ([st.current],
        { st with current := st.current + 1, point := Function.update st.point (v a) (some st.current) })
  | .edge m =>
    match em m with
    | none => some (fresh f.edgeLen st)
    | some r =>
      if c < r.other then some (fresh f.edgeLen st)
      else if r.other < c then some (edgeDofs (st.done r.other) r, st)
      else none
  | .inner b => some (fresh (f.innerLen b) st)

/-- The steps of one element. -/
def slotSteps (f : Form) (v : Cell) (em : Fin 3 → Option Nbr) (c : Nat) : List Slot → Nums → St → Option (Nums × St)
  | [], a, st => some (a, st)
  | s :: ss, a, st =>
    (slotStep f v em c s st).bind fun r => slotSteps f v em c ss (Function.update a s r.1) r.2

/-- Naive.py 68-181: all steps of element `c`, then `numbering[c] = numbering_c`. -/
def cellStep (f : Form) (cell : Nat → Cell) (em : EMap) (c : Nat) (st : St) : Option St :=
  (slotSteps f (cell c) (em c) c f.slots (fun _ => []) st).map fun r =>
    { r.2 with done := Function.update r.2.done c r.1 }

/-- Naive.py 64-181, the elements `0, …, n - 1` one after another. -/
def number (f : Form) (cell : Nat → Cell) (em : EMap) : Nat → Option St
  | 0 => some ⟨0, fun _ => none, fun _ _ => []⟩
  | n + 1 => (number f cell em n).bind (cellStep f cell em n)

/-! ## Gathering vectors and local numbering -/

/-- The array `numbering_c` of a 0-form (Naive.py 70, filled in 77-177): rows and columns `0, …, p`. -/
def arr0 (p : Nat) (a : Nums) (i j : Nat) : Option Nat :=
  if j = 0 then (a (.vertex 0))[0]?
  else if j = p then if i = 0 then (a (.vertex 2))[0]? else if i = p then (a (.vertex 1))[0]? else (a (.edge 2))[i - 1]?
  else if i = 0 then (a (.edge 1))[j - 1]?
  else if i = p then (a (.edge 0))[j - 1]?
  else (a (.inner 0))[(j - 1) * (p - 1) + (i - 1)]?

/-- The array `numbering_dy` of a 1-form (Naive.py 259, 268-322): rows `0, …, p`, columns `0, …, p - 1`. -/
def arrDy (p : Nat) (a : Nums) (i j : Nat) : Option Nat :=
  if i = 0 then (a (.edge 1))[j]? else if i = p then (a (.edge 0))[j]? else (a (.inner 0))[j * (p - 1) + (i - 1)]?

/-- The array `numbering_dx` of a 1-form (Naive.py 260, 325-352): rows and columns `0, …, p - 1`. -/
def arrDx (p : Nat) (a : Nums) (i j : Nat) : Option Nat :=
  if j + 1 = p then (a (.edge 2))[i]? else (a (.inner 1))[j * p + i]?

/-- `ravel('F')` of an array with `r` rows and `k` columns. -/
def ravelF {α : Type*} (r k : Nat) (arr : Nat → Nat → α) : List α :=
  (List.range k).flatMap fun j => (List.range r).map fun i => arr i j

/-- Naive.py 197. -/
def gv0 (p : Nat) (a : Nums) : List (Option Nat) := arr0 p a 0 0 :: ravelF (p + 1) p fun i j => arr0 p a i (j + 1)

/-- Naive.py 382. -/
def gv1Outer (p : Nat) (a : Nums) : List (Option Nat) := ravelF (p + 1) p (arrDy p a) ++ ravelF p p (arrDx p a)

/-- Naive.py 531. -/
def gv1Inner (p : Nat) (a : Nums) : List (Option Nat) := ravelF p p (arrDx p a) ++ ravelF (p + 1) p (arrDy p a)

/-- Naive.py 214. -/
def gv2 (p c : Nat) : List Nat := List.range' (c * p ^ 2) (p ^ 2)

/-- local_numbering.py 25-29. -/
def ln0 (p i j : Nat) : Nat := if j = 0 then 0 else j * (p + 1) + i - p

/-- local_numbering.py 42. -/
def lnOuterDy (p i j : Nat) : Nat := j * (p + 1) + i

/-- local_numbering.py 44-48; `none` for -1. -/
def lnOuterDx (p i j : Nat) : Option Nat := if j = 0 then none else some (p * (p + 1) + (j * p + i) - p)

/-- local_numbering.py 55-59. -/
def lnInnerDx (p i j : Nat) : Option Nat := if j = 0 then none else some (j * p + i - p)

/-- local_numbering.py 61. -/
def lnInnerDy (p i j : Nat) : Nat := p * p + (j * (p + 1) + i)

/-- local_numbering.py 68. -/
def ln2 (p i j : Nat) : Nat := j * p + i

end Mifem.Tri
