import Mathlib.Data.Int.Notation
import Mathlib.Data.Nat.Notation

/-!
# Overcoming the singularity of hybrid 0-forms at an internal node

Python sources (`/repo/objects/CSCG/_3d/`):
* `forms/standard/_0s/special/main.py` lines 331-602 (`___PRIVATE_overcoming_hybrid_singularity_INTERNAL_NODE___`, internal nodes)
* `mesh/node/elements/do/find/helpers/SOS_internal.py` lines 8-117

Around an internal node there are eight mesh elements, four north (above) and four south (below) of the plane through the node; in
the plane four trace elements and four edge elements; the edge elements `N` and `S` leave the plane.  A trace element of the plane is
named by its corner at the node, an edge element by its end at the node (SOS_internal.py 33-72); the mesh element above or below the
trace element `q` is `(true, q)` or `(false, q)`.  The dictionaries of dofs are lists of these names in the order in which the cores
found them; `tdof`, `edof`, `ndof`, `sdof` give the numbers of the dofs at the node.
-/

namespace Mifem.NodeSOS

/-- The corner at the node of a trace element of the plane. -/
inductive Corner | EF | WF | WB | EB
deriving DecidableEq

/-- The end at the node of an edge element of the plane. -/
inductive End | E | F | W | B
deriving DecidableEq

/-- The letters of the name of a corner. -/
def Corner.letters : Corner → List End
  | .EF => [.E, .F] | .WF => [.W, .F] | .WB => [.W, .B] | .EB => [.E, .B]

/-- 350: `DICT3`. -/
def dict3 : Corner → End
  | .EF => .E | .WF => .F | .WB => .W | .EB => .B

/-- SOS_internal.py 23-74: the trace element that a mesh-element position of the node contributes (`(true, q)`: the position `S`
followed by `q`, of the mesh element above the plane). -/
def sosTrace (pos : Bool × Corner) : List Corner := if pos.1 then [pos.2] else []

/-- SOS_internal.py 35-38, 61-64: the edge elements that a mesh-element position contributes. -/
def sosEdge (pos : Bool × Corner) : List End :=
  if pos.1 then
    match pos.2 with
    | .EF => [.F, .E]
    | .WB => [.B, .W]
    | _ => []
  else []

/-- SOS_internal.py 19-74, 87-110: the cores look at the positions of their own mesh elements; the lists are joined (`cores`: the
positions of the node whose mesh elements the cores have). -/
def sos (cores : List (List (Bool × Corner))) : List Corner × List End :=
  (cores.flatMap fun l => l.flatMap sosTrace, cores.flatMap fun l => l.flatMap sosEdge)

/-- 370-374, 393, 398-401 (376-381, 394, 403-406 for the edges): every core makes the dictionary of the elements it has; the
dictionaries are updated into one (a key keeps its first place). -/
def gather {α : Type} [DecidableEq α] (all : List α) (has : List (α → Bool)) : List α :=
  (has.flatMap fun h => all.filter h).foldl (fun acc x => if x ∈ acc then acc else acc ++ [x]) []

/-- `for _ in d: if cond: break` followed by the use of `_` (453-456, 487-491, 522-525, 566-569): the first, or the last if there is none. -/
def pick {α : Type} (cond : α → Bool) (l : List α) : Option α :=
  match l.find? cond with
  | some x => some x
  | none => l.getLast?

/-- 408, 449-456, 483-491, 515-525, 553-569, 595-602: which trace dof connects which edge dof with the south (`false`) or north (`true`) edge dof, in order, and the
edge dof that is left; `none`: an assertion fails (408, 557-558). -/
def plan (ts : List Corner) (es : List End) : Option (List (Corner × End × Bool) × End) := do
  if ts.length ≠ 4 ∨ es.length ≠ 4 then none
  let t0 ← ts.head?
  let e0 ← pick (fun d => d == dict3 t0) es
  let ts1 := ts.erase t0
  let t1 ← pick (fun q => q.letters.contains (dict3 t0)) ts1
  let ts2 := ts1.erase t1
  let es1 := es.erase e0
  let t2 ← ts2.head?
  let e1 ← pick (fun d => d == dict3 t2) es1
  let ts3 := ts2.erase t2
  let es2 := es1.erase e1
  if ts3.length ≠ 1 ∨ es2.length ≠ 2 then none
  let t3 ← ts3.getLast?
  let e2 ← pick (fun d => d == dict3 t3) es2
  let es3 := es2.erase e2
  let left ← es3.getLast?
  return ([(t0, e0, false), (t1, e0, true), (t2, e1, false), (t3, e2, false)], left)

/-- A mesh element at the node: above or below the plane, with the trace element between. -/
abbrev Oct := Bool × Corner

/-- The mesh element has the edge element of the plane. -/
def hasEdge (o : Oct) (d : End) : Bool := o.2.letters.contains d

/-- Local matrices: mesh element, trace dof (row), edge or node dof (column). -/
abbrev Mat := Oct → ℕ → ℕ → ℤ

/-- 439-447: the columns of the edge dofs are emptied in the mesh elements that have them. -/
def clear (edof : End → ℕ) (es : List End) (C : Mat) : Mat := fun o r c =>
  if es.any (fun d => edof d == c && hasEdge o d) then 0 else C o r c

/-- One mesh element of a trace dof (465-481, 497-513, 535-551, 577-593): the row of `T` is emptied; the row of `C`, asserted to be empty
(`cols`: the dofs of the mesh element), gets a 1 for the south or north edge dof if the mesh element has it, else -1 for the edge
dof, which the mesh element must have (`index`). -/
def connectAt (tdof : Corner → ℕ) (edof : End → ℕ) (ndof sdof : ℕ) (cols : Oct → List ℕ) (p : Corner × End × Bool) (o : Oct)
    (CT : Mat × Mat) : Option (Mat × Mat) :=
  let r := tdof p.1
  if (cols o).any fun c => CT.1 o r c != 0 then none
  else if o.1 ≠ p.2.2 ∧ hasEdge o p.2.1 = false then none
  else
    let (c, v) : ℕ × ℤ := if o.1 = p.2.2 then ((if p.2.2 then ndof else sdof), 1) else (edof p.2.1, -1)
    some (fun o' r' c' => if o' = o ∧ r' = r ∧ c' = c then v else CT.1 o' r' c',
      fun o' r' c' => if o' = o ∧ r' = r then 0 else CT.2 o' r' c')

/-- The mesh elements of the trace dof: above and below (`order`: which comes first in the gathering matrix). -/
def connect (tdof : Corner → ℕ) (edof : End → ℕ) (ndof sdof : ℕ) (cols : Oct → List ℕ) (order : Corner → Bool)
    (p : Corner × End × Bool) (CT : Mat × Mat) : Option (Mat × Mat) :=
  (connectAt tdof edof ndof sdof cols p (order p.1, p.1) CT).bind (connectAt tdof edof ndof sdof cols p (!order p.1, p.1))

/-- 363-602 for an internal node: new matrices `C`, `T` and the edge dof to be skipped. -/
def overcome (tdof : Corner → ℕ) (edof : End → ℕ) (ndof sdof : ℕ) (cols : Oct → List ℕ) (order : Corner → Bool) (ts : List Corner)
    (es : List End) (C T : Mat) : Option ((Mat × Mat) × End) := do
  let (ps, left) ← plan ts es
  let CT ← ps.foldlM (fun CT p => connect tdof edof ndof sdof cols order p CT) (clear edof es C, T)
  return (CT, left)

end Mifem.NodeSOS
