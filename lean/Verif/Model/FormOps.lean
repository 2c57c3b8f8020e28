import Verif.Model.Cochain
import Verif.Model.Sides
import Mathlib.Data.List.Dedup
import Mathlib.Data.List.Count

/-!
# Sums and multiples of forms, dofs on boundaries and dofs at the same place

Python sources:
* `/repo/objects/CSCG/_3d/forms/base.py` (`__neg__` l.49-51, `__sub__` l.53-97, `__add__` l.99-143, `__rmul__` l.146-180)
* `/repo/objects/CSCG/_2d/forms/base.py` (`__add__` l.42-87, `__rmul__` l.89-124)
* `/repo/objects/CSCG/base/forms/standard/cochain/main.py` (setter of `local` l.250-268)
* `/repo/objects/CSCG/base/forms/base/main.py` (`___parameters___` l.68-78)
* `/repo/objects/CSCG/_3d/master.py` (`__call__` l.185-200)
* `/repo/objects/CSCG/_3d/forms/standard/base/numbering/main.py` (`boundary_dofs` l.96-128, `global_boundary_dofs` l.130-157,
  `global_boundary_dofs_ravel` l.159-166, `sharing_physical_locations` l.168-218, dofs on a side l.224-299)
* `/repo/objects/CSCG/_3d/mesh/boundaries/main.py` (`___PRIVATE_parse_boundaries___` l.46-97)

Simplifications: numbers are elements of a field; meshes and spaces are represented by numbers which are equal if and only if
the objects are equal for `==`; `none` stands for a raised exception. The operations on forms do not communicate and are
modelled on one core; the dofs on boundaries and the dofs at the same place are modelled on all cores, the first one being the
master. The order of a Python `set` is not specified; here it is the order of `List.dedup`.
-/

namespace Mifem.FormOps
open Mifem.Gath Mifem.Cochain

variable {K : Type} [Field K] [DecidableEq K]

/-- the keyword arguments given by the user to the factory (_3d/master.py l.200, a deep copy). -/
structure Kwargs where
  hybrid : Option Bool := none
  orientation : Option String := none
  numbering : Option String := none
  name : Option String := none
deriving DecidableEq, Repr

/-- a form. `define` is `___define_parameters___['kwargs']`, `none` for an object that was not made by the factory
(base/forms/base/main.py l.23). `hybrid`, `orientation`, `numbering` and `name` make `___kwargs___`
(standard/_0s/main.py l.52-57), which always has the four keys. -/
structure Obj (K : Type) where
  cls : String
  mesh : Nat
  space : Nat
  hybrid : Bool
  orientation : String
  numbering : String
  name : String
  define : Option Kwargs
  cochain : Option (Local K)

/-- what the operations ask other objects for: the elements of a mesh on this core, `num.basis` of a form of a class in a space
(for trace forms it depends on `hybrid`), whether a class is of the highest degree, and the dimension. -/
structure World where
  three : Bool
  elems : Nat → List Nat
  nb : String → Nat → Bool → Nat
  top : String → Bool

/-- numpy `a ∘ b` for one-dimensional arrays: arrays of length 1 are broadcast, other lengths must be equal (`ValueError`). -/
def npOp (op : K → K → K) (a b : List K) : Option (List K) :=
  if a.length = b.length then some (a.zipWith op b)
  else match a, b with
    | [x], b => some (b.map (op x))
    | a, [y] => some (a.map fun x => op x y)
    | _, _ => none

/-- the constructor of the class called with the keyword arguments of `A` except the name, by an operator: the result has no
define parameters and no cochain. -/
def fresh (A : Obj K) (name : String) : Obj K := { A with name := name, define := none, cochain := none }

/-- setter of `cochain.local` (cochain/main.py l.250-268): the shape of every array is tested. -/
def setLocal (W : World) (A : Obj K) (l : Local K) : Option (Obj K) :=
  if l.all fun p => p.2.length == W.nb A.cls A.space A.hybrid then some { A with cochain := some l } else none

/-- `__add__` and `__sub__` (3D l.53-97 and l.99-143, 2D l.42-87). -/
def binop (W : World) (op : K → K → K) (sym : String) (A B : Obj K) : Option (Obj K) :=
  if B.cls = A.cls ∧ B.mesh = A.mesh ∧ B.space = A.space then
    A.cochain.bind fun a => B.cochain.bind fun b =>
      ((W.elems A.mesh).mapM fun e => (a.lookup e).bind fun x => (b.lookup e).bind fun y => (npOp op x y).map fun z => (e, z)).bind
        (setLocal W (fresh A (A.name ++ sym ++ B.name)))
  else none

/-- `A + B`. -/
def add (W : World) (A B : Obj K) : Option (Obj K) := binop W (· + ·) "+" A B

/-- `A - B`; 2D forms have no `__sub__` (`TypeError`). -/
def sub (W : World) (A B : Obj K) : Option (Obj K) := if W.three then binop W (· - ·) "-" A B else none

/-- `c * A` for an `int` or a `float` whose text is `txt` (3D l.146-180, 2D l.89-124). In 2D `cochain.local` is not compared with
`None`: a form without cochain raises (`TypeError`) in the first element, on a core without elements it does not. -/
def rmul (W : World) (txt : String) (c : K) (A : Obj K) : Option (Obj K) :=
  let loc (a : Option (Local K)) :=
    (W.elems A.mesh).mapM fun e => (a.bind fun l => l.lookup e).map fun x => (e, x.map (c * ·))
  if W.three then A.cochain.bind fun a => (loc (some a)).bind (setLocal W (fresh A (txt ++ A.name)))
  else (loc A.cochain).bind (setLocal W (fresh A (txt ++ "*" ++ A.name)))

/-- `-A` (3D l.49-51 raises `NotImplementedError`, 2D has no `__neg__`). -/
def neg (_ : Obj K) : Option (Obj K) := none

/-- an expression written by a user: forms, sums, differences and multiples. -/
inductive Expr (K : Type)
  | form (i : Nat)
  | add (a b : Expr K)
  | sub (a b : Expr K)
  | mul (txt : String) (c : K) (a : Expr K)

/-- evaluation by Python. -/
def eval (W : World) (env : Nat → Obj K) : Expr K → Option (Obj K)
  | .form i => some (env i)
  | .add a b => (eval W env a).bind fun A => (eval W env b).bind fun B => add W A B
  | .sub a b => (eval W env a).bind fun A => (eval W env b).bind fun B => sub W A B
  | .mul txt c a => (eval W env a).bind fun A => rmul W txt c A

/-- the factory (_3d/master.py l.185-200): the class with the defaults of its constructor (`hybrid=True`, `orientation='outer'`,
`numbering_parameters='Naive'`, a default name, standard/_0s/main.py l.35-43); the keyword arguments are recorded. -/
def create (cls : String) (mesh space : Nat) (kw : Kwargs) : Obj K :=
  let h := kw.hybrid.getD true
  let o := kw.orientation.getD "outer"
  { cls := cls, mesh := mesh, space := space, hybrid := h, orientation := o, numbering := kw.numbering.getD "Naive"
    name := kw.name.getD ((if h then "hybrid-" else "") ++ o ++ "-oriented-" ++ cls), define := some kw, cochain := none }

/-- what is written to a file: `___parameters___` (base/forms/base/main.py l.68-78); `update(None)` raises `TypeError`. -/
structure File (K : Type) where
  cls : String
  mesh : Nat
  space : Nat
  kw : Kwargs
  cochain : Option (Local K)

/-- saving a form. -/
def save (A : Obj K) : Option (File K) := A.define.map fun kw => ⟨A.cls, A.mesh, A.space, kw, A.cochain⟩

/-- reading a file: the factory is called with the keyword arguments and the cochain is set. -/
def read (W : World) (f : File K) : Option (Obj K) :=
  match f.cochain with
  | none => some (create f.cls f.mesh f.space f.kw)
  | some l => setLocal W (create f.cls f.mesh f.space f.kw) l

/-- `DICT[dof] = (h_dof,)` or `DICT[dof] += (h_dof,)` (numbering/main.py l.204-207). -/
def insertDof (d : List (Nat × List Nat)) (x : Nat × Nat) : List (Nat × List Nat) :=
  if d.any fun p => p.1 == x.1 then d.map fun p => if p.1 = x.1 then (p.1, p.2 ++ [x.2]) else p else d ++ [(x.1, [x.2])]

/-- the pairs (number in the form without hybridization, number in the hybrid form) in the order of the loop (l.197-203); a missing
element or a short vector raises. -/
def pairs (nh hy : GM) : Option (List (Nat × Nat)) :=
  ((List.range nh.length).mapM fun r => (nh.getD r []).mapM fun p =>
    (getVec hy r p.1).bind fun gv => if p.2.length ≤ gv.length then some (p.2.zip gv) else none).map fun x => x.flatten.flatten

/-- l.195-216 on the master. -/
def groups (nh hy : GM) : Option (List (List Nat)) :=
  (pairs nh hy).map fun ps => ((ps.foldl insertDof []).map Prod.snd).filter fun g => g.length != 1

/-- `f.numbering.sharing_physical_locations` (l.168-218) on the master. `nh` is the gathering matrix of the form made with
`hybrid=False`, `hy` the one of the form. `kwargs` is the dict of the define parameters, which is changed (l.187-188). -/
def sharing (W : World) (nh hy : GM) (A : Obj K) : Option (List (List Nat) × Obj K) :=
  if !A.hybrid then some ([], A)
  else if W.top A.cls then some ([], A)
  else A.define.bind fun kw => (groups nh hy).map fun g => (g, { A with define := some { kw with hybrid := some false } })

/-- an entry of `elements.map`: an element, or the name of a boundary. -/
inductive Entry
  | elem (i : Nat)
  | bnd (name : String)
deriving DecidableEq, Repr

/-- `'NSWEBF'` (boundaries/main.py l.52). -/
def sides : List Three.Side := [.N, .S, .W, .E, .B, .F]

/-- one entry of the map (l.57-74): nothing for an element; a text that is not the name of a boundary of the domain raises. -/
def parseEntry (bns : List String) (e : Nat) (q : Entry × Three.Side) : Option (Option (String × Nat × Three.Side)) :=
  match q.1 with
  | .elem _ => some none
  | .bnd bn => if bn ∈ bns then some (some (bn, e, q.2)) else none

/-- the six entries of an element (l.57); a shorter row raises `IndexError`. -/
def parseRow (bns : List String) (p : Nat × List Entry) : Option (List (String × Nat × Three.Side)) :=
  if 6 ≤ p.2.length then ((p.2.zip sides).mapM (parseEntry bns p.1)).map fun l => l.filterMap id else none

/-- the element sides of one core on boundaries (l.56-76): the name with the element and the side, in the order of the loop. -/
def parseCore (bns : List String) (map : List (Nat × List Entry)) : Option (List (String × Nat × Three.Side)) :=
  (map.mapM (parseRow bns)).map List.flatten

/-- the names, gathered from all cores (l.77-87). -/
def names (cores : List (List (String × Nat × Three.Side))) : List String := (cores.flatten.map Prod.fst).dedup

/-- `range_of_element_sides[bn]` on a core. -/
def sidesOf (core : List (String × Nat × Three.Side)) (bn : String) : List (Nat × Three.Side) :=
  (core.filter fun q => q.1 == bn).map Prod.snd

/-- dofs on a side (numbering/main.py l.224-299): `GM[element].full_vector[indices]`. -/
def dofsOnSide (local_ : Three.Side → List Nat) (g : LocalGM) (q : Nat × Three.Side) : Option (List Nat) :=
  (g.lookup q.1).bind fun gv => (local_ q.2).mapM fun l => gv[l]?

/-- `boundary_dofs` on one core (l.96-128); `k3`: the form is of degree 3. -/
def boundaryCore (k3 : Bool) (local_ : Three.Side → List Nat) (nms : List String) (core : List (String × Nat × Three.Side))
    (g : LocalGM) : Option (List (String × List Nat)) :=
  nms.mapM fun bn =>
    if k3 then some (bn, []) else ((sidesOf core bn).mapM (dofsOnSide local_ g)).map fun ds => (bn, ds.flatten.dedup)

/-- `global_boundary_dofs` (l.130-157). -/
def boundary (k3 : Bool) (local_ : Three.Side → List Nat) (bns : List String) (emap : List (List (Nat × List Entry))) (gm : GM) :
    Option (List (String × List Nat)) :=
  (emap.mapM (parseCore bns)).bind fun cores =>
    ((cores.zip gm).mapM fun p => boundaryCore k3 local_ (names cores) p.1 p.2).map fun bd =>
      (names cores).map fun bn => (bn, if k3 then [] else (bd.flatMap fun d => (d.lookup bn).getD []).dedup)

/-- `global_boundary_dofs_ravel` (l.159-166). -/
def ravel (bd : List (String × List Nat)) : List Nat := (bd.flatMap Prod.snd).dedup

end Mifem.FormOps
