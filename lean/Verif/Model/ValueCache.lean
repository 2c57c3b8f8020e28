import Mathlib.Data.Nat.Notation

/-!
# Values of the coordinate transformation of all mesh elements

Python sources (`/repo/objects/CSCG/`):
* `_3d/mesh/elements/coordinate_transformation/helpers/value_cache.py` lines 6-89 (`ElementsCTValuesCache`), `_2d/…` lines 9-85 (the same
  with the test of the mark's type at the storing)
* `_3d/mesh/elements/coordinate_transformation/main.py` lines 79-98 (made with `intermediateData`), `quad_1d.py` lines 22-105, `quad_3d.py` lines 19-102 (without)
* `_3d/mesh/elements/element/coordinate_transformation.py` lines 136-235 (methods of an element)
* `_3d/mesh/elements/main.py` lines 34-52 (`_multi_elements_metric_`)

An object of the class belongs to a mesh, a quantity and given coordinates; several objects may use the same intermediate object.  The
objects are numbered in the order of their making.  `none` is an exception.
-/

namespace Mifem.ValueCache

/-- Quantities: `mapping`, `X`, `Y`, `Z`; `Jacobian_matrix` (`jac 0`), `J00`, …, `J22`; and those made from the Jacobian matrix. -/
inductive CTT
  | place (k : ℕ)
  | jac (k : ℕ)
  | Jacobian | metric | metricMatrix | invJacobianMatrix | invJacobian | invMetricMatrix
deriving DecidableEq

/-- `type_wrt_metric.mark`: an `int` (own mark of the element) or a string. -/
inductive Mark
  | own (n : ℕ)
  | shared (s : String)
deriving DecidableEq

/-- A mesh on a core: the elements, their marks, `_multi_elements_metric_` (0: not in the dictionary), and the values of the element's
own quantities at given coordinates. -/
structure Mesh (V : Type) where
  has : ℕ → Bool
  mark : ℕ → Mark
  multi : String → ℕ
  own : CTT → ℕ → ℕ → V

/-- value_cache.py 7-37: mesh, quantity, the coordinates (their identity) and the intermediate object. -/
structure Obj (V : Type) where
  mesh : Mesh V
  ctt : CTT
  coord : ℕ
  inter : Option ℕ

/-- value_cache.py 18-31: the quantity that the intermediate data of a quantity have. -/
def source : CTT → Option CTT
  | .Jacobian => some (.jac 0)
  | .metric => some .Jacobian
  | .metricMatrix => some (.jac 0)
  | .invJacobianMatrix => some (.jac 0)
  | .invJacobian => some .invJacobianMatrix
  | .invMetricMatrix => some .invJacobianMatrix
  | _ => none

/-- value_cache.py 11-37: a new object is made if the intermediate object has the same coordinates and the right quantity; the meshes
are not compared. -/
def make {V : Type} (objs : List (Obj V)) (o : Obj V) : Option (List (Obj V)) :=
  match o.inter with
  | none => some (objs ++ [o])
  | some j =>
    match objs[j]? with
    | none => none
    | some q => if q.coord = o.coord ∧ source o.ctt = some q.ctt then some (objs ++ [o]) else none

/-- element/coordinate_transformation.py 136-235: a method called with the coordinates and further positional arguments, which
`*evaluationPoints` takes (only the first three are looked at: 43, 65, 75), and the keyword `J`, `detJ` or `iJ`. -/
def method {V : Type} (derive : CTT → V → V) (m : Mesh V) (c : CTT) (i coord : ℕ) (_positional : List V) (kw : Option V) : V :=
  match kw with
  | some w => derive c w
  | none => m.own c i coord

/-- The dictionaries `_cache_` of the objects. -/
abbrev Caches (V : Type) := ℕ → List (String × V)

/-- value_cache.py 52-55, 74-78: `CACHE_FACTOR` is `factor`. -/
def store {V : Type} (factor : ℕ) (m : Mesh V) (s : String) (v : V) (id : ℕ) (cs : Caches V) : Caches V :=
  if m.multi s ≠ 0 ∧ m.multi s ≥ factor then fun k => if k = id then (s, v) :: cs k else cs k else cs

/-- value_cache.py 39-79: `obj[i]`. -/
def read {V : Type} (derive : CTT → V → V) (factor : ℕ) (objs : List (Obj V)) (id i : ℕ) (cs : Caches V) : Option (V × Caches V) :=
  match objs[id]? with
  | none => none
  | some o =>
    if o.mesh.has i = false then none
    else
      match o.ctt, o.mesh.mark i with
      | .place _, _ => some (method derive o.mesh o.ctt i o.coord [] none, cs)
      | .jac _, .own _ => some (method derive o.mesh o.ctt i o.coord [] none, cs)
      | .jac _, .shared s =>
        match (cs id).lookup s with
        | some v => some (v, cs)
        | none =>
          let v := method derive o.mesh o.ctt i o.coord [] none
          some (v, store factor o.mesh s v id cs)
      | _, .own _ =>
        match o.inter with
        | none => some (method derive o.mesh o.ctt i o.coord [] none, cs)
        | some j =>
          if _h : j < id then
            (read derive factor objs j i cs).map fun (w, cs') => (method derive o.mesh o.ctt i o.coord [w] none, cs')
          else none
      | _, .shared s =>
        match (cs id).lookup s with
        | some v => some (v, cs)
        | none =>
          match o.inter with
          | none =>
            let v := method derive o.mesh o.ctt i o.coord [] none
            some (v, store factor o.mesh s v id cs)
          | some j =>
            if _h : j < id then
              (read derive factor objs j i cs).map fun (w, cs') =>
                let v := method derive o.mesh o.ctt i o.coord [w] none
                (v, store factor o.mesh s v id cs')
            else none
  termination_by id

/-- A program: objects are made and read in any order. -/
inductive Step (V : Type)
  | new (o : Obj V)
  | get (id i : ℕ)

/-- The values that are read, with what was asked for. -/
def run {V : Type} (derive : CTT → V → V) (factor : ℕ) : List (Step V) → List (Obj V) → Caches V → Option (List (Obj V × ℕ × V))
  | [], _, _ => some []
  | .new o :: l, objs, cs => (make objs o).bind fun objs' => run derive factor l objs' cs
  | .get id i :: l, objs, cs =>
    match objs[id]?, read derive factor objs id i cs with
    | some o, some (v, cs') => (run derive factor l objs cs').map fun r => (o, i, v) :: r
    | _, _ => none

end Mifem.ValueCache
