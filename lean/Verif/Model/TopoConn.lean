import Verif.Model.TraceNum

/-!
# Selective matrices, and the connection of a form, its local trace form and its trace form

Python sources (in `/repo/objects/CSCG/_3d`):
* `spaces/base/selective_matrix.py` lines 32-258
* `forms/trace/base/matrices.py` lines 28-45, `forms/edge/base/matrices.py` lines 19-30
* `spaces/base/topological_connection/main.py` lines 22-148
* `spaces/base/local_gathering.py` lines 121-131, `spaces/base/num_basis.py` lines 178-212 (local traces)
* `forms/localTrace/base/numbering/do/find.py` lines 20-140
-/

namespace Mifem.TopoConn
open Three TraceNum

/-! ## selective matrices -/

/-- the sides in order, all with `+1` (selective_matrix.py 157-162, 186-209, 226-231). -/
def plusSigns : List (Side × Int) := [(.N, 1), (.S, 1), (.W, 1), (.E, 1), (.B, 1), (.F, 1)]

/-- selective_matrix.py 149-175: the matrix of the 0-trace; `None` for the non-hybrid one. The dense `PU.T` is written as in
`Three.trace0`. -/
def sel0 (p0 p1 p2 : Nat) : Bool → Option (Nat → Nat → Int)
  | true => some (matOf (traceAux (dofs0 p0 p1 p2) 0 plusSigns))
  | false => none

/-- selective_matrix.py 177-216: the matrix of the 1-trace (blocks of the sides stacked, as in `Three.trace1`). -/
def sel1 (p0 p1 p2 : Nat) : Bool → Option (Nat → Nat → Int)
  | true => some (matOf (traceAux (dofs1 p0 p1 p2) 0 plusSigns))
  | false => none

/-- selective_matrix.py 218-245: the matrix of the 2-trace; the same for the non-hybrid one. -/
def sel2 (p0 p1 p2 : Nat) : Bool → Option (Nat → Nat → Int)
  | true => some (matOf (traceAux (dofs2 p0 p1 p2) 0 plusSigns))
  | false => some (matOf (traceAux (dofs2 p0 p1 p2) 0 plusSigns))

/-- `matrices.selective` of a trace form (forms/trace/base/matrices.py 28-45): `NotImplementedError` if there is none. -/
def traceSelective (p0 p1 p2 k : Nat) (hybrid : Bool) : Option (Nat → Nat → Int) :=
  match k with
  | 0 => sel0 p0 p1 p2 hybrid
  | 1 => sel1 p0 p1 p2 hybrid
  | 2 => sel2 p0 p1 p2 hybrid
  | _ => none

/-- the twelve edges of an element, named by two sides. -/
inductive Edge | WB | EB | WF | EF | NB | SB | NF | SF | NW | SW | NE | SE
deriving DecidableEq, Repr

/-- the order of `np.vstack` (selective_matrix.py 82-84, 141-143), all with `+1`. -/
def edgeSigns : List (Edge × Int) :=
  [(.WB, 1), (.EB, 1), (.WF, 1), (.EF, 1), (.NB, 1), (.SB, 1), (.NF, 1), (.SF, 1), (.NW, 1), (.SW, 1), (.NE, 1), (.SE, 1)]

/-- selective_matrix.py 40-76: the columns written for an edge (0-form); the rows are `range(p+1)`
(local_numbering.py 26-46). -/
def edgeDofs0 (p0 p1 p2 : Nat) : Edge → List Nat
  | .WB => (List.range (p0+1)).map fun i => ln0 p0 p1 p2 i 0 0
  | .EB => (List.range (p0+1)).map fun i => ln0 p0 p1 p2 i p1 0
  | .WF => (List.range (p0+1)).map fun i => ln0 p0 p1 p2 i 0 p2
  | .EF => (List.range (p0+1)).map fun i => ln0 p0 p1 p2 i p1 p2
  | .NB => (List.range (p1+1)).map fun j => ln0 p0 p1 p2 0 j 0
  | .SB => (List.range (p1+1)).map fun j => ln0 p0 p1 p2 p0 j 0
  | .NF => (List.range (p1+1)).map fun j => ln0 p0 p1 p2 0 j p2
  | .SF => (List.range (p1+1)).map fun j => ln0 p0 p1 p2 p0 j p2
  | .NW => (List.range (p2+1)).map fun k => ln0 p0 p1 p2 0 0 k
  | .SW => (List.range (p2+1)).map fun k => ln0 p0 p1 p2 p0 0 k
  | .NE => (List.range (p2+1)).map fun k => ln0 p0 p1 p2 0 p1 k
  | .SE => (List.range (p2+1)).map fun k => ln0 p0 p1 p2 p0 p1 k

/-- selective_matrix.py 99-135: the columns written for an edge (1-form); the rows are `range(p)`
(local_numbering.py 49-69). -/
def edgeDofs1 (p0 p1 p2 : Nat) : Edge → List Nat
  | .WB => (List.range p0).map fun i => ln1c0 p0 p1 p2 i 0 0
  | .EB => (List.range p0).map fun i => ln1c0 p0 p1 p2 i p1 0
  | .WF => (List.range p0).map fun i => ln1c0 p0 p1 p2 i 0 p2
  | .EF => (List.range p0).map fun i => ln1c0 p0 p1 p2 i p1 p2
  | .NB => (List.range p1).map fun j => ln1c1 p0 p1 p2 0 j 0
  | .SB => (List.range p1).map fun j => ln1c1 p0 p1 p2 p0 j 0
  | .NF => (List.range p1).map fun j => ln1c1 p0 p1 p2 0 j p2
  | .SF => (List.range p1).map fun j => ln1c1 p0 p1 p2 p0 j p2
  | .NW => (List.range p2).map fun k => ln1c2 p0 p1 p2 0 0 k
  | .SW => (List.range p2).map fun k => ln1c2 p0 p1 p2 p0 0 k
  | .NE => (List.range p2).map fun k => ln1c2 p0 p1 p2 0 p1 k
  | .SE => (List.range p2).map fun k => ln1c2 p0 p1 p2 p0 p1 k

/-- selective_matrix.py 32-87: the matrix of the 0-edge form (`matrices.selective`, forms/edge/base/matrices.py 19-30). -/
def edgeSel0 (p0 p1 p2 : Nat) : Nat → Nat → Int := matOf (traceAux (edgeDofs0 p0 p1 p2) 0 edgeSigns)
/-- selective_matrix.py 89-146: the matrix of the 1-edge form. -/
def edgeSel1 (p0 p1 p2 : Nat) : Nat → Nat → Int := matOf (traceAux (edgeDofs1 p0 p1 p2) 0 edgeSigns)

/-- num_basis.py 21-25, 40-44: `num.basis` of the edge forms. -/
def nbE0 (p0 p1 p2 : Nat) : Nat := 4 * (p0 + 1 + p1 + 1 + p2 + 1)
@[inherit_doc nbE0] def nbE1 (p0 p1 p2 : Nat) : Nat := 4 * (p0 + p1 + p2)

/-! ## topological connection -/

/-- one statement `T[rows, cols] = v` of an array of the given shape: rows and columns are paired (different lengths raise, and
so do indices out of range). A single index that numpy would broadcast does not occur here. -/
def assign (nr nc : Nat) (rows cols : List Nat) (v : Int) : Option (List Write) :=
  if rows.length = cols.length ∧ (∀ r ∈ rows, r < nr) ∧ (∀ c ∈ cols, c < nc)
  then some ((rows.zip cols).map fun rc => ⟨rc.1, rc.2, v⟩) else none

/-- the six statements that fill a matrix, in order (topological_connection/main.py 89-94, 96-101, 129-134, 136-141). -/
def fill (nr nc : Nat) (rows cols : Side → Option (List Nat)) : Option (List Write) :=
  (sideSigns.mapM fun (sv : Side × Int) => do
    let r ← rows sv.1
    let c ← cols sv.1
    assign nr nc r c sv.2).map List.flatten

/-- main.py 70-108 and 110-148: `lg` is the local gathering of the local trace form and of the trace form (local_gathering.py
121-131: they are the same), `nbl` their `num.basis` (num_basis.py 184-187, 200-203), `dofs` the entries of the local numbering
of the form on a side, raveled. Results: `T_ltf_sf`, `T_ltf_tf`. -/
def connection (nbl nbs : Nat) (lg : List (Side × List Nat)) (dofs : Side → List Nat) :
    Option ((Nat → Nat → Int) × (Nat → Nat → Int)) := do
  let a ← fill nbl nbs (fun s => lg.lookup s) (fun s => some (dofs s))
  let b ← fill nbl nbl (fun s => lg.lookup s) (fun s => lg.lookup s)
  some (matOf a, matOf b)

/-- main.py 70-108: 0-forms. -/
def connection0 (p0 p1 p2 : Nat) : Option ((Nat → Nat → Int) × (Nat → Nat → Int)) := do
  let lg ← localGathering (slices0 p0 p1 p2) (side0 p0 p1 p2)
  connection (nbNon0 p0 p1 p2).toNat (nb0 p0 p1 p2) lg (dofs0 p0 p1 p2)

/-- main.py 110-148: 2-forms. -/
def connection2 (p0 p1 p2 : Nat) : Option ((Nat → Nat → Int) × (Nat → Nat → Int)) :=
  connection (nbT2 p0 p1 p2) (nb2 p0 p1 p2) (lg2 p0 p1 p2) (dofs2 p0 p1 p2)

/-- the classes of the forms given. -/
inductive Cls | form | localTrace | trace
deriving DecidableEq, Repr

/-- a form: class, degree `k`, `whether.hybrid`, space and mesh (compared by number). -/
structure FormRef where
  cls : Cls
  k : Nat
  hybrid : Bool
  space : Nat
  mesh : Nat
deriving DecidableEq, Repr

/-- `set(cns) == {'_3dCSCG_kLocalTrace', '_3dCSCG_kTrace', '_3dCSCG_kForm'}`. -/
def isTriple (k : Nat) (fs : List FormRef) : Bool :=
  fs.all (fun f => f.k = k) && [Cls.localTrace, .trace, .form].all (fun c => fs.any (fun f => f.cls = c))

/-- the loop that puts the forms in order (main.py 42-51, 55-64): the last of a class stays. -/
def pick (c : Cls) (fs : List FormRef) : Option FormRef := (fs.filter fun f => f.cls = c).getLast?

/-- the assertions of main.py 73-76, 113-116. -/
def agree (sf ltf tf : FormRef) : Bool :=
  sf.space = ltf.space && ltf.space = tf.space && (sf.mesh = ltf.mesh && ltf.mesh = tf.mesh) &&
  (sf.hybrid && !ltf.hybrid && !tf.hybrid)

/-- `space.topological_connection(*forms)` (main.py 22-68). -/
def call (p0 p1 p2 : Nat) (fs : List FormRef) : Option ((Nat → Nat → Int) × (Nat → Nat → Int)) :=
  if fs.length = 3 then
    if isTriple 0 fs then do
      let sf ← pick .form fs
      let ltf ← pick .localTrace fs
      let tf ← pick .trace fs
      if agree sf ltf tf then connection0 p0 p1 p2 else none
    else if isTriple 2 fs then do
      let sf ← pick .form fs
      let ltf ← pick .localTrace fs
      let tf ← pick .trace fs
      if agree sf ltf tf then connection2 p0 p1 p2 else none
    else none
  else none

/-! ## dofs of a local trace form on a side -/

/-- find.py 41-56, 116-131: first and past-the-last number of a side of a hybrid local trace form, from `basis_onside`. -/
def hybridIndices (NS WE BF : Nat) : Side → Nat × Nat
  | .N => (0, NS)
  | .S => (NS, 2*NS)
  | .W => (2*NS, 2*NS+WE)
  | .E => (2*NS+WE, 2*NS+2*WE)
  | .B => (2*NS+2*WE, 2*NS+2*WE+BF)
  | .F => (2*NS+2*WE+BF, 2*NS+2*WE+2*BF)

/-- `_localSideCache_[k]`, which both methods below use. -/
abbrev Cache := Side → Option (List Nat)

/-- `local_dofs_on_element_side` of a hybrid local trace form (find.py 33-63): `arange(*indices)`, cached. -/
def localDofs (NS WE BF : Nat) (cache : Cache) (s : Side) : Cache × List Nat :=
  match cache s with
  | some l => (cache, l)
  | none =>
    let l := List.range' (hybridIndices NS WE BF s).1 ((hybridIndices NS WE BF s).2 - (hybridIndices NS WE BF s).1)
    (fun t => if t = s then some l else cache t, l)

/-- `dofs_on_element_side` of a hybrid local trace form with the gathering vector `gv` of the element (find.py 88-89, 94-140):
`i0, i1 = cache` raises unless two values are there; then `gv[i0:i1]`. -/
def sideDofs (NS WE BF : Nat) (cache : Cache) (gv : List Nat) (s : Side) : Cache × Option (List Nat) :=
  let cache' : Cache := match cache s with
    | some _ => cache
    | none => fun t => if t = s then some [(hybridIndices NS WE BF s).1, (hybridIndices NS WE BF s).2] else cache t
  (cache', match cache' s with
    | some [i0, i1] => some ((gv.take i1).drop i0)
    | _ => none)

/-- `dofs_on_element_side` of a non-hybrid local trace form (find.py 90-92): `gv[local_gathering[side]]`; an index out of range
raises. -/
def sideDofsNon (lg : List (Side × List Nat)) (gv : List Nat) (s : Side) : Option (List Nat) :=
  (lg.lookup s).bind fun idx => idx.mapM fun i => gv[i]?

end Mifem.TopoConn
