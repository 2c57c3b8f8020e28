import Verif.Model.Comm
import Mathlib.Data.List.Basic
import Mathlib.Data.List.Dedup
import Mathlib.Algebra.Group.Defs
import Mathlib.Algebra.Ring.Defs

/-!
# Global matrices and vectors

Model of `/repo/tools/miLinearAlgebra/dataStructures/`:
* `globalMatrix/main.py`, `globalMatrix/whether.py`, `globalMatrix/do.py`, `globalMatrix/helpers/split_A.py`
* `vectors/GLOBAL/`, `vectors/distributed/`, `vectors/locallyFull/main.py`

A global object is the list of what the cores store; the master is the first one (`root/config/main.py`: MASTER_RANK = 0).
A sparse matrix is its format, shape and stored entries in any order (several entries at one place are added, as scipy
does); products do not drop entries that cancel. A dense array is a function of the index, of which the first `n` values
matter.
-/

namespace Mifem.GlobalLA

variable {R : Type}

inductive Fmt
  | csr
  | csc
  | lil
deriving DecidableEq

structure Sp (R : Type) where
  fmt : Fmt
  m : Nat
  n : Nat
  ents : List (Nat × Nat × R)

/-- the value at a place. -/
def Sp.at [Zero R] [Add R] (A : Sp R) (r c : Nat) : R :=
  (A.ents.map fun e => if e.1 = r ∧ e.2.1 = c then e.2.2 else 0).sum

/-- a csc matrix with one column. -/
structure SpVec (R : Type) where
  n : Nat
  ents : List (Nat × R)

def SpVec.at [Zero R] [Add R] (v : SpVec R) (i : Nat) : R := (v.ents.map fun e => if e.1 = i then e.2 else 0).sum

/-- whether.py 53-63 (matrices): all cores but the master store nothing. -/
def masterDominating (A : List (Sp R)) : Bool := (A.drop 1).all fun M => M.ents.isEmpty

/-- vectors/distributed/whether.py 18-29. -/
def masterDominatingV (V : List (SpVec R)) : Bool := (V.drop 1).all fun v => v.ents.isEmpty

/-- scipy `v + w`. -/
def SpVec.add (v w : SpVec R) : SpVec R := ⟨v.n, v.ents ++ w.ents⟩

/-- numpy `np.sum` of the list of the sparse vectors of all cores, then `toarray`. -/
def sumArray [Zero R] [Add R] : List (SpVec R) → Nat → R
  | [], _ => 0
  | v :: V, i => (V.foldl SpVec.add v).at i

/-- vectors/GLOBAL/do.py 13-30: what the chosen core gets. The choice of the core does not matter. -/
def gatherGlobal [Zero R] [Add R] (V : List (SpVec R)) : Nat → R := sumArray V

/-- numpy `V[indices] = data`. -/
def overwrite (v : Nat → R) (ents : List (Nat × R)) : Nat → R :=
  ents.foldl (fun v e => fun i => if i = e.1 then e.2 else v i) v

/-- vectors/distributed/do.py 16-45: what the chosen core gets. -/
def gatherDistributed [Zero R] [Add R] (V : List (SpVec R)) (core : Nat) : Option (Nat → R) :=
  if masterDominatingV V then V[core]?.map fun v => v.at
  else
    match V with
    | [] => none
    | v :: V => some (V.foldl (fun w x => overwrite w x.ents) v.at)

/-- vectors/distributed/main.py 73-80: no index is stored by two cores (`measure[ind] += 1` counts a core once). -/
def isDistributed (V : List (SpVec R)) : Bool :=
  V.all fun v => v.ents.all fun e => (V.countP fun w => w.ents.any fun f => f.1 == e.1) ≤ 1

/-- vectors/locallyFull/main.py 70-76: the sum is made on the master and sent to every core. -/
def locallyFull [Zero R] [Add R] (V : List (SpVec R)) : Nat → R := sumArray V

/-- main.py 87-97: for 'csc' the comparison `_ is True` gives `False`, hence no columns. `none` is the exception. -/
def nonemptyColumns (A : Sp R) : Option (List Nat) :=
  match A.fmt with
  | .csc => some []
  | .csr => some (A.ents.map fun e => e.2.1).dedup
  | .lil => none

/-- main.py 314-337: what core with matrix `A` gets of the vector `v`. -/
def distributeVector [Zero R] (A : Sp R) (v : Nat → R) : Option (Nat → R) :=
  (nonemptyColumns A).map fun nec => fun i => if i ∈ nec then v i else 0

/-- scipy `A @ v`. -/
def mulVec [Zero R] [Add R] [Mul R] (A : Sp R) (v : Nat → R) : Nat → R :=
  fun r => (A.ents.map fun e => if e.1 = r then e.2.2 * v e.2.1 else 0).sum

/-- the right operand of a product with a vector. -/
inductive Vec (R : Type)
  | glob (V : List (SpVec R))
  | dist (V : List (SpVec R))
  | full (n : Nat) (V : List (Nat → R))

def Vec.length : Vec R → Option Nat
  | .glob V => V.head?.map SpVec.n
  | .dist V => V.head?.map SpVec.n
  | .full n _ => some n

/-- main.py 193-202, 206-215: the product after the vector has been gathered to the master. -/
def matVecGathered [Zero R] [Add R] [Mul R] (A : List (Sp R)) (v : Nat → R) : Option (List (Nat → R)) :=
  if masterDominating A then
    match A with
    | [] => none
    | A0 :: As => some (mulVec A0 v :: As.map fun _ => fun _ => 0)
  else A.mapM fun Ak => (distributeVector Ak v).map fun vk => mulVec Ak vk

/-- main.py 165-222 for a vector; `n` is the number of columns (scipy compares it with the length of the vector). -/
def matVec [Zero R] [Add R] [Mul R] (n : Nat) (A : List (Sp R)) (b : Vec R) : Option (List (Nat → R)) :=
  if b.length = some n then
    match b with
    | .glob V => matVecGathered A (gatherGlobal V)
    | .dist V => (gatherDistributed V 0).bind fun v => matVecGathered A v
    | .full _ V => some ((A.zip V).map fun x => mulVec x.1 x.2)
  else none

/-- scipy `A @ B`; the format is that of the left operand. -/
def Sp.mul [Mul R] (A B : Sp R) : Sp R :=
  ⟨A.fmt, A.m, B.n, A.ents.flatMap fun a => (B.ents.filter fun b => b.1 == a.2.1).map fun b => (a.1, b.2.1, a.2.2 * b.2.2)⟩

/-- scipy `A + B`. -/
def Sp.add (A B : Sp R) : Sp R := ⟨A.fmt, A.m, A.n, A.ents ++ B.ents⟩

/-- the distribution flag: whether.py 19-50. -/
inductive Flag
  | no
  | yes
  | row
  | column
deriving DecidableEq

/-- a GlobalMatrix: the parts and the flag. -/
structure GM (R : Type) where
  parts : List (Sp R)
  flag : Flag

/-- main.py 294-299, 302-307: the loop over the cores; `C` is `None` first. -/
def sumParts (l : List (Sp R)) : Option (Sp R) :=
  l.foldl (fun C M => match C with | none => some M | some C => some (C.add M)) none

/-- main.py 281-312: `A_k` times all parts of B, or all parts of A times `B_k`. -/
def rowDotColumn [Mul R] (A B : GM R) : Option (List (Sp R)) :=
  if A.flag ≠ .no then A.parts.mapM fun Ak => sumParts (B.parts.map fun N => Ak.mul N)
  else if B.flag ≠ .no then B.parts.mapM fun Bk => sumParts (A.parts.map fun M => M.mul Bk)
  else none

/-- main.py 165-189: the product of global matrices (scipy compares the shapes). -/
def matMul [Mul R] (A B : GM R) : Option (GM R) :=
  (if A.parts.head?.map Sp.n ≠ B.parts.head?.map Sp.m then none
  else if masterDominating A.parts && masterDominating B.parts then
    match A.parts, B.parts with
    | A0 :: As, B0 :: _ => some (A0.mul B0 :: As.map fun _ => ⟨.csc, A0.m, B0.n, []⟩)
    | _, _ => none
  else if A.flag ≠ .no ∨ B.flag ≠ .no then rowDotColumn A B
  else none).map fun M => ⟨M, .yes⟩

/-- main.py 122-132: transpose. -/
def Sp.T (A : Sp R) : Sp R :=
  ⟨match A.fmt with | .csr => .csc | .csc => .csr | .lil => .lil, A.n, A.m, A.ents.map fun e => (e.2.1, e.1, e.2.2)⟩

def GM.T (A : GM R) : GM R :=
  ⟨A.parts.map Sp.T, match A.flag with | .row => .column | .column => .row | _ => .no⟩

/-- main.py 134-138. -/
def GM.neg [Neg R] (A : GM R) : GM R :=
  ⟨A.parts.map fun M => ⟨M.fmt, M.m, M.n, M.ents.map fun e => (e.1, e.2.1, -e.2.2)⟩, A.flag⟩

/-- main.py 140-162. -/
def GM.smul [Mul R] (a : R) (A : GM R) : GM R :=
  ⟨A.parts.map fun M => ⟨M.fmt, M.m, M.n, M.ents.map fun e => (e.1, e.2.1, a * e.2.2)⟩, A.flag⟩

/-- main.py 237-248. -/
def GM.add (A B : GM R) : GM R := ⟨(A.parts.zip B.parts).map fun x => x.1.add x.2, .no⟩

/-- main.py 383-404: all parts are csr and the nonempty rows of the parts are different. (If the formats of the cores
differ, the cores disagree and wait for each other; not modelled.) -/
def checkRowMajor (A : GM R) : Bool :=
  A.parts.all (fun M => M.fmt = .csr) &&
    (A.parts.flatMap fun M => (M.ents.map fun e => e.1).dedup).dedup.length ==
      (A.parts.flatMap fun M => (M.ents.map fun e => e.1).dedup).length

/-- main.py 406-427 as a truth value: for 'csc' a tuple with one item is returned, which is true whatever the item is. -/
def checkColMajor (A : GM R) : Bool := A.parts.all (fun M => M.fmt = .csc)

/-- do.py 15-31. -/
def claimPattern (A : GM R) : GM R :=
  if checkRowMajor A then ⟨A.parts, .row⟩ else if checkColMajor A then ⟨A.parts, .column⟩ else ⟨A.parts, .no⟩

/-! ### split_A -/

/-- split_A.py 13-20: the loop over `enumerate(indptr)` from index `i` on, with threshold `th`; the cutting points after
the first one. -/
def splitLoop (factor : Nat) : Nat → Nat → List Nat → List Nat
  | _, _, [] => []
  | i, th, ind :: l => if ind ≥ th then i :: splitLoop factor (i + 1) (th + factor) l else splitLoop factor (i + 1) th l

/-- split_A.py 4-25: number of pieces and cutting points; `none` for a failing assertion. -/
def splitA (indptr : List Nat) (factor PS : Nat) : Option (Nat × List Nat) :=
  if indptr.length = PS + 1 then
    let cuts := splitLoop factor 0 factor indptr
    let SL := 0 :: cuts
    let p := if SL.getLastD 0 ≠ PS then (cuts.length + 1, SL ++ [PS]) else (cuts.length, SL)
    if p.1 ≥ 1 ∧ p.1 = p.2.length - 1 then some p else none
  else none

/-- do.py 96-103: the pieces `M[SL[t]:SL[t+1], :]` of a matrix given by its rows (or columns). -/
def pieces {α : Type} (rows : List α) (SL : List Nat) : List (List α) :=
  (SL.zip (SL.drop 1)).map fun p => (rows.take p.2).drop p.1

/-! ### gather_M_to_core -/

/-- scipy `indptr` of a csr matrix. -/
def indptrOf (A : Sp R) : List Nat := (List.range (A.m + 1)).map fun i => A.ents.countP fun e => e.1 < i

/-- scipy `M[a:b, :]`. -/
def Sp.rowSlice (A : Sp R) (a b : Nat) : Sp R :=
  ⟨A.fmt, b - a, A.n, (A.ents.filter fun e => a ≤ e.1 && e.1 < b).map fun e => (e.1 - a, e.2)⟩

/-- do.py 80-103: the messages that carry a csr matrix. -/
def sentRows (factor : Nat) (A : Sp R) : Option (List (Sp R)) :=
  if A.ents.length ≤ factor then some [A]
  else (splitA (indptrOf A) factor A.m).map fun p =>
    if p.1 = 1 then [A] else (p.2.zip (p.2.drop 1)).map fun q => A.rowSlice q.1 q.2

/-- do.py 80-103: for csc the same by columns. -/
def sent (factor : Nat) (A : Sp R) : Option (List (Sp R)) :=
  match A.fmt with
  | .csr => sentRows factor A
  | .csc => (sentRows factor A.T).map fun l => l.map Sp.T
  | .lil => if A.ents.length ≤ factor then some [A] else none

/-- scipy `vstack(..., format='csr')`. -/
def vstack : List (Sp R) → Option (Sp R)
  | [] => none
  | [A] => some ⟨.csr, A.m, A.n, A.ents⟩
  | A :: B :: L => (vstack (B :: L)).bind fun S =>
    if A.n = S.n then some ⟨.csr, A.m + S.m, A.n, A.ents ++ S.ents.map fun e => (A.m + e.1, e.2)⟩ else none

/-- scipy `A += B` with the comparison of the shapes. -/
def addShaped (A B : Sp R) : Option (Sp R) := if A.m = B.m ∧ A.n = B.n then some (A.add B) else none

/-- do.py 106-119: what a core has after it has received the messages (`hstack` is `vstack` of the transposed). -/
def received (own : Sp R) : List (Sp R) → Option (Sp R)
  | [B] => addShaped own B
  | L => match own.fmt with
    | .csr => (vstack L).bind fun S => addShaped own S
    | .csc => (vstack (L.map Sp.T)).bind fun S => addShaped own S.T
    | .lil => none

/-- do.py 74-122: the matrix of core `i` before round `t` of the tree. All cores execute a round at the same time here;
C21 says that other orders give the same. -/
def treeGather (size factor : Nat) (A : Nat → Sp R) : Nat → Nat → Option (Sp R)
  | 0, i => some (A i)
  | t + 1, i => match Comm.treeAct size t i with
    | none => treeGather size factor A t i
    | some (.recv j _) =>
      (treeGather size factor A t i).bind fun own =>
        (treeGather size factor A t j).bind fun other => (sent factor other).bind fun L => received own L
    | some (.send _ _) => (treeGather size factor A t i).map fun own => ⟨.csr, own.m, own.n, []⟩

/-- do.py 33-134: the matrices that the cores return, and the parts that they keep. -/
def gatherM (core : Nat) (clean : Bool) (factor : Nat) (A : List (Sp R)) : Option (List (Sp R) × List (Sp R)) :=
  if core = 0 ∧ masterDominating A then some (A, A)
  else if factor = 0 then none
  else if clean then
    (if (A.map fun M => M.ents.length).sum < factor then
      (sumParts A).map fun S => (List.range A.length).map fun i => if i = core then S else ⟨.csr, S.m, S.n, []⟩
    else if core ≠ 0 then none
    else match A with
      | [] => none
      | A0 :: _ => (List.range A.length).mapM fun i =>
        treeGather A.length factor (fun i => A.getD i ⟨.csr, A0.m, A0.n, []⟩) (Comm.TREE A.length).length i).map fun L => (L, L)
  else (sumParts A).map fun S => ((List.range A.length).map fun i => if i = core then S else ⟨.csc, S.m, S.n, []⟩, A)

end Mifem.GlobalLA
