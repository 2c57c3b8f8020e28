import Mathlib.Data.List.Basic
import Mathlib.Data.List.Dedup

/-!
# Local assemblers and distributors

Model of `/repo/components/assemblers.py` and `/repo/components/distributors.py`.

A gathering matrix or the data is a Python dict (or a list, whose keys are `0, 1, ...`); here it is the list of its items in
order, with different keys. Numbers of dofs are natural numbers: negative ones are rejected by the assertion of
assemblers.py 42.
-/

namespace Mifem.Assemblers

variable {κ R : Type} [DecidableEq κ]

/-- assemblers.py 16-46: `none` for an error (an empty vector, no vectors at all, numbers not from zero, missing numbers). -/
def check (G : List (κ × List Nat)) : Option Nat :=
  if G.any (fun p => p.2.isEmpty) then none
  else
    let all := G.flatMap Prod.snd
    match all.max?, all.min? with
    | some M, some m => if m = 0 ∧ all.dedup.length = M + 1 then some (M + 1) else none
    | _, _ => none

/-- numpy: the values for `n` places: as many values, or one for all places. -/
def bcast (n : Nat) (vals : List R) : Option (List R) :=
  if vals.length = n then some vals
  else match vals with
    | [v] => some (List.replicate n v)
    | _ => none

/-- numpy `out[idx] = vals`: one assignment after the other. -/
def setAt (out : List R) (idx : List Nat) (vals : List R) : Option (List R) :=
  if idx.all (fun k => k < out.length) then
    (bcast idx.length vals).map fun vs => (idx.zip vs).foldl (fun o p => o.set p.1 p.2) out
  else none

/-- numpy `out[idx] += vals`, i.e. `out[idx] = out[idx] + vals`. -/
def addAt [Add R] [Zero R] (out : List R) (idx : List Nat) (vals : List R) : Option (List R) :=
  (bcast idx.length vals).bind fun vs => setAt out idx ((idx.zip vs).map fun p => out.getD p.1 0 + p.2)

/-- the two modes. -/
inductive Mode
  | replace
  | add

def putAt [Add R] [Zero R] : Mode → List R → List Nat → List R → Option (List R)
  | .replace => setAt
  | .add => addAt

/-- assemblers.py 55-73, 84-112: `VectorAssembler(G)(D, mode)`. -/
def vecAssemble [Add R] [Zero R] (mode : Mode) (G : List (κ × List Nat)) (D : List (κ × List R)) : Option (List R) :=
  (check G).bind fun n =>
    if D.length = G.length then
      G.foldlM (fun out p => (D.lookup p.1).bind fun d => putAt mode out p.2 d) (List.replicate n 0)
    else none

/-- distributors.py 14-61: `VectorDistributor(G)(v)`. -/
def vecDistribute (G : List (κ × List Nat)) (v : List R) : Option (List (κ × List R)) :=
  (check G).bind fun n =>
    if v.length = n then G.mapM fun p => (p.2.mapM fun k => v[k]?).map fun d => (p.1, d)
    else none

/-- assemblers.py 185-189: the loop over the rows of one local matrix (a list of rows). `data[j, :]` is an error if there is
no row `j`; further rows are not looked at. -/
def putRows [Add R] [Zero R] (mode : Mode) (g1 : List Nat) : List Nat → List (List R) → List (List R) → Option (List (List R))
  | [], _, out => some out
  | m :: g0, data, out =>
    match data with
    | [] => none
    | row :: data =>
      (out[m]?).bind fun o => (putAt mode o g1 row).bind fun o' => putRows mode g1 g0 data (out.set m o')

/-- assemblers.py 121-141, 165-193: the dense matrix. -/
def matAssemble [Add R] [Zero R] (mode : Mode) (G0 G1 : List (κ × List Nat)) (D : List (κ × List (List R))) :
    Option (List (List R)) :=
  (check G0).bind fun n0 =>
    ((G0.map Prod.fst).mapM fun i => (G1.lookup i).map fun g => (i, g)).bind fun G1' =>
      (check G1').bind fun n1 =>
        if G0.length = G1.length ∧ D.length = G0.length then
          G0.foldlM (fun out p => (G1.lookup p.1).bind fun g1 => (D.lookup p.1).bind fun d => putRows mode g1 p.2 d out)
            (List.replicate n0 (List.replicate n1 0))
        else none

inductive Format
  | array
  | csr
  | csc

/-- transpose of a matrix with `n1` columns. -/
def transpose [Zero R] (n1 : Nat) (A : List (List R)) : List (List R) :=
  (List.range n1).map fun c => A.map fun row => row.getD c 0

/-- assemblers.py 195-202: 'csc' gives `csr_matrix(output).T`, which is stored by columns but is the transposed matrix. -/
def formatted [Zero R] (f : Format) (A : List (List R)) : List (List R) :=
  match f with
  | .array => A
  | .csr => A
  | .csc => transpose ((A.headD []).length) A

/-- assemblers.py 143-205: `MatrixAssembler(G0, G1)(D, mode, format=f)`. -/
def matCall [Add R] [Zero R] (mode : Mode) (f : Format) (G0 G1 : List (κ × List Nat)) (D : List (κ × List (List R))) :
    Option (List (List R)) := (matAssemble mode G0 G1 D).map (formatted f)

end Mifem.Assemblers
