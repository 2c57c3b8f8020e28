import Verif.Model.Cochain
import Verif.Model.GlobalLA

/-!
# Vectors made of forms, forms filled from vectors, and the direct solver

Python sources, below `/repo/tools/miLinearAlgebra`:
* `dataStructures/vectors/locallyFull/main.py` lines 30-68 (a `LocallyFullVector` of a list of forms)
* `dataStructures/vectors/locallyFull/do.py` lines 12-117 (`distributed_to`)
* `dataStructures/vectors/GLOBAL/do.py` lines 13-32 (`gather_V_to_core`)
* `solvers/regular/direct/main.py` lines 24-70 and `direct/helpers/scipy_sparse_linalg_v0.py` lines 10-57
* `linearSystem/solve/helpers/routine_2b_run.py` (the routine that is called again and again with the same `A` and `b`)

and the two setters of `/repo/objects/CSCG/base/forms/standard/cochain/main.py` (203-208 and 250-268).

All cores are modelled at once, as in `Model/Cochain`; `none` is an exception.  All forms live on one mesh.  When an
exception is raised in the middle of `distributed_to`, the forms treated before keep their new cochains in Python; this is
left out.
-/

namespace Mifem.FV
open Mifem.Gath Mifem.Cochain

variable {K : Type} [Field K] [DecidableEq K]

/-- What a form shows: `numbering.gathering`, `num.global_dofs`, `num.basis`, whether it is hybrid or of the highest degree,
and `cochain.local` on all cores (`None` for a form without cochain). -/
structure Form (K : Type) where
  gm : GM
  n : Nat
  nb : Nat
  direct : Bool
  loc : Option (List (Local K))

/-! ## From forms to vectors -/

/-- `LocallyFullVector(f.cochain.globe).V`, or zeros (locallyFull/main.py 36-40, 70-76 and 86-87). -/
def ofForm (keep : Bool) (f : Form K) : Option (List K) :=
  match f.loc with
  | none => some (List.replicate f.n 0)
  | some loc => (globe keep f.direct f.n f.gm loc).map fun vs => (List.range f.n).map (total vs)

/-- `LocallyFullVector(forms).V` with the method 'silly' (34-43). -/
def ofForms (keep : Bool) (fs : List (Form K)) : Option (List K) := (fs.mapM (ofForm keep)).map List.flatten

/-- The two methods of chaining. -/
inductive Method
  | silly
  | sequent
  deriving DecidableEq

/-- `cgm[e]` on core `r`: a chain of one member is always 'silly' (chain_matrix/main.py 88-92, 211-231). -/
def chainGet (nR : Nat) (m : Method) (c : Chain) (r e : Nat) : Option (List Nat) :=
  match m with
  | .silly => c.get r e
  | .sequent => if c.gms.length = 1 then c.get r e else c.getSequent nR r e

/-- `GatheringMatrixChaining(*forms)` (gathering/chain.py 19-56; its cache is C28). -/
def chainOf (nR : Nat) (fs : List (Form K)) : Option Chain := mkChain nR (fs.map fun f => Item.gm "" f.gm)

/-- `f.cochain.EWC[e]` on core `r`, or the empty vector of a form without cochain (locallyFull/main.py 47-54). -/
def localVec (f : Form K) (r e : Nat) : Option (List K) :=
  match f.loc with
  | none => some (List.replicate f.nb 0)
  | some loc => (loc.getD r []).lookup e

/-- the local vector of element `e` on core `r` in `concatenate(EWC)` (55). -/
def concatLocal (fs : List (Form K)) (r e : Nat) : Option (List K) :=
  (fs.mapM fun f => localVec f r e).map List.flatten

/-- What the assembler adds up (columnVector/assembler.py 43-62): pairs of a number and a value, for all elements of all
cores.  Vectors of different lengths are refused here; the setter of `local` sees to it that they do not occur. -/
def contributions (get : Nat → Nat → Option (List Nat)) (gm0 : GM) (fs : List (Form K)) : Option (List (Nat × K)) :=
  ((List.range gm0.length).mapM fun r => ((elements gm0 r).mapM fun e =>
    (get r e).bind fun ds => (concatLocal fs r e).bind fun l =>
      if ds.length = l.length then some (ds.zip l) else none).map List.flatten).map List.flatten

/-- `LocallyFullVector(forms, chain_method='sequent').V` (45-60): the concatenated local vectors are assembled. -/
def ofFormsSequent (nR : Nat) (fs : List (Form K)) : Option (List K) :=
  (chainOf nR fs).bind fun c => (contributions (chainGet nR .sequent c) (c.gms.headD []) fs).map fun ps =>
    (List.range c.total).map fun d => (ps.map fun p => if p.1 = d then p.2 else 0).sum

/-! ## From vectors to forms -/

/-- The setter `cochain.local` (cochain/main.py 250-268): all arrays have `num.basis` entries. -/
def setLocal (f : Form K) (loc : List (Local K)) : Option (Form K) :=
  if loc.all (fun l => l.all fun p => decide (p.2.length = f.nb)) then some { f with loc := some loc } else none

/-- `form.cochain.globe = LocallyFullVector(V)` (cochain/main.py 203-208). -/
def setFull (f : Form K) (V : List K) : Option (Form K) :=
  (f.gm.mapM fun g : LocalGM => g.mapM fun p : Nat × List Nat => (p.2.mapM fun k => V[k]?).map fun l => (p.1, l)).bind (setLocal f)

/-- the loops of locallyFull/do.py 34-41 and 52-60; `nd` is `None_dofs`, `i` is `indices`. -/
def give (V : List K) (nd : Nat) : Nat → List (Option (Form K)) → Option (List (Option (Form K)))
  | _, [] => some []
  | i, none :: as => (give V nd (i + nd) as).map (none :: ·)
  | i, some f :: as => (setFull f ((V.drop i).take f.n)).bind fun f' => (give V nd (i + f.n) as).map (some f' :: ·)

/-- the number of dofs of the forms that are not `None` (45-48). -/
def dofsOf (args : List (Option (Form K))) : Nat := (args.map fun a => (a.map Form.n).getD 0).sum

/-- `distributed_to(*args)` with the method 'silly' (31-63). -/
def distSilly (V : List K) (args : List (Option (Form K))) : Option (List (Option (Form K))) :=
  match args.countP Option.isNone with
  | 0 => give V 0 0 args
  | 1 => if V.length ≤ dofsOf args then none else give V (V.length - dofsOf args) 0 args
  | _ => none

/-- `local_cochain_all` (70-74 and 96-100). -/
def allLocal (get : Nat → Nat → Option (List Nat)) (gm0 : GM) (V : List K) : Option (List (Local K)) :=
  (List.range gm0.length).mapM fun r => (elements gm0 r).mapM fun e =>
    (get r e).bind fun ds => (ds.mapM fun k => V[k]?).map fun l => (e, l)

/-- the loops of 76-88 and 102-114; `i` is `current_local_index`. -/
def giveSlices (all : List (Local K)) : Nat → List (Form K) → Option (List (Form K))
  | _, [] => some []
  | i, f :: fs =>
    (setLocal f (all.map fun l => l.map fun p => (p.1, (p.2.drop i).take f.nb))).bind fun f' =>
      (giveSlices all (i + f.nb) fs).map (f' :: ·)

/-- `distributed_to(*forms, chain_method=cgm)` (90-114). -/
def distChain (nR : Nat) (m : Method) (c : Chain) (V : List K) (fs : List (Form K)) : Option (List (Form K)) :=
  if c.gms.length = fs.length then
    (allLocal (chainGet nR m c) (c.gms.headD []) V).bind fun all => giveSlices all 0 fs
  else none

/-- `distributed_to(*forms, chain_method='sequent')` (65-88). -/
def distSequent (nR : Nat) (V : List K) (fs : List (Form K)) : Option (List (Form K)) :=
  (chainOf nR fs).bind fun c => distChain nR .sequent c V fs

/-! ## Which gathering matrices a linear system accepts -/

/-- `gm == other` (gathering/regular/matrix/main.py 85-101): the same number of local elements, and the same vector for every
element of `gm`; a missing element raises `KeyError`. -/
def gmEq (g h : GM) : Option Bool :=
  ((List.range g.length).mapM fun r =>
    if (g.getD r []).length ≠ (h.getD r []).length then some false
    else ((g.getD r []).mapM fun p : Nat × List Nat => ((h.getD r []).lookup p.1).map fun v => decide (p.2 = v)).map fun l => l.all id).map
    fun l => l.all id

/-- a chained gathering matrix with its method. -/
structure Numbered where
  chain : Chain
  method : Method

/-- `CGM == CGM` (chain_matrix/main.py 249-267), which `LinearSystem(A, b)` asserts of the row gathering matrix of `A` and the
gathering matrix of `b` (linearSystem/main.py 34). -/
def cgmEq (a b : Numbered) : Option Bool :=
  if a.chain.gms.length ≠ b.chain.gms.length then some false
  else ((a.chain.gms.zip b.chain.gms).mapM fun p => gmEq p.1 p.2).map fun l => l.all id

/-! ## The direct solver -/
section direct
open Mifem.GlobalLA

/-- The wrapped `A` and `b` (routine_2b_run.py 8-13); `b` is `none` after its local data has been cleaned. -/
structure Sys (R : Type) where
  A : List (GlobalLA.Sp R)
  b : Option (List (SpVec R))

/-- `___scipy_sparse_linalg_v0___` (scipy_sparse_linalg_v0.py 10-57): the solution (the same on all cores), the value of
`info`, and what is left of `A` and `b`.  `spsolve` is the routine of scipy, which is given the gathered matrix and vector;
`factor` is the splitting factor of `gather_M_to_core`. -/
def direct {R : Type} [Zero R] [Add R] (spsolve : GlobalLA.Sp R → (Nat → R) → Option (List R)) (factor : Nat)
    (cod : Option Bool) (s : Sys R) : Option (List R × Nat × Sys R) :=
  let clean := cod.getD true
  s.b.bind fun bs => (gatherM 0 clean factor s.A).bind fun rk =>
    rk.1.head?.bind fun M => bs.head?.bind fun b0 =>
      if M.m = b0.n then
        (spsolve M (gatherGlobal bs)).map fun x => (x, 0, ⟨rk.2, if clean then none else some bs⟩)
      else none

end direct
end Mifem.FV
