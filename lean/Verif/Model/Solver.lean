import Verif.Model.FormVector
import Mathlib.Algebra.Order.Field.Rat

/-!
# Calling the linear solvers, and preconditioners

Python sources, below `/repo/tools/miLinearAlgebra`:
* `linearSystem/solve/main.py` lines 15-66 and `solve/helpers/routine_2b_run.py`
* `solvers/regular/allocator.py`, and `__call__` of `GMRES/main.py`, `LGMRES/main.py`, `BiCGSTAB/main.py`, `TFQMR/main.py`,
  `GCROTmk/main.py` and `direct/main.py` in `solvers/regular`
* the beginnings and ends of the routines in `solvers/regular/*/helpers`
* `preconditioners/allocator.py`, `base.py`, `Jacobi.py` and `spiLU.py`

The iterations themselves are parameters here (`Kernels`); those of the library are modelled in `Model/Krylov` and `Model/Stop`.
All cores are modelled at once; `none` is an exception.  Numbers are elements of a field.
-/

namespace Mifem.Solver
open Mifem.FV Mifem.GlobalLA

variable {K : Type} [Field K] [DecidableEq K]

/-- the solvers of `___solver_name___` (allocator.py 54-63). -/
inductive Name
  | gmres
  | lgmres
  | bicgstab
  | direct
  | tfqmr
  | gcrotmk
  deriving DecidableEq

/-- `___solver_name___()[solver_ID]` (allocator.py 14; solve/main.py 44-66: other names but 'Schur' are refused). -/
def nameOf (s : String) : Option Name :=
  if s = "GMRES" then some .gmres
  else if s = "LGMRES" then some .lgmres
  else if s = "BiCGSTAB" then some .bicgstab
  else if s = "direct" then some .direct
  else if s = "TFQMR" then some .tfqmr
  else if s = "GCROTmk" then some .gcrotmk
  else none

/-- the kinds of routines: the two MPI versions, and scipy. -/
inductive Routine
  | mpi0
  | mpi1
  | sp
  deriving DecidableEq

/-- `ROUTINE` (GMRES 108-124, LGMRES 129-138, BiCGSTAB 101-109, TFQMR 101-108, GCROTmk 109-116, direct 51-58); `n` is
`A.shape[0]`. -/
def routineOf (s : Name) (routine : String) (n : Nat) : Option Routine :=
  match s with
  | .gmres =>
    if routine = "auto" then (if n < 300000 then some .mpi0 else some .mpi1)
    else if routine = "0" then some .mpi0
    else if routine = "1" then some .mpi1
    else if routine = "sp" then some .sp
    else none
  | .lgmres =>
    if routine = "auto" then some .mpi0
    else if routine = "0" then some .mpi0
    else if routine = "sp" then some .sp
    else none
  | .bicgstab => if routine = "auto" then some .mpi0 else if routine = "0" then some .mpi0 else none
  | .tfqmr => if routine = "auto" then some .sp else if routine = "sp" then some .sp else none
  | .gcrotmk => if routine = "auto" then some .sp else if routine = "sp" then some .sp else none
  | .direct => if routine = "auto" then some .sp else if routine = "0" then some .sp else none

/-- what may be given as `x0`: the number 0, a `LocallyFullVector` (with what it holds; `none` after it has been cleared), a
form, a list of forms, something else. -/
inductive X0 (K : Type)
  | zero
  | full (v : Option (List K))
  | form (f : Form K)
  | forms (fs : List (Form K))
  | other

/-- what may be given as `maxiter`: an int, a str (with what `int(maxiter)` gives), something else. -/
inductive MaxIter
  | int (i : Int)
  | str (i : Option Int)
  | other
  deriving DecidableEq

/-- what may be given as `preconditioner`: nothing, `None`, a str, a pair of an ID and the names of keyword arguments. -/
inductive PreArg
  | absent
  | none_
  | str (id : String)
  | pair (id : Option String) (kw : List String)
  deriving DecidableEq

/-- the preconditioners (preconditioners/allocator.py 25-32). -/
inductive Pre
  | jacobi
  | spilu
  deriving DecidableEq

/-- The keyword arguments of a call: the names that were given, and the values (or the defaults). `cod` is `none` if it was not
given, and `some none` for `COD=None`. -/
structure Args (K : Type) where
  keys : List String
  restart : Int := 100
  m : Int := 100
  k : Int := 10
  maxiter : MaxIter := .int 20
  tol : Rat
  atol : Rat
  pre : PreArg := .absent
  cod : Option (Option Bool) := none

/-- `preconditioner` after regular/allocator.py 39-45 and e.g. GMRES/main.py 98-105: the classes take the given keyword
arguments (Jacobi.py 11, spiLU.py 14). -/
def preOf (p : PreArg) : Option (Option Pre) :=
  let make := fun (id : Option String) (kw : List String) =>
    match id with
    | none => some none
    | some id =>
      if id = "Jacobi" then (if kw = [] then some (some Pre.jacobi) else none)
      else if id = "spiLU" then
        (if kw.all (fun k => decide (k ∈ ["drop_tol", "fill_factor", "drop_rule"])) then some (some Pre.spilu) else none)
      else none
  match p with
  | .absent => make none []
  | .none_ => make none []
  | .str id => make (some id) []
  | .pair id kw => make id kw

/-- the initial guess (GMRES 77-84, LGMRES 82-98, BiCGSTAB 72-78, TFQMR 71-78, GCROTmk 79-86); only LGMRES takes forms. -/
def guess (keep : Bool) (s : Name) (nb : Nat) : X0 K → Option (Option (List K))
  | .zero => some (some (List.replicate nb 0))
  | .full v => some v
  | .form f => if s = .lgmres then (ofForms keep [f]).map some else none
  | .forms fs => if s = .lgmres then (ofForms keep fs).map some else none
  | .other => none

/-- the checks of `maxiter` (e.g. GMRES/main.py 86-92). -/
def maxiterOk : MaxIter → Bool
  | .int i => decide (1 ≤ i)
  | .str (some i) => decide (1 ≤ i)
  | .str none => false
  | .other => false

/-- the other checks (GMRES 94-95, LGMRES 109-116, BiCGSTAB 89, TFQMR 88, GCROTmk 96). -/
def numbersOk (s : Name) (a : Args K) : Bool :=
  (match s with
    | .gmres => decide (3 ≤ a.restart)
    | .lgmres => decide (3 ≤ a.m) && decide (0 ≤ a.k)
    | _ => true) && decide (0 < a.tol) && decide (0 < a.atol)

/-- the keyword arguments that Python accepts: only `BiCGSTAB` has no `**kwargs` (BiCGSTAB/main.py 34-38). -/
def keysOk (s : Name) (keys : List String) : Bool :=
  match s with
  | .bicgstab => keys.all fun k => decide (k ∈ ["x0", "maxiter", "tol", "atol", "preconditioner", "COD"])
  | _ => true

/-- `COD` of the routines: the default is True; `None` counts as False, but as True for the direct solver
(scipy_sparse_linalg_v0.py 33). -/
def codOf (s : Name) (cod : Option (Option Bool)) : Bool :=
  match cod with
  | none => true
  | some none => decide (s = .direct)
  | some (some b) => b

/-! ## Jacobi -/

/-- `DIAG` before `np.reciprocal` (Jacobi.py 18-29): the sum of the diagonals of the parts on all cores. -/
def diagonal (A : List (Sp K)) (r : Nat) : K := (A.map fun M => M.at r r).sum

/-- `invM @ A` for the part of one core (Jacobi.py 29-37; mpi_v0.py 58). In Python the reciprocal of 0 is `inf`; here it is 0. -/
def scale (d : Nat → K) (M : Sp K) : Sp K := ⟨M.fmt, M.m, M.n, M.ents.map fun e => (e.1, e.2.1, (d e.1)⁻¹ * e.2.2)⟩

/-- `invM @ f` (mpi_v0.py 59). -/
def scaleV (d : Nat → K) (f : Nat → K) : Nat → K := fun r => (d r)⁻¹ * f r

/-! ## The calls -/

/-- The iterations. `mpi s v1` receives the parts of the matrix and of the right-hand side on all cores and the initial guess;
`sp s` receives the gathered matrix and right-hand side, the initial guess and whether an incomplete factorization is used.
They return the result, `info`, the residual and the number of iterations. -/
structure Kernels (K : Type) where
  mpi : Name → Bool → List (Sp K) → List (Nat → K) → List K → Args K → Option (List K × Int × K × Nat)
  sp : Name → Sp K → (Nat → K) → List K → Bool → Args K → Option (List K × Int)
  spsolve : Sp K → (Nat → K) → Option (List K)

/-- what is wrapped (routine_2b_run.py 8-13), and what the user has given as `x0`; `none` after the data has been cleared. -/
structure State (K : Type) where
  A : Option (List (Sp K))
  b : Option (List (SpVec K))
  x0 : Option (X0 K)

/-- `X0._V_ = None`: what the user has given is cleared if it was a vector. -/
def clearX0 : Option (X0 K) → Option (X0 K)
  | some (.full _) => some (.full none)
  | x => x

/-- The MPI routines (GMRES/helpers/mpi_v0.py 44-71 and the end; mpi_v1.py 54-76, LGMRES/helpers/mpi_v0.py 55-77 and
BiCGSTAB/helpers/mpi_v0.py 41-65 are the same). spiLU has no `___applying_method___` (base.py 25-27 raises). -/
def runMPI (kn : Kernels K) (s : Name) (v1 : Bool) (a : Args K) (x : List K) (p : Option Pre) (st : State K) :
    Option ((List K × Int × K × Nat) × State K) :=
  st.A.bind fun A => st.b.bind fun b => A.head?.bind fun A0 => b.head?.bind fun b0 =>
    if b0.n = x.length ∧ x.length = A0.m ∧ A0.m = A0.n then
      (match p with
        | none => kn.mpi s v1 A (b.map fun (v : SpVec K) => v.at) x a
        | some .jacobi => kn.mpi s v1 (A.map (scale (diagonal A))) (b.map fun (v : SpVec K) => scaleV (diagonal A) v.at) x a
        | some .spilu => none).map fun res =>
          (res, if codOf s a.cod then ⟨none, none, clearX0 st.x0⟩ else st)
    else none

/-- The scipy routines (GMRES/helpers/scipy_sparse_linalg_gmres.py 49-103; LGMRES, TFQMR and GCROTmk are the same). The
routines of scipy run over `range(maxiter)`, so a str raises. -/
def runSP (kn : Kernels K) (factor : Nat) (s : Name) (a : Args K) (x : List K) (p : Option Pre) (st : State K) :
    Option ((List K × Int × K × Nat) × State K) :=
  st.A.bind fun A => st.b.bind fun b =>
    (gatherM 0 (codOf s a.cod) factor A).bind fun rk => rk.1.head?.bind fun M => b.head?.bind fun b0 =>
      if M.m = b0.n then
        (match a.maxiter, p with
          | .int _, none => kn.sp s M (gatherGlobal b) x false a
          | .int _, some .spilu => kn.sp s M (gatherGlobal b) x true a
          | _, _ => none).bind fun res =>
            if res.1.length = b0.n then
              some ((res.1, res.2, 0, 0), ⟨some rk.2, if codOf s a.cod then none else some b, st.x0⟩)
            else none
      else none

/-- The iterative solvers after the choice of the routine. -/
def runIter (kn : Kernels K) (factor : Nat) (s : Name) (r : Routine) (a : Args K) (x : List K) (p : Option Pre) (st : State K) :
    Option ((List K × Int × K × Nat) × State K) :=
  match r with
  | .mpi0 => runMPI kn s false a x p st
  | .mpi1 => runMPI kn s true a x p st
  | .sp => runSP kn factor s a x p st

/-- `RegularSolverDistributor(solver_ID, routine)(A, b, **kwargs)` (allocator.py 12-51) and the `__call__` of the solver; the
initial guess of a call is what the user has given, in its present state. -/
def call (kn : Kernels K) (keep : Bool) (factor : Nat) (s : Name) (routine : String) (a : Args K) (st : State K) :
    Option ((List K × Int × K × Nat) × State K) :=
  match s with
  | .direct =>
    (routineOf .direct routine 0).bind fun _ => st.A.bind fun A =>
      (FV.direct kn.spsolve factor (some (codOf .direct a.cod)) ⟨A, st.b⟩).map fun t =>
        ((t.1, (t.2.1 : Int), 0, 0), ⟨some t.2.2.A, t.2.2.b, st.x0⟩)
  | s =>
    if keysOk s a.keys && maxiterOk a.maxiter && numbersOk s a then
      st.x0.bind fun x0 => st.b.bind fun b => b.head?.bind fun b0 => (guess keep s b0.n x0).bind fun v =>
        (preOf a.pre).bind fun p => st.A.bind fun A => A.head?.bind fun A0 => (routineOf s routine A0.m).bind fun r =>
          v.bind fun x => runIter kn factor s r a x p st
    else none

/-- `LinearSystem.solve(solver_name, routine=...)` and the call of what it returns (solve/main.py 44-53). -/
def solve (kn : Kernels K) (keep : Bool) (factor : Nat) (name routine : String) (a : Args K) (st : State K) :
    Option ((List K × Int × K × Nat) × State K) :=
  (nameOf name).bind fun s => call kn keep factor s routine a st

end Mifem.Solver
