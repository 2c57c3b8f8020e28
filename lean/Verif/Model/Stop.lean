import Mathlib.Algebra.Order.Field.Rat
import Mathlib.Data.Rat.Defs

/-!
# Stop criteria and outer loops of the iterative solvers

Model of
* `/repo/tools/miLinearAlgebra/solvers/regular/GMRES/helpers/components/stop_criterion.py`
* the outer loop shared by `GMRES/helpers/mpi_v0.py`, `GMRES/helpers/mpi_v1.py`, `LGMRES/helpers/mpi_v0.py`,
  `BiCGSTAB/helpers/mpi_v0.py`
* `/repo/tools/miLinearAlgebra/nonlinearSystem/solve/NewtonRaphson/helpers/stop_criterion.py`
* the loop of `/repo/tools/miLinearAlgebra/nonlinearSystem/solve/NewtonRaphson/regular.py`

Residual norms are rational numbers (no rounding, no NaN). A quotient with denominator 0 compares as false, as numpy's
NaN does.
-/

namespace Mifem.Stop

/-- `maxiter`: an int, or a str (forced number of iterations). -/
inductive MaxIter
  | soft (n : Nat)
  | forced (n : Nat)
deriving DecidableEq

/-- numpy `a / b < t`. -/
def quotLt (a b t : Rat) : Bool := decide (b ≠ 0) && decide (a / b < t)

/-- `L[-1]` and `L[-2]`. -/
def last1 (L : List Rat) : Option Rat := L.getLast?
def last2 (L : List Rat) : Option Rat := L.dropLast.getLast?

/-- stop_criterion.py 43-54: divergence. -/
def gmresDiverges (b2 b1 : Rat) : Bool :=
  decide (b1 > b2) && (decide (b2 > 1 ∧ b1 - b2 > 100 * b2) || decide (b1 > 10000000) || decide (b1 - b2 > 100))

/-- stop_criterion.py 57-64. -/
def gmresRelative (tol beta0 beta : Rat) : Bool := decide (beta < beta0) && quotLt (beta0 - beta) beta0 tol

/-- stop_criterion.py 67-108: slow convergence. -/
def gmresSlow (tol : Rat) (BETA : List Rat) : Bool :=
  if BETA.length ≥ 5 then
    let CHECKS := if BETA.length > 10 then BETA.drop (BETA.length - 8) else BETA.drop 1
    let JUDGES := (CHECKS.zip (CHECKS.drop 1)).map fun p => decide (p.1 - p.2 < 0) || quotLt (p.1 - p.2) p.1 tol
    let cT := JUDGES.count true
    let cF := JUDGES.count false
    decide (cT ≥ 3) || decide (cT ≥ cF)
  else false

/-- stop_criterion.py 4-150: JUDGE and info (`none`: do not stop). The outer `none` is an exception. -/
def gmresStop (tol atol : Rat) (iter : Nat) (mx : MaxIter) (BETA : List Rat) : Option (Nat × Option Int) :=
  match mx with
  | .forced n => some (if iter ≥ n then (2, some iter) else (0, none))
  | .soft n =>
    if tol < 1 / 100 then
      match BETA.head?, last1 BETA, last2 BETA with
      | some beta0, some b1, some b2 => some (
          if b1 < atol then (1, some 0)
          else if iter ≥ n then (2, some iter)
          else if gmresDiverges b2 b1 then (3, some (-1))
          else if gmresRelative tol beta0 b1 then (4, some 0)
          else if gmresSlow tol BETA then (5, some iter)
          else (0, none))
      | _, _, _ => none
    else none

/-- mpi_v1.py 105-109 (and the same in the other solvers): the list of residuals. -/
def betaUpdate (BETA : Option (List Rat)) (beta : Rat) : List Rat :=
  let B := BETA.getD [beta]
  let B := if B.length > 20 then B.take 1 ++ B.drop (B.length - 2) else B
  B ++ [beta]

/-- the outer loop; `res k` is the residual after `k` outer iterations. Result: ITER, JUDGE, info. `none`: exception, or
not finished within `fuel` rounds. -/
def gmresLoop (tol atol : Rat) (mx : MaxIter) (res : Nat → Rat) : Nat → Nat → Option (List Rat) → Option (Nat × Nat × Int)
  | 0, _, _ => none
  | fuel + 1, iter, BETA =>
    let B := betaUpdate BETA (res iter)
    match gmresStop tol atol iter mx B with
    | none => none
    | some (j, some info) => some (iter, j, info)
    | some (_, none) => gmresLoop tol atol mx res fuel (iter + 1) (some B)

/-! ### Newton-Raphson -/

/-- NewtonRaphson/helpers/stop_criterion.py 41-53. -/
def nlsDiverges (b2 b1 : Rat) : Bool :=
  decide (b1 > b2) && (decide (b2 > 1 ∧ b1 - b2 > b2 / 2) || decide (b1 > 10000000) || decide (b1 - b2 > 10) ||
    decide (b1 > 10 * b2))

def nlsJudge3 (BETA : List Rat) (b1 : Rat) : Bool :=
  match last2 BETA with
  | some b2 => nlsDiverges b2 b1
  | none => false

/-- NewtonRaphson/helpers/stop_criterion.py 9-109. -/
def nlsStop (BETA : List Rat) (atol : Rat) (iter : Nat) (mx : MaxIter) : Option (Nat × Option Int) :=
  match mx with
  | .forced n => some (if iter ≥ n then (2, some iter) else (0, none))
  | .soft n =>
    match last1 BETA with
    | none => none
    | some b1 => some (
        if b1 < atol then (1, some 0)
        else if iter ≥ n then (2, some iter)
        else if nlsJudge3 BETA b1 then (3, some (-1))
        else (0, none))

/-- regular.py 244-246. -/
def nlsBeta (BETA : List Rat) (beta : Rat) : List Rat :=
  let B := BETA ++ [beta]
  if B.length > 10 then B.take 1 ++ B.drop (B.length - 2) else B

/-- regular.py 206-214: entries of the initial guess set by the user, in the order of the customizations. -/
def setGuess (g : List (Nat × Rat)) (x : Nat → Rat) : Nat → Rat :=
  g.foldl (fun x p => fun i => if i = p.1 then p.2 else x i) x

/-- regular.py 112-263: the loop. `lin x` is the update obtained from the system linearised at `x` and solved; `norm` is
`vector_norm`. Result: solution, info, ITER and JUDGE. -/
def newtonLoop (lin : (Nat → Rat) → Nat → Rat) (norm : (Nat → Rat) → Rat) (g : List (Nat × Rat)) (atol : Rat) (mx : MaxIter) :
    Nat → Nat → (Nat → Rat) → List Rat → Option ((Nat → Rat) × Int × Nat × Nat)
  | 0, _, _, _ => none
  | fuel + 1, iter, xi, BETA =>
    let iter := iter + 1
    let dx := lin xi
    let xi := if iter = 1 then setGuess g xi else xi
    let B := nlsBeta BETA (norm dx)
    match nlsStop B atol iter mx with
    | none => none
    | some (j, some info) => some (fun i => xi i + dx i, info, iter, j)
    | some (_, none) => newtonLoop lin norm g atol mx fuel iter (fun i => xi i + dx i) B

end Mifem.Stop
