import Mathlib.Data.Rat.Floor

/-!
# The time iterator

Model of `/repo/tools/iterators/base/main.py` (`Iterator.__init__` l.36-79, setters l.91-128, `__call__` l.139-194,
`shut_down` l.220-262, `run` l.317-383) and of `/repo/tools/iterators/simple.py` (`SimpleIterator`).

Simplifications: times are rational numbers, so that rounding is ignored; all cores have the same state (the decision to
pass a step is made on the master and broadcast, l.338-349); the solver is a function of the two times it is given; the
monitor, the progress bar and the saving of files are left out; the record `RDF` is the list of its rows; reading the file
of an earlier run gives the record of that run.
-/

namespace Mifem.Iter

/-- what a solver may return as `shut_down`. -/
inductive Shut
  | flag (b : Bool)
  | text (s : String)
deriving DecidableEq

/-- a row of the record: index, time, dt, results. -/
structure Row (O : Type) where
  index : Nat
  t : ℚ
  dt : ℚ
  out : O

/-- an iterator to which a solver has been applied. `calls` is not in the code: the steps for which the solver was called,
with the two times it was given. -/
structure It (O : Type) where
  t0 : ℚ
  dt : ℚ
  t : ℚ
  maxSteps : Nat
  running : Nat := 1
  computed : Nat := 0
  shut : Bool := false
  reason : Option String := none
  rdf : List (Row O)
  calls : List (Nat × ℚ × ℚ) := []

variable {O : Type}

/-- a solver: `exit_code` and `message` are not used by the iterator. -/
abbrev Solver (O : Type) := ℚ → ℚ → Shut × O

/-- getter of `shut_down` (l.220-233); `none` is `AssertionError`. -/
def getShut (s : It O) : Option Bool :=
  if s.shut then (if s.reason.isSome then some true else none) else (if s.reason.isNone then some false else none)

/-- setter of `shut_down` (l.235-262). A text passes the first assertion and is rejected by the second one,
`assert shut_down in (1, 0, True, False)`, which tests the argument. -/
def setShut (x : Shut) (s : It O) : Option (It O) :=
  match x with
  | .text _ => none
  | .flag true => some { s with shut := true, reason := some "" }
  | .flag false => if s.reason.isNone then some { s with shut := false } else none

/-- setter of `t` (l.111-115). -/
def setT (t : ℚ) (s : It O) : Option (It O) := if s.t < t then some { s with t := t } else none

/-- `next(self)` of `SimpleIterator` (simple.py l.23-27): calls the solver; `dt` is set to itself (with `dt > 0`). -/
def next (solver : Solver O) (s : It O) : Option (It O × Shut × O) :=
  let o := solver s.t (s.t + s.dt)
  if 0 < s.dt then some ({ s with calls := s.calls ++ [(s.running, s.t, s.t + s.dt)] }, o.1, o.2) else none

/-- one round of the loop in `run` (l.332-383). -/
def round (solver : Solver O) (s : It O) : Option (It O) :=
  if s.rdf.any fun r => r.index == s.running then
    (setT (s.t + s.dt) { s with running := s.running + 1, computed := s.computed + 1 }).bind (setShut (.flag false))
  else
    (next solver s).bind fun x =>
      (setT (x.1.t + s.dt) { x.1 with running := x.1.running + 1, computed := x.1.computed + 1 }).bind fun s' =>
        (setShut x.2.1 s').map fun s'' => { s'' with rdf := s''.rdf ++ [⟨s''.running - 1, s''.t, s''.dt, x.2.2⟩] }

/-- the loop in `run` (l.332), with a bound for the number of rounds. -/
def loop (solver : Solver O) : Nat → It O → Option (It O)
  | 0, s => some s
  | n + 1, s => (getShut s).bind fun b => if !b && decide (s.running ≤ s.maxSteps) then (round solver s).bind (loop solver n) else some s

/-- `run`. -/
def run (solver : Solver O) (s : It O) : Option (It O) := loop solver (s.maxSteps + 1 - s.running) s

/-- `__call__` (l.164-194): the attributes of `__init__` (`running`, `computed`) are not touched; `file` is the record of an
earlier run, if there is one. -/
def call (initial : O) (file : Option (List (Row O))) (s : It O) : It O :=
  { s with shut := false, reason := none, t := s.t0, rdf := file.getD [⟨0, s.t0, s.dt, initial⟩] }

/-- a new iterator (`__init__`). -/
def new (t0 dt : ℚ) (maxSteps : Nat) : It O := { t0 := t0, dt := dt, t := t0, maxSteps := maxSteps, rdf := [] }

/-- `___PRIVATE_parse_time_max_steps_max_time___` (simple.py l.38-71): `dt` and `max_steps`, or `none` if an assertion fails. -/
def parse (t0 : ℚ) (dt : Option ℚ) (maxSteps : Option Nat) (maxTime : Option ℚ) : Option (ℚ × Nat × ℚ) :=
  match dt with
  | some dt =>
    if 0 < dt then
      match maxSteps with
      | some n => if 0 < n then some (dt, n, t0 + dt * n) else none
      | none =>
        match maxTime with
        | some T => if t0 < T then some (dt, ⌈(T - t0) / dt⌉.toNat, t0 + dt * ⌈(T - t0) / dt⌉.toNat) else none
        | none => some (dt, 9999999, t0 + dt * 9999999)
    else none
  | none =>
    match maxSteps, maxTime with
    | some n, some T =>
      if t0 < T ∧ 0 < n then if t0 + (T - t0) / n * n = T then some ((T - t0) / n, n, T) else none else none
    | _, _ => none

end Mifem.Iter
