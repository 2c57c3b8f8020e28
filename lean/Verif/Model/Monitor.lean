import Mathlib.Data.Rat.Floor
import Mathlib.Data.List.MinMax

/-!
# The monitor of an iterator

Python sources, below `/repo/tools/iterators/base`:
* `monitor/main.py`: the constructor (21-64) and the checks of its arguments (66-114)
* `monitor/do.py`: `___Pr_select_reasonable_amount_of_data___` 35-50, `update` 52-102, `auto_save` 105-175,
  `generate_graph_report` (when a report is made, 181-216, 554), `___Pr_filter_extreme_time___` 559-588
* `main.py` 364-417: what `run` asks of the monitor, and the saving at the end

Times are rational numbers of seconds. Every function reads the clock once (`update` and `auto_save` read it twice in the
code, a moment apart). Only the master has a monitor. The contents of the reports and the sleeping are left out.
-/

namespace Mifem.Monitor

/-! ## Arguments -/

/-- a value of `monitor_factor` or `auto_save_frequency`. -/
inductive Val
  | bool (b : Bool)
  | num (q : ℚ)
  | other
  deriving DecidableEq

/-- `___PRIVATE_set_factor___` (monitor/main.py 66-89): the times between two reports and between two saves (both defaults are 600). A
value that is no number cannot be compared (TypeError). -/
def setFactor : Val → Option (ℚ × ℚ)
  | .other => none
  | .bool b => some (times (if b then 1 else 0))
  | .num q => if q = 0 then some (times 0) else if 1 / 10 ≤ q then some (times q) else none
where
  times (f : ℚ) : ℚ × ℚ :=
    let t := if f = 0 then 9999999 else 1 / f * 600
    (if t < 60 then 60 else t, if t < 60 then 60 else t)

/-- `auto_save_frequency`: True, or a number of steps. -/
inductive Freq
  | auto
  | every (n : Nat)
  deriving DecidableEq

/-- `___PRIVATE_set_auto_save_frequency___` (monitor/main.py 91-103). -/
def setFreq : Val → Option Freq
  | .bool true => some .auto
  | .bool false => some (.every 0)
  | .num q => if 0 ≤ q then some (.every ⌊q⌋.toNat) else none
  | .other => none

/-- `___PRIVATE_set_RDF_filename___` (monitor/main.py 105-114). -/
def setName : Option (List Char) → Option (Option (List Char))
  | none => some none
  | some s =>
    let s := if '.' ∈ s then s else s ++ ".csv".toList
    if s.drop (s.length - 4) = ".csv".toList then some (some s) else none

/-! ## The state -/

/-- what does not change during a run. `start` is the time of the constructor, `first` that of the beginning of `run`. -/
structure Cfg where
  freq : Freq
  file : Bool
  saveTime : ℚ
  graphTime : ℚ
  real : Bool
  maxSteps : Nat
  start : ℚ
  first : ℚ

/-- the attributes of the monitor (monitor/main.py 37-60) and `_do_first_auto_save_` (do.py 21). `assess` holds the counter and the sum
of the estimates, `none` after they have been deleted. -/
structure Mon where
  computed : Nat := 0
  times : List (Option ℚ) := [none]
  TIMES : List ℚ := [0]
  current : Option ℚ := none
  last : ℚ := 0
  total : ℚ := 0
  effCost : ℚ := 0
  effNum : Nat := 0
  avg : ℚ := 1
  remaining : ℚ := 1
  assess : Option (Nat × ℚ) := some (0, 0)
  warn : Bool := false
  ever : Bool := false
  lastGraph : ℚ
  lastSave : Option ℚ := none
  firstSave : Bool := true

/-- the largest estimate that is shown (do.py 75-76). -/
def cap (e : ℚ) : ℚ := if 3600 * 24 * 99 < e then 3600 * 24 * 99 + 23 * 3600 + 59 * 60 + 59999 / 1000 else e

/-- `update` (do.py 52-102). `none`: more than 999999 steps are an open iterator (monitor/main.py 33-36), which is not implemented. -/
def update (c : Cfg) (shut : Bool) (now : ℚ) (m : Mon) : Option Mon :=
  if 999999 < c.maxSteps then none
  else
    let m := { m with computed := m.computed + 1 }
    let cur := m.current.getD c.first
    let m := { m with last := now - cur, current := some now, total := now - c.start }
    let m :=
      if 1 / 4 < m.last then
        let m := { m with effCost := m.effCost + m.last, effNum := m.effNum + 1 }
        let m := { m with avg := m.effCost / m.effNum }
        let m := { m with remaining := cap (m.avg * ((c.maxSteps : ℚ) - m.computed)) }
        let m :=
          match m.assess with
          | none => m
          | some (k, s) =>
            let w := m.warn || decide (c.graphTime < (s + m.remaining) / ((k + 1 : Nat) : ℚ))
            { m with warn := w, assess := if w || decide (5 ≤ k + 1) then none else some (k + 1, s + m.remaining) }
        { m with times := m.times ++ [some m.last] }
      else { m with times := m.times ++ [none] }
    let m := { m with TIMES := m.TIMES ++ [m.total] }
    some (if c.maxSteps = m.computed ∨ shut = true then { m with remaining := 0 } else m)

/-- two attempts to write the file (e.g. do.py 118-126): failing is no error. -/
def write {R : Type} (ok : Bool × Bool) (rdf : R) (file : Option R) : Option R := if ok.1 || ok.2 then some rdf else file

/-- `auto_save` (do.py 105-175); `rdf` is the present record, `file` what is on the disk. -/
def autoSave {R : Type} (c : Cfg) (now : ℚ) (ok : Bool × Bool) (rdf : R) (s : Mon × Option R) : Mon × Option R :=
  if c.file then
    let ls := s.1.lastSave.getD c.first
    let m := { s.1 with lastSave := some ls }
    let gap := now - ls
    match c.freq with
    | .auto =>
      if c.saveTime < gap ∨ m.firstSave = true then ({ m with lastSave := some now, firstSave := false }, write ok rdf s.2)
      else (m, s.2)
    | .every n =>
      if 0 < n then
        (if (m.computed % n = 0 ∧ 1 / 10 * c.saveTime < gap) ∨ c.saveTime < gap ∨ m.firstSave = true then
          ({ m with lastSave := some now, firstSave := false }, write ok rdf s.2)
        else (m, s.2))
      else if c.real then
        ({ m with lastSave := some now }, if m.current.getD c.first - ls < 10 then s.2 else write ok rdf s.2)
      else (m, s.2)
  else s

/-- `generate_graph_report`: whether a report is made (do.py 188-213), and the state afterwards (210-216, 554). -/
def report (c : Cfg) (shut : Bool) (now : ℚ) (m : Mon) : Mon × Bool :=
  let cur := m.current.getD c.first
  let judge1 := (decide (m.computed = c.maxSteps) || shut) && (decide (c.graphTime < m.total) || m.ever)
  let judge2 := decide (c.graphTime < cur - m.lastGraph) || m.warn
  let judge3 := c.real && !decide (cur - m.lastGraph < 10)
  let m := { m with warn := false }
  if judge1 || judge2 || judge3 then ({ m with ever := true, lastGraph := now }, true) else (m, false)

/-! ## A run -/

/-- One round of the loop of `run` as the monitor sees it (main.py 364-380): the row that the step adds to the record (`none` if
the step was already recorded), whether the solver asks to stop, three readings of the clock, and whether the attempts to
write succeed. -/
structure Event (α : Type) where
  row : Option α
  shut : Bool := false
  tu : ℚ
  ts : ℚ
  tg : ℚ
  ok : Bool × Bool := (true, true)

/-- the monitor, the record, what is on the disk, and after which steps reports were made. -/
structure Run (α : Type) where
  mon : Mon
  rdf : List α
  file : Option (List α)
  reports : List Nat := []

/-- one round (main.py 369-380). -/
def round {α : Type} (c : Cfg) (e : Event α) (s : Run α) : Option (Run α) :=
  let rdf := s.rdf ++ e.row.toList
  (update c e.shut e.tu s.mon).map fun m =>
    if e.row.isSome then
      let sv := autoSave c e.ts e.ok rdf (m, s.file)
      let rp := report c e.shut e.tg sv.1
      ⟨rp.1, rdf, sv.2, if rp.2 then s.reports ++ [m.computed] else s.reports⟩
    else ⟨m, rdf, s.file, s.reports⟩

/-- the rounds one after the other. -/
def rounds {α : Type} (c : Cfg) : List (Event α) → Run α → Option (Run α)
  | [], s => some s
  | e :: es, s => (round c e s).bind (rounds c es)

/-- the saving at the end of `run` (main.py 389-417): three attempts, then a new file. The result says which file has the record
(`false`: the given one); `none` is the exception of the last attempt. -/
def finalSave (ok : Bool × Bool × Bool × Bool) : Option Bool :=
  if ok.1 then some false else if ok.2.1 then some false else if ok.2.2.1 then some false else if ok.2.2.2 then some true else none

/-! ## Reports -/

/-- `___Pr_select_reasonable_amount_of_data___` (do.py 35-50), with exact arithmetic in `np.linspace`. -/
def select (maxNum lastNum N : Nat) : Option (List Nat) :=
  if 10 ≤ maxNum ∧ 1 ≤ lastNum ∧ lastNum < maxNum then
    some (if maxNum < N then
      (List.range (maxNum + 1 - lastNum)).map (fun k => k * (N - lastNum) / (maxNum + 1 - lastNum - 1)) ++
        (List.range (lastNum - 1)).map fun i => N + 1 - lastNum + i
    else List.range N)
  else none

/-- `___Pr_filter_extreme_time___` (do.py 559-588); `none` is nan. -/
def filterExtreme (times : List (Option ℚ)) : List (Option ℚ) :=
  let valid := times.filterMap id
  match valid.max? with
  | none => times
  | some maxt =>
    if 2 * (valid.sum / valid.length) < maxt ∧ (valid.filter fun t => decide (9 / 10 * maxt < t)).length = 1 then
      times.map fun t => if 9 / 10 * maxt < t.getD 0 then none else t
    else times

end Mifem.Monitor
