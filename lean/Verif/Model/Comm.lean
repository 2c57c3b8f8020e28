import Mathlib.Data.List.Basic

/-!
# Communication patterns between cores

Model of
* `/repo/root/config/tree.py` (TREE)
* `/repo/root/config/group.py` (GROUP_CORES)
* `/repo/root/config/chaining.py` (CHAINING)
* `/repo/root/config/dispatching.py` (DISPATCHING)
* the use of TREE in `/repo/tools/miLinearAlgebra/dataStructures/globalMatrix/do.py` 72-119

Programs that communicate are modelled by transition systems: the state of all cores and of the messages in flight; a
step is one action of a core. Sending may wait for the receiver or may not (MPI allows both), so both are possible steps.
-/

namespace Mifem.Comm

/-! ### TREE -/

/-- tree.py 16, 21: the rows of `H`; `none` stands for -1. -/
def pairUp : List Nat → List (Nat × Option Nat)
  | [] => []
  | [a] => [(a, none)]
  | a :: b :: l => (a, some b) :: pairUp l

/-- tree.py 18, 23: `KEYS = H[:, 0]`. -/
def keysOf (H : List (Nat × Option Nat)) : List Nat := H.map Prod.fst

theorem keysOf_length_le : ∀ l : List Nat, (keysOf (pairUp l)).length ≤ l.length
  | [] => by simp [pairUp, keysOf]
  | [a] => by simp [pairUp, keysOf]
  | a :: b :: l => by
    have := keysOf_length_le l
    simp [keysOf, pairUp] at this ⊢
    omega

theorem keysOf_length_lt {l : List Nat} (h : 1 < l.length) : (keysOf (pairUp l)).length < l.length := by
  match l with
  | [] => simp at h
  | [a] => simp at h
  | a :: b :: l =>
    have := keysOf_length_le l
    simp [keysOf, pairUp] at this ⊢
    omega

/-- tree.py 20-24: the `while` loop; the list of all `H`. -/
def treeLoop (keys : List Nat) : List (List (Nat × Option Nat)) :=
  if 1 < keys.length then pairUp keys :: treeLoop (keysOf (pairUp keys)) else []
termination_by keys.length
decreasing_by exact keysOf_length_lt ‹_›

/-- tree.py 9-26: all `H` of `TREE(2)` for `size` cores; the first one is yielded in any case. -/
def TREE (size : Nat) : List (List (Nat × Option Nat)) :=
  pairUp (List.range size) :: treeLoop (keysOf (pairUp (List.range size)))

/-- what a core does in a round. -/
inductive Act
  | recv (source tag : Nat)
  | send (dest tag : Nat)
deriving DecidableEq

/-- tree.py 29-44, from row number `tag` on. -/
def parseFrom (rank : Nat) : Nat → List (Nat × Option Nat) → Option Act
  | _, [] => none
  | tag, (_, none) :: H => parseFrom rank (tag + 1) H
  | tag, (i, some j) :: H =>
    if rank = i then some (.recv j tag)
    else if rank = j then some (.send i tag)
    else parseFrom rank (tag + 1) H

/-- what the generator yields to `rank` in round `t`. -/
def treeAct (size t rank : Nat) : Option Act := parseFrom rank 0 ((TREE size).getD t [])

/-! ### programs that follow a schedule of rounds, as in do.py 72-119 -/

variable {M : Type}

/-- State of all cores: round reached, the local data, and the messages in flight from one core to another. -/
structure Net (M : Type) where
  pc : Nat → Nat
  data : Nat → M
  box : Nat → Nat → List (Nat × M)

/-- change of a function at one place. -/
def set1 {β : Type} (f : Nat → β) (i : Nat) (b : β) : Nat → β := fun j => if j = i then b else f j

/-- One step (do.py 74-119; the parts of a split matrix are one message here): a core without a partner skips the round;
a core receives directly from a waiting sender; a core sends without waiting; a core receives a message in flight (the
first one with the right tag). A receiver adds to its data, a sender is left with zero. The flag says whether the step is
a send that does not wait. -/
inductive NetStep [Add M] [Zero M] (act : Nat → Nat → Option Act) (size n : Nat) : Bool → Net M → Net M → Prop
  | skip (s : Net M) (i : Nat) (hi : i < size) (hn : s.pc i < n) (h : act (s.pc i) i = none) :
      NetStep act size n false s { s with pc := set1 s.pc i (s.pc i + 1) }
  | direct (s : Net M) (i j m : Nat) (hi : i < size) (hj : j < size) (hij : i ≠ j) (hni : s.pc i < n) (hnj : s.pc j < n)
      (h1 : act (s.pc i) i = some (.recv j m)) (h2 : act (s.pc j) j = some (.send i m))
      (h3 : ∀ x ∈ s.box j i, x.1 ≠ m) :
      NetStep act size n false s
        { s with pc := set1 (set1 s.pc i (s.pc i + 1)) j (s.pc j + 1)
                 data := set1 (set1 s.data i (s.data i + s.data j)) j 0 }
  | sendOff (s : Net M) (i j m : Nat) (hj : j < size) (hnj : s.pc j < n) (h : act (s.pc j) j = some (.send i m)) :
      NetStep act size n true s
        { pc := set1 s.pc j (s.pc j + 1)
          data := set1 s.data j 0
          box := set1 s.box j (set1 (s.box j) i (s.box j i ++ [(m, s.data j)])) }
  | take (s : Net M) (i j m : Nat) (d : M) (pre post : List (Nat × M)) (hi : i < size) (hni : s.pc i < n)
      (h : act (s.pc i) i = some (.recv j m)) (hb : s.box j i = pre ++ (m, d) :: post) (hpre : ∀ x ∈ pre, x.1 ≠ m) :
      NetStep act size n false s
        { pc := set1 s.pc i (s.pc i + 1)
          data := set1 s.data i (s.data i + d)
          box := set1 s.box j (set1 (s.box j) i (pre ++ post)) }

/-- start: every core at round 0 with its data. -/
def Net.start (f : Nat → M) : Net M := ⟨fun _ => 0, f, fun _ _ => []⟩

/-- reachable states. -/
inductive NetReach [Add M] [Zero M] (act : Nat → Nat → Option Act) (size n : Nat) (f : Nat → M) : Net M → Prop
  | start : NetReach act size n f (Net.start f)
  | step {s s' : Net M} {b : Bool} : NetReach act size n f s → NetStep act size n b s s' → NetReach act size n f s'

/-! ### GROUP_CORES -/

/-- group.py 21-32: the number of groups. `member` is an integer here (`int(member_num)`); `np.ceil(SIZE / member_num)` is
exact for the numbers of cores that exist. -/
def groupNum (size member : Nat) (group : Option Nat) : Nat :=
  match group with
  | some g => g
  | none =>
    if size = 1 then 1
    else
      let m := if size < member then size else if member ≤ 1 then 1 else member
      (size + m - 1) / m

/-- group.py 34: `num_cores`. -/
def numCores (size g : Nat) : List Nat := (List.range g).map fun x => size / g + (if x < size % g then 1 else 0)

/-- group.py 35-37: `GROUPS`. -/
def groups (size g : Nat) : List (List Nat) :=
  (List.range g).map fun i => List.range' (((numCores size g).take i).sum) ((numCores size g).getD i 0)

/-- what GROUP_CORES returns: group number, leaders, the other members for each leader, and my leader. -/
structure Groups where
  number : Nat
  leaders : List Nat
  members : List (Nat × List Nat)
  mine : Option Nat

/-- group.py 9-51 on core `rank`; the assertions are those of lines 33, 38 and 45. -/
def groupCores (size rank member : Nat) (group : Option Nat) : Option Groups :=
  let g := groupNum size member group
  if 1 ≤ g ∧ g ≤ size then
    let G := groups size g
    if ((G.getLastD []).getLast?) = some (size - 1) ∧ G.all (fun x => !x.isEmpty) then
      some { number := G.length
             leaders := G.map fun x => x.headD 0
             members := G.map fun x => (x.headD 0, x.tail)
             mine := ((G.filter fun x => x.contains rank).getLast?).map fun x => x.headD 0 }
    else none
  else none

/-! ### CHAINING -/

/-- State of `CHAINING`: which cores have executed the method (in order of time), and whether the token from core `i` to
core `i + 1` has been sent. -/
structure ChSt where
  log : List Nat
  sent : Nat → Bool

/-- chaining.py 19-33: core 0 executes at once, the others after receiving the token of the previous core; then all but
the last one send the token. -/
inductive ChStep (size : Nat) : ChSt → ChSt → Prop
  | exec (s : ChSt) (i : Nat) (hi : i < size) (hn : i ∉ s.log) (h : i = 0 ∨ s.sent (i - 1) = true) :
      ChStep size s { s with log := s.log ++ [i] }
  | send (s : ChSt) (i : Nat) (hi : i + 1 < size) (h : i ∈ s.log) (hn : s.sent i = false) :
      ChStep size s { s with sent := set1 s.sent i true }

inductive ChReach (size : Nat) : ChSt → Prop
  | start : ChReach size ⟨[], fun _ => false⟩
  | step {s s' : ChSt} : ChReach size s → ChStep size s s' → ChReach size s'

/-! ### DISPATCHING -/

/-- where the master is. -/
inductive Phase
  | assign
  | drain (k : Nat)
  | stop (k : Nat)
  | fin
deriving DecidableEq

/-- State of `DISPATCHING` on more than two cores. In `inbox`, `none` is the message 'stop waiting for new tasks'; `notif i`
is the number of messages of core `i` to the master in flight. -/
structure Disp (τ ρ : Type) where
  tasks : List τ
  free : Nat → Bool
  phase : Phase
  inbox : Nat → List (Option τ)
  notif : Nat → Nat
  pool : Nat → List ρ
  done : Nat → Bool

/-- dispatching.py 42-83. `isStop x` says that the comparison of line 79 with the stop message succeeds for task `x`.
Sends do not wait here. Core 0 is the master. -/
inductive DispStep {τ ρ : Type} (size : Nat) (method : τ → ρ) (isStop : τ → Bool) : Disp τ ρ → Disp τ ρ → Prop
  | give (s : Disp τ ρ) (x : τ) (xs : List τ) (i : Nat) (hp : s.phase = .assign) (ht : s.tasks = x :: xs)
      (h1 : 1 ≤ i) (h2 : i < size) (hf : s.free i = true) (hmin : ∀ j, 1 ≤ j → j < i → s.free j = false) :
      DispStep size method isStop s
        { s with tasks := xs, free := set1 s.free i false, inbox := set1 s.inbox i (s.inbox i ++ [some x]) }
  | wait (s : Disp τ ρ) (i : Nat) (hp : s.phase = .assign) (ht : s.tasks ≠ [])
      (hnone : ∀ j, 1 ≤ j → j < size → s.free j = false) (h1 : 1 ≤ i) (h2 : i < size) (hn : 0 < s.notif i) :
      DispStep size method isStop s { s with free := set1 s.free i true, notif := set1 s.notif i (s.notif i - 1) }
  | toDrain (s : Disp τ ρ) (hp : s.phase = .assign) (ht : s.tasks = []) :
      DispStep size method isStop s { s with phase := .drain 1 }
  | drainFree (s : Disp τ ρ) (k : Nat) (hp : s.phase = .drain k) (hk : k < size) (hf : s.free k = true) :
      DispStep size method isStop s { s with phase := .drain (k + 1) }
  | drainWait (s : Disp τ ρ) (k : Nat) (hp : s.phase = .drain k) (hk : k < size) (hf : s.free k = false)
      (hn : 0 < s.notif k) :
      DispStep size method isStop s
        { s with phase := .drain (k + 1), free := set1 s.free k true, notif := set1 s.notif k (s.notif k - 1) }
  | toStop (s : Disp τ ρ) (k : Nat) (hp : s.phase = .drain k) (hk : size ≤ k) :
      DispStep size method isStop s { s with phase := .stop 1 }
  | stopOne (s : Disp τ ρ) (k : Nat) (hp : s.phase = .stop k) (hk : k < size) (hf : s.free k = true) :
      DispStep size method isStop s { s with phase := .stop (k + 1), inbox := set1 s.inbox k (s.inbox k ++ [none]) }
  | toFin (s : Disp τ ρ) (k : Nat) (hp : s.phase = .stop k) (hk : size ≤ k) :
      DispStep size method isStop s { s with phase := .fin }
  | work (s : Disp τ ρ) (i : Nat) (x : τ) (rest : List (Option τ)) (h1 : 1 ≤ i) (h2 : i < size) (hd : s.done i = false)
      (hb : s.inbox i = some x :: rest) (hx : isStop x = false) :
      DispStep size method isStop s
        { s with inbox := set1 s.inbox i rest, pool := set1 s.pool i (s.pool i ++ [method x])
                 notif := set1 s.notif i (s.notif i + 1) }
  | leave (s : Disp τ ρ) (i : Nat) (msg : Option τ) (rest : List (Option τ)) (h1 : 1 ≤ i) (h2 : i < size)
      (hd : s.done i = false) (hb : s.inbox i = msg :: rest) (hx : ∀ x, msg = some x → isStop x = true) :
      DispStep size method isStop s { s with inbox := set1 s.inbox i rest, done := set1 s.done i true }

/-- dispatching.py 27-43: the start. -/
def Disp.start {τ ρ : Type} (tasks : List τ) : Disp τ ρ :=
  ⟨tasks, fun i => decide (1 ≤ i), .assign, fun _ => [], fun _ => 0, fun _ => [], fun _ => false⟩

inductive DispReach {τ ρ : Type} (size : Nat) (method : τ → ρ) (isStop : τ → Bool) (tasks : List τ) : Disp τ ρ → Prop
  | start : DispReach size method isStop tasks (Disp.start tasks)
  | step {s s' : Disp τ ρ} : DispReach size method isStop tasks s → DispStep size method isStop s s' →
      DispReach size method isStop tasks s'

/-- all cores reach the barrier of line 85. -/
def Disp.finished {τ ρ : Type} (size : Nat) (s : Disp τ ρ) : Prop :=
  s.phase = .fin ∧ ∀ i, 1 ≤ i → i < size → s.done i = true

/-- dispatching.py 34-41: one or two cores; the pool of the master (the other core has an empty one). -/
def dispatchSmall {τ ρ : Type} (method : τ → ρ) (tasks : List τ) : List ρ := tasks.foldl (fun p x => p ++ [method x]) []

end Mifem.Comm
