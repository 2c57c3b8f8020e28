import Verif.Model.Iterator
import Mathlib.Tactic.Ring
import Mathlib.Tactic.Linarith
import Mathlib.Tactic.FieldSimp

/-!
# C33: the time iterator
-/

namespace Mifem.Props
open Mifem.Iter

variable {O : Type}

/-- time after `k` steps. -/
def timeAt (t0 dt : ℚ) (k : Nat) : ℚ := t0 + k * dt

/-- is step `k` in the record? -/
def recorded (R : List (Row O)) (k : Nat) : Bool := R.any fun r => r.index == k

/-- what the solver returns for step `k`. -/
def result (solver : Solver O) (t0 dt : ℚ) (k : Nat) : Shut × O := solver (timeAt t0 dt (k - 1)) (timeAt t0 dt k)

/-- the steps among `1..n` that are not recorded. -/
def toCompute (R : List (Row O)) (n : Nat) : List Nat := ((List.range n).map (· + 1)).filter fun k => !recorded R k

/-- the calls of the solver for these steps. -/
def callsFor (t0 dt : ℚ) (R : List (Row O)) (n : Nat) : List (Nat × ℚ × ℚ) :=
  (toCompute R n).map fun k => (k, timeAt t0 dt (k - 1), timeAt t0 dt k)

/-- the rows for these steps. -/
def rowsFor (solver : Solver O) (t0 dt : ℚ) (R : List (Row O)) (n : Nat) : List (Row O) :=
  (toCompute R n).map fun k => ⟨k, timeAt t0 dt k, dt, (result solver t0 dt k).2⟩

/-- the solver is called for step `k` and asks to stop. -/
def stopsAt (solver : Solver O) (t0 dt : ℚ) (R : List (Row O)) (k : Nat) : Bool :=
  k != 0 && !recorded R k && (result solver t0 dt k).1 == .flag true

theorem toCompute_succ (R : List (Row O)) (n : Nat) : toCompute R (n + 1) = if recorded R (n + 1) then toCompute R n else toCompute R n ++ [n + 1] := by
  unfold toCompute
  rw [List.range_succ, List.map_append, List.filter_append]
  cases h : recorded R (n + 1) <;> simp [h]

/-- the state after `n` steps. -/
def after (solver : Solver O) (t0 dt : ℚ) (N : Nat) (R : List (Row O)) (n : Nat) : It O :=
  { t0 := t0, dt := dt, t := timeAt t0 dt n, maxSteps := N, running := n + 1, computed := n, shut := stopsAt solver t0 dt R n
    reason := if stopsAt solver t0 dt R n then some "" else none
    rdf := R ++ rowsFor solver t0 dt R n, calls := callsFor t0 dt R n }

theorem timeAt_succ (t0 dt : ℚ) (n : Nat) : timeAt t0 dt n + dt = timeAt t0 dt (n + 1) := by
  unfold timeAt
  push_cast
  ring

theorem any_after (solver : Solver O) (t0 dt : ℚ) (R : List (Row O)) (n : Nat) :
    ((R ++ rowsFor solver t0 dt R n).any fun r => r.index == n + 1) = recorded R (n + 1) := by
  rw [List.any_append]
  have : ((rowsFor solver t0 dt R n).any fun r => r.index == n + 1) = false := by
    rw [List.any_eq_false]
    intro r hr
    unfold rowsFor at hr
    obtain ⟨k, hk, rfl⟩ := List.mem_map.1 hr
    unfold toCompute at hk
    obtain ⟨j, hj, rfl⟩ := List.mem_map.1 (List.mem_filter.1 hk).1
    rw [List.mem_range] at hj
    simp
    omega
  rw [this, Bool.or_false]
  rfl

theorem round_after (solver : Solver O) (t0 dt : ℚ) (hdt : 0 < dt) (N : Nat) (R : List (Row O)) (n : Nat) (hns : stopsAt solver t0 dt R n = false)
    (hflag : recorded R (n + 1) = false → ∃ b, (result solver t0 dt (n + 1)).1 = .flag b) :
    Iter.round solver (after solver t0 dt N R n) = some (after solver t0 dt N R (n + 1)) := by
  have hany : ((after solver t0 dt N R n).rdf.any fun r => r.index == (after solver t0 dt N R n).running) = recorded R (n + 1) := any_after solver t0 dt R n
  have hlt : timeAt t0 dt n < timeAt t0 dt (n + 1) := by
    rw [← timeAt_succ]
    linarith
  unfold Iter.round
  rw [hany]
  cases hrec : recorded R (n + 1) with
  | true =>
    rw [if_pos rfl]
    simp only [after]
    have hst : stopsAt solver t0 dt R (n + 1) = false := by simp [stopsAt, hrec]
    simp only [setT, timeAt_succ, hlt, if_true, Option.bind_some, setShut, hns, hst]
    simp [rowsFor, callsFor, toCompute_succ, hrec]
  | false =>
    obtain ⟨b, hb⟩ := hflag hrec
    rw [if_neg (by simp)]
    simp only [after]
    have hst : stopsAt solver t0 dt R (n + 1) = b := by
      unfold stopsAt
      rw [hrec, hb]
      cases b <;> rfl
    have hres : solver (timeAt t0 dt n) (timeAt t0 dt (n + 1)) = result solver t0 dt (n + 1) := rfl
    simp only [next, hdt, timeAt_succ, hres, if_true, Option.bind_some, setT, hlt]
    rw [hb]
    cases b with
    | true => simp [setShut, hst, rowsFor, callsFor, toCompute_succ, hrec]
    | false => simp [setShut, hst, hns, rowsFor, callsFor, toCompute_succ, hrec]

theorem round_text (solver : Solver O) (t0 dt : ℚ) (N : Nat) (R : List (Row O)) (n : Nat) (hrec : recorded R (n + 1) = false) (s : String)
    (hs : (result solver t0 dt (n + 1)).1 = .text s) : Iter.round solver (after solver t0 dt N R n) = none := by
  have hany : ((after solver t0 dt N R n).rdf.any fun r => r.index == (after solver t0 dt N R n).running) = recorded R (n + 1) := any_after solver t0 dt R n
  unfold Iter.round
  rw [hany, hrec, if_neg (by simp)]
  simp only [after]
  have hres : solver (timeAt t0 dt n) (timeAt t0 dt (n + 1)) = result solver t0 dt (n + 1) := rfl
  simp only [next, timeAt_succ, hres]
  rw [hs]
  by_cases hd : 0 < dt
  · simp only [hd, if_true, Option.bind_some, setT]
    by_cases ht : timeAt t0 dt n < timeAt t0 dt (n + 1)
    · simp [ht, setShut]
    · simp [setShut]
  · simp [hd]

theorem getShut_after (solver : Solver O) (t0 dt : ℚ) (N : Nat) (R : List (Row O)) (n : Nat) :
    getShut (after solver t0 dt N R n) = some (stopsAt solver t0 dt R n) := by
  unfold getShut after
  cases stopsAt solver t0 dt R n <;> rfl

/-- the whole loop. -/
theorem loop_after (solver : Solver O) (t0 dt : ℚ) (hdt : 0 < dt) (N : Nat) (R : List (Row O))
    (hflag : ∀ k, 1 ≤ k → k ≤ N → recorded R k = false → ∃ b, (result solver t0 dt k).1 = .flag b) :
    ∀ fuel n, n + fuel = N → ∃ m, n ≤ m ∧ m ≤ N ∧ loop solver fuel (after solver t0 dt N R n) = some (after solver t0 dt N R m) ∧
      (m = N ∨ stopsAt solver t0 dt R m = true) ∧ ∀ k, n ≤ k → k < m → stopsAt solver t0 dt R k = false
  | 0, n, h => ⟨n, Nat.le_refl _, by omega, rfl, Or.inl (by omega), fun k h1 h2 => by omega⟩
  | fuel + 1, n, h => by
    rw [loop, getShut_after]
    simp only [Option.bind_some]
    cases hs : stopsAt solver t0 dt R n with
    | true => exact ⟨n, Nat.le_refl _, by omega, by simp, Or.inr hs, fun k h1 h2 => by omega⟩
    | false =>
      have hle : (after solver t0 dt N R n).running ≤ (after solver t0 dt N R n).maxSteps := by
        simp only [after]
        omega
      rw [if_pos (by simp [hle]), round_after solver t0 dt hdt N R n hs (hflag (n + 1) (by omega) (by omega)), Option.bind_some]
      obtain ⟨m, h1, h2, h3, h4, h5⟩ := loop_after solver t0 dt hdt N R hflag fuel (n + 1) (by omega)
      refine ⟨m, by omega, h2, h3, h4, fun k hk1 hk2 => ?_⟩
      rcases Nat.eq_or_lt_of_le hk1 with rfl | hlt
      · exact hs
      · exact h5 k hlt hk2

theorem call_new (solver : Solver O) (t0 dt : ℚ) (N : Nat) (initial : O) (file : Option (List (Row O))) :
    call initial file (new t0 dt N) = after solver t0 dt N (file.getD [⟨0, t0, dt, initial⟩]) 0 := by
  simp [call, new, after, timeAt, stopsAt, rowsFor, callsFor, toCompute]

/-- **C33 (partial).** Applying a new iterator to a solver, with or without the record `R` of an earlier run, and running it:
for some `n` between 0 and the number of steps, the steps `1..n` are taken in order; the solver is called once for each of
them that is not in the record, with the times at the beginning and at the end of the step, and one row per call is added to
the record, which is otherwise unchanged; the time is `t0 + n dt`; the run ends when all steps are taken or, and only then,
after the first step at which the solver asks to stop.
What is missing for C33: a solver may, according to the documentation, ask to stop by returning a text with the reason; that
raises an exception (`c33_text_reason`). -/
theorem c33_run_partial (solver : Solver O) (t0 dt : ℚ) (hdt : 0 < dt) (N : Nat) (initial : O) (file : Option (List (Row O))) (R : List (Row O))
    (hR : R = file.getD [⟨0, t0, dt, initial⟩]) (hflag : ∀ k, 1 ≤ k → k ≤ N → recorded R k = false → ∃ b, (result solver t0 dt k).1 = .flag b) :
    ∃ n s, n ≤ N ∧ run solver (call initial file (new t0 dt N)) = some s ∧ s.running = n + 1 ∧ s.computed = n ∧ s.t = timeAt t0 dt n ∧
      s.calls = callsFor t0 dt R n ∧ s.rdf = R ++ rowsFor solver t0 dt R n ∧
      (n = N ∨ stopsAt solver t0 dt R n = true) ∧ (∀ k, k < n → stopsAt solver t0 dt R k = false) ∧ s.shut = stopsAt solver t0 dt R n := by
  obtain ⟨m, h1, h2, h3, h4, h5⟩ := loop_after solver t0 dt hdt N R hflag N 0 (by omega)
  refine ⟨m, after solver t0 dt N R m, h2, ?_, rfl, rfl, rfl, rfl, rfl, h4, fun k hk => h5 k (Nat.zero_le _) hk, rfl⟩
  rw [call_new solver, ← hR]
  exact h3

/-- the steps computed and their order. -/
theorem c33_each_step_once (R : List (Row O)) (n : Nat) :
    (toCompute R n).Pairwise (· < ·) ∧ ∀ k, k ∈ toCompute R n ↔ 1 ≤ k ∧ k ≤ n ∧ ¬ ∃ r ∈ R, r.index = k := by
  constructor
  · unfold toCompute
    apply List.Pairwise.filter
    rw [List.pairwise_map]
    exact List.pairwise_lt_range.imp (by intro a b h; omega)
  · intro k
    unfold toCompute recorded
    rw [List.mem_filter, List.mem_map]
    constructor
    · rintro ⟨⟨j, hj, rfl⟩, h⟩
      rw [List.mem_range] at hj
      refine ⟨by omega, by omega, ?_⟩
      rintro ⟨r, hr, he⟩
      have : (R.any fun r => r.index == j + 1) = true := List.any_eq_true.2 ⟨r, hr, by simp [he]⟩
      rw [this] at h
      exact absurd h (by decide)
    · rintro ⟨h1, h2, h3⟩
      refine ⟨⟨k - 1, List.mem_range.2 (by omega), by omega⟩, ?_⟩
      have : (R.any fun r => r.index == k) = false := by
        rw [List.any_eq_false]
        intro r hr
        simp only [beq_iff_eq]
        exact fun he => h3 ⟨r, hr, he⟩
      rw [this]
      rfl

/-- a solver that squares the time and asks to stop at time 3. -/
def solver33 : Solver ℚ := fun _ t => (.flag (decide (t = 3)), t * t)

example : ∀ k, 1 ≤ k → k ≤ 5 → recorded ([⟨0, 0, 1, 0⟩] : List (Row ℚ)) k = false → ∃ b, (result solver33 0 1 k).1 = .flag b :=
  fun _ _ _ _ => ⟨_, rfl⟩

/-- it stops after three of the five steps. -/
example : (run solver33 (call 0 none (new 0 1 5))).map (fun s => (s.running, s.computed, s.t, s.shut, s.rdf.map fun r => r.out)) =
    some (4, 3, 3, true, [0, 1, 4, 9]) := by decide +kernel

theorem recorded_append (R S : List (Row O)) (k : Nat) : recorded (R ++ S) k = (recorded R k || recorded S k) := by
  unfold recorded
  rw [List.any_append]

theorem recorded_rows (solver : Solver O) (t0 dt : ℚ) (R : List (Row O)) (m k : Nat) : recorded (rowsFor solver t0 dt R m) k = true ↔ k ∈ toCompute R m := by
  unfold recorded rowsFor
  rw [List.any_map, List.any_eq_true]
  constructor
  · rintro ⟨x, hx, h⟩
    simp only [Function.comp_apply, beq_iff_eq] at h
    exact h ▸ hx
  · intro h
    exact ⟨k, h, by simp⟩

/-- what remains to be done after `m` steps have been recorded. -/
theorem toCompute_resume (solver : Solver O) (t0 dt : ℚ) (R : List (Row O)) (m n : Nat) (h : m ≤ n) :
    toCompute R n = toCompute R m ++ toCompute (R ++ rowsFor solver t0 dt R m) n := by
  induction n with
  | zero =>
    have : m = 0 := by omega
    subst this
    rfl
  | succ n ih =>
    rcases Nat.eq_or_lt_of_le h with rfl | hlt
    · have : toCompute (R ++ rowsFor solver t0 dt R (n + 1)) (n + 1) = [] := by
        rw [List.eq_nil_iff_forall_not_mem]
        intro k hk
        obtain ⟨h1, h2, h3⟩ := ((c33_each_step_once _ _).2 k).1 hk
        by_cases hr : ∃ r ∈ R, r.index = k
        · obtain ⟨r, hr, he⟩ := hr
          exact h3 ⟨r, List.mem_append_left _ hr, he⟩
        · have := ((c33_each_step_once R (n + 1)).2 k).2 ⟨h1, h2, hr⟩
          exact h3 ⟨_, List.mem_append_right _ (List.mem_map_of_mem this), rfl⟩
      rw [this, List.append_nil]
    · have ih := ih (by omega)
      have hrows : recorded (rowsFor solver t0 dt R m) (n + 1) = false := by
        rw [← Bool.not_eq_true, recorded_rows, (c33_each_step_once R m).2]
        omega
      rw [toCompute_succ, toCompute_succ, recorded_append, hrows, Bool.or_false]
      split
      · exact ih
      · rw [ih, List.append_assoc]

/-- **C33, resuming.** An iterator is run for `m` steps and not stopped by the solver. Another one with the same solver, run
for `N ≥ m` steps with the record of the first, ends with the record that a run of `N` steps without interruption has, and the
calls of the solver in the two runs are together those of that run. -/
theorem c33_resume (solver : Solver O) (t0 dt : ℚ) (hdt : 0 < dt) (m N : Nat) (hmN : m ≤ N) (initial : O)
    (hflag : ∀ k, 1 ≤ k → k ≤ N → ∃ b, (result solver t0 dt k).1 = .flag b)
    (s1 : It O) (h1 : run solver (call initial none (new t0 dt m)) = some s1) (hs1 : s1.shut = false) :
    ∃ s2 s3, run solver (call initial (some s1.rdf) (new t0 dt N)) = some s2 ∧ run solver (call initial none (new t0 dt N)) = some s3 ∧
      s2.rdf = s3.rdf ∧ s1.calls ++ s2.calls = s3.calls ∧ s2.t = s3.t ∧ s2.running = s3.running := by
  generalize hR : ([⟨0, t0, dt, initial⟩] : List (Row O)) = R
  obtain ⟨m', s1', hm1, hm2, hm3, hm4, hm5, hm6, hm7, hm8, hm9, hm10⟩ := c33_run_partial solver t0 dt hdt m initial none R (by rw [← hR]; rfl)
    (fun k a b _ => hflag k a (by omega))
  rw [h1] at hm2
  have := Option.some.inj hm2
  subst this
  rw [hs1] at hm10
  have hm' : m' = m := by
    rcases hm8 with h | h
    · exact h
    · rw [← hm10] at h
      exact absurd h (by simp)
  subst hm'
  obtain ⟨n3, s3, a1, a2, a3, a4, a5, a6, a7, a8, a9, a10⟩ := c33_run_partial solver t0 dt hdt N initial none R (by rw [← hR]; rfl) (fun k a b _ => hflag k a b)
  obtain ⟨n2, s2, b1, b2, b3, b4, b5, b6, b7, b8, b9, b10⟩ := c33_run_partial solver t0 dt hdt N initial (some s1.rdf) s1.rdf rfl (fun k a b _ => hflag k a b)
  -- stopping is the same in both
  have hstop : ∀ k, stopsAt solver t0 dt s1.rdf k = stopsAt solver t0 dt R k := by
    intro k
    unfold stopsAt
    by_cases hk : k ≤ m'
    · have h0 : stopsAt solver t0 dt R k = false := by
        rcases Nat.eq_or_lt_of_le hk with rfl | hlt
        · exact hm10.symm
        · exact hm9 k hlt
      unfold stopsAt at h0
      rw [h0, hm7, recorded_append]
      rw [Bool.not_or]
      revert h0
      cases (k != 0) <;> cases recorded R k <;> cases (result solver t0 dt k).1 == Shut.flag true <;> simp
    · have hrows : recorded (rowsFor solver t0 dt R m') k = false := by
        rw [← Bool.not_eq_true, recorded_rows, (c33_each_step_once R m').2]
        omega
      rw [hm7, recorded_append, hrows, Bool.or_false]
  have hn : n2 = n3 := by
    rcases Nat.lt_trichotomy n2 n3 with h | h | h
    · rcases b8 with hb | hb
      · omega
      · rw [hstop, a9 n2 h] at hb
        exact absurd hb (by simp)
    · exact h
    · rcases a8 with ha | ha
      · omega
      · rw [← hstop, b9 n3 h] at ha
        exact absurd ha (by simp)
  subst hn
  have hmn : m' ≤ n2 := by
    by_contra hc
    rcases a8 with ha | ha
    · omega
    · rw [hm9 n2 (by omega)] at ha
      exact absurd ha (by simp)
  have hres := toCompute_resume solver t0 dt R m' n2 hmn
  refine ⟨s2, s3, b2, a2, ?_, ?_, by rw [b5, a5], by rw [b3, a3]⟩
  · rw [b7, a7]
    conv => lhs; rw [hm7]
    unfold rowsFor
    rw [hres, List.map_append, List.append_assoc]
    rfl
  · rw [hm6, b6, a6]
    unfold callsFor
    rw [hres, List.map_append, hm7]

/-- two steps, then up to five steps. -/
example : ∃ s1 : It ℚ, run solver33 (call 0 none (new 0 1 2)) = some s1 ∧ s1.shut = false := by
  obtain ⟨n, s, h⟩ := c33_run_partial solver33 0 1 (by norm_num) 2 0 none [⟨0, 0, 1, 0⟩] rfl (fun _ _ _ _ => ⟨_, rfl⟩)
  refine ⟨s, h.2.1, ?_⟩
  rw [h.2.2.2.2.2.2.2.2.2]
  have hn := h.1
  have : n = 0 ∨ n = 1 ∨ n = 2 := by omega
  rcases this with rfl | rfl | rfl <;> decide +kernel

/-- **C33, resuming after a stop.** The record of a run that was stopped by its solver does not say so: resumed with the same
number of steps, the iterator goes on (here: steps 4 and 5 after the stop at step 3). -/
theorem c33_resume_after_stop : ∃ s1 s2 : It ℚ, run solver33 (call 0 none (new 0 1 5)) = some s1 ∧ s1.shut = true ∧
    run solver33 (call 0 (some s1.rdf) (new 0 1 5)) = some s2 ∧ s2.shut = false ∧ s2.calls = [(4, 3, 4), (5, 4, 5)] := by
  have h1 : (((run solver33 (call 0 none (new 0 1 5))).bind fun s1 => (run solver33 (call 0 (some s1.rdf) (new 0 1 5))).map fun s2 =>
      (s1.shut && !s2.shut && decide (s2.calls = [(4, 3, 4), (5, 4, 5)]))) == some true) = true := by decide +kernel
  rw [beq_iff_eq] at h1
  obtain ⟨s1, hs1, he1⟩ := Option.bind_eq_some_iff.1 h1
  obtain ⟨s2, hs2, he2⟩ := Option.map_eq_some_iff.1 he1
  simp only [Bool.and_eq_true, Bool.not_eq_true', decide_eq_true_eq] at he2
  exact ⟨s1, s2, hs1, he2.1.1, hs2, he2.1.2, he2.2⟩

/-- **C33, the reason for a stop as text.** Whenever the solver is called for a step and returns a text instead of a flag (which
the messages of the code invite it to do), the run raises an exception. -/
theorem c33_text_reason (solver : Solver O) (t0 dt : ℚ) (hdt : 0 < dt) (N : Nat) (initial : O) (file : Option (List (Row O))) (R : List (Row O))
    (hR : R = file.getD [⟨0, t0, dt, initial⟩]) (k : Nat) (hk1 : 1 ≤ k) (hk : k ≤ N) (hrec : recorded R k = false) (text : String)
    (htext : (result solver t0 dt k).1 = .text text) (hbefore : ∀ j, 1 ≤ j → j < k → (result solver t0 dt j).1 = .flag false) :
    run solver (call initial file (new t0 dt N)) = none := by
  rw [call_new solver, ← hR]
  unfold run
  have hrun : (after solver t0 dt N R 0).maxSteps + 1 - (after solver t0 dt N R 0).running = N := by simp [after]
  rw [hrun]
  have hns : ∀ j, j < k → stopsAt solver t0 dt R j = false := by
    intro j hj
    by_cases h0 : j = 0
    · simp [stopsAt, h0]
    · unfold stopsAt
      rw [hbefore j (by omega) hj]
      simp
  have gen : ∀ fuel n, n + fuel = N → n < k → loop solver fuel (after solver t0 dt N R n) = none := by
    intro fuel
    induction fuel with
    | zero => intro n h1 h2; omega
    | succ fuel ih =>
      intro n h1 h2
      have hle : (after solver t0 dt N R n).running ≤ (after solver t0 dt N R n).maxSteps := by
        simp only [after]
        omega
      rw [loop, getShut_after, Option.bind_some, hns n h2, if_pos (by simp [hle])]
      by_cases hlast : n + 1 = k
      · subst hlast
        rw [round_text solver t0 dt N R n hrec text htext]
        rfl
      · rw [round_after solver t0 dt hdt N R n (hns n h2) (fun _ => ⟨false, hbefore (n + 1) (by omega) (by omega)⟩), Option.bind_some]
        exact ih (n + 1) (by omega) (by omega)
  exact gen N 0 (by omega) (by omega)

example : ∃ (solver : Solver Nat), (∀ j, 1 ≤ j → j < 2 → (result solver 0 1 j).1 = .flag false) ∧ (result solver 0 1 2).1 = .text "converged" := by
  refine ⟨fun _ t => (if t = 2 then .text "converged" else .flag false, 0), ?_, ?_⟩
  · intro j h1 h2
    have : j = 1 := by omega
    subst this
    simp [result, timeAt]
  · simp [result, timeAt]

/-- **C33, applying an iterator again.** `__call__` resets the time but not the step: after a complete run, applying the
iterator to any solver and running it does nothing at all. -/
theorem c33_call_again (solver solver' : Solver O) (t0 dt : ℚ) (N : Nat) (R : List (Row O)) (initial : O) :
    (run solver' (call initial none (after solver t0 dt N R N))).map (fun s => (s.t, s.running, s.calls)) = some (t0, N + 1, callsFor t0 dt R N) := by
  unfold run
  have : (call initial none (after solver t0 dt N R N)).maxSteps + 1 - (call initial none (after solver t0 dt N R N)).running = 0 := by
    simp [call, after]
  rw [this]
  rfl

/-- **C33, the number of steps.** With `dt` and a final time, the steps just reach the final time. -/
theorem c33_enough_steps (t0 dt T : ℚ) (hdt : 0 < dt) (hT : t0 < T) :
    ∃ n, parse t0 (some dt) none (some T) = some (dt, n, timeAt t0 dt n) ∧ T ≤ timeAt t0 dt n ∧ timeAt t0 dt n < T + dt := by
  have hq : 0 < (T - t0) / dt := div_pos (by linarith) hdt
  have hc : 0 ≤ ⌈(T - t0) / dt⌉ := Int.ceil_nonneg hq.le
  have hcast : ((⌈(T - t0) / dt⌉.toNat : Nat) : ℚ) = ((⌈(T - t0) / dt⌉ : ℤ) : ℚ) := by
    rw [← Int.cast_natCast, Int.toNat_of_nonneg hc]
  refine ⟨⌈(T - t0) / dt⌉.toNat, ?_, ?_, ?_⟩
  · simp only [parse, hdt, hT, if_true]
    unfold timeAt
    rw [mul_comm]
  · unfold timeAt
    rw [hcast]
    have := Int.le_ceil ((T - t0) / dt)
    have h2 := (div_le_iff₀ hdt).1 this
    linarith
  · unfold timeAt
    rw [hcast]
    have := Int.ceil_lt_add_one ((T - t0) / dt)
    have h2 : ((⌈(T - t0) / dt⌉ : ℤ) : ℚ) * dt < ((T - t0) / dt + 1) * dt := mul_lt_mul_of_pos_right this hdt
    have h3 : ((T - t0) / dt + 1) * dt = T - t0 + dt := by
      field_simp
    linarith

example : parse 0 (some (3/10)) none (some 1) = some (3/10, 4, 6/5) := by
  have h : ⌈(1 - 0 : ℚ) / (3/10)⌉ = 4 := by
    rw [Int.ceil_eq_iff]
    norm_num
  simp only [parse, h]
  have h4 : Int.toNat 4 = 4 := rfl
  rw [h4]
  norm_num

end Mifem.Props
