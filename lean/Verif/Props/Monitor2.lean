import Verif.Props.Monitor

/-!
# C103, continued: resuming, counting, estimates, reports
-/

namespace Mifem.Props.Mon103
open Mifem.Monitor Mifem.Iter Mifem.Props

variable {α O : Type}

/-! ## Resuming after a crash -/

theorem rowsFor_start (solver : Solver O) (t0 dt : ℚ) (initial : O) (k : Nat) :
    rowsFor solver t0 dt [⟨0, t0, dt, initial⟩] k =
      (List.range k).map fun j => ⟨j + 1, timeAt t0 dt (j + 1), dt, (result solver t0 dt (j + 1)).2⟩ := by
  have : toCompute ([⟨0, t0, dt, initial⟩] : List (Row O)) k = (List.range k).map (· + 1) := by
    unfold toCompute
    rw [List.filter_eq_self]
    intro j hj
    obtain ⟨i, _, rfl⟩ := List.mem_map.1 hj
    simp [recorded]
  unfold rowsFor
  rw [this, List.map_map]
  rfl

theorem rowsOf_rows (es : List (Event α)) (l : List α) (h : es.map (fun e => e.row) = l.map some) : rowsOf es = l := by
  induction es generalizing l with
  | nil =>
    cases l with
    | nil => rfl
    | cons a l => simp at h
  | cons e es ih =>
    cases l with
    | nil => simp at h
    | cons a l =>
      simp only [List.map_cons, List.cons.injEq] at h
      have := ih l h.2
      unfold rowsOf at this ⊢
      rw [List.flatMap_cons, this, h.1]
      rfl

/-- **Resuming after a crash.** A run is broken off after `k` steps, at which the solver did not ask to stop. Whatever the
settings of the monitor are, however long the steps take and whichever attempts to write fail: a new iterator that starts from
what is on the disk ends with the record of a run without interruption. -/
theorem c103_crash_resume (solver : Solver O) (t0 dt : ℚ) (hdt : 0 < dt) (initial : O) (k N : Nat) (hk : k ≤ N)
    (hflag : ∀ j, 1 ≤ j → j ≤ N → ∃ b, (result solver t0 dt j).1 = .flag b)
    (hgo : ∀ j, 1 ≤ j → j ≤ k → (result solver t0 dt j).1 = .flag false)
    (c : Cfg) (es : List (Event (Row O))) (g : ℚ) (s : Run (Row O))
    (hes : es.map (fun e => e.row) = (rowsFor solver t0 dt [⟨0, t0, dt, initial⟩] k).map some)
    (h : rounds c es (fresh g [⟨0, t0, dt, initial⟩] none) = some s) :
    ∃ s2 s3, run solver (call initial s.file (new t0 dt N)) = some s2 ∧ run solver (call initial none (new t0 dt N)) = some s3 ∧
      s2.rdf = s3.rdf ∧ s2.t = s3.t := by
  obtain ⟨_, s3, _, h3, _⟩ := c33_run_partial solver t0 dt hdt N initial none [⟨0, t0, dt, initial⟩] rfl (fun j a b _ => hflag j a b)
  rcases c103_prefix c es g _ _ s h with hf | ⟨es1, e, es2, rfl, _, hf⟩
  · rw [hf]
    exact ⟨s3, s3, h3, h3, rfl, rfl⟩
  · have hlen : es1.length + 1 + es2.length = k := by
      have := congrArg List.length hes
      rw [rowsFor_start] at this
      simp at this
      omega
    have hpre : (es1 ++ [e]).map (fun e => e.row) = (rowsFor solver t0 dt [⟨0, t0, dt, initial⟩] (es1.length + 1)).map some := by
      have h1 := congrArg (List.take (es1.length + 1)) hes
      have h2 : (es1 ++ e :: es2) = (es1 ++ [e]) ++ es2 := by simp
      rw [h2, List.map_append, List.take_left' (by simp), rowsFor_start, ← List.map_take, ← List.map_take] at h1
      rw [h1, rowsFor_start]
      congr 2
      rw [List.take_range, Nat.min_eq_left (by omega)]
    rw [rowsOf_rows _ _ hpre] at hf
    obtain ⟨n1, s1, b1, b2, b3, b4, b5, b6, b7, b8, b9, b10⟩ := c33_run_partial solver t0 dt hdt (es1.length + 1) initial none
      [⟨0, t0, dt, initial⟩] rfl (fun j a b _ => hflag j a (by omega))
    have hnostop : ∀ j, j ≤ k → stopsAt solver t0 dt [⟨0, t0, dt, initial⟩] j = false := by
      intro j hj
      unfold stopsAt
      by_cases h0 : j = 0
      · simp [h0]
      · rw [hgo j (by omega) hj]
        simp
    have hn1 : n1 = es1.length + 1 := by
      rcases b8 with h | h
      · exact h
      · rw [hnostop n1 (by omega)] at h
        simp at h
    subst hn1
    obtain ⟨s2, s3', c1, c2, c3, _, c5, _⟩ := c33_resume solver t0 dt hdt (es1.length + 1) N (by omega) initial hflag s1 b2
      (by rw [b10]; exact hnostop _ (by omega))
    rw [h3] at c2
    have := Option.some.inj c2
    subst this
    rw [b7, ← hf] at c1
    exact ⟨s2, s3, c1, h3, c3, c5⟩

/-! ## Counting and estimates -/

/-- the times that the steps take: from the beginning of the run to the end of the first step, and so on. -/
def costs (prev : ℚ) : List ℚ → List ℚ
  | [] => []
  | t :: ts => (t - prev) :: costs t ts

/-- the steps of more than a quarter of a second. -/
def long (l : List ℚ) : List ℚ := l.filter fun c => decide (1 / 4 < c)

theorem costs_sum (ts : List ℚ) (prev : ℚ) : (costs prev ts).sum = ts.getLast?.getD prev - prev := by
  induction ts generalizing prev with
  | nil => simp [costs]
  | cons t ts ih =>
    rw [costs, List.sum_cons, ih, List.getLast?_cons, Option.getD_some]
    ring

theorem costs_append (ts us : List ℚ) (prev : ℚ) : costs prev (ts ++ us) = costs prev ts ++ costs (ts.getLast?.getD prev) us := by
  induction ts generalizing prev with
  | nil => simp [costs]
  | cons t ts ih =>
    rw [List.cons_append, costs, costs, ih, List.getLast?_cons, List.cons_append]
    rfl

/-- what an update does to the counts. -/
theorem update_counts {c : Cfg} {sh : Bool} {t : ℚ} {m m' : Mon} (h : update c sh t m = some m') :
    let d := t - m.current.getD c.first
    m'.times = m.times ++ [if 1 / 4 < d then some d else none] ∧ m'.TIMES = m.TIMES ++ [t - c.start] ∧ m'.last = d ∧
      m'.effCost = m.effCost + (long [d]).sum ∧ m'.effNum = m.effNum + (long [d]).length ∧
      m'.avg = (if 1 / 4 < d then m'.effCost / m'.effNum else m.avg) ∧
      m'.remaining = (if c.maxSteps = m.computed + 1 ∨ sh = true then 0
        else if 1 / 4 < d then cap (m'.effCost / m'.effNum * ((c.maxSteps : ℚ) - (m.computed + 1 : Nat))) else m.remaining) := by
  unfold update at h
  split at h
  · simp at h
  · simp only [Option.some.injEq] at h
    subst h
    by_cases hd : 1 / 4 < t - m.current.getD c.first
    · simp only [hd, if_true, long, List.filter_cons, decide_true, List.filter_nil, List.sum_cons, List.sum_nil, add_zero, List.length_cons,
        List.length_nil]
      (repeat' split) <;> simp_all
    · simp only [hd, if_false, long, List.filter_cons, decide_false, List.filter_nil, List.sum_nil, add_zero, List.length_nil,
        Bool.false_eq_true]
      (repeat' split) <;> simp_all

theorem autoSave_counts (c : Cfg) (t : ℚ) (ok : Bool × Bool) (rdf : List α) (s : Mon × Option (List α)) :
    let m := (autoSave c t ok rdf s).1
    m.times = s.1.times ∧ m.TIMES = s.1.TIMES ∧ m.effCost = s.1.effCost ∧ m.effNum = s.1.effNum ∧ m.avg = s.1.avg ∧
      m.remaining = s.1.remaining ∧ m.assess = s.1.assess := by
  unfold autoSave
  simp only
  (repeat' split) <;> simp

theorem report_counts (c : Cfg) (sh : Bool) (t : ℚ) (s : Mon) :
    let m := (report c sh t s).1
    m.times = s.times ∧ m.TIMES = s.TIMES ∧ m.effCost = s.effCost ∧ m.effNum = s.effNum ∧ m.avg = s.avg ∧
      m.remaining = s.remaining ∧ m.assess = s.assess := by
  unfold report
  simp only
  split <;> simp

/-- the counts after a round are those after the update. -/
theorem round_counts {c : Cfg} {e : Event α} {s s' : Run α} (h : Monitor.round c e s = some s') :
    ∃ m, update c e.shut e.tu s.mon = some m ∧ s'.mon.times = m.times ∧ s'.mon.TIMES = m.TIMES ∧ s'.mon.effCost = m.effCost ∧
      s'.mon.effNum = m.effNum ∧ s'.mon.avg = m.avg ∧ s'.mon.remaining = m.remaining ∧ s'.mon.assess = m.assess ∧
      s'.mon.current = m.current ∧ s'.mon.computed = m.computed := by
  obtain ⟨m, hm, _, hn, hs⟩ := round_spec h
  refine ⟨m, hm, ?_⟩
  cases hrow : e.row.isSome with
  | false =>
    rw [(hn hrow).1]
    simp
  | true =>
    rw [(hs hrow).1]
    obtain ⟨a1, a2, a3, a4, a5, a6, a7⟩ := report_counts c e.shut e.tg (autoSave c e.ts e.ok (s.rdf ++ e.row.toList) (m, s.file)).1
    obtain ⟨b1, b2, b3, b4, b5, b6, b7⟩ := autoSave_counts c e.ts e.ok (s.rdf ++ e.row.toList) (m, s.file)
    obtain ⟨_, _, r3, r4⟩ := report_spec c e.shut e.tg (autoSave c e.ts e.ok (s.rdf ++ e.row.toList) (m, s.file)).1
    obtain ⟨q1, q2, _⟩ := autoSave_spec c e.ts e.ok (s.rdf ++ e.row.toList) (m, s.file)
    exact ⟨a1.trans b1, a2.trans b2, a3.trans b3, a4.trans b4, a5.trans b5, a6.trans b6, a7.trans b7, r4.trans q2, r3.trans q1⟩

theorem long_append (l m : List ℚ) : long (l ++ m) = long l ++ long m := by simp [long]

/-- **Counting.** After any rounds the monitor has counted them; it has the time of every step of more than a quarter of a
second (and nan for the others), and the time since the start at the end of every step; the steps together take the time of the
run; the effective cost and number are those of the long steps. -/
theorem c103_counts (c : Cfg) (es : List (Event α)) (g : ℚ) (R : List α) (file : Option (List α)) (s : Run α)
    (h : rounds c es (fresh g R file) = some s) :
    s.mon.computed = es.length ∧
    s.mon.times = none :: (costs c.first (es.map fun e => e.tu)).map (fun d => if 1 / 4 < d then some d else none) ∧
    s.mon.TIMES = 0 :: (es.map fun e => e.tu - c.start) ∧
    s.mon.effCost = (long (costs c.first (es.map fun e => e.tu))).sum ∧
    s.mon.effNum = (long (costs c.first (es.map fun e => e.tu))).length ∧
    s.mon.current.getD c.first = ((es.map fun e => e.tu).getLast?).getD c.first ∧
    (costs c.first (es.map fun e => e.tu)).sum = s.mon.current.getD c.first - c.first := by
  have key : s.mon.computed = es.length ∧
      s.mon.times = none :: (costs c.first (es.map fun e => e.tu)).map (fun d => if 1 / 4 < d then some d else none) ∧
      s.mon.TIMES = 0 :: (es.map fun e => e.tu - c.start) ∧
      s.mon.effCost = (long (costs c.first (es.map fun e => e.tu))).sum ∧
      s.mon.effNum = (long (costs c.first (es.map fun e => e.tu))).length ∧
      s.mon.current.getD c.first = ((es.map fun e => e.tu).getLast?).getD c.first := by
    induction es using List.reverseRecOn generalizing s with
    | nil =>
      simp only [rounds, Option.some.injEq] at h
      subst h
      simp [fresh, costs, long]
    | append_singleton es e ih =>
      obtain ⟨u, h1, h2⟩ := rounds_snoc h
      obtain ⟨i1, i2, i3, i4, i5, i6⟩ := ih u h1
      obtain ⟨m, hm, r1, r2, r3, r4, _, _, _, r8, r9⟩ := round_counts h2
      obtain ⟨m1, m2, _, m4, m5, _⟩ := update_counts hm
      obtain ⟨_, _, n3, n4, _⟩ := update_spec hm
      have hc : costs c.first ((es ++ [e]).map fun e => e.tu) =
          costs c.first (es.map fun e => e.tu) ++ [e.tu - u.mon.current.getD c.first] := by
        rw [List.map_append, costs_append, i6]
        rfl
      refine ⟨?_, ?_, ?_, ?_, ?_, ?_⟩
      · rw [r9, n3, i1]; simp
      · rw [r1, m1, i2, hc]; simp
      · rw [r2, m2, i3]; simp
      · rw [r3, m4, i4, hc, long_append, List.sum_append]
      · rw [r4, m5, i5, hc, long_append, List.length_append]
      · rw [r8, n4]; simp
  refine ⟨key.1, key.2.1, key.2.2.1, key.2.2.2.1, key.2.2.2.2.1, key.2.2.2.2.2, ?_⟩
  rw [costs_sum, key.2.2.2.2.2]

/-- **The estimate.** After the last step, or when the solver stops, the remaining time is 0. After another long step it is the
mean time of the long steps times the number of steps that are left, or 99 days, 23 hours, 59 minutes and 59.999 seconds if it is
more than 99 days. After another short step it is what it was. -/
theorem c103_estimate (c : Cfg) (es : List (Event α)) (e : Event α) (g : ℚ) (R : List α) (file : Option (List α)) (u s : Run α)
    (hu : rounds c es (fresh g R file) = some u) (h : rounds c (es ++ [e]) (fresh g R file) = some s) (L : List ℚ)
    (hL : L = long (costs c.first ((es ++ [e]).map fun e => e.tu))) (d : ℚ) (hd : d = e.tu - ((es.map fun e => e.tu).getLast?).getD c.first) :
    ((es.length + 1 = c.maxSteps ∨ e.shut = true) → s.mon.remaining = 0) ∧
    (¬ (es.length + 1 = c.maxSteps ∨ e.shut = true) → 1 / 4 < d → ∀ x, x = L.sum / L.length * ((c.maxSteps : ℚ) - (es.length + 1 : Nat)) →
      (x ≤ 8553600 → s.mon.remaining = x) ∧ (8553600 < x → s.mon.remaining = 8639999999 / 1000)) ∧
    (¬ (es.length + 1 = c.maxSteps ∨ e.shut = true) → ¬ 1 / 4 < d → s.mon.remaining = u.mon.remaining) := by
  obtain ⟨u', h1, h2⟩ := rounds_snoc h
  rw [hu] at h1
  have := Option.some.inj h1
  subst this
  obtain ⟨i1, _, _, _, _, i6, _⟩ := c103_counts c es g R file u hu
  obtain ⟨_, _, _, j4, j5, _⟩ := c103_counts c (es ++ [e]) g R file s h
  obtain ⟨m, hm, _, _, r3, r4, _, r6, _, _, _⟩ := round_counts h2
  obtain ⟨_, _, _, _, _, _, m7⟩ := update_counts hm
  rw [i6, ← hd] at m7
  rw [r3, ← hL] at j4
  rw [r4, ← hL] at j5
  rw [j4, j5, i1] at m7
  rw [r6, m7]
  refine ⟨fun hc => ?_, fun hc hd' x hx => ?_, fun hc hd' => ?_⟩
  · rw [if_pos (by rcases hc with h | h <;> simp [h])]
  · have hc' : ¬ (c.maxSteps = es.length + 1 ∨ e.shut = true) := fun h => hc (by rcases h with h | h <;> simp [h])
    rw [if_neg hc', if_pos hd', ← hx]
    unfold cap
    refine ⟨fun hx => ?_, fun hx => ?_⟩
    · rw [if_neg (by norm_num; exact hx)]
    · rw [if_pos (by norm_num; exact hx)]
      norm_num
  · have hc' : ¬ (c.maxSteps = es.length + 1 ∨ e.shut = true) := fun h => hc (by rcases h with h | h <;> simp [h])
    rw [if_neg hc', if_neg hd']

/-! ## Reports -/

/-- **Reports are not late.** After a computed step without a report, at most the report time has passed since the last report
(or the beginning). -/
theorem c103_report_lag (c : Cfg) (es : List (Event α)) (e : Event α) (g : ℚ) (R : List α) (file : Option (List α)) (s : Run α)
    (h : rounds c (es ++ [e]) (fresh g R file) = some s) (hrow : e.row.isSome = true) (hno : es.length + 1 ∉ s.reports) :
    (s.reports = [] ∧ e.tu - g ≤ c.graphTime) ∨
      ∃ es1 r es2, es = es1 ++ r :: es2 ∧ es1.length + 1 ∈ s.reports ∧ e.tu - r.tg ≤ c.graphTime := by
  have inv : ∀ (es : List (Event α)) (u : Run α), rounds c es (fresh g R file) = some u →
      (u.reports = [] ∧ u.mon.lastGraph = g) ∨ ∃ es1 r es2, es = es1 ++ r :: es2 ∧ es1.length + 1 ∈ u.reports ∧ u.mon.lastGraph = r.tg := by
    intro es
    induction es using List.reverseRecOn with
    | nil =>
      intro u h
      simp only [rounds, Option.some.injEq] at h
      subst h
      exact Or.inl ⟨rfl, rfl⟩
    | append_singleton es e ih =>
      intro s h
      obtain ⟨u, h1, h2⟩ := rounds_snoc h
      obtain ⟨m, hm, _, hn, hs⟩ := round_spec h2
      obtain ⟨_, _, n3, _, n5, _⟩ := update_spec hm
      have hold : s.mon.lastGraph = u.mon.lastGraph → s.reports = u.reports →
          (s.reports = [] ∧ s.mon.lastGraph = g) ∨
            ∃ es1 r es2, es ++ [e] = es1 ++ r :: es2 ∧ es1.length + 1 ∈ s.reports ∧ s.mon.lastGraph = r.tg := by
        intro e1 e2
        rw [e1, e2]
        rcases ih u h1 with h | ⟨es1, r, es2, rfl, h3, h4⟩
        · exact Or.inl h
        · exact Or.inr ⟨es1, r, es2 ++ [e], by simp, h3, h4⟩
      cases hrow : e.row.isSome with
      | false =>
        obtain ⟨a1, _, a3⟩ := hn hrow
        exact hold (by rw [a1, n5]) a3
      | true =>
        obtain ⟨a1, _, a3⟩ := hs hrow
        have hc := (rounds_rdf h1).2
        simp only [fresh, Nat.zero_add] at hc
        generalize hsv : (autoSave c e.ts e.ok (u.rdf ++ e.row.toList) (m, u.file)).1 = sv at a1 a3
        have hlg : sv.lastGraph = u.mon.lastGraph := by
          rw [← hsv, (autoSave_spec _ _ _ _ _).2.2.1]
          exact n5
        unfold report at a1 a3
        simp only at a1 a3
        split at a1
        · rename_i hj
          rw [if_pos hj] at a3
          refine Or.inr ⟨es, e, [], rfl, ?_, by rw [a1]⟩
          rw [a3]
          simp [n3, hc]
        · rename_i hj
          rw [if_neg hj] at a3
          exact hold (by rw [a1]; exact hlg) (by simpa using a3)
  obtain ⟨u, h1, h2⟩ := rounds_snoc h
  obtain ⟨m, hm, _, _, hs⟩ := round_spec h2
  obtain ⟨_, _, n3, n4, n5, _⟩ := update_spec hm
  obtain ⟨_, _, a3⟩ := hs hrow
  have hc := (rounds_rdf h1).2
  simp only [fresh, Nat.zero_add] at hc
  have hnr : (report c e.shut e.tg (autoSave c e.ts e.ok (u.rdf ++ e.row.toList) (m, u.file)).1).2 = false := by
    by_contra hcon
    rw [Bool.not_eq_false] at hcon
    rw [hcon] at a3
    exact hno (by rw [a3]; simp [n3, hc])
  rw [hnr] at a3
  simp only [Bool.false_eq_true, if_false] at a3
  have hle : e.tu - u.mon.lastGraph ≤ c.graphTime := by
    generalize hsv : (autoSave c e.ts e.ok (u.rdf ++ e.row.toList) (m, u.file)).1 = sv at hnr
    have hlg : sv.lastGraph = u.mon.lastGraph := by
      rw [← hsv, (autoSave_spec _ _ _ _ _).2.2.1]
      exact n5
    have hcur : sv.current = some e.tu := by
      rw [← hsv, (autoSave_spec _ _ _ _ _).2.1]
      exact n4
    unfold report at hnr
    simp only at hnr
    split at hnr
    · simp at hnr
    · rename_i hj
      simp only [Bool.or_eq_true, not_or, decide_eq_true_eq, not_lt, hcur, Option.getD_some, hlg] at hj
      exact hj.1.2.1
  rcases inv es u h1 with ⟨b1, b2⟩ | ⟨es1, r, es2, b1, b2, b3⟩
  · left
    exact ⟨by rw [a3, b1], by rw [← b2]; exact hle⟩
  · right
    exact ⟨es1, r, es2, b1, by rw [a3]; exact b2, by rw [← b3]; exact hle⟩

/-- **The last report.** If the last step is computed (or the solver stops), and there have been reports before or the program
has run for more than the report time, there is a report after it. -/
theorem c103_last_report (c : Cfg) (es : List (Event α)) (e : Event α) (g : ℚ) (R : List α) (file : Option (List α)) (s : Run α)
    (h : rounds c (es ++ [e]) (fresh g R file) = some s) (hrow : e.row.isSome = true) (hend : es.length + 1 = c.maxSteps ∨ e.shut = true)
    (hev : s.reports ≠ [] ∨ c.graphTime < e.tu - c.start) : es.length + 1 ∈ s.reports := by
  have inv : ∀ (es : List (Event α)) (u : Run α), rounds c es (fresh g R file) = some u → (u.reports ≠ [] → u.mon.ever = true) := by
    intro es
    induction es using List.reverseRecOn with
    | nil =>
      intro u h
      simp only [rounds, Option.some.injEq] at h
      subst h
      simp [fresh]
    | append_singleton es e ih =>
      intro s h
      obtain ⟨u, h1, h2⟩ := rounds_snoc h
      obtain ⟨m, hm, _, hn, hs⟩ := round_spec h2
      obtain ⟨_, _, _, _, _, n6, _⟩ := update_spec hm
      cases hrow : e.row.isSome with
      | false =>
        obtain ⟨a1, _, a3⟩ := hn hrow
        rw [a1, a3, n6]
        exact ih u h1
      | true =>
        obtain ⟨a1, _, a3⟩ := hs hrow
        generalize hsv : (autoSave c e.ts e.ok (u.rdf ++ e.row.toList) (m, u.file)).1 = sv at a1 a3
        have hev : sv.ever = u.mon.ever := by
          rw [← hsv, (autoSave_spec _ _ _ _ _).2.2.2.1]
          exact n6
        unfold report at a1 a3
        simp only at a1 a3
        split at a1
        · intro _
          rw [a1]
        · rename_i hj
          rw [if_neg hj] at a3
          rw [a1]
          simp only
          rw [hev]
          intro hne
          exact ih u h1 (by simpa [a3] using hne)
  obtain ⟨u, h1, h2⟩ := rounds_snoc h
  obtain ⟨m, hm, _, _, hs⟩ := round_spec h2
  obtain ⟨_, _, n3, n4, n5, n6, n7⟩ := update_spec hm
  obtain ⟨_, _, a3⟩ := hs hrow
  have hc := (rounds_rdf h1).2
  simp only [fresh, Nat.zero_add] at hc
  have hmem : (report c e.shut e.tg (autoSave c e.ts e.ok (u.rdf ++ e.row.toList) (m, u.file)).1).2 = true → es.length + 1 ∈ s.reports := by
    intro hr
    rw [a3, hr]
    simp [n3, hc]
  by_contra hno
  have hrep : s.reports = u.reports := by
    rw [a3]
    split
    · rename_i hr; exact absurd (hmem hr) hno
    · rfl
  refine hno (hmem ?_)
  have hever : u.mon.ever = true ∨ c.graphTime < e.tu - c.start := by
    rcases hev with h | h
    · rw [hrep] at h
      exact Or.inl (inv es u h1 h)
    · exact Or.inr h
  generalize hsv : (autoSave c e.ts e.ok (u.rdf ++ e.row.toList) (m, u.file)).1 = sv
  obtain ⟨q1, _, _, q4, _, q6, _⟩ := autoSave_spec c e.ts e.ok (u.rdf ++ e.row.toList) (m, u.file)
  rw [hsv] at q1 q4 q6
  have hj1 : ((decide (sv.computed = c.maxSteps) || e.shut) && (decide (c.graphTime < sv.total) || sv.ever)) = true := by
    rw [q1, q4, q6]
    simp only [n3, n6, n7, hc]
    rw [Bool.and_eq_true]
    refine ⟨?_, ?_⟩
    · rcases hend with h | h
      · simp [h]
      · simp [h]
    · rcases hever with h | h
      · simp [h]
      · simp [h]
  unfold report
  simp only [hj1, Bool.true_or, if_true]

theorem cap_le (x : ℚ) : cap x ≤ 8640000 := by
  unfold cap
  split
  · norm_num
  · rename_i hx
    norm_num at hx
    linarith

/-- **Silence.** With the report time of the factor 0, without real-time monitoring, and in a run of less than 9999999 seconds
since the start, no report is made. -/
theorem c103_silent (c : Cfg) (hG : c.graphTime = 9999999) (hreal : c.real = false) (es : List (Event α)) (g : ℚ) (hg : c.start ≤ g)
    (R : List α) (file : Option (List α)) (s : Run α) (h : rounds c es (fresh g R file) = some s)
    (htime : ∀ e ∈ es, e.tu - c.start ≤ 9999999) : s.reports = [] := by
  have inv : s.reports = [] ∧ s.mon.lastGraph = g ∧ s.mon.ever = false ∧ s.mon.warn = false ∧
      (∀ k x, s.mon.assess = some (k, x) → x ≤ k * 8640000) ∧ s.mon.remaining ≤ 8640000 := by
    induction es using List.reverseRecOn generalizing s with
    | nil =>
      simp only [rounds, Option.some.injEq] at h
      subst h
      refine ⟨rfl, rfl, rfl, rfl, ?_, by norm_num [fresh]⟩
      intro k x hk
      simp only [fresh, Option.some.injEq, Prod.mk.injEq] at hk
      rw [← hk.1, ← hk.2]
      norm_num
    | append_singleton es e ih =>
      obtain ⟨u, h1, h2⟩ := rounds_snoc h
      obtain ⟨i1, i2, i3, i4, i5, i6⟩ := ih u h1 (fun x hx => htime x (by simp [hx]))
      obtain ⟨m, hm, _, hn, hs⟩ := round_spec h2
      obtain ⟨_, _, n3, n4, n5, n6, n7⟩ := update_spec hm
      have hupd : m.warn = false ∧ (∀ k x, m.assess = some (k, x) → x ≤ k * 8640000) ∧ m.remaining ≤ 8640000 := by
        unfold update at hm
        split at hm
        · simp at hm
        · simp only [Option.some.injEq] at hm
          have fin : ∀ (b : Mon) (p : Prop) [Decidable p], b.warn = false → (∀ k x, b.assess = some (k, x) → x ≤ k * 8640000) →
              b.remaining ≤ 8640000 → (if p then { b with remaining := 0 } else b).warn = false ∧
              (∀ k x, (if p then { b with remaining := 0 } else b).assess = some (k, x) → x ≤ k * 8640000) ∧
              (if p then { b with remaining := 0 } else b).remaining ≤ 8640000 := by
            intro b p _ b1 b2 b3
            split
            · exact ⟨b1, b2, by norm_num⟩
            · exact ⟨b1, b2, b3⟩
          rw [← hm]
          apply fin
          · split
            · split
              · exact i4
              · rename_i k x hkx
                simp only [i4, Bool.false_or]
                have hx := i5 k x hkx
                rw [hG]
                simp only [decide_eq_false_iff_not, not_lt]
                have hpos : (0 : ℚ) < ((k + 1 : Nat) : ℚ) := by positivity
                rw [div_le_iff₀ hpos]
                have hcap := cap_le ((u.mon.effCost + (e.tu - u.mon.current.getD c.first)) / ((u.mon.effNum + 1 : Nat) : ℚ) *
                  ((c.maxSteps : ℚ) - ((u.mon.computed + 1 : Nat) : ℚ)))
                have hk : (0 : ℚ) ≤ k := Nat.cast_nonneg k
                push_cast at hcap ⊢
                nlinarith
            · exact i4
          · split
            · split
              · rename_i hnone
                intro k x hk
                simp only at hk hnone
                rw [hnone] at hk
                simp at hk
              · rename_i k x hkx
                intro k' x' hk
                simp only at hk
                split at hk
                · simp at hk
                · simp only [Option.some.injEq, Prod.mk.injEq] at hk
                  rw [← hk.1, ← hk.2]
                  have hx := i5 k x hkx
                  have hcap := cap_le ((u.mon.effCost + (e.tu - u.mon.current.getD c.first)) / ((u.mon.effNum + 1 : Nat) : ℚ) *
                    ((c.maxSteps : ℚ) - ((u.mon.computed + 1 : Nat) : ℚ)))
                  push_cast at hcap ⊢
                  linarith
            · exact i5
          · split
            · split <;> exact cap_le _
            · exact i6
      have hold : s.reports = u.reports → s.mon.lastGraph = u.mon.lastGraph → s.mon.ever = u.mon.ever → s.mon.warn = false →
          s.mon.assess = m.assess → s.mon.remaining = m.remaining →
          s.reports = [] ∧ s.mon.lastGraph = g ∧ s.mon.ever = false ∧ s.mon.warn = false ∧
          (∀ k x, s.mon.assess = some (k, x) → x ≤ k * 8640000) ∧ s.mon.remaining ≤ 8640000 := by
        intro e1 e2 e3 e4 e5 e6
        rw [e1, e2, e3, e4, e5, e6]
        exact ⟨i1, i2, i3, rfl, hupd.2.1, hupd.2.2⟩
      cases hrow : e.row.isSome with
      | false =>
        obtain ⟨a1, _, a3⟩ := hn hrow
        exact hold a3 (by rw [a1, n5]) (by rw [a1, n6]) (by rw [a1]; exact hupd.1) (by rw [a1]) (by rw [a1])
      | true =>
        obtain ⟨a1, _, a3⟩ := hs hrow
        obtain ⟨q1, q2, q3, q4, q5, q6, _⟩ := autoSave_spec c e.ts e.ok (u.rdf ++ e.row.toList) (m, u.file)
        obtain ⟨_, _, _, _, _, p6, p7⟩ := autoSave_counts c e.ts e.ok (u.rdf ++ e.row.toList) (m, u.file)
        generalize hsv : (autoSave c e.ts e.ok (u.rdf ++ e.row.toList) (m, u.file)).1 = sv at *
        have ht := htime e (by simp)
        have hj : ((decide (sv.computed = c.maxSteps) || e.shut) && (decide (c.graphTime < sv.total) || sv.ever) ||
            (decide (c.graphTime < sv.current.getD c.first - sv.lastGraph) || sv.warn) ||
            c.real && !decide (sv.current.getD c.first - sv.lastGraph < 10)) = false := by
          have f1 : decide (c.graphTime < sv.total) = false := by
            rw [q6, hG]
            simp only [n7, decide_eq_false_iff_not, not_lt]
            exact ht
          have f2 : decide (c.graphTime < sv.current.getD c.first - sv.lastGraph) = false := by
            rw [q2, q3, hG]
            simp only [n4, n5, i2, Option.getD_some, decide_eq_false_iff_not, not_lt]
            linarith
          have f3 : sv.ever = false := by rw [q4]; simp only [n6, i3]
          have f4 : sv.warn = false := by rw [q5]; exact hupd.1
          simp [f1, f2, f3, f4, hreal]
        have hrep : report c e.shut e.tg sv = ({ sv with warn := false }, false) := by
          unfold report
          simp only [hj, Bool.false_eq_true, if_false]
        rw [hrep] at a1 a3
        refine hold (by simpa using a3) (by rw [a1]; simp only; rw [q3]; exact n5) (by rw [a1]; simp only; rw [q4]; exact n6)
          (by rw [a1]) (by rw [a1]; simp only; rw [p7]) (by rw [a1]; simp only; rw [p6])
  exact inv.1

/-- **Selected rows.** From a record of `N` rows, at most `max_num` different rows are selected, in order: the first, and the last
`last_num`; all rows if there are not more than `max_num`. -/
theorem c103_select (maxNum lastNum N : Nat) (l : List Nat) (h : select maxNum lastNum N = some l) :
    l.Pairwise (· < ·) ∧ (∀ i ∈ l, i < N) ∧ (N ≤ maxNum → l = List.range N) ∧
      (maxNum < N → l.length = maxNum ∧ 0 ∈ l ∧ ∀ i, N - lastNum ≤ i → i < N → i ∈ l) := by
  unfold select at h
  split at h
  · rename_i hc
    obtain ⟨h10, hl1, hl⟩ := hc
    rw [Option.some.injEq] at h
    by_cases hN : maxNum < N
    · rw [if_pos hN] at h
      subst h
      obtain ⟨q, hq⟩ : ∃ q, maxNum = lastNum + q := ⟨maxNum - lastNum, by omega⟩
      have hq0 : 0 < q := by omega
      have hq1 : maxNum + 1 - lastNum = q + 1 := by omega
      simp only [hq1, Nat.add_sub_cancel]
      obtain ⟨D, hD⟩ : ∃ D, N = lastNum + D := ⟨N - lastNum, by omega⟩
      have hDq : q < D := by omega
      have hDe : N - lastNum = D := by omega
      rw [hDe]
      have hmono : ∀ a b, a < b → a * D / q < b * D / q := by
        intro a b hab
        have : a * D + q ≤ b * D := by
          have : (a + 1) * D ≤ b * D := Nat.mul_le_mul_right _ hab
          have e : (a + 1) * D = a * D + D := by ring
          omega
        calc a * D / q < a * D / q + 1 := Nat.lt_succ_self _
          _ = (a * D + q) / q := by rw [Nat.add_div_right _ hq0]
          _ ≤ b * D / q := Nat.div_le_div_right this
      have hle : ∀ k, k ≤ q → k * D / q ≤ D := by
        intro k hk
        calc k * D / q ≤ q * D / q := Nat.div_le_div_right (Nat.mul_le_mul_right _ hk)
          _ = D := Nat.mul_div_cancel_left _ hq0
      refine ⟨?_, ?_, fun h => by omega, fun _ => ⟨?_, ?_, ?_⟩⟩
      · rw [List.pairwise_append]
        refine ⟨?_, ?_, ?_⟩
        · rw [List.pairwise_map]
          exact List.pairwise_lt_range.imp (fun {a b} hab => hmono a b hab)
        · rw [List.pairwise_map]
          exact List.pairwise_lt_range.imp (fun {a b} hab => by omega)
        · intro a ha b hb
          obtain ⟨k, hk, rfl⟩ := List.mem_map.1 ha
          obtain ⟨i, hi, rfl⟩ := List.mem_map.1 hb
          rw [List.mem_range] at hk hi
          have := hle k (by omega)
          omega
      · intro i hi
        rcases List.mem_append.1 hi with hi | hi
        · obtain ⟨k, hk, rfl⟩ := List.mem_map.1 hi
          rw [List.mem_range] at hk
          have := hle k (by omega)
          omega
        · obtain ⟨k, hk, rfl⟩ := List.mem_map.1 hi
          rw [List.mem_range] at hk
          omega
      · simp; omega
      · refine List.mem_append_left _ (List.mem_map.2 ⟨0, List.mem_range.2 (by omega), by simp⟩)
      · intro i h1 h2
        rcases Nat.eq_or_lt_of_le h1 with h3 | h3
        · refine List.mem_append_left _ (List.mem_map.2 ⟨q, List.mem_range.2 (by omega), ?_⟩)
          rw [Nat.mul_div_cancel_left _ hq0]
          exact h3
        · exact List.mem_append_right _ (List.mem_map.2 ⟨i - (N + 1 - lastNum), List.mem_range.2 (by omega), by omega⟩)
    · rw [if_neg hN] at h
      subst h
      exact ⟨List.pairwise_lt_range, fun i hi => List.mem_range.1 hi, fun _ => rfl, fun h => absurd h hN⟩
  · simp at h

/-- **Extreme times.** For the plot, at most one time is replaced by nan: the largest, if it is more than twice the mean and no
other is more than 0.9 of it. (Times are not negative.) -/
theorem c103_filter (times : List (Option ℚ)) (hpos : ∀ t, some t ∈ times → 0 ≤ t) :
    (filterExtreme times).length = times.length ∧
    ∀ i : Nat, i < times.length → (filterExtreme times)[i]? ≠ times[i]? →
      ∃ t, times[i]? = some (some t) ∧ (filterExtreme times)[i]? = some none ∧
        2 * ((times.filterMap id).sum / (times.filterMap id).length) < t ∧
        ∀ (j : Nat) (u : ℚ), times[j]? = some (some u) → u ≤ t ∧ (j ≠ i → u ≤ 9 / 10 * t) := by
  unfold filterExtreme
  simp only
  cases hm : (times.filterMap id).max? with
  | none => exact ⟨rfl, fun i _ h => absurd rfl h⟩
  | some maxt =>
    simp only
    obtain ⟨hmem, hmax⟩ := List.max?_eq_some_iff.1 hm
    split
    · rename_i hc
      refine ⟨by simp, ?_⟩
      intro i hi hne
      have hget : times[i]? = some times[i] := List.getElem?_eq_getElem hi
      rw [List.getElem?_map, hget] at hne ⊢
      simp only [Option.map_some] at hne ⊢
      have hmem0 : some maxt ∈ times := by
        obtain ⟨o, ho, e⟩ := List.mem_filterMap.1 hmem
        simp only [id] at e
        rwa [← e]
      have hm0 : 0 ≤ maxt := hpos maxt hmem0
      have hmpos : 0 < maxt := by
        have hs : 0 ≤ (times.filterMap id).sum / (times.filterMap id).length := by
          have hsum : ∀ l : List ℚ, (∀ x ∈ l, 0 ≤ x) → 0 ≤ l.sum := by
            intro l
            induction l with
            | nil => intro _; simp
            | cons a l ih =>
              intro h
              rw [List.sum_cons]
              exact add_nonneg (h a (by simp)) (ih fun x hx => h x (by simp [hx]))
          refine div_nonneg (hsum _ ?_) (Nat.cast_nonneg _)
          intro x hx
          obtain ⟨o, ho, e⟩ := List.mem_filterMap.1 hx
          simp only [id] at e
          rw [e] at ho
          exact hpos x ho
        linarith [hc.1]
      by_cases hb : 9 / 10 * maxt < times[i].getD 0
      · rw [if_pos hb] at hne ⊢
        cases ht : times[i] with
        | none => rw [ht] at hne; simp at hne
        | some t =>
          rw [ht] at hb
          simp only [Option.getD_some] at hb
          -- only one is that large
          have huniq : ∀ (j : Nat) (u : ℚ), times[j]? = some (some u) → 9 / 10 * maxt < u → j = i := by
            intro j u hj hu
            by_contra hji
            have hlen := hc.2
            rw [← List.countP_eq_length_filter] at hlen
            have hcp : ∀ l : List (Option ℚ), (l.filterMap id).countP (fun t => decide (9 / 10 * maxt < t)) =
                l.countP (fun o => match o with | none => false | some t => decide (9 / 10 * maxt < t)) := by
              intro l
              induction l with
              | nil => rfl
              | cons o l ih =>
                cases o with
                | none =>
                  rw [List.filterMap_cons_none rfl, ih, List.countP_cons]
                  simp
                | some t =>
                  rw [List.filterMap_cons_some (f := id) (a := some t) (b := t) rfl, List.countP_cons, ih, List.countP_cons]
            rw [hcp] at hlen
            have hjlt : j < times.length := by
              by_contra hcon
              rw [List.getElem?_eq_none (by omega)] at hj
              simp at hj
            have two : ∀ (l : List (Option ℚ)) (p : Option ℚ → Bool) (a b : Nat), a < b → (∃ x, l[a]? = some x ∧ p x = true) →
                (∃ x, l[b]? = some x ∧ p x = true) → 2 ≤ l.countP p := by
              intro l
              induction l with
              | nil => intro p a b _ h; simp at h
              | cons x l ih =>
                intro p a b hab ha hb
                rw [List.countP_cons]
                cases b with
                | zero => omega
                | succ b =>
                  cases a with
                  | zero =>
                    obtain ⟨y, hy, hpy⟩ := ha
                    simp only [List.getElem?_cons_zero, Option.some.injEq] at hy
                    subst hy
                    obtain ⟨z, hz, hpz⟩ := hb
                    rw [List.getElem?_cons_succ] at hz
                    have : 0 < l.countP p := List.countP_pos_iff.2 ⟨z, List.mem_of_getElem? hz, hpz⟩
                    rw [if_pos hpy]
                    omega
                  | succ a =>
                    have := ih p a b (by omega) (by simpa using ha) (by simpa using hb)
                    omega
            have hpi : ∃ x, times[i]? = some x ∧ (match x with | none => false | some t => decide (9 / 10 * maxt < t)) = true :=
              ⟨some t, by rw [hget, ht], by simpa using hb⟩
            have hpj : ∃ x, times[j]? = some x ∧ (match x with | none => false | some t => decide (9 / 10 * maxt < t)) = true :=
              ⟨some u, hj, by simpa using hu⟩
            rcases Nat.lt_or_gt_of_ne hji with h | h
            · have := two times _ j i h hpj hpi; omega
            · have := two times _ i j h hpi hpj; omega
          obtain ⟨k, hk⟩ := List.mem_iff_getElem?.1 hmem0
          have hki := huniq k maxt hk (by linarith)
          subst hki
          have htm : t = maxt := by
            rw [hget, ht] at hk
            simpa using hk
          subst htm
          refine ⟨t, rfl, rfl, hc.1, ?_⟩
          intro j u hj
          have humem : u ∈ times.filterMap id := List.mem_filterMap.2 ⟨some u, List.mem_of_getElem? hj, rfl⟩
          refine ⟨hmax u humem, ?_⟩
          intro hji
          by_contra hcon
          exact hji (huniq j u hj (not_le.1 hcon))
      · rw [if_neg hb] at hne
        exact absurd rfl hne
    · exact ⟨rfl, fun i _ h => absurd rfl h⟩

/-! ## Cases -/

example : setFactor (.num (1 / 2)) = some (1200, 1200) ∧ setFactor (.bool true) = some (600, 600) ∧
    setFactor (.num 100) = some (60, 60) ∧ setFactor (.num (1 / 20)) = none := by decide +kernel

/-- a run of four steps of 100, 1/5, 500 and 700 seconds; the third one cannot be saved at first. -/
def demo : List (Event Nat) :=
  [⟨some 1, false, 100, 100, 100, (true, true)⟩, ⟨some 2, false, 501 / 5, 501 / 5, 501 / 5, (true, true)⟩,
   ⟨some 3, false, 3001 / 5, 3001 / 5, 3001 / 5, (false, true)⟩, ⟨some 4, false, 6501 / 5, 6501 / 5, 6501 / 5, (true, true)⟩]

def demoCfg : Cfg := ⟨.every 3, true, 600, 600, false, 4, 0, 0⟩

/-- hypotheses of `c103_prefix`, `c103_lag`, `c103_counts`, `c103_estimate`, `c103_report_lag` (after the second step) and
`c103_last_report`. -/
example : (rounds demoCfg demo (fresh 0 [0] none)).map (fun s => (s.rdf, s.file, s.mon.computed, s.reports)) =
    some ([0, 1, 2, 3, 4], some [0, 1, 2, 3, 4], 4, [3, 4]) := by decide +kernel

example : (rounds demoCfg demo (fresh 0 [0] none)).map (fun s => s.mon.times) = some [none, some 100, none, some 500, some 700] := by
  decide +kernel

example : (rounds demoCfg (demo.take 3) (fresh 0 [0] none)).map (fun s => (s.file, s.mon.effCost, s.mon.effNum, s.mon.remaining, s.reports)) =
    some (some [0, 1, 2, 3], 600, 2, 300, [3]) := by decide +kernel

example : (rounds demoCfg (demo.take 2) (fresh 0 [0] none)).map (fun s => (s.file, s.mon.remaining, s.reports)) =
    some (some [0, 1], 300, []) := by decide +kernel

/-- hypotheses of `c103_every_partial` for the third step of `demo`. -/
example : 3 ∣ (demo.take 2).length + 1 ∧ (∀ x ∈ demo.take 2, 1 / 10 * demoCfg.saveTime < 3001 / 5 - x.ts) := by
  refine ⟨by decide, ?_⟩
  intro x hx
  simp only [demo, List.take_succ_cons, List.take_zero, List.mem_cons, List.not_mem_nil, or_false] at hx
  rcases hx with rfl | rfl <;> norm_num [demoCfg]

/-- steps of nine seconds. -/
def nine (n : Nat) : List (Event Nat) := (List.range n).map fun i => ⟨some (i + 1), false, 9 * (i + 1), 9 * (i + 1), 9 * (i + 1), (true, true)⟩

theorem nine_quick (n : Nat) : Quick 0 (nine n) := by
  have key : ∀ (n k : Nat), Quick (9 * (k : ℚ)) ((List.range n).map fun i =>
      (⟨some (i + k + 1), false, 9 * ((i + k : Nat) + 1), 9 * ((i + k : Nat) + 1), 9 * ((i + k : Nat) + 1), (true, true)⟩ : Event Nat)) := by
    intro n
    induction n with
    | zero => intro k; simp [Quick]
    | succ n ih =>
      intro k
      rw [List.range_succ_eq_map, List.map_cons, List.map_map]
      have := ih (k + 1)
      simp only [Quick, Option.isSome_some, if_true, Nat.zero_add]
      refine ⟨by linarith, ?_⟩
      convert this using 2
      · push_cast; ring
      · funext i
        simp only [Function.comp, Nat.succ_eq_add_one]
        have : i + 1 + k = i + (k + 1) := by ring
        rw [this]
  have := key n 0
  simpa [nine] using this

/-- **A long run without a file.** With real-time monitoring (and no other saving), a run of any number of steps of nine seconds
each has nothing on the disk before its end. -/
theorem c103_realtime_never_case (n : Nat) :
    ∃ s, rounds ⟨.every 0, true, 600, 600, true, 999999, 0, 0⟩ (nine n) (fresh 0 [0] none) = some s ∧ s.file = none ∧
      s.rdf.length = n + 1 := by
  have hsome : ∀ (es : List (Event Nat)) (u : Run Nat),
      ∃ s, rounds ⟨.every 0, true, 600, 600, true, 999999, 0, 0⟩ es u = some s := by
    intro es
    induction es with
    | nil => intro u; exact ⟨u, rfl⟩
    | cons e es ih =>
      intro u
      simp only [rounds, Monitor.round, update]
      rw [if_neg (by norm_num)]
      exact ih _
  obtain ⟨s, hs⟩ := hsome (nine n) (fresh 0 [0] none)
  refine ⟨s, hs, ?_, ?_⟩
  · exact c103_realtime_never _ rfl rfl (nine n) 0 [0] none s (nine_quick n) hs
  · rw [(rounds_rdf hs).1]
    have : rowsOf (nine n) = (List.range n).map (· + 1) := by
      apply rowsOf_rows
      simp [nine]
    rw [this]
    simp [fresh]

/-- hypotheses of `c103_silent`. -/
example : (rounds { demoCfg with graphTime := 9999999 } demo (fresh 0 [0] none)).map (fun s => s.reports) = some [] := by decide +kernel

/-- hypotheses of `c103_crash_resume`: a run of ten steps breaks off after four; three are on the disk. -/
example : (demo.take 3 ++ [(⟨some 4, false, 604, 604, 604, (true, true)⟩ : Event Nat)]).map (fun e => e.row) = [some 1, some 2, some 3, some 4] ∧
    ((rounds { demoCfg with maxSteps := 10 } (demo.take 3 ++ [⟨some 4, false, 604, 604, 604, (true, true)⟩]) (fresh 0 [0] none)).map
      (fun s => s.file)) = some (some [0, 1, 2, 3]) := by decide +kernel

def squares : Solver ℚ := fun _ t => (.flag false, t * t)

example : ∃ (es : List (Event (Row ℚ))) (s : Run (Row ℚ)),
    es.map (fun e => e.row) = (rowsFor squares 0 1 [⟨0, 0, 1, 0⟩] 4).map some ∧
    rounds { demoCfg with maxSteps := 10 } es (fresh 0 [⟨0, 0, 1, 0⟩] none) = some s ∧ s.file.map List.length = some 4 := by
  refine ⟨(rowsFor squares 0 1 [⟨0, 0, 1, 0⟩] 4).map fun r => ⟨some r, false, 200 * r.index, 200 * r.index, 200 * r.index, (true, true)⟩, ?_⟩
  have h : ((rounds { demoCfg with maxSteps := 10 } ((rowsFor squares 0 1 [⟨0, 0, 1, 0⟩] 4).map fun r =>
      ⟨some r, false, 200 * r.index, 200 * r.index, 200 * r.index, (true, true)⟩) (fresh 0 [⟨0, 0, 1, 0⟩] none)).map
        (fun s => s.file.map List.length)) = some (some 4) := by decide +kernel
  obtain ⟨s, h1, h2⟩ := Option.map_eq_some_iff.1 h
  exact ⟨s, by simp, h1, h2⟩

example : select 10 3 100 = some [0, 13, 27, 41, 55, 69, 83, 97, 98, 99] := by decide +kernel

example : filterExtreme [none, some 1, some 100, some 2] = [none, some 1, none, some 2] := by decide +kernel

end Mifem.Props.Mon103
