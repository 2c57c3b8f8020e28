import Verif.Model.Monitor
import Verif.Props.Iterator
import Mathlib.Tactic.Linarith
import Mathlib.Tactic.Ring

/-!
# C103: the monitor of an iterator

What is on the disk when a run breaks off, what the monitor counts and estimates, and when reports are made.
-/

namespace Mifem.Props.Mon103
open Mifem.Monitor

variable {α : Type}

/-! ## Arguments -/

/-- **The monitor factor.** Accepted are False, True and numbers that are 0 or at least 0.1. With 0 or False, nothing happens
for 9999999 seconds; otherwise the time is 600 seconds divided by the factor (True is 1) but at least a minute, so it is between
60 and 6000 seconds. -/
theorem c103_factor (v : Val) (g t : ℚ) : setFactor v = some (g, t) ↔
    g = t ∧ ((v = .bool false ∨ v = .num 0) ∧ t = 9999999 ∨
      ∃ f, (v = .bool true ∧ f = 1 ∨ v = .num f ∧ 1 / 10 ≤ f) ∧ t = max 60 (600 / f) ∧ 60 ≤ t ∧ t ≤ 6000) := by
  have hmax : ∀ f : ℚ, 1 / 10 ≤ f → setFactor.times f = (max 60 (600 / f), max 60 (600 / f)) ∧ max 60 (600 / f) ≤ 6000 := by
    intro f hf
    have h0 : f ≠ 0 := by intro h; rw [h] at hf; norm_num at hf
    have hpos : 0 < f := by linarith
    have e : 1 / f * 600 = 600 / f := by ring
    refine ⟨?_, ?_⟩
    · simp only [setFactor.times, h0, if_false, e]
      by_cases h : 600 / f < 60
      · rw [if_pos h, max_eq_left h.le]
      · rw [if_neg h, max_eq_right (not_lt.1 h)]
    · refine max_le (by norm_num) ?_
      rw [div_le_iff₀ hpos]
      linarith
  have hz : setFactor.times 0 = (9999999, 9999999) := by
    simp only [setFactor.times]
    norm_num
  constructor
  · intro h
    cases v with
    | other => simp [setFactor] at h
    | bool b =>
      cases b with
      | false =>
        simp only [setFactor, hz, Bool.false_eq_true, if_false, Option.some.injEq, Prod.mk.injEq] at h
        exact ⟨h.1.symm.trans h.2, Or.inl ⟨Or.inl rfl, h.2.symm⟩⟩
      | true =>
        obtain ⟨h1, h2⟩ := hmax 1 (by norm_num)
        simp only [setFactor, h1, if_true, Option.some.injEq, Prod.mk.injEq] at h
        exact ⟨h.1.symm.trans h.2, Or.inr ⟨1, Or.inl ⟨rfl, rfl⟩, h.2.symm, by rw [← h.2]; exact le_max_left _ _, by rw [← h.2]; exact h2⟩⟩
    | num q =>
      simp only [setFactor] at h
      split at h
      · rename_i hq
        subst hq
        simp only [hz, Option.some.injEq, Prod.mk.injEq] at h
        exact ⟨h.1.symm.trans h.2, Or.inl ⟨Or.inr rfl, h.2.symm⟩⟩
      · split at h
        · rename_i hq
          obtain ⟨h1, h2⟩ := hmax q hq
          simp only [h1, Option.some.injEq, Prod.mk.injEq] at h
          exact ⟨h.1.symm.trans h.2, Or.inr ⟨q, Or.inr ⟨rfl, hq⟩, h.2.symm, by rw [← h.2]; exact le_max_left _ _, by rw [← h.2]; exact h2⟩⟩
        · simp at h
  · rintro ⟨rfl, ⟨h, rfl⟩ | ⟨f, h, rfl, -, -⟩⟩
    · rcases h with rfl | rfl <;> simp [setFactor, hz]
    · rcases h with ⟨rfl, rfl⟩ | ⟨rfl, hf⟩
      · simp only [setFactor, if_true, (hmax 1 (by norm_num)).1]
      · have h0 : f ≠ 0 := by intro h; rw [h] at hf; norm_num at hf
        simp only [setFactor, h0, if_false, if_pos hf, (hmax f hf).1]

/-- the name ends with '.csv'. -/
def EndsCsv (s : List Char) : Prop := ∃ p, s = p ++ ".csv".toList

theorem ends_iff (s : List Char) : s.drop (s.length - 4) = ".csv".toList ↔ EndsCsv s := by
  constructor
  · intro h
    exact ⟨s.take (s.length - 4), by rw [← h, List.take_append_drop]⟩
  · rintro ⟨p, rfl⟩
    have : (p ++ ".csv".toList).length - 4 = p.length := by simp
    rw [this, List.drop_left]

/-- **The name of the file.** A name is accepted if it has no dot (then '.csv' is appended) or ends with '.csv' (then it is used
as it is); so a name with a directory like './run' is refused. Names that have been accepted stay the same when they are used
again. -/
theorem c103_filename (s : List Char) :
    ('.' ∉ s → setName (some s) = some (some (s ++ ".csv".toList))) ∧
    ('.' ∈ s → EndsCsv s → setName (some s) = some (some s)) ∧
    ('.' ∈ s → ¬ EndsCsv s → setName (some s) = none) ∧
    (∀ r, setName (some s) = some (some r) → EndsCsv r ∧ setName (some r) = some (some r)) := by
  have h1 : '.' ∉ s → setName (some s) = some (some (s ++ ".csv".toList)) := by
    intro h
    simp only [setName, if_neg h]
    rw [if_pos ((ends_iff _).2 ⟨s, rfl⟩)]
  have h2 : ∀ s, '.' ∈ s → EndsCsv s → setName (some s) = some (some s) := by
    intro s h he
    simp only [setName, if_pos h]
    rw [if_pos ((ends_iff _).2 he)]
  have h3 : '.' ∈ s → ¬ EndsCsv s → setName (some s) = none := by
    intro h he
    simp only [setName, if_pos h]
    rw [if_neg (fun h => he ((ends_iff _).1 h))]
  refine ⟨h1, h2 s, h3, ?_⟩
  intro r hr
  have key : EndsCsv r := by
    by_cases h : '.' ∈ s
    · by_cases he : EndsCsv s
      · rw [h2 s h he] at hr
        simp only [Option.some.injEq] at hr
        rwa [← hr]
      · rw [h3 h he] at hr
        simp at hr
    · rw [h1 h] at hr
      simp only [Option.some.injEq] at hr
      exact ⟨s, hr.symm⟩
  refine ⟨key, h2 r ?_ key⟩
  obtain ⟨p, rfl⟩ := key
  simp

/-- **The frequency.** True means that the monitor decides, False is 0; numbers are rounded down, so 0.5 means that nothing is
saved during the run; negative numbers are refused. -/
theorem c103_frequency (v : Val) (f : Freq) : setFreq v = some f ↔
    v = .bool true ∧ f = .auto ∨ v = .bool false ∧ f = .every 0 ∨
      ∃ (q : ℚ) (n : Nat), v = .num q ∧ f = .every n ∧ (n : ℚ) ≤ q ∧ q < n + 1 := by
  cases v with
  | other => simp [setFreq]
  | bool b => cases b <;> simp [setFreq, eq_comm]
  | num q =>
    simp only [setFreq]
    constructor
    · intro h
      split at h
      · rename_i hq
        rw [Option.some.injEq] at h
        have hf : 0 ≤ ⌊q⌋ := Int.floor_nonneg.2 hq
        have hc : ((⌊q⌋.toNat : Nat) : ℚ) = ((⌊q⌋ : ℤ) : ℚ) := by rw [← Int.cast_natCast, Int.toNat_of_nonneg hf]
        refine Or.inr (Or.inr ⟨q, _, rfl, h.symm, ?_, ?_⟩)
        · rw [hc]; exact Int.floor_le q
        · rw [hc]; exact Int.lt_floor_add_one q
      · simp at h
    · rintro (⟨h, _⟩ | ⟨h, _⟩ | ⟨q', n, h, rfl, h1, h2⟩)
      · simp at h
      · simp at h
      · simp only [Val.num.injEq] at h
        subst h
        have hq : 0 ≤ q := le_trans (Nat.cast_nonneg n) h1
        have : ⌊q⌋ = (n : ℤ) := by
          rw [Int.floor_eq_iff]
          exact ⟨by simpa using h1, by simpa using h2⟩
        rw [if_pos hq, this]
        simp

/-! ## What is on the disk -/

/-- the rows that the rounds add to the record. -/
def rowsOf (es : List (Event α)) : List α := es.flatMap fun e => e.row.toList

/-- a new monitor. -/
def fresh (g : ℚ) (R : List α) (file : Option (List α)) : Run α := ⟨{ lastGraph := g }, R, file, []⟩

theorem update_spec {c : Cfg} {sh : Bool} {t : ℚ} {m m' : Mon} (h : update c sh t m = some m') :
    m'.lastSave = m.lastSave ∧ m'.firstSave = m.firstSave ∧ m'.computed = m.computed + 1 ∧ m'.current = some t ∧
      m'.lastGraph = m.lastGraph ∧ m'.ever = m.ever ∧ m'.total = t - c.start := by
  unfold update at h
  split at h
  · simp at h
  · simp only [Option.some.injEq] at h
    subst h
    (repeat' split) <;> simp

theorem report_spec (c : Cfg) (sh : Bool) (t : ℚ) (m : Mon) :
    (report c sh t m).1.lastSave = m.lastSave ∧ (report c sh t m).1.firstSave = m.firstSave ∧
      (report c sh t m).1.computed = m.computed ∧ (report c sh t m).1.current = m.current := by
  unfold report
  simp only
  split <;> simp

theorem autoSave_spec (c : Cfg) (t : ℚ) (ok : Bool × Bool) (rdf : List α) (s : Mon × Option (List α)) :
    (autoSave c t ok rdf s).1.computed = s.1.computed ∧ (autoSave c t ok rdf s).1.current = s.1.current ∧
      (autoSave c t ok rdf s).1.lastGraph = s.1.lastGraph ∧ (autoSave c t ok rdf s).1.ever = s.1.ever ∧
      (autoSave c t ok rdf s).1.warn = s.1.warn ∧ (autoSave c t ok rdf s).1.total = s.1.total ∧
      ((autoSave c t ok rdf s).2 = s.2 ∨ (autoSave c t ok rdf s).2 = some rdf) := by
  have hw : ∀ f, write ok rdf f = f ∨ write ok rdf f = some rdf := by
    intro f
    unfold write
    split <;> simp
  unfold autoSave
  split
  · simp only
    split
    · split
      · exact ⟨rfl, rfl, rfl, rfl, rfl, rfl, hw _⟩
      · simp
    · split
      · split
        · exact ⟨rfl, rfl, rfl, rfl, rfl, rfl, hw _⟩
        · simp
      · split
        · refine ⟨rfl, rfl, rfl, rfl, rfl, rfl, ?_⟩
          simp only
          split
          · simp
          · exact hw _
        · simp
  · simp

theorem rounds_append (c : Cfg) (es fs : List (Event α)) (s : Run α) :
    rounds c (es ++ fs) s = (rounds c es s).bind (rounds c fs) := by
  induction es generalizing s with
  | nil => rfl
  | cons e es ih =>
    simp only [List.cons_append, rounds]
    rw [Option.bind_assoc]
    congr 1
    funext s'
    exact ih s'

theorem rounds_snoc {c : Cfg} {es : List (Event α)} {e : Event α} {s s' : Run α} (h : rounds c (es ++ [e]) s = some s') :
    ∃ u, rounds c es s = some u ∧ round c e u = some s' := by
  rw [rounds_append] at h
  obtain ⟨u, h1, h2⟩ := Option.bind_eq_some_iff.1 h
  refine ⟨u, h1, ?_⟩
  simp only [rounds] at h2
  obtain ⟨v, h3, h4⟩ := Option.bind_eq_some_iff.1 h2
  rw [h3, h4]

/-- what one round does. -/
theorem round_spec {c : Cfg} {e : Event α} {s s' : Run α} (h : round c e s = some s') :
    ∃ m, update c e.shut e.tu s.mon = some m ∧ s'.rdf = s.rdf ++ e.row.toList ∧
      (e.row.isSome = false → s'.mon = m ∧ s'.file = s.file ∧ s'.reports = s.reports) ∧
      (e.row.isSome = true →
        s'.mon = (report c e.shut e.tg (autoSave c e.ts e.ok (s.rdf ++ e.row.toList) (m, s.file)).1).1 ∧
        s'.file = (autoSave c e.ts e.ok (s.rdf ++ e.row.toList) (m, s.file)).2 ∧
        s'.reports = if (report c e.shut e.tg (autoSave c e.ts e.ok (s.rdf ++ e.row.toList) (m, s.file)).1).2 then
          s.reports ++ [m.computed] else s.reports) := by
  unfold Monitor.round at h
  obtain ⟨m, hm, h⟩ := Option.map_eq_some_iff.1 h
  refine ⟨m, hm, ?_⟩
  cases hr : e.row.isSome with
  | false =>
    rw [hr] at h
    simp only [Bool.false_eq_true, if_false] at h
    subst h
    simp
  | true =>
    rw [hr] at h
    simp only [if_true] at h
    subst h
    simp

theorem rounds_rdf {c : Cfg} {es : List (Event α)} {s s' : Run α} (h : rounds c es s = some s') :
    s'.rdf = s.rdf ++ rowsOf es ∧ s'.mon.computed = s.mon.computed + es.length := by
  induction es generalizing s with
  | nil =>
    simp only [rounds, Option.some.injEq] at h
    subst h
    simp [rowsOf]
  | cons e es ih =>
    simp only [rounds] at h
    obtain ⟨u, h1, h2⟩ := Option.bind_eq_some_iff.1 h
    obtain ⟨m, hm, hr, hn, hs⟩ := round_spec h1
    obtain ⟨i1, i2⟩ := ih h2
    have hc : u.mon.computed = s.mon.computed + 1 := by
      cases hrow : e.row.isSome with
      | false => rw [(hn hrow).1]; exact (update_spec hm).2.2.1
      | true => rw [(hs hrow).1, (report_spec _ _ _ _).2.2.1, (autoSave_spec _ _ _ _ _).1]; exact (update_spec hm).2.2.1
    refine ⟨?_, by rw [i2, hc, List.length_cons]; omega⟩
    rw [i1, hr, List.append_assoc]
    rfl

/-- **The file is a former record.** Whatever the settings are and whichever attempts to write fail: what is on the disk is
what was there before the run, or the whole record as it was just after one of the steps. -/
theorem c103_prefix (c : Cfg) (es : List (Event α)) (g : ℚ) (R : List α) (file : Option (List α)) (s : Run α)
    (h : rounds c es (fresh g R file) = some s) :
    s.file = file ∨ ∃ es1 e es2, es = es1 ++ e :: es2 ∧ e.row.isSome = true ∧ s.file = some (R ++ rowsOf (es1 ++ [e])) := by
  induction es using List.reverseRecOn generalizing s with
  | nil =>
    simp only [rounds, Option.some.injEq] at h
    subst h
    exact Or.inl rfl
  | append_singleton es e ih =>
    obtain ⟨u, h1, h2⟩ := rounds_snoc h
    obtain ⟨m, hm, hr, hn, hs⟩ := round_spec h2
    have hold : s.file = u.file → s.file = file ∨ ∃ es1 e' es2, es ++ [e] = es1 ++ e' :: es2 ∧ e'.row.isSome = true ∧
        s.file = some (R ++ rowsOf (es1 ++ [e'])) := by
      intro hf
      rcases ih u h1 with h | ⟨es1, e', es2, rfl, h3, h4⟩
      · exact Or.inl (hf.trans h)
      · exact Or.inr ⟨es1, e', es2 ++ [e], by simp, h3, hf.trans h4⟩
    cases hrow : e.row.isSome with
    | false => exact hold (hn hrow).2.1
    | true =>
      obtain ⟨_, hf, _⟩ := hs hrow
      rcases (autoSave_spec c e.ts e.ok (u.rdf ++ e.row.toList) (m, u.file)).2.2.2.2.2.2 with h3 | h3
      · exact hold (hf.trans h3)
      · refine Or.inr ⟨es, e, [], rfl, hrow, ?_⟩
        rw [hf, h3, (rounds_rdf h1).1]
        simp [rowsOf, fresh, List.append_assoc]

/-- the state of saving with a frequency other than 0. -/
theorem saved (c : Cfg) (hfile : c.file = true) (hfreq : c.freq ≠ .every 0) (es : List (Event α)) (g : ℚ) (R : List α)
    (file : Option (List α)) (s : Run α) (hok : ∀ e ∈ es, (e.ok.1 || e.ok.2) = true) (h : rounds c es (fresh g R file) = some s) :
    ((∀ e ∈ es, e.row.isSome = false) ∧ s.mon.firstSave = true ∧ s.mon.lastSave = none ∧ s.file = file) ∨
    ∃ es1 e es2, es = es1 ++ e :: es2 ∧ e.row.isSome = true ∧ s.file = some (R ++ rowsOf (es1 ++ [e])) ∧
      (∀ e' ∈ es2, e'.row.isSome = true → e'.ts - e.ts ≤ c.saveTime) ∧ s.mon.firstSave = false ∧ s.mon.lastSave = some e.ts := by
  induction es using List.reverseRecOn generalizing s with
  | nil =>
    simp only [rounds, Option.some.injEq] at h
    subst h
    exact Or.inl ⟨by simp, rfl, rfl, rfl⟩
  | append_singleton es e ih =>
    obtain ⟨u, h1, h2⟩ := rounds_snoc h
    obtain ⟨m, hm, hr, hn, hs⟩ := round_spec h2
    obtain ⟨m1, m2, m3, m4, _⟩ := update_spec hm
    have hi := ih u (fun e he => hok e (by simp [he])) h1
    cases hrow : e.row.isSome with
    | false =>
      obtain ⟨n1, n2, _⟩ := hn hrow
      rcases hi with ⟨a1, a2, a3, a4⟩ | ⟨es1, e', es2, rfl, a2, a3, a4, a5, a6⟩
      · left
        refine ⟨?_, by rw [n1, m2, a2], by rw [n1, m1, a3], by rw [n2, a4]⟩
        intro x hx
        rcases List.mem_append.1 hx with hx | hx
        · exact a1 x hx
        · simp only [List.mem_singleton] at hx; rw [hx]; exact hrow
      · right
        refine ⟨es1, e', es2 ++ [e], by simp, a2, by rw [n2, a3], ?_, by rw [n1, m2, a5], by rw [n1, m1, a6]⟩
        intro x hx hxr
        rcases List.mem_append.1 hx with hx | hx
        · exact a4 x hx hxr
        · simp only [List.mem_singleton] at hx; rw [hx, hrow] at hxr; simp at hxr
    | true =>
      obtain ⟨s1, s2, _⟩ := hs hrow
      have hoke := hok e (by simp)
      have hw : write e.ok (u.rdf ++ e.row.toList) u.file = some (R ++ rowsOf (es ++ [e])) := by
        unfold write
        rw [if_pos hoke, (rounds_rdf h1).1]
        simp [rowsOf, fresh, List.append_assoc]
      have hcase : ((autoSave c e.ts e.ok (u.rdf ++ e.row.toList) (m, u.file)).2 = write e.ok (u.rdf ++ e.row.toList) u.file ∧
            (autoSave c e.ts e.ok (u.rdf ++ e.row.toList) (m, u.file)).1.firstSave = false ∧
            (autoSave c e.ts e.ok (u.rdf ++ e.row.toList) (m, u.file)).1.lastSave = some e.ts) ∨
          ((autoSave c e.ts e.ok (u.rdf ++ e.row.toList) (m, u.file)).2 = u.file ∧ m.firstSave = false ∧
            e.ts - m.lastSave.getD c.first ≤ c.saveTime ∧
            (autoSave c e.ts e.ok (u.rdf ++ e.row.toList) (m, u.file)).1.firstSave = m.firstSave ∧
            (autoSave c e.ts e.ok (u.rdf ++ e.row.toList) (m, u.file)).1.lastSave = some (m.lastSave.getD c.first)) := by
        unfold autoSave
        rw [if_pos hfile]
        cases hc : c.freq with
        | auto =>
          simp only
          split
          · left; simp
          · rename_i hno
            right
            simp only [not_or, not_lt, Bool.not_eq_true] at hno
            exact ⟨rfl, hno.2, hno.1, rfl, rfl⟩
        | every n =>
          have hn0 : 0 < n := by
            rcases Nat.eq_zero_or_pos n with h | h
            · rw [h] at hc; exact absurd hc hfreq
            · exact h
          simp only [hn0, if_true]
          split
          · left; simp
          · rename_i hno
            right
            simp only [not_or, not_lt, Bool.not_eq_true] at hno
            exact ⟨rfl, hno.2.2, hno.2.1, rfl, rfl⟩
      rcases hcase with ⟨c1, c2, c3⟩ | ⟨c1, c2, c3, c4, c5⟩
      · right
        refine ⟨es, e, [], rfl, hrow, by rw [s2, c1, hw], by simp, ?_, ?_⟩
        · rw [s1, (report_spec _ _ _ _).2.1, c2]
        · rw [s1, (report_spec _ _ _ _).1, c3]
      · rcases hi with ⟨a1, a2, a3, a4⟩ | ⟨es1, e', es2, rfl, a2, a3, a4, a5, a6⟩
        · rw [m2, a2] at c2
          simp at c2
        · right
          rw [m1, a6] at c3 c5
          refine ⟨es1, e', es2 ++ [e], by simp, a2, by rw [s2, c1, a3], ?_, ?_, ?_⟩
          · intro x hx hxr
            rcases List.mem_append.1 hx with hx | hx
            · exact a4 x hx hxr
            · simp only [List.mem_singleton] at hx; rw [hx]; exact c3
          · rw [s1, (report_spec _ _ _ _).2.1, c4, m2, a5]
          · rw [s1, (report_spec _ _ _ _).1, c5]; rfl

/-- **Nothing older than the saving time is lost.** With a file and a frequency other than 0, and if writing works (at the
second attempt at the latest), the file has after every computed step all rows up to some computed step, and the steps since
then have ended at most the saving time later. In particular the first computed step is always saved. -/
theorem c103_lag (c : Cfg) (hfile : c.file = true) (hfreq : c.freq ≠ .every 0) (es : List (Event α)) (g : ℚ) (R : List α)
    (file : Option (List α)) (s : Run α) (hok : ∀ e ∈ es, (e.ok.1 || e.ok.2) = true) (h : rounds c es (fresh g R file) = some s)
    (hsome : ∃ e ∈ es, e.row.isSome = true) :
    ∃ es1 e es2, es = es1 ++ e :: es2 ∧ e.row.isSome = true ∧ s.file = some (R ++ rowsOf (es1 ++ [e])) ∧
      ∀ e' ∈ es2, e'.row.isSome = true → e'.ts - e.ts ≤ c.saveTime := by
  rcases saved c hfile hfreq es g R file s hok h with ⟨h1, _⟩ | ⟨es1, e, es2, h1, h2, h3, h4, _⟩
  · obtain ⟨e, he, hr⟩ := hsome
    rw [h1 e he] at hr
    simp at hr
  · exact ⟨es1, e, es2, h1, h2, h3, h4⟩

/-- **Saving every n steps (partial).** A step whose number is a multiple of `n` is saved if more than a tenth of the saving time
has passed since all earlier steps and the beginning of the run. Missing: the condition on the time, see `c103_every_fails`. -/
theorem c103_every_partial (c : Cfg) (hfile : c.file = true) (n : Nat) (hn : 0 < n) (hfreq : c.freq = .every n)
    (es : List (Event α)) (e : Event α) (g : ℚ) (R : List α) (file : Option (List α)) (s : Run α)
    (hok : ∀ x ∈ es ++ [e], (x.ok.1 || x.ok.2) = true) (h : rounds c (es ++ [e]) (fresh g R file) = some s) (hrow : e.row.isSome = true)
    (hdvd : n ∣ es.length + 1) (hgap : ∀ x ∈ es, x.row.isSome = true → 1 / 10 * c.saveTime < e.ts - x.ts)
    (hgap0 : 1 / 10 * c.saveTime < e.ts - c.first) : s.file = some (R ++ rowsOf (es ++ [e])) := by
  obtain ⟨u, h1, h2⟩ := rounds_snoc h
  obtain ⟨m, hm, hr, _, hs⟩ := round_spec h2
  obtain ⟨m1, m2, m3, m4, _⟩ := update_spec hm
  have hcomp := (rounds_rdf h1).2
  obtain ⟨_, s2, _⟩ := hs hrow
  have hls : 1 / 10 * c.saveTime < e.ts - m.lastSave.getD c.first := by
    rw [m1]
    rcases saved c hfile (by rw [hfreq]; simp; omega) es g R file u (fun x hx => hok x (by simp [hx])) h1 with
      ⟨_, _, a3, _⟩ | ⟨es1, e', es2, rfl, a2, _, _, _, a6⟩
    · rw [a3]; exact hgap0
    · rw [a6]; exact hgap e' (by simp) a2
  have hmod : m.computed % n = 0 := by
    rw [m3, hcomp]
    simp only [fresh, Nat.zero_add]
    exact Nat.mod_eq_zero_of_dvd hdvd
  rw [s2]
  unfold autoSave
  rw [if_pos hfile]
  simp only [hfreq, hn, if_true]
  rw [if_pos (Or.inl ⟨hmod, hls⟩)]
  unfold write
  simp only [hok e (by simp), if_true]
  rw [(rounds_rdf h1).1]
  simp [rowsOf, fresh, List.append_assoc]

/-- **Saving every n steps.** The documentation says that the record is saved after `auto_save_frequency` steps. With the
frequency 1, three steps of a second each leave only the first one in the file. -/
theorem c103_every_fails : ∃ s, rounds ⟨.every 1, true, 600, 600, false, 100, 0, 0⟩
    [⟨some "a", false, 1, 1, 1, (true, true)⟩, ⟨some "b", false, 2, 2, 2, (true, true)⟩, ⟨some "c", false, 3, 3, 3, (true, true)⟩]
      (fresh 0 ["start"] none) = some s ∧ s.rdf = ["start", "a", "b", "c"] ∧ s.file = some ["start", "a"] := by
  have h : (rounds ⟨.every 1, true, 600, 600, false, 100, 0, 0⟩
    [⟨some "a", false, 1, 1, 1, (true, true)⟩, ⟨some "b", false, 2, 2, 2, (true, true)⟩, ⟨some "c", false, 3, 3, 3, (true, true)⟩]
      (fresh 0 ["start"] none)).map (fun s => (s.rdf, s.file)) = some (["start", "a", "b", "c"], some ["start", "a"]) := by decide +kernel
  obtain ⟨s, h1, h2⟩ := Option.map_eq_some_iff.1 h
  simp only [Prod.mk.injEq] at h2
  exact ⟨s, h1, h2.1, h2.2⟩

/-- every computed step ends less than ten seconds after the one before it. -/
def Quick (prev : ℚ) : List (Event α) → Prop
  | [] => True
  | e :: es => if e.row.isSome = true then e.tu - prev < 10 ∧ Quick e.ts es else Quick prev es

/-- **Real-time monitoring never saves quick runs.** With the frequency 0 (or False) and real-time monitoring, the time since
"the last save" is measured from the last step, whether it was saved or not. So nothing is saved as long as every step takes
less than ten seconds. -/
theorem c103_realtime_never (c : Cfg) (hreal : c.real = true) (hfreq : c.freq = .every 0) (es : List (Event α))
    (g : ℚ) (R : List α) (file : Option (List α)) (s : Run α) (hq : Quick c.first es) (h : rounds c es (fresh g R file) = some s) :
    s.file = file := by
  have key : ∀ (es : List (Event α)) (u s : Run α), Quick (u.mon.lastSave.getD c.first) es → rounds c es u = some s → s.file = u.file := by
    intro es
    induction es with
    | nil =>
      intro u s _ h
      simp only [rounds, Option.some.injEq] at h
      rw [h]
    | cons e es ih =>
      intro u s hq h
      simp only [rounds] at h
      obtain ⟨v, h1, h2⟩ := Option.bind_eq_some_iff.1 h
      obtain ⟨m, hm, hr, hn, hs⟩ := round_spec h1
      obtain ⟨m1, m2, m3, m4, _⟩ := update_spec hm
      simp only [Quick] at hq
      cases hrow : e.row.isSome with
      | false =>
        rw [hrow] at hq
        simp only [Bool.false_eq_true, if_false] at hq
        obtain ⟨n1, n2, _⟩ := hn hrow
        rw [ih v s (by rw [n1, m1]; exact hq) h2, n2]
      | true =>
        rw [hrow] at hq
        simp only [if_true] at hq
        obtain ⟨s1, s2, _⟩ := hs hrow
        by_cases hfile : c.file = true
        · have e1 : autoSave c e.ts e.ok (u.rdf ++ e.row.toList) (m, u.file) = ({ m with lastSave := some e.ts }, u.file) := by
            unfold autoSave
            rw [if_pos hfile]
            simp only [hfreq, Nat.lt_irrefl, if_false, hreal, if_true, m4, Option.getD_some, m1]
            rw [if_pos hq.1]
          rw [ih v s (by rw [s1, (report_spec _ _ _ _).1, e1]; exact hq.2) h2, s2, e1]
        · have e1 : ∀ x : Mon × Option (List α), autoSave c e.ts e.ok (u.rdf ++ e.row.toList) x = x := by
            intro x
            unfold autoSave
            rw [if_neg hfile]
          have nofile : ∀ (es : List (Event α)) (u s : Run α), rounds c es u = some s → s.file = u.file := by
            intro es
            induction es with
            | nil => intro u s h; simp only [rounds, Option.some.injEq] at h; rw [h]
            | cons e es ih2 =>
              intro u s h
              simp only [rounds] at h
              obtain ⟨v, h1, h2⟩ := Option.bind_eq_some_iff.1 h
              obtain ⟨m, hm, hr, hn, hs⟩ := round_spec h1
              rw [ih2 v s h2]
              cases hrow : e.row.isSome with
              | false => exact (hn hrow).2.1
              | true =>
                rw [(hs hrow).2.1]
                unfold autoSave
                rw [if_neg hfile]
          rw [nofile es v s h2, s2, e1]
  exact key es _ s (by simpa [fresh] using hq) h

/-- **Without automatic saving.** Without a file, or with the frequency 0 and no real-time monitoring, nothing is saved before the
end of the run. -/
theorem c103_off (c : Cfg) (hoff : c.file = false ∨ c.freq = .every 0 ∧ c.real = false) (es : List (Event α)) (g : ℚ) (R : List α)
    (file : Option (List α)) (s : Run α) (h : rounds c es (fresh g R file) = some s) : s.file = file := by
  have key : ∀ (es : List (Event α)) (u s : Run α), rounds c es u = some s → s.file = u.file := by
    intro es
    induction es with
    | nil => intro u s h; simp only [rounds, Option.some.injEq] at h; rw [h]
    | cons e es ih =>
      intro u s h
      simp only [rounds] at h
      obtain ⟨v, h1, h2⟩ := Option.bind_eq_some_iff.1 h
      obtain ⟨m, hm, hr, hn, hs⟩ := round_spec h1
      rw [ih v s h2]
      cases hrow : e.row.isSome with
      | false => exact (hn hrow).2.1
      | true =>
        rw [(hs hrow).2.1]
        unfold autoSave
        rcases hoff with hf | ⟨hf, hr⟩
        · rw [if_neg (by simp [hf])]
        · split
          · simp [hf, hr]
          · rfl
  exact key es _ s h

/-- **Open iterators.** With more than 999999 steps (as when only `dt` is given) the first step ends with an error. -/
theorem c103_open_fails (c : Cfg) (hmax : 999999 < c.maxSteps) (e : Event α) (es : List (Event α)) (s : Run α) :
    rounds c (e :: es) s = none := by
  simp [rounds, Monitor.round, update, hmax]

/-- **The end of the run.** If one of the first three attempts to write works, the record is in the given file; otherwise in a
new one, if that works. -/
theorem c103_final (ok : Bool × Bool × Bool × Bool) :
    (finalSave ok = some false ↔ ok.1 = true ∨ ok.2.1 = true ∨ ok.2.2.1 = true) ∧
    (finalSave ok = none ↔ ok = (false, false, false, false)) := by
  obtain ⟨a, b, c, d⟩ := ok
  revert a b c d
  decide

end Mifem.Props.Mon103
