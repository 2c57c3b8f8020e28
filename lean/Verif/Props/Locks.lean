import Verif.Model.Locks
import Mathlib.Tactic.SplitIfs
import Mathlib.Data.List.Basic
import Mathlib.Algebra.BigOperators.Group.List.Basic
import Mathlib.Algebra.Group.Nat.Defs

/-!
# C115: locks of assembled matrices

Specification: the entry of the assembled matrix at `r`, `c` is the sum, over all elements and all local entries whose row has the global number
`r` and whose column has the global number `c`, of the numbers there.
-/

namespace Mifem.Props.Lock115
open Mifem.Locks

variable {K : Type} [AddCommMonoid K]

/-- The assembled matrix of the local matrices. -/
def Sum (GI GJ : ℕ → ℕ → ℕ) (ls : List (Loc K)) (r c : ℕ) : K :=
  (ls.map fun l => (l.entries.map fun t => if GI l.e t.1 = r ∧ GJ l.e t.2.1 = c then t.2.2 else 0).sum).sum

/-- Local matrices after customizations, in their order. -/
def Customized : List (List (Loc K) → List (Loc K)) → List (Loc K) → List (Loc K)
  | [], b => b
  | f :: fs, b => Customized fs (f b)

/-- What the assembled matrix should be. -/
def Present (s : St K) : ℕ → ℕ → K := Sum s.GI s.GJ (Customized s.custom s.base)

omit [AddCommMonoid K] in
theorem locals_eq (s : St K) : locals s = Customized s.custom s.base := by
  unfold locals
  generalize s.base = b
  induction s.custom generalizing b with
  | nil => rfl
  | cons f fs ih => exact ih (f b)

/-- The places of the entries. -/
def pattern (ls : List (Loc K)) : List (ℕ × List (ℕ × ℕ)) := ls.map fun l => (l.e, l.entries.map fun t => (t.1, t.2.1))

/-! ### Coordinate lists -/

/-- Sum of the entries of coordinate lists at one place. -/
def at' (R C : List ℕ) (D : List K) (r c : ℕ) : K :=
  (((R.zip (C.zip D)).filter fun t => t.1 = r ∧ t.2.1 = c).map fun t => t.2.2).sum

theorem at'_append (R C : List ℕ) (D : List K) (R' C' : List ℕ) (D' : List K) (h1 : R.length = D.length) (h2 : C.length = D.length) (r c : ℕ) :
    at' (R ++ R') (C ++ C') (D ++ D') r c = at' R C D r c + at' R' C' D' r c := by
  unfold at'
  rw [List.zip_append h2, List.zip_append (by rw [List.length_zip, h1, h2, Nat.min_self]), List.filter_append, List.map_append,
    List.sum_append]

theorem at'_loc (GI GJ : ℕ → ℕ → ℕ) (l : Loc K) (r c : ℕ) :
    at' (rowsOf GI l) (colsOf GJ l) (dataOf l) r c =
      (l.entries.map fun t => if GI l.e t.1 = r ∧ GJ l.e t.2.1 = c then t.2.2 else 0).sum := by
  unfold at' rowsOf colsOf dataOf
  generalize l.e = e
  induction l.entries with
  | nil => rfl
  | cons t ts ih =>
    simp only [List.map_cons, List.zip_cons_cons, List.sum_cons]
    rw [List.filter_cons]
    by_cases h : GI e t.1 = r ∧ GJ e t.2.1 = c
    · rw [if_pos (by simpa using h), if_pos h, List.map_cons, List.sum_cons, ih]
    · rw [if_neg (by simpa using h), if_neg h, ih, zero_add]

omit [AddCommMonoid K] in
theorem len_rows (GI : ℕ → ℕ → ℕ) (l : Loc K) : (rowsOf GI l).length = (dataOf l).length := by
  simp [rowsOf, dataOf]

omit [AddCommMonoid K] in
theorem len_cols (GJ : ℕ → ℕ → ℕ) (l : Loc K) : (colsOf GJ l).length = (dataOf l).length := by
  simp [colsOf, dataOf]

theorem coo_eq {R C : List ℕ} {D : List K} (h1 : R.length = D.length) (h2 : C.length = D.length) : coo R C D = some (at' R C D) := by
  unfold coo
  rw [if_pos ⟨h1, h2⟩]
  rfl

theorem fresh_spec (lim : ℕ) (GI GJ : ℕ → ℕ → ℕ) : ∀ (ls : List (Loc K)) (A : ℕ → ℕ → K) (R C : List ℕ) (D : List K),
    R.length = D.length → C.length = D.length →
    fresh lim GI GJ A R C D ls = some fun r c => A r c + (at' R C D r c + Sum GI GJ ls r c)
  | [], A, R, C, D, h1, h2 => by
    unfold fresh
    rw [coo_eq h1 h2]
    simp [Sum]
  | l :: ls, A, R, C, D, h1, h2 => by
    have h3 : (R ++ rowsOf GI l).length = (D ++ dataOf l).length := by simp [h1, len_rows]
    have h4 : (C ++ colsOf GJ l).length = (D ++ dataOf l).length := by simp [h2, len_cols]
    have h5 : ∀ r c, Sum GI GJ (l :: ls) r c = at' (rowsOf GI l) (colsOf GJ l) (dataOf l) r c + Sum GI GJ ls r c := by
      intro r c
      rw [at'_loc]
      simp [Sum]
    unfold fresh
    dsimp only
    split_ifs with hl
    · rw [coo_eq h3 h4, Option.bind_some, fresh_spec lim GI GJ ls _ [] [] [] rfl rfl]
      congr 1
      funext r c
      have h0 : at' ([] : List ℕ) [] ([] : List K) r c = 0 := rfl
      rw [h5, h0, zero_add, at'_append _ _ _ _ _ _ h1 h2]
      simp only [add_assoc]
    · rw [fresh_spec lim GI GJ ls A _ _ _ h3 h4]
      congr 1
      funext r c
      rw [h5, at'_append _ _ _ _ _ _ h1 h2]
      simp only [add_assoc]

theorem flat_spec (GI GJ : ℕ → ℕ → ℕ) : ∀ (ls : List (Loc K)),
    (ls.flatMap (rowsOf GI)).length = (ls.flatMap dataOf).length ∧ (ls.flatMap (colsOf GJ)).length = (ls.flatMap dataOf).length ∧
      ∀ r c, at' (ls.flatMap (rowsOf GI)) (ls.flatMap (colsOf GJ)) (ls.flatMap dataOf) r c = Sum GI GJ ls r c
  | [] => ⟨rfl, rfl, fun _ _ => rfl⟩
  | l :: ls => by
    obtain ⟨h1, h2, h3⟩ := flat_spec GI GJ ls
    refine ⟨by simp [h1, len_rows], by simp [h2, len_cols], ?_⟩
    intro r c
    simp only [List.flatMap_cons]
    rw [at'_append _ _ _ _ _ _ (len_rows GI l) (len_cols GJ l), at'_loc, h3]
    simp [Sum]

theorem coo_flat (GI GJ : ℕ → ℕ → ℕ) (ls : List (Loc K)) :
    coo (ls.flatMap (rowsOf GI)) (ls.flatMap (colsOf GJ)) (ls.flatMap dataOf) = some (Sum GI GJ ls) := by
  obtain ⟨h1, h2, h3⟩ := flat_spec GI GJ ls
  rw [coo_eq h1 h2]
  congr 1
  funext r c
  exact h3 r c

omit [AddCommMonoid K] in
theorem rows_pattern {GI GJ : ℕ → ℕ → ℕ} : ∀ {ls ls' : List (Loc K)}, pattern ls = pattern ls' →
    ls.flatMap (rowsOf GI) = ls'.flatMap (rowsOf GI) ∧ ls.flatMap (colsOf GJ) = ls'.flatMap (colsOf GJ)
  | [], [], _ => ⟨rfl, rfl⟩
  | [], _ :: _, h => by simp [pattern] at h
  | _ :: _, [], h => by simp [pattern] at h
  | l :: ls, l' :: ls', h => by
    simp only [pattern, List.map_cons, List.cons.injEq, Prod.mk.injEq] at h
    obtain ⟨h1, h2⟩ := rows_pattern (GI := GI) (GJ := GJ) (ls := ls) (ls' := ls') h.2
    have hr : rowsOf GI l = rowsOf GI l' := by
      have := congrArg (List.map fun q : ℕ × ℕ => GI l.e q.1) h.1.2
      simp only [List.map_map, Function.comp_def] at this
      unfold rowsOf
      rw [this, h.1.1]
    have hc : colsOf GJ l = colsOf GJ l' := by
      have := congrArg (List.map fun q : ℕ × ℕ => GJ l.e q.2) h.1.2
      simp only [List.map_map, Function.comp_def] at this
      unfold colsOf
      rw [this, h.1.1]
    exact ⟨by simp only [List.flatMap_cons, hr, h1], by simp only [List.flatMap_cons, hc, h2]⟩

/-! ### Histories -/

/-- What the saved lists are, and when a matrix is saved. -/
def Inv (s : St K) : Prop :=
  (∀ R C, s.cache = some (R, C) → s.sparsity = true ∧ R = (locals s).flatMap (rowsOf s.GI) ∧ C = (locals s).flatMap (colsOf s.GJ)) ∧
    (s.amc ≠ none → s.locker = true)

/-- The promise of whoever locks the sparsity: the places of the entries and the numbering stay. -/
def Keeps (s t : St K) : Prop :=
  s.sparsity = true → t.sparsity = true → pattern (locals t) = pattern (locals s) ∧ t.GI = s.GI ∧ t.GJ = s.GJ

/-- A history in which the promise is kept; what raises changes nothing. -/
inductive History (lim : ℕ) (s0 : St K) : St K → Prop
  | start : History lim s0 s0
  | step {s t : St K} (op : Op K) : History lim s0 s → step lim s op = some t → Keeps s t → History lim s0 t

theorem routine_spec (lim : ℕ) (s : St K) (h : Inv s) :
    ∃ t, routine lim s = some (t, Present s) ∧ Inv t ∧ t.locker = s.locker ∧ t.amc = s.amc := by
  unfold routine
  by_cases hs : s.sparsity = false
  · rw [if_pos hs, fresh_spec lim s.GI s.GJ (locals s) _ [] [] [] rfl rfl]
    refine ⟨s, ?_, h, rfl, rfl⟩
    rw [Option.map_some]
    congr 2
    funext r c
    have h0 : at' ([] : List ℕ) [] ([] : List K) r c = 0 := rfl
    rw [h0, zero_add, zero_add, locals_eq]
    rfl
  · rw [if_neg hs]
    have hs' : s.sparsity = true := by simpa using hs
    cases hc : s.cache with
    | none =>
      dsimp only
      rw [coo_flat, Present, ← locals_eq]
      refine ⟨_, rfl, ⟨?_, h.2⟩, rfl, rfl⟩
      intro R C hRC
      cases hRC
      exact ⟨hs', rfl, rfl⟩
    | some p =>
      obtain ⟨R, C⟩ := p
      obtain ⟨_, h2, h3⟩ := h.1 R C hc
      dsimp only
      rw [h2, h3, coo_flat]
      exact ⟨s, by rw [Present, ← locals_eq]; rfl, h, rfl, rfl⟩

theorem inv_step (lim : ℕ) (s t : St K) (op : Op K) (h : Inv s) (ht : step lim s op = some t) (hk : Keeps s t) : Inv t := by
  have move : t.cache = s.cache → t.sparsity = s.sparsity → (t.amc ≠ none → t.locker = true) → Inv t := by
    intro h1 h2 h3
    refine ⟨?_, h3⟩
    intro R C hRC
    rw [h1] at hRC
    obtain ⟨hs, hR, hC⟩ := h.1 R C hRC
    have hts : t.sparsity = true := by rw [h2, hs]
    obtain ⟨hp, hI, hJ⟩ := hk hs hts
    have := rows_pattern (GI := s.GI) (GJ := s.GJ) hp
    rw [hI, hJ]
    exact ⟨hts, by rw [hR, this.1], by rw [hC, this.2]⟩
  cases op with
  | lock => cases ht; exact move rfl rfl (fun _ => rfl)
  | unlock => cases ht; exact move rfl rfl (fun hne => absurd rfl hne)
  | lockSparsity =>
    cases ht
    refine ⟨?_, h.2⟩
    intro R C hRC
    exact ⟨rfl, (h.1 R C hRC).2⟩
  | unlockSparsity =>
    cases ht
    exact ⟨fun R C hRC => (by cases hRC), h.2⟩
  | customize f =>
    unfold step at ht
    dsimp only at ht
    split_ifs at ht
    cases ht
    exact move rfl rfl h.2
  | clear => cases ht; exact move rfl rfl h.2
  | change b => cases ht; exact move rfl rfl h.2
  | gather GI GJ => cases ht; exact move rfl rfl h.2
  | assembled =>
    unfold step at ht
    dsimp only at ht
    unfold assemble at ht
    cases ha : s.amc with
    | some A =>
      rw [ha] at ht
      cases ht
      exact h
    | none =>
      rw [ha] at ht
      obtain ⟨u, hu, hi, hl, hm⟩ := routine_spec lim s h
      rw [hu] at ht
      simp only [Option.map_some, Option.some.injEq] at ht
      by_cases hul : u.locker = true
      · rw [if_pos hul] at ht
        subst ht
        exact ⟨hi.1, fun _ => hul⟩
      · rw [if_neg hul] at ht
        subst ht
        exact hi

theorem inv_history (lim : ℕ) (s0 s : St K) (h0 : Inv s0) (h : History lim s0 s) : Inv s := by
  induction h with
  | start => exact h0
  | step op _ hs hk ih => exact inv_step lim _ _ op ih hs hk

omit [AddCommMonoid K] in
theorem inv_new (base : List (Loc K)) (GI GJ : ℕ → ℕ → ℕ) : Inv (new base GI GJ) :=
  ⟨fun _ _ h => (by cases h), fun h => absurd rfl h⟩

/-- **C115 (assembled matrices, partial).**  After any history: unless a matrix was saved under the lock of the assembled matrix, the assembled
matrix is the sum of the present local matrices in the present numbering, also when the places of the entries were saved.  Partial: while the
sparsity is locked, places and numbering must stay (`c115_gather_fails`, `c115_clear_sparsity_fails`). -/
theorem c115_assembled_partial (lim : ℕ) (base : List (Loc K)) (GI GJ : ℕ → ℕ → ℕ) (s : St K) (h : History lim (new base GI GJ) s)
    (hl : s.locker = false ∨ s.amc = none) : ∃ t, assemble lim s = some (t, Present s) := by
  have hi := inv_history lim _ s (inv_new base GI GJ) h
  have ha : s.amc = none := by
    rcases hl with hl | hl
    · by_contra hne
      rw [hi.2 hne] at hl
      cases hl
    · exact hl
  obtain ⟨t, ht, _⟩ := routine_spec lim s hi
  unfold assemble
  rw [ha]
  simp only [ht, Option.map_some]
  exact ⟨_, rfl⟩

/-- **C115 (first assembling under the lock).**  It saves the matrix. -/
theorem c115_saved (lim : ℕ) (base : List (Loc K)) (GI GJ : ℕ → ℕ → ℕ) (s : St K) (h : History lim (new base GI GJ) s)
    (hl : s.locker = true) (ha : s.amc = none) : ∃ t, assemble lim s = some (t, Present s) ∧ t.amc = some (Present s) := by
  obtain ⟨u, hu, _, hul, _⟩ := routine_spec lim s (inv_history lim _ s (inv_new base GI GJ) h)
  unfold assemble
  rw [ha]
  simp only [hu, Option.map_some]
  refine ⟨_, rfl, ?_⟩
  rw [if_pos (by rw [hul, hl])]

/-- Steps that raise change nothing. -/
def run (lim : ℕ) (s : St K) (ops : List (Op K)) : St K := ops.foldl (fun s op => (step lim s op).getD s) s

/-- **C115 (locked).**  A saved matrix is returned after any steps, as long as it is not unlocked. -/
theorem c115_locked (lim : ℕ) (A : ℕ → ℕ → K) (ops : List (Op K)) (hops : ∀ op ∈ ops, op ≠ Op.unlock) :
    ∀ (s : St K), s.amc = some A → ∃ t, assemble lim (run lim s ops) = some (t, A) := by
  induction ops with
  | nil =>
    intro s hs
    unfold assemble run
    simp only [List.foldl_nil, hs]
    exact ⟨_, rfl⟩
  | cons op ops ih =>
    intro s hs
    have : ((step lim s op).getD s).amc = some A := by
      cases op with
      | unlock => exact absurd rfl (hops _ (List.mem_cons_self ..))
      | customize f =>
        unfold step
        dsimp only
        split_ifs <;> exact hs
      | assembled =>
        unfold step assemble
        rw [hs]
        exact hs
      | _ => exact hs
    exact ih (fun o ho => hops o (List.mem_cons_of_mem _ ho)) _ this

/-- **C115 (customizing is refused).** -/
theorem c115_refused (lim : ℕ) (s : St K) (f : List (Loc K) → List (Loc K)) :
    step lim s (.customize f) = none ↔ s.locker = true ∨ s.sparsity = true := by
  unfold step
  dsimp only
  split_ifs with h1 h2
  · simp [h1]
  · simp [h2]
  · simp [h1, h2]

/-- **C115 (customizing).**  A customization that is accepted acts on the local matrices as they were, after all earlier ones. -/
theorem c115_customized (lim : ℕ) (s t : St K) (f : List (Loc K) → List (Loc K)) (h : step lim s (.customize f) = some t) :
    Present t = Sum s.GI s.GJ (f (Customized s.custom s.base)) := by
  unfold step at h
  dsimp only at h
  split_ifs at h
  cases h
  unfold Present
  rw [← locals_eq, ← locals_eq]
  unfold locals
  rw [List.foldl_append]
  rfl

/-- **C115 (unlocked).**  After unlocking, the assembled matrix is the present one. -/
theorem c115_unlocked (lim : ℕ) (base : List (Loc K)) (GI GJ : ℕ → ℕ → ℕ) (s : St K) (h : History lim (new base GI GJ) s) :
    ∃ s' t, step lim s .unlock = some s' ∧ assemble lim s' = some (t, Present s) := by
  have hk : Keeps s { s with locker := false, amc := none } := fun _ _ => ⟨rfl, rfl, rfl⟩
  obtain ⟨t, ht⟩ := c115_assembled_partial lim base GI GJ _ (History.step .unlock h rfl hk) (Or.inl rfl)
  exact ⟨_, t, rfl, ht⟩

/-! ### Cases -/

/-- Two elements that share the second number. -/
def base2 : List (Loc ℕ) := [⟨0, [(0, 0, 1), (1, 1, 2)]⟩, ⟨1, [(0, 0, 3), (1, 1, 4)]⟩]

/-- The same places with other numbers. -/
def base2' : List (Loc ℕ) := [⟨0, [(0, 0, 5), (1, 1, 6)]⟩, ⟨1, [(0, 0, 7), (1, 1, 8)]⟩]
def G2 (e i : ℕ) : ℕ := e + i

def three (p : Option (St ℕ × (ℕ → ℕ → ℕ))) : Option (List ℕ) := p.map fun p => (List.range 3).map fun i => p.2 i i

example : three (assemble 1 (new base2 G2 G2)) = some [1, 5, 4] := by decide
example : three (assemble 9 (run 9 (new base2 G2 G2) [.lockSparsity, .assembled, .change base2'])) = some [5, 13, 8] := by decide
example : three (assemble 9 (run 9 (new base2 G2 G2) [.lock, .assembled, .change base2'])) = some [1, 5, 4] := by decide
example : three (assemble 9 (run 9 (new base2 G2 G2) [.lock, .assembled, .change base2', .unlock])) = some [5, 13, 8] := by decide

/-- A history as in the theorems, with locked places and changed numbers. -/
example : History 9 (new base2 G2 G2) (run 9 (new base2 G2 G2) [.lockSparsity, .assembled, .change base2']) := by
  refine .step (.change base2') (.step .assembled (.step .lockSparsity .start rfl ?_) rfl ?_) rfl ?_
  · intro h _; cases h
  · exact fun _ _ => ⟨rfl, rfl, rfl⟩
  · exact fun _ _ => ⟨rfl, rfl, rfl⟩

/-- **C115 (fails for gathering matrices).**  Gathering matrices that are set while the sparsity is locked are accepted, but the assembled matrix
is in the old numbering. -/
theorem c115_gather_fails :
    ∃ (s : St ℕ) (t : St ℕ) (A : ℕ → ℕ → ℕ), s = run 9 (new base2 G2 G2) [.lockSparsity, .assembled, .gather (fun e i => 2 * e + i) (fun e i => 2 * e + i)] ∧
      s.locker = false ∧ assemble 9 s = some (t, A) ∧ A ≠ Present s := by
  refine ⟨_, _, _, rfl, rfl, rfl, ?_⟩
  intro h
  have := congrFun (congrFun h 3) 3
  revert this
  decide

/-- Removes the first entry of each local matrix. -/
def cut (l : List (Loc ℕ)) : List (Loc ℕ) := l.map fun x => ⟨x.e, x.entries.drop 1⟩

example : three (assemble 9 (run 9 (new base2 G2 G2) [.customize cut, .lock, .customize cut])) = some [0, 2, 4] := by decide

/-- **C115 (fails for `clear`).**  Removing all customizations is not refused while the sparsity is locked; then the matrix cannot be
assembled. -/
theorem c115_clear_sparsity_fails :
    ∃ s : St ℕ, s = run 9 (new base2 G2 G2) [.customize cut, .lockSparsity, .assembled, .clear] ∧ s.custom.length = 0 ∧ (assemble 9 s).isNone :=
  ⟨_, rfl, rfl, rfl⟩

/-- **C115 (fails for `clear`).**  It is not refused under the lock of the assembled matrix either; the assembled matrix still has the
customizations. -/
theorem c115_clear_fails :
    ∃ (s : St ℕ) (t : St ℕ) (A : ℕ → ℕ → ℕ), s = run 9 (new base2 G2 G2) [.customize cut, .lock, .assembled, .clear] ∧ s.custom.length = 0 ∧
      assemble 9 s = some (t, A) ∧ A ≠ Present s := by
  refine ⟨_, _, _, rfl, rfl, rfl, ?_⟩
  intro h
  have := congrFun (congrFun h 0) 0
  revert this
  decide

end Mifem.Props.Lock115
