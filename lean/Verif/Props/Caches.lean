import Verif.Model.Caches
import Mathlib.Data.List.Induction

/-!
# C77: caches return what would be computed now; C78: fields are evaluated at valid times only
-/

namespace Mifem.Props

open Mifem.Caches

/-! ## `memoize1` -/

section
variable {α β γ : Type} [DecidableEq β]

/-- A call gives what the function gives for the present objects. -/
def MemoRight (pins single : Bool) (f : List α → β → γ) (s : Memo α β γ) : Prop :=
  ∀ as b xs, contents s.heap as = some xs → (s.step pins single f (.call as b)).2 = some (f xs b)

theorem contents_congr {h h' : Heap α} {as : List ℕ} (e : ∀ a ∈ as, h a = h' a) : contents h as = contents h' as := by
  induction as with
  | nil => rfl
  | cons a as ih =>
    simp only [contents, e a List.mem_cons_self, ih fun x hx => e x (List.mem_cons_of_mem a hx)]

theorem contents_live {h : Heap α} {as : List ℕ} {xs : List α} (e : contents h as = some xs) :
    ∀ a ∈ as, h a ≠ none := by
  induction as generalizing xs with
  | nil => exact fun a ha => absurd ha List.not_mem_nil
  | cons b as ih =>
    simp only [contents] at e
    intro a ha
    cases hb : h b with
    | none => rw [hb] at e; exact absurd e (by simp)
    | some x =>
      rw [hb] at e
      cases hc : contents h as with
      | none => rw [hc] at e; exact absurd e (by simp)
      | some l =>
        rcases List.mem_cons.1 ha with rfl | ha
        · rw [hb]; simp
        · exact ih hc a ha

theorem find_mem {κ δ : Type} [DecidableEq κ] {l : List (κ × δ)} {k : κ} {v : δ} (h : find l k = some v) : (k, v) ∈ l := by
  induction l with
  | nil => exact absurd h (by simp [find])
  | cons e l ih =>
    obtain ⟨k', v'⟩ := e
    simp only [find] at h
    split at h
    · rename_i e
      rw [← e, ← Option.some.inj h]
      exact List.mem_cons_self
    · exact List.mem_cons_of_mem _ (ih h)

/-- All entries are the values for the present objects. -/
def Faithful (f : List α → β → γ) (s : Memo α β γ) : Prop :=
  ∀ e ∈ s.cache, ∃ xs, contents s.heap e.1.1 = some xs ∧ e.2 = f xs e.1.2

theorem faithful_right {pins single : Bool} {f : List α → β → γ} {s : Memo α β γ} (h : Faithful f s) :
    MemoRight pins single f s := by
  intro as b xs hx
  simp only [Memo.step, hx]
  cases hf : find s.cache (as, b) with
  | none => rfl
  | some v =>
    obtain ⟨ys, hy, e⟩ := h _ (find_mem hf)
    simp only at hy e
    rw [hx] at hy
    simp only [e, Option.some.inj hy]

theorem faithful_call {pins single : Bool} {f : List α → β → γ} {s : Memo α β γ} (h : Faithful f s) (as : List ℕ) (b : β) :
    Faithful f (s.step pins single f (.call as b)).1 := by
  simp only [Memo.step]
  split
  · exact h
  · rename_i xs hx
    split
    · exact h
    · intro e he
      cases single with
      | true =>
        have : e = ((as, b), f xs b) := List.mem_singleton.1 he
        subst this
        exact ⟨xs, hx, rfl⟩
      | false =>
        rcases List.mem_cons.1 he with rfl | he
        · exact ⟨xs, hx, rfl⟩
        · exact h e he

theorem faithful_new {pins single : Bool} {f : List α → β → γ} {s : Memo α β γ} (h : Faithful f s) (a : ℕ) (x : α) :
    Faithful f (s.step pins single f (.new a x)).1 := by
  simp only [Memo.step]
  split
  · exact h
  · rename_i ha
    intro e he
    obtain ⟨xs, h1, h2⟩ := h e he
    refine ⟨xs, ?_, h2⟩
    rw [← h1]
    refine contents_congr fun a' ha' => Function.update_of_ne ?_ _ _
    rintro rfl
    exact contents_live h1 _ ha' ha

/-- If the stored values keep the objects alive, `memoize1` is right for every program: objects made and dropped at any
time, addresses used again in any way. -/
theorem c77_memoize1_pinned (single : Bool) (f : List α → β → γ) (cs : List (Cmd α β)) :
    MemoRight true single f (Memo.init.exec true single f cs) := by
  refine faithful_right ?_
  have : ∀ s : Memo α β γ, Faithful f s → Faithful f (s.exec true single f cs) := by
    induction cs with
    | nil => exact fun s h => h
    | cons c cs ih =>
      intro s h
      refine ih _ ?_
      cases c with
      | new a x => exact faithful_new h a x
      | call as b => exact faithful_call h as b
      | drop a =>
        simp only [Memo.step]
        split
        · exact h
        · rename_i hn
          intro e he
          obtain ⟨xs, h1, h2⟩ := h e he
          refine ⟨xs, ?_, h2⟩
          rw [← h1]
          refine contents_congr fun a' ha' => Function.update_of_ne ?_ _ _
          rintro rfl
          exact hn ⟨trivial, e, he, ha'⟩
  exact this _ fun e he => absurd he List.not_mem_nil

/-- If they do not, it is right as long as no object is dropped. -/
theorem c77_memoize1_partial (single : Bool) (f : List α → β → γ) {cs : List (Cmd α β)}
    (hd : ∀ a, Cmd.drop a ∉ cs) : MemoRight false single f (Memo.init.exec false single f cs) := by
  refine faithful_right ?_
  have : ∀ s : Memo α β γ, Faithful f s → Faithful f (s.exec false single f cs) := by
    induction cs with
    | nil => exact fun s h => h
    | cons c cs ih =>
      intro s h
      refine ih (fun a ha => hd a (List.mem_cons_of_mem _ ha)) _ ?_
      cases c with
      | new a x => exact faithful_new h a x
      | call as b => exact faithful_call h as b
      | drop a => exact absurd List.mem_cons_self (hd a)
  exact this _ fun e he => absurd he List.not_mem_nil

/-- An object is made and used, dropped, and another one made at its address: it gets the values of the first. -/
theorem c77_memoize1_fails (single : Bool) (f : List α → β → γ) (x y : α) (b : β) (hne : f [x] b ≠ f [y] b) :
    ∃ cs : List (Cmd α β), ¬ MemoRight false single f (Memo.init.exec false single f cs) := by
  refine ⟨[.new 0 x, .call [0] b, .drop 0, .new 0 y], fun h => hne ?_⟩
  have := h [0] b [y] (by cases single <;> simp [Memo.exec, Memo.step, Memo.init, contents, find])
  cases single <;> simpa [Memo.exec, Memo.step, Memo.init, contents, find] using this

end

/-- The planes of two 3D domains: `_fit_abcd_` gives numbers. -/
example : ∃ cs : List (Cmd ℕ Unit), ¬ MemoRight false false (fun l _ => l.sum) (Memo.init.exec false false (fun l _ => l.sum) cs) :=
  c77_memoize1_fails false (fun l _ => l.sum) 1 2 () (by decide)

/-- The keys of the cross-product helpers tell triples of objects apart if all addresses have the same number of digits … -/
theorem c77_cross_key {u B j u' B' j' : ℕ} {q q' : List Char}
    (hu : (Nat.toDigits 10 u).length = (Nat.toDigits 10 u').length)
    (hB : (Nat.toDigits 10 B).length = (Nat.toDigits 10 B').length)
    (hj : (Nat.toDigits 10 j).length = (Nat.toDigits 10 j').length)
    (h : crossKey u B j q = crossKey u' B' j' q') : u = u' ∧ B = B' ∧ j = j' ∧ q = q' := by
  have inj : ∀ {m n : ℕ}, Nat.toDigits 10 m = Nat.toDigits 10 n → m = n := by
    intro m n e
    have := congrArg (fun l => Nat.ofDigitChars 10 l 0) e
    simpa using this
  unfold crossKey at h
  obtain ⟨h1, h2⟩ := List.append_inj h (by simp [hu, hB, hj])
  obtain ⟨h3, h4⟩ := List.append_inj h1 (by simp [hu, hB])
  obtain ⟨h5, h6⟩ := List.append_inj h3 hu
  exact ⟨inj h5, inj h6, inj h4, h2⟩

/-- … and not in general. -/
theorem c77_cross_key_collides : ∃ u B j u' B' j' q, (u, B, j) ≠ (u', B', j') ∧ crossKey u B j q = crossKey u' B' j' q :=
  ⟨1, 23, 4, 12, 3, 4, "None".toList, by decide, by decide⟩

/-! ## `memoize5` -/

section
variable {α β γ : Type} [DecidableEq β]

/-- The dictionary of every object has its own values. -/
def Own (f : α → β → γ) (h : Heap (Obj α β γ)) : Prop :=
  ∀ a o, h a = some o → ∀ c, o.cache = some c → ∀ e ∈ c, e.2 = f o.content e.1

theorem own_exec (f : α → β → γ) (cs : List (Cmd5 α β)) (h : Heap (Obj α β γ)) (H : Own f h) : Own f (exec5 f h cs) := by
  induction cs generalizing h with
  | nil => exact H
  | cons c cs ih =>
    refine ih _ ?_
    have upd : ∀ (a : ℕ) (o : Option (Obj α β γ)), (∀ o', o = some o' → ∀ c, o'.cache = some c → ∀ e ∈ c,
        e.2 = f o'.content e.1) → Own f (Function.update h a o) := by
      intro a o ho a' o' h'
      rcases eq_or_ne a' a with rfl | hne
      · rw [Function.update_self] at h'
        exact ho o' h'
      · rw [Function.update_of_ne hne] at h'
        exact H a' o' h'
    cases c with
    | new a x =>
      simp only [step5]
      split
      · exact H
      · refine upd a _ fun o' e c hc => ?_
        rw [← Option.some.inj e] at hc
        exact absurd hc (by simp)
    | drop a => exact upd a none fun o' e => absurd e (by simp)
    | freeze a =>
      simp only [step5]
      split
      · exact H
      · rename_i o ho
        refine upd a _ fun o' e c hc => ?_
        rw [← Option.some.inj e] at hc ⊢
        exact H a o ho c hc
    | call a b =>
      simp only [step5]
      split
      · exact H
      · rename_i o ho
        refine upd a _ fun o' e c hc => ?_
        rw [← Option.some.inj e] at hc ⊢
        simp only [Obj.call] at hc ⊢
        split at hc
        · rename_i hn
          split at hc
          · rw [hn] at hc; exact absurd hc (by simp)
          · rename_i hfz
            simp only [if_neg hfz]
            intro e he
            rw [← Option.some.inj hc, List.mem_singleton] at he
            rw [he]
        · rename_i c0 hc0
          split at hc
          · rename_i v hv
            exact H a o ho c (by simpa using hc)
          · rename_i hv
            intro e he
            rw [← Option.some.inj hc] at he
            rcases List.mem_cons.1 he with rfl | he
            · rfl
            · exact H a o ho c0 hc0 e he

/-- `memoize5` is right for every program; it raises exactly for a frozen object whose method has not been called
before. -/
theorem c77_memoize5 (f : α → β → γ) (cs : List (Cmd5 α β)) (a : ℕ) (b : β) (o : Obj α β γ)
    (ho : exec5 f (fun _ => none) cs a = some o) :
    (step5 f (exec5 f (fun _ => none) cs) (.call a b)).2
      = some (if o.frozen = true ∧ o.cache = none then .raise else .val (f o.content b)) := by
  have H := own_exec f cs (fun _ => none) (fun a o h => absurd h (by simp)) a o ho
  simp only [step5, ho, Obj.call]
  cases hc : o.cache with
  | none => cases o.frozen <;> simp
  | some c =>
    cases hf : find c b with
    | none => simp [hf]
    | some v => simp [hf, ← H c hc _ (find_mem hf)]

/-- Meshes call the method before they freeze themselves; from then on it never raises. -/
theorem c77_mesh_initialised (f : α → β → γ) (cs : List (Cmd5 α β)) (a : ℕ) (o : Obj α β γ) (h : Heap (Obj α β γ))
    (ho : h a = some o) (hc : o.cache ≠ none) (hd : Cmd5.drop a ∉ cs) :
    ∃ o', exec5 f h cs a = some o' ∧ o'.cache ≠ none ∧ o'.content = o.content := by
  induction cs generalizing h o with
  | nil => exact ⟨o, ho, hc, rfl⟩
  | cons c cs ih =>
    have step : ∃ o', (step5 f h c).1 a = some o' ∧ o'.cache ≠ none ∧ o'.content = o.content := by
      cases c with
      | new a' x =>
        simp only [step5]
        split
        · exact ⟨o, ho, hc, rfl⟩
        · rename_i hn
          refine ⟨o, ?_, hc, rfl⟩
          refine (Function.update_of_ne ?_ _ _).trans ho
          rintro rfl
          rw [ho] at hn; exact absurd hn (by simp)
      | drop a' =>
        refine ⟨o, ?_, hc, rfl⟩
        simp only [step5]
        rw [Function.update_of_ne, ho]
        rintro rfl
        exact hd List.mem_cons_self
      | freeze a' =>
        simp only [step5]
        split
        · exact ⟨o, ho, hc, rfl⟩
        · rename_i o1 ho1
          rcases eq_or_ne a a' with rfl | hne
          · rw [ho] at ho1
            refine ⟨_, Function.update_self _ _ _, ?_, ?_⟩ <;> rw [← Option.some.inj ho1]
            exact hc
          · exact ⟨o, (Function.update_of_ne hne _ _).trans ho, hc, rfl⟩
      | call a' b =>
        simp only [step5]
        split
        · exact ⟨o, ho, hc, rfl⟩
        · rename_i o1 ho1
          rcases eq_or_ne a a' with rfl | hne
          · rw [ho] at ho1
            refine ⟨_, Function.update_self _ _ _, ?_⟩
            rw [← Option.some.inj ho1]
            simp only [Obj.call]
            cases hcc : o.cache with
            | none => exact absurd hcc hc
            | some c =>
              cases hf : find c b with
              | none => simp [hf]
              | some v => simp [hf, hcc]
          · exact ⟨o, (Function.update_of_ne hne _ _).trans ho, hc, rfl⟩
    obtain ⟨o', h1, h2, h3⟩ := step
    obtain ⟨o2, g1, g2, g3⟩ := ih o' _ h1 h2 fun h => hd (List.mem_cons_of_mem _ h)
    exact ⟨o2, g1, g2, g3.trans h3⟩

end

/-- A mesh that has called the method once, and one that has not. -/
example : (step5 (fun (x b : ℕ) => x + b) (exec5 (fun x b => x + b) (fun _ => none) [.new 0 5, .call 0 1, .freeze 0]) (.call 0 7)).2 = some (.val 12)
    ∧ (step5 (fun (x b : ℕ) => x + b) (exec5 (fun x b => x + b) (fun _ => none) [.new 0 5, .freeze 0]) (.call 0 7)).2 = some .raise := by
  constructor <;> rfl

/-! ## `BC.interpret.local` -/

/-- The local dofs in an element: those on its parts, in the order of the parts; no entry for an element without parts. -/
def partDofs (side : Char → List ℕ) (parts : List Part) (e : ℕ) : Option (List ℕ) :=
  if ∃ p ∈ parts, p.1 = e then some ((parts.filter fun p => p.1 = e).flatMap fun p => side p.2) else none

theorem find_extend (e e' : ℕ) (ds : List ℕ) (d : List (ℕ × List ℕ)) :
    find (extend e ds d) e' = if e = e' then some ((find d e').getD [] ++ ds) else find d e' := by
  induction d with
  | nil =>
    by_cases h : e = e' <;> simp [extend, find, h]
  | cons x d ih =>
    obtain ⟨k, l⟩ := x
    simp only [extend]
    by_cases hk : k = e
    · subst hk
      by_cases h : k = e' <;> simp [find, h]
    · by_cases h : k = e'
      · subst h
        simp [find, hk, Ne.symm hk]
      · simp only [if_neg hk, find, if_neg h, ih]

/-- What `BC.interpret.local.dofs` is meant to be. -/
theorem c77_parse_dofs (side : Char → List ℕ) (parts : List Part) (e : ℕ) :
    find (parseDofs side parts) e = partDofs side parts e := by
  induction parts using List.reverseRecOn with
  | nil => rfl
  | append_singleton ps p ih =>
    unfold parseDofs at ih ⊢
    rw [List.foldl_append, List.foldl_cons, List.foldl_nil, find_extend, ih]
    unfold partDofs
    by_cases hp : p.1 = e
    · have h1 : ∃ q ∈ ps ++ [p], q.1 = e := ⟨p, by simp, hp⟩
      rw [if_pos hp, if_pos h1]
      by_cases hq : ∃ q ∈ ps, q.1 = e
      · rw [if_pos hq]
        simp [List.filter_append, hp]
      · rw [if_neg hq]
        have : ps.filter (fun q => decide (q.1 = e)) = [] := by
          rw [List.filter_eq_nil_iff]
          intro q hq' h
          exact hq ⟨q, hq', by simpa using h⟩
        simp [List.filter_append, hp, this]
    · rw [if_neg hp]
      have : (∃ q ∈ ps ++ [p], q.1 = e) ↔ ∃ q ∈ ps, q.1 = e := by
        constructor
        · rintro ⟨q, hq, h⟩
          rcases List.mem_append.1 hq with hq | hq
          · exact ⟨q, hq, h⟩
          · rw [List.mem_singleton.1 hq] at h; exact absurd h hp
        · rintro ⟨q, hq, h⟩
          exact ⟨q, List.mem_append_left _ hq, h⟩
      simp only [this]
      simp [List.filter_append, hp]

example : partDofs (fun c => if c = 'U' then [0, 1] else [1, 3]) [(4, 'U'), (7, 'D'), (4, 'D')] 4 = some [0, 1, 1, 3] := by
  decide

/-- Interpreting the boundary condition of any form gives the dofs for its present boundaries. -/
def BCRight (side : ℕ → Char → List ℕ) (s : BCState) : Prop :=
  ∀ f a P, s.bc f = some a → s.heap a = some P →
    ∃ d, (s.step side (.interpret f)).2 = some (.val d) ∧ ∀ e, find d e = partDofs (side f) P e

/-- Programs that interpret the boundary condition of a form right after setting it. -/
inductive Prompt : List BCCmd → Prop
  | nil : Prompt []
  | interpret {cs} (f) : Prompt cs → Prompt (cs ++ [.interpret f])
  | set {cs} (f a P) : Prompt cs → Prompt (cs ++ [.set f a P, .interpret f])

/-- Every form has its own list, and the cached dofs are those of a list that is gone (only if `mid`) or of the form that
has the list. -/
structure BCGood (side : ℕ → Char → List ℕ) (mid : Bool) (s : BCState) : Prop where
  live : ∀ f a, s.bc f = some a → s.heap a ≠ none
  inj : ∀ f g a, s.bc f = some a → s.bc g = some a → f = g
  slot : ∀ i d, s.slot = some (i, d) → (mid = true ∧ s.heap i = none) ∨
    ∃ f P, s.bc f = some i ∧ s.heap i = some P ∧ d = parseDofs (side f) P

theorem bcGood_right {side : ℕ → Char → List ℕ} {mid : Bool} {s : BCState} (h : BCGood side mid s) : BCRight side s := by
  intro f a P hf ha
  refine ⟨parseDofs (side f) P, ?_, fun e => c77_parse_dofs _ _ e⟩
  simp only [BCState.step, hf, ha]
  cases hs : s.slot with
  | none => rfl
  | some x =>
    obtain ⟨i, d⟩ := x
    by_cases hi : i = a
    · subst hi
      simp only [if_true]
      rcases h.slot i d hs with ⟨-, h0⟩ | ⟨g, Q, h1, h2, h3⟩
      · rw [h0] at ha; exact absurd ha (by simp)
      · have := h.inj f g i hf h1
        subst this
        rw [ha] at h2
        rw [h3, Option.some.inj h2]
    · simp only [if_neg hi, Option.getD_some]

theorem bcGood_interpret {side : ℕ → Char → List ℕ} {mid : Bool} {s : BCState} (h : BCGood side mid s) (f : ℕ)
    (hf : mid = true → s.bc f ≠ none) : BCGood side false (s.step side (.interpret f)).1 := by
  cases hb : s.bc f with
  | none =>
    simp only [BCState.step, hb]
    refine ⟨h.live, h.inj, fun i d hs => ?_⟩
    rcases h.slot i d hs with ⟨h0, -⟩ | h1
    · exact absurd hb (hf h0)
    · exact .inr h1
  | some a =>
    simp only [BCState.step, hb]
    obtain ⟨P, hP⟩ := Option.ne_none_iff_exists'.1 (h.live f a hb)
    have fresh : BCGood side false { s with slot := some (a, parseDofs (side f) ((s.heap a).getD [])) } := by
      refine ⟨h.live, h.inj, fun i d hs => .inr ⟨f, P, ?_⟩⟩
      have e := Option.some.inj hs
      rw [Prod.mk.injEq] at e
      obtain ⟨rfl, rfl⟩ := e
      exact ⟨hb, hP, by rw [hP]; rfl⟩
    cases hs : s.slot with
    | none => exact fresh
    | some x =>
      obtain ⟨i, d⟩ := x
      by_cases hi : i = a
      · subst hi
        simp only [if_true]
        refine ⟨h.live, h.inj, fun j d' hs' => ?_⟩
        rcases h.slot j d' hs' with ⟨-, h0⟩ | h1
        · rw [hs] at hs'
          have : i = j := (Prod.mk.injEq _ _ _ _ ▸ Option.some.inj hs').1
          subst this
          rw [hP] at h0
          exact absurd h0 (by simp)
        · exact .inr h1
      · simp only [if_neg hi]
        exact fresh

theorem bcGood_set {side : ℕ → Char → List ℕ} {s : BCState} (h : BCGood side false s) (f a : ℕ) (P : List Part) :
    (s.step side (.set f a P)).1 = s ∨
      (BCGood side true (s.step side (.set f a P)).1 ∧ (s.step side (.set f a P)).1.bc f ≠ none) := by
  cases ha : s.heap a with
  | some Q => left; simp only [BCState.step, ha]
  | none =>
    right
    simp only [BCState.step, ha]
    have own : ∀ g b, s.bc g = some b → b ≠ a := by
      rintro g b hg rfl
      exact h.live g b hg ha
    have rel : ∀ b, (∀ c, s.bc f = some c → b ≠ c) → release s.heap (s.bc f) b = s.heap b := by
      intro b hb
      cases hc : s.bc f with
      | none => rfl
      | some c => exact Function.update_of_ne (hb c hc) _ _
    refine ⟨⟨?_, ?_, ?_⟩, by simp⟩
    · intro g b hg
      rcases eq_or_ne g f with rfl | hgf
      · simp only [Function.update_self] at hg
        rw [← Option.some.inj hg]
        simp
      · simp only [Function.update_of_ne hgf] at hg
        simp only [Function.update_of_ne (own g b hg)]
        rw [rel b fun c hc e => hgf (h.inj g f b hg (e ▸ hc))]
        exact h.live g b hg
    · intro g g' b hg hg'
      rcases eq_or_ne g f with rfl | hgf
      · rcases eq_or_ne g' g with rfl | hgf'
        · rfl
        · simp only [Function.update_self] at hg
          simp only [Function.update_of_ne hgf'] at hg'
          exact absurd (Option.some.inj hg).symm (own g' b hg')
      · simp only [Function.update_of_ne hgf] at hg
        rcases eq_or_ne g' f with rfl | hgf'
        · simp only [Function.update_self] at hg'
          exact absurd (Option.some.inj hg').symm (own g b hg)
        · simp only [Function.update_of_ne hgf'] at hg'
          exact h.inj g g' b hg hg'
    · intro i d hs
      rcases h.slot i d hs with ⟨h0, -⟩ | ⟨g, Q, h1, h2, h3⟩
      · exact absurd h0 (by simp)
      · rcases eq_or_ne g f with rfl | hgf
        · left
          refine ⟨rfl, ?_⟩
          simp only [Function.update_of_ne (own g i h1)]
          rw [h1]
          exact Function.update_self _ _ _
        · right
          refine ⟨g, Q, ?_, ?_, h3⟩
          · simp only [Function.update_of_ne hgf]; exact h1
          · simp only [Function.update_of_ne (own g i h1)]
            rw [rel i fun c hc e => hgf (h.inj g f i h1 (e ▸ hc)), h2]

/-- Programs that interpret a boundary condition right after setting it and keep all forms get the right dofs, whatever
addresses are used again. -/
theorem c77_bc_local_partial (side : ℕ → Char → List ℕ) {cs : List BCCmd} (hc : Prompt cs) :
    BCRight side (BCState.init.exec side cs)
      ∧ ∀ f a P, BCRight side (BCState.init.exec side (cs ++ [.set f a P])) := by
  have good : BCGood side false (BCState.init.exec side cs) := by
    induction hc with
    | nil => exact ⟨fun f a h => absurd h (by simp [BCState.exec, BCState.init]),
        fun f g a h => absurd h (by simp [BCState.exec, BCState.init]),
        fun i d h => absurd h (by simp [BCState.exec, BCState.init])⟩
    | interpret f _ ih =>
      simp only [BCState.exec, List.foldl_append, List.foldl_cons, List.foldl_nil] at ih ⊢
      exact bcGood_interpret ih f (fun h => absurd h (by simp))
    | set f a P _ ih =>
      simp only [BCState.exec, List.foldl_append, List.foldl_cons, List.foldl_nil] at ih ⊢
      rcases bcGood_set ih f a P with h | ⟨h, hn⟩
      · rw [h]
        exact bcGood_interpret ih f (fun h => absurd h (by simp))
      · exact bcGood_interpret h f fun _ => hn
  refine ⟨bcGood_right good, fun f a P => ?_⟩
  simp only [BCState.exec, List.foldl_append, List.foldl_cons, List.foldl_nil] at good ⊢
  rcases bcGood_set good f a P with h | ⟨h, -⟩
  · rw [h]; exact bcGood_right good
  · exact bcGood_right h

/-- Boundaries are set three times and interpreted after the first and the last: the last list may be where the first one
was, and the dofs are those of the first. -/
theorem c77_bc_local_fails (side : ℕ → Char → List ℕ) (h : side 0 'U' ≠ side 0 'D') :
    ∃ cs : List BCCmd, (∀ f, BCCmd.del f ∉ cs) ∧ ¬ BCRight side (BCState.init.exec side cs) := by
  refine ⟨[.set 0 10 [(0, 'U')], .interpret 0, .set 0 11 [], .set 0 10 [(0, 'D')]], by simp, fun hr => h ?_⟩
  obtain ⟨d, hd, hd'⟩ := hr 0 10 [(0, 'D')] (by simp [BCState.exec, BCState.step, BCState.init, release])
    (by simp [BCState.exec, BCState.step, BCState.init, release])
  simp [BCState.exec, BCState.step, BCState.init, release, parseDofs, extend] at hd
  have := hd' 0
  rw [← hd] at this
  simpa [find, partDofs] using this

/-- A form is deleted, and the list of another one made where its list was: the other form gets its dofs. -/
theorem c77_bc_local_deleted_fails (side : ℕ → Char → List ℕ) (h : side 0 'U' ≠ side 1 'U') :
    ∃ f a P, ¬ BCRight side (BCState.init.exec side [.set 0 a P, .interpret 0, .del 0, .set f a P]) := by
  refine ⟨1, 10, [(0, 'U')], fun hr => h ?_⟩
  obtain ⟨d, hd, hd'⟩ := hr 1 10 [(0, 'U')] (by simp [BCState.exec, BCState.step, BCState.init, release])
    (by simp [BCState.exec, BCState.step, BCState.init, release])
  simp [BCState.exec, BCState.step, BCState.init, release, parseDofs, extend] at hd
  have := hd' 0
  rw [← hd] at this
  simpa [find, partDofs] using this

/-- A program that meets the hypothesis: two forms, an address used again. -/
example : Prompt [.set 0 10 [(0, 'U')], .interpret 0, .set 1 11 [(2, 'D')], .interpret 1, .set 0 12 [(0, 'D')], .interpret 0,
    .set 1 10 [(2, 'U')], .interpret 1, .interpret 0] :=
  .interpret 0 (.set 1 10 _ (.set 0 12 _ (.set 1 11 _ (.set 0 10 _ .nil))))

/-! ## `BC.interpret.boundary_cochain` -/

section
variable {ν φ τ γ : Type} [DecidableEq τ]

/-- Reading the boundary cochain gives that of the present boundaries, function and time. -/
def RTRight (f : ν → φ → τ → γ) (s : RT ν φ τ γ) : Prop :=
  ∀ a x c g, s.boundaries = some a → s.lists a = some x → s.CF = some c → s.funs c = some g →
    (s.step f .call).2 = some (.val (f x g s.time))

/-- As long as lists of names are not changed in place and none of them is dropped. -/
theorem c77_boundary_cochain_partial (f : ν → φ → τ → γ) (t : τ) {cs : List (RTCmd ν φ τ)}
    (hm : ∀ a x, RTCmd.mutate a x ∉ cs) (hd : ∀ a, RTCmd.dropList a ∉ cs) : RTRight f ((RT.init t).exec f cs) := by
  let I : RT ν φ τ γ → Prop := fun s =>
    (∀ a, s.boundaries = some a → s.lists a = s.parsed ∧ s.parsed ≠ none) ∧
    ∀ a c t v, s.slot = some ((a, c, t), v) → ∃ x g, s.lists a = some x ∧ s.funs c = some g ∧ v = f x g t
  have right : ∀ s, I s → RTRight f s := by
    rintro s ⟨h1, h2⟩ a x c g hb hx hc hg
    have hp := (h1 a hb).1
    rw [hx] at hp
    simp only [RT.step, hb, ← hp, hc, hg]
    cases hs : s.slot with
    | none => rfl
    | some y =>
      obtain ⟨⟨a', c', t'⟩, v⟩ := y
      by_cases hk : (a', c', t') = (a, c, s.time)
      · simp only [if_pos hk]
        obtain ⟨x', g', e1, e2, e3⟩ := h2 a' c' t' v hs
        simp only [Prod.mk.injEq] at hk
        obtain ⟨rfl, rfl, rfl⟩ := hk
        rw [hx] at e1; rw [hg] at e2
        rw [e3, Option.some.inj e1, Option.some.inj e2]
      · simp only [if_neg hk]
  refine right _ ?_
  have upd : ∀ {δ : Type} (h : Heap δ) (a b : ℕ) (x y : δ), h a = none → h b = some y →
      Function.update h a (some x) b = some y := by
    intro δ h a b x y ha hb
    refine (Function.update_of_ne ?_ _ _).trans hb
    rintro rfl
    rw [ha] at hb; exact absurd hb (by simp)
  have : ∀ s, I s → I (s.exec f cs) := by
    induction cs with
    | nil => exact fun s h => h
    | cons c cs ih =>
      intro s h
      refine ih (fun a x ha => hm a x (List.mem_cons_of_mem _ ha)) (fun a ha => hd a (List.mem_cons_of_mem _ ha)) _ ?_
      obtain ⟨h1, h2⟩ := h
      cases c with
      | newList a x =>
        simp only [RT.step]
        split
        · exact ⟨h1, h2⟩
        · rename_i ha
          refine ⟨fun b hb => ?_, fun b c t v hs => ?_⟩
          · obtain ⟨e1, e2⟩ := h1 b hb
            refine ⟨?_, e2⟩
            obtain ⟨y, hy⟩ := Option.ne_none_iff_exists'.1 e2
            simp only [hy] at e1 ⊢
            exact upd _ _ _ _ _ ha e1
          · obtain ⟨x', g, e1, e2, e3⟩ := h2 b c t v hs
            exact ⟨x', g, upd _ _ _ _ _ ha e1, e2, e3⟩
      | newFun a x =>
        simp only [RT.step]
        split
        · exact ⟨h1, h2⟩
        · rename_i ha
          refine ⟨h1, fun b c t v hs => ?_⟩
          obtain ⟨x', g, e1, e2, e3⟩ := h2 b c t v hs
          exact ⟨x', g, e1, upd _ _ _ _ _ ha e2, e3⟩
      | mutate a x => exact absurd List.mem_cons_self (hm a x)
      | setTime t => exact ⟨h1, h2⟩
      | setBoundaries a =>
        simp only [RT.step]
        split
        · exact ⟨h1, h2⟩
        · rename_i x hx
          refine ⟨fun b hb => ?_, h2⟩
          rw [← Option.some.inj hb]
          exact ⟨hx, by simp⟩
      | setCF a =>
        simp only [RT.step]
        split
        · exact ⟨h1, h2⟩
        · exact ⟨h1, h2⟩
      | dropList a => exact absurd List.mem_cons_self (hd a)
      | call =>
        simp only [RT.step]
        split
        · rename_i a x c hb hp hc
          split
          · exact ⟨h1, h2⟩
          · rename_i g hg
            have fresh : I { s with slot := some ((a, c, s.time), f x g s.time) } := by
              refine ⟨h1, fun a' c' t' v hs => ?_⟩
              have e := Option.some.inj hs
              simp only [Prod.mk.injEq] at e
              obtain ⟨⟨rfl, rfl, rfl⟩, rfl⟩ := e
              exact ⟨x, g, ((h1 a hb).1).trans hp, hg, rfl⟩
            split
            · exact fresh
            · split
              · exact ⟨h1, h2⟩
              · exact fresh
        · exact ⟨h1, h2⟩
  exact this _ ⟨fun a h => absurd h (by simp [RT.init]), fun a c t v h => absurd h (by simp [RT.init])⟩

/-- Two lists of names, assigned in turn, and two times. -/
example (x y : List String) (g : ℕ) : RTRight (fun (l : List String) (g t : ℕ) => (l, g + t))
    ((RT.init 0).exec (fun l g t => (l, g + t)) [.newList 0 x, .newList 1 y, .newFun 0 g, .setBoundaries 0, .setCF 0, .call, .setTime 1, .setBoundaries 1, .call,
      .setBoundaries 0]) :=
  c77_boundary_cochain_partial _ 0 (by simp) (by simp)

/-- A list of names is changed in place and assigned again: the old cochain. -/
theorem c77_boundary_cochain_fails (f : ν → φ → τ → γ) (t : τ) (x y : ν) (g : φ) (h : f x g t ≠ f y g t) :
    ∃ cs : List (RTCmd ν φ τ), (∀ a, RTCmd.dropList a ∉ cs) ∧ ¬ RTRight f ((RT.init t).exec f cs) := by
  refine ⟨[.newList 0 x, .newFun 0 g, .setBoundaries 0, .setCF 0, .call, .mutate 0 y, .setBoundaries 0], by simp,
    fun hr => h ?_⟩
  have := hr 0 y 0 g (by simp [RT.exec, RT.step, RT.init]) (by simp [RT.exec, RT.step, RT.init])
    (by simp [RT.exec, RT.step, RT.init]) (by simp [RT.exec, RT.step, RT.init])
  simpa [RT.exec, RT.step, RT.init] using this

/-- Two more lists are assigned without reading the cochain, the last one made where the first one was. -/
theorem c77_boundary_cochain_dropped_fails (f : ν → φ → τ → γ) (t : τ) (x y : ν) (g : φ) (h : f x g t ≠ f y g t) :
    ∃ cs : List (RTCmd ν φ τ), (∀ a z, RTCmd.mutate a z ∉ cs) ∧ ¬ RTRight f ((RT.init t).exec f cs) := by
  refine ⟨[.newList 0 x, .newFun 0 g, .setBoundaries 0, .setCF 0, .call, .newList 1 x, .setBoundaries 1, .dropList 0,
    .newList 0 y, .setBoundaries 0], by simp, fun hr => h ?_⟩
  have := hr 0 y 0 g (by simp [RT.exec, RT.step, RT.init]) (by simp [RT.exec, RT.step, RT.init])
    (by simp [RT.exec, RT.step, RT.init]) (by simp [RT.exec, RT.step, RT.init])
  simpa [RT.exec, RT.step, RT.init] using this

end

/-! ## Fields -/

section
variable {φ τ : Type} [DecidableEq τ]

/-- The times a field has been asked for. -/
def asked : List (FCmd φ τ) → List τ
  | [] => []
  | .setTime t :: cs => t :: asked cs
  | .evaluate (some t) :: cs => t :: asked cs
  | .evaluate none :: cs => asked cs
  | .change _ :: cs => asked cs

/-- The times at which a field may be evaluated after it has been asked for the times `l`: any time; the first one it has been
asked for (any if there is none); one time. -/
def TimeOk : ValidTime τ → List τ → τ → Prop
  | .always, _, _ => True
  | .firstInstant, l, t => ∀ c ∈ l.head?, t = c
  | .only w, _, t => t = w

/-- Its current time then: the last, the first, the one time if it has been asked for. -/
def timeNow : ValidTime τ → List τ → Option τ
  | .always, l => l.getLast?
  | .firstInstant, l => l.head?
  | .only w, l => if w ∈ l then some w else none

omit [DecidableEq τ] in
theorem asked_append (cs ds : List (FCmd φ τ)) : asked (cs ++ ds) = asked cs ++ asked ds := by
  induction cs with
  | nil => rfl
  | cons c cs ih => rcases c with t | t | g <;> [skip; cases t; skip] <;> simp [asked, ih]

/-- The current time and the validity are those the specification says. -/
theorem field_time (g : φ) (shared : Bool) (v : ValidTime τ) (cs : List (FCmd φ τ)) :
    ((Field.init g shared v).exec cs).validTime = v ∧ ((Field.init g shared v).exec cs).currentTime = timeNow v (asked cs) := by
  have ok : ∀ (s : Field φ τ) l, s.validTime = v → s.currentTime = timeNow v l → ∀ t,
      (timeOk s t = true → timeNow v (l ++ [t]) = some t) ∧ (timeOk s t = false → timeNow v (l ++ [t]) = timeNow v l) := by
    intro s l hv hc t
    unfold timeOk
    rw [hv, hc]
    cases v with
    | always => simp [timeNow]
    | firstInstant => cases l <;> simp [timeNow, eq_comm]
    | only w =>
      by_cases h : t = w
      · subst h; simp [timeNow]
      · simp [timeNow, h, Ne.symm h]
  have st : ∀ (s : Field φ τ) l, s.validTime = v → s.currentTime = timeNow v l → ∀ t,
      (∀ s', Caches.setTime s t = some s' → s'.validTime = v ∧ s'.currentTime = timeNow v (l ++ [t])) ∧
      (Caches.setTime s t = none → s.currentTime = timeNow v (l ++ [t])) := by
    intro s l hv hc t
    obtain ⟨o1, o2⟩ := ok s l hv hc t
    unfold Caches.setTime
    cases h : timeOk s t with
    | true =>
      refine ⟨fun s' hs => ?_, fun h => absurd h (by simp)⟩
      rw [← Option.some.inj hs]
      exact ⟨hv, (o1 h).symm⟩
    | false => exact ⟨fun s' hs => absurd hs (by simp), fun _ => hc.trans (o2 h).symm⟩
  have ev : ∀ (s s1 : Field φ τ) t, s.atTime t = some s1 → (s.step (.evaluate t)).1.validTime = s1.validTime
      ∧ (s.step (.evaluate t)).1.currentTime = s1.currentTime := by
    intro s s1 t h
    simp only [Field.step, h]
    cases hc : s1.currentTime with
    | none =>
      cases t with
      | none => rw [Option.some.inj (show some s = some s1 from h)]; exact ⟨rfl, hc⟩
      | some t =>
        simp only [Field.atTime, Caches.setTime] at h
        split at h
        · rw [← Option.some.inj h] at hc; exact absurd hc (by simp)
        · exact absurd h (by simp)
    | some t' =>
      cases hp : s1.prev with
      | none => exact ⟨rfl, rfl⟩
      | some y =>
        dsimp only
        split
        · exact ⟨rfl, hc⟩
        · exact ⟨rfl, rfl⟩
  induction cs using List.reverseRecOn with
  | nil => cases v <;> simp [Field.exec, Field.init, asked, timeNow]
  | append_singleton cs c ih =>
    obtain ⟨h1, h2⟩ := ih
    rw [asked_append]
    unfold Field.exec at h1 h2 ⊢
    rw [List.foldl_append, List.foldl_cons, List.foldl_nil]
    generalize List.foldl _ _ cs = s at h1 h2 ⊢
    cases c with
    | setTime t =>
      obtain ⟨s1, s2⟩ := st s _ h1 h2 t
      simp only [Field.step, asked]
      cases h : Caches.setTime s t with
      | none => exact ⟨h1, s2 h⟩
      | some s' => exact s1 s' h
    | change g' =>
      simp only [Field.step, asked, List.append_nil]
      split
      · exact ⟨h1, h2⟩
      · exact ⟨h1, h2⟩
    | evaluate t =>
      cases t with
      | none =>
        obtain ⟨e1, e2⟩ := ev s s none rfl
        rw [e1, e2]
        simp only [asked, List.append_nil]
        exact ⟨h1, h2⟩
      | some t =>
        obtain ⟨s1, s2⟩ := st s _ h1 h2 t
        simp only [asked]
        cases h : Caches.setTime s t with
        | none => simp only [Field.step, Field.atTime, h]; exact ⟨h1, s2 h⟩
        | some s' =>
          obtain ⟨e1, e2⟩ := ev s s' (some t) h
          rw [e1, e2]
          exact s1 s' h

/-- **C78.** A field asked for a time gives a value at that time if it is valid then, and raises otherwise. -/
theorem c78_evaluate (g : φ) (shared : Bool) (v : ValidTime τ) (cs : List (FCmd φ τ)) (t : τ) :
    (TimeOk v (asked cs) t → ∃ g', (((Field.init g shared v).exec cs).step (.evaluate (some t))).2 = some (.val (t, g'))) ∧
    (¬ TimeOk v (asked cs) t → ((Field.init g shared v).exec cs).step (.evaluate (some t))
      = ((Field.init g shared v).exec cs, some .raise)) := by
  obtain ⟨h1, h2⟩ := field_time g shared v cs
  generalize (Field.init g shared v).exec cs = s at h1 h2 ⊢
  have hok : timeOk s t = true ↔ TimeOk v (asked cs) t := by
    unfold timeOk
    rw [h1, h2]
    cases v with
    | always => simp [TimeOk]
    | firstInstant =>
      simp only [timeNow, TimeOk]
      cases (asked cs).head? <;> simp
    | only w => simp [TimeOk]
  rw [← hok]
  constructor
  · intro h
    simp only [Field.step, Field.atTime, Caches.setTime, if_pos h]
    cases hp : s.prev with
    | none => exact ⟨_, rfl⟩
    | some y =>
      dsimp only
      split
      · rename_i e
        rw [e]
        exact ⟨_, rfl⟩
      · exact ⟨_, rfl⟩
  · intro h
    simp only [Field.step, Field.atTime, Caches.setTime, if_neg h]

/-- Without a time it gives a value at its current time, and raises if it has none. -/
theorem c78_evaluate_now (g : φ) (shared : Bool) (v : ValidTime τ) (cs : List (FCmd φ τ)) :
    (∀ t, timeNow v (asked cs) = some t →
      ∃ g', (((Field.init g shared v).exec cs).step (.evaluate none)).2 = some (.val (t, g'))) ∧
    (timeNow v (asked cs) = none → ((Field.init g shared v).exec cs).step (.evaluate none)
      = ((Field.init g shared v).exec cs, some .raise)) := by
  obtain ⟨-, h2⟩ := field_time g shared v cs
  generalize (Field.init g shared v).exec cs = s at h2 ⊢
  rw [← h2]
  constructor
  · intro t ht
    simp only [Field.step, Field.atTime, ht]
    cases hp : s.prev with
    | none => exact ⟨_, rfl⟩
    | some y =>
      dsimp only
      split
      · rename_i e
        rw [e]
        exact ⟨_, rfl⟩
      · exact ⟨_, rfl⟩
  · intro h
    simp only [Field.step, Field.atTime, h]

/-- All values a program gets. -/
def outputs (s : Field φ τ) : List (FCmd φ τ) → List (τ × φ)
  | [] => []
  | c :: cs => (match (s.step c).2 with
    | some (.val y) => [y]
    | _ => []) ++ outputs (s.step c).1 cs

theorem output_split (s : Field φ τ) (cs : List (FCmd φ τ)) (y : τ × φ) (h : y ∈ outputs s cs) :
    ∃ ds c es, cs = ds ++ c :: es ∧ ((s.exec ds).step c).2 = some (.val y) := by
  induction cs generalizing s with
  | nil => exact absurd h List.not_mem_nil
  | cons c cs ih =>
    rcases List.mem_append.1 h with h | h
    · refine ⟨[], c, cs, rfl, ?_⟩
      show (s.step c).2 = _
      revert h
      cases hr : (s.step c).2 with
      | none => simp
      | some r => cases r <;> simp [eq_comm]
    · obtain ⟨ds, c', es, e, h'⟩ := ih _ h
      exact ⟨c :: ds, c', es, by rw [e]; rfl, h'⟩

/-- The time of every value is one at which the field was valid when it was asked for it. -/
theorem c78_outputs_valid (g : φ) (shared : Bool) (v : ValidTime τ) (cs : List (FCmd φ τ)) (y : τ × φ)
    (h : y ∈ outputs (Field.init g shared v) cs) :
    y.1 ∈ asked cs ∧ TimeOk v (asked cs) y.1 := by
  obtain ⟨ds, c, es, rfl, hy⟩ := output_split _ _ _ h
  cases c with
  | setTime t =>
    simp only [Field.step] at hy
    split at hy <;> exact absurd hy (by simp)
  | change g' =>
    simp only [Field.step] at hy
    split at hy <;> exact absurd hy (by simp)
  | evaluate t =>
    rw [asked_append]
    cases t with
    | some t =>
      obtain ⟨e1, e2⟩ := c78_evaluate g shared v ds t
      by_cases hok : TimeOk v (asked ds) t
      · obtain ⟨g', hg⟩ := e1 hok
        rw [hg] at hy
        have e : (t, g') = y := by simpa using hy
        rw [← e]
        refine ⟨by simp [asked], ?_⟩
        cases v with
        | always => trivial
        | only w => exact hok
        | firstInstant =>
          simp only [TimeOk] at hok ⊢
          cases ha : asked ds with
          | nil => simp [asked]
          | cons a l => rw [ha] at hok; simpa using hok
      · rw [e2 hok] at hy
        exact absurd hy (by simp)
    | none =>
      obtain ⟨e1, e2⟩ := c78_evaluate_now g shared v ds
      cases hn : timeNow v (asked ds) with
      | none => rw [e2 hn] at hy; exact absurd hy (by simp)
      | some t =>
        obtain ⟨g', hg⟩ := e1 t hn
        rw [hg] at hy
        have e : (t, g') = y := by simpa using hy
        rw [← e]
        cases v with
        | always =>
          exact ⟨List.mem_append_left _ (List.mem_of_getLast? hn), trivial⟩
        | only w =>
          simp only [timeNow] at hn
          split at hn
          · rename_i hw
            have := Option.some.inj hn
            subst this
            exact ⟨List.mem_append_left _ hw, rfl⟩
          · exact absurd hn (by simp)
        | firstInstant =>
          simp only [timeNow] at hn
          refine ⟨List.mem_append_left _ (List.mem_of_head? hn), ?_⟩
          cases ha : asked ds with
          | nil => rw [ha] at hn; exact absurd hn (by simp)
          | cons a l => rw [ha] at hn; simpa [TimeOk, eq_comm] using hn

/-- A field that is valid at its first instant only gives values at one time only. -/
theorem c78_first_instant (g : φ) (shared : Bool) (cs : List (FCmd φ τ)) (y z : τ × φ)
    (hy : y ∈ outputs (Field.init g shared .firstInstant) cs) (hz : z ∈ outputs (Field.init g shared .firstInstant) cs) :
    y.1 = z.1 := by
  obtain ⟨m, e1⟩ := c78_outputs_valid _ _ _ _ _ hy
  obtain ⟨-, e2⟩ := c78_outputs_valid _ _ _ _ _ hz
  simp only [TimeOk] at e1 e2
  cases ha : (asked cs).head? with
  | none => rw [List.head?_eq_none_iff.1 ha] at m; exact absurd m List.not_mem_nil
  | some c => rw [e1 c ha, e2 c ha]

/-- One program for each kind of field. -/
example : outputs (Field.init "g" false (.firstInstant : ValidTime ℕ)) [.evaluate none, .evaluate (some 1), .evaluate (some 2),
      .setTime 1, .evaluate none] = [(1, "g"), (1, "g")]
    ∧ outputs (Field.init "g" false (.only 2 : ValidTime ℕ)) [.evaluate (some 1), .evaluate none, .setTime 2, .evaluate none] = [(2, "g")]
    ∧ outputs (Field.init "g" true (.always : ValidTime ℕ)) [.evaluate (some 1), .change "h", .evaluate (some 1),
      .evaluate (some 2)] = [(1, "g"), (1, "g"), (2, "h")] := by
  refine ⟨?_, ?_, ?_⟩ <;> rfl

/-- Evaluating a field at a time gives its functions at that time, or raises; the stored result is used only if it is
that.  (`change` has no effect on fields that keep a private copy.) -/
theorem c77_field_partial (g : φ) (shared : Bool) (v : ValidTime τ) {cs : List (FCmd φ τ)}
    (h : shared = false ∨ ∀ g', FCmd.change g' ∉ cs) (t : Option τ) :
    ∃ r, (((Field.init g shared v).exec cs).step (.evaluate t)).2 = some r ∧
      (r = .raise ∨ ∃ t', r = .val (t', g) ∧ ∀ u, t = some u → t' = u) := by
  let I : Field φ τ → Prop := fun s => s.shared = shared ∧ s.func = g ∧ ∀ t g', s.prev = some (t, g') → g' = g
  have st : ∀ s s' u, I s → Caches.setTime s u = some s' → I s' ∧ s'.currentTime = some u := by
    intro s s' u hs h
    unfold Caches.setTime at h
    split at h
    · rw [← Option.some.inj h]; exact ⟨hs, rfl⟩
    · exact absurd h (by simp)
  have ev : ∀ s, I s → ∀ t, I (s.step (.evaluate t)).1 ∧ ∃ r, (s.step (.evaluate t)).2 = some r ∧
      (r = .raise ∨ ∃ t', r = .val (t', g) ∧ ∀ u, t = some u → t' = u) := by
    intro s hs t
    simp only [Field.step]
    cases hs1 : s.atTime t with
    | none => exact ⟨hs, .raise, rfl, .inl rfl⟩
    | some s1 =>
      have h1 : I s1 ∧ ∀ u, t = some u → s1.currentTime = some u := by
        cases t with
        | none => rw [← Option.some.inj (show some s = some s1 from hs1)]; exact ⟨hs, fun u h => absurd h (by simp)⟩
        | some t => exact ⟨(st s s1 t hs hs1).1, fun u h => by rw [← Option.some.inj h]; exact (st s s1 t hs hs1).2⟩
      obtain ⟨⟨hsh, hf, hp⟩, hu⟩ := h1
      dsimp only
      cases hc : s1.currentTime with
      | none => exact ⟨hs, .raise, rfl, .inl rfl⟩
      | some t' =>
        have ht : ∀ u, t = some u → t' = u := fun u h => Option.some.inj (hc.symm.trans (hu u h))
        have fresh : I { s1 with prev := some (t', s1.func) } := by
          refine ⟨hsh, hf, fun t g' h => ?_⟩
          have e := Option.some.inj h
          simp only [Prod.mk.injEq] at e
          rw [← e.2, hf]
        dsimp only
        cases hpp : s1.prev with
        | none => exact ⟨fresh, _, rfl, .inr ⟨t', by rw [hf], ht⟩⟩
        | some y =>
          obtain ⟨t2, g2⟩ := y
          dsimp only
          by_cases h2 : t2 = t'
          · rw [if_pos h2]
            exact ⟨⟨hsh, hf, hp⟩, _, rfl, .inr ⟨t', by rw [h2, hp _ _ hpp], ht⟩⟩
          · rw [if_neg h2]
            exact ⟨fresh, _, rfl, .inr ⟨t', by rw [hf], ht⟩⟩
  have inv : ∀ s, I s → I (s.exec cs) := by
    induction cs with
    | nil => exact fun s h => h
    | cons c cs ih =>
      intro s hs
      refine ih (h.imp_right fun h g' hg => h g' (List.mem_cons_of_mem _ hg)) _ ?_
      cases c with
      | setTime t =>
        simp only [Field.step]
        cases hst : Caches.setTime s t with
        | none => exact hs
        | some s' => exact (st s s' t hs hst).1
      | evaluate t => exact (ev s hs t).1
      | change g' =>
        rcases h with h | h
        · simp only [Field.step, hs.1, h]
          exact hs
        · exact absurd List.mem_cons_self (h g')
  exact (ev _ (inv _ ⟨rfl, rfl, fun t g' h => absurd h (by simp [Field.init])⟩) t).2

/-- Fields that share the dictionary of the user: after a change the new functions are used at a new time, the old ones at
the last time. -/
theorem c77_field_shared_fails (g g' : φ) (hg : g ≠ g') (t u : τ) (hu : t ≠ u) :
    ∃ cs : List (FCmd φ τ),
      (((Field.init g true .always).exec cs).step (.evaluate (some t))).2 = some (.val (t, g)) ∧
      (((Field.init g true .always).exec cs).step (.evaluate (some u))).2 = some (.val (u, g')) ∧
      ((Field.init g true .always).exec cs).func = g' ∧ g' ≠ g := by
  refine ⟨[.evaluate (some t), .change g'], ?_, ?_, ?_, hg.symm⟩
  · simp [Field.exec, Field.step, Field.init, Field.atTime, Caches.setTime, timeOk]
  · simp [Field.exec, Field.step, Field.init, Field.atTime, Caches.setTime, timeOk, hu]
  · simp [Field.exec, Field.step, Field.init, Field.atTime, Caches.setTime, timeOk]

end

end Mifem.Props
