import Verif.Model.Comm
import Mathlib.Algebra.BigOperators.Group.List.Basic
import Mathlib.Data.List.Nodup
import Mathlib.Data.List.Range
import Mathlib.Tactic.Common

/-!
# Lemmas on communication patterns
-/

namespace Mifem.Comm

variable {M : Type}

/-! ### pairs -/

/-- all cores in the rows. -/
def entries (H : List (Nat × Option Nat)) : List Nat := H.flatMap fun p => p.1 :: p.2.toList

theorem entries_pairUp : ∀ l : List Nat, entries (pairUp l) = l
  | [] => rfl
  | [a] => rfl
  | a :: b :: l => by
    have := entries_pairUp l
    simp only [entries, pairUp, List.flatMap_cons] at this ⊢
    rw [this]
    rfl

theorem keysOf_sublist : ∀ l : List Nat, (keysOf (pairUp l)).Sublist l
  | [] => by simp [keysOf, pairUp]
  | [a] => by simp [keysOf, pairUp]
  | a :: b :: l => by
    have := keysOf_sublist l
    simp only [keysOf, pairUp, List.map_cons] at this ⊢
    exact (this.cons b).cons_cons a

theorem parse_not_mem (rank tag : Nat) (H : List (Nat × Option Nat)) (h : rank ∉ entries H) :
    parseFrom rank tag H = none := by
  induction H generalizing tag with
  | nil => rfl
  | cons p H ih =>
    obtain ⟨i, j⟩ := p
    simp only [entries, List.flatMap_cons, List.cons_append, List.mem_cons, List.mem_append, not_or] at h
    cases j with
    | none => exact ih _ h.2.2
    | some j =>
      simp only [Option.toList_some, List.mem_singleton] at h
      simp only [parseFrom, if_neg h.1, if_neg h.2.1]
      exact ih _ h.2.2

/-- the tag and the row an action comes from. -/
def rowOf (rank : Nat) : Act → Nat × (Nat × Option Nat)
  | .recv j t => (t, (rank, some j))
  | .send i t => (t, (i, some rank))

theorem parse_iff (rank tag : Nat) (H : List (Nat × Option Nat)) (hn : (entries H).Nodup) (a : Act) :
    parseFrom rank tag H = some a ↔ ∃ m, (rowOf rank a).1 = tag + m ∧ H[m]? = some (rowOf rank a).2 := by
  induction H generalizing tag with
  | nil => simp [parseFrom]
  | cons p H ih =>
    obtain ⟨i, j⟩ := p
    have hn' : (entries H).Nodup := by
      simp only [entries, List.flatMap_cons] at hn
      exact (List.nodup_append.mp hn).2.1
    have hmemE : ∀ m x y : Nat, H[m]? = some (x, some y) → x ∈ entries H ∧ y ∈ entries H := by
      intro m x y hm
      have := List.mem_of_getElem? hm
      unfold entries
      exact ⟨List.mem_flatMap.mpr ⟨_, this, by simp⟩, List.mem_flatMap.mpr ⟨_, this, by simp⟩⟩
    -- the first row
    have hfirst : (∃ m, (rowOf rank a).1 = tag + m ∧ ((i, j) :: H)[m]? = some (rowOf rank a).2) ↔
        ((rowOf rank a).1 = tag ∧ (i, j) = (rowOf rank a).2) ∨
        ∃ m, (rowOf rank a).1 = tag + 1 + m ∧ H[m]? = some (rowOf rank a).2 := by
      constructor
      · rintro ⟨m, h1, h2⟩
        cases m with
        | zero => exact Or.inl ⟨h1, by simpa using h2⟩
        | succ m => exact Or.inr ⟨m, by omega, by simpa using h2⟩
      · rintro (⟨h1, h2⟩ | ⟨m, h1, h2⟩)
        · exact ⟨0, h1, by simp [h2]⟩
        · exact ⟨m + 1, by omega, by simpa using h2⟩
    rw [hfirst]
    cases j with
    | none =>
      simp only [parseFrom]
      rw [ih _ hn']
      constructor
      · exact Or.inr
      · rintro (⟨_, h2⟩ | h)
        · cases a <;> simp [rowOf] at h2
        · exact h
    | some j =>
      simp only [entries, List.flatMap_cons, Option.toList_some, List.cons_append, List.nil_append, List.nodup_cons,
        List.mem_cons, not_or] at hn
      obtain ⟨⟨hij, hiH⟩, hjH, _⟩ := hn
      simp only [parseFrom]
      split
      · next h =>
        subst h
        constructor
        · intro ha
          simp only [Option.some.injEq] at ha
          subst ha
          exact Or.inl ⟨rfl, rfl⟩
        · rintro (⟨h1, h2⟩ | ⟨m, _, h2⟩)
          · cases a with
            | recv j' t => simp [rowOf] at h1 h2; simp [h1, h2]
            | send i' t => simp [rowOf] at h2; exact absurd h2.2.symm hij
          · exfalso
            cases a with
            | recv j' t => exact hiH (hmemE _ _ _ h2).1
            | send i' t => exact hiH (hmemE _ _ _ h2).2
      · next h =>
        split
        · next h' =>
          subst h'
          constructor
          · intro ha
            simp only [Option.some.injEq] at ha
            subst ha
            exact Or.inl ⟨rfl, rfl⟩
          · rintro (⟨h1, h2⟩ | ⟨m, _, h2⟩)
            · cases a with
              | recv j' t => simp [rowOf] at h2; exact absurd h2.1.symm h
              | send i' t => simp [rowOf] at h1 h2; simp [h1, h2]
            · exfalso
              cases a with
              | recv j' t => exact hjH (hmemE _ _ _ h2).1
              | send i' t => exact hjH (hmemE _ _ _ h2).2
        · next h' =>
          rw [ih _ hn']
          constructor
          · exact Or.inr
          · rintro (⟨_, h2⟩ | hh)
            · exfalso
              cases a with
              | recv j' t => simp [rowOf] at h2; exact h h2.1.symm
              | send i' t => simp [rowOf] at h2; exact h' h2.2.symm
            · exact hh

/-! ### rounds -/

/-- the cores still active before round `t`. -/
def keysAt (size : Nat) : Nat → List Nat
  | 0 => List.range size
  | t + 1 => keysOf (pairUp (keysAt size t))

theorem keysAt_nodup (size t : Nat) : (keysAt size t).Nodup := by
  induction t with
  | zero => exact List.nodup_range
  | succ t ih => exact ih.sublist (keysOf_sublist _)

theorem keysAt_mono (size t d : Nat) : (keysAt size (t + d)).Sublist (keysAt size t) := by
  induction d with
  | zero => exact List.Sublist.refl _
  | succ d ih => exact (keysOf_sublist _).trans ih

theorem keysAt_lt (size t : Nat) : ∀ i ∈ keysAt size t, i < size := by
  intro i hi
  have := (keysAt_mono size 0 t).subset (by simpa using hi)
  simpa [keysAt] using this

/-- iterate the halving from any list. -/
def keysFrom (l : List Nat) : Nat → List Nat
  | 0 => l
  | t + 1 => keysOf (pairUp (keysFrom l t))

theorem keysFrom_succ (l : List Nat) (t : Nat) : keysFrom (keysOf (pairUp l)) t = keysFrom l (t + 1) := by
  induction t with
  | zero => rfl
  | succ t ih => rw [keysFrom, ih]; rfl

theorem treeLoop_spec (l : List Nat) : (∀ t, t < (treeLoop l).length → (treeLoop l)[t]? = some (pairUp (keysFrom l t))) ∧
    (keysFrom l (treeLoop l).length).length ≤ 1 := by
  induction hl : l.length using Nat.strongRecOn generalizing l with
  | ind n ih =>
    rw [treeLoop]
    split
    · next h =>
      obtain ⟨h1, h2⟩ := ih _ (by rw [← hl]; exact keysOf_length_lt h) (keysOf (pairUp l)) rfl
      refine ⟨?_, ?_⟩
      · intro t ht
        cases t with
        | zero => rfl
        | succ t =>
          rw [List.getElem?_cons_succ, h1 t (by simpa using ht), keysFrom_succ]
      · rw [List.length_cons, ← keysFrom_succ]
        exact h2
    · next h => exact ⟨by simp, by simp [keysFrom]; omega⟩

theorem keysAt_eq (size t : Nat) : keysAt size t = keysFrom (List.range size) t := by
  induction t with
  | zero => rfl
  | succ t ih => rw [keysAt, keysFrom, ih]

theorem TREE_spec (size : Nat) : (∀ t, t < (TREE size).length → (TREE size).getD t [] = pairUp (keysAt size t)) ∧
    (keysAt size (TREE size).length).length ≤ 1 := by
  obtain ⟨h1, h2⟩ := treeLoop_spec (keysOf (pairUp (List.range size)))
  refine ⟨?_, ?_⟩
  · intro t ht
    cases t with
    | zero => rfl
    | succ t =>
      simp only [TREE, List.getD, List.getElem?_cons_succ]
      rw [h1 t (by simpa [TREE] using ht), keysFrom_succ, keysAt_eq]
      rfl
  · rw [keysAt_eq, TREE, List.length_cons, ← keysFrom_succ]
    exact h2

theorem treeAct_iff (size t rank : Nat) (ht : t < (TREE size).length) (a : Act) :
    treeAct size t rank = some a ↔ match a with
      | .recv j m => (pairUp (keysAt size t))[m]? = some (rank, some j)
      | .send i m => (pairUp (keysAt size t))[m]? = some (i, some rank) := by
  unfold treeAct
  rw [(TREE_spec size).1 t ht, parse_iff]
  · cases a with
    | recv j m => simp [rowOf]
    | send i m => simp [rowOf]
  · rw [entries_pairUp]
    exact keysAt_nodup size t

theorem treeAct_none (size t rank : Nat) (ht : (TREE size).length ≤ t) : treeAct size t rank = none := by
  unfold treeAct
  simp [List.getD, ht, parseFrom]

/-! ### rounds executed at the same time -/

/-- data of core `i` before round `t` if all cores execute the rounds together. -/
def sync [Add M] [Zero M] (act : Nat → Nat → Option Act) (f : Nat → M) : Nat → Nat → M
  | 0, i => f i
  | t + 1, i => match act t i with
    | none => sync act f t i
    | some (.recv j _) => sync act f t i + sync act f t j
    | some (.send _ _) => 0

theorem pairUp_sum [AddMonoid M] (f : Nat → M) (act : Nat → Option Act) : ∀ (l : List Nat),
    (∀ m i j : Nat, (pairUp l)[m]? = some (i, some j) → ∃ t, act i = some (.recv j t)) →
    (∀ m i : Nat, (pairUp l)[m]? = some (i, none) → act i = none) →
    ((keysOf (pairUp l)).map fun i => match act i with
      | none => f i
      | some (.recv j _) => f i + f j
      | some (.send _ _) => 0).sum = (l.map f).sum
  | [], _, _ => rfl
  | [a], _, h2 => by simp [keysOf, pairUp, h2 0 a rfl]
  | a :: b :: l, h1, h2 => by
    have ih := pairUp_sum f act l (fun m i j h => h1 (m + 1) i j (by simpa [pairUp] using h))
      (fun m i h => h2 (m + 1) i (by simpa [pairUp] using h))
    obtain ⟨t, ht⟩ := h1 0 a b rfl
    simp only [keysOf, pairUp, List.map_cons, List.sum_cons] at ih ⊢
    rw [ih, ht]
    simp [add_assoc]

theorem pairUp_mem : ∀ (l : List Nat), l.Nodup → ∀ i, i ∈ l → i ∉ keysOf (pairUp l) →
    ∃ m k : Nat, (pairUp l)[m]? = some (k, some i)
  | [], _, i, h, _ => by simp at h
  | [a], _, i, h, h' => by simp [keysOf, pairUp] at h h'; exact absurd h h'
  | a :: b :: l, hn, i, h, h' => by
    simp only [keysOf, pairUp, List.map_cons, List.mem_cons, not_or] at h'
    rcases List.mem_cons.mp h with rfl | h
    · exact absurd rfl h'.1
    rcases List.mem_cons.mp h with rfl | h
    · exact ⟨0, a, rfl⟩
    · obtain ⟨m, k, hm⟩ := pairUp_mem l (by simp at hn; exact hn.2.2) i h h'.2
      exact ⟨m + 1, k, by simpa [pairUp] using hm⟩

theorem pairUp_right_not_key : ∀ (l : List Nat), l.Nodup → ∀ m i j : Nat, (pairUp l)[m]? = some (i, some j) →
    i ∈ keysOf (pairUp l) ∧ j ∈ l ∧ j ∉ keysOf (pairUp l)
  | [], _, m, i, j, h => by simp [pairUp] at h
  | [a], _, m, i, j, h => by
    cases m <;> simp [pairUp] at h
  | a :: b :: l, hn, m, i, j, h => by
    simp only [List.nodup_cons, List.mem_cons, not_or] at hn
    cases m with
    | zero =>
      simp only [pairUp, List.getElem?_cons_zero, Option.some.injEq, Prod.mk.injEq] at h
      obtain ⟨rfl, rfl⟩ := h
      refine ⟨by simp [keysOf, pairUp], by simp, ?_⟩
      simp only [keysOf, pairUp, List.map_cons, List.mem_cons, not_or]
      exact ⟨fun h => hn.1.1 h.symm, fun h => hn.2.1 ((keysOf_sublist l).subset h)⟩
    | succ m =>
      obtain ⟨h1, h2, h3⟩ := pairUp_right_not_key l hn.2.2 m i j (by simpa [pairUp] using h)
      refine ⟨by simp only [keysOf, pairUp, List.map_cons, List.mem_cons]; exact Or.inr h1, by simp [h2], ?_⟩
      simp only [keysOf, pairUp, List.map_cons, List.mem_cons, not_or]
      refine ⟨?_, h3⟩
      rintro rfl
      exact hn.1.2 h2

theorem tree_sync [AddMonoid M] (size : Nat) (f : Nat → M) (t : Nat) (ht : t ≤ (TREE size).length) :
    ((keysAt size t).map (sync (treeAct size) f t)).sum = ((List.range size).map f).sum ∧
    ∀ i, i < size → i ∉ keysAt size t → sync (treeAct size) f t i = 0 := by
  induction t with
  | zero =>
    refine ⟨rfl, ?_⟩
    intro i hi h
    simp [keysAt] at h
    omega
  | succ t ih =>
    obtain ⟨h1, h2⟩ := ih (by omega)
    have ht' : t < (TREE size).length := by omega
    refine ⟨?_, ?_⟩
    · rw [← h1, ← pairUp_sum (sync (treeAct size) f t) (treeAct size t) (keysAt size t)]
      · rfl
      · intro m i j hm
        exact ⟨m, (treeAct_iff size t i ht' _).mpr hm⟩
      · intro m i hm
        cases ha : treeAct size t i with
        | none => rfl
        | some a =>
          exfalso
          have hnd := keysAt_nodup size t
          have hi : i ∈ keysOf (pairUp (keysAt size t)) := by
            unfold keysOf
            exact List.mem_map.mpr ⟨_, List.mem_of_getElem? hm, rfl⟩
          have hkn : (keysOf (pairUp (keysAt size t))).Nodup := hnd.sublist (keysOf_sublist _)
          cases a with
          | recv j m' =>
            have := (treeAct_iff size t i ht' _).mp ha
            simp only at this
            have hmm : m = m' := by
              have e1 : (keysOf (pairUp (keysAt size t)))[m]? = some i := by simp [keysOf, hm]
              have e2 : (keysOf (pairUp (keysAt size t)))[m']? = some i := by simp [keysOf, this]
              obtain ⟨b1, c1⟩ := List.getElem?_eq_some_iff.mp e1
              obtain ⟨b2, c2⟩ := List.getElem?_eq_some_iff.mp e2
              exact (hkn.getElem_inj_iff).mp (c1.trans c2.symm)
            subst hmm
            rw [hm] at this
            simp at this
          | send k m' =>
            have := (treeAct_iff size t i ht' _).mp ha
            exact (pairUp_right_not_key _ hnd m' k i this).2.2 hi
    · intro i hi hni
      by_cases hk : i ∈ keysAt size t
      · obtain ⟨m, k, hm⟩ := pairUp_mem _ (keysAt_nodup size t) i hk hni
        have := (treeAct_iff size t i ht' (.send k m)).mpr hm
        simp [sync, this]
      · have hnone : treeAct size t i = none := by
          unfold treeAct
          rw [(TREE_spec size).1 t ht']
          apply parse_not_mem
          rw [entries_pairUp]
          exact hk
        simp only [sync, hnone]
        exact h2 i hi hk

/-! ### asynchronous execution -/

/-- A schedule of matched rounds in which a core sends at most once. -/
structure Sched (act : Nat → Nat → Option Act) (size n : Nat) : Prop where
  matched : ∀ t i j m, act t i = some (.recv j m) ↔ act t j = some (.send i m)
  ne : ∀ t i j m, act t i = some (.recv j m) → i ≠ j ∧ i < size ∧ j < size ∧ t < n
  once : ∀ t t' j i i' m m', act t j = some (.send i m) → act t' j = some (.send i' m') → t = t'

/-- invariant of the reachable states. -/
structure NetInv [Add M] [Zero M] (act : Nat → Nat → Option Act) (size n : Nat) (f : Nat → M) (s : Net M) : Prop where
  data : ∀ i, s.data i = sync act f (s.pc i) i
  le : ∀ i, s.pc i ≤ n
  behind : ∀ t i j m, act t j = some (.send i m) → t < s.pc i → t < s.pc j
  box : ∀ i j, (s.box j i = [] ∧ ∀ t m, t < s.pc j → act t j = some (.send i m) → t < s.pc i) ∨
    ∃ t m, s.box j i = [(m, sync act f t j)] ∧ act t j = some (.send i m) ∧ t < s.pc j ∧ s.pc i ≤ t

theorem netInv_start [Add M] [Zero M] (act : Nat → Nat → Option Act) (size n : Nat) (f : Nat → M) :
    NetInv act size n f (Net.start f) :=
  { data := fun i => rfl
    le := fun i => Nat.zero_le _
    behind := fun t i j m _ h => by simp [Net.start] at h
    box := fun i j => Or.inl ⟨rfl, fun t m h _ => by simp [Net.start] at h⟩ }

theorem set1_same {β : Type} (f : Nat → β) (i : Nat) (b : β) : set1 f i b i = b := by simp [set1]
theorem set1_ne {β : Type} (f : Nat → β) {i j : Nat} (b : β) (h : j ≠ i) : set1 f i b j = f j := by simp [set1, h]

theorem netInv_step [Add M] [Zero M] {act : Nat → Nat → Option Act} {size n : Nat} (hs : Sched act size n) {f : Nat → M}
    {b : Bool} {s s' : Net M} (h : NetInv act size n f s) (hst : NetStep act size n b s s') : NetInv act size n f s' := by
  cases hst with
  | skip _ i hi hn ha =>
    have hpc : ∀ k, set1 s.pc i (s.pc i + 1) k = if k = i then s.pc i + 1 else s.pc k := fun k => rfl
    have hnosend : ∀ t i' m, act t i = some (.send i' m) → t ≠ s.pc i := by
      rintro t i' m h1 rfl
      rw [ha] at h1; simp at h1
    have hnorecv : ∀ t j m, act t j = some (.send i m) → t ≠ s.pc i := by
      rintro t j m h1 rfl
      rw [(hs.matched _ _ _ _).mpr h1] at ha; simp at ha
    refine ⟨?_, ?_, ?_, ?_⟩
    · intro k
      simp only [hpc]
      split
      · next hk => subst hk; simp only [sync, ha]; exact h.data k
      · exact h.data k
    · intro k
      simp only [hpc]
      split
      · omega
      · exact h.le k
    · intro t i' j m ht hlt
      simp only [hpc] at hlt ⊢
      have := h.behind t i' j m ht
      split at hlt
      · next hk =>
        subst hk
        have := hnorecv t j m ht
        split <;> omega
      · split
        · next hk => subst hk; omega
        · exact this hlt
    · intro i' j
      simp only [hpc]
      rcases h.box i' j with ⟨h1, h2⟩ | ⟨t, m, h1, h2, h3, h4⟩
      · left
        refine ⟨h1, ?_⟩
        intro t m hlt ht
        split at hlt
        · next hk =>
          subst hk
          have := hnosend t i' m ht
          have := h2 t m (by omega) ht
          split <;> omega
        · have := h2 t m hlt ht
          split
          · next hk => subst hk; omega
          · exact this
      · right
        refine ⟨t, m, h1, h2, ?_, ?_⟩
        · split
          · next hk => subst hk; omega
          · exact h3
        · split
          · next hk => subst hk; have := hnorecv t j m h2; omega
          · exact h4
  | direct _ i j m hi hj hij hni hnj h1 h2 h3 =>
    have hpcj : s.pc j = s.pc i := by
      have h1' := (hs.matched _ _ _ _).mp h1
      exact hs.once _ _ _ _ _ _ _ h2 h1'
    have hpc : ∀ k, set1 (set1 s.pc i (s.pc i + 1)) j (s.pc j + 1) k =
        if k = i ∨ k = j then s.pc i + 1 else s.pc k := by
      intro k
      simp only [set1]
      by_cases hk : k = j
      · simp [hk, hpcj]
      · by_cases hk' : k = i
        · simp [hk']
          intro h
          exact absurd h hij
        · simp [hk, hk']
    -- who sends or receives at round `s.pc i` among `i`, `j`
    have hsendi : ∀ t i' m', act t i = some (.send i' m') → t ≠ s.pc i := by
      rintro t i' m' h4 rfl
      rw [h1] at h4; simp at h4
    have hrecvi : ∀ t j' m', act t j' = some (.send i m') → t = s.pc i → j' = j := by
      rintro t j' m' h4 rfl
      have := (hs.matched _ _ _ _).mpr h4
      rw [h1] at this
      simp at this
      exact this.1.symm
    have hrecvj : ∀ t j' m', act t j' = some (.send j m') → t ≠ s.pc i := by
      rintro t j' m' h4 rfl
      have := (hs.matched _ _ _ _).mpr h4
      rw [← hpcj, h2] at this
      simp at this
    have hsendj : ∀ t i' m', act t j = some (.send i' m') → t = s.pc i ∧ i' = i := by
      intro t i' m' h4
      have := hs.once _ _ _ _ _ _ _ h4 h2
      subst this
      rw [h2] at h4
      simp at h4
      exact ⟨hpcj, h4.1.symm⟩
    refine ⟨?_, ?_, ?_, ?_⟩
    · intro k
      simp only [hpc]
      by_cases hk : k = j
      · subst hk
        rw [set1_same, if_pos (Or.inr rfl)]
        rw [hpcj] at h2
        simp only [sync, h2]
      · rw [set1_ne _ _ hk]
        by_cases hk' : k = i
        · subst hk'
          rw [set1_same, if_pos (Or.inl rfl)]
          simp only [sync, h1]
          rw [h.data k, h.data j, hpcj]
        · rw [set1_ne _ _ hk', if_neg (by simp [hk, hk'])]
          exact h.data k
    · intro k
      simp only [hpc]
      split
      · omega
      · exact h.le k
    · intro t i' j' m' ht hlt
      simp only [hpc] at hlt ⊢
      have hb := h.behind t i' j' m' ht
      split at hlt
      · next hk =>
        rcases hk with rfl | rfl
        · by_cases hteq : t = s.pc i'
          · rw [hrecvi t j' m' ht hteq, if_pos (Or.inr rfl)]
            omega
          · have := hb (by omega)
            split
            · next hk => rcases hk with rfl | rfl <;> omega
            · exact this
        · have := hrecvj t j' m' ht
          have := hb (by omega)
          split
          · next hk => rcases hk with rfl | rfl <;> omega
          · exact this
      · have := hb hlt
        split
        · next hk => rcases hk with rfl | rfl <;> omega
        · exact this
    · intro i' j'
      simp only [hpc]
      rcases h.box i' j' with ⟨b1, b2⟩ | ⟨t, m', b1, b2, b3, b4⟩
      · left
        refine ⟨b1, ?_⟩
        intro t m' hlt ht
        split at hlt
        · next hk =>
          rcases hk with rfl | rfl
          · have := hsendi t i' m' ht
            have := b2 t m' (by omega) ht
            split
            · next hk => rcases hk with rfl | rfl <;> omega
            · exact this
          · obtain ⟨e1, e2⟩ := hsendj t i' m' ht
            subst e2
            rw [if_pos (Or.inl rfl)]
            omega
        · have := b2 t m' hlt ht
          split
          · next hk => rcases hk with rfl | rfl <;> omega
          · exact this
      · right
        refine ⟨t, m', b1, b2, ?_, ?_⟩
        · split
          · next hk => rcases hk with rfl | rfl <;> omega
          · exact b3
        · split
          · next hk =>
            rcases hk with rfl | rfl
            · by_cases hteq : t = s.pc i'
              · have := hrecvi t j' m' b2 hteq
                subst this
                omega
              · omega
            · have := hrecvj t j' m' b2
              omega
          · exact b4
  | sendOff _ i j m hj hnj h2 =>
    have hpc : ∀ k, set1 s.pc j (s.pc j + 1) k = if k = j then s.pc j + 1 else s.pc k := fun k => rfl
    have hrecv := (hs.matched _ _ _ _).mpr h2
    have hij := (hs.ne _ _ _ _ hrecv).1
    have hsendj : ∀ t i' m', act t j = some (.send i' m') → t = s.pc j ∧ i' = i ∧ m' = m := by
      intro t i' m' h4
      have := hs.once _ _ _ _ _ _ _ h4 h2
      subst this
      rw [h2] at h4
      simp at h4
      exact ⟨rfl, h4.1.symm, h4.2.symm⟩
    have hrecvj : ∀ t j' m', act t j' = some (.send j m') → t ≠ s.pc j := by
      rintro t j' m' h4 rfl
      have := (hs.matched _ _ _ _).mpr h4
      rw [h2] at this
      simp at this
    refine ⟨?_, ?_, ?_, ?_⟩
    · intro k
      simp only [hpc]
      by_cases hk : k = j
      · subst hk
        rw [set1_same, if_pos rfl]
        simp only [sync, h2]
      · rw [set1_ne _ _ hk, if_neg hk]
        exact h.data k
    · intro k
      simp only [hpc]
      split
      · omega
      · exact h.le k
    · intro t i' j' m' ht hlt
      simp only [hpc] at hlt ⊢
      have hb := h.behind t i' j' m' ht
      split at hlt
      · next hk =>
        subst hk
        have := hrecvj t j' m' ht
        have := hb (by omega)
        split <;> omega
      · have := hb hlt
        split
        · next hk => subst hk; omega
        · exact this
    · intro i' j'
      simp only [hpc]
      by_cases hj' : j' = j
      · subst hj'
        rw [set1_same, if_pos rfl]
        by_cases hi' : i' = i
        · subst hi'
          rw [set1_same, if_neg hij]
          right
          refine ⟨s.pc j', m, ?_, h2, by omega, ?_⟩
          · rcases h.box i' j' with ⟨b1, _⟩ | ⟨t, m', b1, b2, b3, b4⟩
            · rw [b1, h.data j']
              rfl
            · have := (hsendj t i' m' b2).1
              omega
          · by_contra hcon
            have := h.behind (s.pc j') i' j' m h2 (by omega)
            omega
        · rw [set1_ne _ _ hi']
          rcases h.box i' j' with ⟨b1, b2⟩ | ⟨t, m', b1, b2, b3, b4⟩
          · left
            refine ⟨b1, ?_⟩
            intro t m' hlt ht
            exact absurd (hsendj t i' m' ht).2.1 hi'
          · exact absurd (hsendj t i' m' b2).2.1 hi'
      · rw [set1_ne _ _ hj', if_neg hj']
        rcases h.box i' j' with ⟨b1, b2⟩ | ⟨t, m', b1, b2, b3, b4⟩
        · left
          refine ⟨b1, ?_⟩
          intro t m' hlt ht
          have := b2 t m' hlt ht
          split
          · next hk => subst hk; omega
          · exact this
        · right
          refine ⟨t, m', b1, b2, b3, ?_⟩
          split
          · next hk =>
            subst hk
            have := hrecvj t j' m' b2
            omega
          · exact b4
  | take _ i j m d pre post hi hni h1 hb hpre =>
    have hpc : ∀ k, set1 s.pc i (s.pc i + 1) k = if k = i then s.pc i + 1 else s.pc k := fun k => rfl
    have h2 := (hs.matched _ _ _ _).mp h1
    have hij := (hs.ne _ _ _ _ h1).1
    have hbox : s.pc i < s.pc j ∧ s.box j i = [(m, sync act f (s.pc i) j)] := by
      rcases h.box i j with ⟨b1, _⟩ | ⟨t, m', b1, b2, b3, b4⟩
      · rw [b1] at hb
        simp at hb
      · have ht := hs.once _ _ _ _ _ _ _ b2 h2
        subst ht
        rw [h2] at b2
        simp at b2
        refine ⟨b3, ?_⟩
        rw [b1, b2]
    have hd : pre = [] ∧ post = [] ∧ d = sync act f (s.pc i) j := by
      rw [hbox.2] at hb
      cases pre with
      | nil =>
        simp at hb
        exact ⟨rfl, hb.2, hb.1.symm⟩
      | cons x pre => simp at hb
    obtain ⟨rfl, rfl, rfl⟩ := hd
    have hsendi : ∀ t i' m', act t i = some (.send i' m') → t ≠ s.pc i := by
      rintro t i' m' h4 rfl
      rw [h1] at h4; simp at h4
    have hrecvi : ∀ t j' m', act t j' = some (.send i m') → t = s.pc i → j' = j := by
      rintro t j' m' h4 rfl
      have := (hs.matched _ _ _ _).mpr h4
      rw [h1] at this
      simp at this
      exact this.1.symm
    refine ⟨?_, ?_, ?_, ?_⟩
    · intro k
      simp only [hpc]
      by_cases hk : k = i
      · subst hk
        rw [set1_same, if_pos rfl]
        simp only [sync, h1]
        rw [h.data k]
      · rw [set1_ne _ _ hk, if_neg hk]
        exact h.data k
    · intro k
      simp only [hpc]
      split
      · omega
      · exact h.le k
    · intro t i' j' m' ht hlt
      simp only [hpc] at hlt ⊢
      have hbh := h.behind t i' j' m' ht
      split at hlt
      · next hk =>
        subst hk
        by_cases hteq : t = s.pc i'
        · have := hrecvi t j' m' ht hteq
          subst this
          rw [if_neg fun h => hij h.symm]
          omega
        · have := hbh (by omega)
          split <;> omega
      · have := hbh hlt
        split
        · next hk => subst hk; omega
        · exact this
    · intro i' j'
      simp only [hpc]
      by_cases hboth : j' = j ∧ i' = i
      · obtain ⟨rfl, rfl⟩ := hboth
        left
        rw [set1_same, set1_same]
        refine ⟨rfl, ?_⟩
        intro t m' hlt ht
        have := hs.once _ _ _ _ _ _ _ ht h2
        rw [if_pos rfl]
        omega
      · have hbx : set1 s.box j (set1 (s.box j) i ([] ++ [])) j' i' = s.box j' i' := by
          simp only [set1]
          by_cases hj' : j' = j
          · subst hj'
            have : i' ≠ i := fun h => hboth ⟨rfl, h⟩
            rw [if_pos rfl, set1_ne _ _ this]
          · rw [if_neg hj']
        rw [hbx]
        rcases h.box i' j' with ⟨b1, b2⟩ | ⟨t, m', b1, b2, b3, b4⟩
        · left
          refine ⟨b1, ?_⟩
          intro t m' hlt ht
          split at hlt
          · next hk =>
            subst hk
            have := hsendi t i' m' ht
            have := b2 t m' (by omega) ht
            split <;> omega
          · have := b2 t m' hlt ht
            split
            · next hk => subst hk; omega
            · exact this
        · right
          refine ⟨t, m', b1, b2, ?_, ?_⟩
          · split
            · next hk => subst hk; omega
            · exact b3
          · split
            · next hk =>
              subst hk
              by_cases hteq : t = s.pc i'
              · have := hrecvi t j' m' b2 hteq
                exact absurd ⟨this, rfl⟩ hboth
              · omega
            · exact b4

theorem netInv [Add M] [Zero M] {act : Nat → Nat → Option Act} {size n : Nat} (hs : Sched act size n) {f : Nat → M}
    {s : Net M} (h : NetReach act size n f s) : NetInv act size n f s := by
  induction h with
  | start => exact netInv_start act size n f
  | step _ hst ih => exact netInv_step hs ih hst

/-- No deadlock: as long as a core has not finished, some step other than an unawaited send is possible. -/
theorem net_progress [Add M] [Zero M] {act : Nat → Nat → Option Act} {size n : Nat} (hs : Sched act size n) {f : Nat → M}
    {s : Net M} (h : NetInv act size n f s) (hnd : ∃ i, i < size ∧ s.pc i < n) : ∃ s', NetStep act size n false s s' := by
  -- a core that is least advanced
  have hmin : ∃ i, i < size ∧ s.pc i < n ∧ ∀ j, j < size → s.pc i ≤ s.pc j := by
    obtain ⟨i0, h1, h2⟩ := hnd
    have : ∀ b : Nat, ∀ i, i < size → s.pc i < n → s.pc i ≤ b →
        ∃ i, i < size ∧ s.pc i < n ∧ ∀ j, j < size → s.pc i ≤ s.pc j := by
      intro b
      induction b with
      | zero => intro i h1 h2 h3; exact ⟨i, h1, h2, fun j _ => by omega⟩
      | succ b ih =>
        intro i h1 h2 h3
        by_cases hall : ∀ j, j < size → s.pc i ≤ s.pc j
        · exact ⟨i, h1, h2, hall⟩
        · push Not at hall
          obtain ⟨j, hj, hlt⟩ := hall
          exact ih j hj (by omega) (by omega)
    exact this _ i0 h1 h2 le_rfl
  obtain ⟨i, hi, hin, hle⟩ := hmin
  cases ha : act (s.pc i) i with
  | none => exact ⟨_, .skip s i hi hin ha⟩
  | some a =>
    cases a with
    | recv j m =>
      have h2 := (hs.matched _ _ _ _).mp ha
      obtain ⟨hij, _, hj, _⟩ := hs.ne _ _ _ _ ha
      have hlej := hle j hj
      rcases h.box i j with ⟨b1, b2⟩ | ⟨t, m', b1, b2, b3, b4⟩
      · have hpcj : s.pc j = s.pc i := by
          by_contra hne
          have := b2 (s.pc i) m (by omega) h2
          omega
        exact ⟨_, .direct s i j m hi hj hij hin (by omega) ha (by rw [hpcj]; exact h2) (by rw [b1]; simp)⟩
      · have ht := hs.once _ _ _ _ _ _ _ b2 h2
        subst ht
        rw [h2] at b2
        simp at b2
        subst b2
        exact ⟨_, .take s i j m (sync act f (s.pc i) j) [] [] hi hin ha (by rw [b1]; rfl) (by simp)⟩
    | send j m =>
      have h2 := (hs.matched _ _ _ _).mpr ha
      obtain ⟨hij, hj, _, _⟩ := hs.ne _ _ _ _ h2
      have hlej := hle j hj
      have hpcj : s.pc j = s.pc i := by
        by_contra hne
        have := h.behind (s.pc i) j i m ha (by omega)
        omega
      refine ⟨_, .direct s j i m hj hi hij (by omega) hin (by rw [hpcj]; exact h2) ha ?_⟩
      rcases h.box j i with ⟨b1, b2⟩ | ⟨t, m', b1, b2, b3, b4⟩
      · rw [b1]; simp
      · have ht := hs.once _ _ _ _ _ _ _ b2 ha
        omega

/-- Every step advances some core: executions end. -/
theorem net_measure [Add M] [Zero M] {act : Nat → Nat → Option Act} {size n : Nat} {b : Bool} {s s' : Net M}
    (h : NetStep act size n b s s') :
    ((List.range size).map fun i => n - s'.pc i).sum < ((List.range size).map fun i => n - s.pc i).sum := by
  have key : ∀ (l : List Nat) (p p' : Nat → Nat) (i : Nat), i ∈ l → (∀ k, p k ≤ p' k) → p i < p' i → p i < n →
      (l.map fun k => n - p' k).sum < (l.map fun k => n - p k).sum := by
    intro l p p' i hi hle hlt hn
    have hmono : ∀ l : List Nat, (l.map fun k => n - p' k).sum ≤ (l.map fun k => n - p k).sum := by
      intro l
      induction l with
      | nil => simp
      | cons a l ih =>
        have := hle a
        simp only [List.map_cons, List.sum_cons]
        omega
    induction l with
    | nil => simp at hi
    | cons a l ih =>
      simp only [List.map_cons, List.sum_cons]
      rcases List.mem_cons.mp hi with rfl | hi
      · have := hmono l
        omega
      · have := ih hi
        have := hle a
        omega
  have hset : ∀ (p : Nat → Nat) (i k : Nat), p k ≤ set1 p i (p i + 1) k := by
    intro p i k
    simp only [set1]
    split
    · next h => subst h; omega
    · exact le_rfl
  cases h with
  | skip _ i hi hn ha => exact key _ _ _ i (by simpa using hi) (hset _ _) (by simp [set1]) hn
  | direct _ i j m hi hj hij hni hnj h1 h2 h3 =>
    refine key _ _ _ i (by simpa using hi) ?_ ?_ hni
    · intro k
      simp only [set1]
      split
      · next h => subst h; omega
      · split
        · next h => subst h; omega
        · exact le_rfl
    · simp [set1, hij]
  | sendOff _ i j m hj hnj h2 => exact key _ _ _ j (by simpa using hj) (hset _ _) (by simp [set1]) hnj
  | take _ i j m d pre post hi hni h1 hb hpre => exact key _ _ _ i (by simpa using hi) (hset _ _) (by simp [set1]) hni

end Mifem.Comm
