import Verif.Lemmas.Naive

/-!
# What the naive numbering computes
-/

namespace Mifem.Naive

variable {σ : Type} [DecidableEq σ]

/-- arrays that make sense. -/
structure Good (L : Layout σ) : Prop where
  nodup : L.slots.Nodup
  perm : L.first.Perm L.slots
  sides : ∀ j, ∀ q ∈ L.sides j, q.1 ∈ L.slots ∧ q.2 ∈ L.slots

/-- places of element `k` that get a new number. -/
def freeList (L : Layout σ) (emap : Nat → List (Option Nat)) (k : Nat) : List σ :=
  if k = 0 then L.first else L.slots.filter fun a => (links L emap k k a).isEmpty

/-- all places that get a new number, in order. -/
def frees (L : Layout σ) (emap : Nat → List (Option Nat)) (n : Nat) : List (Nat × σ) :=
  (List.range n).flatMap fun k => (freeList L emap k).map fun a => (k, a)

theorem links_zero (L : Layout σ) (emap : Nat → List (Option Nat)) (k : Nat) (a : σ) : links L emap 0 k a = [] := rfl

theorem mem_freeList (L : Layout σ) (hL : Good L) (emap : Nat → List (Option Nat)) (k : Nat) (a : σ) :
    a ∈ freeList L emap k ↔ a ∈ L.slots ∧ links L emap k k a = [] := by
  unfold freeList
  by_cases hk : k = 0
  · subst hk
    rw [if_pos rfl, hL.perm.mem_iff, links_zero]
    simp
  · rw [if_neg hk, List.mem_filter, List.isEmpty_iff]

theorem mem_frees (L : Layout σ) (hL : Good L) (emap : Nat → List (Option Nat)) (n k : Nat) (a : σ) :
    (k, a) ∈ frees L emap n ↔ k < n ∧ a ∈ L.slots ∧ links L emap k k a = [] := by
  unfold frees
  rw [List.mem_flatMap]
  constructor
  · rintro ⟨j, hj, h⟩
    obtain ⟨b, hb, he⟩ := List.mem_map.1 h
    simp only [Prod.mk.injEq] at he
    obtain ⟨rfl, rfl⟩ := he
    exact ⟨List.mem_range.1 hj, (mem_freeList L hL emap _ _).1 hb⟩
  · rintro ⟨h1, h2⟩
    exact ⟨k, List.mem_range.2 h1, List.mem_map.2 ⟨a, (mem_freeList L hL emap k a).2 h2, rfl⟩⟩

theorem frees_nodup (L : Layout σ) (hL : Good L) (emap : Nat → List (Option Nat)) (n : Nat) : (frees L emap n).Nodup := by
  unfold frees
  rw [List.nodup_flatMap]
  constructor
  · intro k _
    apply List.Nodup.map
    · intro a b h
      simpa using h
    · unfold freeList
      by_cases hk : k = 0
      · rw [if_pos hk]
        exact hL.perm.nodup_iff.2 hL.nodup
      · rw [if_neg hk]
        exact hL.nodup.filter _
  · apply List.Nodup.pairwise_of_forall_ne List.nodup_range
    intro k _ l _ hkl
    intro x hx hy
    obtain ⟨_, _, rfl⟩ := List.mem_map.1 hx
    obtain ⟨_, _, h⟩ := List.mem_map.1 hy
    simp only [Prod.mk.injEq] at h
    exact hkl h.1.symm

/-- the state after the elements below `m`, whose numbers are `N`. -/
structure Inv (L : Layout σ) (emap : Nat → List (Option Nat)) (m : Nat) (s : Dict (Arr σ) × Nat) (N : Nat → Arr σ) : Prop where
  pending : ∀ k, m ≤ k → ∀ a, val s.1 k a = (links L emap m k a).getLast?.bind fun x => N x.1 x.2
  done : ∀ k, k < m → s.1.get k = some (N k)
  isSome : ∀ k, k < m → ∀ a ∈ L.slots, (N k a).isSome
  linked : ∀ k, k < m → ∀ a ∈ L.slots, links L emap k k a ≠ [] → N k a = (links L emap k k a).getLast?.bind fun x => N x.1 x.2
  free : (frees L emap m).map (fun x => N x.1 x.2) = (List.range s.2).map some

theorem inv_init (L : Layout σ) (emap : Nat → List (Option Nat)) (N : Nat → Arr σ) : Inv L emap 0 ([], 0) N where
  pending := fun _ _ _ => rfl
  done := fun k hk => by omega
  isSome := fun k hk => by omega
  linked := fun k hk => by omega
  free := rfl

theorem mem_of_getLast? {α : Type} {l : List α} {x : α} (h : l.getLast? = some x) : x ∈ l := List.mem_of_getLast? h

/-- only the numbers of the elements below `m` matter. -/
theorem getLast_congr (L : Layout σ) (emap : Nat → List (Option Nat)) (m k : Nat) (a : σ) (N N' : Nat → Arr σ) (h : ∀ i, i < m → N i = N' i) :
    ((links L emap m k a).getLast?.bind fun x => N x.1 x.2) = (links L emap m k a).getLast?.bind fun x => N' x.1 x.2 := by
  cases hx : (links L emap m k a).getLast? with
  | none => rfl
  | some x =>
    have := (mem_links L emap m k a x).1 (mem_of_getLast? hx)
    simp only [Option.bind_some]
    rw [h x.1 this.1]

theorem inv_fill (L : Layout σ) (hL : Good L) (emap : Nat → List (Option Nat)) (m : Nat) (s : Dict (Arr σ) × Nat) (N : Nat → Arr σ)
    (h : Inv L emap m s N) (order : List σ) (hperm : order.Perm L.slots) (horder : freeList L emap m = order.filter fun a => (links L emap m m a).isEmpty)
    (a : Arr σ) (ha : ∀ x, a x = val s.1 m x) :
    Inv L emap (m + 1) (passAll L m (fill order a s.2).1 0 (emap m) (s.1.set m (fill order a s.2).1), (fill order a s.2).2)
      (fun k => if k = m then (fill order a s.2).1 else N k) := by
  have hnd : order.Nodup := hperm.nodup_iff.2 hL.nodup
  obtain ⟨f1, f2, f3, f4⟩ := fill_spec order a s.2 hnd
  have fs := fun x hx => fill_isSome order a s.2 hnd x hx
  set arr := (fill order a s.2).1 with harr
  have hold : ∀ i, i < m → (fun k => if k = m then arr else N k) i = N i := fun i hi => by
    simp only
    rw [if_neg (by omega)]
  -- places whose value is pending
  have hnone : ∀ x, (a x).isNone = (links L emap m m x).isEmpty := by
    intro x
    rw [ha, h.pending m (Nat.le_refl m)]
    cases hx : (links L emap m m x).getLast? with
    | none =>
      rw [List.getLast?_eq_none_iff] at hx
      rw [hx]
      rfl
    | some y =>
      have hy := mem_of_getLast? hx
      have hy' := (mem_links L emap m m x y).1 hy
      obtain ⟨hy1, j, _, hy2⟩ := hy'
      have hs := h.isSome y.1 hy1 y.2 (hL.sides j _ hy2).1
      have : (links L emap m m x).isEmpty = false := by
        cases hl : links L emap m m x with
        | nil => rw [hl] at hy; exact absurd hy List.not_mem_nil
        | cons _ _ => rfl
      rw [this]
      simp only [Option.bind_some]
      cases hN : N y.1 y.2 with
      | none => rw [hN] at hs; exact absurd hs (by simp)
      | some v => rfl
  refine ⟨?_, ?_, ?_, ?_, ?_⟩
  · intro k hk x
    simp only
    rw [passAll_val' L emap m arr _ k x (by omega), links_succ, List.getLast?_append]
    have hv : val (s.1.set m arr) k x = val s.1 k x := by
      unfold val
      rw [get_set, if_neg (by omega)]
    rw [hv]
    cases hx : (linksFrom L emap m k x).getLast? with
    | none =>
      simp only [Option.elim_none, Option.none_or]
      rw [h.pending k (by omega)]
      exact getLast_congr L emap m k x _ _ fun i hi => (hold i hi).symm
    | some y =>
      have hy := (mem_linksFrom L emap m k x y).1 (mem_of_getLast? hx)
      simp only [Option.elim_some, Option.some_or, Option.bind_some]
      rw [if_pos hy.1]
  · intro k hk
    simp only
    rw [passAll_get L m arr _ 0 _ k (by omega), get_set]
    by_cases hkm : k = m
    · rw [if_pos hkm, if_pos hkm]
    · rw [if_neg hkm, if_neg hkm]
      exact h.done k (by omega)
  · intro k hk x hx
    by_cases hkm : k = m
    · rw [if_pos hkm]
      exact fs x (hperm.mem_iff.2 hx)
    · rw [if_neg hkm]
      exact h.isSome k (by omega) x hx
  · intro k hk x hx hl
    by_cases hkm : k = m
    · subst hkm
      simp only [if_true]
      have hne : a x ≠ none := by
        intro hn
        have := hnone x
        rw [hn] at this
        have : (links L emap k k x).isEmpty = true := this.symm
        exact hl (List.isEmpty_iff.1 this)
      rw [f1 x hne, ha, h.pending k (Nat.le_refl k)]
      exact getLast_congr L emap k k x _ _ fun i hi => (hold i hi).symm
    · simp only [if_neg hkm]
      rw [h.linked k (by omega) x hx hl]
      exact getLast_congr L emap k k x _ _ fun i hi => (hold i (by omega)).symm
  · unfold frees
    rw [List.range_succ, List.flatMap_append, List.map_append]
    have h1 : ((List.range m).flatMap fun k => (freeList L emap k).map fun a => (k, a)).map (fun x => (if x.1 = m then arr else N x.1) x.2) =
        (List.range s.2).map some := by
      rw [← h.free]
      unfold frees
      apply List.map_congr_left
      intro x hx
      rw [List.mem_flatMap] at hx
      obtain ⟨k, hk, hx⟩ := hx
      obtain ⟨b, _, rfl⟩ := List.mem_map.1 hx
      have := List.mem_range.1 hk
      simp only
      rw [if_neg (by omega)]
    rw [h1]
    have hfil : freeList L emap m = order.filter fun s => (a s).isNone := by
      rw [horder]
      apply List.filter_congr
      intro x _
      exact (hnone x).symm
    have h2 : ([m].flatMap fun k => (freeList L emap k).map fun a => (k, a)).map (fun x => (if x.1 = m then arr else N x.1) x.2) =
        (freeList L emap m).map arr := by
      simp
    rw [h2, hfil, f4, ← List.map_append, f3]
    congr 1
    rw [List.range_eq_range', List.range_eq_range', ← List.range'_append_1, Nat.zero_add]

theorem inv_step (L : Layout σ) (hL : Good L) (emap : Nat → List (Option Nat)) (m : Nat) (s s' : Dict (Arr σ) × Nat) (N : Nat → Arr σ)
    (h : Inv L emap m s N) (hs : step L emap s m = some s') : ∃ N', Inv L emap (m + 1) s' N' := by
  unfold step at hs
  by_cases hm : m = 0
  · rw [if_pos hm] at hs
    by_cases he : s.1.isEmpty
    · rw [if_pos he] at hs
      have hs := Option.some.inj hs
      refine ⟨_, hs ▸ inv_fill L hL emap m s N h L.first hL.perm ?_ (fun _ => none) ?_⟩
      · subst hm
        unfold freeList
        rw [if_pos rfl]
        symm
        rw [List.filter_eq_self]
        intro x _
        rfl
      · intro x
        rw [h.pending m (Nat.le_refl m)]
        subst hm
        rfl
    · rw [if_neg he] at hs
      exact absurd hs (by simp)
  · rw [if_neg hm] at hs
    cases hg : s.1.get m with
    | none =>
      rw [hg] at hs
      exact absurd hs (by simp)
    | some a =>
      rw [hg] at hs
      have hs := Option.some.inj hs
      refine ⟨_, hs ▸ inv_fill L hL emap m s N h L.slots (List.Perm.refl _) ?_ a ?_⟩
      · unfold freeList
        rw [if_neg hm]
      · intro x
        unfold val
        rw [hg]
        rfl

theorem inv_steps (L : Layout σ) (hL : Good L) (emap : Nat → List (Option Nat)) (n : Nat) : ∀ (m : Nat) (s s' : Dict (Arr σ) × Nat) (N : Nat → Arr σ),
    Inv L emap m s N → steps L emap s (List.range' m n) = some s' → ∃ N', Inv L emap (m + n) s' N' := by
  induction n with
  | zero =>
    intro m s s' N h hs
    have : s = s' := by simpa [steps] using hs
    exact ⟨N, this ▸ h⟩
  | succ n ih =>
    intro m s s' N h hs
    rw [List.range'_succ] at hs
    simp only [steps] at hs
    cases h1 : step L emap s m with
    | none => rw [h1] at hs; exact absurd hs (by simp)
    | some s1 =>
      rw [h1] at hs
      obtain ⟨N1, hN1⟩ := inv_step L hL emap m s s1 N h h1
      obtain ⟨N2, hN2⟩ := ih (m + 1) s1 s' N1 hN1 hs
      exact ⟨N2, by
        have : m + (n + 1) = m + 1 + n := by omega
        rw [this]
        exact hN2⟩

/-- no exception: every element but the first has a lower neighbour. -/
theorem steps_isSome (L : Layout σ) (emap : Nat → List (Option Nat)) (n : Nat) : ∀ (m : Nat) (s : Dict (Arr σ) × Nat),
    (m = 0 → s.1 = []) → (∀ k, m ≤ k → 0 < k → ((s.1.get k).isSome ↔ ∃ o, o < m ∧ some k ∈ emap o)) →
    ((steps L emap s (List.range' m n)).isSome ↔ ∀ k, m ≤ k → k < m + n → 0 < k → ∃ o, o < k ∧ some k ∈ emap o) := by
  induction n with
  | zero =>
    intro m s _ _
    simp only [List.range'_zero, steps, Option.isSome_some, true_iff]
    intro k h1 h2
    omega
  | succ n ih =>
    intro m s h0 hk
    rw [List.range'_succ]
    simp only [steps]
    have key : ∀ (arr : Arr σ) (c : Nat),
        (((some (passAll L m arr 0 (emap m) (s.1.set m arr), c) : Option (Dict (Arr σ) × Nat)).bind fun s' => steps L emap s' (List.range' (m + 1) n)).isSome ↔
          ∀ k, m + 1 ≤ k → k < m + 1 + n → 0 < k → ∃ o, o < k ∧ some k ∈ emap o) := by
      intro arr c
      simp only [Option.bind_some]
      apply ih
      · intro h
        omega
      · intro k h1 h2
        rw [Option.isSome_iff_ne_none, Ne, passAll_mem L m arr _ 0 _ k (by omega), get_set, if_neg (by omega : ¬ k = m)]
        have hk' := hk k (by omega) h2
        constructor
        · intro hn
          by_cases hs : s.1.get k = none
          · refine ⟨m, by omega, ?_⟩
            by_contra hc
            exact hn ⟨hs, hc⟩
          · obtain ⟨o, ho, h3⟩ := hk'.1 (Option.isSome_iff_ne_none.2 hs)
            exact ⟨o, by omega, h3⟩
        · rintro ⟨o, ho, h3⟩ ⟨h4, h5⟩
          by_cases hom : o = m
          · exact h5 (hom ▸ h3)
          · have := hk'.2 ⟨o, by omega, h3⟩
            rw [h4] at this
            exact absurd this (by simp)
    unfold step
    by_cases hm : m = 0
    · have he : s.1.isEmpty = true := by
        rw [h0 hm]
        rfl
      simp only [if_pos hm, he, if_true]
      rw [key]
      constructor
      · intro h k h1 h2 h3
        exact h k (by omega) (by omega) h3
      · intro h k h1 h2 h3
        exact h k (by omega) (by omega) h3
    · simp only [if_neg hm]
      cases hg : s.1.get m with
      | none =>
        simp only [Option.bind_none, Option.isSome_none, Bool.false_eq_true, false_iff]
        intro h
        obtain ⟨o, ho, h3⟩ := h m (Nat.le_refl m) (by omega) (by omega)
        have := (hk m (Nat.le_refl m) (by omega)).2 ⟨o, ho, h3⟩
        rw [hg] at this
        exact absurd this (by simp)
      | some a =>
        simp only
        rw [key]
        constructor
        · intro h k h1 h2 h3
          by_cases hkm : k = m
          · subst hkm
            exact (hk k (Nat.le_refl k) h3).1 (by rw [hg]; rfl)
          · exact h k (by omega) (by omega) h3
        · intro h k h1 h2 h3
          exact h k (by omega) (by omega) h3

/-- what has been computed for the elements below `n`. -/
structure Determined (L : Layout σ) (emap : Nat → List (Option Nat)) (n : Nat) (N : Nat → Arr σ) (M : Nat) : Prop where
  isSome : ∀ k, k < n → ∀ a ∈ L.slots, (N k a).isSome
  linked : ∀ k, k < n → ∀ a ∈ L.slots, links L emap k k a ≠ [] → N k a = (links L emap k k a).getLast?.bind fun x => N x.1 x.2
  free : (frees L emap n).map (fun x => N x.1 x.2) = (List.range M).map some

theorem naive_flatten (L : Layout σ) (emap : Nat → List (Option Nat)) (n : Nat) (ranks : List (List Nat)) (hr : ranks.flatten = List.range n) :
    (naive L emap ranks).map List.flatten = (steps L emap ([], 0) (List.range' 0 n)).bind fun t => collect t.1 (List.range' 0 n) := by
  rw [List.range_eq_range'] at hr
  exact run_eq L emap ranks 0 n ([], 0) ([], 0) hr ⟨rfl, fun _ _ => rfl, fun _ => ⟨rfl, rfl⟩⟩

theorem run_shape (L : Layout σ) (emap : Nat → List (Option Nat)) : ∀ (ranks : List (List Nat)) (s : Dict (Arr σ) × Nat) (out : List (List (Nat × Arr σ))),
    run L emap s ranks = some out → out.map (fun l => l.map Prod.fst) = ranks := by
  intro ranks
  induction ranks with
  | nil =>
    intro s out h
    have : [] = out := by simpa [run] using h
    rw [← this]
    rfl
  | cons els rest ih =>
    intro s out h
    simp only [run] at h
    cases h1 : steps L emap s els with
    | none => rw [h1] at h; exact absurd h (by simp)
    | some s' =>
      rw [h1] at h
      simp only [Option.bind_some] at h
      cases h2 : collect s'.1 els with
      | none => rw [h2] at h; exact absurd h (by simp)
      | some o =>
        rw [h2] at h
        simp only [Option.bind_some] at h
        cases h3 : run L emap (els.foldl Dict.del s'.1, s'.2) rest with
        | none => rw [h3] at h; exact absurd h (by simp)
        | some r =>
          rw [h3] at h
          have : o :: r = out := by simpa using h
          rw [← this, List.map_cons, ih _ _ h3]
          congr 1
          clear h h1 h3 this
          induction els generalizing o with
          | nil =>
            have : [] = o := by simpa [collect] using h2
            rw [← this]
            rfl
          | cons k ks ih2 =>
            simp only [collect] at h2
            cases h4 : s'.1.get k with
            | none => rw [h4] at h2; exact absurd h2 (by simp)
            | some a =>
              rw [h4] at h2
              simp only [Option.bind_some] at h2
              cases h5 : collect s'.1 ks with
              | none => rw [h5] at h2; exact absurd h2 (by simp)
              | some r' =>
                rw [h5] at h2
                have : (k, a) :: r' = o := by simpa using h2
                rw [← this, List.map_cons]
                rw [ih2 r' h5]

theorem naive_spec (L : Layout σ) (hL : Good L) (emap : Nat → List (Option Nat)) (n : Nat) (ranks : List (List Nat)) (hr : ranks.flatten = List.range n)
    (out : List (List (Nat × Arr σ))) (h : naive L emap ranks = some out) :
    ∃ N M, Determined L emap n N M ∧ ∀ x ∈ out.flatten, x.1 < n ∧ x.2 = N x.1 := by
  have hf := naive_flatten L emap n ranks hr
  rw [h] at hf
  cases hs : steps L emap ([], 0) (List.range' 0 n) with
  | none => rw [hs] at hf; exact absurd hf (by simp)
  | some s =>
    rw [hs] at hf
    obtain ⟨N, hN⟩ := inv_steps L hL emap n 0 ([], 0) s (fun _ _ => none) (inv_init L emap _) hs
    rw [Nat.zero_add] at hN
    refine ⟨N, s.2, ⟨hN.isSome, hN.linked, hN.free⟩, ?_⟩
    obtain ⟨o, ho, h1, h2⟩ := collect_isSome s.1 (List.range' 0 n) fun k hk => by
      rw [List.mem_range'_1] at hk
      rw [hN.done k (by omega)]
      rfl
    simp only [Option.bind_some, Option.map_some] at hf
    rw [ho] at hf
    have hf := Option.some.inj hf
    intro x hx
    rw [hf] at hx
    have hx1 : x.1 ∈ List.range' 0 n := h1 ▸ List.mem_map.2 ⟨x, hx, rfl⟩
    rw [List.mem_range'_1] at hx1
    have := h2 x hx
    rw [hN.done x.1 (by omega)] at this
    exact ⟨by omega, (Option.some.inj this).symm⟩

theorem naive_isSome (L : Layout σ) (hL : Good L) (emap : Nat → List (Option Nat)) (n : Nat) (ranks : List (List Nat)) (hr : ranks.flatten = List.range n) :
    (naive L emap ranks).isSome ↔ ∀ k, 0 < k → k < n → ∃ o, o < k ∧ some k ∈ emap o := by
  have hf := naive_flatten L emap n ranks hr
  have h1 : (naive L emap ranks).isSome = ((naive L emap ranks).map List.flatten).isSome := by
    cases naive L emap ranks <;> rfl
  rw [h1, hf]
  have h2 := steps_isSome L emap n 0 ([], 0) (fun _ => rfl) (by
    intro k _ _
    constructor
    · intro h
      exact absurd h (by simp [Dict.get])
    · rintro ⟨o, ho, _⟩
      omega)
  have h3 : (((steps L emap ([], 0) (List.range' 0 n)).bind fun t => collect t.1 (List.range' 0 n)).isSome = true) ↔
      (steps L emap ([], 0) (List.range' 0 n)).isSome = true := by
    cases hs : steps L emap ([], 0) (List.range' 0 n) with
    | none => simp
    | some s =>
      simp only [Option.bind_some, Option.isSome_some, iff_true]
      obtain ⟨N, hN⟩ := inv_steps L hL emap n 0 ([], 0) s (fun _ _ => none) (inv_init L emap _) hs
      rw [Nat.zero_add] at hN
      obtain ⟨o, ho, _⟩ := collect_isSome s.1 (List.range' 0 n) fun k hk => by
        rw [List.mem_range'_1] at hk
        rw [hN.done k (by omega)]
        rfl
      rw [ho]
      rfl
  rw [h3, h2]
  constructor
  · intro h k hk0 hk
    exact h k (by omega) (by omega) hk0
  · intro h k _ hk hk0
    exact h k hk0 (by omega)

/-! ## The general theorem -/

/-- every place has the number of a place that got a new number. -/
theorem root_exists (L : Layout σ) (hL : Good L) (emap : Nat → List (Option Nat)) (n : Nat) (N : Nat → Arr σ) (M : Nat) (h : Determined L emap n N M)
    {ν : Type} (node : Nat → σ → ν)
    (hnode : ∀ o k c a, o < k → k < n → (o, c) ∈ links L emap k k a → node o c = node k a) :
    ∀ k, k < n → ∀ a ∈ L.slots, ∃ x ∈ frees L emap n, N x.1 x.2 = N k a ∧ node x.1 x.2 = node k a := by
  intro k
  induction k using Nat.strongRecOn with
  | _ k ih =>
    intro hk a ha
    by_cases hl : links L emap k k a = []
    · exact ⟨(k, a), (mem_frees L hL emap n k a).2 ⟨hk, ha, hl⟩, rfl, rfl⟩
    · have h1 := h.linked k hk a ha hl
      cases hx : (links L emap k k a).getLast? with
      | none => exact absurd (List.getLast?_eq_none_iff.1 hx) hl
      | some y =>
        rw [hx] at h1
        simp only [Option.bind_some] at h1
        have hy := mem_of_getLast? hx
        obtain ⟨hy1, j, _, hy2⟩ := (mem_links L emap k k a y).1 hy
        obtain ⟨x, hx1, hx2, hx3⟩ := ih y.1 hy1 (by omega) y.2 (hL.sides j _ hy2).1
        exact ⟨x, hx1, by rw [hx2, h1], by rw [hx3, hnode y.1 k y.2 a hy1 hk hy]⟩

/-- numbers of new places are different. -/
theorem frees_inj (L : Layout σ) (emap : Nat → List (Option Nat)) (n : Nat) (N : Nat → Arr σ) (M : Nat) (h : Determined L emap n N M)
    (x y : Nat × σ) (hx : x ∈ frees L emap n) (hy : y ∈ frees L emap n) (he : N x.1 x.2 = N y.1 y.2) : x = y := by
  have hnd : ((frees L emap n).map fun x => N x.1 x.2).Nodup := by
    rw [h.free]
    apply List.Nodup.map
    · intro a b hab
      exact Option.some.inj hab
    · exact List.nodup_range
  exact List.inj_on_of_nodup_map hnd hx hy he

theorem general (L : Layout σ) (hL : Good L) (emap : Nat → List (Option Nat)) (n : Nat) (N : Nat → Arr σ) (M : Nat) (h : Determined L emap n N M)
    {ν : Type} (node : Nat → σ → ν)
    (hnode : ∀ o k c a, o < k → k < n → (o, c) ∈ links L emap k k a → node o c = node k a) :
    (∀ k a l b, k < n → l < n → a ∈ L.slots → b ∈ L.slots → N k a = N l b → node k a = node l b) ∧
    ((∀ k a l b, k < n → l < n → a ∈ L.slots → b ∈ L.slots → links L emap k k a = [] → links L emap l l b = [] → node k a = node l b → (k, a) = (l, b)) ↔
      ∀ k a l b, k < n → l < n → a ∈ L.slots → b ∈ L.slots → node k a = node l b → N k a = N l b) := by
  constructor
  · intro k a l b hk hl ha hb he
    obtain ⟨x, hx, hx2, hx3⟩ := root_exists L hL emap n N M h node hnode k hk a ha
    obtain ⟨y, hy, hy2, hy3⟩ := root_exists L hL emap n N M h node hnode l hl b hb
    have : x = y := frees_inj L emap n N M h x y hx hy (by rw [hx2, hy2, he])
    rw [← hx3, ← hy3, this]
  · constructor
    · intro hu k a l b hk hl ha hb he
      obtain ⟨x, hx, hx2, hx3⟩ := root_exists L hL emap n N M h node hnode k hk a ha
      obtain ⟨y, hy, hy2, hy3⟩ := root_exists L hL emap n N M h node hnode l hl b hb
      have hx' := (mem_frees L hL emap n x.1 x.2).1 hx
      have hy' := (mem_frees L hL emap n y.1 y.2).1 hy
      have : x = y := hu x.1 x.2 y.1 y.2 hx'.1 hy'.1 hx'.2.1 hy'.2.1 hx'.2.2 hy'.2.2 (by rw [hx3, hy3, he])
      rw [← hx2, ← hy2, this]
    · intro hN k a l b hk hl ha hb h1 h2 he
      exact frees_inj L emap n N M h (k, a) (l, b) ((mem_frees L hL emap n k a).2 ⟨hk, ha, h1⟩) ((mem_frees L hL emap n l b).2 ⟨hl, hb, h2⟩)
        (hN k a l b hk hl ha hb he)

/-- the numbers in use are `0, ..., M-1`. -/
theorem numbers_range (L : Layout σ) (hL : Good L) (emap : Nat → List (Option Nat)) (n : Nat) (N : Nat → Arr σ) (M : Nat) (h : Determined L emap n N M)
    (v : Nat) : v < M ↔ ∃ k a, k < n ∧ a ∈ L.slots ∧ N k a = some v := by
  constructor
  · intro hv
    have : some v ∈ (frees L emap n).map fun x => N x.1 x.2 := by
      rw [h.free]
      exact List.mem_map.2 ⟨v, List.mem_range.2 hv, rfl⟩
    obtain ⟨x, hx, hv⟩ := List.mem_map.1 this
    have hx' := (mem_frees L hL emap n x.1 x.2).1 hx
    exact ⟨x.1, x.2, hx'.1, hx'.2.1, hv⟩
  · rintro ⟨k, a, hk, ha, hv⟩
    obtain ⟨x, hx, hx2, _⟩ := root_exists L hL emap n N M h (fun _ _ => ()) (fun _ _ _ _ _ _ _ => rfl) k hk a ha
    have : some v ∈ (frees L emap n).map fun x => N x.1 x.2 := List.mem_map.2 ⟨x, hx, by rw [hx2, hv]⟩
    rw [h.free] at this
    obtain ⟨w, hw, he⟩ := List.mem_map.1 this
    have : w = v := by simpa using he
    rw [← this]
    exact List.mem_range.1 hw

end Mifem.Naive
