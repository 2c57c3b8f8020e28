import Verif.Model.Domain
import Verif.Lemmas.Mesh
import Mathlib.Data.List.GetD
import Mathlib.Data.List.Nodup
import Mathlib.Data.List.Forall2

/-!
# Lemmas on domains
-/

namespace Mifem.Domain

open Mifem.Mesh (opp)

/-! ## Corner numbers -/

/-- The number of a corner: the place of the first point of the pool close to it. -/
def N {C : Type} (close : C → C → Bool) (pool : List C) (c : C) : ℕ := pool.findIdx fun p => close p c

/-- No point of the pool is close to an earlier one. -/
def Apart {C : Type} (close : C → C → Bool) (pool : List C) : Prop := pool.Pairwise fun p q => close p q = false

theorem findIdx?_of_any {α : Type} (p : α → Bool) (l : List α) (h : ∃ x ∈ l, p x = true) : l.findIdx? p = some (l.findIdx p) := by
  rw [List.findIdx?_eq_some_iff_findIdx_eq]
  exact ⟨List.findIdx_lt_length.2 h, rfl⟩

theorem N_mem {C : Type} [DecidableEq C] (close : C → C → Bool) (hrefl : ∀ c, close c c = true) (pool : List C) (hp : Apart close pool) (c : C)
    (hc : c ∈ pool) : N close pool c = pool.idxOf c := by
  induction pool with
  | nil => exact absurd hc List.not_mem_nil
  | cons p pool ih =>
    obtain ⟨h1, h2⟩ := List.pairwise_cons.1 hp
    unfold N
    rw [List.findIdx_cons, List.idxOf_cons]
    by_cases e : p = c
    · subst e
      simp [hrefl]
    · have hc' : c ∈ pool := (List.mem_cons.1 hc).resolve_left fun h => e h.symm
      have := ih h2 hc'
      unfold N at this
      have e' : (p == c) = false := by simpa using e
      simp [h1 c hc', e', this]

theorem checkDup_some {C : Type} [DecidableEq C] (close : C → C → Bool) (hrefl : ∀ c, close c c = true) (pool : List C) (hp : Apart close pool) (c : C)
    (k : ℕ) (h : checkDup close pool c = some k) : k = N close pool c ∧ ∃ p ∈ pool, close p c = true := by
  unfold checkDup at h
  split_ifs at h with hc
  · rw [N_mem close hrefl pool hp c hc]
    exact ⟨(Option.some.inj h).symm, c, hc, hrefl c⟩
  · rw [List.findIdx?_eq_some_iff_findIdx_eq] at h
    exact ⟨h.2.symm, List.findIdx_lt_length.1 (h.2 ▸ h.1)⟩

theorem checkDup_none {C : Type} [DecidableEq C] (close : C → C → Bool) (pool : List C) (c : C)
    (h : checkDup close pool c = none) : ∀ p ∈ pool, close p c = false := by
  unfold checkDup at h
  split_ifs at h with hc
  simpa using h

theorem N_prefix {C : Type} (close : C → C → Bool) (pool ext : List C) (c : C) (h : ∃ p ∈ pool, close p c = true) :
    N close (pool ++ ext) c = N close pool c := by
  unfold N
  rw [List.findIdx_append, if_pos (List.findIdx_lt_length.2 h)]

theorem N_new {C : Type} (close : C → C → Bool) (hrefl : ∀ c, close c c = true) (pool : List C) (c : C) (h : ∀ p ∈ pool, close p c = false) :
    N close (pool ++ [c]) c = pool.length := by
  unfold N
  rw [List.findIdx_append, if_neg]
  · simp [hrefl]
  · intro hlt
    obtain ⟨p, hp, e⟩ := List.findIdx_lt_length.1 hlt
    rw [h p hp] at e
    exact absurd e (by simp)

theorem apart_snoc {C : Type} (close : C → C → Bool) (pool : List C) (hp : Apart close pool) (c : C) (h : ∀ p ∈ pool, close p c = false) :
    Apart close (pool ++ [c]) := by
  unfold Apart
  rw [List.pairwise_append]
  exact ⟨hp, List.pairwise_singleton _ _, fun p hp q hq => by rw [List.mem_singleton.1 hq]; exact h p hp⟩

theorem numberCorners_eq {C : Type} [DecidableEq C] (close : C → C → Bool) (hrefl : ∀ c, close c c = true) (cs : List C) : ∀ (pool : List C),
    Apart close pool → ∃ ext, (numberCorners close pool cs).2 = pool ++ ext ∧ Apart close (pool ++ ext) ∧ (∀ c ∈ ext, c ∈ cs) ∧
      (∀ c ∈ cs, ∃ p ∈ pool ++ ext, close p c = true) ∧ (numberCorners close pool cs).1 = cs.map (N close (pool ++ ext)) := by
  induction cs with
  | nil => exact fun pool hp => ⟨[], by simp [numberCorners], by simpa using hp, by simp, by simp, rfl⟩
  | cons c cs ih =>
    intro pool hp
    unfold numberCorners
    cases hd : checkDup close pool c with
    | some k =>
      obtain ⟨hk, hc⟩ := checkDup_some close hrefl pool hp c k hd
      obtain ⟨ext, h1, h2, h3, h4, h5⟩ := ih pool hp
      refine ⟨ext, h1, h2, fun c' hc' => List.mem_cons_of_mem _ (h3 c' hc'), ?_, ?_⟩
      · intro c' hc'
        rcases List.mem_cons.1 hc' with rfl | hc'
        · obtain ⟨p, hp, e⟩ := hc
          exact ⟨p, List.mem_append_left _ hp, e⟩
        · exact h4 c' hc'
      · simp only [List.map_cons, h5, hk, N_prefix close pool ext c hc]
    | none =>
      have hn := checkDup_none close pool c hd
      obtain ⟨ext, h1, h2, h3, h4, h5⟩ := ih (pool ++ [c]) (apart_snoc close pool hp c hn)
      have hself : ∃ p ∈ pool ++ [c], close p c = true := ⟨c, by simp, hrefl c⟩
      refine ⟨c :: ext, by simp [h1], by simpa using h2, ?_, ?_, ?_⟩
      · intro c' hc'
        rcases List.mem_cons.1 hc' with rfl | hc'
        · exact List.mem_cons_self
        · exact List.mem_cons_of_mem _ (h3 c' hc')
      · intro c' hc'
        rcases List.mem_cons.1 hc' with rfl | hc'
        · exact ⟨c', by simp, hrefl c'⟩
        · obtain ⟨p, hp, e⟩ := h4 c' hc'
          exact ⟨p, by simpa using hp, e⟩
      · have e : pool ++ c :: ext = (pool ++ [c]) ++ ext := by simp
        simp only [List.map_cons, h5, e, N_prefix close (pool ++ [c]) ext c hself, N_new close hrefl pool c hn]

theorem numberRegions_eq {C ν : Type} [DecidableEq C] (close : C → C → Bool) (hrefl : ∀ c, close c c = true) (regs : List (ν × List C)) : ∀ (pool : List C),
    Apart close pool → ∃ ext, (∀ c ∈ ext, ∃ x ∈ regs, c ∈ x.2) ∧ (∀ x ∈ regs, ∀ c ∈ x.2, ∃ p ∈ pool ++ ext, close p c = true) ∧
      numberRegions close pool regs = regs.map fun x => (x.1, x.2.map (N close (pool ++ ext))) := by
  induction regs with
  | nil => exact fun pool _ => ⟨[], by simp, by simp, rfl⟩
  | cons x regs ih =>
    intro pool hp
    obtain ⟨r, cs⟩ := x
    obtain ⟨e1, h1, h2, h3, h4, h5⟩ := numberCorners_eq close hrefl cs pool hp
    obtain ⟨e2, k1, k2, k3⟩ := ih (pool ++ e1) h2
    refine ⟨e1 ++ e2, ?_, ?_, ?_⟩
    · intro c hc
      rcases List.mem_append.1 hc with hc | hc
      · exact ⟨_, List.mem_cons_self, h3 c hc⟩
      · obtain ⟨x, hx, hcx⟩ := k1 c hc
        exact ⟨x, List.mem_cons_of_mem _ hx, hcx⟩
    · intro x hx c hc
      rw [← List.append_assoc]
      rcases List.mem_cons.1 hx with rfl | hx
      · obtain ⟨p, hp, e⟩ := h4 c hc
        exact ⟨p, List.mem_append_left _ hp, e⟩
      · exact k2 x hx c hc
    · simp only [numberRegions, h1, k3, List.map_cons, List.cons.injEq, Prod.mk.injEq, true_and, ← List.append_assoc, and_true]
      rw [h5]
      refine List.map_congr_left fun c hc => ?_
      rw [N_prefix close _ e2 c (h4 c hc)]

/-! ## The check -/

/-- What an entry can be if the list was `l`. -/
def Ok {ν : Type} (l : List (Att ν)) (e : Entry ν) : Prop :=
  e = .pend l ∨ (∃ b s, (l = [.reg s, .bnd b] ∨ l = [.bnd b, .reg s]) ∧ (e = .pend [.bnd b] ∨ e = .done (.bnd b))) ∨ ∃ x, l = [x] ∧ e = .done x

/-- The result for a list `l`: its one entry, or the boundary of a crack. -/
def Res {ν : Type} (l : List (Att ν)) (x : Att ν) : Prop :=
  l = [x] ∨ ∃ b s, (l = [.reg s, .bnd b] ∨ l = [.bnd b, .reg s]) ∧ x = .bnd b

theorem ok_done {ν : Type} {l : List (Att ν)} {x : Att ν} (h : Ok l (.done x)) : Res l x := by
  rcases h with h | ⟨b, s, h1, h | h⟩ | ⟨y, h1, h⟩
  · exact absurd h (by simp)
  · exact absurd h (by simp)
  · exact .inr ⟨b, s, h1, by simpa using h⟩
  · simp only [Entry.done.injEq] at h
    rw [h]; exact .inl h1

theorem opp_ne (j : ℕ) : opp j ≠ j := by unfold opp; split <;> omega

theorem two_list {ν : Type} {l : List (Att ν)} {r : ν} {b : ℕ} (h : l.length = 2) (h1 : Att.reg r ∈ l) (h2 : Att.bnd b ∈ l) :
    l = [.reg r, .bnd b] ∨ l = [.bnd b, .reg r] := by
  match l, h with
  | [x, y], _ =>
    simp only [List.mem_cons, List.not_mem_nil, or_false] at h1 h2
    rcases h1 with rfl | rfl <;> rcases h2 with e | e
    · exact absurd e (by simp)
    · left; rw [e]
    · right; rw [e]
    · exact absurd e (by simp)

theorem put_same {ν : Type} [DecidableEq ν] (rm : ν → ℕ → Entry ν) (r : ν) (j : ℕ) (e : Entry ν) : put rm r j e r j = e := by simp [put]

theorem put_other {ν : Type} [DecidableEq ν] (rm : ν → ℕ → Entry ν) (r : ν) (j : ℕ) (e : Entry ν) (r' : ν) (j' : ℕ) (h : ¬ (r' = r ∧ j' = j)) :
    put rm r j e r' j' = rm r' j' := by simp [put, h]

theorem crack_ok {ν : Type} [DecidableEq ν] (init : ν → ℕ → List (Att ν)) (rm rm' : ν → ℕ → Entry ν) (hI : ∀ r j, Ok (init r j) (rm r j))
    (r : ν) (j : ℕ) (s : ν) (b : ℕ) (hl : rm r j = .pend [.reg s, .bnd b] ∨ rm r j = .pend [.bnd b, .reg s]) (h : checkSide.crack rm r j s b = some rm') :
    (∀ r j, Ok (init r j) (rm' r j)) ∧ (∃ y, rm' r j = .done y) ∧ ∀ r j y, rm r j = .done y → rm' r j = .done y := by
  have hinit : init r j = [.reg s, .bnd b] ∨ init r j = [.bnd b, .reg s] := by
    rcases hI r j with e | ⟨b', s', -, e | e⟩ | ⟨x, -, e⟩ <;> rcases hl with hl | hl <;> rw [hl] at e <;> simp at e
    · exact .inl e.symm
    · exact .inr e.symm
  unfold checkSide.crack at h
  cases hs : rm s (opp j) with
  | done x => simp [hs] at h
  | pend l =>
    simp only [hs] at h
    split_ifs at h with hc
    obtain rfl := Option.some.inj h
    have h2 := two_list hc.1 hc.2.1 hc.2.2
    have hinit2 : init s (opp j) = [.reg r, .bnd b] ∨ init s (opp j) = [.bnd b, .reg r] := by
      rcases hI s (opp j) with e | ⟨b', s', -, e | e⟩ | ⟨x, -, e⟩ <;> rw [hs] at e <;> simp at e
      · rw [← e]; exact h2
      · rw [e] at hc; simp at hc
    refine ⟨?_, ⟨_, put_same _ _ _ _⟩, ?_⟩
    · intro r' j'
      by_cases e1 : r' = r ∧ j' = j
      · rw [e1.1, e1.2, put_same]
        exact .inr (.inl ⟨b, s, hinit, .inr rfl⟩)
      · rw [put_other _ _ _ _ _ _ e1]
        by_cases e2 : r' = s ∧ j' = opp j
        · rw [e2.1, e2.2, put_same]
          exact .inr (.inl ⟨b, r, hinit2, .inl rfl⟩)
        · rw [put_other _ _ _ _ _ _ e2]
          exact hI r' j'
    · intro r' j' y hy
      have e1 : ¬ (r' = r ∧ j' = j) := by
        rintro ⟨rfl, rfl⟩
        rcases hl with hl | hl <;> rw [hl] at hy <;> simp at hy
      have e2 : ¬ (r' = s ∧ j' = opp j) := by
        rintro ⟨rfl, rfl⟩
        rw [hs] at hy; simp at hy
      rw [put_other _ _ _ _ _ _ e1, put_other _ _ _ _ _ _ e2, hy]

theorem checkSide_ok {ν : Type} [DecidableEq ν] (init : ν → ℕ → List (Att ν)) (rm rm' : ν → ℕ → Entry ν) (hI : ∀ r j, Ok (init r j) (rm r j))
    (r : ν) (j : ℕ) (h : checkSide rm r j = some rm') :
    (∀ r j, Ok (init r j) (rm' r j)) ∧ (∃ y, rm' r j = .done y) ∧ ∀ r j y, rm r j = .done y → rm' r j = .done y := by
  unfold checkSide at h
  split at h
  · rename_i x hx
    obtain rfl := Option.some.inj h
    refine ⟨?_, ⟨_, put_same _ _ _ _⟩, ?_⟩
    · intro r' j'
      by_cases e1 : r' = r ∧ j' = j
      · rw [e1.1, e1.2, put_same]
        rcases hI r j with e | ⟨b, s, h1, e | e⟩ | ⟨y, -, e⟩ <;> rw [hx] at e <;> simp at e
        · exact .inr (.inr ⟨x, e.symm, rfl⟩)
        · exact .inr (.inl ⟨b, s, h1, .inr (by rw [e])⟩)
      · rw [put_other _ _ _ _ _ _ e1]
        exact hI r' j'
    · intro r' j' y hy
      rw [put_other, hy]
      rintro ⟨rfl, rfl⟩
      rw [hx] at hy; simp at hy
  · rename_i s b hx
    exact crack_ok init rm rm' hI r j s b (.inl hx) h
  · rename_i b s hx
    exact crack_ok init rm rm' hI r j s b (.inr hx) h
  · exact absurd h (by simp)

theorem checkSides_ok {ν : Type} [DecidableEq ν] (init : ν → ℕ → List (Att ν)) (l : List (ν × ℕ)) : ∀ (rm rm' : ν → ℕ → Entry ν),
    (∀ r j, Ok (init r j) (rm r j)) → checkSides rm l = some rm' →
    (∀ r j, Ok (init r j) (rm' r j)) ∧ (∀ x ∈ l, ∃ y, rm' x.1 x.2 = .done y) ∧ ∀ r j y, rm r j = .done y → rm' r j = .done y := by
  induction l with
  | nil =>
    intro rm rm' hI h
    obtain rfl := Option.some.inj h
    exact ⟨hI, by simp, fun _ _ _ h => h⟩
  | cons x l ih =>
    intro rm rm' hI h
    obtain ⟨rm1, h1, h2⟩ := Option.bind_eq_some_iff.1 h
    obtain ⟨a1, ⟨y, a2⟩, a3⟩ := checkSide_ok init rm rm1 hI x.1 x.2 h1
    obtain ⟨b1, b2, b3⟩ := ih rm1 rm' a1 h2
    refine ⟨b1, ?_, fun r j y hy => b3 r j y (a3 r j y hy)⟩
    intro z hz
    rcases List.mem_cons.1 hz with rfl | hz
    · exact ⟨y, b3 _ _ _ a2⟩
    · exact b2 z hz

theorem mem_allSides {ν : Type} (dim : ℕ) (names : List ν) (x : ν × ℕ) : x ∈ allSides dim names ↔ x.1 ∈ names ∧ x.2 < 2 * dim := by
  unfold allSides
  simp only [List.mem_flatMap, List.mem_map, List.mem_range]
  constructor
  · rintro ⟨r, hr, j, hj, rfl⟩; exact ⟨hr, hj⟩
  · rintro ⟨h1, h2⟩; exact ⟨x.1, h1, x.2, h2, rfl⟩

theorem half_opp {j k : ℕ} (h : (j / 2 == k / 2 && j != k) = true) : k = opp j := by
  simp at h
  unfold opp
  split <;> omega

/-- What the whole function gives when it gives something. -/
theorem regionMap_some {C ν : Type} [DecidableEq C] [DecidableEq ν] (dim : ℕ) (close : C → C → Bool) (regs : List (ν × List C))
    (bnds : List (List (ν × ℕ))) (rm : ν → ℕ → Entry ν) (h : regionMap dim close regs bnds = some rm) (r : ν) (hr : r ∈ regs.map Prod.fst) (j : ℕ) (hj : j < 2 * dim) :
    ∃ x, rm r j = .done x ∧ Res (initial dim (numberRegions close [] regs) bnds r j) x ∧
      ∀ s, x = .reg s → (List.range (2 * dim)).find? (fun k => rm s k = .done (.reg r)) = some (opp j) := by
  unfold regionMap at h
  obtain ⟨rm', h1, h2⟩ := Option.bind_eq_some_iff.1 h
  split_ifs at h2 with hp
  obtain rfl := Option.some.inj h2
  obtain ⟨a1, a2, -⟩ := checkSides_ok (initial dim (numberRegions close [] regs) bnds) _ _ _ (fun r j => .inl rfl) h1
  have hx := (mem_allSides dim (regs.map Prod.fst) (r, j)).2 ⟨hr, hj⟩
  obtain ⟨x, e⟩ := a2 _ hx
  have e' : rm' r j = .done x := e
  refine ⟨x, e', ok_done (by rw [← e']; exact a1 r j), ?_⟩
  rintro s rfl
  have := List.all_eq_true.1 hp _ hx
  unfold paired at this
  simp only [e'] at this
  split at this
  · rename_i k hk
    rw [hk, half_opp this]
  · exact absurd this (by simp)

/-! ## When it gives something -/

theorem checkSides_single {ν : Type} [DecidableEq ν] (att : ν → ℕ → Att ν) (l : List (ν × ℕ)) : ∀ (rm : ν → ℕ → Entry ν), l.Nodup →
    (∀ x ∈ l, rm x.1 x.2 = .pend [att x.1 x.2]) → ∃ rm', checkSides rm l = some rm' ∧ (∀ x ∈ l, rm' x.1 x.2 = .done (att x.1 x.2)) ∧
      ∀ r j, (r, j) ∉ l → rm' r j = rm r j := by
  induction l with
  | nil => exact fun rm _ _ => ⟨rm, rfl, by simp, fun _ _ _ => rfl⟩
  | cons x l ih =>
    intro rm hn h
    obtain ⟨hx, hl⟩ := List.nodup_cons.1 hn
    have hne : ∀ y ∈ l, ¬ (y.1 = x.1 ∧ y.2 = x.2) := fun y hy e => hx ((Prod.ext e.1 e.2 : y = x) ▸ hy)
    obtain ⟨rm', h1, h2, h3⟩ := ih (put rm x.1 x.2 (.done (att x.1 x.2))) hl (fun y hy => by
      rw [put_other _ _ _ _ _ _ (hne y hy)]
      exact h y (List.mem_cons_of_mem _ hy))
    refine ⟨rm', ?_, ?_, ?_⟩
    · rw [checkSides]
      have : checkSide rm x.1 x.2 = some (put rm x.1 x.2 (.done (att x.1 x.2))) := by
        unfold checkSide
        rw [h x List.mem_cons_self]
      rw [this]
      exact h1
    · intro y hy
      rcases List.mem_cons.1 hy with rfl | hy
      · rw [h3 _ _ hx, put_same]
      · exact h2 y hy
    · intro r j hrj
      rw [List.mem_cons, not_or] at hrj
      rw [h3 r j hrj.2, put_other]
      rintro ⟨rfl, rfl⟩
      exact hrj.1 rfl

theorem find?_range_unique (n k : ℕ) (p : ℕ → Bool) (hk : k < n) (h : ∀ i < n, p i = true ↔ i = k) : (List.range n).find? p = some k := by
  cases hf : (List.range n).find? p with
  | none => exact absurd ((h k hk).2 rfl) (by simpa using List.find?_eq_none.1 hf k (List.mem_range.2 hk))
  | some i =>
    rw [(h i (List.mem_range.1 (List.mem_of_find?_eq_some hf))).1 (List.find?_some hf)]

theorem nodup_allSides {ν : Type} (dim : ℕ) (names : List ν) (h : names.Nodup) : (allSides dim names).Nodup := by
  unfold allSides
  rw [List.nodup_flatMap]
  refine ⟨fun r _ => List.Nodup.map (fun a b e => (Prod.mk.inj e).2) List.nodup_range, ?_⟩
  refine h.imp fun {a b} hab => ?_
  intro x h1 h2
  obtain ⟨_, _, e1⟩ := List.mem_map.1 h1
  obtain ⟨_, _, e2⟩ := List.mem_map.1 h2
  exact hab ((congrArg Prod.fst (e1.trans e2.symm)))

/-- All lists have one entry and neighbours are opposite: the map is these entries. -/
theorem regionMap_single {C ν : Type} [DecidableEq C] [DecidableEq ν] (dim : ℕ) (close : C → C → Bool) (regs : List (ν × List C))
    (bnds : List (List (ν × ℕ))) (att : ν → ℕ → Att ν) (hn : (regs.map Prod.fst).Nodup)
    (hi : ∀ r ∈ regs.map Prod.fst, ∀ j < 2 * dim, initial dim (numberRegions close [] regs) bnds r j = [att r j])
    (hp : ∀ r ∈ regs.map Prod.fst, ∀ j < 2 * dim, ∀ s, att r j = .reg s → s ∈ regs.map Prod.fst ∧ ∀ k < 2 * dim, att s k = .reg r ↔ k = opp j) :
    ∃ rm, regionMap dim close regs bnds = some rm ∧ ∀ r ∈ regs.map Prod.fst, ∀ j < 2 * dim, rm r j = .done (att r j) := by
  obtain ⟨rm, h1, h2, -⟩ := checkSides_single att (allSides dim (regs.map Prod.fst))
    (fun r j => .pend (initial dim (numberRegions close [] regs) bnds r j)) (nodup_allSides _ _ hn) (fun x hx => by
      obtain ⟨a, b⟩ := (mem_allSides _ _ _).1 hx
      rw [hi _ a _ b])
  have h2' : ∀ r ∈ regs.map Prod.fst, ∀ j < 2 * dim, rm r j = .done (att r j) := fun r hr j hj => h2 (r, j) ((mem_allSides _ _ _).2 ⟨hr, hj⟩)
  refine ⟨rm, ?_, h2'⟩
  unfold regionMap
  simp only [h1, Option.bind_some]
  rw [if_pos]
  rw [List.all_eq_true]
  intro x hx
  obtain ⟨a, b⟩ := (mem_allSides _ _ _).1 hx
  unfold paired
  rw [h2' _ a _ b]
  cases e : att x.1 x.2 with
  | bnd b => rfl
  | reg s =>
    obtain ⟨hs, hk⟩ := hp _ a _ b s e
    have : (List.range (2 * dim)).find? (fun k => rm s k = .done (.reg x.1)) = some (opp x.2) := by
      refine find?_range_unique _ _ _ (Mesh.opp_lt _ _ b) fun i hi => ?_
      rw [h2' s hs i hi]
      simpa using hk i hi
    simp only [this]
    have e1 := Mesh.opp_div x.2
    have e2 := opp_ne x.2
    simp [e1, Ne.symm e2]

theorem flatMap_single {α β : Type} (l : List α) (hl : l.Nodup) (a : α) (ha : a ∈ l) (f : α → List β) (h : ∀ b ∈ l, b ≠ a → f b = []) :
    l.flatMap f = f a := by
  induction l with
  | nil => exact absurd ha List.not_mem_nil
  | cons x l ih =>
    obtain ⟨hx, hl'⟩ := List.nodup_cons.1 hl
    rw [List.flatMap_cons]
    rcases List.mem_cons.1 ha with rfl | ha'
    · have : l.flatMap f = [] := List.flatMap_eq_nil_iff.2 fun b hb => h b (List.mem_cons_of_mem _ hb) fun e => hx (e ▸ hb)
      rw [this, List.append_nil]
    · rw [h x List.mem_cons_self (fun e => hx (e ▸ ha')), List.nil_append]
      exact ih hl' ha' fun b hb hne => h b (List.mem_cons_of_mem _ hb) hne

theorem flatMap_ite {α β : Type} [DecidableEq α] (l : List α) (hl : l.Nodup) (a : α) (x : β) :
    (l.flatMap fun y => if y = a then [x] else []) = if a ∈ l then [x] else [] := by
  split_ifs with h
  · rw [flatMap_single l hl a h _ fun b _ hb => if_neg hb, if_pos rfl]
  · exact List.flatMap_eq_nil_iff.2 fun b hb => if_neg fun (e : b = a) => h (e ▸ hb)

/-! ## Listed sides -/

theorem listed_count {ν : Type} [DecidableEq ν] (bnds : List (List (ν × ℕ))) (r : ν) (j : ℕ) :
    (listed bnds r j).length = bnds.flatten.count (r, j) := by
  have h1 : ∀ (l : List (ν × ℕ)) (b : ℕ), (l.flatMap fun y => if y = (r, j) then [Att.bnd (ν := ν) b] else []).length = l.count (r, j) := by
    intro l b
    induction l with
    | nil => rfl
    | cons y l ih =>
      rw [List.flatMap_cons, List.length_append, ih, List.count_cons]
      by_cases e : y = (r, j)
      · simp [e]; omega
      · simp [e]
  have h2 : ∀ (n : ℕ), ((bnds.zipIdx n).flatMap fun x => x.1.flatMap fun y => if y = (r, j) then [Att.bnd (ν := ν) x.2] else []).length =
      bnds.flatten.count (r, j) := by
    induction bnds with
    | nil => exact fun n => rfl
    | cons l bnds ih =>
      intro n
      rw [List.zipIdx_cons, List.flatMap_cons, List.length_append, ih, h1, List.flatten_cons, List.count_append]
  exact h2 0

end Mifem.Domain
