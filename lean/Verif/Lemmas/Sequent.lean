import Verif.Lemmas.Gathering

/-! Helper lemmas about the 'sequent' chain: invariant of the renumbering loop. -/

namespace Mifem.Gath

/-- The new dofs (those `≥ c`) of the vector are, in some order and without repetition, the next block of numbers. -/
def NewBlock (c : Nat) (v : List Nat) : Prop :=
  (v.filter (fun d => c ≤ d)).Nodup ∧ ∀ d ∈ v, d < c + (v.filter (fun d => c ≤ d)).length

/-- number of dofs seen after the vector. -/
def after (c : Nat) (v : List Nat) : Nat := c + (v.filter (fun d => c ≤ d)).length

/-- Every vector of the list introduces the next block, when `c` dofs have been introduced before. -/
def BlockIntro : Nat → List (List Nat) → Prop
  | _, [] => True
  | c, v :: vs => NewBlock c v ∧ BlockIntro (after c v) vs

theorem blockIntro_append (c : Nat) (l1 l2 : List (List Nat)) :
    BlockIntro c (l1 ++ l2) ↔ BlockIntro c l1 ∧ BlockIntro (l1.foldl after c) l2 := by
  induction l1 generalizing c with
  | nil => simp [BlockIntro]
  | cons v l1 ih => simp [BlockIntro, ih, and_assoc]

theorem newBlock_mem {c : Nat} {v : List Nat} (h : NewBlock c v) (d : Nat) :
    (d ∈ v.filter (fun d => c ≤ d)) ↔ c ≤ d ∧ d < after c v := by
  obtain ⟨hn, hb⟩ := h
  constructor
  · intro hd
    rw [List.mem_filter] at hd
    exact ⟨by simpa using hd.2, hb d hd.1⟩
  · intro hd
    set fr := v.filter (fun d => c ≤ d) with hfr
    have hsub : fr ⊆ List.range' c fr.length := by
      intro x hx
      rw [List.mem_range'_1]
      have hx' := hx
      rw [hfr, List.mem_filter] at hx'
      exact ⟨by simpa using hx'.2, hb x hx'.1⟩
    have hp : fr.Perm (List.range' c fr.length) :=
      (hn.subperm hsub).perm_of_length_le (by simp)
    rw [hp.mem_iff, List.mem_range'_1]
    exact hd

theorem assign_notMem (f : Nat → Nat) (l : List Nat) (a x : Nat) (h : x ∉ l) : assign f l a x = f x := by
  induction l generalizing f a with
  | nil => rfl
  | cons d l ih =>
    simp only [List.mem_cons, not_or] at h
    rw [assign, ih _ _ h.2]
    simp [h.1]

theorem assign_getElem (f : Nat → Nat) (l : List Nat) (a : Nat) (hn : l.Nodup) (i : Nat) (hi : i < l.length) :
    assign f l a l[i] = a + i := by
  induction l generalizing f a i with
  | nil => simp at hi
  | cons d l ih =>
    rw [List.nodup_cons] at hn
    rw [assign]
    cases i with
    | zero =>
      simp only [List.getElem_cons_zero]
      rw [assign_notMem _ _ _ _ hn.1]
      simp
    | succ i =>
      simp only [List.getElem_cons_succ]
      rw [ih _ _ hn.2 i (by simpa using hi)]
      omega

/-- The invariant: `cur` numbers have been given, one for each pair `(j, d)` with `j < K`, `d < filters j`;
`T` is the sum of the caches. -/
structure Inv (K cur : Nat) (filters : Nat → Nat) (T : Nat → Nat → Nat) : Prop where
  cnt : cur = ∑ j ∈ Finset.range K, filters j
  lt : ∀ j d, j < K → d < filters j → T j d < cur
  inj : ∀ j j' d d', j < K → j' < K → d < filters j → d' < filters j' → T j d = T j' d' → j = j' ∧ d = d'
  surj : ∀ m, m < cur → ∃ j d, j < K ∧ d < filters j ∧ T j d = m

theorem inv_zero (K : Nat) : Inv K 0 (fun _ => 0) (fun _ _ => 0) :=
  ⟨by simp, by simp, by simp, by simp⟩

theorem inv_member {K cur : Nat} {filters : Nat → Nat} {S C : Nat → Nat → Nat}
    (hI : Inv K cur filters (fun j d => S j d + C j d))
    (hS : ∀ j d, filters j ≤ d → S j d = 0) (hC : ∀ j d, filters j ≤ d → C j d = 0)
    (j : Nat) (hj : j < K) (fv : List Nat) (hb : NewBlock (filters j) fv) :
    let s := seqMember ⟨cur, filters, C⟩ j fv
    Inv K s.cur s.filters (fun i d => S i d + s.cache i d) ∧ (∀ i d, s.filters i ≤ d → S i d = 0) ∧
      (∀ i d, s.filters i ≤ d → s.cache i d = 0) := by
  intro s
  have hmem := newBlock_mem hb
  set fr := fv.filter (fun d => filters j ≤ d) with hfr
  have haf : after (filters j) fv = filters j + fr.length := rfl
  have hsf : ∀ i, s.filters i = if i = j then filters j + fr.length else filters i := fun i => rfl
  have hsc : s.cur = cur + fr.length := rfl
  have hsca : ∀ i, s.cache i = if i = j then assign (C j) fr cur else C i := fun i => rfl
  have hmono : ∀ i, filters i ≤ s.filters i := by
    intro i
    rw [hsf]
    split
    · next h => subst h; omega
    · omega
  have hold : ∀ i d, d < filters i → s.cache i d = C i d := by
    intro i d hd
    rw [hsca]
    split
    · next h =>
      subst h
      apply assign_notMem
      intro hm
      have := (hmem d).mp hm
      omega
    · rfl
  have hfresh : ∀ k (hk : k < fr.length), S j fr[k] + s.cache j fr[k] = cur + k := by
    intro k hk
    have h1 := (hmem fr[k]).mp (List.getElem_mem hk)
    rw [hS j _ h1.1, hsca, if_pos rfl, assign_getElem _ _ _ hb.1 k hk]
    omega
  have hnew : ∀ d, filters j ≤ d → d < filters j + fr.length → ∃ k, ∃ hk : k < fr.length, fr[k] = d := by
    intro d h1 h2
    exact List.getElem_of_mem ((hmem d).mpr ⟨h1, h2⟩)
  have hcase : ∀ i d, i < K → d < s.filters i →
      (d < filters i ∧ S i d + s.cache i d = S i d + C i d ∧ S i d + s.cache i d < cur) ∨
      (i = j ∧ ∃ k, ∃ hk : k < fr.length, fr[k] = d ∧ S i d + s.cache i d = cur + k) := by
    intro i d hi hd
    by_cases h : d < filters i
    · left
      refine ⟨h, by rw [hold i d h], ?_⟩
      rw [hold i d h]
      exact hI.lt i d hi h
    · right
      rw [hsf] at hd
      split at hd
      · next hij =>
        subst hij
        obtain ⟨k, hk, hkd⟩ := hnew d (by omega) hd
        exact ⟨rfl, k, hk, hkd, by rw [← hkd]; exact hfresh k hk⟩
      · omega
  refine ⟨⟨?_, ?_, ?_, ?_⟩, ?_, ?_⟩
  · rw [hsc, hI.cnt, ← Finset.add_sum_erase _ _ (Finset.mem_range.mpr hj),
      ← Finset.add_sum_erase (a := j) _ s.filters (Finset.mem_range.mpr hj)]
    have : ∑ x ∈ (Finset.range K).erase j, s.filters x = ∑ x ∈ (Finset.range K).erase j, filters x := by
      apply Finset.sum_congr rfl
      intro x hx
      rw [hsf, if_neg (Finset.ne_of_mem_erase hx)]
    rw [this, hsf, if_pos rfl]
    omega
  · intro i d hi hd
    rcases hcase i d hi hd with ⟨_, _, h⟩ | ⟨_, k, hk, _, h⟩
    · omega
    · omega
  · intro i i' d d' hi hi' hd hd' heq
    rcases hcase i d hi hd with ⟨h1, h2, h3⟩ | ⟨h1, k, hk, h2, h3⟩
    · rcases hcase i' d' hi' hd' with ⟨g1, g2, g3⟩ | ⟨g1, k', hk', g2, g3⟩
      · exact hI.inj i i' d d' hi hi' h1 g1 (by omega)
      · omega
    · rcases hcase i' d' hi' hd' with ⟨g1, g2, g3⟩ | ⟨g1, k', hk', g2, g3⟩
      · omega
      · have hkk : k = k' := by omega
        subst hkk
        exact ⟨h1.trans g1.symm, h2.symm.trans g2⟩
  · intro m hm
    by_cases h : m < cur
    · obtain ⟨i, d, h1, h2, h3⟩ := hI.surj m h
      refine ⟨i, d, h1, lt_of_lt_of_le h2 (hmono i), ?_⟩
      rw [hold i d h2]
      exact h3
    · have hk : m - cur < fr.length := by omega
      refine ⟨j, fr[m - cur], hj, ?_, ?_⟩
      · have := (hmem fr[m - cur]).mp (List.getElem_mem hk)
        rw [hsf, if_pos rfl]
        omega
      · rw [hfresh _ hk]
        omega
  · intro i d hd
    exact hS i d (le_trans (hmono i) hd)
  · intro i d hd
    rw [hsca]
    rw [hsf] at hd
    split at hd
    · next h =>
      subst h
      rw [if_pos rfl, assign_notMem]
      · exact hC i d (by omega)
      · intro hm
        have := (hmem d).mp hm
        omega
    · next h =>
      rw [if_neg h]
      exact hC i d hd

/-- what the loop keeps: the invariant, and zeros for the dofs not seen. -/
def Good (K : Nat) (S : Nat → Nat → Nat) (s : Seq) : Prop :=
  Inv K s.cur s.filters (fun i d => S i d + s.cache i d) ∧ (∀ i d, s.filters i ≤ d → S i d = 0) ∧
      (∀ i d, s.filters i ≤ d → s.cache i d = 0)

theorem seqElement_filters (s : Seq) (j : Nat) (vs : List (List Nat)) (i : Nat) :
    (seqElement s j vs).filters i
      = if j ≤ i ∧ i < j + vs.length then after (s.filters i) (vs.getD (i - j) []) else s.filters i := by
  induction vs generalizing s j with
  | nil => simp [seqElement]
  | cons v vs ih =>
    rw [seqElement, ih]
    by_cases hij : i = j
    · subst hij
      have : ¬ (i + 1 ≤ i ∧ i < i + 1 + vs.length) := by omega
      rw [if_neg this, if_pos (by simp)]
      simp [seqMember, after]
    · have e1 : (seqMember s j v).filters i = s.filters i := by simp [seqMember, hij]
      rw [e1]
      by_cases h : j + 1 ≤ i ∧ i < j + 1 + vs.length
      · rw [if_pos h, if_pos (by simp only [List.length_cons]; omega)]
        have : i - j = (i - (j + 1)) + 1 := by omega
        rw [this, List.getD_cons_succ]
      · rw [if_neg h, if_neg (by simp only [List.length_cons]; omega)]

theorem good_element {K : Nat} {S : Nat → Nat → Nat} {s : Seq} (hs : Good K S s) (j : Nat) (vs : List (List Nat))
    (hK : j + vs.length ≤ K) (hb : ∀ i (_ : i < vs.length), NewBlock (s.filters (j + i)) (vs.getD i [])) :
    Good K S (seqElement s j vs) := by
  induction vs generalizing s j with
  | nil => exact hs
  | cons v vs ih =>
    rw [seqElement]
    obtain ⟨h1, h2, h3⟩ := hs
    simp only [List.length_cons] at hK
    have hgood : Good K S (seqMember s j v) := by
      have := inv_member h1 h2 h3 j (by omega) v (by simpa using hb 0 (by simp))
      exact this
    apply ih hgood (j + 1) (by omega)
    intro i hi
    have := hb (i + 1) (by simp; omega)
    rw [List.getD_cons_succ] at this
    have e : (seqMember s j v).filters (j + 1 + i) = s.filters (j + (i + 1)) := by
      have : j + 1 + i ≠ j := by omega
      simp only [seqMember, if_neg this]
      congr 1
      omega
    rw [e]
    exact this

theorem good_rows {K : Nat} {S : Nat → Nat → Nat} (rows : List (List (List Nat))) {s : Seq} (hs : Good K S s)
    (hlen : ∀ vs ∈ rows, vs.length = K)
    (hb : ∀ j, j < K → BlockIntro (s.filters j) (rows.map (fun vs => vs.getD j []))) :
    Good K S (rows.foldl (fun s vs => seqElement s 0 vs) s) ∧
      ∀ j, j < K → (rows.foldl (fun s vs => seqElement s 0 vs) s).filters j
        = (rows.map (fun vs => vs.getD j [])).foldl after (s.filters j) := by
  induction rows generalizing s with
  | nil => exact ⟨hs, fun _ _ => rfl⟩
  | cons vs rows ih =>
    have hl : vs.length = K := hlen vs (by simp)
    have hf : ∀ j, j < K → (seqElement s 0 vs).filters j = after (s.filters j) (vs.getD j []) := by
      intro j hj
      rw [seqElement_filters, if_pos (by omega)]
      simp
    have hg : Good K S (seqElement s 0 vs) := by
      apply good_element hs 0 vs (by omega)
      intro i hi
      have := (hb i (by omega)).1
      simpa using this
    rw [List.foldl_cons]
    obtain ⟨r1, r2⟩ := ih hg (fun v hv => hlen v (by simp [hv])) (by
      intro j hj
      rw [hf j hj]
      exact (hb j hj).2)
    refine ⟨r1, ?_⟩
    intro j hj
    rw [r2 j hj, hf j hj]
    rfl

theorem mergeCaches_cons (c : Nat → Nat → Nat) (cs : List (Nat → Nat → Nat)) (j d : Nat) :
    mergeCaches (c :: cs) j d = c j d + mergeCaches cs j d := by
  simp [mergeCaches]

theorem good_ranks {K : Nat} (ranks : List (List (List (List Nat)))) :
    ∀ (cur : Nat) (filters : Nat → Nat) (S : Nat → Nat → Nat),
    Inv K cur filters S → (∀ i d, filters i ≤ d → S i d = 0) →
    (∀ rows ∈ ranks, ∀ vs ∈ rows, vs.length = K) →
    (∀ j, j < K → BlockIntro (filters j) (ranks.flatten.map (fun vs => vs.getD j []))) →
    ∃ cur' filters', Inv K cur' filters' (fun j d => S j d + mergeCaches (seqRanks cur filters ranks) j d) ∧
      ∀ j, j < K → filters' j = (ranks.flatten.map (fun vs => vs.getD j [])).foldl after (filters j) := by
  induction ranks with
  | nil =>
    intro cur filters S hI _ _ _
    exact ⟨cur, filters, by simpa [seqRanks, mergeCaches] using hI, fun _ _ => rfl⟩
  | cons rows ranks ih =>
    intro cur filters S hI hS hlen hb
    have hb' : ∀ j, j < K → BlockIntro (filters j) (rows.map (fun vs => vs.getD j [])) ∧
        BlockIntro ((rows.map (fun vs => vs.getD j [])).foldl after (filters j))
          (ranks.flatten.map (fun vs => vs.getD j [])) := by
      intro j hj
      have := hb j hj
      rw [List.flatten_cons, List.map_append, blockIntro_append] at this
      exact this
    have hg0 : Good K S ⟨cur, filters, fun _ _ => 0⟩ := ⟨by simpa using hI, hS, fun _ _ _ => rfl⟩
    obtain ⟨r1, r2⟩ := good_rows rows hg0 (hlen rows (by simp)) (fun j hj => (hb' j hj).1)
    set s := seqRank cur filters rows with hs
    have hs' : rows.foldl (fun s vs => seqElement s 0 vs) ⟨cur, filters, fun _ _ => 0⟩ = s := rfl
    rw [hs'] at r1 r2
    obtain ⟨h1, h2, h3⟩ := r1
    obtain ⟨cur', filters', g1, g2⟩ := ih s.cur s.filters (fun j d => S j d + s.cache j d) h1
      (fun i d hd => by rw [h2 i d hd, h3 i d hd])
      (fun rows hr => hlen rows (by simp [hr]))
      (fun j hj => by rw [r2 j hj]; exact (hb' j hj).2)
    refine ⟨cur', filters', ?_, ?_⟩
    · have e : (fun j d => S j d + mergeCaches (seqRanks cur filters (rows :: ranks)) j d)
          = fun j d => S j d + s.cache j d + mergeCaches (seqRanks s.cur s.filters ranks) j d := by
        funext j d
        rw [seqRanks, mergeCaches_cons]
        rw [← hs]
        omega
      rw [e]
      exact g1
    · intro j hj
      rw [g2 j hj, r2 j hj, List.flatten_cons, List.map_append, List.foldl_append]

/-- after all vectors, exactly the dofs below the count have been seen. -/
theorem after_mem (l : List (List Nat)) (c : Nat) (hb : BlockIntro c l) (d : Nat) :
    c ≤ l.foldl after c ∧ ((∃ v ∈ l, d ∈ v) → d < l.foldl after c) ∧
    (c ≤ d → d < l.foldl after c → ∃ v ∈ l, d ∈ v) := by
  induction l generalizing c with
  | nil =>
    refine ⟨le_refl _, by simp, ?_⟩
    intro h1 h2
    simp at h2
    omega
  | cons v l ih =>
    obtain ⟨hv, hl⟩ := hb
    obtain ⟨i1, i2, i3⟩ := ih (after c v) hl
    have hca : c ≤ after c v := by unfold after; omega
    rw [List.foldl_cons]
    refine ⟨le_trans hca i1, ?_, ?_⟩
    · rintro ⟨w, hw, hd⟩
      rcases List.mem_cons.mp hw with rfl | hw
      · exact lt_of_lt_of_le (hv.2 d hd) i1
      · exact i2 ⟨w, hw, hd⟩
    · intro h1 h2
      by_cases h : d < after c v
      · exact ⟨v, by simp, (List.mem_filter.mp ((newBlock_mem hv d).mpr ⟨h1, h⟩)).1⟩
      · obtain ⟨w, hw, hd⟩ := i3 (by omega) h2
        exact ⟨w, by simp [hw], hd⟩

end Mifem.Gath
