import Verif.Lemmas.Sequent
import Verif.Props.Gathering

/-!
# C02: the 'sequent' chain is a renumbering

The full property (`IsChainNumbering` for every accepted list of gathering matrices without gaps) is false of the code:
see `c02_counterexample`. It holds when every member numbering introduces its dofs in increasing blocks along the
elements (rank by rank), which is what the naive numbering does.
-/

namespace Mifem.Props
open Mifem.Gath

/-- the vectors of member `g` in the order in which the cores and their elements come. -/
def traversal (gms : List GM) (nR : Nat) (g : GM) : List (List Nat) :=
  (List.range nR).flatMap fun r => (elements (gms.headD []) r).map fun e => (getVec g r e).getD []

/-- After every element, the dofs met so far are exactly `0, ..., c-1` for some `c` (a downward closed set). -/
def GrowsInBlocks (vs : List (List Nat)) : Prop :=
  ∀ t d d', (∃ v ∈ vs.take t, d ∈ v) → d' < d → ∃ v ∈ vs.take t, d' ∈ v

/-- No vector has a dof twice. -/
def NoRepeat (g : GM) : Prop := ∀ r e v, getVec g r e = some v → v.Nodup

theorem blockIntro_of_grows (vs pre : List (List Nat)) (c : Nat)
    (hpre : ∀ d, (∃ v ∈ pre, d ∈ v) ↔ d < c) (hn : ∀ v ∈ vs, v.Nodup)
    (h : ∀ t, pre.length ≤ t → ∀ d d', (∃ v ∈ (pre ++ vs).take t, d ∈ v) → d' < d →
      ∃ v ∈ (pre ++ vs).take t, d' ∈ v) :
    BlockIntro c vs := by
  induction vs generalizing pre c with
  | nil => trivial
  | cons v vs ih =>
    have htake : (pre ++ v :: vs).take (pre.length + 1) = pre ++ [v] := by
      rw [List.take_append]
      simp
    have hcl : ∀ d d', d ∈ v → d' < d → c ≤ d' → d' ∈ v := by
      intro d d' hd hlt hc
      obtain ⟨w, hw, hdw⟩ := h (pre.length + 1) (by omega) d d'
        ⟨v, by rw [htake]; simp, hd⟩ hlt
      rw [htake] at hw
      rcases List.mem_append.mp hw with hw | hw
      · have := (hpre d').mp ⟨w, hw, hdw⟩
        omega
      · rw [List.mem_singleton] at hw
        rw [← hw]
        exact hdw
    have hnv : v.Nodup := hn v (by simp)
    have hNB : NewBlock c v := by
      refine ⟨hnv.filter _, ?_⟩
      intro d hd
      by_cases hdc : d < c
      · omega
      · have hsub : List.range' c (d - c + 1) ⊆ v.filter (fun d => c ≤ d) := by
          intro x hx
          rw [List.mem_range'_1] at hx
          rw [List.mem_filter]
          refine ⟨?_, by simpa using hx.1⟩
          by_cases hxd : x = d
          · rw [hxd]
            exact hd
          · exact hcl d x hd (by omega) hx.1
        have := (List.Nodup.subperm List.nodup_range' hsub).length_le
        simp only [List.length_range'] at this
        omega
    refine ⟨hNB, ?_⟩
    apply ih (pre ++ [v]) (after c v)
    · intro d
      constructor
      · rintro ⟨w, hw, hd⟩
        rcases List.mem_append.mp hw with hw | hw
        · have := (hpre d).mp ⟨w, hw, hd⟩
          unfold after
          omega
        · rw [List.mem_singleton] at hw
          subst hw
          exact hNB.2 d hd
      · intro hd
        by_cases hdc : d < c
        · obtain ⟨w, hw, hdw⟩ := (hpre d).mpr hdc
          exact ⟨w, by simp [hw], hdw⟩
        · have := (newBlock_mem hNB d).mpr ⟨by omega, hd⟩
          exact ⟨v, by simp, (List.mem_filter.mp this).1⟩
    · intro w hw
      exact hn w (by simp [hw])
    · intro t ht
      have := h t (by simp at ht; omega)
      simpa using this

/-- **C02, partial.** When every member introduces its dofs in increasing blocks along the elements, the sequent chain
numbers all (variable, dof) pairs without overlap and the numbers are exactly `0, ..., global_num_dofs - 1`. The full
property (any accepted members) does not hold. -/
theorem c02_sequent_partial {nR : Nat} {items : List Item} {c : Chain} (h : mkChain nR items = some c)
    (hwf : WellFormed nR c.gms) (hnd : ∀ g ∈ c.gms, NoRepeat g)
    (hgr : ∀ g ∈ c.gms, GrowsInBlocks (traversal c.gms nR g)) :
    IsChainNumbering c.gms c.total (c.getSequent nR) := by
  obtain ⟨hg, hse, hns, htba, htot⟩ := mkChain_spec h
  obtain ⟨hnslen, hnsget⟩ := (mapM_some_iff _ _ _).mp hns
  have hsame := sameElements_spec hse (fun g hg => (hwf g hg).1) (fun g hg => (hwf g hg).2)
  -- all lookups succeed
  have hall : ∀ r e, e ∈ elements (c.gms.headD []) r → ∀ g ∈ c.gms, ∃ v, getVec g r e = some v := by
    intro r e he g hg
    exact lookup_isSome ((hsame g hg r e).mp he)
  have hrows1 : ∀ r, ∃ rows, c.rows r = some rows := by
    intro r
    apply mapM_isSome
    intro e he
    exact mapM_isSome _ _ (hall r e he)
  obtain ⟨ranks, hranks⟩ := mapM_isSome c.rows (List.range nR) (fun r _ => hrows1 r)
  obtain ⟨hrl, hrg⟩ := (mapM_some_iff _ _ _).mp hranks
  have hrow : ∀ r (hr : r < ranks.length), ranks[r].length = (elements (c.gms.headD []) r).length ∧
      ∀ i (hi : i < ranks[r].length) (hi' : i < (elements (c.gms.headD []) r).length),
        ranks[r][i].length = c.gms.length ∧ ∀ j (hj : j < c.gms.length) (hj' : j < ranks[r][i].length),
          getVec c.gms[j] r (elements (c.gms.headD []) r)[i] = some ranks[r][i][j] := by
    intro r hr
    have h1 := hrg r (by omega) hr
    simp only [List.getElem_range] at h1
    obtain ⟨g1, g2⟩ := (mapM_some_iff _ _ _).mp h1
    refine ⟨g1, ?_⟩
    intro i hi hi'
    have h2 := g2 i hi' hi
    exact (mapM_some_iff _ _ _).mp h2
  have hK : ∀ rows ∈ ranks, ∀ vs ∈ rows, vs.length = c.gms.length := by
    intro rows hr vs hv
    obtain ⟨r, hr', rfl⟩ := List.getElem_of_mem hr
    obtain ⟨i, hi, rfl⟩ := List.getElem_of_mem hv
    exact ((hrow r hr').2 i hi (by rw [← (hrow r hr').1]; exact hi)).1
  have htrav : ∀ j (hj : j < c.gms.length),
      ranks.flatten.map (fun vs => vs.getD j []) = traversal c.gms nR c.gms[j] := by
    intro j hj
    unfold traversal
    rw [List.map_flatten, List.flatMap_def]
    congr 1
    apply List.ext_getElem
    · simp [hrl]
    · intro r h1 h2
      simp only [List.getElem_map, List.getElem_range]
      have hr : r < ranks.length := by simpa using h1
      apply List.ext_getElem
      · simp [(hrow r hr).1]
      · intro i g1 g2
        simp only [List.getElem_map]
        have hi : i < ranks[r].length := by simpa using g1
        have hi' : i < (elements (c.gms.headD []) r).length := by simpa using g2
        obtain ⟨k1, k2⟩ := (hrow r hr).2 i hi hi'
        have hjl : j < ranks[r][i].length := by omega
        rw [k2 j hj hjl]
        simp [List.getD, hjl]
  have hblock : ∀ j (hj : j < c.gms.length), BlockIntro 0 (traversal c.gms nR c.gms[j]) := by
    intro j hj
    apply blockIntro_of_grows _ [] 0
    · simp
    · intro v hv
      unfold traversal at hv
      obtain ⟨r, hr, hv⟩ := List.mem_flatMap.mp hv
      obtain ⟨e, he, rfl⟩ := List.mem_map.mp hv
      obtain ⟨w, hw⟩ := hall r e he _ (List.getElem_mem hj)
      rw [hw]
      exact hnd _ (List.getElem_mem hj) r e w hw
    · intro t _ d d'
      simpa using hgr _ (List.getElem_mem hj) t d d'
  obtain ⟨cur, filters, hI, hf⟩ := good_ranks (K := c.gms.length) ranks 0 (fun _ => 0) (fun _ _ => 0)
    (inv_zero _) (fun _ _ _ => rfl) hK (by
      intro j hj
      rw [htrav j hj]
      exact hblock j hj)
  set cache := mergeCaches (seqRanks 0 (fun _ => 0) ranks) with hcache
  simp only [Nat.zero_add] at hI
  -- occurring dofs are those below the filter
  have hocc : ∀ j (hj : j < c.gms.length) d, Occurs c.gms[j] d ↔ d < filters j := by
    intro j hj d
    rw [hf j hj, htrav j hj]
    obtain ⟨_, a2, a3⟩ := after_mem _ 0 (hblock j hj) d
    constructor
    · rintro ⟨r, e, v, hv, hd⟩
      apply a2
      refine ⟨v, ?_, hd⟩
      have hmem : e ∈ elements c.gms[j] r := List.mem_map.mpr ⟨(e, v), mem_of_lookup hv, rfl⟩
      have he := (hsame _ (List.getElem_mem hj) r e).mpr hmem
      have hr : r < nR := by
        by_contra hr
        have hl := (hwf _ (List.getElem_mem hj)).2
        have : elements c.gms[j] r = [] := by
          simp [elements, List.getD, List.getElem?_eq_none (by omega : c.gms[j].length ≤ r)]
        rw [this] at hmem
        simp at hmem
      unfold traversal
      refine List.mem_flatMap.mpr ⟨r, by simpa using hr, List.mem_map.mpr ⟨e, he, ?_⟩⟩
      rw [hv]
      rfl
    · intro hd
      obtain ⟨v, hv, hdv⟩ := a3 (Nat.zero_le _) hd
      unfold traversal at hv
      obtain ⟨r, _, hv⟩ := List.mem_flatMap.mp hv
      obtain ⟨e, he, rfl⟩ := List.mem_map.mp hv
      obtain ⟨w, hw⟩ := hall r e he _ (List.getElem_mem hj)
      rw [hw] at hdv
      exact ⟨r, e, w, hw, hdv⟩
  have hn : ∀ j (hj : j < c.gms.length), c.ns.getD j 0 = filters j := by
    intro j hj
    have e : c.ns.getD j 0 = c.ns[j]'(by omega) := by simp [List.getD, (by omega : j < c.ns.length)]
    obtain ⟨s1, s2, s3⟩ := globalNumDofs_spec (hwf _ (List.getElem_mem hj)).1 (hnsget j hj (by omega))
    rw [← e] at s1 s2 s3
    have b1 := (hocc j hj _).mp s2
    by_contra hne
    have : c.ns.getD j 0 < filters j := by omega
    have := s3 _ ((hocc j hj _).mpr this)
    omega
  have htotal : c.total = cur := by
    rw [(c01_total h).1, hI.cnt]
    have : ∀ l : List Nat, l.sum = ∑ j ∈ Finset.range l.length, l.getD j 0 := by
      intro l
      induction l using List.reverseRecOn with
      | nil => simp
      | append_singleton l a ih =>
        rw [List.length_append, List.length_singleton, Finset.sum_range_succ, List.sum_append, ih]
        congr 1
        · apply Finset.sum_congr rfl
          intro x hx
          rw [Finset.mem_range] at hx
          simp [List.getD, List.getElem?_append_left hx]
        · simp [List.getD]
    rw [this, hnslen]
    apply Finset.sum_congr rfl
    intro j hj
    exact hn j (Finset.mem_range.mp hj)
  refine ⟨cache, ?_, ?_, ?_, ?_⟩
  · intro g hg r e he
    have he0 := (hsame g hg r e).mpr he
    obtain ⟨ws, hws⟩ := mapM_isSome (fun g => getVec g r e) c.gms (hall r e he0)
    obtain ⟨hl, hget⟩ := (mapM_some_iff _ _ _).mp hws
    refine ⟨_, ?_, ws, hl, hget, rfl⟩
    unfold Chain.getSequent
    rw [hranks, hws]
    simp only [Option.bind_eq_bind, Option.bind_some, Option.pure_def, Option.some.injEq]
    congr 1
    apply List.map_congr_left
    rintro ⟨w, j⟩ hwj
    apply List.map_congr_left
    intro d hd
    rw [if_pos]
    obtain ⟨hjlt, hjw⟩ := List.mem_zipIdx' hwj
    rw [hjw] at hd
    have h1 := mem_of_lookup (hget j (by omega) hjlt)
    refine List.mem_flatMap.mpr ⟨(e, ws[j]), ?_, hd⟩
    have e2 : c.gms.getD j [] = c.gms[j] := by simp [List.getD, (by omega : j < c.gms.length)]
    rw [e2]
    exact h1
  · intro j j' d d' hj hj' ho ho' heq
    exact hI.inj j j' d d' hj hj' ((hocc j hj d).mp ho) ((hocc j' hj' d').mp ho') heq
  · intro j d hj ho
    rw [htotal]
    exact hI.lt j d hj ((hocc j hj d).mp ho)
  · intro m hm
    rw [htotal] at hm
    obtain ⟨j, d, hj, hd, heq⟩ := hI.surj m hm
    exact ⟨j, d, hj, (hocc j hj d).mpr hd, heq⟩

/-- Two variables on three elements over two cores satisfy the hypotheses. -/
def exS1 : GM := [[(0, [0, 1]), (1, [1, 2])], [(2, [2, 3])]]
def exS2 : GM := [[(0, [0]), (1, [1])], [(2, [2])]]

example : ∃ c, mkChain 2 [.gm "_2dCSCG" exS1, .gm "_2dCSCG" exS2] = some c ∧ c.total = 7 ∧
    c.getSequent 2 0 0 = some [0, 1, 2] ∧ c.getSequent 2 0 1 = some [1, 3, 4] ∧
    c.getSequent 2 1 2 = some [3, 5, 6] := by
  exact ⟨_, rfl, rfl, by decide, by decide, by decide⟩

example : GrowsInBlocks (traversal [exS1, exS2] 2 exS1) := by
  have : traversal [exS1, exS2] 2 exS1 = [[0, 1], [1, 2], [2, 3]] := by decide
  rw [this]
  intro t d d' h hlt
  rcases t with _ | _ | _ | t <;> simp_all <;> omega

/-- A member whose first element has dof 1 and whose second has dof 0: an accepted numbering without gaps. -/
def badS : GM := [[(0, [1]), (1, [0])]]

/-- **C02 is false in general**: the two dofs of the first member get the same number 0 (the second is never
renumbered), so the numbering is not injective. -/
theorem c02_counterexample : ∃ c, mkChain 1 [.gm "_2dCSCG" badS, .gm "_2dCSCG" badS] = some c ∧
    WellFormed 1 c.gms ∧ (∀ g ∈ c.gms, NoGap g) ∧ (∀ g ∈ c.gms, NoRepeat g) ∧
    ¬ IsChainNumbering c.gms c.total (c.getSequent 1) := by
  have hd : DictLike badS := by unfold DictLike; decide
  refine ⟨_, rfl, ?_, ?_, ?_, ?_⟩
  · intro g hg
    simp [Item.members, List.flatMap_cons] at hg
    subst hg
    exact ⟨hd, rfl⟩
  · intro g hg
    simp [Item.members, List.flatMap_cons] at hg
    subst hg
    intro d d' h hlt
    rw [occurs_iff hd] at *
    simp [allVecs, badS] at *
    omega
  · intro g hg
    simp [Item.members, List.flatMap_cons] at hg
    subst hg
    intro r e v hv
    have := mem_allVecs_of_getVec hv
    simp [allVecs, badS] at this
    rcases this with rfl | rfl <;> simp
  · rintro ⟨code, h1, h2, _, _⟩
    obtain ⟨v0, e0, ws0, l0, g0, q0⟩ := h1 badS (by simp [Item.members, List.flatMap_cons]) 0 0 (by decide)
    obtain ⟨v1, e1, ws1, l1, g1, q1⟩ := h1 badS (by simp [Item.members, List.flatMap_cons]) 0 1 (by decide)
    have f0 : v0 = [0, 1] := by
      have : some [0, 1] = some v0 := by rw [← e0]; decide
      simpa using this.symm
    have f1 : v1 = [0, 0] := by
      have : some [0, 0] = some v1 := by rw [← e1]; decide
      simpa using this.symm
    have w0 : ws0 = [[1], [1]] := by
      apply List.ext_getElem
      · rw [l0]; rfl
      · intro i hi hi'
        have := g0 i (by simpa [Item.members, List.flatMap_cons] using hi') hi
        simp at hi'
        rcases i with _ | _ | i
        · have k : some [1] = some ws0[0] := by rw [← this]; rfl
          simpa using k.symm
        · have k : some [1] = some ws0[1] := by rw [← this]; rfl
          simpa using k.symm
        · omega
    have w1 : ws1 = [[0], [0]] := by
      apply List.ext_getElem
      · rw [l1]; rfl
      · intro i hi hi'
        have := g1 i (by simpa [Item.members, List.flatMap_cons] using hi') hi
        simp at hi'
        rcases i with _ | _ | i
        · have k : some [0] = some ws1[0] := by rw [← this]; rfl
          simpa using k.symm
        · have k : some [0] = some ws1[1] := by rw [← this]; rfl
          simpa using k.symm
        · omega
    rw [f0, w0] at q0
    rw [f1, w1] at q1
    simp at q0 q1
    have := h2 0 0 1 0 (by simp [Item.members, List.flatMap_cons]) (by simp [Item.members, List.flatMap_cons])
      ((occurs_iff hd 1).mpr (by simp [allVecs, badS])) ((occurs_iff hd 0).mpr (by simp [allVecs, badS]))
      (by omega)
    omega

end Mifem.Props
