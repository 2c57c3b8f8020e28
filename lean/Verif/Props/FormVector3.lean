import Verif.Props.FormVector2

/-!
# C101, continued: the method 'sequent', accepted systems, and the direct solver
-/

namespace Mifem.Props.FV101
open Mifem.Gath Mifem.Cochain Mifem.FV Mifem.Props

variable {K : Type} [Field K] [DecidableEq K]

/-! ## The method 'sequent' -/

omit [DecidableEq K] in
theorem sum_single (n j : Nat) (hj : j < n) (w : Nat → K) (h : ∀ i, i < n → i ≠ j → w i = 0) : ((List.range n).map w).sum = w j := by
  induction n with
  | zero => omega
  | succ n ih =>
    rw [List.range_succ, List.map_append, List.sum_append, List.map_singleton, List.sum_singleton]
    by_cases hn : j = n
    · subst hn
      have : ((List.range j).map w).sum = 0 := by
        apply List.sum_eq_zero
        intro x hx
        obtain ⟨i, hi, rfl⟩ := List.mem_map.1 hx
        rw [List.mem_range] at hi
        exact h i (by omega) (by omega)
      rw [this, zero_add]
    · rw [ih (by omega) (fun i hi => h i (by omega)), h n (by omega) (by omega), add_zero]

theorem places_eq {g : GM} (hd : DictLike g) {nR : Nat} (hl : g.length = nR) (els : Nat → List Nat) (hnd : ∀ r, (els r).Nodup)
    (hs : ∀ r e, e ∈ els r ↔ e ∈ elements g r) (d : Nat) :
    ((List.range nR).map fun r => ((els r).map fun e => ((getVec g r e).getD []).count d).sum).sum = places g d := by
  have h1 : ∀ r, r < nR → ((els r).map fun e => ((getVec g r e).getD []).count d).sum =
      ((g.getD r []).map fun p => p.2.count d).sum := by
    intro r hr
    have hm : g.getD r [] ∈ g := by
      rw [List.getD_eq_getElem _ _ (by omega)]
      exact List.getElem_mem _
    have hp : (els r).Perm (elements g r) := (List.perm_ext_iff_of_nodup (hnd r) (hd _ hm)).2 (hs r)
    rw [(hp.map _).sum_eq]
    unfold elements
    rw [List.map_map]
    congr 1
    apply List.map_congr_left
    intro p hpm
    have : getVec g r p.1 = some p.2 := lookup_of_nodup (hd _ hm) hpm
    simp [this]
  have h2 : ((List.range nR).map fun r => ((els r).map fun e => ((getVec g r e).getD []).count d).sum) =
      g.map fun l => (l.map fun p => p.2.count d).sum := by
    apply List.ext_getElem
    · simp [hl]
    · intro r a b
      have hr : r < nR := by simpa using a
      rw [List.getElem_map, List.getElem_map, List.getElem_range, h1 r hr, List.getD_eq_getElem _ _ (by omega)]
  rw [h2]
  unfold places allVecs
  rw [List.count_flatten, List.map_map, List.map_flatten, List.sum_flatten, List.map_map]
  rfl

/-- the assembled vector. -/
theorem assembled_eq {nR : Nat} {fs : List (Form K)} {get : Nat → Nat → Option (List Nat)} {code : Nat → Nat → Nat}
    (hch : Chains nR fs get code) (hp : ∀ f ∈ fs, Proper f)
    (hinj : ∀ j j' d d', ∀ (h : j < fs.length) (h' : j' < fs.length), Occurs fs[j].gm d → Occurs fs[j'].gm d' →
      code j d = code j' d' → j = j' ∧ d = d')
    (c : Nat → Nat → K) (hc : ∀ j, ∀ h : j < fs.length, Coeffs fs[j] (c j)) :
    ∃ ps, contributions get ((fs.map Form.gm).headD []) fs = some ps ∧ ∀ j d, ∀ h : j < fs.length, Occurs fs[j].gm d →
      (ps.map fun p => if p.1 = code j d then p.2 else 0).sum = (places fs[j].gm d : K) * c j d := by
  refine ⟨_, contributions_eq hch hp c hc, ?_⟩
  intro j d hj ho
  rw [sum_flatMap]
  have hone : ∀ r e, (((List.range fs.length).flatMap fun j' => (vecAt (fs.map Form.gm) j' r e).map fun x => (code j' x, c j' x)).map
      fun p : Nat × K => if p.1 = code j d then p.2 else 0).sum = ((getVec fs[j].gm r e).getD []).count d * c j d := by
    intro r e
    rw [sum_flatMap, sum_single fs.length j hj]
    · rw [List.map_map]
      have := sum_ite_count (vecAt (fs.map Form.gm) j r e) (code j) d (c j) (by
        intro x hx hxd
        have hox := occurs_of_vecAt (gms := fs.map Form.gm) (by simpa using hj) hx
        rw [List.getElem_map] at hox
        exact (hinj j j x d hj hj hox ho hxd).2)
      unfold vecAt at this ⊢
      rw [List.getD_eq_getElem _ _ (by simpa using hj), List.getElem_map] at this ⊢
      exact this
    · intro i hi hij
      apply List.sum_eq_zero
      intro x hx
      rw [List.map_map] at hx
      obtain ⟨y, hy, rfl⟩ := List.mem_map.1 hx
      have hox := occurs_of_vecAt (gms := fs.map Form.gm) (by simpa using hi) hy
      rw [List.getElem_map] at hox
      simp only [Function.comp_apply]
      rw [if_neg]
      intro h
      exact hij (hinj i j y d hi hj hox ho h).1
  have hf := List.getElem_mem hj
  obtain ⟨f0, fs', hfs⟩ := List.exists_cons_of_ne_nil hch.ne
  have hd0 : ∀ r, (elements ((fs.map Form.gm).headD []) r).Nodup := by
    intro r
    unfold elements
    by_cases hr : r < f0.gm.length
    · have : ((fs.map Form.gm).headD []).getD r [] ∈ f0.gm := by
        rw [hfs]
        simp only [List.map_cons, List.headD_cons]
        rw [List.getD_eq_getElem _ _ hr]
        exact List.getElem_mem _
      exact (hp f0 (by rw [hfs]; simp)).dict _ this
    · have : ((fs.map Form.gm).headD []).getD r [] = [] := by
        rw [hfs]
        simp only [List.map_cons, List.headD_cons]
        exact List.getD_eq_default _ _ (by omega)
      rw [this]
      simp
  have := places_eq (hp _ hf).dict (hch.cores _ hf) (elements ((fs.map Form.gm).headD [])) hd0 (hch.same _ hf) d
  rw [← this]
  push_cast
  rw [← List.sum_map_mul_right]
  congr 1
  simp only [List.map_map]
  apply List.map_congr_left
  intro r _
  rw [sum_flatMap, Function.comp_apply, Nat.cast_list_sum, List.map_map, ← List.sum_map_mul_right]
  congr 1
  apply List.map_congr_left
  intro e _
  exact hone r e

theorem getElem_gms {fs : List (Form K)} {gms : List GM} (h : gms = fs.map Form.gm) {j : Nat} (hj : j < gms.length)
    (hj' : j < fs.length) : gms[j] = fs[j].gm := by
  subst h
  rw [List.getElem_map]

/-- the numbers in the chain with the method 'sequent'. -/
theorem sequent_numbering {nR : Nat} {fs : List (Form K)} {c : Chain} (h : chainOf nR fs = some c) (hp : ∀ f ∈ fs, Proper f)
    (hR : ∀ f ∈ fs, f.gm.length = nR) (hnr : ∀ f ∈ fs, NoRepeat f.gm)
    (hgr : ∀ f ∈ fs, GrowsInBlocks (traversal (fs.map Form.gm) nR f.gm)) :
    IsChainNumbering c.gms c.total (chainGet nR .sequent c) := by
  have hg := chainOf_gms h
  have hmem : ∀ g ∈ c.gms, ∃ f ∈ fs, f.gm = g := by
    intro g hgm
    rw [hg] at hgm
    exact List.mem_map.1 hgm
  have hwf := wellFormed_of h hp hR
  by_cases h1 : c.gms.length = 1
  · have h2 : chainGet nR .sequent c = c.get := by
      funext r e
      unfold chainGet
      simp only [if_pos h1]
    rw [h2]
    apply c01_silly_chain h hwf
    intro g hgm
    obtain ⟨f, hf, rfl⟩ := hmem g hgm
    exact (hp f hf).gap
  · have h2 : chainGet nR .sequent c = c.getSequent nR := by
      funext r e
      unfold chainGet
      simp only [if_neg h1]
    rw [h2]
    apply c02_sequent_partial h hwf
    · intro g hgm
      obtain ⟨f, hf, rfl⟩ := hmem g hgm
      exact hnr f hf
    · intro g hgm
      obtain ⟨f, hf, rfl⟩ := hmem g hgm
      rw [hg]
      exact hgr f hf

/-- **The method 'sequent'.** The numbers of the dofs of different forms are different; distributing gives every form the
entries at its numbers; the vector of the forms has at these numbers the coefficients *times the number of places where the
dof is*. Missing: numberings that do not grow in blocks, for which the numbers of a chain may collide (C02). -/
theorem c101_sequent_partial (nR : Nat) (fs : List (Form K)) (hp : ∀ f ∈ fs, Proper f) (hR : ∀ f ∈ fs, f.gm.length = nR)
    (hnr : ∀ f ∈ fs, NoRepeat f.gm) (hgr : ∀ f ∈ fs, GrowsInBlocks (traversal (fs.map Form.gm) nR f.gm)) (c : Chain)
    (h : chainOf nR fs = some c) :
    ∃ code : Nat → Nat → Nat,
      (∀ j j' d d', ∀ (h : j < fs.length) (h' : j' < fs.length), Occurs fs[j].gm d → Occurs fs[j'].gm d' →
        code j d = code j' d' → j = j' ∧ d = d') ∧
      (∀ j d, ∀ h : j < fs.length, Occurs fs[j].gm d → code j d < (fs.map Form.n).sum) ∧
      (∀ W : List K, (fs.map Form.n).sum ≤ W.length → ∃ fs', distSequent nR W fs = some fs' ∧ Received code W fs fs') ∧
      ∀ cs : Nat → Nat → K, (∀ j, ∀ h : j < fs.length, Coeffs fs[j] (cs j)) → ∃ V, ofFormsSequent nR fs = some V ∧
        V.length = (fs.map Form.n).sum ∧ ∀ j d, ∀ h : j < fs.length, Occurs fs[j].gm d →
          V.getD (code j d) 0 = (places fs[j].gm d : K) * cs j d := by
  have hg := chainOf_gms h
  have htot : c.total = (fs.map Form.n).sum := by rw [(c01_total h).1, chainOf_ns h hp]
  obtain ⟨code, hget, hinj, hlt, _⟩ := sequent_numbering h hp hR hnr hgr
  have hch := chains_of h hp hR hget
  have hlen : c.gms.length = fs.length := by rw [hg, List.length_map]
  have hinj' : ∀ j j' d d', ∀ (h : j < fs.length) (h' : j' < fs.length), Occurs fs[j].gm d → Occurs fs[j'].gm d' →
      code j d = code j' d' → j = j' ∧ d = d' := by
    intro j j' d d' hj hj' ho ho'
    exact hinj j j' d d' (by omega) (by omega) (by rwa [getElem_gms hg _ hj]) (by rwa [getElem_gms hg _ hj'])
  have hlt' : ∀ j d, ∀ h : j < fs.length, Occurs fs[j].gm d → code j d < (fs.map Form.n).sum := by
    intro j d hj ho
    rw [← htot]
    exact hlt j d (by omega) (by rwa [getElem_gms hg _ hj])
  refine ⟨code, hinj', hlt', ?_, ?_⟩
  · intro W hW
    obtain ⟨fs', h1, h2⟩ := distAll hch hp (V := W) (fun j d hj ho => lt_of_lt_of_le (hlt' j d hj ho) hW)
    refine ⟨fs', ?_, h2⟩
    unfold distSequent distChain
    rw [h, Option.bind_some, if_pos hlen, hg]
    exact h1
  · intro cs hcs
    obtain ⟨ps, h1, h2⟩ := assembled_eq hch hp hinj' cs hcs
    refine ⟨(List.range c.total).map fun d => (ps.map fun p => if p.1 = d then p.2 else 0).sum, ?_, ?_, ?_⟩
    · unfold ofFormsSequent
      rw [h, Option.bind_some, hg, h1]
      rfl
    · simp [htot]
    · intro j d hj ho
      rw [List.getD_eq_getElem _ _ (by simpa [htot] using hlt' j d hj ho), List.getElem_map, List.getElem_range]
      exact h2 j d hj ho

/-- **Round trip with the method 'sequent'.** Making the vector of the forms and distributing it again multiplies every
coefficient with the number of places where the dof is, so it gives back the coefficients of hybrid forms and of forms of the
highest degree. -/
theorem c101_sequent_roundtrip_partial (nR : Nat) (fs : List (Form K)) (hp : ∀ f ∈ fs, Proper f)
    (hR : ∀ f ∈ fs, f.gm.length = nR) (hnr : ∀ f ∈ fs, NoRepeat f.gm)
    (hgr : ∀ f ∈ fs, GrowsInBlocks (traversal (fs.map Form.gm) nR f.gm)) (c : Chain) (h : chainOf nR fs = some c)
    (cs : Nat → Nat → K) (hcs : ∀ j, ∀ h : j < fs.length, Coeffs fs[j] (cs j)) :
    ∃ V fs', ofFormsSequent nR fs = some V ∧ distSequent nR V fs = some fs' ∧ fs'.length = fs.length ∧
      ∀ j (h : j < fs.length) (h' : j < fs'.length), ∃ loc, fs'[j] = { fs[j] with loc := some loc } ∧
        Agree fs[j].gm loc (fun d => (places fs[j].gm d : K) * cs j d) ∧
        ((∀ d, Occurs fs[j].gm d → places fs[j].gm d = 1) → Agree fs[j].gm loc (cs j)) := by
  obtain ⟨code, _, _, hd, hv⟩ := c101_sequent_partial nR fs hp hR hnr hgr c h
  obtain ⟨V, h1, h2, h3⟩ := hv cs hcs
  obtain ⟨fs', h4, h5, h6⟩ := hd V (by omega)
  refine ⟨V, fs', h1, h4, h5, ?_⟩
  intro j hj hj'
  obtain ⟨loc, hl, ha⟩ := h6 j hj hj'
  have hcongr : ∀ c' : Nat → K, (∀ d, Occurs fs[j].gm d → V.getD (code j d) 0 = c' d) → Agree fs[j].gm loc c' := by
    intro c' hc'
    unfold Agree at ha ⊢
    rw [List.forall₂_iff_get] at ha ⊢
    refine ⟨ha.1, ?_⟩
    intro r a b p hpm
    rw [ha.2 r a b p hpm]
    congr 1
    apply List.map_congr_left
    intro d hdp
    apply hc'
    rw [occurs_iff (hp _ (List.getElem_mem hj)).dict]
    exact ⟨p.2, List.mem_map.2 ⟨p, List.mem_flatten.2 ⟨_, List.getElem_mem a, by simpa using hpm⟩, rfl⟩, hdp⟩
  refine ⟨loc, hl, hcongr _ fun d ho => h3 j d hj ho, ?_⟩
  intro hpl
  apply hcongr
  intro d ho
  rw [h3 j d hj ho, hpl d ho, Nat.cast_one, one_mul]

/-! ## Which systems are accepted -/

theorem gmEq_mem {g h : GM} (he : gmEq g h = some true) {r : Nat} (hr : r < g.length) :
    (g.getD r []).length = (h.getD r []).length ∧ ∀ p ∈ g.getD r [], (h.getD r []).lookup p.1 = some p.2 := by
  unfold gmEq at he
  obtain ⟨bs, hbs, hall⟩ := Option.map_eq_some_iff.1 he
  rw [Gath.mapM_some_iff] at hbs
  obtain ⟨hl, hb⟩ := hbs
  have hrb : r < bs.length := by simpa [hl] using hr
  have hb := hb r (by simpa using hr) hrb
  have hbt : bs[r] = true := by
    rw [List.all_eq_true] at hall
    exact hall _ (List.getElem_mem _)
  rw [hbt, List.getElem_range] at hb
  split at hb
  · simp at hb
  · rename_i hlen
    refine ⟨not_not.1 hlen, ?_⟩
    obtain ⟨ls, hls, hla⟩ := Option.map_eq_some_iff.1 hb
    intro p hp
    obtain ⟨i, hi, rfl⟩ := List.getElem_of_mem hp
    rw [Gath.mapM_some_iff] at hls
    have hi' : i < ls.length := by rw [hls.1]; exact hi
    have := hls.2 i hi hi'
    rw [List.all_eq_true] at hla
    have ht : ls[i] = true := hla _ (List.getElem_mem hi')
    rw [ht] at this
    obtain ⟨v, hv, hv2⟩ := Option.map_eq_some_iff.1 this
    rw [hv]
    simpa using (of_decide_eq_true hv2).symm

/-- gathering matrices that are equal for the library have the same vectors. -/
theorem gmEq_spec {g h : GM} (he : gmEq g h = some true) (hd : DictLike g) (hd' : DictLike h) (hl : g.length = h.length)
    (r e : Nat) : getVec g r e = getVec h r e := by
  by_cases hr : r < g.length
  · obtain ⟨h1, h2⟩ := gmEq_mem he hr
    have m1 : g.getD r [] ∈ g := by rw [List.getD_eq_getElem _ _ hr]; exact List.getElem_mem _
    have m2 : h.getD r [] ∈ h := by rw [List.getD_eq_getElem _ _ (by omega)]; exact List.getElem_mem _
    unfold getVec
    have hsub : (g.getD r []).map Prod.fst ⊆ (h.getD r []).map Prod.fst := by
      intro k hk
      obtain ⟨p, hp, rfl⟩ := List.mem_map.1 hk
      exact List.mem_map.2 ⟨_, mem_of_lookup (h2 p hp), rfl⟩
    have hperm := (List.subperm_of_subset (hd _ m1) hsub).perm_of_length_le (by rw [List.length_map, List.length_map, h1])
    by_cases hm : e ∈ (g.getD r []).map Prod.fst
    · obtain ⟨p, hp, rfl⟩ := List.mem_map.1 hm
      rw [h2 p hp]
      exact lookup_of_nodup (hd _ m1) hp
    · have hm' : e ∉ (h.getD r []).map Prod.fst := fun h => hm (hperm.mem_iff.2 h)
      have hn : ∀ l : LocalGM, e ∉ l.map Prod.fst → l.lookup e = none := by
        intro l hl
        rw [List.lookup_eq_none_iff]
        intro p hp
        simpa using fun h => hl (List.mem_map.2 ⟨p, hp, h.symm⟩)
      rw [hn _ hm, hn _ hm']
  · unfold getVec
    rw [List.getD_eq_default _ _ (by omega), List.getD_eq_default _ _ (by omega)]

theorem numDofs_eq {g h : GM} (hd : DictLike g) (hd' : DictLike h) (he : ∀ r e, getVec g r e = getVec h r e) {n m : Nat}
    (hn : globalNumDofs g = some n) (hm : globalNumDofs h = some m) : n = m := by
  obtain ⟨a0, a1, a2⟩ := globalNumDofs_spec hd hn
  obtain ⟨b0, b1, b2⟩ := globalNumDofs_spec hd' hm
  have e1 : Occurs h (n - 1) := by
    obtain ⟨r, e, v, hv, hx⟩ := a1
    exact ⟨r, e, v, by rw [← he, hv], hx⟩
  have e2 : Occurs g (m - 1) := by
    obtain ⟨r, e, v, hv, hx⟩ := b1
    exact ⟨r, e, v, by rw [he, hv], hx⟩
  have := b2 _ e1
  have := a2 _ e2
  omega

/-- **Accepted systems.** If `LinearSystem(A, b)` accepts the chains of `A` and `b` and both number by 'silly', they give
every dof the same number. Missing: the method 'sequent' (see the next theorem). -/
theorem c101_accepted_system_partial {nR : Nat} {is is' : List Item} {a b : Chain} (ha : mkChain nR is = some a)
    (hb : mkChain nR is' = some b) (hwa : WellFormed nR a.gms) (hwb : WellFormed nR b.gms)
    (h : cgmEq ⟨a, .silly⟩ ⟨b, .silly⟩ = some true) :
    a.total = b.total ∧ ∀ r e, chainGet nR .silly a r e = chainGet nR .silly b r e := by
  unfold cgmEq at h
  simp only at h
  split at h
  · simp at h
  · rename_i hlen
    have hlen : a.gms.length = b.gms.length := not_not.1 hlen
    obtain ⟨ls, hls, hla⟩ := Option.map_eq_some_iff.1 h
    rw [Gath.mapM_some_iff] at hls
    rw [List.all_eq_true] at hla
    have hv : ∀ i (h : i < a.gms.length) (h' : i < b.gms.length), ∀ r e, getVec a.gms[i] r e = getVec b.gms[i] r e := by
      intro i h1 h2 r e
      have hi : i < (a.gms.zip b.gms).length := by simp; omega
      have hil : i < ls.length := by rw [hls.1]; exact hi
      have := hls.2 i hi hil
      rw [List.getElem_zip, show ls[i] = true from hla _ (List.getElem_mem hil)] at this
      obtain ⟨d1, l1⟩ := hwa _ (List.getElem_mem h1)
      obtain ⟨d2, l2⟩ := hwb _ (List.getElem_mem h2)
      exact gmEq_spec this d1 d2 (l1.trans l2.symm) r e
    obtain ⟨_, _, hna, htba, hta⟩ := mkChain_spec ha
    obtain ⟨_, _, hnb, htbb, htb⟩ := mkChain_spec hb
    have hns : a.ns = b.ns := by
      rw [Gath.mapM_some_iff] at hna hnb
      apply List.ext_getElem
      · rw [hna.1, hnb.1, hlen]
      · intro i h1 h2
        have i1 : i < a.gms.length := by rw [← hna.1]; exact h1
        have i2 : i < b.gms.length := by omega
        exact numDofs_eq (hwa _ (List.getElem_mem i1)).1 (hwb _ (List.getElem_mem i2)).1 (hv i i1 i2) (hna.2 i i1 h1) (hnb.2 i i2 h2)
    refine ⟨by rw [(c01_total ha).1, (c01_total hb).1, hns], ?_⟩
    intro r e
    have hm : a.gms.mapM (fun g => getVec g r e) = b.gms.mapM (fun g => getVec g r e) := by
      have : a.gms.map (fun g => getVec g r e) = b.gms.map (fun g => getVec g r e) := by
        apply List.ext_getElem
        · simp [hlen]
        · intro i h1 h2
          simp only [List.getElem_map]
          exact hv i (by simpa using h1) (by simpa using h2) r e
      have hgen : ∀ l : List GM, l.mapM (fun g => getVec g r e) = (l.map fun g => getVec g r e).mapM id := by
        intro l
        rw [List.mapM_map]
        rfl
      rw [hgen, hgen, this]
    show a.get r e = b.get r e
    unfold Chain.get
    rw [hm, htba, htbb, hns, ← hlen]
    by_cases h1 : a.gms.length = 1
    · rw [if_pos h1, if_pos h1]
      obtain ⟨x, hx⟩ := List.length_eq_one_iff.1 h1
      obtain ⟨y, hy⟩ := List.length_eq_one_iff.1 (hlen ▸ h1)
      have := hv 0 (by omega) (by omega) r e
      simp only [hx, hy] at this ⊢
      simpa using this
    · rw [if_neg h1, if_neg h1]

/-- a form with two elements that share a dof. -/
def exG : GM := [[(0, [0, 1]), (1, [1, 2])]]

/-- **Accepted systems, the exception.** `==` of chains does not look at the method: a system whose matrix is numbered by
'sequent' and whose vector is numbered by 'silly' is accepted, though the same dofs have different numbers. -/
theorem c101_accepted_system_fails : ∃ c, mkChain 1 [.gm "" exG, .gm "" exG] = some c ∧
    cgmEq ⟨c, .sequent⟩ ⟨c, .silly⟩ = some true ∧
    chainGet 1 .sequent c 0 0 = some [0, 1, 2, 3] ∧ chainGet 1 .silly c 0 0 = some [0, 1, 3, 4] :=
  ⟨_, rfl, by decide +kernel, by decide +kernel, by decide +kernel⟩

/-- a form on `exG` with the coefficients 5, 6, 7. -/
def exF : Form ℚ := ⟨exG, 3, 2, false, some [[(0, [5, 6]), (1, [6, 7])]]⟩

/-- **The exception of the method 'sequent'.** The vector of a form of which two elements share a dof has the sum of the
values of both elements there, though the method 'silly' (which numbers a single form in the same way) has the value; the
round trip changes the cochain. -/
theorem c101_sequent_fails : ofFormsSequent 1 [exF] = some [5, 12, 7] ∧ ofForms true [exF] = some [5, 6, 7] ∧
    (distSequent 1 [5, 12, 7] [exF]).map (fun fs => fs.map fun f => f.loc.map List.flatten) =
      some [some [(0, [5, 12]), (1, [12, 7])]] := by
  refine ⟨by decide +kernel, by decide +kernel, by decide +kernel⟩

/-! ## The direct solver -/
section direct
open Mifem.GlobalLA

variable {R : Type} [CommSemiring R]

/-- the routine solves: what it returns has the right length and satisfies the equations. -/
def Solves (spsolve : GlobalLA.Sp R → (Nat → R) → Option (List R)) : Prop :=
  ∀ M v x, spsolve M v = some x → x.length = M.n ∧
    ∀ r, r < M.m → ((List.range M.n).map fun c => M.at r c * x.getD c 0).sum = v r

/-- the equations of the assembled system. -/
def Satisfied (A : List (GlobalLA.Sp R)) (b : List (SpVec R)) (m n : Nat) (x : List R) : Prop :=
  ∀ r, r < m → ((List.range n).map fun c => repM A r c * x.getD c 0).sum = repV b r

theorem sumParts_shape (l : List (GlobalLA.Sp R)) (m n : Nat) (h : ∀ M ∈ l, M.m = m ∧ M.n = n) {S : GlobalLA.Sp R}
    (hS : sumParts l = some S) : S.m = m ∧ S.n = n := by
  cases l with
  | nil => simp [sumParts] at hS
  | cons C l =>
    have hgen : ∀ (l : List (GlobalLA.Sp R)) (C S : GlobalLA.Sp R),
        l.foldl (fun C M => match C with | none => some M | some C => some (C.add M)) (some C) = some S → S.m = C.m ∧ S.n = C.n := by
      intro l
      induction l with
      | nil =>
        intro C S h
        simp only [List.foldl_nil, Option.some.injEq] at h
        rw [h]
        exact ⟨rfl, rfl⟩
      | cons M l ih =>
        intro C S h
        rw [List.foldl_cons] at h
        exact ih (C.add M) S h
    obtain ⟨h1, h2⟩ := hgen l C S hS
    obtain ⟨h3, h4⟩ := h C (by simp)
    exact ⟨h1.trans h3, h2.trans h4⟩

theorem gatherM_shape {A : List (GlobalLA.Sp R)} {m n : Nat} {f : Fmt} (hA : Shaped A m n) (hfmt : ∀ M ∈ A, M.fmt = f)
    (hl : f ≠ .lil) {clean : Bool} {factor : Nat} {ret kept : List (GlobalLA.Sp R)}
    (h : gatherM 0 clean factor A = some (ret, kept)) : ∀ M ∈ ret, M.m = m ∧ M.n = n := by
  have hsh : ∀ M ∈ A, M.m = m ∧ M.n = n := fun M hM => ⟨(hA.2 M hM).1, (hA.2 M hM).2.1⟩
  have hone : ∀ (S : GlobalLA.Sp R) (g : Fmt), S.m = m ∧ S.n = n →
      ∀ M ∈ (List.range A.length).map (fun i => if i = 0 then S else (⟨g, S.m, S.n, []⟩ : GlobalLA.Sp R)), M.m = m ∧ M.n = n := by
    intro S g hS M hM
    obtain ⟨i, _, rfl⟩ := List.mem_map.1 hM
    split <;> exact hS
  unfold gatherM at h
  split at h
  · simp only [Option.some.injEq, Prod.mk.injEq] at h
    rw [← h.1]
    exact hsh
  · split at h
    · simp at h
    · rename_i hfac
      split at h
      · obtain ⟨L, hL, hLL⟩ := Option.map_eq_some_iff.1 h
        simp only [Prod.mk.injEq] at hLL
        rw [← hLL.1]
        split at hL
        · obtain ⟨S, hS, rfl⟩ := Option.map_eq_some_iff.1 hL
          exact hone S _ (sumParts_shape A m n hsh hS)
        · rw [if_neg (by simp)] at hL
          cases A with
          | nil => simp at hL
          | cons A0 As =>
            simp only at hL
            rw [Gath.mapM_some_iff] at hL
            intro M hM
            obtain ⟨i, hi, rfl⟩ := List.getElem_of_mem hM
            have hi' : i < (A0 :: As).length := by simpa [hL.1] using hi
            have h1 := hL.2 i (by simpa using hi') hi
            rw [List.getElem_range] at h1
            obtain ⟨D, hD, hm, hn, _⟩ := treeGather_spec (A0 :: As).length factor m n f
              (fun i => (A0 :: As).getD i ⟨.csr, A0.m, A0.n, []⟩) (by omega) hl (by
                intro k hk
                rw [List.getD_eq_getElem _ _ hk]
                have hmem := List.getElem_mem hk
                obtain ⟨a1, a2, a3⟩ := hA.2 _ hmem
                refine ⟨hfmt _ hmem, a1, a2, ?_⟩
                intro e he
                rw [a1, a2]
                exact a3 e he) (Comm.TREE (A0 :: As).length).length i hi'
            rw [h1, Option.some.injEq] at hD
            rw [hD]
            exact ⟨hm, hn⟩
      · obtain ⟨S, hS, hLL⟩ := Option.map_eq_some_iff.1 h
        simp only [Prod.mk.injEq] at hLL
        rw [← hLL.1]
        exact hone S _ (sumParts_shape A m n hsh hS)

/-- **Direct solving.** If the routine of scipy solves what it is given, the vector that is returned satisfies the assembled
system, whatever `COD` and the splitting factor are; `info` is 0. With `COD=False` the system is unchanged; otherwise the
system keeps its matrix but loses its right-hand side, so a second call raises an error. -/
theorem c101_direct (A : List (GlobalLA.Sp R)) (b : List (SpVec R)) (m n : Nat) (f : Fmt) (hA : Shaped A m n)
    (hfmt : ∀ M ∈ A, M.fmt = f) (hl : f ≠ .lil) (spsolve : GlobalLA.Sp R → (Nat → R) → Option (List R)) (hs : Solves spsolve)
    (factor : Nat) (cod : Option Bool) (x : List R) (info : Nat) (s : Sys R)
    (h : direct spsolve factor cod ⟨A, some b⟩ = some (x, info, s)) :
    info = 0 ∧ x.length = n ∧ Satisfied A b m n x ∧ (∀ r c, repM s.A r c = repM A r c) ∧
      (cod = some false → s = ⟨A, some b⟩) ∧ (cod ≠ some false → ∀ cod', direct spsolve factor cod' s = none) := by
  unfold direct at h
  simp only [Option.bind_some] at h
  obtain ⟨⟨ret, kept⟩, hg, h⟩ := Option.bind_eq_some_iff.1 h
  obtain ⟨M, hM, h⟩ := Option.bind_eq_some_iff.1 h
  obtain ⟨b0, hb, h⟩ := Option.bind_eq_some_iff.1 h
  split at h
  · obtain ⟨x', hx, h⟩ := Option.map_eq_some_iff.1 h
    simp only [Prod.mk.injEq] at h
    obtain ⟨rfl, rfl, rfl⟩ := h
    have hcore : 0 < A.length := List.length_pos_iff.2 hA.1
    obtain ⟨-, hgs⟩ := c45_gather A m n f hA hfmt hl 0 hcore (cod.getD true) factor
    obtain ⟨_, hat, _, ⟨_, hkept⟩, hclean⟩ := hgs ret kept hg
    rw [List.head?_eq_getElem?] at hM
    simp only at hM
    have hMat := hat M hM
    obtain ⟨hm, hn⟩ := gatherM_shape hA hfmt hl hg M (List.mem_of_getElem? hM)
    obtain ⟨hxl, hxe⟩ := hs M _ x' hx
    refine ⟨rfl, by rw [hxl, hn], ?_, hkept, ?_, ?_⟩
    · intro r hr
      have := hxe r (by omega)
      rw [hn, (c27_global b r).1] at this
      rw [← this]
      simp only [hMat]
    · rintro rfl
      have := hclean rfl
      rw [this]
      rfl
    · intro hc cod'
      have : cod.getD true = true := by
        cases cod with
        | none => rfl
        | some v => cases v <;> simp_all
      simp only [this, if_true]
      rfl
  · simp at h

/-- The direct solver is available: no error if the splitting factor is positive, the shapes agree, and the routine of scipy
solves with the assembled matrix. -/
theorem c101_direct_accepted (A : List (GlobalLA.Sp R)) (b : List (SpVec R)) (m n : Nat) (f : Fmt) (hA : Shaped A m n)
    (hfmt : ∀ M ∈ A, M.fmt = f) (hl : f ≠ .lil) (spsolve : GlobalLA.Sp R → (Nat → R) → Option (List R))
    (hb : b ≠ []) (hbn : ∀ v ∈ b, v.n = m)
    (hs : ∀ M : GlobalLA.Sp R, M.m = m → M.n = n → (∀ r c, M.at r c = repM A r c) → ∀ v, (spsolve M v).isSome = true)
    (factor : Nat) (hf : 0 < factor) (cod : Option Bool) : (direct spsolve factor cod ⟨A, some b⟩).isSome = true := by
  have hcore : 0 < A.length := List.length_pos_iff.2 hA.1
  obtain ⟨hno, hgs⟩ := c45_gather A m n f hA hfmt hl 0 hcore (cod.getD true) factor
  cases hg : gatherM 0 (cod.getD true) factor A with
  | none =>
    have := hno.1 hg
    omega
  | some rk =>
    obtain ⟨ret, kept⟩ := rk
    obtain ⟨hlen, hat, _⟩ := hgs ret kept hg
    obtain ⟨b0, bs, rfl⟩ := List.exists_cons_of_ne_nil hb
    have hret : 0 < ret.length := by omega
    have hM : ret.head? = some ret[0] := by rw [List.head?_eq_getElem?, List.getElem?_eq_getElem hret]
    obtain ⟨hm, hn⟩ := gatherM_shape hA hfmt hl hg ret[0] (List.getElem_mem hret)
    unfold direct
    simp only [Option.bind_some, hg, hM, List.head?_cons]
    rw [if_pos (by rw [hm, hbn b0 (by simp)]), Option.isSome_map]
    exact hs _ hm hn (hat _ (by rw [List.getElem?_eq_getElem hret])) _

end direct

/-- **Solved forms.** After the result of the direct solver has been distributed to the forms, the vector of these forms
satisfies the assembled system. -/
theorem c101_solved_forms [CharZero K] (A : List (GlobalLA.Sp K)) (b : List (GlobalLA.SpVec K)) (m n : Nat) (f : GlobalLA.Fmt)
    (hA : Shaped A m n) (hfmt : ∀ M ∈ A, M.fmt = f) (hl : f ≠ .lil)
    (spsolve : GlobalLA.Sp K → (Nat → K) → Option (List K)) (hs : Solves spsolve) (factor : Nat) (cod : Option Bool)
    (x : List K) (info : Nat) (s : Sys K) (h : direct spsolve factor cod ⟨A, some b⟩ = some (x, info, s))
    (keep : Bool) (fs : List (Form K)) (hp : ∀ f ∈ fs, Proper f) (hn : (fs.map Form.n).sum = n) :
    ∃ fs' V, distSilly x (fs.map some) = some (fs'.map some) ∧ ofForms keep fs' = some V ∧ Satisfied A b m n V := by
  obtain ⟨_, hx, hsat, _⟩ := c101_direct A b m n f hA hfmt hl spsolve hs factor cod x info s h
  obtain ⟨fs', h1, h2⟩ := c101_roundtrip_vector keep fs hp x (by omega)
  exact ⟨fs', x, h1, h2, hsat⟩

/-! ## Examples -/

/-- a form of the highest degree on the same two elements, without cochain. -/
def exH : Form ℚ := ⟨[[(0, [0]), (1, [1])]], 2, 1, true, none⟩

/-- the coefficients of `exF`. -/
def exC : Nat → ℚ := fun d => [5, 6, 7].getD d 0

theorem exF_dict : DictLike exF.gm := by unfold DictLike; decide
theorem exH_dict : DictLike exH.gm := by unfold DictLike; decide

theorem exF_proper : Proper exF where
  ne := by decide
  dict := exF_dict
  num := by decide
  gap := by
    intro d d' h hlt
    rw [occurs_iff exF_dict] at *
    simp [allVecs, exF, exG] at *
    omega
  len := by decide
  one := by intro h; simp [exF] at h

theorem exH_proper : Proper exH where
  ne := by decide
  dict := exH_dict
  num := by decide
  gap := by
    intro d d' h hlt
    rw [occurs_iff exH_dict] at *
    simp [allVecs, exH] at *
    omega
  len := by decide
  one := by
    intro _ d
    exact (List.length_filter_le _ _).trans (show exH.gm.length ≤ 1 by decide)

theorem exF_coeffs : Coeffs exF exC := by
  refine Or.inl ⟨_, rfl, ?_⟩
  unfold Agree
  refine .cons ?_ .nil
  decide +kernel

theorem exH_coeffs : Coeffs exH fun _ => 0 := Or.inr ⟨rfl, fun _ => rfl⟩

theorem exFH_proper : ∀ f ∈ [exF, exH], Proper f := by
  intro f hf
  simp only [List.mem_cons, List.not_mem_nil, or_false] at hf
  rcases hf with rfl | rfl
  · exact exF_proper
  · exact exH_proper

theorem exFH_coeffs : List.Forall₂ Coeffs [exF, exH] [exC, fun _ => 0] := .cons exF_coeffs (.cons exH_coeffs .nil)

example : ofForms true [exF, exH] = some [5, 6, 7, 0, 0] :=
  (c101_vector_of_forms true _ _ exFH_proper exFH_coeffs).trans (by decide +kernel)

example : ∃ V fs', ofForms false [exF, exH] = some V ∧ distSilly V [some exF, some exH] = some (fs'.map some) ∧
    List.Forall₂ Coeffs fs' [exC, fun _ => 0] := c101_roundtrip_forms false _ _ exFH_proper exFH_coeffs

example : ∃ fs', distSilly [1, 2, 3, 4, (5 : ℚ)] [some exF, some exH] = some (fs'.map some) ∧
    ofForms true fs' = some [1, 2, 3, 4, 5] := c101_roundtrip_vector true _ exFH_proper _ rfl

/-- a vector that is too long is accepted, one that is too short is not. -/
example : (distSilly [1, 2, 3, 4, 5, (6 : ℚ)] [some exF, some exH]).isSome = true ∧
    ¬ (distSilly [1, 2, 3, (4 : ℚ)] [some exF, some exH]).isSome = true :=
  ⟨(c101_accepted [exF, exH] exFH_proper _).2 (by decide), fun h => absurd ((c101_accepted [exF, exH] exFH_proper _).1 h) (by decide)⟩

/-- the first dofs are left out. -/
example : (distSilly [9, 9, 1, (2 : ℚ)] [none, some exH]).map (fun l => l.map fun a => a.map fun f => f.loc.map fun x =>
    x.flatten.map Prod.snd) = some [none, some (some [[1], [2]])] := by decide +kernel

example : (distSilly [9, 9, 1, (2 : ℚ)] [none, some exH]).isSome = true :=
  (c101_placeholder_accepted [] [exH] (by simp) (by simpa using exH_proper) _).2 (by decide)

example : distSilly [9, 9, 1, (2 : ℚ)] [none, some exH, none] = none := c101_two_placeholders _ _ (by decide)

theorem exFH_one : ∀ f ∈ [exF, exH], f.gm.length = 1 := by decide

theorem exFH_repeat : ∀ f ∈ [exF, exH], NoRepeat f.gm := by
  intro f hf r e v hv
  have := mem_allVecs_of_getVec hv
  simp only [List.mem_cons, List.not_mem_nil, or_false] at hf
  rcases hf with rfl | rfl <;> (simp [allVecs, exF, exG, exH] at this; rcases this with rfl | rfl <;> decide)

theorem exFH_grows : ∀ f ∈ [exF, exH], GrowsInBlocks (traversal ([exF, exH].map Form.gm) 1 f.gm) := by
  intro f hf
  simp only [List.mem_cons, List.not_mem_nil, or_false] at hf
  rcases hf with rfl | rfl
  · have : traversal ([exF, exH].map Form.gm) 1 exF.gm = [[0, 1], [1, 2]] := by decide +kernel
    rw [this]
    intro t d d' h hlt
    rcases t with _ | _ | t <;> simp_all <;> omega
  · have : traversal ([exF, exH].map Form.gm) 1 exH.gm = [[0], [1]] := by decide +kernel
    rw [this]
    intro t d d' h hlt
    rcases t with _ | _ | t <;> simp_all <;> omega

/-- distributing by the two kinds of chains. -/
example : ∃ c, chainOf 1 [exF, exH] = some c ∧
    ((∃ fs', distChain 1 .silly c [1, 2, 3, 4, (5 : ℚ)] [exF, exH] = some fs') ∧
      (distChain 1 .silly c [1, 2, 3, 4, (5 : ℚ)] [exF, exH]).map (fun fs => fs.map fun f => f.loc.map List.flatten) =
        some [some [(0, [1, 2]), (1, [2, 3])], some [(0, [4]), (1, [5])]]) ∧
    (distSequent 1 [1, 2, 3, 4, (5 : ℚ)] [exF, exH]).map (fun fs => fs.map fun f => f.loc.map List.flatten) =
        some [some [(0, [1, 2]), (1, [2, 4])], some [(0, [3]), (1, [5])]] := by
  refine ⟨_, rfl, ⟨?_, by decide +kernel⟩, by decide +kernel⟩
  obtain ⟨fs', _, h, _⟩ := c101_silly_chain 1 [exF, exH] exFH_proper exFH_one _ rfl [1, 2, 3, 4, (5 : ℚ)] (by decide)
  exact ⟨fs', h⟩

theorem exFH_each : ∀ j, ∀ h : j < [exF, exH].length, Coeffs [exF, exH][j] (if j = 0 then exC else fun _ => 0) := by
  intro j hj
  have : j = 0 ∨ j = 1 := by simp at hj; omega
  rcases this with rfl | rfl
  · exact exF_coeffs
  · exact exH_coeffs

example : ofFormsSequent 1 [exF, exH] = some [5, 12, 0, 7, 0] := by decide +kernel

example : ∃ V fs', ofFormsSequent 1 [exF, exH] = some V ∧ distSequent 1 V [exF, exH] = some fs' ∧ fs'.length = 2 := by
  obtain ⟨V, fs', h1, h2, h3, _⟩ := c101_sequent_roundtrip_partial 1 [exF, exH] exFH_proper exFH_one exFH_repeat exFH_grows _ rfl _ exFH_each
  exact ⟨V, fs', h1, h2, h3⟩

example : ∃ c, mkChain 1 [.gm "" exG, .gm "" exG] = some c ∧ cgmEq ⟨c, .silly⟩ ⟨c, .silly⟩ = some true ∧ WellFormed 1 c.gms := by
  refine ⟨_, rfl, by decide +kernel, ?_⟩
  intro g hg
  simp [Item.members, List.flatMap_cons] at hg
  subst hg
  exact ⟨exF_dict, rfl⟩

/-- a routine for diagonal matrices, which looks whether its result is right. -/
def exSolve (M : GlobalLA.Sp ℚ) (v : Nat → ℚ) : Option (List ℚ) :=
  let x := (List.range M.n).map fun r => v r / M.at r r
  if x.length = M.n ∧ ∀ r, r < M.m → ((List.range M.n).map fun c => M.at r c * x.getD c 0).sum = v r then some x else none

theorem exSolve_solves : Solves exSolve := by
  intro M v x h
  unfold exSolve at h
  simp only at h
  split at h
  · rename_i hc
    rw [Option.some.injEq] at h
    rw [← h]
    exact hc
  · simp at h

/-- two cores, whose parts add up to `diag(3, 5)` and `(6, 10)`. -/
def exA : List (GlobalLA.Sp ℚ) := [⟨.csc, 2, 2, [(0, 0, 1), (1, 1, 5)]⟩, ⟨.csc, 2, 2, [(0, 0, 2)]⟩]
def exB : List (GlobalLA.SpVec ℚ) := [⟨2, [(0, 6)]⟩, ⟨2, [(1, 10)]⟩]

theorem exA_shaped : Shaped exA 2 2 := by
  refine ⟨by simp [exA], ?_⟩
  intro M hM
  simp only [exA, List.mem_cons, List.not_mem_nil, or_false] at hM
  rcases hM with rfl | rfl <;> simp

theorem exDirect : ∃ s, direct exSolve 10 none ⟨exA, some exB⟩ = some ([2, 2], 0, s) := by
  have h : (direct exSolve 10 none ⟨exA, some exB⟩).map (fun t => (t.1, t.2.1)) = some ([2, 2], 0) := by decide +kernel
  obtain ⟨⟨x, i, s⟩, h1, h2⟩ := Option.map_eq_some_iff.1 h
  simp only [Prod.mk.injEq] at h2
  exact ⟨s, by rw [h1, h2.1, h2.2]⟩

example : Satisfied exA exB 2 2 [2, 2] := by
  obtain ⟨s, h⟩ := exDirect
  exact (c101_direct exA exB 2 2 .csc exA_shaped (by simp [exA]) (by simp) exSolve exSolve_solves 10 none _ _ s h).2.2.1

example : ∃ fs' V, distSilly [2, 2] [some exH] = some (fs'.map some) ∧ ofForms true fs' = some V ∧ Satisfied exA exB 2 2 V := by
  obtain ⟨s, h⟩ := exDirect
  exact c101_solved_forms exA exB 2 2 .csc exA_shaped (by simp [exA]) (by simp) exSolve exSolve_solves 10 none _ _ s h true [exH]
    (by simpa using exH_proper) rfl

end Mifem.Props.FV101
