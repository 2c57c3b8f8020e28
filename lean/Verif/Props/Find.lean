import Verif.Lemmas.Find
import Verif.Props.Gathering

/-!
# C03: the elements that contain a dof

Specification: `holders` is the list of the local elements whose chained vector has the dof.
-/

namespace Mifem.Props
open Mifem.Gath

/-- the local elements of core `r` whose chained gathering vector has the dof `m`. -/
def holders (c : Chain) (r m : Nat) : List Nat :=
  (elements (c.gms.headD []) r).filter fun e => decide (m ∈ (c.get r e).getD [])

/-- the dof meant by a possibly negative number. -/
def dofOf (total : Nat) (m : Int) : Nat := (if m < 0 then m + total else m).toNat

/-- which member a chained number belongs to. -/
theorem mem_chained {c : Chain} {nR : Nat} {items : List Item} (h : mkChain nR items = some c)
    (hwf : WellFormed nR c.gms) (r e m w : Nat) (hw : w < c.gms.length)
    (he : e ∈ elements (c.gms.headD []) r) (h1 : (c.ns.take w).sum ≤ m) (h2 : m < (c.ns.take (w + 1)).sum) :
    m ∈ (c.get r e).getD [] ↔ ∃ v, getVec c.gms[w] r e = some v ∧ m - (c.ns.take w).sum ∈ v := by
  obtain ⟨hg, hse, hns, htba, htot⟩ := mkChain_spec h
  obtain ⟨hnslen, hnsget⟩ := (mapM_some_iff _ _ _).mp hns
  have hne : c.gms ≠ [] := by
    intro h
    simp [h] at hw
  have hhead : c.gms.headD [] ∈ c.gms := by
    cases hc : c.gms with
    | nil => exact absurd hc hne
    | cons a l => simp
  obtain ⟨v, hv, ws, hl, hget, rfl⟩ := c01_get h hwf _ hhead r e he
  have hsame := sameElements_spec hse (fun g hg => (hwf g hg).1) (fun g hg => (hwf g hg).2)
  rw [hv]
  simp only [Option.getD_some, List.mem_flatten, List.mem_map]
  constructor
  · rintro ⟨l, ⟨⟨u, j⟩, hj, rfl⟩, hm⟩
    obtain ⟨d, hd, hdm⟩ := List.mem_map.mp hm
    simp only at hd hdm
    obtain ⟨hjlt, hju⟩ := List.mem_zipIdx' hj
    have hjg : j < c.gms.length := by omega
    have hvj := hget j hjg hjlt
    rw [← hju] at hvj
    have hdn := (globalNumDofs_spec (hwf _ (List.getElem_mem hjg)).1 (hnsget j hjg (by omega))).2.2 d
      ⟨r, e, u, hvj, hd⟩
    have e1 : c.ns.getD j 0 = c.ns[j]'(by omega) := by simp [List.getD, (by omega : j < c.ns.length)]
    have e2 : c.ns.getD w 0 = c.ns[w]'(by omega) := by simp [List.getD, (by omega : w < c.ns.length)]
    have hsw := take_sum_succ c.ns w (by omega)
    have := code_inj c.ns j w d (m - (c.ns.take w).sum) (by omega) (by omega) (by omega) (by omega) (by omega)
    obtain ⟨hjw, hdw⟩ := this
    subst hjw
    exact ⟨u, hvj, by rw [← hdw]; exact hd⟩
  · rintro ⟨u, hu, hm⟩
    have hwl : w < ws.length := by omega
    have := hget w hw hwl
    rw [hu] at this
    simp only [Option.some.injEq] at this
    refine ⟨_, ⟨(u, w), ?_, rfl⟩, ?_⟩
    · rw [List.mem_zipIdx_iff_getElem?]
      rw [this]
      simp [hwl]
    · exact List.mem_map.mpr ⟨_, hm, by simp only; omega⟩

theorem vecs_ne_nil {g : GM} {n : Nat} (h : globalNumDofs g = some n) (r : Nat) :
    ∀ p ∈ g.getD r [], p.2 ≠ [] := by
  intro p hp
  unfold globalNumDofs at h
  simp only [Option.bind_eq_bind] at h
  rw [Option.bind_eq_some_iff] at h
  obtain ⟨ms, hms, _⟩ := h
  obtain ⟨hl, hg⟩ := (mapM_some_iff _ _ _).mp hms
  have : p.2 ∈ allVecs g := by
    rcases getD_mem_or_nil g r with h' | h'
    · exact List.mem_map.mpr ⟨p, List.mem_flatten.mpr ⟨_, h', hp⟩, rfl⟩
    · rw [h'] at hp
      simp at hp
  obtain ⟨i, hi, hip⟩ := List.getElem_of_mem this
  have := hg i hi (by omega)
  rw [hip] at this
  intro h0
  rw [h0] at this
  simp [vecMax] at this

/-- **C03 (what the search really returns).** For every accepted chain, every dof number (negative ones count from the
end), every core and every limit: the search raises no error; it returns None exactly when no local element has the dof;
otherwise it returns distinct elements that all have the dof, and their number is the smaller one of the limit and the
number of local elements having the dof. `where` is the member the dof belongs to. -/
theorem c03_search {nR : Nat} {items : List Item} {c : Chain} (h : mkChain nR items = some c)
    (hwf : WellFormed nR c.gms) (hmem : c.gms ≠ []) (r : Nat) (m : Int) (hm : -(c.total : Int) ≤ m ∧ m < c.total)
    (N : Option Nat) (hN : N ≠ some 0) :
    (c.elementsContain r m N = some none ∧ holders c r (dofOf c.total m) = []) ∨
    (∃ es w, c.elementsContain r m N = some (some (es, w)) ∧ es.Nodup ∧ es ≠ [] ∧
      (∀ e ∈ es, e ∈ holders c r (dofOf c.total m)) ∧
      (match defaultN c.meshType N with
        | none => es.length = (holders c r (dofOf c.total m)).length
        | some n => es.length = min n (holders c r (dofOf c.total m)).length) ∧
      w < c.gms.length ∧ (c.ns.take w).sum ≤ dofOf c.total m ∧ dofOf c.total m < (c.ns.take (w + 1)).sum) := by
  obtain ⟨hg, hse, hns, htba, htot⟩ := mkChain_spec h
  obtain ⟨hnslen, hnsget⟩ := (mapM_some_iff _ _ _).mp hns
  have hsame := sameElements_spec hse (fun g hg => (hwf g hg).1) (fun g hg => (hwf g hg).2)
  set M := dofOf c.total m with hM
  have hglen : 0 < c.gms.length := List.length_pos_iff.mpr hmem
  have hMdef : (if m < 0 then m + c.total else m).toNat = M := rfl
  have hdN : defaultN c.meshType N ≠ some 0 := by
    unfold defaultN
    cases N with
    | none => simp only; split_ifs <;> simp
    | some n => simpa using hN
  unfold Chain.elementsContain
  rw [if_neg (by simpa using hm)]
  simp only [hMdef, if_neg hdN, Option.bind_eq_bind, Option.pure_def]
  by_cases hempty : elements (c.gms.headD []) r = []
  · left
    have hemptyT : (elements (c.gms.headD []) r).isEmpty = true := by rw [hempty]; rfl
    rw [if_pos hemptyT]
    exact ⟨rfl, by simp only [holders, hempty]; rfl⟩
  have hemptyF : (elements (c.gms.headD []) r).isEmpty = false := by
    rw [Bool.eq_false_iff]
    intro h
    exact hempty (List.isEmpty_iff.mp h)
  simp only [hemptyF, Bool.false_eq_true, if_false]
  -- the local ranges
  have hloc : ∀ j (hj : j < c.gms.length), c.gms[j].getD r [] ≠ [] := by
    intro j hj h0
    obtain ⟨e, he⟩ := List.exists_mem_of_ne_nil _ hempty
    have := (hsame _ (List.getElem_mem hj) r e).mp he
    rw [elements, h0] at this
    simp at this
  have hrng := fun j (hj : j < c.gms.length) =>
    localRange_spec c.gms[j] r (hloc j hj) (vecs_ne_nil (hnsget j hj (by omega)) r)
  obtain ⟨lrs0, hlrs0⟩ := mapM_isSome (fun g => localRange g r) c.gms (by
    intro g hg
    obtain ⟨j, hj, rfl⟩ := List.getElem_of_mem hg
    obtain ⟨a, b, hab, _⟩ := hrng j hj
    exact ⟨_, hab⟩)
  obtain ⟨l0, g0⟩ := (mapM_some_iff _ _ _).mp hlrs0
  obtain ⟨lrs1, hlrs1⟩ := mapM_isSome id lrs0 (by
    intro x hx
    obtain ⟨j, hj, rfl⟩ := List.getElem_of_mem hx
    have hj' : j < c.gms.length := by omega
    obtain ⟨a, b, hab, _⟩ := hrng j hj'
    rw [g0 j hj' hj] at hab
    simp only [Option.some.injEq] at hab
    exact ⟨_, hab⟩)
  obtain ⟨l1, g1⟩ := (mapM_some_iff _ _ _).mp hlrs1
  have hlrs : ∀ j (hj : j < c.gms.length) (hj' : j < lrs1.length), localRange c.gms[j] r = some (some lrs1[j]) := by
    intro j hj hj'
    rw [g0 j hj (by omega)]
    have := g1 j (by omega) hj'
    simpa using this
  have hnsne : c.ns ≠ [] := by
    intro h0
    simp [h0] at hnslen
    omega
  have htl : c.tba.length = c.gms.length := by rw [htba, toBeAdded_length _ hnsne, hnslen]
  have htj : ∀ j (hj : j < c.gms.length), c.tba[j]'(by omega) = (c.ns.take j).sum := by
    intro j hj
    have := toBeAdded_getD c.ns j (by omega)
    rw [← htba] at this
    simpa [List.getD, (by omega : j < c.tba.length)] using this
  set lrs := (lrs1.zip c.tba).map (fun lt => (lt.1.1 + lt.2, lt.1.2 + lt.2)) with hlrsdef
  have hlrlen : lrs.length = c.gms.length := by
    simp [hlrsdef, List.length_zip]
    omega
  have hlr : ∀ j (hj : j < c.gms.length) (hj' : j < lrs.length), ∃ a b, lrs[j] = (a + (c.ns.take j).sum,
      b + (c.ns.take j).sum) ∧ (∀ p ∈ c.gms[j].getD r [], ∀ d ∈ p.2, a ≤ d ∧ d < b) ∧ a < b ∧
      b ≤ c.ns.getD j 0 := by
    intro j hj hj'
    obtain ⟨a, b, hab, k1, k2, k3⟩ := hrng j hj
    have hj1 : j < lrs1.length := by omega
    rw [hlrs j hj hj1] at hab
    simp only [Option.some.injEq] at hab
    refine ⟨a, b, ?_, k1, ?_, ?_⟩
    · simp [hlrsdef, hab, htj j hj]
    · obtain ⟨p, hp, hd⟩ := k2
      have := k1 p hp a hd
      omega
    · obtain ⟨p, hp, d, hd, hdb⟩ := k3
      have e1 : c.ns.getD j 0 = c.ns[j]'(by omega) := by simp [List.getD, (by omega : j < c.ns.length)]
      have hlk : getVec c.gms[j] r p.1 = some p.2 := by
        apply lookup_of_nodup _ hp
        rcases getD_mem_or_nil c.gms[j] r with h' | h'
        · exact (hwf _ (List.getElem_mem hj)).1 _ h'
        · rw [h']
          simp
      have := (globalNumDofs_spec (hwf _ (List.getElem_mem hj)).1 (hnsget j hj (by omega))).2.2 d
        ⟨r, p.1, p.2, hlk, hd⟩
      omega
  have hord : Ordered 0 lrs := by
    apply ordered_of_getElem
    · intro i hi
      obtain ⟨a, b, e, _, hab, _⟩ := hlr i (by omega) hi
      rw [e]
      simp only
      omega
    · intro _
      omega
    · intro i hi
      obtain ⟨a, b, e, _, hab, hb⟩ := hlr i (by omega) (by omega)
      obtain ⟨a', b', e', _, _, _⟩ := hlr (i + 1) (by omega) hi
      rw [e, e']
      have := take_sum_succ c.ns i (by omega)
      simp only
      omega
  have hranges : c.localRanges r = some lrs := by
    unfold Chain.localRanges
    rw [hlrs0]
    simp only [Option.bind_eq_bind, Option.bind_some, hlrs1, Option.pure_def]
    rfl
  rw [hranges]
  simp only [Option.bind_some]
  -- the search
  have hwhere : ∃ w, findWhere M lrs = some w ∧
      ((∃ k, ∃ hk : k < lrs.length, w = some k ∧ lrs[k].1 ≤ M ∧ M < lrs[k].2) ∨
        (w = none ∧ ∀ q ∈ lrs, ¬ (q.1 ≤ M ∧ M < q.2))) := by
    by_cases hone : lrs.length = 1
    · obtain ⟨⟨lo, hi⟩, hq⟩ := List.length_eq_one_iff.mp hone
      rw [hq]
      simp only [findWhere]
      by_cases hc : lo ≤ M ∧ M < hi
      · exact ⟨some 0, by rw [if_pos hc], Or.inl ⟨0, by simp, rfl, by simpa using hc⟩⟩
      · refine ⟨none, by rw [if_neg hc], Or.inr ⟨rfl, ?_⟩⟩
        intro q hq
        rw [List.mem_singleton] at hq
        subst hq
        exact hc
    · have h2 : 2 ≤ lrs.length := by omega
      have hmatch : findWhere M lrs = searchWhere M none 0 lrs := findWhere_many M lrs h2
      rw [hmatch]
      rcases searchWhere_none M lrs h2 hord with ⟨k, hk, e, a, b⟩ | ⟨e, a⟩
      · exact ⟨some k, e, Or.inl ⟨k, hk, rfl, a, b⟩⟩
      · exact ⟨none, e, Or.inr ⟨rfl, a⟩⟩
  obtain ⟨w, hw, hcase⟩ := hwhere
  rw [hw]
  simp only [Option.bind_some]
  -- holders in terms of the member
  have hhold : ∀ k (hk : k < c.gms.length), (c.ns.take k).sum ≤ M → M < (c.ns.take (k + 1)).sum →
      (holders c r M).Perm (((c.gms[k].getD r []).filter
        (fun p => M - (c.ns.take k).sum ∈ p.2)).map Prod.fst) := by
    intro k hk b1 b2
    have hnd0 : (elements (c.gms.headD []) r).Nodup := by
      have hhead : c.gms.headD [] ∈ c.gms := by
        cases hc : c.gms with
        | nil => exact absurd hc hmem
        | cons a l => simp
      rcases getD_mem_or_nil (c.gms.headD []) r with h' | h'
      · exact (hwf _ hhead).1 _ h'
      · simp only [elements, h']; simp
    have hndk : ((c.gms[k].getD r []).map Prod.fst).Nodup := by
      rcases getD_mem_or_nil c.gms[k] r with h' | h'
      · exact (hwf _ (List.getElem_mem hk)).1 _ h'
      · rw [h']; simp
    apply (List.perm_ext_iff_of_nodup (hnd0.filter _) (hndk.sublist (List.Sublist.map _ List.filter_sublist))).mpr
    intro e
    rw [List.mem_filter, List.mem_map]
    constructor
    · rintro ⟨he, hmm⟩
      obtain ⟨v, hv, hmv⟩ := (mem_chained h hwf r e M k hk he b1 b2).mp (by simpa using hmm)
      exact ⟨(e, v), List.mem_filter.mpr ⟨mem_of_lookup hv, by simpa using hmv⟩, rfl⟩
    · rintro ⟨⟨e', v⟩, hp, rfl⟩
      rw [List.mem_filter] at hp
      have he : e' ∈ elements (c.gms.headD []) r :=
        (hsame _ (List.getElem_mem hk) r e').mpr (List.mem_map.mpr ⟨(e', v), hp.1, rfl⟩)
      refine ⟨he, ?_⟩
      have := (mem_chained h hwf r e' M k hk he b1 b2).mpr
        ⟨v, lookup_of_nodup hndk hp.1, by simpa using hp.2⟩
      simpa using this
  rcases hcase with ⟨k, hk, hwk, c1, c2⟩ | ⟨hwn, hno⟩
  · subst hwk
    have hkg : k < c.gms.length := by omega
    obtain ⟨a, b, hab, hin, hablt, hbn⟩ := hlr k hkg hk
    rw [hab] at c1 c2
    simp only at c1 c2
    have hsucc := take_sum_succ c.ns k (by omega)
    have b1 : (c.ns.take k).sum ≤ M := by omega
    have b2 : M < (c.ns.take (k + 1)).sum := by omega
    have hp := hhold k hkg b1 b2
    have ht : c.tba.getD k 0 = (c.ns.take k).sum := by
      rw [htba]
      exact toBeAdded_getD c.ns k (by omega)
    have hgk : c.gms.getD k [] = c.gms[k] := by simp [List.getD, hkg]
    dsimp only
    rw [ht, hgk]
    set full := ((c.gms[k].getD r []).filter (fun p => M - (c.ns.take k).sum ∈ p.2)).map Prod.fst with hfull
    have hndfull : full.Nodup := hp.nodup_iff.mp (by
      unfold holders
      apply List.Nodup.filter
      have hhead : c.gms.headD [] ∈ c.gms := by
        cases hc : c.gms with
        | nil => exact absurd hc hmem
        | cons a l => simp
      rcases getD_mem_or_nil (c.gms.headD []) r with h' | h'
      · exact (hwf _ hhead).1 _ h'
      · simp only [elements, h']; simp)
    have hcol : ∃ es, collect (M - (c.ns.take k).sum) (defaultN c.meshType N) (c.gms[k].getD r []) = es ∧
        es.Sublist full ∧ (es = [] → full = []) ∧ (match defaultN c.meshType N with
        | none => es.length = full.length
        | some n => es.length = min n full.length) := by
      refine ⟨_, rfl, ?_⟩
      cases hdn : defaultN c.meshType N with
      | none =>
        rw [collect_none]
        exact ⟨List.Sublist.refl _, fun h => h, rfl⟩
      | some n =>
        have hn : 0 < n := by
          rw [hdn] at hdN
          simp at hdN
          omega
        rw [collect_some _ _ _ hn]
        refine ⟨List.take_sublist _ _, ?_, by simp [hfull]⟩
        intro h0
        rw [List.take_eq_nil_iff] at h0
        exact h0.resolve_left (by omega)
    obtain ⟨es, hes, hsub, hnil, hlen⟩ := hcol
    simp only [hes]
    by_cases h0 : es = []
    · left
      rw [h0]
      refine ⟨by simp, ?_⟩
      have := hnil h0
      rw [this] at hp
      exact hp.eq_nil
    · right
      have h0' : es.isEmpty = false := by simpa using h0
      refine ⟨es, k, by simp [h0'], hndfull.sublist hsub, h0, ?_, ?_, hkg, b1, b2⟩
      · intro e he
        exact hp.mem_iff.mpr (hsub.subset he)
      · have := hp.length_eq
        rw [this]
        exact hlen
  · left
    subst hwn
    refine ⟨rfl, ?_⟩
    rw [List.eq_nil_iff_forall_not_mem]
    intro e he
    -- the dof belongs to some member, and its range has it
    have hMlt : M < c.ns.sum := by
      rw [← (c01_total h).1, hM, dofOf]
      split
      · omega
      · omega
    obtain ⟨j, d, hj, hd, hjd⟩ := code_surj c.ns M hMlt
    have hjg : j < c.gms.length := by omega
    have hsucc := take_sum_succ c.ns j hj
    have hp := hhold j hjg (by omega) (by omega)
    have := hp.mem_iff.mp he
    obtain ⟨p, hpf, _⟩ := List.mem_map.mp this
    rw [List.mem_filter] at hpf
    obtain ⟨a, b, hab, hin, _, _⟩ := hlr j hjg (by omega)
    have hr := hin p hpf.1 (M - (c.ns.take j).sum) (by simpa using hpf.2)
    apply hno lrs[j] (List.getElem_mem (by omega))
    rw [hab]
    simp only
    omega

/-- **C03, partial.** When no more local elements than the limit (by default 4 for 2D meshes, 8 for 3D ones, none for
other meshes) have the dof, the search returns exactly the local elements that have it. The full property (without the
restriction) is false: `c03_counterexample`. -/
theorem c03_find_elements_partial {nR : Nat} {items : List Item} {c : Chain} (h : mkChain nR items = some c)
    (hwf : WellFormed nR c.gms) (hmem : c.gms ≠ []) (r : Nat) (m : Int) (hm : -(c.total : Int) ≤ m ∧ m < c.total)
    (N : Option Nat) (hN : N ≠ some 0)
    (hfew : ∀ n, defaultN c.meshType N = some n → (holders c r (dofOf c.total m)).length ≤ n) :
    (c.elementsContain r m N = some none ∧ holders c r (dofOf c.total m) = []) ∨
    (∃ es w, c.elementsContain r m N = some (some (es, w)) ∧ es.Nodup ∧
      ∀ e, e ∈ es ↔ e ∈ holders c r (dofOf c.total m)) := by
  rcases c03_search h hwf hmem r m hm N hN with h1 | ⟨es, w, h1, h2, _, h4, h5, _⟩
  · exact Or.inl h1
  · refine Or.inr ⟨es, w, h1, h2, ?_⟩
    have hlen : (holders c r (dofOf c.total m)).length ≤ es.length := by
      cases hdn : defaultN c.meshType N with
      | none =>
        rw [hdn] at h5
        simp only at h5
        omega
      | some n =>
        have := hfew n hdn
        rw [hdn] at h5
        simp only at h5
        omega
    have hp := (h2.subperm h4).perm_of_length_le hlen
    intro e
    exact hp.mem_iff

/-- A vertex shared by five elements of a 2D mesh (possible for an unstructured arrangement of regions). -/
def exFive : GM := [[(0, [0, 1]), (1, [0, 2]), (2, [0, 3]), (3, [0, 4]), (4, [0, 5])]]

/-- **C03 is false in general**: element 4 has dof 0 but is not found with the default limit. -/
theorem c03_counterexample : ∃ c, mkChain 1 [.gm "_2dCSCG" exFive] = some c ∧ WellFormed 1 c.gms ∧
    holders c 0 0 = [0, 1, 2, 3, 4] ∧ c.elementsContain 0 0 none = some (some ([0, 1, 2, 3], 0)) := by
  refine ⟨_, rfl, ?_, by decide, by decide⟩
  intro g hg
  simp [Item.members, List.flatMap_cons] at hg
  subst hg
  exact ⟨by unfold DictLike; decide, rfl⟩

/-- all vectors of a member on a core have the same length (asserted by `Gathering_Matrix.__init__`). -/
def Regular (g : GM) (r : Nat) : Prop :=
  ∀ e e' v v', getVec g r e = some v → getVec g r e' = some v' → v.length = v'.length

/-- **C03, local indices.** For the elements returned, the local index is a position of the dof in the chained vector of
the element (the first one in the part of its variable). -/
theorem c03_local_indices {nR : Nat} {items : List Item} {c : Chain} (h : mkChain nR items = some c)
    (hwf : WellFormed nR c.gms) (hmem : c.gms ≠ []) (r : Nat) (hreg : ∀ g ∈ c.gms, Regular g r)
    (m : Int) (hm : -(c.total : Int) ≤ m ∧ m < c.total)
    (N : Option Nat) (hN : N ≠ some 0) :
    (c.elementsAndIndices r m N = some none ∧ holders c r (dofOf c.total m) = []) ∨
    (∃ es ids w, c.elementsContain r m N = some (some (es, w)) ∧ c.elementsAndIndices r m N = some (some (es, ids)) ∧
      ids.length = es.length ∧ ∀ i (h1 : i < es.length) (h2 : i < ids.length),
        ∃ v, c.get r es[i] = some v ∧ v[ids[i]]? = some (dofOf c.total m)) := by
  have hsearch := c03_search h hwf hmem r m hm N hN
  obtain ⟨hg, hse, hns, htba, htot⟩ := mkChain_spec h
  obtain ⟨hnslen, hnsget⟩ := (mapM_some_iff _ _ _).mp hns
  have hsame := sameElements_spec hse (fun g hg => (hwf g hg).1) (fun g hg => (hwf g hg).2)
  set M := dofOf c.total m with hM
  have hMdef : (if m < 0 then m + c.total else m).toNat = M := rfl
  unfold Chain.elementsAndIndices
  rcases hsearch with ⟨h1, h2⟩ | ⟨es, w, h1, h2, h3, h4, h5, h6, h7, h8⟩
  · left
    rw [h1]
    exact ⟨rfl, h2⟩
  · right
    rw [h1]
    simp only [Option.bind_eq_bind, Option.bind_some, hMdef]
    have hhead : c.gms.headD [] ∈ c.gms := by
      cases hc : c.gms with
      | nil => exact absurd hc hmem
      | cons a l => simp
    have ht : c.tba.getD w 0 = (c.ns.take w).sum := by
      rw [htba]
      exact toBeAdded_getD c.ns w (by omega)
    have hgw : c.gms.getD w [] = c.gms[w] := by simp [List.getD, h6]
    -- the local shifts
    have hesub : ∀ e ∈ es, e ∈ elements (c.gms.headD []) r := fun e he => (List.mem_filter.mp (h4 e he)).1
    obtain ⟨e1, he1⟩ := List.exists_mem_of_ne_nil _ h3
    have hallv : ∀ e, e ∈ elements (c.gms.headD []) r → ∃ ws, c.gms.mapM (fun g => getVec g r e) = some ws := by
      intro e he
      apply mapM_isSome
      intro g hg
      exact lookup_isSome ((hsame g hg r e).mp he)
    have hltba : ∃ e0 ws0, e0 ∈ elements (c.gms.headD []) r ∧ c.gms.mapM (fun g => getVec g r e0) = some ws0 ∧
        c.localTBA r = some (toBeAdded (ws0.map List.length)) := by
      unfold Chain.localTBA
      cases hE : elements (c.gms.headD []) r with
      | nil =>
        have := hesub e1 he1
        rw [hE] at this
        simp at this
      | cons e0 rest =>
        obtain ⟨ws0, hws0⟩ := hallv e0 (by rw [hE]; simp)
        exact ⟨e0, ws0, by simp, hws0, by simp [hws0]⟩
    obtain ⟨e0, ws0, he0, hws0, hlt⟩ := hltba
    obtain ⟨l0, g0⟩ := (mapM_some_iff _ _ _).mp hws0
    rw [hlt]
    simp only [Option.bind_some, ht, hgw]
    have hwvec : ∀ e ∈ es, ∃ v, getVec c.gms[w] r e = some v ∧ M - (c.ns.take w).sum ∈ v := by
      intro e he
      have := List.mem_filter.mp (h4 e he)
      exact (mem_chained h hwf r e M w h6 this.1 h7 h8).mp (by simpa using this.2)
    obtain ⟨ids, hids⟩ := mapM_isSome (fun e => (getVec c.gms[w] r e).bind fun v =>
        if M - (c.ns.take w).sum ∈ v
          then some (v.idxOf (M - (c.ns.take w).sum) + (toBeAdded (ws0.map List.length)).getD w 0) else none) es (by
      intro e he
      obtain ⟨v, hv, hmv⟩ := hwvec e he
      exact ⟨_, by rw [hv]; simp only [Option.bind_some]; rw [if_pos hmv]⟩)
    obtain ⟨il, ig⟩ := (mapM_some_iff _ _ _).mp hids
    refine ⟨es, ids, w, rfl, ?_, il, ?_⟩
    · simp only [Option.pure_def]
      rw [hids]
      rfl
    · intro i hi1 hi2
      obtain ⟨v, hv, hmv⟩ := hwvec es[i] (List.getElem_mem hi1)
      have hid := ig i hi1 hi2
      rw [hv] at hid
      simp only [Option.bind_some, if_pos hmv, Option.some.injEq] at hid
      have hel := hesub es[i] (List.getElem_mem hi1)
      obtain ⟨V, hV, ws, hl, hget, rfl⟩ := c01_get h hwf _ hhead r es[i] hel
      refine ⟨_, hV, ?_⟩
      rw [← hid]
      have hwl : w < ws.length := by omega
      have hvw : ws[w] = v := by
        have := hget w h6 hwl
        rw [hv] at this
        simpa using this.symm
      have hlens : ws.map List.length = ws0.map List.length := by
        apply List.ext_getElem
        · simp [hl, l0]
        · intro k k1 k2
          simp only [List.getElem_map]
          have hk1 : k < ws.length := by simpa using k1
          have hk2 : k < ws0.length := by simpa using k2
          have hkg : k < c.gms.length := by omega
          exact hreg _ (List.getElem_mem hkg) _ _ _ _ (hget k hkg hk1) (g0 k hkg hk2)
      rw [← hlens, toBeAdded_getD _ _ (by simpa using hwl)]
      -- position in the concatenation
      have key : ∀ (ls : List (List Nat)) (w q : Nat) (hw : w < ls.length) (hq : q < ls[w].length),
          ls.flatten[q + ((ls.map List.length).take w).sum]? = some ls[w][q] := by
        intro ls
        induction ls with
        | nil => intro w q hw; simp at hw
        | cons l ls ih =>
          intro w q hw hq
          cases w with
          | zero =>
            simp only [List.getElem_cons_zero] at hq
            simp [List.getElem?_append_left hq, hq]
          | succ w =>
            have := ih w q (by simpa using hw) (by simpa using hq)
            simp only [List.flatten_cons, List.map_cons, List.take_succ_cons, List.sum_cons]
            rw [List.getElem?_append_right (by omega)]
            simp only [List.getElem_cons_succ]
            rw [← this]
            congr 1
            omega
      set cv := ws.zipIdx.map (fun wj => wj.1.map (fun d => d + (c.ns.take wj.2).sum)) with hcv
      have hcvlen : cv.map List.length = ws.map List.length := by
        apply List.ext_getElem
        · simp [hcv]
        · intro k k1 k2
          simp [hcv]
      have hq : v.idxOf (M - (c.ns.take w).sum) < v.length := List.idxOf_lt_length_iff.mpr hmv
      have hcw : cv[w]'(by simpa [hcv] using hwl) = v.map (fun d => d + (c.ns.take w).sum) := by
        simp [hcv, hvw]
      have := key cv w (v.idxOf (M - (c.ns.take w).sum)) (by simpa [hcv] using hwl) (by rw [hcw]; simpa using hq)
      rw [← hcvlen, this]
      simp only [hcw, List.getElem_map, List.getElem_idxOf]
      congr 1
      omega

/-- The 'sequent' branch and `elements_and_local_indices_of_dofs` scan all local elements: the result is exact. -/
theorem c03_scan (get : Nat → Option (List Nat)) (m : Nat) (es : List Nat)
    (hget : ∀ e ∈ es, ∃ v, get e = some v) :
    ∃ out, scanIndices get m es = some out ∧
      out.map Prod.fst = es.filter (fun e => decide (m ∈ (get e).getD [])) ∧
      ∀ p ∈ out, ∃ v, get p.1 = some v ∧ v[p.2]? = some m := by
  induction es with
  | nil => exact ⟨[], rfl, rfl, by simp⟩
  | cons e es ih =>
    obtain ⟨v, hv⟩ := hget e (by simp)
    obtain ⟨out, h1, h2, h3⟩ := ih (fun x hx => hget x (by simp [hx]))
    by_cases hm : m ∈ v
    · refine ⟨(e, v.idxOf m) :: out, ?_, ?_, ?_⟩
      · simp [scanIndices, hv, h1, hm]
      · simp [hv, hm, h2]
      · intro p hp
        rcases List.mem_cons.mp hp with rfl | hp
        · have := List.idxOf_lt_length_iff.mpr hm
          exact ⟨v, hv, by simp [this]⟩
        · exact h3 p hp
    · refine ⟨out, ?_, ?_, h3⟩
      · simp [scanIndices, hv, h1, hm]
      · simp [hv, hm, h2]

/-- A concrete chain of two variables: the vertex dof 1 of the first variable is in both elements, the dof -1 (the last
one) is in element 1 only, at position 2. -/
example : ∃ c, mkChain 1 [.gm "_2dCSCG" [[(0, [0, 1]), (1, [1, 2])]], .gm "_2dCSCG" [[(0, [0]), (1, [1])]]] = some c ∧
    c.elementsAndIndices 0 1 none = some (some ([0, 1], [1, 0])) ∧
    c.elementsAndIndices 0 (-1) none = some (some ([1], [2])) ∧ holders c 0 4 = [1] :=
  ⟨_, rfl, by decide, by decide, by decide⟩

end Mifem.Props
