import Verif.Lemmas.Customize

/-!
# Lemmas on customizations of vectors
-/

namespace Mifem.Asm
open Mifem.Gath
open Finset (range)

variable {R : Type}

/-- the effect of a customization on the entries of a local vector. -/
def VCus.app [Zero R] (d : Nat → R) : VCus R → (Nat → R)
  | .cletr i => fun a => if a = i then 0 else d a
  | .slet i v => fun a => if a = i then v else d a
  | .slest is vs => (is.zip vs).foldl (fun d p => fun a => if a = p.1 then p.2 else d a) d

/-- the local rows used. -/
def VCus.idx : VCus R → List Nat
  | .cletr i => [i]
  | .slet i _ => [i]
  | .slest is vs => (is.zip vs).map Prod.fst

theorem lookup_upd (l : List (Nat × R)) (i : Nat) (v : R) (a : Nat) :
    (upd l i v).lookup a = if a = i then some v else l.lookup a := by
  induction l with
  | nil =>
    simp only [upd, List.lookup_cons, List.lookup_nil]
    by_cases h : a = i
    · simp [h]
    · have : (a == i) = false := by simpa using h
      simp [h, this]
  | cons p l ih =>
    simp only [upd]
    split
    · next h =>
      subst h
      rw [List.lookup_cons, List.lookup_cons]
      by_cases h' : a = p.1
      · simp [h']
      · have : (a == p.1) = false := by simpa using h'
        simp [h', this]
    · next h =>
      rw [List.lookup_cons, List.lookup_cons, ih]
      by_cases h' : a = p.1
      · have h2 : ¬ a = i := by rw [h']; exact h
        simp [h', h]
      · have : (a == p.1) = false := by simpa using h'
        simp [this]

theorem keys_upd (l : List (Nat × R)) (i : Nat) (v : R) : ∀ p ∈ upd l i v, p.1 = i ∨ ∃ q ∈ l, q.1 = p.1 := by
  induction l with
  | nil => simp [upd]
  | cons q l ih =>
    intro p hp
    simp only [upd] at hp
    split at hp
    · rcases List.mem_cons.mp hp with rfl | hp
      · exact Or.inl rfl
      · exact Or.inr ⟨p, by simp [hp], rfl⟩
    · rcases List.mem_cons.mp hp with rfl | hp
      · exact Or.inr ⟨p, by simp, rfl⟩
      · rcases ih p hp with h | ⟨q', h1, h2⟩
        · exact Or.inl h
        · exact Or.inr ⟨q', by simp [h1], h2⟩

theorem merge_lookup [Zero R] (d : Nat → R) (l : List (Nat × R)) (c : VCus R) (a : Nat) :
    ((merge l c).lookup a).getD (d a) = c.app (fun a => (l.lookup a).getD (d a)) a := by
  cases c with
  | cletr i =>
    simp only [merge, lookup_upd, VCus.app]
    split <;> simp
  | slet i v =>
    simp only [merge, lookup_upd, VCus.app]
    split <;> simp
  | slest is vs =>
    simp only [merge, VCus.app]
    generalize is.zip vs = z
    induction z generalizing l with
    | nil => rfl
    | cons p z ih =>
      simp only [List.foldl_cons]
      rw [ih]
      have : (fun a => ((upd l p.1 p.2).lookup a).getD (d a)) =
          fun a => if a = p.1 then p.2 else (l.lookup a).getD (d a) := by
        funext a
        rw [lookup_upd]
        split <;> simp
      rw [this]

theorem merge_keys [Zero R] (l : List (Nat × R)) (c : VCus R) :
    ∀ p ∈ merge l c, p.1 ∈ c.idx ∨ ∃ q ∈ l, q.1 = p.1 := by
  cases c with
  | cletr i => simpa [merge, VCus.idx] using keys_upd l i 0
  | slet i v => simpa [merge, VCus.idx] using keys_upd l i v
  | slest is vs =>
    simp only [merge, VCus.idx]
    generalize is.zip vs = z
    induction z generalizing l with
    | nil =>
      intro p hp
      exact Or.inr ⟨p, hp, rfl⟩
    | cons q z ih =>
      intro p hp
      simp only [List.foldl_cons] at hp
      rcases ih _ p hp with h | ⟨q', h1, h2⟩
      · exact Or.inl (by simp only [List.map_cons, List.mem_cons]; exact Or.inr h)
      · rcases keys_upd l q.1 q.2 q' h1 with h | ⟨q2, h3, h4⟩
        · refine Or.inl ?_
          simp only [List.map_cons, List.mem_cons]
          exact Or.inl (by rw [← h2, h])
        · exact Or.inr ⟨q2, h3, h4.trans h2⟩

/-- entries of the customized local vector. -/
def vval [AddCommMonoid R] (s : VSt R) (k e : Nat) (x : Sv R) (i : Nat) : R :=
  (((s.flush.applied k e).getD []).lookup i).getD (x.entry i)

theorem vval_add [AddCommMonoid R] (s : VSt R) (new : Nat → Nat → List (VCus R)) (k e : Nat) (x : Sv R) :
    vval (s.add new) k e x = (new k e).foldl VCus.app (vval s k e x) := by
  have hfold : ∀ (cs : List (VCus R)) (l : List (Nat × R)),
      (fun i => ((cs.foldl merge l).lookup i).getD (x.entry i)) =
        cs.foldl VCus.app (fun i => (l.lookup i).getD (x.entry i)) := by
    intro cs
    induction cs with
    | nil => intro l; rfl
    | cons c cs ih =>
      intro l
      simp only [List.foldl_cons]
      rw [ih]
      congr 1
      funext a
      exact merge_lookup x.entry l c a
  have hv : ∀ s : VSt R, vval s k e x = (s.pending k e).foldl VCus.app
      (fun i => (((s.applied k e).getD []).lookup i).getD (x.entry i)) := by
    intro s
    rw [← hfold]
    funext i
    unfold vval VSt.flush
    simp only
    cases hp : s.pending k e with
    | nil => simp
    | cons c cs => simp
  rw [hv, hv]
  simp [VSt.add, List.foldl_append]

/-- all customized rows are in the local vectors. -/
def VStOK (GI : ChainGM) (B : EWV R) [Zero R] (s : VSt R) : Prop :=
  ∀ k e x, (k, e, x) ∈ elemsOf B → ∀ p ∈ (s.flush.applied k e).getD [], p.1 < (vec GI k e).length

theorem vstOK_add [Zero R] {GI : ChainGM} {B : EWV R} {s : VSt R} (h : VStOK GI B s)
    (new : Nat → Nat → List (VCus R))
    (hn : ∀ k e x, (k, e, x) ∈ elemsOf B → ∀ c ∈ new k e, ∀ i ∈ c.idx, i < (vec GI k e).length) :
    VStOK GI B (s.add new) := by
  intro k e x hmem
  have hfold : ∀ (cs : List (VCus R)) (l : List (Nat × R)), ∀ p ∈ cs.foldl merge l,
      (∃ c ∈ cs, p.1 ∈ c.idx) ∨ ∃ q ∈ l, q.1 = p.1 := by
    intro cs
    induction cs with
    | nil => intro l p hp; exact Or.inr ⟨p, hp, rfl⟩
    | cons c cs ih =>
      intro l p hp
      rcases ih _ p hp with ⟨c', h1, h2⟩ | ⟨q, h1, h2⟩
      · exact Or.inl ⟨c', by simp [h1], h2⟩
      · rcases merge_keys l c q h1 with h | ⟨q', h3, h4⟩
        · exact Or.inl ⟨c, by simp, by rw [← h2]; exact h⟩
        · exact Or.inr ⟨q', h3, h4.trans h2⟩
  have hbase := h k e x hmem
  have hflush : ∀ s : VSt R, (s.flush.applied k e).getD [] = (s.pending k e).foldl merge ((s.applied k e).getD []) := by
    intro s
    unfold VSt.flush
    simp only
    cases hp : s.pending k e with
    | nil => simp
    | cons c cs => simp
  rw [hflush] at hbase ⊢
  intro p hp
  simp only [VSt.add, List.foldl_append] at hp
  rcases hfold _ _ p hp with ⟨c, h1, h2⟩ | ⟨q, h1, h2⟩
  · exact hn k e x hmem c h1 _ h2
  · rw [← h2]
    exact hbase q h1

theorem setItems_spec [AddCommMonoid R] {gi : List Nat} {x : Sv R} (hx : VFits gi x) (l : List (Nat × R))
    (hl : ∀ p ∈ l, p.1 < gi.length) :
    ∃ x', setItems x l = some x' ∧ VFits gi x' ∧ ∀ i, i < gi.length → x'.entry i = (l.lookup i).getD (x.entry i) := by
  unfold setItems
  rw [if_pos]
  · refine ⟨_, rfl, ⟨hx.len, ?_⟩, ?_⟩
    · intro p hp
      obtain ⟨i, hi, rfl⟩ := List.mem_map.mp hp
      rw [List.mem_range, hx.len] at hi
      exact hi
    · intro i hi
      unfold Sv.entry
      simp only [List.map_map]
      have := sum_indicator (List.range x.len) List.nodup_range i (by rw [List.mem_range, hx.len]; exact hi)
        ((l.lookup i).getD (x.entry i))
      refine Eq.trans ?_ this
      congr 1
      apply List.map_congr_left
      intro j _
      simp only [Function.comp_apply]
      split
      · next h => rw [h]; rfl
      · rfl
  · rw [List.all_eq_true]
    intro p hp
    rw [hx.len]
    simpa using hl p hp

theorem exec_spec [AddCommMonoid R] {gi : List Nat} {x : Sv R} (hx : VFits gi x) (s : VSt R) (k e : Nat)
    (hl : ∀ p ∈ (s.flush.applied k e).getD [], p.1 < gi.length) :
    ∃ x', s.exec k e x = some x' ∧ VFits gi x' ∧ ∀ i, i < gi.length → x'.entry i = vval s k e x i := by
  unfold VSt.exec vval
  cases h : s.flush.applied k e with
  | none => exact ⟨x, rfl, hx, fun i _ => by simp⟩
  | some l =>
    rw [h] at hl
    exact setItems_spec hx l hl

/-- An element-wise vector is consistent with its gathering matrix. -/
structure VecOK (GI : ChainGM) (B : EWV R) : Prop where
  vecI : ∀ k e x, (k, e, x) ∈ elemsOf B → GI.get k e = some (vec GI k e)
  fits : ∀ k e x, (k, e, x) ∈ elemsOf B → VFits (vec GI k e) x
  ltI : ∀ k e x, (k, e, x) ∈ elemsOf B → ∀ d ∈ vec GI k e, d < GI.total

/-- the sum of the contributions of all elements. -/
def vtotal [AddCommMonoid R] (GI : ChainGM) (B : EWV R) (s : VSt R) (r : Nat) : R :=
  ((elemsOf B).map fun x => vcontrib (vec GI x.1 x.2.1) (vval s x.1 x.2.1 x.2.2) r).sum

theorem vcontrib_congr [AddCommMonoid R] (gi : List Nat) (d d' : Nat → R) (r : Nat)
    (h : ∀ i, i < gi.length → gi.getD i 0 = r → d i = d' i) : vcontrib gi d r = vcontrib gi d' r := by
  unfold vcontrib
  apply Finset.sum_congr rfl
  intro i hi
  rw [Finset.mem_range] at hi
  split
  · next hc => exact h i hi hc
  · rfl

theorem vcontrib_not_mem [AddCommMonoid R] (gi : List Nat) (d : Nat → R) (r : Nat) (h : r ∉ gi) :
    vcontrib gi d r = 0 := by
  rw [vcontrib_congr gi d (fun _ => 0)]
  · simp [vcontrib]
  · intro i hi h1
    exact absurd (mem_of_getD hi h1) h

theorem vcontrib_single [AddCommMonoid R] (gi : List Nat) (hn : gi.Nodup) (d : Nat → R) {p r : Nat}
    (hp : gi[p]? = some r) : vcontrib gi d r = d p := by
  unfold vcontrib
  obtain ⟨hp1, hp2⟩ := List.getElem?_eq_some_iff.mp hp
  rw [Finset.sum_eq_single p]
  · rw [if_pos]
    simp [List.getD, hp]
  · intro i hir hip
    rw [Finset.mem_range] at hir
    rw [if_neg]
    intro h1
    exact hip (getD_inj hn hir h1 hp)
  · intro h
    exact absurd (Finset.mem_range.mpr hp1) h

theorem vcontrib_set [AddCommMonoid R] (gi : List Nat) (hn : gi.Nodup) (d : Nat → R) (w : R) {p M : Nat}
    (hp : gi[p]? = some M) (r : Nat) :
    vcontrib gi (fun a => if a = p then w else d a) r = if r = M then w else vcontrib gi d r := by
  split
  · next h =>
    subst h
    rw [vcontrib_single gi hn _ hp]
    simp
  · next h =>
    apply vcontrib_congr
    intro i _ h1
    rw [if_neg]
    rintro rfl
    apply h
    rw [← h1]
    simp [List.getD, hp]

theorem assembleVec_spec [AddCommMonoid R] {GI : ChainGM} {B : EWV R} {s : VSt R} (h : VecOK GI B)
    (hs : VStOK GI B s) : assembleVec GI B s = some (vtotal GI B s) := by
  have hex : ∀ k e x, ∃ x', (k, e, x) ∈ elemsOf B → s.exec k e x = some x' ∧ VFits (vec GI k e) x' ∧
      ∀ i, i < (vec GI k e).length → x'.entry i = vval s k e x i := by
    intro k e x
    by_cases hm : (k, e, x) ∈ elemsOf B
    · obtain ⟨x', h'⟩ := exec_spec (h.fits k e x hm) s k e (hs k e x hm)
      exact ⟨x', fun _ => h'⟩
    · exact ⟨x, fun h' => absurd h' hm⟩
  choose F hF using hex
  have hmemOf : ∀ l k, (l, k) ∈ B.zipIdx → ∀ e m, (e, m) ∈ l → (k, e, m) ∈ elemsOf B := by
    intro l k hk e m hm
    unfold elemsOf
    exact List.mem_flatMap.mpr ⟨_, hk, List.mem_map.mpr ⟨_, hm, rfl⟩⟩
  have hread : (B.zipIdx.mapM fun lk : List (Nat × Sv R) × Nat => readVecRank GI s lk.2 lk.1) =
      some (B.zipIdx.map fun lk => lk.1.map fun x => (vec GI lk.2 x.1, F lk.2 x.1 x.2)) := by
    apply mapM_eq_map
    rintro ⟨l, k⟩ hk
    apply mapM_eq_map
    rintro ⟨e, m⟩ hm
    have hmem := hmemOf l k hk e m hm
    simp only
    rw [h.vecI k e m hmem, (hF k e m hmem).1]
    rfl
  unfold assembleVec
  rw [hread]
  simp only [Option.bind_some]
  rw [asmVec_spec]
  · simp only [Option.some.injEq]
    funext r
    unfold vtotal elemsOf
    rw [List.map_flatMap, ← List.flatMap_def, List.map_flatMap]
    congr 1
    rw [List.flatMap_def, List.flatMap_def]
    congr 1
    apply List.map_congr_left
    rintro ⟨l, k⟩ hk
    rw [List.map_map, List.map_map]
    apply List.map_congr_left
    rintro ⟨e, m⟩ hm
    have hmem := hmemOf l k hk e m hm
    simp only [Function.comp_apply]
    apply vcontrib_congr
    intro i hi _
    exact (hF k e m hmem).2.2 i hi
  · intro l hl x hx
    obtain ⟨⟨l', k⟩, hk, rfl⟩ := List.mem_map.mp hl
    obtain ⟨⟨e, m⟩, hm, rfl⟩ := List.mem_map.mp hx
    have hmem := hmemOf l' k hk e m hm
    exact ⟨(hF k e m hmem).2.1, h.ltI k e m hmem⟩

/-- the elements found are listed in ascending order on every core. -/
def FindsAscending (G : ChainGM) (nR : Nat) (m : Int) : Prop :=
  ∀ k, k < nR → ∀ es is, G.find k m = some (some (es, is)) → es.Pairwise (· < ·)

theorem setVec_total [AddCommMonoid R] {GI : ChainGM} {B : EWV R} {s : VSt R}
    (hdict : ∀ l ∈ B, (l.map Prod.fst).Nodup) (hs : VStOK GI B s)
    (hnd : ∀ k e a, (k, e, a) ∈ elemsOf B → (vec GI k e).Nodup) {i : Int} {I : Nat}
    (hf : Finds GI B i I) (hasc : FindsAscending GI B.length i) (v : R) :
    (setVecEntry GI B.length i v s = none ∧ ∀ k e a, (k, e, a) ∈ elemsOf B → I ∉ vec GI k e) ∨
    ∃ s', setVecEntry GI B.length i v s = some s' ∧ VStOK GI B s' ∧
      (∃ k e a, (k, e, a) ∈ elemsOf B ∧ I ∈ vec GI k e) ∧
      ∀ r, vtotal GI B s' r = if r = I then v else vtotal GI B s r := by
  obtain ⟨out, hout, hlen, hel, hsub⟩ := finds_elem hf
  obtain ⟨_, hoget⟩ := (mapM_some_iff _ _ _).mp hout
  unfold setVecEntry
  rw [hout]
  simp only [Option.bind_some]
  set es : Nat → List Nat := fun k => match out.getD k none with
      | none => []
      | some o => o.1 with hes
  have hmemes : ∀ k e a, (k, e, a) ∈ elemsOf B → (e ∈ es k ↔ I ∈ vec GI k e) := by
    intro k e a hmem
    have hk := (mem_elemsOf.mp hmem).1
    have h1 := hel k e a hmem
    simp only [hes]
    cases ho : out.getD k none with
    | none =>
      rw [ho] at h1
      simp only at h1 ⊢
      rcases h1 with ⟨h1, _⟩ | ⟨p, _, h2⟩
      · simp [h1]
      · simp at h2
    | some o =>
      rw [ho] at h1
      simp only at h1 ⊢
      constructor
      · intro he
        exact (hsub k hk o ho e he).2
      · intro hI
        rcases h1 with ⟨h1, _⟩ | ⟨p, _, h2⟩
        · exact absurd hI h1
        · have : (e, p) ∈ (o.1.zip o.2).filter (fun p => p.1 == e) := by rw [h2]; simp
          exact (List.of_mem_zip (List.mem_filter.mp this).1).1
  have hesfrom : ∀ k, k < B.length → ∀ e ∈ es k, ∃ a, (k, e, a) ∈ elemsOf B := by
    intro k hk e he
    simp only [hes] at he
    cases ho : out.getD k none with
    | none => rw [ho] at he; simp at he
    | some o =>
      rw [ho] at he
      obtain ⟨⟨e', a⟩, h1, h2⟩ := List.mem_map.mp (hsub k hk o ho e he).1
      simp only at h2
      subst h2
      exact ⟨a, mem_elemsOf.mpr ⟨hk, h1⟩⟩
  cases hmin : vecMin ((List.range B.length).flatMap es) with
  | none =>
    left
    refine ⟨rfl, ?_⟩
    have hnil : (List.range B.length).flatMap es = [] := by
      cases h0 : (List.range B.length).flatMap es with
      | nil => rfl
      | cons a l => rw [h0] at hmin; simp [vecMin] at hmin
    intro k e a hmem hI
    have : e ∈ (List.range B.length).flatMap es :=
      List.mem_flatMap.mpr ⟨k, List.mem_range.mpr (mem_elemsOf.mp hmem).1, (hmemes k e a hmem).mpr hI⟩
    rw [hnil] at this
    simp at this
  | some e0 =>
    right
    obtain ⟨hm1, hm2⟩ := vecMin_le hmin
    obtain ⟨k1, hk1, hk1e⟩ := List.mem_flatMap.mp hm1
    simp only
    set who := (List.range B.length).findIdx (fun k => (es k).contains e0) with hwho
    have hwlt : who < (List.range B.length).length := by
      rw [hwho, List.findIdx_lt_length]
      exact ⟨k1, hk1, by rw [List.contains_iff_mem]; exact hk1e⟩
    have hwB : who < B.length := by simpa using hwlt
    have hwc : (es who).contains e0 = true := by
      have := List.findIdx_getElem (p := fun k => (es k).contains e0) (xs := List.range B.length) (w := hwlt)
      simp only [List.getElem_range] at this
      exact this
    rw [List.contains_iff_mem] at hwc
    obtain ⟨a0, ha0⟩ := hesfrom who hwB e0 hwc
    have hhead : (es who).head? = some e0 := by
      have hpw : (es who).Pairwise (· < ·) := by
        simp only [hes]
        cases ho : out.getD who none with
        | none => simp
        | some o =>
          have hwo : who < out.length := by omega
          have h2 := hoget who (by simpa using hwB) hwo
          have h3 : out.getD who none = out[who] := by simp [List.getD, hwo]
          rw [h3] at ho
          rw [ho] at h2
          simp only [List.getElem_range] at h2
          exact hasc who hwB o.1 o.2 h2
      cases hE : es who with
      | nil => rw [hE] at hwc; simp at hwc
      | cons b l =>
        rw [hE] at hwc hpw
        simp only [List.head?_cons, Option.some.injEq]
        have hb : e0 ≤ b := hm2 b (List.mem_flatMap.mpr ⟨who, List.mem_range.mpr hwB, by rw [hE]; simp⟩)
        rcases List.mem_cons.mp hwc with h | h
        · exact h.symm
        · have := (List.pairwise_cons.mp hpw).1 e0 h
          omega
    have hnew : ∀ k e a, (k, e, a) ∈ elemsOf B →
        (I ∉ vec GI k e ∧ (match out.getD k none with
          | none => ([] : List (VCus R))
          | some (es, is) => ((es.zip is).filter fun p => p.1 == e).map fun p =>
              if k = who ∧ e = e0 then VCus.slet p.2 v else VCus.cletr p.2) = []) ∨
        (∃ p, (vec GI k e)[p]? = some I ∧ (match out.getD k none with
          | none => ([] : List (VCus R))
          | some (es, is) => ((es.zip is).filter fun p => p.1 == e).map fun p =>
              if k = who ∧ e = e0 then VCus.slet p.2 v else VCus.cletr p.2) =
            [if k = who ∧ e = e0 then VCus.slet p v else VCus.cletr p]) := by
      intro k e a hmem
      have h1 := hel k e a hmem
      cases ho : out.getD k none with
      | none =>
        rw [ho] at h1
        simp only at h1 ⊢
        rcases h1 with ⟨h1, _⟩ | ⟨p, _, h2⟩
        · exact Or.inl ⟨h1, trivial⟩
        · simp at h2
      | some o =>
        rw [ho] at h1
        simp only at h1 ⊢
        rcases h1 with ⟨h1, h2⟩ | ⟨p, h1, h2⟩
        · left
          rw [h2]
          exact ⟨h1, rfl⟩
        · right
          refine ⟨p, h1, ?_⟩
          rw [h2]
          rfl
    refine ⟨s.add (fun k e => match out.getD k none with
          | none => ([] : List (VCus R))
          | some (es, is) => ((es.zip is).filter fun p => p.1 == e).map fun p =>
              if k = who ∧ e = e0 then VCus.slet p.2 v else VCus.cletr p.2), if_pos hhead, ?_, ⟨who, e0, a0, ha0, (hmemes who e0 a0 ha0).mp hwc⟩, ?_⟩
    · apply vstOK_add hs
      intro k e a hmem c hc j hj
      rcases hnew k e a hmem with ⟨_, h⟩ | ⟨p, h1, h⟩
      · rw [h] at hc
        simp at hc
      · rw [h] at hc
        simp only [List.mem_singleton] at hc
        subst hc
        have : j = p := by
          split at hj <;> simpa [VCus.idx] using hj
        rw [this]
        exact getElem?_lt h1
    · intro r
      have helem : ∀ x ∈ elemsOf B, vcontrib (vec GI x.1 x.2.1) (vval (s.add fun k e => match out.getD k none with
            | none => ([] : List (VCus R))
            | some (es, is) => ((es.zip is).filter fun p => p.1 == e).map fun p =>
                if k = who ∧ e = e0 then VCus.slet p.2 v else VCus.cletr p.2) x.1 x.2.1 x.2.2) r =
          if r = I then (if (x.1, x.2.1) = (who, e0) then v else 0)
          else vcontrib (vec GI x.1 x.2.1) (vval s x.1 x.2.1 x.2.2) r := by
        rintro ⟨k, e, a⟩ hmem
        simp only
        rw [vval_add]
        rcases hnew k e a hmem with ⟨h1, h⟩ | ⟨p, h1, h⟩
        · rw [h]
          simp only [List.foldl_nil]
          split
          · next hr =>
            subst hr
            rw [vcontrib_not_mem _ _ _ h1, if_neg]
            intro h
            simp only [Prod.mk.injEq] at h
            obtain ⟨rfl, rfl⟩ := h
            exact h1 ((hmemes _ _ _ ha0).mp hwc)
          · rfl
        · rw [h]
          simp only [List.foldl_cons, List.foldl_nil]
          have happ : (if k = who ∧ e = e0 then VCus.slet p v else VCus.cletr p).app (vval s k e a) =
              fun b => if b = p then (if k = who ∧ e = e0 then v else 0) else vval s k e a b := by
            split <;> rfl
          rw [happ, vcontrib_set _ (hnd k e a hmem) _ _ h1]
          simp only [Prod.mk.injEq]
      unfold vtotal
      refine (congrArg List.sum (List.map_congr_left helem)).trans ?_
      split
      · have := sum_indicator ((elemsOf B).map fun x => (x.1, x.2.1)) (elemsOf_nodup B hdict) (who, e0)
          (List.mem_map.mpr ⟨_, ha0, rfl⟩) v
        rw [List.map_map] at this
        exact this
      · rfl

end Mifem.Asm
