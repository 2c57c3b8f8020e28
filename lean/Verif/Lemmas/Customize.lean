import Verif.Lemmas.Assembly

/-!
# Lemmas on customizations
-/

namespace Mifem.Asm
open Mifem.Gath
open Finset (range)

variable {R : Type}

/-! ### entries of customized local matrices -/

theorem toCsr_entry [AddCommMonoid R] (rows cols : Nat) (d : Nat → Nat → R) (i j : Nat) (hi : i < rows) (hj : j < cols) :
    (toCsr rows cols d).entry i j = d i j := by
  unfold toCsr Sp.entry
  simp only [if_true]
  have : ((List.range rows).map fun i => (List.range cols).map fun j => (j, d i j)).getD i [] =
      (List.range cols).map fun j => (j, d i j) := by
    simp [List.getD, hi]
  rw [this, List.map_map]
  have key : ∀ n, j < n → ((List.range n).map ((fun p : Nat × R => if p.1 = j then p.2 else 0) ∘
      fun j => (j, d i j))).sum = d i j := by
    intro n
    induction n with
    | zero => intro h; omega
    | succ n ih =>
      intro h
      rw [List.range_succ, List.map_append, List.sum_append]
      by_cases hjn : j = n
      · subst hjn
        have h0 : ((List.range j).map ((fun p : Nat × R => if p.1 = j then p.2 else 0) ∘ fun j => (j, d i j))).sum = 0 := by
          apply List.sum_eq_zero
          intro x hx
          obtain ⟨y, hy, rfl⟩ := List.mem_map.mp hx
          rw [List.mem_range] at hy
          simp only [Function.comp_apply]
          rw [if_neg (by omega)]
        rw [h0]
        simp
      · rw [ih (by omega)]
        simp only [List.map_cons, List.map_nil, Function.comp_apply, List.sum_cons, List.sum_nil]
        rw [if_neg (by omega)]
        simp
  exact key cols hj

theorem toCsr_fits (gi gj : List Nat) (d : Nat → Nat → R) : Fits gi gj (toCsr gi.length gj.length d) := by
  refine ⟨rfl, rfl, by simp [toCsr], ?_⟩
  intro sl hsl p hp
  simp only [toCsr] at hsl
  obtain ⟨i, _, rfl⟩ := List.mem_map.mp hsl
  obtain ⟨j, hj, rfl⟩ := List.mem_map.mp hp
  simpa [toCsr] using hj

/-- the entries after the customizations. -/
def cd [AddCommMonoid R] [One R] (m : Sp R) (l : List (Cus R)) : Nat → Nat → R := l.foldl Cus.apply m.entry

theorem cusAll_eq [Zero R] [One R] (rows cols : Nat) (l : List (Cus R)) (h : ∀ c ∈ l, c.ok rows cols = true)
    (d : Nat → Nat → R) : cusAll rows cols d l = some (l.foldl Cus.apply d) := by
  unfold cusAll
  induction l generalizing d with
  | nil => rfl
  | cons c l ih =>
    rw [List.foldlM_cons, if_pos (h c (by simp))]
    simp only [Option.bind_eq_bind, Option.bind_some, List.foldl_cons]
    exact ih (fun c hc => h c (by simp [hc])) _

theorem execCus_spec [AddCommMonoid R] [One R] {gi gj : List Nat} {m : Sp R} (hm : Fits gi gj m) (l : List (Cus R))
    (h : ∀ c ∈ l, c.ok gi.length gj.length = true) :
    ∃ m', execCus m l = some m' ∧ Fits gi gj m' ∧
      ∀ i j, i < gi.length → j < gj.length → m'.entry i j = cd m l i j := by
  unfold execCus
  cases l with
  | nil => exact ⟨m, rfl, hm, fun i j _ _ => rfl⟩
  | cons c l =>
    simp only [List.isEmpty_cons, Bool.false_eq_true, if_false, hm.rows, hm.cols]
    rw [cusAll_eq _ _ _ h]
    refine ⟨_, rfl, toCsr_fits gi gj _, ?_⟩
    intro i j hi hj
    rw [toCsr_entry _ _ _ _ _ hi hj]
    rfl

theorem contrib_congr [AddCommMonoid R] (gi gj : List Nat) (d d' : Nat → Nat → R)
    (r c : Nat) (h : ∀ i j, i < gi.length → j < gj.length → gi.getD i 0 = r → gj.getD j 0 = c → d i j = d' i j) :
    contrib gi gj d r c = contrib gi gj d' r c := by
  unfold contrib
  apply Finset.sum_congr rfl
  intro i hi
  apply Finset.sum_congr rfl
  intro j hj
  rw [Finset.mem_range] at hi hj
  split
  · next hc => exact h i j hi hj hc.1 hc.2
  · rfl

theorem contrib_zero [AddCommMonoid R] (gi gj : List Nat) (d : Nat → Nat → R)
    (r c : Nat) (h : ∀ i j, i < gi.length → j < gj.length → gi.getD i 0 = r → gj.getD j 0 = c → d i j = 0) :
    contrib gi gj d r c = 0 := by
  rw [contrib_congr gi gj d (fun _ _ => 0) r c h]
  simp [contrib]

theorem getD_inj {g : List Nat} (hn : g.Nodup) {i p x : Nat} (hi : i < g.length) (h : g.getD i 0 = x)
    (hp : g[p]? = some x) : i = p := by
  obtain ⟨hp1, hp2⟩ := List.getElem?_eq_some_iff.mp hp
  simp only [List.getD, hi, List.getElem?_eq_getElem, Option.getD_some] at h
  exact (hn.getElem_inj_iff).mp (h.trans hp2.symm)

theorem contrib_single [AddCommMonoid R] (gi gj : List Nat) (hi : gi.Nodup) (hj : gj.Nodup) (d : Nat → Nat → R)
    {p q r c : Nat} (hp : gi[p]? = some r) (hq : gj[q]? = some c) : contrib gi gj d r c = d p q := by
  unfold contrib
  obtain ⟨hp1, hp2⟩ := List.getElem?_eq_some_iff.mp hp
  obtain ⟨hq1, hq2⟩ := List.getElem?_eq_some_iff.mp hq
  rw [Finset.sum_eq_single p, Finset.sum_eq_single q]
  · rw [if_pos]
    simp [List.getD, hp, hq]
  · intro j hjr hjq
    rw [Finset.mem_range] at hjr
    rw [if_neg]
    rintro ⟨_, h2⟩
    exact hjq (getD_inj hj hjr h2 hq)
  · intro h
    exact absurd (Finset.mem_range.mpr hq1) h
  · intro i hir hip
    rw [Finset.mem_range] at hir
    apply Finset.sum_eq_zero
    intro j _
    rw [if_neg]
    rintro ⟨h1, _⟩
    exact hip (getD_inj hi hir h1 hp)
  · intro h
    exact absurd (Finset.mem_range.mpr hp1) h

theorem mem_of_getD {g : List Nat} {i x : Nat} (hi : i < g.length) (h : g.getD i 0 = x) : x ∈ g := by
  simp only [List.getD, hi, List.getElem?_eq_getElem, Option.getD_some] at h
  rw [← h]
  exact List.getElem_mem hi

theorem contrib_not_mem [AddCommMonoid R] (gi gj : List Nat) (d : Nat → Nat → R)
    (r c : Nat) (h : r ∉ gi ∨ c ∉ gj) : contrib gi gj d r c = 0 := by
  apply contrib_zero
  intro i j hi hj h1 h2
  exfalso
  rcases h with h | h
  · exact h (mem_of_getD hi h1)
  · exact h (mem_of_getD hj h2)

theorem contrib_clr [AddCommMonoid R] [One R] (gi gj : List Nat) (hi : gi.Nodup) (d : Nat → Nat → R) {p M : Nat}
    (hp : gi[p]? = some M) (r c : Nat) :
    contrib gi gj ((Cus.clr p).apply d) r c = if r = M then 0 else contrib gi gj d r c := by
  split
  · next h =>
    subst h
    apply contrib_zero
    intro i j hil _ h1 _
    have := getD_inj hi hil h1 hp
    simp [Cus.apply, this]
  · next h =>
    apply contrib_congr
    intro i j _ _ h1 _
    have : i ≠ p := by
      rintro rfl
      apply h
      rw [← h1]
      simp [List.getD, hp]
    simp [Cus.apply, this]

theorem contrib_salv [AddCommMonoid R] [One R] (gi gj : List Nat) (hi : gi.Nodup) (hj : gj.Nodup) (d : Nat → Nat → R)
    (v : R) {p q I J : Nat} (hp : gi[p]? = some I) (hq : gj[q]? = some J) (r c : Nat) :
    contrib gi gj ((Cus.salv p q v).apply d) r c = if r = I ∧ c = J then v else contrib gi gj d r c := by
  split
  · next h =>
    obtain ⟨rfl, rfl⟩ := h
    rw [contrib_single gi gj hi hj _ hp hq]
    simp [Cus.apply]
  · next h =>
    apply contrib_congr
    intro i j _ _ h1 h2
    have : ¬ (i = p ∧ j = q) := by
      rintro ⟨rfl, rfl⟩
      apply h
      rw [← h1, ← h2]
      simp [List.getD, hp, hq]
    simp [Cus.apply, this]

/-! ### the whole matrix -/

/-- all (core, element, matrix). -/
def elemsOf {α : Type} (A : List (List (Nat × α))) : List (Nat × Nat × α) :=
  A.zipIdx.flatMap fun lk => lk.1.map fun x => (lk.2, x.1, x.2)

theorem mem_elemsOf {α : Type} {A : List (List (Nat × α))} {k e : Nat} {m : α} :
    (k, e, m) ∈ elemsOf A ↔ ∃ h : k < A.length, (e, m) ∈ A[k] := by
  unfold elemsOf
  rw [List.mem_flatMap]
  constructor
  · rintro ⟨⟨l, k'⟩, hk, hx⟩
    obtain ⟨⟨e', m'⟩, hm, heq⟩ := List.mem_map.mp hx
    obtain ⟨hk1, hk2⟩ := List.mem_zipIdx' hk
    simp only [Prod.mk.injEq] at heq
    obtain ⟨rfl, rfl, rfl⟩ := heq
    exact ⟨hk1, by rw [← hk2]; exact hm⟩
  · rintro ⟨hk, hm⟩
    refine ⟨(A[k], k), ?_, List.mem_map.mpr ⟨(e, m), hm, rfl⟩⟩
    rw [List.mem_zipIdx_iff_getElem?]
    simp [hk]

/-- the gathering vector. -/
def vec (G : ChainGM) (k e : Nat) : List Nat := (G.get k e).getD []

/-- An element-wise matrix is consistent with its gathering matrices: every element has gathering vectors with numbers
below the totals, and its matrix has the right shape. -/
structure MatOK (GI GJ : ChainGM) (A : EWM R) : Prop where
  vecI : ∀ k e m, (k, e, m) ∈ elemsOf A → GI.get k e = some (vec GI k e)
  vecJ : ∀ k e m, (k, e, m) ∈ elemsOf A → GJ.get k e = some (vec GJ k e)
  fits : ∀ k e m, (k, e, m) ∈ elemsOf A → Fits (vec GI k e) (vec GJ k e) m
  ltI : ∀ k e m, (k, e, m) ∈ elemsOf A → ∀ d ∈ vec GI k e, d < GI.total
  ltJ : ∀ k e m, (k, e, m) ∈ elemsOf A → ∀ d ∈ vec GJ k e, d < GJ.total

/-- the customizations are inside the local matrices. -/
def CusOK (GI GJ : ChainGM) (A : EWM R) (cu : Custs R) : Prop :=
  ∀ k e m, (k, e, m) ∈ elemsOf A → ∀ c ∈ cu k e, c.ok (vec GI k e).length (vec GJ k e).length = true

/-- the sum of the contributions of all elements. -/
def total [AddCommMonoid R] [One R] (GI GJ : ChainGM) (A : EWM R) (cu : Custs R) (r c : Nat) : R :=
  ((elemsOf A).map fun x => contrib (vec GI x.1 x.2.1) (vec GJ x.1 x.2.1) (cd x.2.2 (cu x.1 x.2.1)) r c).sum

theorem assemble_spec [AddCommMonoid R] [One R] (T : Nat) {GI GJ : ChainGM} {A : EWM R} {cu : Custs R}
    (h : MatOK GI GJ A) (hc : CusOK GI GJ A cu) : assemble T GI GJ A cu = some (total GI GJ A cu) := by
  have hex : ∀ k e m, ∃ m', (k, e, m) ∈ elemsOf A → execCus m (cu k e) = some m' ∧ Fits (vec GI k e) (vec GJ k e) m' ∧
      ∀ i j, i < (vec GI k e).length → j < (vec GJ k e).length → m'.entry i j = cd m (cu k e) i j := by
    intro k e m
    by_cases hm : (k, e, m) ∈ elemsOf A
    · obtain ⟨m', h'⟩ := execCus_spec (h.fits k e m hm) (cu k e) (hc k e m hm)
      exact ⟨m', fun _ => h'⟩
    · exact ⟨m, fun h' => absurd h' hm⟩
  choose F hF using hex
  have hread : (A.zipIdx.mapM fun lk : List (Nat × Sp R) × Nat => readRank GI GJ cu lk.2 lk.1) =
      some (A.zipIdx.map fun lk => lk.1.map fun x => (vec GI lk.2 x.1, vec GJ lk.2 x.1, F lk.2 x.1 x.2)) := by
    apply mapM_eq_map
    rintro ⟨l, k⟩ hk
    apply mapM_eq_map
    rintro ⟨e, m⟩ hm
    have hmem : (k, e, m) ∈ elemsOf A := by
      unfold elemsOf
      exact List.mem_flatMap.mpr ⟨_, hk, List.mem_map.mpr ⟨_, hm, rfl⟩⟩
    simp only
    rw [h.vecI k e m hmem, h.vecJ k e m hmem, (hF k e m hmem).1]
    rfl
  unfold assemble
  rw [hread]
  simp only [Option.bind_some]
  rw [asm_spec]
  · simp only [Option.some.injEq]
    funext r c
    unfold total elemsOf
    rw [List.map_flatMap, ← List.flatMap_def, List.map_flatMap]
    have : ∀ {α β : Type} (l : List α) (f g : α → List β), (∀ a ∈ l, f a = g a) → l.flatMap f = l.flatMap g := by
      intro α β l f g hfg
      rw [List.flatMap_def, List.flatMap_def, List.map_congr_left hfg]
    congr 1
    apply this
    rintro ⟨l, k⟩ hk
    rw [List.map_map, List.map_map]
    apply List.map_congr_left
    rintro ⟨e, m⟩ hm
    have hmem : (k, e, m) ∈ elemsOf A := by
      unfold elemsOf
      exact List.mem_flatMap.mpr ⟨_, hk, List.mem_map.mpr ⟨_, hm, rfl⟩⟩
    simp only [Function.comp_apply]
    apply contrib_congr
    intro i j hi hj _ _
    exact (hF k e m hmem).2.2 i j hi hj
  · intro l hl x hx
    obtain ⟨⟨l', k⟩, hk, rfl⟩ := List.mem_map.mp hl
    obtain ⟨⟨e, m⟩, hm, rfl⟩ := List.mem_map.mp hx
    have hmem : (k, e, m) ∈ elemsOf A := by
      unfold elemsOf
      exact List.mem_flatMap.mpr ⟨_, hk, List.mem_map.mpr ⟨_, hm, rfl⟩⟩
    exact ⟨(hF k e m hmem).2.1, h.ltI k e m hmem, h.ltJ k e m hmem⟩

/-! ### searching dofs -/

/-- The search for dof `M` (called with `m`) is right on every core: it says None if no local element has the dof, and
otherwise gives exactly the local elements that have it, with a position. -/
def Finds {α : Type} (G : ChainGM) (A : List (List (Nat × α))) (m : Int) (M : Nat) : Prop :=
  ∀ k (h : k < A.length),
    (G.find k m = some none ∧ ∀ e ∈ A[k].map Prod.fst, M ∉ vec G k e) ∨
    (∃ es is, G.find k m = some (some (es, is)) ∧ es.Nodup ∧ is.length = es.length ∧
      (∀ e, e ∈ es ↔ e ∈ A[k].map Prod.fst ∧ M ∈ vec G k e) ∧
      ∀ i (h1 : i < es.length) (h2 : i < is.length), (vec G k es[i])[is[i]]? = some M)

theorem filter_zip (es is : List Nat) (hn : es.Nodup) (hl : is.length = es.length) (e : Nat) :
    (e ∉ es ∧ (es.zip is).filter (fun p => p.1 == e) = []) ∨
    (∃ i, ∃ (h1 : i < es.length) (h2 : i < is.length), es[i] = e ∧ (es.zip is).filter (fun p => p.1 == e) = [(e, is[i])]) := by
  induction es generalizing is with
  | nil => left; simp
  | cons a es ih =>
    cases is with
    | nil => simp at hl
    | cons b is =>
      have hn' := List.nodup_cons.mp hn
      rcases ih is hn'.2 (by simpa using hl) with ⟨h1, h2⟩ | ⟨i, h1, h2, h3, h4⟩
      · by_cases hae : a = e
        · right
          subst hae
          exact ⟨0, by simp, by simp, rfl, by simp [h2]⟩
        · left
          refine ⟨by simp only [List.mem_cons, not_or]; exact ⟨fun h => hae h.symm, h1⟩, ?_⟩
          rw [List.zip_cons_cons, List.filter_cons]
          simp [hae, h2]
      · right
        have hae : a ≠ e := by
          rintro rfl
          exact hn'.1 (h3 ▸ List.getElem_mem h1)
        refine ⟨i + 1, by simpa using h1, by simpa using h2, by simpa using h3, ?_⟩
        rw [List.zip_cons_cons, List.filter_cons]
        simp [hae, h4]

/-- what the search says about one element. -/
theorem finds_elem {α : Type} {G : ChainGM} {A : List (List (Nat × α))} {m : Int} {M : Nat} (hf : Finds G A m M) :
    ∃ out, ((List.range A.length).mapM fun k => G.find k m) = some out ∧ out.length = A.length ∧
      (∀ k e a, (k, e, a) ∈ elemsOf A →
        (M ∉ vec G k e ∧ (match out.getD k none with
            | none => ([] : List (Nat × Nat))
            | some o => ((o.1.zip o.2).filter fun p => p.1 == e)) = []) ∨
          (∃ p, (vec G k e)[p]? = some M ∧ (match out.getD k none with
            | none => ([] : List (Nat × Nat))
            | some o => ((o.1.zip o.2).filter fun p => p.1 == e)) = [(e, p)])) ∧
      (∀ k (h : k < A.length) o, out.getD k none = some o → ∀ e ∈ o.1, e ∈ A[k].map Prod.fst ∧ M ∈ vec G k e) := by
  have hex : ∀ k ∈ List.range A.length, ∃ o, G.find k m = some o := by
    intro k hk
    rcases hf k (List.mem_range.mp hk) with h | ⟨es, is, h, _⟩
    · exact ⟨_, h.1⟩
    · exact ⟨_, h⟩
  obtain ⟨out, hout⟩ := mapM_isSome _ _ hex
  obtain ⟨hlen, hget⟩ := (mapM_some_iff _ _ _).mp hout
  refine ⟨out, hout, by simpa using hlen, ?_, ?_⟩
  rotate_left
  · intro k hk o ho e he
    have hko : k < out.length := by simpa [hlen] using hk
    have hgk := hget k (by simpa using hk) hko
    simp only [List.getElem_range] at hgk
    have hgd : out.getD k none = out[k] := by simp [List.getD, hko]
    rw [hgd] at ho
    rw [ho] at hgk
    rcases hf k hk with ⟨h1, h2⟩ | ⟨es, is, h1, h2, h3, h4, h5⟩
    · rw [h1] at hgk
      simp at hgk
    · rw [h1] at hgk
      simp only [Option.some.injEq] at hgk
      subst hgk
      exact (h4 e).mp he
  intro k e a hmem
  obtain ⟨hk, hm⟩ := mem_elemsOf.mp hmem
  have hko : k < out.length := by simpa [hlen] using hk
  have hgk := hget k (by simpa using hk) hko
  simp only [List.getElem_range] at hgk
  have hel : e ∈ A[k].map Prod.fst := List.mem_map.mpr ⟨_, hm, rfl⟩
  have hgd : out.getD k none = out[k] := by simp [List.getD, hko]
  rw [hgd]
  rcases hf k hk with ⟨h1, h2⟩ | ⟨es, is, h1, h2, h3, h4, h5⟩
  · rw [h1] at hgk
    simp only [Option.some.injEq] at hgk
    rw [← hgk]
    exact Or.inl ⟨h2 e hel, rfl⟩
  · rw [h1] at hgk
    simp only [Option.some.injEq] at hgk
    rw [← hgk]
    simp only
    rcases filter_zip es is h2 h3 e with ⟨g1, g2⟩ | ⟨i, g1, g2, g3, g4⟩
    · left
      refine ⟨fun hM => g1 ((h4 e).mpr ⟨hel, hM⟩), g2⟩
    · right
      refine ⟨is[i], ?_, g4⟩
      have := h5 i g1 g2
      rwa [g3] at this

theorem sum_indicator [AddCommMonoid R] {α : Type} [DecidableEq α] (l : List α) (hn : l.Nodup) (a : α) (ha : a ∈ l)
    (v : R) : (l.map fun x => if x = a then v else 0).sum = v := by
  induction l with
  | nil => simp at ha
  | cons b l ih =>
    have hn' := List.nodup_cons.mp hn
    rw [List.map_cons, List.sum_cons]
    by_cases hb : b = a
    · subst hb
      have : (l.map fun x => if x = b then v else 0).sum = 0 := by
        apply List.sum_eq_zero
        intro y hy
        obtain ⟨x, hx, rfl⟩ := List.mem_map.mp hy
        rw [if_neg]
        rintro rfl
        exact hn'.1 hx
      rw [this]
      simp
    · rw [if_neg hb, zero_add]
      exact ih hn'.2 (by simpa [Ne.symm hb] using ha)

theorem elemsOf_nodup {α : Type} (A : List (List (Nat × α))) (h : ∀ l ∈ A, (l.map Prod.fst).Nodup) :
    ((elemsOf A).map fun x => (x.1, x.2.1)).Nodup := by
  have hmap : (elemsOf A).map (fun x => (x.1, x.2.1)) = A.zipIdx.flatMap fun lk => (lk.1.map Prod.fst).map fun e => (lk.2, e) := by
    unfold elemsOf
    rw [List.map_flatMap]
    congr 1
    funext lk
    simp [Function.comp_def]
  rw [hmap, List.nodup_flatMap]
  refine ⟨?_, ?_⟩
  · rintro ⟨l, k⟩ hk
    obtain ⟨hk1, hk2⟩ := List.mem_zipIdx' hk
    apply List.Nodup.map
    · intro a b hab
      simpa using hab
    · exact h l (by rw [hk2]; exact List.getElem_mem _)
  · have : (A.zipIdx.map Prod.snd).Nodup := by
      rw [List.zipIdx_map_snd]
      exact List.nodup_range'
    rw [List.nodup_map_iff_inj_on] at this
    · have hnd : A.zipIdx.Nodup := by
        apply List.Nodup.of_map Prod.snd
        rw [List.zipIdx_map_snd]
        exact List.nodup_range'
      apply List.Pairwise.imp_of_mem _ hnd
      intro a b ha hb hab
      simp only [Function.onFun]
      intro x hx hy
      obtain ⟨e, _, rfl⟩ := List.mem_map.mp hx
      obtain ⟨e', _, h2⟩ := List.mem_map.mp hy
      simp only [Prod.mk.injEq] at h2
      exact hab (this a ha b hb h2.1.symm)
    · apply List.Nodup.of_map Prod.snd
      rw [List.zipIdx_map_snd]
      exact List.nodup_range'

/-! ### clearing a row -/

theorem getElem?_lt {l : List Nat} {p x : Nat} (h : l[p]? = some x) : p < l.length :=
  (List.getElem?_eq_some_iff.mp h).1

theorem clear_total [AddCommMonoid R] [One R] {GI GJ : ChainGM} {A : EWM R} {cu : Custs R}
    (hc : CusOK GI GJ A cu) (hnd : ∀ k e a, (k, e, a) ∈ elemsOf A → (vec GI k e).Nodup) {m : Int} {M : Nat}
    (hf : Finds GI A m M) :
    ∃ cu', clearGlobalRow GI A.length m cu = some cu' ∧ CusOK GI GJ A cu' ∧
      ∀ r c, total GI GJ A cu' r c = if r = M then 0 else total GI GJ A cu r c := by
  obtain ⟨out, hout, hlen, hel, _⟩ := finds_elem hf
  unfold clearGlobalRow
  rw [hout]
  refine ⟨_, rfl, ?_, ?_⟩
  · intro k e a hmem x hx
    rcases List.mem_append.mp hx with hx | hx
    · exact hc k e a hmem x hx
    · have := hel k e a hmem
      cases ho : out.getD k none with
      | none => rw [ho] at hx; simp at hx
      | some o =>
        rw [ho] at hx this
        simp only at hx this
        rcases this with ⟨_, h2⟩ | ⟨p, h1, h2⟩
        · rw [h2] at hx
          simp at hx
        · rw [h2] at hx
          simp only [List.map_cons, List.map_nil, List.mem_singleton] at hx
          subst hx
          simpa [Cus.ok] using getElem?_lt h1
  · intro r c
    have helem : ∀ x ∈ elemsOf A, contrib (vec GI x.1 x.2.1) (vec GJ x.1 x.2.1) (cd x.2.2 (cu x.1 x.2.1 ++
        (match out.getD x.1 none with
          | none => []
          | some (es, is) => ((es.zip is).filter fun p => p.1 == x.2.1).map fun p => Cus.clr p.2))) r c =
        if r = M then 0 else contrib (vec GI x.1 x.2.1) (vec GJ x.1 x.2.1) (cd x.2.2 (cu x.1 x.2.1)) r c := by
      rintro ⟨k, e, a⟩ hmem
      have := hel k e a hmem
      simp only
      have hno : M ∉ vec GI k e → contrib (vec GI k e) (vec GJ k e) (cd a (cu k e)) r c =
          if r = M then 0 else contrib (vec GI k e) (vec GJ k e) (cd a (cu k e)) r c := by
        intro h1
        split
        · next h =>
          subst h
          exact contrib_not_mem _ _ _ _ _ (Or.inl h1)
        · rfl
      cases ho : out.getD k none with
      | none =>
        rw [ho] at this
        simp only at this
        rcases this with ⟨h1, _⟩ | ⟨p, _, h2⟩
        · simpa using hno h1
        · simp at h2
      | some o =>
        rw [ho] at this
        simp only at this ⊢
        rcases this with ⟨h1, h2⟩ | ⟨p, h1, h2⟩
        · rw [h2]
          simpa using hno h1
        · rw [h2]
          have : cd a (cu k e ++ [Cus.clr p]) = (Cus.clr p).apply (cd a (cu k e)) := by
            simp [cd, List.foldl_append]
          simp only [List.map_cons, List.map_nil, this]
          exact contrib_clr _ _ (hnd k e a hmem) _ h1 r c
    unfold total
    refine (congrArg List.sum (List.map_congr_left helem)).trans ?_
    split
    · simp
    · rfl

/-! ### setting an entry -/

theorem filter_tbg (rO cO : Option (List Nat × List Nat)) (e : Nat) :
    (tbg rO cO).filter (fun q => q.1 == e) =
      match (match rO with
          | none => ([] : List (Nat × Nat))
          | some o => (o.1.zip o.2).filter fun p => p.1 == e),
        (match cO with
          | none => ([] : List (Nat × Nat))
          | some o => (o.1.zip o.2).filter fun p => p.1 == e) with
      | rs, cs => rs.filterMap fun p => cs.head?.map fun q => (p.1, p.2, q.2) := by
  cases rO with
  | none => simp [tbg]
  | some ro =>
    cases cO with
    | none => simp [tbg]
    | some co =>
      obtain ⟨rE, rI⟩ := ro
      obtain ⟨cE, cI⟩ := co
      simp only [tbg, List.head?_filter]
      generalize hz : rE.zip rI = z
      clear hz
      induction z with
      | nil => simp
      | cons p z ih =>
        rw [List.filterMap_cons]
        by_cases hp : p.1 = e
        · subst hp
          simp only [List.filter_cons, beq_self_eq_true, if_true, List.filterMap_cons]
          cases hfind : (cE.zip cI).find? (fun q => q.1 == p.1) with
          | none => simpa [hfind] using ih
          | some q =>
            simp only [Option.map_some, List.filter_cons, beq_self_eq_true, if_true]
            rw [ih, hfind]
            simp
        · have hb : (p.1 == e) = false := by simpa using hp
          have ih' : (z.filter fun p => p.1 == e) = ((p :: z).filter fun p => p.1 == e) := by
            simp [List.filter_cons, hb]
          rw [← ih']
          cases hfind : (cE.zip cI).find? (fun q => q.1 == p.1) with
          | none => simpa [hfind] using ih
          | some q =>
            simp only [Option.map_some, List.filter_cons, hb, Bool.false_eq_true, if_false]
            exact ih

/-- `pick` chooses an element of a nonempty list. -/
def Picks (pick : List Nat → Nat) : Prop := ∀ l, l ≠ [] → pick l ∈ l

/-- the element at `(k, e)` has both dofs. -/
def HasBoth (GI GJ : ChainGM) (A : EWM R) (I J k e : Nat) : Prop :=
  ∃ a, (k, e, a) ∈ elemsOf A ∧ I ∈ vec GI k e ∧ J ∈ vec GJ k e

theorem set_total [AddCommMonoid R] [One R] {GI GJ : ChainGM} {A : EWM R} {cu : Custs R}
    (hdict : ∀ l ∈ A, (l.map Prod.fst).Nodup)
    (hc : CusOK GI GJ A cu) (hndI : ∀ k e a, (k, e, a) ∈ elemsOf A → (vec GI k e).Nodup)
    (hndJ : ∀ k e a, (k, e, a) ∈ elemsOf A → (vec GJ k e).Nodup) {i j : Int} {I J : Nat}
    (hfI : Finds GI A i I) (hfJ : Finds GJ A j J) (pick : List Nat → Nat) (hpick : Picks pick) (v : R) :
    ((setEntry pick GI GJ A.length i j v cu = none ∧ ∀ k e, ¬ HasBoth GI GJ A I J k e)) ∨
    ∃ cu', setEntry pick GI GJ A.length i j v cu = some cu' ∧ CusOK GI GJ A cu' ∧
      (∃ k e, HasBoth GI GJ A I J k e) ∧
      ∀ r c, total GI GJ A cu' r c = if r = I ∧ c = J then v else total GI GJ A cu r c := by
  obtain ⟨outI, houtI, hlenI, helI, hsubI⟩ := finds_elem hfI
  obtain ⟨outJ, houtJ, hlenJ, helJ, hsubJ⟩ := finds_elem hfJ
  unfold setEntry
  rw [houtI, houtJ]
  simp only [Option.bind_some]
  set t := List.zipWith tbg outI outJ with ht
  have htlen : t.length = A.length := by simp [ht, hlenI, hlenJ]
  have htk : ∀ k, k < A.length → t.getD k [] = tbg (outI.getD k none) (outJ.getD k none) := by
    intro k hk
    have h1 : k < outI.length := by omega
    have h2 : k < outJ.length := by omega
    have h3 : k < t.length := by omega
    simp [List.getD, h1, h2, h3, ht]
  -- the entry of an element
  have hent : ∀ k e a, (k, e, a) ∈ elemsOf A →
      ((I ∉ vec GI k e ∨ J ∉ vec GJ k e) ∧ (t.getD k []).filter (fun q => q.1 == e) = []) ∨
      (∃ p q, (vec GI k e)[p]? = some I ∧ (vec GJ k e)[q]? = some J ∧
        (t.getD k []).filter (fun q => q.1 == e) = [(e, p, q)]) := by
    intro k e a hmem
    rw [htk k (mem_elemsOf.mp hmem).1, filter_tbg]
    rcases helI k e a hmem with ⟨h1, h2⟩ | ⟨p, h1, h2⟩
    · left
      refine ⟨Or.inl h1, ?_⟩
      rw [h2]
      rfl
    · rcases helJ k e a hmem with ⟨g1, g2⟩ | ⟨q, g1, g2⟩
      · left
        refine ⟨Or.inr g1, ?_⟩
        rw [h2, g2]
        rfl
      · right
        refine ⟨p, q, h1, g1, ?_⟩
        rw [h2, g2]
        rfl
  -- entries of the lists come from elements
  have hfrom : ∀ k, k < A.length → ∀ q ∈ t.getD k [], ∃ a, (k, q.1, a) ∈ elemsOf A := by
    intro k hk q hq
    rw [htk k hk] at hq
    cases hoI : outI.getD k none with
    | none => rw [hoI] at hq; simp [tbg] at hq
    | some o =>
      cases hoJ : outJ.getD k none with
      | none => rw [hoI, hoJ] at hq; simp [tbg] at hq
      | some o' =>
        rw [hoI, hoJ] at hq
        obtain ⟨rE, rI⟩ := o
        obtain ⟨cE, cI⟩ := o'
        simp only [tbg, List.mem_filterMap] at hq
        obtain ⟨p, hp, hq⟩ := hq
        rw [Option.map_eq_some_iff] at hq
        obtain ⟨q', _, rfl⟩ := hq
        have := (hsubI k hk _ hoI p.1 (List.of_mem_zip hp).1).1
        obtain ⟨⟨e, a⟩, hea, he⟩ := List.mem_map.mp this
        simp only at he
        subst he
        exact ⟨a, mem_elemsOf.mpr ⟨hk, hea⟩⟩
  set all := t.flatten.map (fun q => q.1) with hall
  by_cases hempty : all.isEmpty = true
  · left
    rw [if_pos hempty]
    refine ⟨rfl, ?_⟩
    rintro k e ⟨a, hmem, h1, h2⟩
    rcases hent k e a hmem with ⟨h, _⟩ | ⟨p, q, _, _, h⟩
    · rcases h with h | h
      · exact h h1
      · exact h h2
    · have hin : (e, p, q) ∈ t.getD k [] := by
        have : (e, p, q) ∈ (t.getD k []).filter (fun q => q.1 == e) := by rw [h]; simp
        exact (List.mem_filter.mp this).1
      have hk : k < t.length := by rw [htlen]; exact (mem_elemsOf.mp hmem).1
      have : e ∈ all := by
        rw [hall]
        refine List.mem_map.mpr ⟨(e, p, q), List.mem_flatten.mpr ⟨t.getD k [], ?_, hin⟩, rfl⟩
        simp [List.getD, hk]
      rw [List.isEmpty_iff] at hempty
      rw [hempty] at this
      simp at this
  · right
    rw [if_neg hempty]
    have hne : all ≠ [] := by
      intro h
      exact hempty (List.isEmpty_iff.mpr h)
    have hpk := hpick all hne
    set e0 := pick all with he0
    set who := t.findIdx (fun l => (l.map fun q => q.1).contains e0) with hwho
    have hwlt : who < t.length := by
      rw [hwho, List.findIdx_lt_length]
      obtain ⟨q, hq, hqe⟩ := List.mem_map.mp hpk
      obtain ⟨l, hl, hql⟩ := List.mem_flatten.mp hq
      refine ⟨l, hl, ?_⟩
      rw [List.contains_iff_mem]
      exact List.mem_map.mpr ⟨q, hql, hqe⟩
    have hwA : who < A.length := by omega
    have hwc : ((t[who].map fun q => q.1).contains e0) = true := List.findIdx_getElem (w := hwlt)
    rw [List.contains_iff_mem] at hwc
    obtain ⟨q0, hq0, hq0e⟩ := List.mem_map.mp hwc
    have htw : t.getD who [] = t[who] := by simp [List.getD, hwlt]
    obtain ⟨a0, ha0⟩ := hfrom who hwA q0 (by rw [htw]; exact hq0)
    rw [hq0e] at ha0
    have hboth0 : ∃ p q : Nat, (vec GI who e0)[p]? = some I ∧ (vec GJ who e0)[q]? = some J := by
      rcases hent who e0 a0 ha0 with ⟨_, h⟩ | ⟨p, q, h1, h2, _⟩
      · exfalso
        have : q0 ∈ (t.getD who []).filter (fun q => q.1 == e0) := by
          rw [List.mem_filter, htw]
          exact ⟨hq0, by simpa using hq0e⟩
        rw [h] at this
        simp at this
      · exact ⟨p, q, h1, h2⟩
    obtain ⟨p0, c0, hp0, hc0⟩ := hboth0
    refine ⟨_, rfl, ?_, ⟨who, e0, a0, ha0, List.mem_of_getElem? hp0, List.mem_of_getElem? hc0⟩, ?_⟩
    · intro k e a hmem x hx
      rcases List.mem_append.mp hx with hx | hx
      · exact hc k e a hmem x hx
      · rcases hent k e a hmem with ⟨_, h⟩ | ⟨p, q, h1, h2, h⟩
        · rw [h] at hx
          simp at hx
        · rw [h] at hx
          simp only [List.map_cons, List.map_nil, List.mem_singleton] at hx
          subst hx
          simp [Cus.ok, getElem?_lt h1, getElem?_lt h2]
    · intro r c
      have helem : ∀ x ∈ elemsOf A, contrib (vec GI x.1 x.2.1) (vec GJ x.1 x.2.1) (cd x.2.2 (cu x.1 x.2.1 ++
          ((t.getD x.1 []).filter fun q => q.1 == x.2.1).map fun q =>
            Cus.salv q.2.1 q.2.2 (if x.1 = who ∧ x.2.1 = e0 then v else 0))) r c =
          if r = I ∧ c = J then (if (x.1, x.2.1) = (who, e0) then v else 0)
          else contrib (vec GI x.1 x.2.1) (vec GJ x.1 x.2.1) (cd x.2.2 (cu x.1 x.2.1)) r c := by
        rintro ⟨k, e, a⟩ hmem
        simp only
        rcases hent k e a hmem with ⟨h1, h2⟩ | ⟨p, q, h1, h2, h3⟩
        · rw [h2]
          simp only [List.map_nil, List.append_nil]
          split
          · next h =>
            obtain ⟨rfl, rfl⟩ := h
            rw [contrib_not_mem _ _ _ _ _ h1, if_neg]
            intro h
            simp only [Prod.mk.injEq] at h
            obtain ⟨rfl, rfl⟩ := h
            rcases h1 with h1 | h1
            · exact h1 (List.mem_of_getElem? hp0)
            · exact h1 (List.mem_of_getElem? hc0)
          · rfl
        · rw [h3]
          have hcd : ∀ w : R, cd a (cu k e ++ [Cus.salv p q w]) = (Cus.salv p q w).apply (cd a (cu k e)) := by
            intro w
            simp [cd, List.foldl_append]
          simp only [List.map_cons, List.map_nil, hcd]
          rw [contrib_salv _ _ (hndI k e a hmem) (hndJ k e a hmem) _ _ h1 h2]
          simp only [Prod.mk.injEq]
      unfold total
      refine (congrArg List.sum (List.map_congr_left helem)).trans ?_
      split
      · have := sum_indicator ((elemsOf A).map fun x => (x.1, x.2.1)) (elemsOf_nodup A hdict) (who, e0)
          (List.mem_map.mpr ⟨_, ha0, rfl⟩) v
        rw [List.map_map] at this
        exact this
      · rfl

end Mifem.Asm
