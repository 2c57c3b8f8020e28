import Verif.Lemmas.CustomizeVec
import Verif.Props.Find
import Verif.Props.Sequent

/-!
# C15, C16, C17: assembly, customizations of the assembled matrix, fixing an unknown

Specification: `contrib` (and `vcontrib`), the sum of the local entries that are mapped to a global entry, and `Solves`,
the meaning of a linear system.
-/

namespace Mifem.Props
open Mifem.Gath Mifem.Asm
open Finset (range)

variable {R : Type}

/-! ## C16 -/

/-- **C16.** For every threshold of the chunked assembly and every distribution of elements over cores: assembling raises
no error, and the entry `(r, c)` is the sum over all cores, elements and local positions mapped to `(r, c)` of the local
entries. Both storage formats of the local matrices are covered (`Sp.entry` is the value of an entry in either). -/
theorem c16_assembly [AddCommMonoid R] (T dep wid : Nat) (ls : List (List (List Nat × List Nat × Sp R)))
    (h : ∀ l ∈ ls, RankOK dep wid l) :
    ∃ F, asm T dep wid ls = some F ∧ ∀ r c, F r c =
      (ls.map fun l => (l.map fun x => ∑ i ∈ range x.1.length, ∑ j ∈ range x.2.1.length,
        if x.1.getD i 0 = r ∧ x.2.1.getD j 0 = c then x.2.2.entry i j else 0).sum).sum := by
  refine ⟨_, asm_spec T dep wid ls h, ?_⟩
  intro r c
  rw [List.map_flatten, List.sum_flatten, List.map_map]
  rfl

/-- **C16, distribution.** The assembled matrix does not depend on how the elements are distributed over the cores, on
their order, on the number of cores, on the chunk size, nor on the storage format of the local matrices. -/
theorem c16_distribution [AddCommMonoid R] (T T' dep wid : Nat) (ls ls' : List (List (List Nat × List Nat × Sp R)))
    (h : ∀ l ∈ ls, RankOK dep wid l) (h' : ∀ l ∈ ls', RankOK dep wid l)
    (hp : (ls.flatten.map fun x => (x.1, x.2.1, x.2.2.entry)).Perm
      (ls'.flatten.map fun x => (x.1, x.2.1, x.2.2.entry))) :
    asm T dep wid ls = asm T' dep wid ls' := by
  rw [asm_spec T dep wid ls h, asm_spec T' dep wid ls' h']
  congr 1
  funext r c
  have := (hp.map fun y : List Nat × List Nat × (Nat → Nat → R) => contrib y.1 y.2.1 y.2.2 r c).sum_eq
  rw [List.map_map, List.map_map] at this
  exact this

/-- **C16, vectors.** -/
theorem c16_vector [AddCommMonoid R] (dep : Nat) (ls : List (List (List Nat × Sv R))) (h : ∀ l ∈ ls, VRankOK dep l) :
    ∃ F, asmVec dep ls = some F ∧ ∀ r, F r = (ls.map fun l => (l.map fun x => ∑ i ∈ range x.1.length,
      if x.1.getD i 0 = r then x.2.entry i else 0).sum).sum := by
  refine ⟨_, asmVec_spec dep ls h, ?_⟩
  intro r
  rw [List.map_flatten, List.sum_flatten, List.map_map]
  rfl

theorem c16_vector_distribution [AddCommMonoid R] (dep : Nat) (ls ls' : List (List (List Nat × Sv R)))
    (h : ∀ l ∈ ls, VRankOK dep l) (h' : ∀ l ∈ ls', VRankOK dep l)
    (hp : (ls.flatten.map fun x => (x.1, x.2.entry)).Perm (ls'.flatten.map fun x => (x.1, x.2.entry))) :
    asmVec dep ls = asmVec dep ls' := by
  rw [asmVec_spec dep ls h, asmVec_spec dep ls' h']
  congr 1
  funext r
  have := (hp.map fun y : List Nat × (Nat → R) => vcontrib y.1 y.2 r).sum_eq
  rw [List.map_map, List.map_map] at this
  exact this

theorem triples_vals [AddCommMonoid R] {gi gj : List Nat} {m : Sp R} (h : Fits gi gj m) {ts : List (Nat × Nat × R)}
    (ht : m.triples gi gj = some ts) : ts.map (fun t => t.2.2) = m.slices.flatten.map Prod.snd := by
  rw [triples_eq h] at ht
  simp only [Option.some.injEq] at ht
  have key : ∀ (a b : List Nat) (sl : List (List (Nat × R))), (csrT a b sl).map (fun t => t.2.2) = sl.flatten.map Prod.snd := by
    intro a b sl
    unfold csrT
    rw [List.map_flatten, List.map_flatten, List.map_map]
    congr 1
    have : sl.map (List.map Prod.snd) = (sl.zipIdx.map Prod.fst).map (List.map Prod.snd) := by
      rw [List.zipIdx_map_fst]
    rw [this, List.map_map]
    apply List.map_congr_left
    intro x _
    simp [Function.comp_def]
  rw [← ht]
  split
  · exact key gi gj _
  · rw [List.map_map]
    exact key gj gi _

theorem allTriples_spec [AddCommMonoid R] {dep wid : Nat} {l : List (List Nat × List Nat × Sp R)}
    (h : RankOK dep wid l) : ∃ ts, allTriples l = some ts ∧ (∀ t ∈ ts, t.1 < dep ∧ t.2.1 < wid) ∧
      ts.map (fun t => t.2.2) = allData l ∧
      ∀ r c, tsum ts r c = (l.map fun x => contrib x.1 x.2.1 x.2.2.entry r c).sum := by
  induction l with
  | nil => exact ⟨[], rfl, by simp, rfl, fun r c => rfl⟩
  | cons x l ih =>
    obtain ⟨ts, h1, h2, h3, h4⟩ := ih (fun y hy => h y (by simp [hy]))
    obtain ⟨hf, hd, hw⟩ := h x (by simp)
    obtain ⟨tx, g1, g2, g3⟩ := triples_spec hf
    refine ⟨tx ++ ts, ?_, ?_, ?_, ?_⟩
    · unfold allTriples at h1 ⊢
      rw [Option.map_eq_some_iff] at h1
      obtain ⟨tss, h1, rfl⟩ := h1
      rw [List.mapM_cons, g1, h1]
      rfl
    · intro t ht
      rcases List.mem_append.mp ht with ht | ht
      · exact ⟨hd _ (g3 t ht).1, hw _ (g3 t ht).2⟩
      · exact h2 t ht
    · rw [List.map_append, triples_vals hf g1, h3]
      simp [allData]
    · intro r c
      rw [tsum_append, g2, h4]
      simp

/-- **C16 with locked sparsity**, on one core: the first assembly gives the same matrix as without the lock; so does a
later one, for other local data `l'`, provided that the stored positions of the local matrices are the same as those at
the first assembly. -/
theorem c16_locked [AddCommMonoid R] (T dep wid : Nat) (l l' : List (List Nat × List Nat × Sp R))
    (h : RankOK dep wid l) (h' : RankOK dep wid l')
    (hpat : (allTriples l).map (List.map fun t => (t.1, t.2.1)) = (allTriples l').map (List.map fun t => (t.1, t.2.1))) :
    ∃ F F' rc, asmLocked dep wid none l = some (F, rc) ∧ asmRank T dep wid l = some F ∧
      asmLocked dep wid (some rc) l' = some (F', rc) ∧ asmRank T dep wid l' = some F' := by
  obtain ⟨ts, h1, h2, h3, h4⟩ := allTriples_spec h
  obtain ⟨ts', h1', h2', h3', h4'⟩ := allTriples_spec h'
  rw [h1, h1'] at hpat
  simp only [Option.map_some, Option.some.injEq] at hpat
  refine ⟨tsum ts, tsum ts', ts.map fun t => (t.1, t.2.1), ?_, ?_, ?_, ?_⟩
  · simp [asmLocked, h1, coo_some h2]
  · rw [asmRank_spec T dep wid l h]
    congr 1
    funext r c
    exact (h4 r c).symm
  · simp only [asmLocked]
    rw [hpat, ← h3']
    have hz : ((ts'.map fun t => (t.1, t.2.1)).zip (ts'.map fun t => t.2.2)).map (fun p => (p.1.1, p.1.2, p.2)) = ts' := by
      rw [List.zip_map', List.map_map]
      simp [Function.comp_def]
    rw [if_pos (by simp), hz, coo_some h2']
    rfl
  · rw [asmRank_spec T dep wid l' h']
    congr 1
    funext r c
    exact (h4' r c).symm

/-- Without the proviso, the lock gives a wrong matrix: here the entry stored moves from `(0, 0)` to `(0, 1)`. -/
theorem c16_locked_pattern_changes :
    let l : List (List Nat × List Nat × Sp Int) := [([0, 1], [0, 1], ⟨true, 2, 2, [[(0, 5)], []]⟩)]
    let l' : List (List Nat × List Nat × Sp Int) := [([0, 1], [0, 1], ⟨true, 2, 2, [[(1, 5)], []]⟩)]
    ∃ F F' G rc, asmLocked 2 2 none l = some (F, rc) ∧ asmLocked 2 2 (some rc) l' = some (F', rc) ∧
      asmRank 10000000 2 2 l' = some G ∧ F' 0 1 = 0 ∧ G 0 1 = 5 :=
  ⟨_, _, _, _, rfl, rfl, rfl, by decide, by decide⟩

/-- A concrete case: two elements with a common dof, one stored by rows, one by columns; on one core and on two. -/
example : let x : List Nat × List Nat × Sp Int := ([0, 1], [0, 1], ⟨true, 2, 2, [[(0, 1), (1, 2)], [(1, 3)]]⟩)
    let y : List Nat × List Nat × Sp Int := ([1, 2], [1, 2], ⟨false, 2, 2, [[(0, 10), (1, 20)], [(1, 30)]]⟩)
    ∃ F F', asm 10000000 3 3 [[x, y]] = some F ∧ asm 1 3 3 [[y], [x]] = some F' ∧
      F 1 1 = 13 ∧ F 2 1 = 20 ∧ F 0 1 = 2 ∧ F' 1 1 = 13 ∧ F' 2 1 = 20 ∧ F' 0 1 = 2 :=
  ⟨_, _, rfl, rfl, by decide, by decide, by decide, by decide, by decide, by decide⟩

/-! ## C15 -/

/-- the elements of the cores. -/
def elsOf {α : Type} (A : List (List (Nat × α))) : List (List Nat) := A.map fun l => l.map Prod.fst

/-- `G` is the gathering matrix of a chain accepted by the constructor, for the elements `els` (by core), none of whose
vectors has a repeated number, and dof `m` can be searched. For the default method 'silly', the dof must be in no more
local elements than the limit of the search (see C03); for 'sequent' the condition of C02 on the members is required. -/
def Usable (G : ChainGM) (els : List (List Nat)) (m : Int) : Prop :=
  ∃ items c, mkChain els.length items = some c ∧ WellFormed els.length c.gms ∧ c.gms ≠ [] ∧ (∀ g ∈ c.gms, NoRepeat g) ∧
    (∀ k e, e ∈ els.getD k [] ↔ e ∈ elements (c.gms.headD []) k) ∧ (-(c.total : Int) ≤ m ∧ m < c.total) ∧
    ((G = silly c ∧ (∀ g ∈ c.gms, ∀ k, Regular g k) ∧
        ∀ k n, defaultN c.meshType none = some n → (holders c k (dofOf c.total m)).length ≤ n) ∨
      (G = sequent els.length c ∧ ∀ g ∈ c.gms, GrowsInBlocks (traversal c.gms els.length g)))

theorem elemsOf_els {α : Type} {A : List (List (Nat × α))} {k e : Nat} {a : α} (h : (k, e, a) ∈ elemsOf A) :
    e ∈ (elsOf A).getD k [] := by
  obtain ⟨hk, hm⟩ := mem_elemsOf.mp h
  simp only [elsOf, List.getD, List.getElem?_map, List.getElem?_eq_getElem hk, Option.map_some, Option.getD_some]
  exact List.mem_map.mpr ⟨_, hm, rfl⟩

theorem els_getD {α : Type} {A : List (List (Nat × α))} {k : Nat} (hk : k < A.length) :
    (elsOf A).getD k [] = A[k].map Prod.fst := by
  simp [elsOf, List.getD, List.getElem?_eq_getElem hk]

/-- numbers of a chained vector are distinct if those of the members are. -/
theorem chained_nodup {code : Nat → Nat → Nat} {gms : List GM} {r e : Nat} {v : List Nat}
    (hv : ChainedAs code gms r e v) (hnd : ∀ g ∈ gms, NoRepeat g)
    (hinj : ∀ j j' d d', ∀ (h : j < gms.length) (h' : j' < gms.length), Occurs gms[j] d → Occurs gms[j'] d' →
      code j d = code j' d' → j = j' ∧ d = d') : v.Nodup := by
  obtain ⟨ws, hl, hget, rfl⟩ := hv
  rw [List.nodup_flatten]
  refine ⟨?_, ?_⟩
  · intro l hl'
    obtain ⟨⟨w, j⟩, hj, rfl⟩ := List.mem_map.mp hl'
    obtain ⟨hj1, hj2⟩ := List.mem_zipIdx' hj
    have hjg : j < gms.length := by omega
    have hw := hget j hjg hj1
    simp only
    rw [List.nodup_map_iff_inj_on]
    · intro x hx y hy hxy
      rw [hj2] at hx hy
      exact (hinj j j x y hjg hjg ⟨r, e, _, hw, hx⟩ ⟨r, e, _, hw, hy⟩ hxy).2
    · rw [hj2]
      exact hnd _ (List.getElem_mem hjg) r e _ hw
  · rw [List.pairwise_map]
    have hnz : ws.zipIdx.Nodup := by
      apply List.Nodup.of_map Prod.snd
      rw [List.zipIdx_map_snd]
      exact List.nodup_range'
    apply List.Pairwise.imp_of_mem _ hnz
    rintro ⟨w, j⟩ ⟨w', j'⟩ hj hj' hne
    obtain ⟨hj1, hj2⟩ := List.mem_zipIdx' hj
    obtain ⟨hj1', hj2'⟩ := List.mem_zipIdx' hj'
    intro x hx hx'
    obtain ⟨d, hd, rfl⟩ := List.mem_map.mp hx
    obtain ⟨d', hd', he⟩ := List.mem_map.mp hx'
    simp only at hd hd' he hj2 hj2'
    rw [hj2] at hd
    rw [hj2'] at hd'
    have hjg : j < gms.length := by omega
    have hjg' : j' < gms.length := by omega
    have := hinj j j' d d' hjg hjg' ⟨r, e, _, hget j hjg hj1, hd⟩ ⟨r, e, _, hget j' hjg' hj1', hd'⟩ he.symm
    obtain ⟨rfl, _⟩ := this
    apply hne
    rw [hj2, hj2']

/-- What a usable gathering matrix gives: vectors for all elements, without repetition and below the total, and a right
search. -/
theorem usable_spec {α : Type} {G : ChainGM} {A : List (List (Nat × α))} {m : Int} (h : Usable G (elsOf A) m) :
    (∀ k e a, (k, e, a) ∈ elemsOf A → G.get k e = some (vec G k e) ∧ (vec G k e).Nodup ∧ ∀ d ∈ vec G k e, d < G.total) ∧
    Finds G A m (dofOf G.total m) := by
  obtain ⟨items, c, hmk, hwf, hne, hnr, hels, hm, hcase⟩ := h
  have hlen : (elsOf A).length = A.length := by simp [elsOf]
  rw [hlen] at hmk hwf
  obtain ⟨hg, hse, hns, htba, htot⟩ := mkChain_spec hmk
  obtain ⟨hnslen, hnsget⟩ := (mapM_some_iff _ _ _).mp hns
  have hhead : c.gms.headD [] ∈ c.gms := by
    cases hc : c.gms with
    | nil => exact absurd hc hne
    | cons a l => simp
  have helem : ∀ k e a, (k, e, a) ∈ elemsOf A → e ∈ elements (c.gms.headD []) k :=
    fun k e a hmem => (hels k e).mp (elemsOf_els hmem)
  have hlen' : ∀ (ws : List (List Nat)) (code : Nat → Nat → Nat) (n : Nat), (∀ j d, ∀ (h : j < c.gms.length),
      Occurs c.gms[j] d → code j d < n) → ∀ k e v, ChainedAs code c.gms k e v → ∀ d ∈ v, d < n := by
    rintro _ code n hlt k e v ⟨ws, hl, hget, rfl⟩ d hd
    obtain ⟨l, hl', hdl⟩ := List.mem_flatten.mp hd
    obtain ⟨⟨w, j⟩, hj, rfl⟩ := List.mem_map.mp hl'
    obtain ⟨x, hx, rfl⟩ := List.mem_map.mp hdl
    obtain ⟨hj1, hj2⟩ := List.mem_zipIdx' hj
    simp only at hx hj2
    rw [hj2] at hx
    have hjg : j < c.gms.length := by omega
    exact hlt j x hjg ⟨k, e, _, hget j hjg hj1, hx⟩
  rcases hcase with ⟨rfl, hreg, hfew⟩ | ⟨rfl, hgr⟩
  · have hocc : ∀ j d, ∀ (h : j < c.gms.length), Occurs c.gms[j] d → d < c.ns.getD j 0 := by
      intro j d hj ho
      have e1 : c.ns.getD j 0 = c.ns[j]'(by omega) := by simp [List.getD, (by omega : j < c.ns.length)]
      rw [e1]
      exact (globalNumDofs_spec (hwf _ (List.getElem_mem hj)).1 (hnsget j hj (by omega))).2.2 d ho
    have hvec : ∀ k e a, (k, e, a) ∈ elemsOf A → c.get k e = some (vec (silly c) k e) ∧
        ChainedAs (fun j d => d + (c.ns.take j).sum) c.gms k e (vec (silly c) k e) := by
      intro k e a hmem
      obtain ⟨v, hv, hch⟩ := c01_get hmk hwf _ hhead k e (helem k e a hmem)
      have : vec (silly c) k e = v := by simp [vec, silly, hv]
      rw [this]
      exact ⟨hv, hch⟩
    refine ⟨?_, ?_⟩
    · intro k e a hmem
      obtain ⟨h1, h2⟩ := hvec k e a hmem
      refine ⟨h1, ?_, ?_⟩
      · apply chained_nodup h2 hnr
        intro j j' d d' hj hj' ho ho' heq
        exact code_inj c.ns j j' d d' (by omega) (by omega) (hocc j d hj ho) (hocc j' d' hj' ho') heq
      · apply hlen' [] _ _ ?_ k e _ h2
        intro j d hj ho
        have := code_lt c.ns j d (by omega) (hocc j d hj ho)
        rw [← (c01_total hmk).1] at this
        exact this
    · intro k hk
      have hmemA : ∀ e, e ∈ A[k].map Prod.fst ↔ e ∈ elements (c.gms.headD []) k := by
        intro e
        rw [← hels k e, els_getD hk]
      have hhold : ∀ e, e ∈ holders c k (dofOf c.total m) ↔
          e ∈ A[k].map Prod.fst ∧ dofOf c.total m ∈ vec (silly c) k e := by
        intro e
        rw [hmemA]
        unfold holders
        rw [List.mem_filter]
        simp [vec, silly]
      rcases c03_local_indices hmk hwf hne k (fun g hg => hreg g hg k) m hm none (by simp) with
        ⟨h1, h2⟩ | ⟨es, ids, w, h1, h2, h3, h4⟩
      · left
        refine ⟨h1, ?_⟩
        intro e he hM
        have := (hhold e).mpr ⟨he, hM⟩
        rw [h2] at this
        simp at this
      · right
        have hfind := c03_find_elements_partial hmk hwf hne k m hm none (by simp) (fun n hn => hfew k n hn)
        rcases hfind with ⟨g1, _⟩ | ⟨es', w', g1, g2, g3⟩
        · rw [h1] at g1
          simp at g1
        · rw [h1] at g1
          simp only [Option.some.injEq, Prod.mk.injEq] at g1
          obtain ⟨rfl, rfl⟩ := g1
          refine ⟨es, ids, h2, g2, h3, fun e => (g3 e).trans (hhold e), ?_⟩
          intro i i1 i2
          obtain ⟨v, hv1, hv2⟩ := h4 i i1 i2
          have : vec (silly c) k es[i] = v := by simp [vec, silly, hv1]
          rw [this]
          exact hv2
  · rw [hlen] at hgr
    rw [hlen]
    obtain ⟨code, hch, hinj, hlt, _⟩ := c02_sequent_partial hmk hwf hnr hgr
    have hvec : ∀ k e, e ∈ elements (c.gms.headD []) k → c.getSequent A.length k e = some (vec (sequent A.length c) k e) ∧
        ChainedAs code c.gms k e (vec (sequent A.length c) k e) := by
      intro k e he
      obtain ⟨v, hv, hch⟩ := hch _ hhead k e he
      have : vec (sequent A.length c) k e = v := by simp [vec, sequent, hv]
      rw [this]
      exact ⟨hv, hch⟩
    refine ⟨?_, ?_⟩
    · intro k e a hmem
      obtain ⟨h1, h2⟩ := hvec k e (helem k e a hmem)
      exact ⟨h1, chained_nodup h2 hnr hinj, hlen' [] _ _ hlt k e _ h2⟩
    · intro k hk
      have hmemA : ∀ e, e ∈ A[k].map Prod.fst ↔ e ∈ elements (c.gms.headD []) k := by
        intro e
        rw [← hels k e, els_getD hk]
      obtain ⟨out, h1, h2, h3⟩ := c03_scan (c.getSequent A.length k) (dofOf c.total m) (elements (c.gms.headD []) k)
        (fun e he => ⟨_, (hvec k e he).1⟩)
      have hfind : (sequent A.length c).find k m = some (if out.isEmpty then none else some out.unzip) := by
        simp only [sequent]
        rw [if_neg (by simpa using hm)]
        have : (if m < 0 then m + (c.total : Int) else m).toNat = dofOf c.total m := rfl
        rw [this, h1]
        rfl
      have hnd0 : (elements (c.gms.headD []) k).Nodup := by
        rcases getD_mem_or_nil (c.gms.headD []) k with h' | h'
        · exact (hwf _ hhead).1 _ h'
        · simp only [elements, h']; simp
      have hin : ∀ e, e ∈ out.map Prod.fst ↔ e ∈ A[k].map Prod.fst ∧ dofOf c.total m ∈ vec (sequent A.length c) k e := by
        intro e
        rw [h2, List.mem_filter, hmemA]
        simp [vec, sequent]
      by_cases ho : out.isEmpty = true
      · left
        rw [hfind, if_pos ho]
        refine ⟨rfl, ?_⟩
        intro e he hM
        have := (hin e).mpr ⟨he, hM⟩
        rw [List.isEmpty_iff.mp ho] at this
        simp at this
      · right
        rw [hfind, if_neg ho]
        have hu : out.unzip = (out.map Prod.fst, out.map Prod.snd) := by
          rw [List.unzip_eq_map]
        refine ⟨out.map Prod.fst, out.map Prod.snd, by rw [hu], ?_, by simp, hin, ?_⟩
        · rw [h2]
          exact hnd0.filter _
        · intro i i1 i2
          simp only [List.getElem_map]
          have hi : i < out.length := by simpa using i1
          obtain ⟨v, hv1, hv2⟩ := h3 (out[i]'hi) (List.getElem_mem _)
          have : vec (sequent A.length c) k (out[i]'hi).1 = v := by simp [vec, sequent, hv1]
          rw [this]
          exact hv2

/-- An element-wise matrix as it can be built: on every core a dict of local matrices whose shapes fit the gathering
vectors. -/
structure IsEWM (GI GJ : ChainGM) (A : EWM R) : Prop where
  dict : ∀ l ∈ A, (l.map Prod.fst).Nodup
  fits : ∀ k e m, (k, e, m) ∈ elemsOf A → Fits (vec GI k e) (vec GJ k e) m

theorem matOK_of {GI GJ : ChainGM} {A : EWM R} (h : IsEWM GI GJ A) {i j : Int} (hI : Usable GI (elsOf A) i)
    (hJ : Usable GJ (elsOf A) j) : MatOK GI GJ A :=
  { vecI := fun k e m hm => ((usable_spec hI).1 k e m hm).1
    vecJ := fun k e m hm => ((usable_spec hJ).1 k e m hm).1
    fits := h.fits
    ltI := fun k e m hm => ((usable_spec hI).1 k e m hm).2.2
    ltJ := fun k e m hm => ((usable_spec hJ).1 k e m hm).2.2 }

/-- **C15, clearing a row (partial).** `clear_global_row(m)` raises no error; afterwards the row of the assembled matrix is
zero and all other entries are as before. Missing: dofs in more local elements than the limit of the search
(`c15_counterexample`). -/
theorem c15_clear_row_partial [AddCommMonoid R] [One R] (T : Nat) {GI GJ : ChainGM} {A : EWM R} {cu : Custs R} {m j : Int}
    (hA : IsEWM GI GJ A) (hI : Usable GI (elsOf A) m) (hJ : Usable GJ (elsOf A) j) (hcu : CusOK GI GJ A cu) :
    ∃ cu' F F', clearGlobalRow GI A.length m cu = some cu' ∧ CusOK GI GJ A cu' ∧
      assemble T GI GJ A cu = some F ∧ assemble T GI GJ A cu' = some F' ∧
      (∀ c, F' (dofOf GI.total m) c = 0) ∧ ∀ r c, r ≠ dofOf GI.total m → F' r c = F r c := by
  have hok := matOK_of hA hI hJ
  obtain ⟨hv, hf⟩ := usable_spec hI
  obtain ⟨cu', h1, h2, h3⟩ := clear_total hcu (fun k e a h => (hv k e a h).2.1) hf
  refine ⟨cu', _, _, h1, h2, assemble_spec T hok hcu, assemble_spec T hok h2, ?_, ?_⟩
  · intro c
    rw [h3, if_pos rfl]
  · intro r c hr
    rw [h3, if_neg hr]

/-- **C15, setting an entry (partial).** If some element (on any core) has both dofs, `set_assembled_M_ij_to(i, j, v)`
raises no error, and afterwards the entry is `v` and all other entries are as before, whatever element is picked; if no
element has both, the assertion fails. -/
theorem c15_set_entry_partial [AddCommMonoid R] [One R] (T : Nat) {GI GJ : ChainGM} {A : EWM R} {cu : Custs R} {i j : Int}
    (hA : IsEWM GI GJ A) (hI : Usable GI (elsOf A) i) (hJ : Usable GJ (elsOf A) j) (hcu : CusOK GI GJ A cu)
    (pick : List Nat → Nat) (hpick : Picks pick) (v : R) :
    (setEntry pick GI GJ A.length i j v cu = none ∧
      ∀ k e, ¬ HasBoth GI GJ A (dofOf GI.total i) (dofOf GJ.total j) k e) ∨
    ((∃ k e, HasBoth GI GJ A (dofOf GI.total i) (dofOf GJ.total j) k e) ∧
      ∃ cu' F F', setEntry pick GI GJ A.length i j v cu = some cu' ∧ CusOK GI GJ A cu' ∧
      assemble T GI GJ A cu = some F ∧ assemble T GI GJ A cu' = some F' ∧
      F' (dofOf GI.total i) (dofOf GJ.total j) = v ∧
      ∀ r c, ¬ (r = dofOf GI.total i ∧ c = dofOf GJ.total j) → F' r c = F r c) := by
  have hok := matOK_of hA hI hJ
  obtain ⟨hvI, hfI⟩ := usable_spec hI
  obtain ⟨hvJ, hfJ⟩ := usable_spec hJ
  rcases set_total hA.dict hcu (fun k e a h => (hvI k e a h).2.1) (fun k e a h => (hvJ k e a h).2.1) hfI hfJ pick hpick v
    with h | ⟨cu', h1, h2, h3, h4⟩
  · exact Or.inl h
  · right
    refine ⟨h3, cu', _, _, h1, h2, assemble_spec T hok hcu, assemble_spec T hok h2, ?_, ?_⟩
    · rw [h4, if_pos ⟨rfl, rfl⟩]
    · intro r c hrc
      rw [h4, if_neg hrc]

/-- **C15, identifying a row (partial).** After `identify_global_row(r)` the row is that of the identity matrix and all
other rows are as before. -/
theorem c15_identify_row_partial [AddCommMonoid R] [One R] (T : Nat) {GI GJ : ChainGM} {A : EWM R} {cu : Custs R} {m : Int}
    (hA : IsEWM GI GJ A) (hI : Usable GI (elsOf A) m) (hJ : Usable GJ (elsOf A) m) (hcu : CusOK GI GJ A cu)
    (pick : List Nat → Nat) (hpick : Picks pick)
    (hboth : ∃ k e, HasBoth GI GJ A (dofOf GI.total m) (dofOf GJ.total m) k e) :
    ∃ cu' F F', identifyRow pick GI GJ A.length m cu = some cu' ∧ CusOK GI GJ A cu' ∧
      assemble T GI GJ A cu = some F ∧ assemble T GI GJ A cu' = some F' ∧
      (∀ c, F' (dofOf GI.total m) c = if c = dofOf GJ.total m then 1 else 0) ∧
      ∀ r c, r ≠ dofOf GI.total m → F' r c = F r c := by
  obtain ⟨cu1, F, F1, h1, h2, h3, h4, h5, h6⟩ := c15_clear_row_partial T hA hI hJ hcu
  rcases c15_set_entry_partial T hA hI hJ h2 pick hpick 1 with ⟨_, h⟩ | ⟨_, cu', F1', F', g1, g2, g3, g4, g5, g6⟩
  · obtain ⟨k, e, hke⟩ := hboth
    exact absurd hke (h k e)
  · rw [h4] at g3
    simp only [Option.some.injEq] at g3
    subst g3
    refine ⟨cu', F, F', ?_, g2, h3, g4, ?_, ?_⟩
    · unfold identifyRow
      rw [h1]
      exact g1
    · intro c
      split
      · next hc => rw [hc]; exact g5
      · next hc => rw [g6 _ _ (fun h => hc h.2)]; exact h5 c
    · intro r c hr
      rw [g6 _ _ (fun h => hr h.1), h6 r c hr]

/-- a dof in five elements of a 2D mesh. -/
def c15Chain : Chain :=
  { meshType := "_2dCSCG", gms := [exFive], tba := [0], total := 6, ns := [6] }

/-- local matrices with all entries one. -/
def onesMat : Sp Int := ⟨true, 2, 2, [[(0, 1), (1, 1)], [(0, 1), (1, 1)]]⟩

/-- **C15 is false in general**: dof 0 is in five elements of a 2D mesh; after clearing its row, the entry `(0, 0)` of the
assembled matrix is not zero, since the fifth element is not found. -/
theorem c15_counterexample :
    mkChain 1 [.gm "_2dCSCG" exFive] = some c15Chain ∧
    ∃ cu F, clearGlobalRow (silly c15Chain) 1 0 (fun _ _ => []) = some cu ∧
      assemble 10000000 (silly c15Chain) (silly c15Chain)
        [[(0, onesMat), (1, onesMat), (2, onesMat), (3, onesMat), (4, onesMat)]] cu = some F ∧ F 0 0 = 1 := by
  refine ⟨rfl, _, _, rfl, rfl, by decide⟩

/-! ## C17 -/

/-- `x` solves the assembled system. -/
def Solves [CommRing R] (n w : Nat) (F : Nat → Nat → R) (b x : Nat → R) : Prop :=
  ∀ q, q < n → ∑ c ∈ range w, F q c * x c = b q

/-- An element-wise vector as it can be built. -/
structure IsEWV (GI : ChainGM) (B : EWV R) : Prop where
  dict : ∀ l ∈ B, (l.map Prod.fst).Nodup
  fits : ∀ k e x, (k, e, x) ∈ elemsOf B → VFits (vec GI k e) x

theorem vecOK_of {GI : ChainGM} {B : EWV R} (h : IsEWV GI B) {i : Int} (hI : Usable GI (elsOf B) i) : VecOK GI B :=
  { vecI := fun k e m hm => ((usable_spec hI).1 k e m hm).1
    fits := h.fits
    ltI := fun k e m hm => ((usable_spec hI).1 k e m hm).2.2 }

/-- **C17 (partial).** After `set_unknown_to(r, v)` (which raises no error if the elements found are in ascending order,
as they are for gathering matrices made in the order of the elements), `x` solves the assembled system iff `x[r] = v` and
`x` satisfies all other equations of the original system. Missing: the cases excluded by `Usable` (a dof in more local
elements than the limit of the search; see `c15_counterexample`). -/
theorem c17_set_unknown_partial [CommRing R] (T : Nat) {GI GJ : ChainGM} {A : EWM R} {B : EWV R} {cu : Custs R}
    {s : VSt R} {m : Int} (hA : IsEWM GI GJ A) (hB : IsEWV GI B) (hels : elsOf B = elsOf A)
    (hI : Usable GI (elsOf A) m) (hJ : Usable GJ (elsOf A) m) (hcu : CusOK GI GJ A cu) (hs : VStOK GI B s)
    (hasc : FindsAscending GI A.length m) (pick : List Nat → Nat) (hpick : Picks pick)
    (hboth : ∃ k e, HasBoth GI GJ A (dofOf GI.total m) (dofOf GJ.total m) k e) (v : R) :
    ∃ cu' s' F b F' b', setUnknown pick GI GJ A.length m v cu s = some (cu', s') ∧
      assemble T GI GJ A cu = some F ∧ assembleVec GI B s = some b ∧
      assemble T GI GJ A cu' = some F' ∧ assembleVec GI B s' = some b' ∧
      ∀ x, Solves GI.total GJ.total F' b' x ↔ x (dofOf GJ.total m) = v ∧
        ∀ q, q < GI.total → q ≠ dofOf GI.total m → ∑ c ∈ range GJ.total, F q c * x c = b q := by
  obtain ⟨cu', F, F', h1, _, h3, h4, h5, h6⟩ := c15_identify_row_partial T hA hI hJ hcu pick hpick hboth
  have hIB : Usable GI (elsOf B) m := by rw [hels]; exact hI
  have hlen : B.length = A.length := by
    have := congrArg List.length hels
    simpa [elsOf] using this
  obtain ⟨hvB, hfB⟩ := usable_spec hIB
  have hokB := vecOK_of hB hIB
  obtain ⟨k0, e0, a0, ha0, hI0, hJ0⟩ := hboth
  have hlt : dofOf GI.total m < GI.total := ((usable_spec hI).1 k0 e0 a0 ha0).2.2 _ hI0
  have hltJ : dofOf GJ.total m < GJ.total := ((usable_spec hJ).1 k0 e0 a0 ha0).2.2 _ hJ0
  rcases setVec_total hB.dict hs (fun k e a h => (hvB k e a h).2.1) hfB (by rw [hlen]; exact hasc) v with
    ⟨_, h⟩ | ⟨s', g1, g2, _, g4⟩
  · exfalso
    have hel : e0 ∈ (elsOf B).getD k0 [] := by rw [hels]; exact elemsOf_els ha0
    have hk : k0 < B.length := by rw [hlen]; exact (mem_elemsOf.mp ha0).1
    rw [els_getD hk] at hel
    obtain ⟨⟨e', x⟩, hx, he⟩ := List.mem_map.mp hel
    simp only at he
    subst he
    exact h k0 e' x (mem_elemsOf.mpr ⟨hk, hx⟩) hI0
  · refine ⟨cu', s', F, vtotal GI B s, F', vtotal GI B s', ?_, h3, assembleVec_spec hokB hs, h4,
      assembleVec_spec hokB g2, ?_⟩
    · unfold setUnknown
      rw [h1]
      simp only [Option.bind_some]
      rw [← hlen, g1]
      rfl
    · intro x
      have hrow : ∑ c ∈ range GJ.total, F' (dofOf GI.total m) c * x c = x (dofOf GJ.total m) := by
        have : ∀ c ∈ range GJ.total, F' (dofOf GI.total m) c * x c = if c = dofOf GJ.total m then x c else 0 := by
          intro c _
          rw [h5]
          split <;> simp
        rw [Finset.sum_congr rfl this, Finset.sum_ite_eq', if_pos (Finset.mem_range.mpr hltJ)]
      have hother : ∀ q, q ≠ dofOf GI.total m →
          ∑ c ∈ range GJ.total, F' q c * x c = ∑ c ∈ range GJ.total, F q c * x c := by
        intro q hq
        apply Finset.sum_congr rfl
        intro c _
        rw [h6 q c hq]
      constructor
      · intro hx
        refine ⟨?_, ?_⟩
        · have := hx _ hlt
          rw [hrow, g4, if_pos rfl] at this
          exact this
        · intro q hq hne
          have := hx q hq
          rw [hother q hne, g4, if_neg hne] at this
          exact this
      · rintro ⟨hx1, hx2⟩ q hq
        by_cases hqe : q = dofOf GI.total m
        · rw [hqe, hrow, g4, if_pos rfl]
          exact hx1
        · rw [hother q hqe, g4, if_neg hqe]
          exact hx2 q hq hqe

/-- The finder of a 'silly' chain whose members list their elements in ascending order finds them in ascending order. -/
theorem silly_ascending {c : Chain} {nR : Nat} (h : ∀ g ∈ c.gms, ∀ k, (elements g k).Pairwise (· < ·)) (m : Int) :
    FindsAscending (silly c) nR m := by
  intro k _ es is hf
  simp only [silly, Chain.elementsAndIndices, Option.bind_eq_bind, Option.bind_eq_some_iff] at hf
  obtain ⟨o, ho, hf⟩ := hf
  cases o with
  | none => simp at hf
  | some ew =>
    obtain ⟨es', w⟩ := ew
    simp only [Option.bind_eq_some_iff, Option.pure_def, Option.some.injEq, Prod.mk.injEq] at hf
    obtain ⟨lt, _, ids, _, he, _⟩ := hf
    subst he
    unfold Chain.elementsContain at ho
    generalize (if m < 0 then m + (c.total : Int) else m).toNat = mm at ho
    simp only [Option.bind_eq_bind, Option.pure_def] at ho
    by_cases h1 : ¬ (-(c.total : Int) ≤ m ∧ m < c.total)
    · simp [h1] at ho
    rw [if_neg h1] at ho
    by_cases h2 : defaultN c.meshType none = some 0
    · simp [h2] at ho
    rw [if_neg h2] at ho
    by_cases h3 : (elements (c.gms.headD []) k).isEmpty
    · rw [if_pos h3] at ho
      simp at ho
    rw [if_neg h3, Option.bind_eq_some_iff] at ho
    obtain ⟨lrs, _, ho⟩ := ho
    rw [Option.bind_eq_some_iff] at ho
    obtain ⟨w', _, ho⟩ := ho
    cases w' with
    | none => simp at ho
    | some w' =>
      simp only at ho
      split at ho
      · simp at ho
      simp only [Option.some.injEq, Prod.mk.injEq] at ho
      obtain ⟨he, _⟩ := ho
      rw [← he]
      have hsub : ∀ (mm : Nat) (N : Option Nat) (l : LocalGM), (collect mm N l).Sublist (l.map Prod.fst) := by
        intro mm N l
        induction l generalizing N with
        | nil => simp [collect]
        | cons p l ih =>
          obtain ⟨e, v⟩ := p
          simp only [collect, List.map_cons]
          split
          · rcases N with _ | _ | _ | n
            · exact (ih none).cons_cons e
            · exact (ih (some 0)).cons_cons e
            · simp
            · exact (ih _).cons_cons e
          · exact (ih N).cons e
      have hpw : ((c.gms.getD w' []).getD k [] |>.map Prod.fst).Pairwise (· < ·) := by
        by_cases hw : w' < c.gms.length
        · have : c.gms.getD w' [] = c.gms[w'] := by simp [List.getD, hw]
          rw [this]
          exact h _ (List.getElem_mem hw) k
        · have : c.gms.getD w' [] = [] := by simp [List.getD, Nat.le_of_not_lt hw]
          rw [this]
          simp
      exact hpw.sublist (hsub _ _ _)

/-! ### concrete cases -/

theorem getVec_mem {g : GM} {r e : Nat} {v : List Nat} (h : getVec g r e = some v) : ∃ l ∈ g, (e, v) ∈ l := by
  unfold getVec at h
  rcases getD_mem_or_nil g r with h' | h'
  · exact ⟨_, h', mem_of_lookup h⟩
  · rw [h'] at h
    simp at h

/-- Decidable conditions for `Usable` of a single gathering matrix on one core. -/
theorem usable_single {g : LocalGM} {c : Chain} {m : Int} (hmk : mkChain 1 [.gm "_2dCSCG" [g]] = some c)
    (hk : (g.map Prod.fst).Nodup) (hv : ∀ p ∈ g, p.2.Nodup) (hl : ∀ p ∈ g, ∀ q ∈ g, p.2.length = q.2.length)
    (hm : -(c.total : Int) ≤ m ∧ m < c.total) (hfew : (holders c 0 (dofOf c.total m)).length ≤ 4) :
    Usable (silly c) [g.map Prod.fst] m := by
  have hg : c.gms = [[g]] := by rw [(mkChain_spec hmk).1]; rfl
  have hmt : c.meshType = "_2dCSCG" := by
    unfold mkChain at hmk
    simp [Option.bind_eq_some_iff] at hmk
    obtain ⟨_, _, _, h⟩ := hmk
    rw [← h]
    rfl
  refine ⟨_, c, hmk, ?_, by rw [hg]; simp, ?_, ?_, hm, Or.inl ⟨rfl, ?_, ?_⟩⟩
  · rw [hg]
    intro g' hg'
    simp only [List.mem_singleton] at hg'
    subst hg'
    refine ⟨?_, rfl⟩
    intro l hl
    simp only [List.mem_singleton] at hl
    subst hl
    exact hk
  · rw [hg]
    intro g' hg' r e v hr
    simp only [List.mem_singleton] at hg'
    subst hg'
    obtain ⟨l, h1, h2⟩ := getVec_mem hr
    simp only [List.mem_singleton] at h1
    subst h1
    exact hv _ h2
  · intro k e
    rw [hg]
    rcases k with _ | k <;> simp [elements]
  · rw [hg]
    intro g' hg' k e e' v v' h1 h2
    simp only [List.mem_singleton] at hg'
    subst hg'
    obtain ⟨l, h3, h4⟩ := getVec_mem h1
    obtain ⟨l', h5, h6⟩ := getVec_mem h2
    simp only [List.mem_singleton] at h3 h5
    subst h3 h5
    exact hl _ h4 _ h6
  · intro k n hn
    rw [hmt] at hn
    have : n = 4 := by
      simp [defaultN] at hn
      exact hn.symm
    subst this
    rcases k with _ | k
    · exact hfew
    · have : holders c (k + 1) (dofOf c.total m) = [] := by
        unfold holders
        rw [hg]
        simp [elements]
      rw [this]
      simp

/-- 0-forms of degree 1 on two elements; the dofs 2 and 3 are shared. -/
def tGM : LocalGM := [(0, [0, 1, 2, 3]), (1, [2, 3, 4, 5])]

def tChain : Chain := { meshType := "_2dCSCG", gms := [[tGM]], tba := [0], total := 6, ns := [6] }

theorem tUsable (m : Int) (hm : -6 ≤ m ∧ m < 6) : Usable (silly tChain) [[0, 1]] m := by
  apply usable_single (g := tGM) (c := tChain) rfl (by decide) (by decide) (by decide) hm
  refine le_trans (List.length_filter_le _ _) ?_
  decide

/-- a local matrix of shape `4 × 4`. -/
def tMat : Sp Rat := ⟨true, 4, 4, [[(0, 2), (1, 1)], [(1, 2)], [(2, 2), (3, 1)], [(3, 2), (0, 1)]]⟩

theorem tEWM : IsEWM (silly tChain) (silly tChain) ([[(0, tMat), (1, tMat)]] : EWM Rat) := by
  refine ⟨by decide, ?_⟩
  intro k e m hm
  simp [elemsOf] at hm
  rcases hm with ⟨rfl, rfl, rfl⟩ | ⟨rfl, rfl, rfl⟩ <;> exact ⟨rfl, rfl, rfl, by decide⟩

theorem tEWV : IsEWV (silly tChain) ([[(0, ⟨4, [(0, 1), (3, 5)]⟩), (1, ⟨4, [(1, 1)]⟩)]] : EWV Rat) := by
  refine ⟨by decide, ?_⟩
  intro k e m hm
  simp [elemsOf] at hm
  rcases hm with ⟨rfl, rfl, rfl⟩ | ⟨rfl, rfl, rfl⟩ <;> exact ⟨rfl, by decide⟩

/-- The theorem on fixing an unknown applies to this system, for the shared dof 2 (and for it written as -4). -/
example (v : Rat) : ∃ cu' s' F b F' b', setUnknown (fun l => l.headD 0) (silly tChain) (silly tChain) 1 (-4) v
      (fun _ _ => []) ⟨fun _ _ => [], fun _ _ => none⟩ = some (cu', s') ∧
    assemble 10000000 (silly tChain) (silly tChain) [[(0, tMat), (1, tMat)]] (fun _ _ => []) = some F ∧
    assembleVec (silly tChain) [[(0, ⟨4, [(0, 1), (3, 5)]⟩), (1, ⟨4, [(1, 1)]⟩)]] ⟨fun _ _ => [], fun _ _ => none⟩ = some b ∧
    assemble 10000000 (silly tChain) (silly tChain) [[(0, tMat), (1, tMat)]] cu' = some F' ∧
    assembleVec (silly tChain) [[(0, ⟨4, [(0, 1), (3, 5)]⟩), (1, ⟨4, [(1, 1)]⟩)]] s' = some b' ∧
    ∀ x, Solves 6 6 F' b' x ↔ x 2 = v ∧ ∀ q, q < 6 → q ≠ 2 → ∑ c ∈ range 6, F q c * x c = b q := by
  refine c17_set_unknown_partial 10000000 tEWM tEWV rfl (tUsable (-4) (by omega)) (tUsable (-4) (by omega)) ?_ ?_ ?_ _ ?_
    ⟨0, 1, tMat, by simp [elemsOf], by decide, by decide⟩ v
  · intro k e m _ c hc
    simp at hc
  · intro k e x _ p hp
    simp [VSt.flush] at hp
  · apply silly_ascending
    intro g hg k
    simp only [tChain, List.mem_singleton] at hg
    subst hg
    rcases k with _ | k
    · decide
    · simp [elements]
  · intro l hl
    cases l with
    | nil => exact absurd rfl hl
    | cons a l => simp

end Mifem.Props
