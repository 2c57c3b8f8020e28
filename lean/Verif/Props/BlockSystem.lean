import Mathlib.Tactic.IntervalCases
import Verif.Lemmas.BlockSystem

/-!
# C92: the assembled block system

* the assembled matrix of `bmat(blocks)` is, block by block, the assembled matrix of the block (zero for None);
* the assembled vector of `concatenate(vectors)` is, block by block, the assembled vector;
* a vector solves the assembled block system iff its parts solve the system of the assembled blocks;
* `A.blocks[i0:i1, j0:j1]` assembles to the part of the assembled matrix (if every row and column of blocks belongs to one
  variable); with several variables in one row it can have the wrong size; customizations of `A` are lost.
-/

namespace Mifem.Props
open Mifem.Gath Mifem.Asm Mifem.BlockSys Finset

variable {R : Type}

/-! ### one element -/

theorem common_eq {l : List Nat} {a : Nat} (hne : l ≠ []) (h : ∀ b ∈ l, b = a) : common l = some a := by
  cases l with
  | nil => exact absurd rfl hne
  | cons b l =>
    have hb := h b (by simp)
    subst hb
    show (if l.all (fun x => decide (x = b)) then some b else none) = some b
    rw [if_pos]
    rw [List.all_eq_true]
    intro x hx
    simpa using h x (by simp [hx])

theorem at2_eq {α : Type} {bs : List (List (Option α))} {i j : Nat} {b : α} (h : at2 bs i j = some b) :
    ∃ (h1 : i < bs.length) (h2 : j < bs[i].length), bs[i][j] = some b := by
  unfold at2 at h
  have h1 : i < bs.length := by
    by_contra hn
    simp [List.getD, List.getElem?_eq_none (by omega : bs.length ≤ i)] at h
  have e1 : bs.getD i [] = bs[i] := by simp [List.getD, h1]
  rw [e1] at h
  have h2 : j < bs[i].length := by
    by_contra hn
    simp [List.getD, List.getElem?_eq_none (by omega : bs[i].length ≤ j)] at h
  refine ⟨h1, h2, ?_⟩
  simpa [List.getD, h2] using h

theorem at2_of {α : Type} {bs : List (List (Option α))} {i j : Nat} (h1 : i < bs.length) (h2 : j < bs[i].length) :
    at2 bs i j = bs[i][j] := by
  simp [at2, List.getD, h1, h2]

theorem at2_map {α β : Type} (f : α → β) (bs : List (List (Option α))) (i j : Nat) :
    at2 (bs.map fun row => row.map fun b => b.map f) i j = (at2 bs i j).map f := by
  unfold at2
  by_cases h1 : i < bs.length
  · have e1 : (bs.map fun row => row.map fun b => b.map f).getD i [] = bs[i].map fun b => b.map f := by
      simp [List.getD, h1]
    have e2 : bs.getD i [] = bs[i] := by simp [List.getD, h1]
    rw [e1, e2]
    by_cases h2 : j < bs[i].length
    · simp [List.getD, h2]
    · simp [List.getD, h2]
  · simp [List.getD, h1]

/-- the local matrix of a block matrix. -/
theorem bmatLoc_spec [AddCommMonoid R] {J : Nat} {bs : List (List (Option (Sp R)))} {hs ws : List Nat}
    (hJ : ∀ row ∈ bs, row.length = J) (hl : hs.length = bs.length) (hw : ws.length = J)
    (hb : ∀ i j m, at2 bs i j = some m → m.rows = hs.getD i 0 ∧ m.cols = ws.getD j 0)
    (hrow : ∀ i, i < bs.length → ∃ j m, at2 bs i j = some m) (hcol : ∀ j, j < J → ∃ i m, at2 bs i j = some m) :
    ∃ f, bmatLoc J bs = some (toCsr hs.sum ws.sum f) ∧ ∀ i j a b, a < hs.getD i 0 → b < ws.getD j 0 →
      f (offset hs i + a) (offset ws j + b) = match at2 bs i j with
        | none => 0
        | some m => m.entry a b := by
  have e1 : (bs.mapM fun row => common (row.filterMap fun m => m.map Sp.rows)) = some hs := by
    rw [mapM_some_iff]
    refine ⟨hl, ?_⟩
    intro i h1 h2
    apply common_eq
    · obtain ⟨j, m, hm⟩ := hrow i h1
      obtain ⟨_, g2, g3⟩ := at2_eq hm
      apply List.ne_nil_of_mem (a := m.rows)
      rw [List.mem_filterMap]
      exact ⟨some m, by rw [← g3]; exact List.getElem_mem g2, rfl⟩
    · intro b hbm
      obtain ⟨x, hx, hx'⟩ := List.mem_filterMap.mp hbm
      obtain ⟨j, hj, rfl⟩ := List.getElem_of_mem hx
      cases hm : bs[i][j] with
      | none => simp [hm] at hx'
      | some m =>
        rw [hm] at hx'
        have := (hb i j m (by rw [at2_of h1 hj, hm])).1
        simp only [Option.map_some, Option.some.injEq] at hx'
        rw [← hx', this]
        simp [List.getD, h2]
  have e2 : ((List.range J).mapM fun j => common (bs.filterMap fun row => (row.getD j none).map Sp.cols)) = some ws := by
    rw [mapM_some_iff]
    refine ⟨by simp [hw], ?_⟩
    intro j h1 h2
    rw [List.length_range] at h1
    rw [List.getElem_range]
    apply common_eq
    · obtain ⟨i, m, hm⟩ := hcol j h1
      obtain ⟨g1, g2, g3⟩ := at2_eq hm
      apply List.ne_nil_of_mem (a := m.cols)
      rw [List.mem_filterMap]
      refine ⟨bs[i], List.getElem_mem g1, ?_⟩
      simp [List.getD, g2, g3]
    · intro b hbm
      obtain ⟨row, hr, hr'⟩ := List.mem_filterMap.mp hbm
      obtain ⟨i, hi, rfl⟩ := List.getElem_of_mem hr
      have hj : j < bs[i].length := by
        rw [hJ _ (List.getElem_mem hi)]
        exact h1
      cases hm : bs[i][j] with
      | none => simp [List.getD, hj, hm] at hr'
      | some m =>
        have := (hb i j m (by rw [at2_of hi hj, hm])).2
        simp only [List.getD, List.getElem?_eq_getElem hj, Option.getD_some, hm, Option.map_some, Option.some.injEq] at hr'
        rw [← hr', this]
        simp [List.getD, h2]
  unfold bmatLoc
  rw [e1, e2]
  refine ⟨_, rfl, ?_⟩
  intro i j a b ha hb'
  simp only [locate_spec hs ha, locate_spec ws hb']
  cases at2 bs i j <;> rfl

/-! ### the whole matrix -/

theorem mem_ewm {A : Mat R} {k e : Nat} {m : Sp R} (h : (k, e, m) ∈ elemsOf A.ewm) :
    e ∈ A.els.getD k [] ∧ m = A.loc k e := by
  obtain ⟨hk, hm⟩ := mem_elemsOf.mp h
  unfold Mat.ewm at hk hm
  simp only [List.length_map, List.length_zipIdx] at hk
  simp only [List.getElem_map, List.getElem_zipIdx, Nat.zero_add, List.mem_map] at hm
  obtain ⟨e', he', heq⟩ := hm
  simp only [Prod.mk.injEq] at heq
  obtain ⟨rfl, rfl⟩ := heq
  exact ⟨by simpa [List.getD, hk] using he', rfl⟩

/-- a sum over all elements. -/
theorem ewm_sum [AddCommMonoid R] (A : Mat R) (f : Nat → Nat → Sp R → R) :
    ((elemsOf A.ewm).map fun x => f x.1 x.2.1 x.2.2).sum =
      ((A.els.zipIdx).map fun lk => (lk.1.map fun e => f lk.2 e (A.loc lk.2 e)).sum).sum := by
  unfold elemsOf Mat.ewm
  have key : ∀ (l : List (List Nat)) (n : Nat),
      (((l.zipIdx n).map fun lk => lk.1.map fun e => (e, A.loc lk.2 e)).zipIdx n).flatMap
        (fun lk => lk.1.map fun x => (lk.2, x.1, x.2)) =
      (l.zipIdx n).flatMap fun lk => lk.1.map fun e => (lk.2, e, A.loc lk.2 e) := by
    intro l
    induction l with
    | nil => intro n; rfl
    | cons a l ih =>
      intro n
      rw [List.zipIdx_cons, List.map_cons, List.zipIdx_cons, List.flatMap_cons, List.flatMap_cons, ih (n + 1)]
      simp [Function.comp_def]
  rw [key A.els 0, List.map_flatMap, List.flatMap_def, List.sum_flatten, List.map_map]
  congr 1
  apply List.map_congr_left
  intro lk _
  simp [Function.comp_def]

/-- no customizations. -/
def noCus : Custs R := fun _ _ => []

/-- the shapes of the local matrices of a block agree with the numbers of local dofs of the row and column variables. -/
def FitsIn (els : List (List Nat)) (r c : Chain) (b : Mat R) : Prop :=
  b.els = els ∧ ∀ k e, e ∈ els.getD k [] → Fits (vec (silly r) k e) (vec (silly c) k e) (b.loc k e)

theorem FitsIn.matOK {nR : Nat} {els : List (List Nat)} {r c : Chain} {b : Mat R} (hr : Gathers nR els r)
    (hc : Gathers nR els c) (h : FitsIn els r c b) : MatOK (silly r) (silly c) b.ewm := by
  obtain ⟨h1, h2⟩ := h
  have hm : ∀ k e m, (k, e, m) ∈ elemsOf b.ewm → e ∈ els.getD k [] ∧ m = b.loc k e := by
    intro k e m hm
    have := mem_ewm hm
    rwa [h1] at this
  exact {
    vecI := fun k e m h => (hr.vec_get (hm k e m h).1).1
    vecJ := fun k e m h => (hc.vec_get (hm k e m h).1).1
    fits := fun k e m h => by rw [(hm k e m h).2]; exact h2 k e (hm k e m h).1
    ltI := fun k e m h => (hr.vec_get (hm k e m h).1).2
    ltJ := fun k e m h => (hc.vec_get (hm k e m h).1).2 }

theorem total_noCus [AddCommMonoid R] [One R] (GI GJ : ChainGM) (A : Mat R) (r c : Nat) :
    total GI GJ A.ewm noCus r c = ((A.els.zipIdx).map fun lk => (lk.1.map fun e =>
      contrib (vec GI lk.2 e) (vec GJ lk.2 e) (A.loc lk.2 e).entry r c).sum).sum :=
  ewm_sum A fun k e m => contrib (vec GI k e) (vec GJ k e) m.entry r c

theorem block_total [AddCommMonoid R] [One R] {nR J : Nat} {els : List (List Nat)}
    {blocks : List (List (Option (Mat R)))} (hJ : ∀ row ∈ blocks, row.length = J) {rg cg : List Chain}
    (hrl : rg.length = blocks.length) (hcl : cg.length = J) (hr0 : rg ≠ []) (hc0 : cg ≠ [])
    (hr : ∀ c ∈ rg, Gathers nR els c) (hc : ∀ c ∈ cg, Gathers nR els c) {RC CC : Chain}
    (hRC : mkChain nR (rg.map Item.chain) = some RC) (hCC : mkChain nR (cg.map Item.chain) = some CC)
    (hfit : ∀ i j b, at2 blocks i j = some b → ∀ (h1 : i < rg.length) (h2 : j < cg.length), FitsIn els rg[i] cg[j] b)
    (hrow : ∀ i, i < blocks.length → ∃ j m, at2 blocks i j = some m) (hcol : ∀ j, j < J → ∃ i m, at2 blocks i j = some m)
    {A : Mat R} (hA : A.els = els)
    (hloc : ∀ k e, e ∈ els.getD k [] →
      bmatLoc J (blocks.map fun row => row.map fun b => b.map fun m => m.loc k e) = some (A.loc k e)) :
    FitsIn els RC CC A ∧ ∀ i j (h1 : i < rg.length) (h2 : j < cg.length) p q, p < rg[i].total → q < cg[j].total →
      total (silly RC) (silly CC) A.ewm noCus (offset (rg.map Chain.total) i + p) (offset (cg.map Chain.total) j + q) =
        match at2 blocks i j with
        | none => 0
        | some b => total (silly rg[i]) (silly cg[j]) b.ewm noCus p q := by
  obtain ⟨_, _, hRget⟩ := chain_of_chains hRC hr hr0
  obtain ⟨_, _, hCget⟩ := chain_of_chains hCC hc hc0
  -- the local matrices
  have hlm : ∀ k e, e ∈ els.getD k [] → ∃ f, A.loc k e =
      toCsr (rg.map fun c => (vec (silly c) k e).length).sum (cg.map fun c => (vec (silly c) k e).length).sum f ∧
      ∀ i j a b, a < (rg.map fun c => (vec (silly c) k e).length).getD i 0 →
        b < (cg.map fun c => (vec (silly c) k e).length).getD j 0 →
        f (offset (rg.map fun c => (vec (silly c) k e).length) i + a)
          (offset (cg.map fun c => (vec (silly c) k e).length) j + b) = match at2 blocks i j with
        | none => 0
        | some m => (m.loc k e).entry a b := by
    intro k e he
    obtain ⟨f, hf, hf'⟩ := bmatLoc_spec (J := J) (bs := blocks.map fun row => row.map fun b => b.map fun m => m.loc k e)
      (hs := rg.map fun c => (vec (silly c) k e).length) (ws := cg.map fun c => (vec (silly c) k e).length)
      (by
        intro row hrow'
        obtain ⟨row', h', rfl⟩ := List.mem_map.mp hrow'
        simpa using hJ row' h') (by simpa using hrl) (by simpa using hcl)
      (by
        intro i j m hm
        rw [at2_map] at hm
        cases hb : at2 blocks i j with
        | none => simp [hb] at hm
        | some b =>
          rw [hb] at hm
          simp only [Option.map_some, Option.some.injEq] at hm
          obtain ⟨g1, g2, _⟩ := at2_eq hb
          have g2' : j < cg.length := by
            rw [hcl, ← hJ _ (List.getElem_mem g1)]
            exact g2
          have := (hfit i j b hb (by omega) g2').2 k e he
          rw [← hm, this.rows, this.cols]
          simp [List.getD, (by omega : i < rg.length), g2'])
      (by
        intro i hi
        obtain ⟨j, m, hm⟩ := hrow i (by simpa using hi)
        exact ⟨j, m.loc k e, by rw [at2_map, hm]; rfl⟩)
      (by
        intro j hj
        obtain ⟨i, m, hm⟩ := hcol j hj
        exact ⟨i, m.loc k e, by rw [at2_map, hm]; rfl⟩)
    have h1 := hloc k e he
    rw [hf] at h1
    refine ⟨f, (Option.some.inj h1).symm, ?_⟩
    intro i j a b ha hb
    rw [hf' i j a b ha hb, at2_map]
    cases at2 blocks i j <;> rfl
  have hRv : ∀ k e, e ∈ els.getD k [] →
      vec (silly RC) k e = shifted (rg.map fun c => vec (silly c) k e) (rg.map Chain.total) 0 := by
    intro k e he
    have := hRget k e he
    simp [vec, silly] at this ⊢
    rw [this]
    rfl
  have hCv : ∀ k e, e ∈ els.getD k [] →
      vec (silly CC) k e = shifted (cg.map fun c => vec (silly c) k e) (cg.map Chain.total) 0 := by
    intro k e he
    have := hCget k e he
    simp [vec, silly] at this ⊢
    rw [this]
    rfl
  refine ⟨⟨hA, ?_⟩, ?_⟩
  · intro k e he
    obtain ⟨f, hf, _⟩ := hlm k e he
    rw [hf]
    have e1 : (rg.map fun c => (vec (silly c) k e).length).sum = (vec (silly RC) k e).length := by
      rw [hRv k e he, shifted_length, List.map_map]
      rfl
    have e2 : (cg.map fun c => (vec (silly c) k e).length).sum = (vec (silly CC) k e).length := by
      rw [hCv k e he, shifted_length, List.map_map]
      rfl
    rw [e1, e2]
    exact toCsr_fits _ _ _
  · intro i j h1 h2 p q hp hq
    have hterm : ∀ k e, e ∈ els.getD k [] →
        contrib (vec (silly RC) k e) (vec (silly CC) k e) (A.loc k e).entry (offset (rg.map Chain.total) i + p)
          (offset (cg.map Chain.total) j + q) = match at2 blocks i j with
        | none => 0
        | some b => contrib (vec (silly rg[i]) k e) (vec (silly cg[j]) k e) (b.loc k e).entry p q := by
      intro k e he
      obtain ⟨f, hf, hf'⟩ := hlm k e he
      have hlt : ∀ (l : List Chain), (∀ c ∈ l, Gathers nR els c) → ∀ i, ∀ x ∈ (l.map fun c => vec (silly c) k e).getD i [],
          x < (l.map Chain.total).getD i 0 := by
        intro l hl i x hx
        by_cases hi : i < l.length
        · have e1 : (l.map fun c => vec (silly c) k e).getD i [] = vec (silly l[i]) k e := by simp [List.getD, hi]
          have e2 : (l.map Chain.total).getD i 0 = l[i].total := by simp [List.getD, hi]
          rw [e1] at hx
          rw [e2]
          exact ((hl _ (List.getElem_mem hi)).vec_get he).2 x hx
        · simp [List.getD, hi] at hx
      rw [hRv k e he, hCv k e he, contrib_shifted _ _ _ _ _ (by simp) (by simp) (hlt rg hr) (hlt cg hc)
        (by simpa [List.getD, h1] using hp) (by simpa [List.getD, h2] using hq)]
      have e1 : (rg.map fun c => vec (silly c) k e).getD i [] = vec (silly rg[i]) k e := by simp [List.getD, h1]
      have e2 : (cg.map fun c => vec (silly c) k e).getD j [] = vec (silly cg[j]) k e := by simp [List.getD, h2]
      rw [e1, e2, List.map_map, List.map_map]
      have hent : ∀ a b, a < (vec (silly rg[i]) k e).length → b < (vec (silly cg[j]) k e).length →
          (A.loc k e).entry (offset (rg.map (List.length ∘ fun c => vec (silly c) k e)) i + a)
            (offset (cg.map (List.length ∘ fun c => vec (silly c) k e)) j + b) = match at2 blocks i j with
          | none => 0
          | some m => (m.loc k e).entry a b := by
        intro a b ha hb
        have ha' : a < (rg.map fun c => (vec (silly c) k e).length).getD i 0 := by simpa [List.getD, h1] using ha
        have hb' : b < (cg.map fun c => (vec (silly c) k e).length).getD j 0 := by simpa [List.getD, h2] using hb
        rw [hf]
        refine (toCsr_entry _ _ f _ _ ?_ ?_).trans (hf' i j a b ha' hb')
        · exact offset_lt _ ha'
        · exact offset_lt _ hb'
      cases hb : at2 blocks i j with
      | none =>
        apply contrib_zero
        intro a b ha hb' _ _
        rw [hent a b ha hb', hb]
      | some m =>
        apply contrib_congr
        intro a b ha hb' _ _
        rw [hent a b ha hb', hb]
    rw [total_noCus]
    have hsum : ((A.els.zipIdx).map fun lk => (lk.1.map fun e =>
        contrib (vec (silly RC) lk.2 e) (vec (silly CC) lk.2 e) (A.loc lk.2 e).entry (offset (rg.map Chain.total) i + p)
          (offset (cg.map Chain.total) j + q)).sum).sum =
        ((els.zipIdx).map fun lk => (lk.1.map fun e => match at2 blocks i j with
          | none => (0 : R)
          | some b => contrib (vec (silly rg[i]) lk.2 e) (vec (silly cg[j]) lk.2 e) (b.loc lk.2 e).entry p q).sum).sum := by
      rw [hA]
      congr 1
      apply List.map_congr_left
      rintro ⟨l, k⟩ hk
      congr 1
      apply List.map_congr_left
      intro e he
      apply hterm
      obtain ⟨hk1, hk2⟩ := List.mem_zipIdx' hk
      simp only at hk2 he
      rw [hk2] at he
      simpa [List.getD, hk1] using he
    rw [hsum]
    cases hb : at2 blocks i j with
    | none => simp
    | some b =>
      simp only
      rw [total_noCus, (hfit i j b hb h1 h2).1]

theorem allLoc_spec {α : Type} [Inhabited α] {els : List (List Nat)} {f : Nat → Nat → Option α} {g : Nat → Nat → α}
    (h : allLoc els f = some g) : ∀ k e, e ∈ els.getD k [] → f k e = some (g k e) := by
  unfold allLoc at h
  split at h
  · next hall =>
    intro k e he
    simp only [Option.some.injEq] at h
    subst h
    rw [List.all_eq_true] at hall
    by_cases hk : k < els.length
    · have h1 := hall (els[k], k) (by rw [List.mem_zipIdx_iff_getElem?]; simp [hk])
      rw [List.all_eq_true] at h1
      have h2 := h1 e (by simpa [List.getD, hk] using he)
      obtain ⟨v, hv⟩ := Option.isSome_iff_exists.mp h2
      simp only at hv ⊢
      rw [hv]
      rfl
    · simp [List.getD, hk] at he
  · simp at h

theorem mapM_id_some {α : Type} {l : List (Option α)} {r : List α} (h : l.mapM id = some r) : l = r.map some := by
  obtain ⟨h1, h2⟩ := (mapM_some_iff _ _ _).mp h
  apply List.ext_getElem (by simp [h1])
  intro i g1 g2
  have := h2 i g1 (by omega)
  simpa using this

/-- what `bmat` has checked when it returns. -/
theorem bmat_spec [AddCommMonoid R] {nR : Nat} {blocks : List (List (Option (Mat R)))} {A : Mat R}
    (h : bmat nR blocks = some A) : ∃ J, blocks ≠ [] ∧ (∀ row ∈ blocks, row.length = J) ∧ A.cus = noCus ∧
      (∀ i j b, at2 blocks i j = some b → b.plain = true ∧ b.els = A.els) ∧ (∃ i j b, at2 blocks i j = some b) ∧
      (∀ k e, e ∈ A.els.getD k [] →
        bmatLoc J (blocks.map fun row => row.map fun b => b.map fun m => m.loc k e) = some (A.loc k e)) ∧
      ∀ RC CC, A.gms = some (RC, CC) → ∃ rg cg : List Chain, rg.length = blocks.length ∧ cg.length = J ∧
        mkChain nR (rg.map Item.chain) = some RC ∧ mkChain nR (cg.map Item.chain) = some CC ∧
        (∀ i (h1 : i < rg.length) (h2 : i < blocks.length),
          pickGM nR (blocks[i].map fun b => b.bind fun m => m.gms.map Prod.fst) = some (some rg[i])) ∧
        ∀ j (h1 : j < cg.length),
          pickGM nR (blocks.map fun row => (row.getD j none).bind fun m => m.gms.map Prod.snd) = some (some cg[j]) := by
  unfold bmat at h
  cases blocks with
  | nil => simp at h
  | cons row0 rows =>
    simp only at h
    split at h
    · simp at h
    · next hJ =>
      have hJ' : ∀ row ∈ row0 :: rows, row.length = row0.length := by
        simp only [Bool.not_eq_true', Bool.not_eq_false, List.all_eq_true] at hJ
        intro row hr
        simpa using hJ row hr
      split at h
      · simp at h
      · next b0 bs hfl =>
        have hmem : ∀ i j b, at2 (row0 :: rows) i j = some b → b ∈ b0 :: bs := by
          intro i j b hb
          obtain ⟨h1, h2, h3⟩ := at2_eq hb
          rw [← hfl, List.mem_filterMap]
          exact ⟨some b, List.mem_flatten.mpr ⟨_, List.getElem_mem h1, by rw [← h3]; exact List.getElem_mem h2⟩, rfl⟩
        have hex : ∃ i j b, at2 (row0 :: rows) i j = some b := by
          have : b0 ∈ (row0 :: rows).flatten.filterMap id := by
            rw [hfl]
            simp
          obtain ⟨x, hx, hx'⟩ := List.mem_filterMap.mp this
          simp only [id] at hx'
          subst hx'
          obtain ⟨row, hrow, hx⟩ := List.mem_flatten.mp hx
          obtain ⟨i, hi, rfl⟩ := List.getElem_of_mem hrow
          obtain ⟨j, hj, hx⟩ := List.getElem_of_mem hx
          exact ⟨i, j, b0, by rw [at2_of hi hj, hx]⟩
        split at h
        · simp at h
        · next hpl =>
          simp only [Bool.not_eq_true', Bool.not_eq_false, List.all_eq_true, Bool.and_eq_true, decide_eq_true_eq] at hpl
          simp only [Option.bind_eq_bind, Option.bind_eq_some_iff] at h
          obtain ⟨loc, hloc, rgm, hrgm, cgm, hcgm, h⟩ := h
          have hloc' := allLoc_spec hloc
          split at h
          · next r c hr hc =>
            simp only [Option.bind_eq_some_iff, Option.some.injEq] at h
            obtain ⟨RC, hRC, CC, hCC, rfl⟩ := h
            refine ⟨row0.length, by simp, hJ', rfl, ?_, hex, hloc', ?_⟩
            · intro i j b hb
              exact hpl b (hmem i j b hb)
            · intro RC' CC' hg
              simp only [Option.some.injEq, Prod.mk.injEq] at hg
              obtain ⟨rfl, rfl⟩ := hg
              have hr' := mapM_id_some hr
              have hc' := mapM_id_some hc
              subst hr' hc'
              obtain ⟨l1, g1⟩ := (mapM_some_iff _ _ _).mp hrgm
              obtain ⟨l2, g2⟩ := (mapM_some_iff _ _ _).mp hcgm
              refine ⟨r, c, by simpa using l1, by simpa using l2, hRC, hCC, ?_, ?_⟩
              · intro i h1 h2
                have := g1 i h2 (by simpa using h1)
                simpa using this
              · intro j h1
                have := g2 j (by simp at l2 ⊢; omega) (by simpa using h1)
                simpa using this
          · simp only [Option.some.injEq] at h
            subst h
            refine ⟨row0.length, by simp, hJ', rfl, ?_, hex, hloc', by simp⟩
            intro i j b hb
            exact hpl b (hmem i j b hb)

/-! ### the assembled matrix, block by block -/

/-- `r` is the gathering matrix of the row variable of some block in row `i`. -/
def RowVar (blocks : List (List (Option (Mat R)))) (i : Nat) (r : Chain) : Prop :=
  ∃ j b c, at2 blocks i j = some b ∧ b.gms = some (r, c)
/-- `c` is the gathering matrix of the column variable of some block in column `j`. -/
def ColVar (blocks : List (List (Option (Mat R)))) (j : Nat) (c : Chain) : Prop :=
  ∃ i b r, at2 blocks i j = some b ∧ b.gms = some (r, c)

/-- The blocks are consistent: the gathering matrices of a block number the dofs of all its elements, and its local matrices
have the shapes they say; the local matrices of a block without gathering matrices have the shapes its row and its column
say. -/
structure Proper (nR : Nat) (els : List (List Nat)) (blocks : List (List (Option (Mat R)))) : Prop where
  own : ∀ i j b, at2 blocks i j = some b → ∀ r c, b.gms = some (r, c) →
    Gathers nR els r ∧ Gathers nR els c ∧ FitsIn els r c b
  bare : ∀ i j b, at2 blocks i j = some b → b.gms = none → ∀ r c, RowVar blocks i r → ColVar blocks j c → FitsIn els r c b

/-- the same numbering. -/
def Same (c c' : Chain) : Prop := c.total = c'.total ∧ ∀ k e, c.get k e = c'.get k e

theorem Same.vec {c c' : Chain} (h : Same c c') (k e : Nat) : Asm.vec (silly c) k e = Asm.vec (silly c') k e := by
  simp [Asm.vec, silly, h.2 k e]

theorem FitsIn.same {els : List (List Nat)} {r r' c c' : Chain} {b : Mat R} (h : FitsIn els r c b) (hr : Same r r')
    (hc : Same c c') : FitsIn els r' c' b := by
  refine ⟨h.1, fun k e he => ?_⟩
  rw [← hr.vec, ← hc.vec]
  exact h.2 k e he

theorem total_same [AddCommMonoid R] [One R] {r r' c c' : Chain} (hr : Same r r') (hc : Same c c') (b : Mat R) (p q : Nat) :
    total (silly r) (silly c) b.ewm noCus p q = total (silly r') (silly c') b.ewm noCus p q := by
  simp only [total, hr.vec, hc.vec]

theorem plain_spec {b : Mat R} (h : b.plain = true) {k e : Nat} (he : e ∈ b.els.getD k []) : b.cus k e = [] := by
  unfold Mat.plain at h
  rw [List.all_eq_true] at h
  by_cases hk : k < b.els.length
  · have h1 := h (b.els[k], k) (by rw [List.mem_zipIdx_iff_getElem?]; simp [hk])
    rw [List.all_eq_true] at h1
    have h2 := h1 e (by simpa [List.getD, hk] using he)
    simpa using h2
  · simp [List.getD, hk] at he

theorem assemble_plain [AddCommMonoid R] [One R] (T : Nat) {nR : Nat} {els : List (List Nat)} {r c : Chain} {b : Mat R}
    (hr : Gathers nR els r) (hc : Gathers nR els c) (h : FitsIn els r c b) (hp : b.plain = true) :
    assemble T (silly r) (silly c) b.ewm b.cus = some (total (silly r) (silly c) b.ewm noCus) := by
  have hcu : ∀ k e m, (k, e, m) ∈ elemsOf b.ewm → b.cus k e = [] := fun k e m hm => plain_spec hp (mem_ewm hm).1
  rw [assemble_spec T (h.matOK hr hc) (fun k e m hm x hx => by rw [hcu k e m hm] at hx; simp at hx)]
  congr 1
  funext p q
  unfold total
  congr 1
  apply List.map_congr_left
  rintro ⟨k, e, m⟩ hm
  simp only [hcu k e m hm, noCus]

theorem noCus_plain {A : Mat R} (h : A.cus = noCus) : A.plain = true := by
  simp [Mat.plain, h, noCus]

/-- What is known about the gathering matrices of the rows and columns of blocks. -/
theorem picked [AddCommMonoid R] {nR J : Nat} {els : List (List Nat)} {blocks : List (List (Option (Mat R)))}
    (hJ : ∀ row ∈ blocks, row.length = J) (hp : Proper nR els blocks) {rg cg : List Chain} (hrl : rg.length = blocks.length)
    (hcl : cg.length = J)
    (hrp : ∀ i (_ : i < rg.length) (h2 : i < blocks.length),
      pickGM nR (blocks[i].map fun b => b.bind fun m => m.gms.map Prod.fst) = some (some rg[i]))
    (hcp : ∀ j (_ : j < cg.length),
      pickGM nR (blocks.map fun row => (row.getD j none).bind fun m => m.gms.map Prod.snd) = some (some cg[j])) :
    (∀ i (h1 : i < rg.length), RowVar blocks i rg[i] ∧ Gathers nR els rg[i] ∧ ∀ r, RowVar blocks i r → Same rg[i] r) ∧
    ∀ j (h1 : j < cg.length), ColVar blocks j cg[j] ∧ Gathers nR els cg[j] ∧ ∀ c, ColVar blocks j c → Same cg[j] c := by
  constructor
  · intro i h1
    obtain ⟨hm, hs⟩ := pickGM_spec (hrp i h1 (by omega))
    have hmem : ∀ r, some r ∈ (blocks[i]'(by omega)).map (fun b => b.bind fun m => m.gms.map Prod.fst) ↔ RowVar blocks i r := by
      intro r
      rw [List.mem_map]
      constructor
      · rintro ⟨b, hb, hr⟩
        obtain ⟨j, hj, rfl⟩ := List.getElem_of_mem hb
        obtain ⟨m, hm, hm'⟩ := Option.bind_eq_some_iff.mp hr
        obtain ⟨⟨r', c⟩, hg, rfl⟩ := Option.map_eq_some_iff.mp hm'
        exact ⟨j, m, c, by rw [at2_of (by omega) hj, hm], hg⟩
      · rintro ⟨j, b, c, hb, hg⟩
        obtain ⟨_, g2, g3⟩ := at2_eq hb
        exact ⟨some b, by rw [← g3]; exact List.getElem_mem g2, by simp [hg]⟩
    have hrow := (hmem _).1 hm
    have hga : ∀ r, RowVar blocks i r → Gathers nR els r := by
      rintro r ⟨j, b, c, hb, hg⟩
      exact (hp.own i j b hb r c hg).1
    refine ⟨hrow, hga _ hrow, fun r hr => ?_⟩
    rcases hs r ((hmem r).2 hr) with rfl | h
    · exact ⟨rfl, fun _ _ => rfl⟩
    · exact chainEq_spec h (hga _ hrow) (hga _ hr)
  · intro j h1
    obtain ⟨hm, hs⟩ := pickGM_spec (hcp j h1)
    have hmem : ∀ r, some r ∈ blocks.map (fun row => (row.getD j none).bind fun m => m.gms.map Prod.snd) ↔ ColVar blocks j r := by
      intro r
      rw [List.mem_map]
      constructor
      · rintro ⟨row, hrow, hr⟩
        obtain ⟨i, hi, rfl⟩ := List.getElem_of_mem hrow
        obtain ⟨m, hm, hm'⟩ := Option.bind_eq_some_iff.mp hr
        obtain ⟨⟨r', c⟩, hg, rfl⟩ := Option.map_eq_some_iff.mp hm'
        exact ⟨i, m, r', by simpa [at2, List.getD, hi] using hm, hg⟩
      · rintro ⟨i, b, c, hb, hg⟩
        obtain ⟨g1, g2, g3⟩ := at2_eq hb
        exact ⟨_, List.getElem_mem g1, by simp [List.getD, g2, g3, hg]⟩
    have hrow := (hmem _).1 hm
    have hga : ∀ r, ColVar blocks j r → Gathers nR els r := by
      rintro r ⟨i, b, c, hb, hg⟩
      exact (hp.own i j b hb c r hg).2.1
    refine ⟨hrow, hga _ hrow, fun r hr => ?_⟩
    rcases hs r ((hmem r).2 hr) with rfl | h
    · exact ⟨rfl, fun _ _ => rfl⟩
    · exact chainEq_spec h (hga _ hrow) (hga _ hr)

/-- **C92, the assembled block matrix.**  There are numbers of dofs `rn`, `cn` of the rows and columns of blocks, which add up to
the shape of the assembled matrix.  Its part that belongs to block `(i, j)` is the assembled matrix of the block (with any of the
gathering matrices given for row `i` and column `j`), and zero where the block is None. -/
theorem c92_block [AddCommMonoid R] [One R] (T : Nat) {nR : Nat} {blocks : List (List (Option (Mat R)))} {A : Mat R}
    (h : bmat nR blocks = some A) {RC CC : Chain} (hg : A.gms = some (RC, CC)) (hp : Proper nR A.els blocks) :
    ∃ rn cn : List Nat, rn.length = blocks.length ∧ (∀ row ∈ blocks, row.length = cn.length) ∧
      RC.total = rn.sum ∧ CC.total = cn.sum ∧
      (∀ i r, RowVar blocks i r → r.total = rn.getD i 0) ∧ (∀ j c, ColVar blocks j c → c.total = cn.getD j 0) ∧
      ∃ F, assemble T (silly RC) (silly CC) A.ewm A.cus = some F ∧
        ∀ i j p q, p < rn.getD i 0 → q < cn.getD j 0 →
          (at2 blocks i j = none → F (offset rn i + p) (offset cn j + q) = 0) ∧
          ∀ b, at2 blocks i j = some b → ∀ r c, RowVar blocks i r → ColVar blocks j c →
            ∃ G, assemble T (silly r) (silly c) b.ewm b.cus = some G ∧ F (offset rn i + p) (offset cn j + q) = G p q := by
  obtain ⟨J, hne, hJ, hcus, hpl, hex, hloc, hgm⟩ := bmat_spec h
  obtain ⟨rg, cg, hrl, hcl, hRC, hCC, hrp, hcp⟩ := hgm RC CC hg
  obtain ⟨hR, hC⟩ := picked hJ hp hrl hcl hrp hcp
  have hr0 : rg ≠ [] := by
    rintro rfl
    simp at hrl
    exact hne (List.eq_nil_of_length_eq_zero hrl.symm)
  have hc0 : cg ≠ [] := by
    rintro rfl
    obtain ⟨i, j, b, hb⟩ := hex
    obtain ⟨g1, g2, _⟩ := at2_eq hb
    have := hJ _ (List.getElem_mem g1)
    simp at hcl
    omega
  have hRg : ∀ c ∈ rg, Gathers nR A.els c := by
    intro c hc
    obtain ⟨i, hi, rfl⟩ := List.getElem_of_mem hc
    exact (hR i hi).2.1
  have hCg : ∀ c ∈ cg, Gathers nR A.els c := by
    intro c hc
    obtain ⟨i, hi, rfl⟩ := List.getElem_of_mem hc
    exact (hC i hi).2.1
  have hfit : ∀ i j b, at2 blocks i j = some b → ∀ (h1 : i < rg.length) (h2 : j < cg.length), FitsIn A.els rg[i] cg[j] b := by
    intro i j b hb h1 h2
    cases hbg : b.gms with
    | none => exact hp.bare i j b hb hbg _ _ (hR i h1).1 (hC j h2).1
    | some rc =>
      obtain ⟨r, c⟩ := rc
      have e1 := (hR i h1).2.2 r ⟨j, b, c, hb, hbg⟩
      have e2 := (hC j h2).2.2 c ⟨i, b, r, hb, hbg⟩
      exact ((hp.own i j b hb r c hbg).2.2).same ⟨e1.1.symm, fun k e => (e1.2 k e).symm⟩ ⟨e2.1.symm, fun k e => (e2.2 k e).symm⟩
  have hrow : ∀ i, i < blocks.length → ∃ j m, at2 blocks i j = some m := by
    intro i hi
    obtain ⟨j, b, c, hb, _⟩ := (hR i (by omega)).1
    exact ⟨j, b, hb⟩
  have hcol : ∀ j, j < J → ∃ i m, at2 blocks i j = some m := by
    intro j hj
    obtain ⟨i, b, c, hb, _⟩ := (hC j (by omega)).1
    exact ⟨i, b, hb⟩
  obtain ⟨hA, htot⟩ := block_total hJ hrl hcl hr0 hc0 hRg hCg hRC hCC hfit hrow hcol rfl hloc
  obtain ⟨gRC, tRC, _⟩ := chain_of_chains hRC hRg hr0
  obtain ⟨gCC, tCC, _⟩ := chain_of_chains hCC hCg hc0
  have hin : ∀ i j b, at2 blocks i j = some b → i < rg.length ∧ j < cg.length := by
    intro i j b hb
    obtain ⟨g1, g2, _⟩ := at2_eq hb
    have := hJ _ (List.getElem_mem g1)
    omega
  refine ⟨rg.map Chain.total, cg.map Chain.total, by simpa using hrl, by simpa [hcl] using hJ, tRC, tCC, ?_, ?_, _,
    assemble_plain T gRC gCC hA (noCus_plain hcus), ?_⟩
  · intro i r hr
    have hi : i < rg.length := by
      obtain ⟨j, b, c, hb, _⟩ := hr
      exact (hin i j b hb).1
    rw [← ((hR i hi).2.2 r hr).1]
    simp [List.getD, hi]
  · intro j c hc
    have hj : j < cg.length := by
      obtain ⟨i, b, r, hb, _⟩ := hc
      exact (hin i j b hb).2
    rw [← ((hC j hj).2.2 c hc).1]
    simp [List.getD, hj]
  · intro i j p q hp' hq'
    have hi : i < rg.length := by
      by_contra hn
      simp [List.getD, hn] at hp'
    have hj : j < cg.length := by
      by_contra hn
      simp [List.getD, hn] at hq'
    have := htot i j hi hj p q (by simpa [List.getD, hi] using hp') (by simpa [List.getD, hj] using hq')
    constructor
    · intro hb
      rw [this, hb]
    · intro b hb r c hr hc
      have s1 := (hR i hi).2.2 r hr
      have s2 := (hC j hj).2.2 c hc
      have gr : Gathers nR A.els r := by
        obtain ⟨j', b', c', hb', hg'⟩ := hr
        exact (hp.own i j' b' hb' r c' hg').1
      have gc : Gathers nR A.els c := by
        obtain ⟨i', b', r', hb', hg'⟩ := hc
        exact (hp.own i' j b' hb' r' c hg').2.1
      refine ⟨_, assemble_plain T gr gc ((hfit i j b hb hi hj).same s1 s2) (hpl i j b hb).1, ?_⟩
      rw [this, hb]
      exact total_same s1 s2 b p q

/-! ### vectors -/

/-- no customizations. -/
def noVCus : VSt R := ⟨fun _ _ => [], fun _ _ => none⟩

theorem vval_noVCus [AddCommMonoid R] (k e : Nat) (x : Sv R) : vval noVCus k e x = x.entry := by
  funext i
  simp [vval, noVCus, VSt.flush]

theorem entry_append [AddCommMonoid R] (n m : Nat) (l l' : List (Nat × R)) (i : Nat) :
    (Sv.mk n (l ++ l')).entry i = (Sv.mk m l).entry i + (Sv.mk m l').entry i := by
  simp [Sv.entry]

theorem entry_out [AddCommMonoid R] (x : Sv R) (i : Nat) (h : ∀ p ∈ x.items, p.1 ≠ i) : x.entry i = 0 := by
  unfold Sv.entry
  rw [List.map_congr_left (g := fun _ => (0 : R)) fun p hp => if_neg (h p hp)]
  simp

theorem entry_shift [AddCommMonoid R] (n m o : Nat) (l : List (Nat × R)) (i : Nat) :
    (Sv.mk n (l.map fun p => (o + p.1, p.2))).entry (o + i) = (Sv.mk m l).entry i := by
  simp only [Sv.entry, List.map_map]
  congr 1
  apply List.map_congr_left
  intro p _
  simp

theorem vstack_entry [AddCommMonoid R] (xs : List (Sv R)) (hx : ∀ x ∈ xs, ∀ p ∈ x.items, p.1 < x.len) {i a : Nat}
    (hi : i < xs.length) (ha : a < xs[i].len) : (vstack xs).entry (offset (xs.map Sv.len) i + a) = xs[i].entry a := by
  induction xs generalizing i with
  | nil => simp at hi
  | cons x l ih =>
    rw [vstack, entry_append _ x.len]
    cases i with
    | zero =>
      rw [offset_zero, Nat.zero_add]
      simp only [List.getElem_cons_zero] at ha ⊢
      rw [entry_out ⟨x.len, (vstack l).items.map fun p => (x.len + p.1, p.2)⟩]
      · exact add_zero _
      · intro p hp
        obtain ⟨q, _, rfl⟩ := List.mem_map.mp hp
        simp only
        omega
    | succ i =>
      simp only [List.getElem_cons_succ, List.map_cons] at ha ⊢
      rw [offset_cons, Nat.add_assoc, entry_shift _ (vstack l).len, entry_out ⟨x.len, x.items⟩]
      · rw [zero_add]
        exact ih (fun y hy => hx y (by simp [hy])) (by simpa using hi) ha
      · intro p hp
        have := hx x (by simp) p hp
        omega

theorem vstack_len (xs : List (Sv R)) : (vstack xs).len = (xs.map Sv.len).sum := by
  induction xs with
  | nil => rfl
  | cons x l ih => simp [vstack, ih]

theorem vstack_idx (xs : List (Sv R)) (hx : ∀ x ∈ xs, ∀ p ∈ x.items, p.1 < x.len) : ∀ p ∈ (vstack xs).items, p.1 < (vstack xs).len := by
  induction xs with
  | nil => intro p hp; simp [vstack] at hp
  | cons x l ih =>
    intro p hp
    rw [vstack, List.mem_append] at hp
    simp only [vstack]
    rcases hp with hp | hp
    · have := hx x (by simp) p hp
      omega
    · obtain ⟨q, hq, rfl⟩ := List.mem_map.mp hp
      have := ih (fun y hy => hx y (by simp [hy])) q hq
      simp only
      omega

theorem mem_ewv {A : Vec R} {k e : Nat} {m : Sv R} (h : (k, e, m) ∈ elemsOf A.ewv) :
    e ∈ A.els.getD k [] ∧ m = A.loc k e := by
  obtain ⟨hk, hm⟩ := mem_elemsOf.mp h
  unfold Vec.ewv at hk hm
  simp only [List.length_map, List.length_zipIdx] at hk
  simp only [List.getElem_map, List.getElem_zipIdx, Nat.zero_add, List.mem_map] at hm
  obtain ⟨e', he', heq⟩ := hm
  simp only [Prod.mk.injEq] at heq
  obtain ⟨rfl, rfl⟩ := heq
  exact ⟨by simpa [List.getD, hk] using he', rfl⟩

theorem ewv_sum [AddCommMonoid R] (A : Vec R) (f : Nat → Nat → Sv R → R) :
    ((elemsOf A.ewv).map fun x => f x.1 x.2.1 x.2.2).sum =
      ((A.els.zipIdx).map fun lk => (lk.1.map fun e => f lk.2 e (A.loc lk.2 e)).sum).sum := by
  unfold elemsOf Vec.ewv
  have key : ∀ (l : List (List Nat)) (n : Nat),
      (((l.zipIdx n).map fun lk => lk.1.map fun e => (e, A.loc lk.2 e)).zipIdx n).flatMap
        (fun lk => lk.1.map fun x => (lk.2, x.1, x.2)) =
      (l.zipIdx n).flatMap fun lk => lk.1.map fun e => (lk.2, e, A.loc lk.2 e) := by
    intro l
    induction l with
    | nil => intro n; rfl
    | cons a l ih =>
      intro n
      rw [List.zipIdx_cons, List.map_cons, List.zipIdx_cons, List.flatMap_cons, List.flatMap_cons, ih (n + 1)]
      simp [Function.comp_def]
  rw [key A.els 0, List.map_flatMap, List.flatMap_def, List.sum_flatten, List.map_map]
  congr 1
  apply List.map_congr_left
  intro lk _
  simp [Function.comp_def]

/-- the local vectors have the lengths the gathering matrix says. -/
def VFitsIn (els : List (List Nat)) (c : Chain) (b : Vec R) : Prop :=
  b.els = els ∧ ∀ k e, e ∈ els.getD k [] → VFits (vec (silly c) k e) (b.loc k e)

theorem assembleVec_plain [AddCommMonoid R] {nR : Nat} {els : List (List Nat)} {c : Chain} {b : Vec R}
    (hc : Gathers nR els c) (h : VFitsIn els c b) : ∃ G, assembleVec (silly c) b.ewv noVCus = some G ∧
      ∀ r, G r = ((els.zipIdx).map fun lk => (lk.1.map fun e => vcontrib (vec (silly c) lk.2 e) (b.loc lk.2 e).entry r).sum).sum := by
  have hok : VecOK (silly c) b.ewv := by
    have hm : ∀ k e m, (k, e, m) ∈ elemsOf b.ewv → e ∈ els.getD k [] ∧ m = b.loc k e := by
      intro k e m hm
      have := mem_ewv hm
      rwa [h.1] at this
    exact {
      vecI := fun k e m hx => (hc.vec_get (hm k e m hx).1).1
      fits := fun k e m hx => by rw [(hm k e m hx).2]; exact h.2 k e (hm k e m hx).1
      ltI := fun k e m hx => (hc.vec_get (hm k e m hx).1).2 }
  have hs : VStOK (silly c) b.ewv noVCus := by
    intro k e x _ p hp
    simp [noVCus, VSt.flush] at hp
  refine ⟨_, assembleVec_spec hok hs, fun r => ?_⟩
  unfold vtotal
  simp only [vval_noVCus]
  rw [ewv_sum b fun k e x => vcontrib (vec (silly c) k e) x.entry r, h.1]

/-- what `concatenate` has checked when it returns. -/
theorem concatenate_spec {nR : Nat} {vs : List (Vec R)} {B : Vec R} (h : concatenate nR vs = some B) : vs ≠ [] ∧
    B.cus = false ∧ (∀ v ∈ vs, v.els = B.els ∧ v.cus = false) ∧ (∀ k e, B.loc k e = vstack (vs.map fun v => v.loc k e)) ∧
    ∀ C, B.gm = some C → ∃ gs : List Chain, vs.mapM Vec.gm = some gs ∧ mkChain nR (gs.map Item.chain) = some C := by
  unfold concatenate at h
  cases vs with
  | nil => simp at h
  | cons v0 l =>
    simp only at h
    split at h
    · simp at h
    · next hall =>
      simp only [Bool.not_eq_true', Bool.not_eq_false, List.all_eq_true, Bool.and_eq_true, decide_eq_true_eq] at hall
      split at h
      · next gs hgs =>
        obtain ⟨C, hC, rfl⟩ := Option.map_eq_some_iff.mp h
        refine ⟨by simp, rfl, fun v hv => ⟨(hall v hv).2.symm, (hall v hv).1⟩, fun _ _ => rfl, ?_⟩
        intro C' hC'
        simp only [Option.some.injEq] at hC'
        subst hC'
        exact ⟨gs, hgs, hC⟩
      · simp only [Option.some.injEq] at h
        subst h
        exact ⟨by simp, rfl, fun v hv => ⟨(hall v hv).2.symm, (hall v hv).1⟩, fun _ _ => rfl, by simp⟩

/-- **C92, the assembled block vector.**  Its part that belongs to the `i`-th vector is the assembled `i`-th vector. -/
theorem c92_vector [AddCommMonoid R] {nR : Nat} {vs : List (Vec R)} {B : Vec R} (h : concatenate nR vs = some B) {C : Chain}
    (hg : B.gm = some C) (hp : ∀ v ∈ vs, ∀ g, v.gm = some g → Gathers nR B.els g ∧ VFitsIn B.els g v) :
    ∃ ns : List Nat, ns.length = vs.length ∧ C.total = ns.sum ∧ ∃ F, assembleVec (silly C) B.ewv noVCus = some F ∧
      ∀ i (hi : i < vs.length), ∃ g, vs[i].gm = some g ∧ g.total = ns.getD i 0 ∧
        ∃ G, assembleVec (silly g) vs[i].ewv noVCus = some G ∧ ∀ p, p < ns.getD i 0 → F (offset ns i + p) = G p := by
  obtain ⟨hne, -, hch, hloc, hgm⟩ := concatenate_spec h
  obtain ⟨gs, hgs, hC⟩ := hgm C hg
  obtain ⟨hl, hget⟩ := (mapM_some_iff _ _ _).mp hgs
  have hg0 : gs ≠ [] := by
    rintro rfl
    simp at hl
    exact hne (List.eq_nil_of_length_eq_zero hl.symm)
  have hga : ∀ i (h1 : i < gs.length) (h2 : i < vs.length), Gathers nR B.els gs[i] ∧ VFitsIn B.els gs[i] vs[i] :=
    fun i h1 h2 => hp _ (List.getElem_mem h2) _ (hget i h2 h1)
  have hgath : ∀ c ∈ gs, Gathers nR B.els c := by
    intro c hc
    obtain ⟨i, hi, rfl⟩ := List.getElem_of_mem hc
    exact (hga i hi (by omega)).1
  obtain ⟨gC, tC, hCget⟩ := chain_of_chains hC hgath hg0
  have hCv : ∀ k e, e ∈ B.els.getD k [] →
      vec (silly C) k e = shifted (gs.map fun c => vec (silly c) k e) (gs.map Chain.total) 0 := by
    intro k e he
    have := hCget k e he
    simp [vec, silly] at this ⊢
    rw [this]
    rfl
  have hlens : ∀ k e, e ∈ B.els.getD k [] →
      (vs.map fun v => v.loc k e).map Sv.len = (gs.map fun c => vec (silly c) k e).map List.length := by
    intro k e he
    apply List.ext_getElem (by simp [hl])
    intro i h1 h2
    simp only [List.getElem_map]
    exact ((hga i (by simpa using h2) (by simpa using h1)).2.2 k e he).len
  have hidx : ∀ k e, e ∈ B.els.getD k [] → ∀ x ∈ vs.map (fun v => v.loc k e), ∀ p ∈ x.items, p.1 < x.len := by
    intro k e he x hx p hp'
    obtain ⟨i, hi, rfl⟩ := List.getElem_of_mem hx
    simp only [List.getElem_map] at hp' ⊢
    have := (hga i (by simp at hi; omega) (by simpa using hi)).2.2 k e he
    rw [this.len]
    exact this.idx p hp'
  have hfit : VFitsIn B.els C B := by
    refine ⟨rfl, fun k e he => ?_⟩
    have hlen : (vstack (vs.map fun v => v.loc k e)).len = (vec (silly C) k e).length := by
      rw [vstack_len, hlens k e he, hCv k e he, shifted_length]
    rw [hloc]
    refine ⟨hlen, ?_⟩
    rw [← hlen]
    exact vstack_idx _ (hidx k e he)
  obtain ⟨F, hF, hFv⟩ := assembleVec_plain gC hfit
  refine ⟨gs.map Chain.total, by simpa using hl, tC, F, hF, ?_⟩
  intro i hi
  have hi' : i < gs.length := by omega
  obtain ⟨gi, fi⟩ := hga i hi' hi
  obtain ⟨G, hG, hGv⟩ := assembleVec_plain gi fi
  refine ⟨gs[i], hget i hi hi', by simp [List.getD, hi'], G, hG, ?_⟩
  intro p hp'
  rw [hFv, hGv]
  congr 1
  apply List.map_congr_left
  rintro ⟨l, k⟩ hk
  congr 1
  apply List.map_congr_left
  intro e he
  obtain ⟨hk1, hk2⟩ := List.mem_zipIdx' hk
  simp only at hk2 he ⊢
  rw [hk2] at he
  have he' : e ∈ B.els.getD k [] := by simpa [List.getD, hk1] using he
  have hlt : ∀ i, ∀ x ∈ (gs.map fun c => vec (silly c) k e).getD i [], x < (gs.map Chain.total).getD i 0 := by
    intro i x hx
    by_cases hi : i < gs.length
    · have e1 : (gs.map fun c => vec (silly c) k e).getD i [] = vec (silly gs[i]) k e := by simp [List.getD, hi]
      have e2 : (gs.map Chain.total).getD i 0 = gs[i].total := by simp [List.getD, hi]
      rw [e1] at hx
      rw [e2]
      exact ((hgath _ (List.getElem_mem hi)).vec_get he').2 x hx
    · simp [List.getD, hi] at hx
  have := vcontrib_shifted (gs.map fun c => vec (silly c) k e) (gs.map Chain.total) 0 (B.loc k e).entry (by simp) hlt hp'
  rw [Nat.zero_add] at this
  rw [hCv k e he', this]
  have e1 : (gs.map fun c => vec (silly c) k e).getD i [] = vec (silly gs[i]) k e := by simp [List.getD, hi']
  rw [e1]
  apply vcontrib_congr
  intro a ha _
  rw [← hlens k e he', hloc]
  have := vstack_entry (vs.map fun v => v.loc k e) (hidx k e he') (i := i) (a := a) (by simpa using hi) (by
    simp only [List.getElem_map]
    rw [(fi.2 k e he').len]
    exact ha)
  rw [this]
  simp

/-! ### the system -/

theorem sum_offset [AddCommMonoid R] (ns : List Nat) (f : Nat → R) :
    ∑ c ∈ range ns.sum, f c = ∑ j ∈ range ns.length, ∑ q ∈ range (ns.getD j 0), f (offset ns j + q) := by
  induction ns generalizing f with
  | nil => simp
  | cons n ns ih =>
    rw [List.sum_cons, Finset.sum_range_add, List.length_cons, Finset.sum_range_succ', ih fun c => f (n + c), add_comm]
    congr 1
    · apply Finset.sum_congr rfl
      intro j _
      rw [List.getD_cons_succ]
      apply Finset.sum_congr rfl
      intro q _
      rw [offset_cons, Nat.add_assoc]
    · rw [List.getD_cons_zero]
      apply Finset.sum_congr rfl
      intro q _
      rw [offset_zero, Nat.zero_add]

/-- `M` is the assembled block `(i, j)`; a None block is zero. -/
def IsBlock [AddCommMonoid R] [One R] (T : Nat) (blocks : List (List (Option (Mat R)))) (i j : Nat) (M : Nat → Nat → R) : Prop :=
  match at2 blocks i j with
  | none => M = 0
  | some b => ∃ r c, RowVar blocks i r ∧ ColVar blocks j c ∧ assemble T (silly r) (silly c) b.ewm b.cus = some M

/-- **C92, the assembled block system.**  With a vector for every row of blocks: `x` solves the assembled system of `bmat(blocks)` and
`concatenate(vectors)` iff its parts (`x_j`, from the sum of the numbers of dofs of the columns before) solve the system of the
assembled blocks: in every row `i`, the sum of `M_ij x_j` over `j` is the assembled vector `i`. -/
theorem c92_system [CommRing R] (T : Nat) {nR : Nat} {blocks : List (List (Option (Mat R)))} {A : Mat R}
    (h : bmat nR blocks = some A) {RC CC : Chain} (hg : A.gms = some (RC, CC)) (hp : Proper nR A.els blocks)
    {vs : List (Vec R)} {B : Vec R} (hv : concatenate nR vs = some B) {C : Chain} (hgv : B.gm = some C)
    (hpv : ∀ v ∈ vs, ∀ g, v.gm = some g → Gathers nR B.els g ∧ VFitsIn B.els g v) (hl : vs.length = blocks.length)
    (hsame : ∀ i (hi : i < vs.length) r g, RowVar blocks i r → vs[i].gm = some g → g.total = r.total)
    (M : Nat → Nat → Nat → Nat → R) (hM : ∀ i j, IsBlock T blocks i j (M i j))
    (y : Nat → Nat → R) (hy : ∀ i (hi : i < vs.length) g, vs[i].gm = some g → assembleVec (silly g) vs[i].ewv noVCus = some (y i)) :
    ∃ F f, assemble T (silly RC) (silly CC) A.ewm A.cus = some F ∧ assembleVec (silly C) B.ewv noVCus = some f ∧
      ∃ cn : List Nat, CC.total = cn.sum ∧ (∀ row ∈ blocks, row.length = cn.length) ∧ (∀ j c, ColVar blocks j c → c.total = cn.getD j 0) ∧
      ∀ x, Solves RC.total CC.total F f x ↔
        ∀ i, i < blocks.length → ∀ r, RowVar blocks i r → ∀ p, p < r.total →
          ∑ j ∈ range cn.length, ∑ q ∈ range (cn.getD j 0), M i j p q * x (offset cn j + q) = y i p := by
  obtain ⟨rn, cn, hrn, hcn, tR, tC, hrv, hcv, F, hF, hFb⟩ := c92_block T h hg hp
  obtain ⟨ns, hns, tv, f, hf, hfb⟩ := c92_vector hv hgv hpv
  -- every row and column has a variable
  obtain ⟨J, hne, hJ, hcus, hpl, hex, hloc, hgm⟩ := bmat_spec h
  obtain ⟨rg, cg, hrl, hcl, hRC, hCC, hrp, hcp⟩ := hgm RC CC hg
  obtain ⟨hR, hC⟩ := picked hJ hp hrl hcl hrp hcp
  have hrow : ∀ i, i < blocks.length → ∃ r, RowVar blocks i r := fun i hi => ⟨_, (hR i (by omega)).1⟩
  have hsz : ns = rn := by
    apply List.ext_getElem (by omega)
    intro i h1 h2
    obtain ⟨r, hr⟩ := hrow i (by omega)
    obtain ⟨g, hg1, hg2, _⟩ := hfb i (by omega)
    have e1 := hsame i (by omega) r g hr hg1
    have e2 := hrv i r hr
    simp only [List.getD, List.getElem?_eq_getElem h1, List.getElem?_eq_getElem h2, Option.getD_some] at hg2 e2
    omega
  subst hsz
  refine ⟨F, f, hF, hf, cn, tC, hcn, hcv, fun x => ?_⟩
  have hblk : ∀ i j p q, p < ns.getD i 0 → q < cn.getD j 0 → F (offset ns i + p) (offset cn j + q) = M i j p q := by
    intro i j p q h1 h2
    obtain ⟨g1, g2⟩ := hFb i j p q h1 h2
    have hb := hM i j
    unfold IsBlock at hb
    cases hat : at2 blocks i j with
    | none =>
      rw [hat] at hb
      rw [g1 hat]
      have hb' : M i j = 0 := hb
      simp [hb']
    | some b =>
      rw [hat] at hb
      obtain ⟨r, c, hr, hc, hass⟩ := hb
      obtain ⟨G, hG, hG'⟩ := g2 b hat r c hr hc
      rw [hass] at hG
      rw [hG', Option.some.inj hG]
  have hrowsum : ∀ i p, p < ns.getD i 0 → ∑ c ∈ range CC.total, F (offset ns i + p) c * x c =
      ∑ j ∈ range cn.length, ∑ q ∈ range (cn.getD j 0), M i j p q * x (offset cn j + q) := by
    intro i p hp'
    rw [tC, sum_offset]
    apply Finset.sum_congr rfl
    intro j _
    apply Finset.sum_congr rfl
    intro q hq
    rw [hblk i j p q hp' (mem_range.1 hq)]
  have hyv : ∀ i p, i < vs.length → p < ns.getD i 0 → f (offset ns i + p) = y i p := by
    intro i p hi hp'
    obtain ⟨g, hg1, -, G, hG, hGp⟩ := hfb i hi
    have := hy i hi g hg1
    rw [hG] at this
    rw [hGp p hp', Option.some.inj this]
  constructor
  · intro hs i hi r hr p hp'
    rw [hrv i r hr] at hp'
    rw [← hrowsum i p hp', ← hyv i p (by omega) hp']
    apply hs
    rw [tR]
    exact offset_lt _ hp'
  · intro hs q hq
    rw [tR] at hq
    obtain ⟨i, p, hi, hp', rfl⟩ := offset_split ns hq
    obtain ⟨r, hr⟩ := hrow i (by omega)
    rw [hrowsum i p hp', hyv i p (by omega) hp']
    exact hs i (by omega) r hr p (by rw [hrv i r hr]; exact hp')

/-! ### access to blocks -/

/-- every row and every column of a block matrix with gathering matrices has a variable. -/
theorem has_vars [AddCommMonoid R] {nR : Nat} {blocks : List (List (Option (Mat R)))} {A : Mat R}
    (h : bmat nR blocks = some A) {RC CC : Chain} (hg : A.gms = some (RC, CC)) (hp : Proper nR A.els blocks) :
    ∃ rg cg : List Chain, rg.length = blocks.length ∧ (∀ row ∈ blocks, row.length = cg.length) ∧
      RC.gms = rg.flatMap Chain.gms ∧ CC.gms = cg.flatMap Chain.gms ∧
      (∀ i (h1 : i < rg.length), RowVar blocks i rg[i] ∧ Gathers nR A.els rg[i] ∧ ∀ r, RowVar blocks i r → Same rg[i] r) ∧
      ∀ j (h1 : j < cg.length), ColVar blocks j cg[j] ∧ Gathers nR A.els cg[j] ∧ ∀ c, ColVar blocks j c → Same cg[j] c := by
  obtain ⟨J, hne, hJ, hcus, hpl, hex, hloc, hgm⟩ := bmat_spec h
  obtain ⟨rg, cg, hrl, hcl, hRC, hCC, hrp, hcp⟩ := hgm RC CC hg
  obtain ⟨hR, hC⟩ := picked hJ hp hrl hcl hrp hcp
  refine ⟨rg, cg, hrl, by simpa [hcl] using hJ, ?_, ?_, hR, hC⟩
  · rw [(mkChain_spec hRC).1, List.flatMap_map]
    rfl
  · rw [(mkChain_spec hCC).1, List.flatMap_map]
    rfl

theorem flatMap_single (l : List Chain) (h : ∀ c ∈ l, c.gms.length = 1) (i : Nat) (hi : i < l.length) :
    (l.flatMap Chain.gms)[i]? = some (l[i].gms.headD []) := by
  induction l generalizing i with
  | nil => simp at hi
  | cons c l ih =>
    obtain ⟨g, hg⟩ := List.length_eq_one_iff.mp (h c (by simp))
    cases i with
    | zero => simp [hg]
    | succ i =>
      have := ih (fun c hc => h c (by simp [hc])) i (by simpa using hi)
      rw [List.flatMap_cons, hg]
      simpa using this

/-- a gathering matrix of one member, with the same number of local dofs in all elements. -/
structure Single (c : Chain) : Prop where
  one : c.gms.length = 1
  uniform : ∀ g ∈ c.gms, ∀ v ∈ allVecs g, ∀ w ∈ allVecs g, v.length = w.length

theorem getVec_allVecs {g : GM} {k e : Nat} {v : List Nat} (h : getVec g k e = some v) : v ∈ allVecs g := by
  unfold getVec at h
  have hm : (e, v) ∈ g.getD k [] := by
    obtain ⟨l1, l2, heq, _⟩ := List.lookup_eq_some_iff.mp h
    rw [heq]
    simp
  unfold allVecs
  rw [List.mem_map]
  refine ⟨(e, v), ?_, rfl⟩
  by_cases hk : k < g.length
  · exact List.mem_flatten.mpr ⟨g[k], List.getElem_mem hk, by simpa [List.getD, hk] using hm⟩
  · simp [List.getD, hk] at hm

theorem Single.length {nR : Nat} {els : List (List Nat)} {c : Chain} (h : Single c) (hc : Gathers nR els c) {k e : Nat}
    (he : e ∈ els.getD k []) : (vec (silly c) k e).length = numLocal (c.gms.headD []) := by
  obtain ⟨g, hg⟩ := List.length_eq_one_iff.mp h.one
  obtain ⟨ws, h1, h2, h3, _⟩ := hc.get he
  have hv : vec (silly c) k e = shifted ws c.ns 0 := by simp [vec, silly, h3]
  rw [hg] at h1
  obtain ⟨hl, hget⟩ := (mapM_some_iff _ _ _).mp h1
  obtain ⟨w, rfl⟩ := List.length_eq_one_iff.mp (by simpa using hl : ws.length = 1)
  have hw := getVec_allVecs (hget 0 (by simp) (by simp))
  rw [hv, hg]
  simp only [shifted, List.append_nil, List.length_map, List.headD_cons, List.getElem_cons_zero] at hw ⊢
  unfold numLocal
  have huni := h.uniform g (by rw [hg]; simp)
  cases hall : allVecs g with
  | nil => rw [hall] at hw; simp at hw
  | cons a l =>
    rw [List.headD_cons]
    exact huni w hw a (by rw [hall]; simp)

theorem zeroMat_fits {nR : Nat} {els : List (List Nat)} {r c : Chain} (hr : Single r) (hc : Single c)
    (gr : Gathers nR els r) (gc : Gathers nR els c) :
    FitsIn els r c (zeroMat els (numLocal (r.gms.headD [])) (numLocal (c.gms.headD [])) : Mat R) := by
  refine ⟨rfl, fun k e he => ?_⟩
  have h1 := hr.length gr he
  have h2 := hc.length gc he
  exact {
    rows := h1.symm
    cols := h2.symm
    slices := by simp [zeroMat, h1]
    idx := by
      intro sl hsl p hp
      obtain ⟨_, rfl⟩ := List.mem_replicate.mp hsl
      simp at hp }

theorem zeroMat_total [AddCommMonoid R] [One R] (GI GJ : ChainGM) (els : List (List Nat)) (m n p q : Nat) :
    total GI GJ (zeroMat els m n : Mat R).ewm noCus p q = 0 := by
  rw [total_noCus]
  have : ∀ (lk : List Nat × Nat), (lk.1.map fun e => contrib (vec GI lk.2 e) (vec GJ lk.2 e)
      ((zeroMat els m n : Mat R).loc lk.2 e).entry p q).sum = 0 := by
    intro lk
    rw [List.map_congr_left (g := fun _ => (0 : R))]
    · simp
    · intro e _
      apply contrib_zero
      intro a b _ _ _ _
      by_cases h : a < m <;> simp [zeroMat, Sp.entry, List.getD, h]
  rw [List.map_congr_left fun lk _ => this lk]
  simp

/-- the blocks as `blocks[i, j]` gives them. -/
theorem blocksOf_spec {A : Mat R} {blocks : List (List (Option (Mat R)))} {RC CC : Chain} (hg : A.gms = some (RC, CC))
    {bs : List (List (Mat R))} (h : blocksOf A blocks = some bs) : bs.length = blocks.length ∧
    ∀ i (h1 : i < bs.length) (h2 : i < blocks.length), bs[i].length = blocks[i].length ∧
      ∀ j (g1 : j < bs[i].length) (g2 : j < blocks[i].length), (∀ b, blocks[i][j] = some b → bs[i][j] = b) ∧
        (blocks[i][j] = none → ∃ g g', RC.gms[i]? = some g ∧ CC.gms[j]? = some g' ∧
          bs[i][j] = zeroMat A.els (numLocal g) (numLocal g')) := by
  unfold blocksOf at h
  rw [hg, Option.bind_some] at h
  obtain ⟨hl, hget⟩ := (mapM_some_iff _ _ _).mp h
  rw [List.length_zipIdx] at hl
  refine ⟨hl, fun i h1 h2 => ?_⟩
  have hi := hget i (by simpa using h2) h1
  simp only [List.getElem_zipIdx, Nat.zero_add] at hi
  obtain ⟨hl', hget'⟩ := (mapM_some_iff _ _ _).mp hi
  rw [List.length_zipIdx] at hl'
  refine ⟨hl', fun j g1 g2 => ?_⟩
  have hj := hget' j (by simpa using g2) g1
  simp only [List.getElem_zipIdx, Nat.zero_add] at hj
  constructor
  · intro b hb
    rw [hb] at hj
    exact (Option.some.inj hj).symm
  · intro hb
    rw [hb] at hj
    obtain ⟨g, hg1, hj⟩ := Option.bind_eq_some_iff.mp hj
    obtain ⟨g', hg2, hj⟩ := Option.map_eq_some_iff.mp hj
    exact ⟨g, g', hg1, hg2, hj.symm⟩

/-- the blocks given to `bmat` by `A.blocks[i0:i1, j0:j1]`. -/
theorem at2_slice {α : Type} (bs : List (List α)) (i0 i1 j0 j1 i j : Nat) (b : α) :
    at2 (((bs.take i1).drop i0).map fun row => ((row.take j1).drop j0).map some) i j = some b ↔
      i0 + i < i1 ∧ j0 + j < j1 ∧ ∃ (h1 : i0 + i < bs.length) (h2 : j0 + j < bs[i0 + i].length), bs[i0 + i][j0 + j] = b := by
  constructor
  · intro h
    obtain ⟨h1, h2, h3⟩ := at2_eq h
    simp only [List.length_map, List.length_drop, List.length_take] at h1
    simp only [List.getElem_map, List.getElem_drop, List.getElem_take, List.length_map, List.length_drop, List.length_take] at h2
    simp only [List.getElem_map, List.getElem_drop, List.getElem_take, Option.some.injEq] at h3
    exact ⟨by omega, by omega, by omega, by omega, h3⟩
  · rintro ⟨g1, g2, h1, h2, h3⟩
    rw [at2_of (by simp; omega) (by simp; omega)]
    simp [h3]

theorem offset_slice (ns : List Nat) {i0 i1 i : Nat} (h : i0 + i ≤ i1) :
    offset ns i0 + offset ((ns.take i1).drop i0) i = offset ns (i0 + i) := by
  unfold offset
  rw [List.drop_take, List.take_take, Nat.min_eq_left (by omega), List.take_add, List.sum_append]

/-- **C92, parts of a block matrix (partial).**  If every row and column of blocks belongs to one variable (no chains inside chains),
and its elements have the same number of local dofs, `A.blocks[i0:i1, j0:j1]` assembles to the corresponding part of the assembled
matrix.  Missing: several variables in one row, for which it is false (`c92_nested_counterexample`); rows without gathering
matrices. -/
theorem c92_slices_partial [AddCommMonoid R] [One R] (T : Nat) {nR : Nat} {blocks : List (List (Option (Mat R)))} {A : Mat R}
    (h : bmat nR blocks = some A) {RC CC : Chain} (hg : A.gms = some (RC, CC)) (hp : Proper nR A.els blocks)
    (hr1 : ∀ i r, RowVar blocks i r → Single r) (hc1 : ∀ j c, ColVar blocks j c → Single c)
    {bs : List (List (Mat R))} (hb : blocksOf A blocks = some bs) {i0 i1 j0 j1 : Nat} {S : Mat R}
    (hS : slices nR bs i0 i1 j0 j1 = some S) {RS CS : Chain} (hSg : S.gms = some (RS, CS)) :
    ∃ (rn cn : List Nat) (F G : Nat → Nat → R), assemble T (silly RC) (silly CC) A.ewm A.cus = some F ∧
      assemble T (silly RS) (silly CS) S.ewm S.cus = some G ∧
      (∀ i r, RowVar blocks i r → r.total = rn.getD i 0) ∧ (∀ j c, ColVar blocks j c → c.total = cn.getD j 0) ∧
      RS.total = ((rn.take i1).drop i0).sum ∧ CS.total = ((cn.take j1).drop j0).sum ∧
      ∀ p q, p < RS.total → q < CS.total → G p q = F (offset rn i0 + p) (offset cn j0 + q) := by
  obtain ⟨rn, cn, hrn, hcn, tR, tC, hrv, hcv, F, hF, hFb⟩ := c92_block T h hg hp
  obtain ⟨rg, cg, hrl, hcl, hRC, hCC, hR, hC⟩ := has_vars h hg hp
  obtain ⟨hbl, hbg⟩ := blocksOf_spec hg hb
  -- the blocks of the part
  have hsome : ∀ i j b, at2 (((bs.take i1).drop i0).map fun row => ((row.take j1).drop j0).map some) i j = some b →
      i0 + i < i1 ∧ j0 + j < j1 ∧ i0 + i < rg.length ∧ j0 + j < cg.length ∧
      (at2 blocks (i0 + i) (j0 + j) = some b ∨ (at2 blocks (i0 + i) (j0 + j) = none ∧
        ∃ (h1 : i0 + i < rg.length) (h2 : j0 + j < cg.length),
          b = zeroMat A.els (numLocal (rg[i0 + i].gms.headD [])) (numLocal (cg[j0 + j].gms.headD [])))) := by
    intro i j b hbb
    obtain ⟨g1, g2, h1, h2, h3⟩ := (at2_slice bs i0 i1 j0 j1 i j b).1 hbb
    obtain ⟨e1, e2⟩ := hbg (i0 + i) h1 (by omega)
    have hlen := hcl _ (List.getElem_mem (by omega : i0 + i < blocks.length))
    obtain ⟨e3, e4⟩ := e2 (j0 + j) h2 (by omega)
    refine ⟨g1, g2, by omega, by omega, ?_⟩
    rw [at2_of (by omega) (by omega)]
    cases hbo : (blocks[i0 + i]'(by omega))[j0 + j]'(by omega) with
    | some b' =>
      left
      rw [← h3, e3 b' hbo]
    | none =>
      right
      refine ⟨rfl, by omega, by omega, ?_⟩
      obtain ⟨g, g', k1, k2, k3⟩ := e4 hbo
      rw [hRC, flatMap_single rg (fun c hc => by
        obtain ⟨i, hi, rfl⟩ := List.getElem_of_mem hc
        exact (hr1 i _ (hR i hi).1).one) _ (by omega)] at k1
      rw [hCC, flatMap_single cg (fun c hc => by
        obtain ⟨i, hi, rfl⟩ := List.getElem_of_mem hc
        exact (hc1 i _ (hC i hi).1).one) _ (by omega)] at k2
      rw [← h3, k3, ← Option.some.inj k1, ← Option.some.inj k2]
  -- variables of the part
  have hrvS : ∀ i r, RowVar (((bs.take i1).drop i0).map fun row => ((row.take j1).drop j0).map some) i r → RowVar blocks (i0 + i) r := by
    rintro i r ⟨j, b, c, hbb, hgb⟩
    obtain ⟨-, -, -, -, h | ⟨_, _, _, hz⟩⟩ := hsome i j b hbb
    · exact ⟨_, b, c, h, hgb⟩
    · simp [hz, zeroMat] at hgb
  have hcvS : ∀ j c, ColVar (((bs.take i1).drop i0).map fun row => ((row.take j1).drop j0).map some) j c → ColVar blocks (j0 + j) c := by
    rintro j c ⟨i, b, r, hbb, hgb⟩
    obtain ⟨-, -, -, -, h | ⟨_, _, _, hz⟩⟩ := hsome i j b hbb
    · exact ⟨_, b, r, h, hgb⟩
    · simp [hz, zeroMat] at hgb
  have hels : S.els = A.els := by
    obtain ⟨_, _, _, _, hplS, ⟨i, j, b, hbb⟩, _⟩ := bmat_spec hS
    rw [← (hplS i j b hbb).2]
    obtain ⟨-, -, -, -, h' | ⟨_, _, _, rfl⟩⟩ := hsome i j b hbb
    · obtain ⟨_, _, _, _, hplA, _⟩ := bmat_spec h
      exact (hplA _ _ b h').2
    · rfl
  have hzero : ∀ i j (h1 : i < rg.length) (h2 : j < cg.length) r c, RowVar blocks i r → ColVar blocks j c →
      FitsIn A.els r c (zeroMat A.els (numLocal (rg[i].gms.headD [])) (numLocal (cg[j].gms.headD [])) : Mat R) :=
    fun i j h1 h2 r c hr hc => (zeroMat_fits (hr1 i _ (hR i h1).1) (hc1 j _ (hC j h2).1) (hR i h1).2.1 (hC j h2).2.1).same
      ((hR i h1).2.2 r hr) ((hC j h2).2.2 c hc)
  have hpS : Proper nR S.els (((bs.take i1).drop i0).map fun row => ((row.take j1).drop j0).map some) := by
    rw [hels]
    constructor
    · intro i j b hbb r c hgb
      obtain ⟨-, -, -, -, h' | ⟨_, _, _, hz⟩⟩ := hsome i j b hbb
      · exact hp.own _ _ b h' r c hgb
      · simp [hz, zeroMat] at hgb
    · intro i j b hbb hgb r c hr hc
      obtain ⟨-, -, -, -, h' | ⟨-, h1, h2, rfl⟩⟩ := hsome i j b hbb
      · exact hp.bare _ _ b h' hgb r c (hrvS i r hr) (hcvS j c hc)
      · exact hzero _ _ h1 h2 r c (hrvS i r hr) (hcvS j c hc)
  obtain ⟨rn', cn', hrn', hcn', tR', tC', hrv', hcv', G, hG, hGb⟩ := c92_block T hS hSg hpS
  obtain ⟨rg', cg', hrl', hcl', -, -, hR', hC'⟩ := has_vars hS hSg hpS
  have hvar : ∀ i, i < rn'.length → ∃ r, RowVar (((bs.take i1).drop i0).map fun row => ((row.take j1).drop j0).map some) i r :=
    fun i hi => ⟨_, (hR' i (by omega)).1⟩
  have hslr : rn' = (rn.take i1).drop i0 := by
    have hlen : rn'.length = ((rn.take i1).drop i0).length := by
      rw [hrn']
      simp [hbl, hrn]
    apply List.ext_getElem hlen
    intro i h1 h2
    obtain ⟨r, hr⟩ := hvar i h1
    have e1 := hrv' i r hr
    have e2 := hrv _ r (hrvS i r hr)
    simp only [List.length_drop, List.length_take] at h2
    rw [List.getElem_drop, List.getElem_take]
    simp only [List.getD, List.getElem?_eq_getElem h1, Option.getD_some] at e1
    rw [← e1, e2]
    simp [List.getD, (by omega : i0 + i < rn.length)]
  have hex : ∃ j b, at2 (((bs.take i1).drop i0).map fun row => ((row.take j1).drop j0).map some) 0 j = some b ∧
      (((bs.take i1).drop i0).map fun row => ((row.take j1).drop j0).map some) ≠ [] := by
    obtain ⟨_, hneS, _⟩ := bmat_spec hS
    have h0 : 0 < rg'.length := by
      rw [hrl']
      exact List.length_pos_iff.mpr hneS
    obtain ⟨⟨j, b, c, hbb, _⟩, _⟩ := hR' 0 h0
    exact ⟨j, b, hbb, hneS⟩
  have hslc : cn' = (cn.take j1).drop j0 := by
    have hlen : cn'.length = ((cn.take j1).drop j0).length := by
      obtain ⟨j, b, hbb, _⟩ := hex
      obtain ⟨k1, k2, _⟩ := at2_eq hbb
      have e1 := hcn' _ (List.getElem_mem k1)
      obtain ⟨g1, g2, h1, h2, -⟩ := (at2_slice bs i0 i1 j0 j1 0 j b).1 hbb
      have e2 := (hbg (i0 + 0) h1 (by omega)).1
      have e3 := hcn _ (List.getElem_mem (by omega : i0 + 0 < blocks.length))
      rw [← e1]
      simp only [List.getElem_map, List.getElem_drop, List.getElem_take, List.length_map, List.length_drop, List.length_take,
        Nat.add_zero] at e2 e3 ⊢
      rw [e2, e3]
    apply List.ext_getElem hlen
    intro j h1 h2
    have hj' : j < cg'.length := by
      obtain ⟨_, hneS, _⟩ := bmat_spec hS
      obtain ⟨row, l, hrow⟩ := List.exists_cons_of_ne_nil hneS
      have e1 := hcn' row (by rw [hrow]; simp)
      have e2 := hcl' row (by rw [hrow]; simp)
      omega
    have hc := (hC' j hj').1
    have e1 := hcv' j _ hc
    have e2 := hcv _ _ (hcvS j _ hc)
    simp only [List.length_drop, List.length_take] at h2
    rw [List.getElem_drop, List.getElem_take]
    simp only [List.getD, List.getElem?_eq_getElem h1, Option.getD_some] at e1
    rw [← e1, e2]
    simp [List.getD, (by omega : j0 + j < cn.length)]
  refine ⟨rn, cn, F, G, hF, hG, hrv, hcv, by rw [← hslr]; exact tR', by rw [← hslc]; exact tC', ?_⟩
  intro p q hp' hq'
  rw [tR'] at hp'
  rw [tC'] at hq'
  obtain ⟨i, a, hi, ha, rfl⟩ := offset_split rn' hp'
  obtain ⟨j, b, hj, hb', rfl⟩ := offset_split cn' hq'
  have hi1 : i0 + i < i1 ∧ i0 + i < rn.length := by
    rw [hslr] at hi
    simp only [List.length_drop, List.length_take] at hi
    omega
  have hj1 : j0 + j < j1 ∧ j0 + j < cn.length := by
    rw [hslc] at hj
    simp only [List.length_drop, List.length_take] at hj
    omega
  have ea : rn'.getD i 0 = rn.getD (i0 + i) 0 := by
    rw [hslr]
    simp [List.getD, List.getElem?_drop, hi1.1]
  have eb : cn'.getD j 0 = cn.getD (j0 + j) 0 := by
    rw [hslc]
    simp [List.getD, List.getElem?_drop, hj1.1]
  have oi : offset rn i0 + (offset rn' i + a) = offset rn (i0 + i) + a := by
    rw [← Nat.add_assoc, hslr, offset_slice rn (by omega)]
  have oj : offset cn j0 + (offset cn' j + b) = offset cn (j0 + j) + b := by
    rw [← Nat.add_assoc, hslc, offset_slice cn (by omega)]
  rw [oi, oj]
  obtain ⟨-, hGs⟩ := hGb i j a b ha hb'
  obtain ⟨hF0, hFs⟩ := hFb (i0 + i) (j0 + j) a b (by omega) (by omega)
  -- the block is there
  have hi2 : i0 + i < bs.length := by omega
  have hrowlen : (bs[i0 + i]).length = cn.length := by
    rw [(hbg _ hi2 (by omega)).1]
    exact hcn _ (List.getElem_mem _)
  have hat := (at2_slice bs i0 i1 j0 j1 i j _).2 ⟨hi1.1, hj1.1, hi2, by omega, rfl⟩
  obtain ⟨r, hr⟩ := hvar i hi
  have hj' : j < cg'.length := by
    obtain ⟨_, hneS, _⟩ := bmat_spec hS
    obtain ⟨row, l, hrow⟩ := List.exists_cons_of_ne_nil hneS
    have e1 := hcn' row (by rw [hrow]; simp)
    have e2 := hcl' row (by rw [hrow]; simp)
    omega
  have hc := (hC' j hj').1
  obtain ⟨H, hH, hHv⟩ := hGs _ hat r _ hr hc
  rw [hHv]
  obtain ⟨-, -, -, -, h' | ⟨h', h1, h2, hz⟩⟩ := hsome i j _ hat
  · obtain ⟨H', hH', hHv'⟩ := hFs _ h' r _ (hrvS i r hr) (hcvS j _ hc)
    rw [hHv', Option.some.inj (hH.symm.trans hH')]
  · rw [hF0 h']
    have gr : Gathers nR A.els r := by
      obtain ⟨j', b', c', hb', hg'⟩ := hrvS i r hr
      exact (hp.own _ j' b' hb' r c' hg').1
    have gc : Gathers nR A.els cg'[j] := by
      obtain ⟨i', b', r', hb', hg'⟩ := hcvS j _ hc
      exact (hp.own i' _ b' hb' r' _ hg').2.1
    rw [hz] at hH
    rw [assemble_plain T gr gc (hzero _ _ h1 h2 r _ (hrvS i r hr) (hcvS j _ hc)) (by simp [Mat.plain, zeroMat])] at hH
    rw [← Option.some.inj hH]
    exact zeroMat_total _ _ _ _ _ _ _

/-- A row of the part in which all blocks are None: the part has no gathering matrices and cannot be assembled. -/
theorem c92_unnumbered [AddCommMonoid R] {nR : Nat} {blocks : List (List (Option (Mat R)))} {A : Mat R}
    (h : bmat nR blocks = some A) {bs : List (List (Mat R))} (hb : blocksOf A blocks = some bs) {i0 i1 j0 j1 : Nat} {S : Mat R}
    (hS : slices nR bs i0 i1 j0 j1 = some S) {i : Nat} (hi0 : i0 ≤ i) (hi1 : i < i1) (hi : i < blocks.length)
    (hnone : ∀ j, j0 ≤ j → j < j1 → at2 blocks i j = none) : S.gms = none := by
  cases hSg : S.gms with
  | none => rfl
  | some rc =>
    exfalso
    obtain ⟨RS, CS⟩ := rc
    have hAg : ∃ rc, A.gms = some rc := by
      unfold blocksOf at hb
      obtain ⟨rc, h1, _⟩ := Option.bind_eq_some_iff.mp hb
      exact ⟨rc, h1⟩
    obtain ⟨⟨RC, CC⟩, hAg⟩ := hAg
    obtain ⟨hbl, hbg⟩ := blocksOf_spec hAg hb
    obtain ⟨J, -, -, -, -, -, -, hgm⟩ := bmat_spec hS
    obtain ⟨rg, cg, hrl, hcl, -, -, hrp, -⟩ := hgm RS CS hSg
    have hil : i - i0 < (((bs.take i1).drop i0).map fun row => ((row.take j1).drop j0).map some).length := by
      simp
      omega
    obtain ⟨hm, -⟩ := pickGM_spec (hrp (i - i0) (by omega) hil)
    obtain ⟨b, hb1, hb2⟩ := List.mem_map.mp hm
    obtain ⟨j, hj, rfl⟩ := List.getElem_of_mem hb1
    obtain ⟨m, hm1, hm2⟩ := Option.bind_eq_some_iff.mp hb2
    have hat : at2 (((bs.take i1).drop i0).map fun row => ((row.take j1).drop j0).map some) (i - i0) j = some m := by
      rw [at2_of hil hj]
      exact hm1
    obtain ⟨g1, g2, h1, h2, h3⟩ := (at2_slice bs i0 i1 j0 j1 (i - i0) j m).1 hat
    have e : i0 + (i - i0) = i := by omega
    simp only [e] at h1 h2 h3
    obtain ⟨e1, e2⟩ := hbg i h1 hi
    obtain ⟨-, e4⟩ := e2 (j0 + j) h2 (by omega)
    have hn := hnone (j0 + j) (by omega) g2
    rw [at2_of hi (by omega)] at hn
    obtain ⟨g, g', -, -, hz⟩ := e4 hn
    rw [← h3, hz] at hm2
    simp [zeroMat] at hm2

/-- **C92, parts of a block vector.**  `b.blocks[i0:i1]` assembles to the corresponding part of the assembled vector. -/
theorem c92_vslice [AddCommMonoid R] {nR : Nat} {vs : List (Vec R)} {B : Vec R} (h : concatenate nR vs = some B) {C : Chain}
    (hg : B.gm = some C) (hp : ∀ v ∈ vs, ∀ g, v.gm = some g → Gathers nR B.els g ∧ VFitsIn B.els g v) {i0 i1 : Nat} {S : Vec R}
    (hS : vslice nR vs i0 i1 = some S) {CS : Chain} (hSg : S.gm = some CS) :
    ∃ (ns : List Nat) (F G : Nat → R), assembleVec (silly C) B.ewv noVCus = some F ∧ assembleVec (silly CS) S.ewv noVCus = some G ∧
      (∀ i (hi : i < vs.length) g, vs[i].gm = some g → g.total = ns.getD i 0) ∧ CS.total = ((ns.take i1).drop i0).sum ∧
      ∀ p, p < CS.total → G p = F (offset ns i0 + p) := by
  obtain ⟨ns, hns, -, F, hF, hFb⟩ := c92_vector h hg hp
  have hsub : ∀ v ∈ (vs.take i1).drop i0, v ∈ vs := fun v hv => List.mem_of_mem_take (List.mem_of_mem_drop hv)
  have hels : S.els = B.els := by
    obtain ⟨hne, -, hch, -⟩ := concatenate_spec hS
    obtain ⟨v, l, hl⟩ := List.exists_cons_of_ne_nil hne
    have hv : v ∈ (vs.take i1).drop i0 := by rw [hl]; simp
    rw [← (hch v hv).1]
    exact ((concatenate_spec h).2.2.1 v (hsub v hv)).1
  obtain ⟨ns', hns', tS, G, hG, hGb⟩ := c92_vector hS hSg (fun v hv g hvg => by rw [hels]; exact hp v (hsub v hv) g hvg)
  have hsl : ns' = (ns.take i1).drop i0 := by
    apply List.ext_getElem
    · rw [hns']
      simp [hns]
    · intro i h1 h2
      simp only [List.length_drop, List.length_take] at h2
      obtain ⟨g, e1, e2, -⟩ := hGb i (by omega)
      obtain ⟨g', e1', e2', -⟩ := hFb (i0 + i) (by omega)
      rw [List.getElem_drop, List.getElem_take] at e1
      rw [e1] at e1'
      rw [List.getElem_drop, List.getElem_take]
      have := Option.some.inj e1'
      subst this
      simp only [List.getD, List.getElem?_eq_getElem h1, List.getElem?_eq_getElem (by omega : i0 + i < ns.length),
        Option.getD_some] at e2 e2'
      rw [← e2, e2']
  refine ⟨ns, F, G, hF, hG, ?_, by rw [← hsl]; exact tS, ?_⟩
  · intro i hi g hvg
    obtain ⟨g', e1, e2, -⟩ := hFb i hi
    rw [hvg] at e1
    rw [Option.some.inj e1]
    exact e2
  · intro p hp'
    rw [tS] at hp'
    obtain ⟨i, a, hi, ha, rfl⟩ := offset_split ns' hp'
    have hi1 : i0 + i < i1 ∧ i0 + i < ns.length := by
      rw [hsl] at hi
      simp only [List.length_drop, List.length_take] at hi
      omega
    have ea : ns'.getD i 0 = ns.getD (i0 + i) 0 := by
      rw [hsl]
      simp [List.getD, List.getElem?_drop, hi1.1]
    obtain ⟨g, e1, -, G', hG', hGv⟩ := hGb i (by omega)
    obtain ⟨g', e1', -, F', hF', hFv⟩ := hFb (i0 + i) (by omega)
    rw [List.getElem_drop, List.getElem_take] at e1
    simp only [List.getElem_drop, List.getElem_take] at hG'
    rw [e1] at e1'
    have := Option.some.inj e1'
    subst this
    rw [hG'] at hF'
    rw [hGv a ha, ← Nat.add_assoc, hsl, offset_slice ns (by omega), hFv a (by omega), Option.some.inj hF']

/-! ### examples -/

/-- the variables: `u` with two dofs in each of two elements on two cores, three in all; `p` with one in each. -/
def exBu : Chain := ⟨"_2dCSCG", [exG1], [0], 3, [3]⟩
@[inherit_doc exBu] def exBp : Chain := ⟨"_2dCSCG", [exG2], [0], 2, [2]⟩
/-- both as one variable. -/
def exBup : Chain := ⟨"_2dCSCG", [exG1, exG2], [0, 3], 5, [3, 2]⟩

def exEls : List (List Nat) := [[0], [1]]

/-- a block with the same full local matrix of shape `m`, `n` in all elements. -/
def exMat (m n : Nat) (gms : Option (Chain × Chain)) (f : Nat → Nat → ℤ) : Mat ℤ := ⟨exEls, fun _ _ => toCsr m n f, gms, noCus⟩

def exBlocks : List (List (Option (Mat ℤ))) :=
  [[some (exMat 2 2 (some (exBu, exBu)) fun i j => if i = j then 2 else -1), some (exMat 2 1 (some (exBu, exBp)) fun _ _ => 1)],
   [some (exMat 1 2 (some (exBp, exBu)) fun _ _ => 1), none]]

theorem exBu_gathers : Gathers 2 exEls exBu where
  built := ⟨[.gm "_2dCSCG" exG1], rfl⟩
  wf := by
    intro g hg
    simp only [exBu, List.mem_singleton] at hg
    subst hg
    exact ⟨exG1_dict, rfl⟩
  ne := by simp [exBu]
  els := by
    intro k e he
    have hk : k < 2 := by
      by_contra hn
      simp [exEls, List.getD, hn] at he
    interval_cases k <;> exact he

theorem exBp_gathers : Gathers 2 exEls exBp where
  built := ⟨[.gm "_2dCSCG" exG2], rfl⟩
  wf := by
    intro g hg
    simp only [exBp, List.mem_singleton] at hg
    subst hg
    exact ⟨exG2_dict, rfl⟩
  ne := by simp [exBp]
  els := by
    intro k e he
    have hk : k < 2 := by
      by_contra hn
      simp [exEls, List.getD, hn] at he
    interval_cases k <;> exact he

theorem exMat_fits (r c : Chain) (m n : Nat) (gms : Option (Chain × Chain)) (f : Nat → Nat → ℤ)
    (h : ∀ k e, e ∈ exEls.getD k [] → (vec (silly r) k e).length = m ∧ (vec (silly c) k e).length = n) :
    FitsIn exEls r c (exMat m n gms f) := by
  refine ⟨rfl, fun k e he => ?_⟩
  obtain ⟨rfl, rfl⟩ := h k e he
  exact toCsr_fits _ _ _

theorem exEls_cases {P : Nat → Nat → Prop} (h0 : P 0 0) (h1 : P 1 1) : ∀ k e, e ∈ exEls.getD k [] → P k e := by
  intro k e he
  have hk : k < 2 := by
    by_contra hn
    simp [exEls, List.getD, hn] at he
  interval_cases k
  · have : e = 0 := by simpa [exEls] using he
    exact this ▸ h0
  · have : e = 1 := by simpa [exEls] using he
    exact this ▸ h1

theorem exBlocks_proper : Proper 2 exEls exBlocks := by
  have hcase : ∀ i j b, at2 exBlocks i j = some b →
      (i = 0 ∧ j = 0 ∧ b = exMat 2 2 (some (exBu, exBu)) fun i j => if i = j then 2 else -1) ∨
      (i = 0 ∧ j = 1 ∧ b = exMat 2 1 (some (exBu, exBp)) fun _ _ => 1) ∨
      (i = 1 ∧ j = 0 ∧ b = exMat 1 2 (some (exBp, exBu)) fun _ _ => 1) := by
    intro i j b hb
    obtain ⟨h1, h2, h3⟩ := at2_eq hb
    have hi : i < 2 := h1
    interval_cases i
    · have hj : j < 2 := h2
      interval_cases j
      · exact Or.inl ⟨rfl, rfl, (Option.some.inj h3).symm⟩
      · exact Or.inr (Or.inl ⟨rfl, rfl, (Option.some.inj h3).symm⟩)
    · have hj : j < 2 := h2
      interval_cases j
      · exact Or.inr (Or.inr ⟨rfl, rfl, (Option.some.inj h3).symm⟩)
      · simp [exBlocks] at h3
  constructor
  · intro i j b hb r c hg
    rcases hcase i j b hb with ⟨rfl, rfl, rfl⟩ | ⟨rfl, rfl, rfl⟩ | ⟨rfl, rfl, rfl⟩ <;>
      (simp only [exMat, Option.some.injEq, Prod.mk.injEq] at hg; obtain ⟨rfl, rfl⟩ := hg)
    · exact ⟨exBu_gathers, exBu_gathers, exMat_fits _ _ _ _ _ _ (exEls_cases (by decide) (by decide))⟩
    · exact ⟨exBu_gathers, exBp_gathers, exMat_fits _ _ _ _ _ _ (exEls_cases (by decide) (by decide))⟩
    · exact ⟨exBp_gathers, exBu_gathers, exMat_fits _ _ _ _ _ _ (exEls_cases (by decide) (by decide))⟩
  · intro i j b hb hg
    rcases hcase i j b hb with ⟨rfl, rfl, rfl⟩ | ⟨rfl, rfl, rfl⟩ | ⟨rfl, rfl, rfl⟩ <;> simp [exMat] at hg

/-- The hypotheses of `c92_block` are met: a saddle point system; entries of the blocks of the assembled matrix. -/
example : ∃ A RC CC, bmat 2 exBlocks = some A ∧ A.gms = some (RC, CC) ∧ A.els = exEls ∧ Proper 2 A.els exBlocks ∧ RC.total = 5 ∧
    ∃ F, assemble 1 (silly RC) (silly CC) A.ewm A.cus = some F ∧ F 1 1 = 4 ∧ F 1 3 = 1 ∧ F 4 2 = 1 ∧ F 4 4 = 0 := by
  refine ⟨_, _, _, rfl, rfl, rfl, exBlocks_proper, rfl, _, rfl, ?_, ?_, ?_, ?_⟩ <;> decide +kernel

/-- The hypotheses of `c92_slices_partial` are met: the block of `u` and `p`. -/
example : ∃ A RC CC bs S RS CS, bmat 2 exBlocks = some A ∧ A.gms = some (RC, CC) ∧ blocksOf A exBlocks = some bs ∧
    slices 2 bs 0 1 1 2 = some S ∧ S.gms = some (RS, CS) ∧ RS.total = 3 ∧ CS.total = 2 ∧
    ∃ F G, assemble 1 (silly RC) (silly CC) A.ewm A.cus = some F ∧ assemble 1 (silly RS) (silly CS) S.ewm S.cus = some G ∧
      ∀ p q, p < 3 → q < 2 → G p q = F p (3 + q) := by
  have hcase : ∀ i j b, at2 exBlocks i j = some b → ∀ r c, b.gms = some (r, c) → Single r ∧ Single c := by
    intro i j b hb r c hg
    have hU : Single exBu := ⟨rfl, by decide⟩
    have hP : Single exBp := ⟨rfl, by decide⟩
    obtain ⟨h1, h2, h3⟩ := at2_eq hb
    have hi : i < 2 := h1
    interval_cases i
    · have hj : j < 2 := h2
      interval_cases j
      · rw [← Option.some.inj h3] at hg
        simp only [exMat, Option.some.injEq, Prod.mk.injEq] at hg
        exact ⟨hg.1 ▸ hU, hg.2 ▸ hU⟩
      · rw [← Option.some.inj h3] at hg
        simp only [exMat, Option.some.injEq, Prod.mk.injEq] at hg
        exact ⟨hg.1 ▸ hU, hg.2 ▸ hP⟩
    · have hj : j < 2 := h2
      interval_cases j
      · rw [← Option.some.inj h3] at hg
        simp only [exMat, Option.some.injEq, Prod.mk.injEq] at hg
        exact ⟨hg.1 ▸ hP, hg.2 ▸ hU⟩
      · simp [exBlocks] at h3
  refine ⟨_, _, _, _, _, _, _, rfl, rfl, rfl, rfl, rfl, rfl, rfl, ?_⟩
  obtain ⟨rn, cn, F, G, hF, hG, hr, hc, -, -, h⟩ := c92_slices_partial 1 (nR := 2) (blocks := exBlocks) rfl rfl exBlocks_proper
    (fun i r ⟨j, b, c, hb, hg⟩ => (hcase i j b hb r c hg).1) (fun j c ⟨i, b, r, hb, hg⟩ => (hcase i j b hb r c hg).2)
    (bs := _) rfl (i0 := 0) (i1 := 1) (j0 := 1) (j1 := 2) (S := _) rfl rfl
  refine ⟨F, G, hF, hG, fun p q hp hq => ?_⟩
  have e1 : 3 = cn.getD 0 0 := hc 0 exBu ⟨0, _, exBu, rfl, rfl⟩
  have e2 : offset cn 1 = 3 := by
    rw [e1]
    cases cn <;> simp [offset]
  have := h p q hp hq
  rwa [e2, offset_zero, Nat.zero_add] at this

/-- The hypotheses of `c92_system` are met. -/
example : ∃ A B RC CC C, bmat 2 exBlocks = some A ∧ A.gms = some (RC, CC) ∧
    concatenate 2 [⟨exEls, fun _ _ => ⟨2, [(0, (1 : ℤ))]⟩, some exBu, false⟩, ⟨exEls, fun _ _ => ⟨1, [(0, 5)]⟩, some exBp, false⟩] = some B ∧
    B.gm = some C ∧ ∃ f, assembleVec (silly C) B.ewv noVCus = some f ∧ f 0 = 1 ∧ f 1 = 1 ∧ f 2 = 0 ∧ f 3 = 5 ∧
      (∀ v ∈ [(⟨exEls, fun _ _ => ⟨2, [(0, (1 : ℤ))]⟩, some exBu, false⟩ : Vec ℤ), ⟨exEls, fun _ _ => ⟨1, [(0, 5)]⟩, some exBp, false⟩],
        ∀ g, v.gm = some g → Gathers 2 B.els g ∧ VFitsIn B.els g v) := by
  refine ⟨_, _, _, _, _, rfl, rfl, rfl, rfl, _, rfl, by decide +kernel, by decide +kernel, by decide +kernel, by decide +kernel, ?_⟩
  intro v hv g hg
  simp only [List.mem_cons, List.not_mem_nil, or_false] at hv
  rcases hv with rfl | rfl
  · simp only [Option.some.injEq] at hg
    subst hg
    refine ⟨exBu_gathers, rfl, exEls_cases ?_ ?_⟩ <;> exact ⟨rfl, by decide⟩
  · simp only [Option.some.injEq] at hg
    subst hg
    refine ⟨exBp_gathers, rfl, exEls_cases ?_ ?_⟩ <;> exact ⟨rfl, by decide⟩

/-- **C92: two variables in one row.**  A block diagonal matrix whose first row belongs to the two variables `u`, `p` and whose second
row belongs to `p`.  The matrix is assembled without errors, but `A.blocks[0:1, 0:2]` raises an exception: the zero block has 2 rows
(those of `u`) instead of 3. -/
theorem c92_nested_counterexample : ∃ blocks : List (List (Option (Mat ℤ))), ∃ A RC CC bs F, bmat 2 blocks = some A ∧
    A.gms = some (RC, CC) ∧ Proper 2 A.els blocks ∧ assemble 1 (silly RC) (silly CC) A.ewm A.cus = some F ∧
    blocksOf A blocks = some bs ∧ slices 2 bs 0 1 0 2 = none := by
  have hUP : Gathers 2 exEls exBup := {
    built := ⟨[.gm "_2dCSCG" exG1, .gm "_2dCSCG" exG2], rfl⟩
    wf := by
      intro g hg
      simp only [exBup, List.mem_cons, List.not_mem_nil, or_false] at hg
      rcases hg with rfl | rfl
      · exact ⟨exG1_dict, rfl⟩
      · exact ⟨exG2_dict, rfl⟩
    ne := by simp [exBup]
    els := by
      intro k e he
      have hk : k < 2 := by
        by_contra hn
        simp [exEls, List.getD, hn] at he
      interval_cases k <;> exact he }
  refine ⟨[[some (exMat 3 3 (some (exBup, exBup)) fun i j => if i = j then 1 else 0), none],
    [none, some (exMat 1 1 (some (exBp, exBp)) fun _ _ => 1)]], _, _, _, _, _, rfl, rfl, ?_, rfl, rfl, ?_⟩
  · have hcase : ∀ i j b, at2 [[some (exMat 3 3 (some (exBup, exBup)) fun i j => if i = j then 1 else 0), none],
        [none, some (exMat 1 1 (some (exBp, exBp)) fun _ _ => 1)]] i j = some b →
        b = (exMat 3 3 (some (exBup, exBup)) fun i j => if i = j then 1 else 0) ∨ b = (exMat 1 1 (some (exBp, exBp)) fun _ _ => 1) := by
      intro i j b hb
      obtain ⟨h1, h2, h3⟩ := at2_eq hb
      have hi : i < 2 := h1
      interval_cases i
      · have hj : j < 2 := h2
        interval_cases j
        · exact Or.inl (Option.some.inj h3).symm
        · simp at h3
      · have hj : j < 2 := h2
        interval_cases j
        · simp at h3
        · exact Or.inr (Option.some.inj h3).symm
    constructor
    · intro i j b hb r c hg
      rcases hcase i j b hb with rfl | rfl <;>
        (simp only [exMat, Option.some.injEq, Prod.mk.injEq] at hg; obtain ⟨rfl, rfl⟩ := hg)
      · exact ⟨hUP, hUP, exMat_fits _ _ _ _ _ _ (exEls_cases (by decide) (by decide))⟩
      · exact ⟨exBp_gathers, exBp_gathers, exMat_fits _ _ _ _ _ _ (exEls_cases (by decide) (by decide))⟩
    · intro i j b hb hg
      rcases hcase i j b hb with rfl | rfl <;> simp [exMat] at hg
  · rfl

/-- **C92: customizations are not in the blocks.**  After row 0 of the assembled matrix is replaced by a row of the identity
(`A.customize.identify_global_row(0)`, here the customization it makes on core 0), all blocks together, `A.blocks[0:2, 0:2]`, still
assemble to the matrix before. -/
theorem c92_customized_counterexample : ∃ A RC CC bs S RS CS F G, bmat 2 exBlocks = some A ∧ A.gms = some (RC, CC) ∧
    blocksOf { A with cus := fun k e => if k = 0 ∧ e = 0 then [.clr 0, .salv 0 0 1] else [] } exBlocks = some bs ∧
    slices 2 bs 0 2 0 2 = some S ∧ S.gms = some (RS, CS) ∧
    assemble 1 (silly RC) (silly CC) A.ewm (fun k e => if k = 0 ∧ e = 0 then [.clr 0, .salv 0 0 1] else []) = some F ∧
    assemble 1 (silly RS) (silly CS) S.ewm S.cus = some G ∧ F 0 0 = 1 ∧ F 0 3 = 0 ∧ G 0 0 = 2 ∧ G 0 3 = 1 := by
  refine ⟨_, _, _, _, _, _, _, _, _, rfl, rfl, rfl, rfl, rfl, rfl, rfl, ?_, ?_, ?_, ?_⟩ <;> decide +kernel

end Mifem.Props
