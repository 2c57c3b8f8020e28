import Verif.Model.BlockSystem
import Verif.Props.Assembly
import Mathlib.Data.List.GetD

/-!
# Lemmas on block matrices
-/

namespace Mifem.BlockSys
open Mifem.Gath Mifem.Asm Mifem.Props Finset

variable {R : Type}

/-- number of rows before block `i` when the blocks have the sizes `ns`. -/
def offset (ns : List Nat) (i : Nat) : Nat := (ns.take i).sum

theorem offset_zero (ns : List Nat) : offset ns 0 = 0 := by simp [offset]

theorem offset_cons (n : Nat) (ns : List Nat) (i : Nat) : offset (n :: ns) (i + 1) = n + offset ns i := by
  simp [offset]

theorem offset_lt (ns : List Nat) {i p : Nat} (hp : p < ns.getD i 0) : offset ns i + p < ns.sum := by
  induction ns generalizing i with
  | nil => simp at hp
  | cons n ns ih =>
    cases i with
    | zero =>
      simp only [List.getD_cons_zero] at hp
      rw [offset_zero, List.sum_cons]
      omega
    | succ i =>
      rw [List.getD_cons_succ] at hp
      rw [offset_cons, List.sum_cons]
      have := ih hp
      omega

/-- every index below the sum is in some block. -/
theorem offset_split (ns : List Nat) {q : Nat} (hq : q < ns.sum) :
    ∃ i p, i < ns.length ∧ p < ns.getD i 0 ∧ q = offset ns i + p := by
  induction ns generalizing q with
  | nil => simp at hq
  | cons n ns ih =>
    rw [List.sum_cons] at hq
    by_cases h : q < n
    · exact ⟨0, q, by simp, by simpa using h, by rw [offset_zero]; omega⟩
    · obtain ⟨i, p, h1, h2, h3⟩ := ih (q := q - n) (by omega)
      refine ⟨i + 1, p, by simpa using h1, by simpa using h2, ?_⟩
      rw [offset_cons]
      omega

theorem locate_spec (hs : List Nat) {i a : Nat} (ha : a < hs.getD i 0) : locate hs (offset hs i + a) = (i, a) := by
  induction hs generalizing i with
  | nil => simp at ha
  | cons h hs ih =>
    cases i with
    | zero =>
      simp only [List.getD_cons_zero] at ha
      rw [offset_zero, Nat.zero_add, locate, if_pos ha]
    | succ i =>
      rw [List.getD_cons_succ] at ha
      rw [offset_cons, locate, if_neg (by omega)]
      have : h + offset hs i + a - h = offset hs i + a := by omega
      rw [this, ih ha]

/-! ### shifted lists -/

/-- the vectors `vs`, vector `i` shifted by `o` plus the sum of the numbers before `i`. -/
def shifted : List (List Nat) → List Nat → Nat → List Nat
  | [], _, _ => []
  | v :: vs, ns, o => v.map (· + o) ++ shifted vs ns.tail (o + ns.headD 0)

theorem shifted_add (vs : List (List Nat)) (ns : List Nat) (o o' : Nat) :
    (shifted vs ns o).map (· + o') = shifted vs ns (o + o') := by
  induction vs generalizing ns o with
  | nil => rfl
  | cons v vs ih =>
    rw [shifted, shifted, List.map_append, ih, List.map_map]
    congr 1
    · apply List.map_congr_left
      intro x _
      simp only [Function.comp_apply]
      omega
    · congr 1
      omega

theorem shifted_append (vs vs' : List (List Nat)) (ns ns' : List Nat) (o : Nat) (h : vs.length = ns.length) :
    shifted (vs ++ vs') (ns ++ ns') o = shifted vs ns o ++ shifted vs' ns' (o + ns.sum) := by
  induction vs generalizing ns o with
  | nil =>
    have : ns = [] := by
      apply List.eq_nil_of_length_eq_zero
      simpa using h.symm
    subst this
    simp [shifted]
  | cons v vs ih =>
    cases ns with
    | nil => simp at h
    | cons n ns =>
      rw [List.cons_append, List.cons_append, shifted, shifted]
      simp only [List.tail_cons, List.headD_cons, List.append_assoc, List.append_cancel_left_eq, List.sum_cons]
      rw [ih ns _ (by simpa using h)]
      congr 2
      omega

theorem shifted_zipIdx (ws : List (List Nat)) (ns : List Nat) (o m : Nat) :
    ((ws.zipIdx m).map fun wj => wj.1.map (· + (o + (ns.take (wj.2 - m)).sum))).flatten = shifted ws ns o := by
  induction ws generalizing ns o m with
  | nil => rfl
  | cons w ws ih =>
    rw [List.zipIdx_cons, List.map_cons, List.flatten_cons, shifted]
    congr 1
    · simp
    · rw [← ih ns.tail (o + ns.headD 0) (m + 1)]
      congr 1
      apply List.map_congr_left
      rintro ⟨w', j⟩ hj
      have hjm := List.le_snd_of_mem_zipIdx hj
      simp only at hjm
      apply List.map_congr_left
      intro x _
      have : j - m = (j - (m + 1)) + 1 := by omega
      rw [this]
      cases ns with
      | nil => simp
      | cons n ns =>
        simp
        omega

theorem shifted_length (vs : List (List Nat)) (ns : List Nat) (o : Nat) :
    (shifted vs ns o).length = (vs.map List.length).sum := by
  induction vs generalizing ns o with
  | nil => rfl
  | cons v vs ih => simp [shifted, ih]

/-- a chain of chains: the flattened vectors, shifted member by member, are the vectors of the chains shifted by the
totals. -/
theorem shifted_flatten (wss : List (List (List Nat))) (nss : List (List Nat)) (o : Nat)
    (h : wss.length = nss.length) (hl : ∀ i, (wss.getD i []).length = (nss.getD i []).length) :
    shifted wss.flatten nss.flatten o = shifted (List.zipWith (fun ws ns => shifted ws ns 0) wss nss) (nss.map List.sum) o := by
  induction wss generalizing nss o with
  | nil =>
    have : nss = [] := by
      apply List.eq_nil_of_length_eq_zero
      simpa using h.symm
    subst this
    rfl
  | cons ws wss ih =>
    cases nss with
    | nil => simp at h
    | cons ns nss =>
      rw [List.flatten_cons, List.flatten_cons, shifted_append _ _ _ _ _ (by simpa using hl 0), List.zipWith_cons_cons,
        shifted]
      simp only [List.map_cons, List.tail_cons, List.headD_cons]
      rw [shifted_add, Nat.zero_add, ih nss _ (by simpa using h) (fun i => by simpa using hl (i + 1))]

/-! ### contributions -/

theorem vcontrib_append [AddCommMonoid R] (u v : List Nat) (d : Nat → R) (r : Nat) :
    vcontrib (u ++ v) d r = vcontrib u d r + vcontrib v (fun a => d (u.length + a)) r := by
  unfold vcontrib
  rw [List.length_append, Finset.sum_range_add]
  congr 1
  · apply Finset.sum_congr rfl
    intro i hi
    rw [Finset.mem_range] at hi
    rw [List.getD_append _ _ _ _ hi]
  · apply Finset.sum_congr rfl
    intro i _
    rw [List.getD_append_right _ _ _ _ (by omega)]
    simp

theorem vcontrib_shift [AddCommMonoid R] (u : List Nat) (d : Nat → R) (o r : Nat) :
    vcontrib (u.map (· + o)) d (o + r) = vcontrib u d r := by
  unfold vcontrib
  rw [List.length_map]
  apply Finset.sum_congr rfl
  intro i hi
  rw [Finset.mem_range] at hi
  have h1 : (u.map (· + o)).getD i 0 = u.getD i 0 + o := by simp [List.getD, hi]
  rw [h1]
  by_cases h : u.getD i 0 = r
  · rw [if_pos h, if_pos (by omega)]
  · rw [if_neg h, if_neg (by omega)]

/-- the numbers of the shifted vectors. -/
theorem mem_shifted_ge {vs : List (List Nat)} {ns : List Nat} {o x : Nat} (h : x ∈ shifted vs ns o) : o ≤ x := by
  induction vs generalizing ns o with
  | nil => simp [shifted] at h
  | cons v vs ih =>
    rw [shifted, List.mem_append, List.mem_map] at h
    rcases h with ⟨y, _, rfl⟩ | h
    · omega
    · have := ih h
      omega

theorem mem_shifted_lt {vs : List (List Nat)} {ns : List Nat} {o x : Nat} (hl : vs.length = ns.length)
    (hv : ∀ i, ∀ d ∈ vs.getD i [], d < ns.getD i 0) (h : x ∈ shifted vs ns o) : x < o + ns.sum := by
  induction vs generalizing ns o with
  | nil => simp [shifted] at h
  | cons v vs ih =>
    cases ns with
    | nil => simp at hl
    | cons n ns =>
      rw [shifted, List.mem_append, List.mem_map] at h
      rw [List.sum_cons]
      rcases h with ⟨y, hy, rfl⟩ | h
      · have := hv 0 y (by simpa using hy)
        simp only [List.getD_cons_zero] at this
        omega
      · have := ih (by simpa using hl) (fun i => by simpa using hv (i + 1)) h
        simp only [List.headD_cons, List.tail_cons] at this
        omega

/-- row `r` of block `i`: only the part of block `i` contributes. -/
theorem vcontrib_shifted [AddCommMonoid R] (vs : List (List Nat)) (ns : List Nat) (o : Nat) (d : Nat → R)
    (hl : vs.length = ns.length) (hv : ∀ i, ∀ x ∈ vs.getD i [], x < ns.getD i 0) {i r : Nat} (hr : r < ns.getD i 0) :
    vcontrib (shifted vs ns o) d (o + offset ns i + r) =
      vcontrib (vs.getD i []) (fun a => d (offset (vs.map List.length) i + a)) r := by
  induction vs generalizing ns o d i with
  | nil =>
    have : ns = [] := by
      apply List.eq_nil_of_length_eq_zero
      simpa using hl.symm
    subst this
    simp at hr
  | cons v vs ih =>
    cases ns with
    | nil => simp at hl
    | cons n ns =>
      rw [shifted, vcontrib_append]
      simp only [List.tail_cons, List.headD_cons, List.length_map]
      cases i with
      | zero =>
        simp only [List.getD_cons_zero] at hr ⊢
        rw [offset_zero, Nat.add_zero, vcontrib_shift, vcontrib_not_mem (shifted vs ns (o + n)), add_zero]
        · apply vcontrib_congr
          intro a _ _
          simp [offset]
        · intro hm
          have := mem_shifted_ge hm
          omega
      | succ i =>
        rw [List.getD_cons_succ] at hr
        rw [List.getD_cons_succ, offset_cons, List.map_cons]
        have e1 : o + (n + offset ns i) + r = (o + n) + offset ns i + r := by omega
        rw [e1, ih ns (o + n) _ (by simpa using hl) (fun i => by simpa using hv (i + 1)) hr,
          vcontrib_not_mem (v.map (· + o)), zero_add]
        · apply vcontrib_congr
          intro a _ _
          rw [offset_cons, Nat.add_assoc]
        · intro hm
          obtain ⟨y, hy, hy'⟩ := List.mem_map.mp hm
          have := hv 0 y (by simpa using hy)
          simp only [List.getD_cons_zero] at this
          omega

theorem contrib_eq_vcontrib [AddCommMonoid R] (gi gj : List Nat) (d : Nat → Nat → R) (r c : Nat) :
    contrib gi gj d r c = vcontrib gi (fun a => vcontrib gj (d a) c) r := by
  unfold contrib vcontrib
  apply Finset.sum_congr rfl
  intro a _
  by_cases h : gi.getD a 0 = r
  · rw [if_pos h]
    apply Finset.sum_congr rfl
    intro b _
    simp only [h, true_and]
  · rw [if_neg h]
    apply Finset.sum_eq_zero
    intro b _
    rw [if_neg fun hh => h hh.1]

/-- the contribution of a block matrix to an entry in block `(i, j)`. -/
theorem contrib_shifted [AddCommMonoid R] (us vs : List (List Nat)) (ms ns : List Nat) (d : Nat → Nat → R)
    (hl : us.length = ms.length) (hl' : vs.length = ns.length)
    (hu : ∀ i, ∀ x ∈ us.getD i [], x < ms.getD i 0) (hv : ∀ i, ∀ x ∈ vs.getD i [], x < ns.getD i 0)
    {i j r c : Nat} (hr : r < ms.getD i 0) (hc : c < ns.getD j 0) :
    contrib (shifted us ms 0) (shifted vs ns 0) d (offset ms i + r) (offset ns j + c) =
      contrib (us.getD i []) (vs.getD j [])
        (fun a b => d (offset (us.map List.length) i + a) (offset (vs.map List.length) j + b)) r c := by
  rw [contrib_eq_vcontrib, contrib_eq_vcontrib]
  have h1 := vcontrib_shifted us ms 0 (fun a => vcontrib (shifted vs ns 0) (d a) (offset ns j + c)) hl hu hr
  rw [Nat.zero_add] at h1
  rw [h1]
  apply vcontrib_congr
  intro a _ _
  have h2 := vcontrib_shifted vs ns 0 (d (offset (us.map List.length) i + a)) hl' hv hc
  rw [Nat.zero_add] at h2
  exact h2

/-! ### chains -/

/-- `c` is a chain accepted by the constructor, for the elements `els`. -/
structure Gathers (nR : Nat) (els : List (List Nat)) (c : Chain) : Prop where
  built : ∃ items, mkChain nR items = some c
  wf : WellFormed nR c.gms
  ne : c.gms ≠ []
  els : ∀ k e, e ∈ els.getD k [] → e ∈ elements (c.gms.headD []) k

theorem headD_mem {α : Type} {l : List α} (d : α) (h : l ≠ []) : l.headD d ∈ l := by
  cases l with
  | nil => exact absurd rfl h
  | cons a l => simp

theorem Gathers.get {nR : Nat} {els : List (List Nat)} {c : Chain} (h : Gathers nR els c) {k e : Nat}
    (he : e ∈ els.getD k []) :
    ∃ ws, c.gms.mapM (fun g => getVec g k e) = some ws ∧ ws.length = c.ns.length ∧
      c.get k e = some (shifted ws c.ns 0) ∧ ∀ d ∈ shifted ws c.ns 0, d < c.total := by
  obtain ⟨items, hmk⟩ := h.built
  obtain ⟨v, hv, ws, hl, hget, rfl⟩ := c01_get hmk h.wf _ (headD_mem [] h.ne) k e (h.els k e he)
  obtain ⟨_, _, hns, _, _⟩ := mkChain_spec hmk
  obtain ⟨hnl, hng⟩ := (mapM_some_iff _ _ _).mp hns
  have hz := shifted_zipIdx ws c.ns 0 0
  simp only [Nat.zero_add, Nat.sub_zero] at hz
  have hws : c.gms.mapM (fun g => getVec g k e) = some ws := (mapM_some_iff _ _ _).mpr ⟨hl, fun i h1 h2 => hget i h1 h2⟩
  refine ⟨ws, hws, by omega, by rw [hv, hz], ?_⟩
  intro d hd
  rw [(c01_total hmk).1]
  have := mem_shifted_lt (o := 0) (by omega) ?_ hd
  · simpa using this
  · intro i x hx
    by_cases hi : i < ws.length
    · have hig : i < c.gms.length := by omega
      have hin : i < c.ns.length := by omega
      simp only [List.getD, List.getElem?_eq_getElem hi, Option.getD_some] at hx
      have e1 : c.ns.getD i 0 = c.ns[i] := by simp [List.getD, hin]
      rw [e1]
      exact (globalNumDofs_spec (h.wf _ (List.getElem_mem hig)).1 (hng i hig hin)).2.2 x ⟨k, e, _, hget i hig hi, hx⟩
    · simp [List.getD, List.getElem?_eq_none (by omega : ws.length ≤ i)] at hx

theorem Gathers.vec_get {nR : Nat} {els : List (List Nat)} {c : Chain} (h : Gathers nR els c) {k e : Nat}
    (he : e ∈ els.getD k []) : c.get k e = some (vec (silly c) k e) ∧ ∀ d ∈ vec (silly c) k e, d < c.total := by
  obtain ⟨ws, _, _, h3, h4⟩ := h.get he
  have : vec (silly c) k e = shifted ws c.ns 0 := by simp [vec, silly, h3]
  rw [this]
  exact ⟨h3, h4⟩

theorem mapM_append {α β : Type} (f : α → Option β) (l l' : List α) (r r' : List β) (h : l.mapM f = some r)
    (h' : l'.mapM f = some r') : (l ++ l').mapM f = some (r ++ r') := by
  rw [List.mapM_append, h, h']
  rfl

/-- **chains of chains.** -/
theorem chain_of_chains {nR : Nat} {els : List (List Nat)} {cs : List Chain} {C : Chain}
    (hmk : mkChain nR (cs.map Item.chain) = some C) (hcs : ∀ c ∈ cs, Gathers nR els c) (hne : cs ≠ []) :
    Gathers nR els C ∧ C.total = (cs.map Chain.total).sum ∧ ∀ k e, e ∈ els.getD k [] →
      C.get k e = some (shifted (cs.map fun c => vec (silly c) k e) (cs.map Chain.total) 0) := by
  obtain ⟨hg, hse, hns, _, _⟩ := mkChain_spec hmk
  have hg' : C.gms = (cs.map Chain.gms).flatten := by
    rw [hg, List.flatMap_def, List.map_map]
    rfl
  have hns' : C.ns = (cs.map Chain.ns).flatten := by
    rw [hg'] at hns
    have key : ∀ (l : List Chain), (∀ c ∈ l, c ∈ cs) → ((l.map Chain.gms).flatten).mapM globalNumDofs =
        some ((l.map Chain.ns).flatten) := by
      intro l hl
      induction l with
      | nil => rfl
      | cons c l ih =>
        rw [List.map_cons, List.map_cons, List.flatten_cons, List.flatten_cons]
        obtain ⟨items, hi⟩ := (hcs c (hl c (by simp))).built
        exact mapM_append _ _ _ _ _ (mkChain_spec hi).2.2.1 (ih fun c' hc' => hl c' (by simp [hc']))
    rw [key cs (fun _ h => h)] at hns
    simpa using hns.symm
  have htot : ∀ c ∈ cs, c.ns.sum = c.total := by
    intro c hc
    obtain ⟨items, hi⟩ := (hcs c hc).built
    exact (c01_total hi).1.symm
  have hwf : WellFormed nR C.gms := by
    intro g hgm
    rw [hg'] at hgm
    obtain ⟨l, hl, hgl⟩ := List.mem_flatten.mp hgm
    obtain ⟨c, hc, rfl⟩ := List.mem_map.mp hl
    exact (hcs c hc).wf g hgl
  have hG : Gathers nR els C := by
    refine ⟨⟨_, hmk⟩, hwf, ?_, ?_⟩
    · rw [hg']
      cases cs with
      | nil => exact absurd rfl hne
      | cons c cs =>
        have := (hcs c (by simp)).ne
        simp [this]
    · intro k e he
      cases cs with
      | nil => exact absurd rfl hne
      | cons c cs =>
        have hc := (hcs c (by simp))
        have : C.gms.headD [] = c.gms.headD [] := by
          rw [hg', List.map_cons, List.flatten_cons]
          have := hc.ne
          cases hcg : c.gms with
          | nil => exact absurd hcg this
          | cons a l => rfl
        rw [this]
        exact hc.els k e he
  refine ⟨hG, ?_, ?_⟩
  · rw [(c01_total hmk).1, hns', List.sum_flatten, List.map_map]
    congr 1
    apply List.map_congr_left
    intro c hc
    exact htot c hc
  · intro k e he
    obtain ⟨ws, h1, h2, h3, _⟩ := hG.get he
    have hex : ∀ c, ∃ w, c ∈ cs → c.gms.mapM (fun g => getVec g k e) = some w ∧ w.length = c.ns.length ∧
        vec (silly c) k e = shifted w c.ns 0 := by
      intro c
      by_cases hc : c ∈ cs
      · obtain ⟨w, g1, g2, g3, _⟩ := (hcs c hc).get he
        exact ⟨w, fun _ => ⟨g1, g2, by simp [vec, silly, g3]⟩⟩
      · exact ⟨[], fun h => absurd h hc⟩
    choose W hW using hex
    have hws : ws = (cs.map W).flatten := by
      have key : ∀ (l : List Chain), (∀ c ∈ l, c ∈ cs) → ((l.map Chain.gms).flatten).mapM (fun g => getVec g k e) =
          some ((l.map W).flatten) := by
        intro l hl
        induction l with
        | nil => rfl
        | cons c l ih =>
          rw [List.map_cons, List.map_cons, List.flatten_cons, List.flatten_cons]
          exact mapM_append _ _ _ _ _ (hW c (hl c (by simp))).1 (ih fun c' hc' => hl c' (by simp [hc']))
      rw [hg', key cs (fun _ h => h)] at h1
      simpa using h1.symm
    rw [h3, hws, hns', shifted_flatten]
    · congr 1
      congr 1
      · rw [List.zipWith_map, List.zipWith_self]
        apply List.map_congr_left
        intro c hc
        exact ((hW c hc).2.2).symm
      · rw [List.map_map]
        apply List.map_congr_left
        intro c hc
        exact htot c hc
    · simp
    · intro i
      by_cases hi : i < cs.length
      · have := (hW cs[i] (List.getElem_mem hi)).2.1
        simpa [List.getD, hi] using this
      · simp [List.getD, hi]

/-! ### equality of gathering matrices -/

theorem gmEq_spec {nR : Nat} {g g' : GM} (h : gmEq nR g g' = true) (hd : DictLike g) (hd' : DictLike g')
    (hl : g.length = nR) (hl' : g'.length = nR) : ∀ r e, getVec g r e = getVec g' r e := by
  intro r e
  by_cases hr : r < nR
  · unfold gmEq at h
    rw [List.all_eq_true] at h
    have := h r (by simpa using hr)
    simp only [Bool.and_eq_true, decide_eq_true_eq, List.all_eq_true] at this
    obtain ⟨h1, h2⟩ := this
    by_cases he : e ∈ elements g r
    · exact h2 e he
    · have hsub : elements g r ⊆ elements g' r := by
        intro x hx
        have := h2 x hx
        obtain ⟨v, hv⟩ := lookup_isSome (l := g.getD r []) hx
        rw [show getVec g r x = some v from hv] at this
        exact List.mem_map.mpr ⟨_, mem_of_lookup (show (g'.getD r []).lookup x = some v from this.symm), rfl⟩
      have hnd : (elements g r).Nodup := by
        rcases getD_mem_or_nil g r with hm | hm
        · exact hd _ hm
        · simp only [elements, hm, List.map_nil, List.nodup_nil]
      have hsub' : elements g' r ⊆ elements g r := by
        have hsp := hnd.subperm hsub
        have hp := hsp.perm_of_length_le (by simp only [elements, List.length_map, h1, le_refl])
        exact fun x hx => hp.mem_iff.mpr hx
      have he' : e ∉ elements g' r := fun hx => he (hsub' hx)
      have hn : ∀ g'' : GM, e ∉ elements g'' r → getVec g'' r e = none := by
        intro g'' hx
        cases hv : getVec g'' r e with
        | none => rfl
        | some v => exact absurd (List.mem_map.mpr ⟨_, mem_of_lookup (show (g''.getD r []).lookup e = some v from hv), rfl⟩) hx
      rw [hn g he, hn g' he']
  · simp [getVec, List.getD, List.getElem?_eq_none (by omega : g.length ≤ r), List.getElem?_eq_none (by omega : g'.length ≤ r)]

theorem chainEq_spec {nR : Nat} {els els' : List (List Nat)} {c c' : Chain} (h : chainEq nR c c' = true)
    (hc : Gathers nR els c) (hc' : Gathers nR els' c') : c.total = c'.total ∧ ∀ k e, c.get k e = c'.get k e := by
  unfold chainEq at h
  simp only [Bool.and_eq_true, decide_eq_true_eq, List.all_eq_true] at h
  obtain ⟨hl, hz⟩ := h
  have hv : ∀ i (h1 : i < c.gms.length) (h2 : i < c'.gms.length) r e, getVec c.gms[i] r e = getVec c'.gms[i] r e := by
    intro i h1 h2
    apply gmEq_spec
    · apply hz (c.gms[i], c'.gms[i])
      rw [List.mem_iff_getElem]
      exact ⟨i, by simp; omega, by simp⟩
    · exact (hc.wf _ (List.getElem_mem h1)).1
    · exact (hc'.wf _ (List.getElem_mem h2)).1
    · exact (hc.wf _ (List.getElem_mem h1)).2
    · exact (hc'.wf _ (List.getElem_mem h2)).2
  obtain ⟨it, hi⟩ := hc.built
  obtain ⟨it', hi'⟩ := hc'.built
  obtain ⟨_, _, hns, htba, _⟩ := mkChain_spec hi
  obtain ⟨_, _, hns', htba', _⟩ := mkChain_spec hi'
  obtain ⟨nl, ng⟩ := (mapM_some_iff _ _ _).mp hns
  obtain ⟨nl', ng'⟩ := (mapM_some_iff _ _ _).mp hns'
  have hnseq : c.ns = c'.ns := by
    apply List.ext_getElem (by omega)
    intro i h1 h2
    have a := globalNumDofs_spec (hc.wf _ (List.getElem_mem (by omega : i < c.gms.length))).1 (ng i (by omega) h1)
    have b := globalNumDofs_spec (hc'.wf _ (List.getElem_mem (by omega : i < c'.gms.length))).1 (ng' i (by omega) h2)
    have hocc : ∀ d, Occurs c.gms[i] d ↔ Occurs c'.gms[i] d := by
      intro d
      unfold Occurs
      simp only [hv i (by omega) (by omega)]
    have a2 := b.2.2 _ ((hocc _).mp a.2.1)
    have b2 := a.2.2 _ ((hocc _).mpr b.2.1)
    have := a.1
    have := b.1
    omega
  refine ⟨by rw [(c01_total hi).1, (c01_total hi').1, hnseq], ?_⟩
  intro k e
  have hm : c.gms.mapM (fun g => getVec g k e) = c'.gms.mapM (fun g => getVec g k e) := by
    have key : ∀ (l l' : List GM), l.length = l'.length →
        (∀ i (h1 : i < l.length) (h2 : i < l'.length), getVec l[i] k e = getVec l'[i] k e) →
        l.mapM (fun g => getVec g k e) = l'.mapM (fun g => getVec g k e) := by
      intro l
      induction l with
      | nil =>
        intro l' h _
        have : l' = [] := List.eq_nil_of_length_eq_zero (by simpa using h.symm)
        rw [this]
      | cons a l ih =>
        intro l' h hh
        cases l' with
        | nil => simp at h
        | cons a' l' =>
          rw [List.mapM_cons, List.mapM_cons, show getVec a k e = getVec a' k e from hh 0 (by simp) (by simp),
            ih l' (by simpa using h) (fun i h1 h2 => hh (i + 1) (Nat.succ_lt_succ h1) (Nat.succ_lt_succ h2))]
    exact key _ _ hl.symm (fun i h1 h2 => hv i h1 h2 k e)
  unfold Chain.get
  rw [hl]
  split
  · next h1 =>
    cases hg : c.gms with
    | nil => exact absurd hg hc.ne
    | cons a l =>
      cases hg' : c'.gms with
      | nil => exact absurd hg' hc'.ne
      | cons a' l' =>
        have := hv 0 (by simp [hg]) (by simp [hg']) k e
        simpa [hg, hg'] using this
  · rw [hm, htba, htba', hnseq]

theorem pickGM_fold {nR : Nat} (l : List (Option Chain)) (acc : Option Chain) (c : Chain)
    (h : l.foldlM (fun acc x => match x, acc with
      | none, acc => some acc
      | some c, none => some (some c)
      | some c, some a => if chainEq nR a c then some (some a) else none) acc = some (some c)) :
    (acc = some c ∨ (acc = none ∧ some c ∈ l)) ∧ ∀ c', some c' ∈ l → c' = c ∨ chainEq nR c c' = true := by
  induction l generalizing acc with
  | nil =>
    simp only [List.foldlM_nil, Option.pure_def, Option.some.injEq] at h
    exact ⟨Or.inl h, by simp⟩
  | cons x l ih =>
    rw [List.foldlM_cons] at h
    cases x with
    | none =>
      simp only [Option.bind_eq_bind, Option.bind_some] at h
      obtain ⟨h1, h2⟩ := ih acc h
      refine ⟨?_, fun c' hc' => h2 c' (by simpa using hc')⟩
      rcases h1 with h1 | ⟨h1, h1'⟩
      · exact Or.inl h1
      · exact Or.inr ⟨h1, by simp [h1']⟩
    | some y =>
      cases acc with
      | none =>
        simp only [Option.bind_eq_bind, Option.bind_some] at h
        obtain ⟨h1, h2⟩ := ih (some y) h
        rcases h1 with h1 | ⟨h1, _⟩
        · simp only [Option.some.injEq] at h1
          subst h1
          refine ⟨Or.inr ⟨rfl, by simp⟩, ?_⟩
          intro c' hc'
          rcases List.mem_cons.mp hc' with heq | hm
          · left
            simpa using heq
          · exact h2 c' hm
        · simp at h1
      | some a =>
        simp only [Option.bind_eq_bind] at h
        by_cases ha : chainEq nR a y = true
        · rw [if_pos ha] at h
          simp only [Option.bind_some] at h
          obtain ⟨h1, h2⟩ := ih (some a) h
          rcases h1 with h1 | ⟨h1, _⟩
          · simp only [Option.some.injEq] at h1
            subst h1
            refine ⟨Or.inl rfl, ?_⟩
            intro c' hc'
            rcases List.mem_cons.mp hc' with heq | hm
            · right
              have : c' = y := by simpa using heq
              rw [this]
              exact ha
            · exact h2 c' hm
          · simp at h1
        · rw [if_neg ha] at h
          simp at h

theorem pickGM_spec {nR : Nat} {l : List (Option Chain)} {c : Chain} (h : pickGM nR l = some (some c)) :
    some c ∈ l ∧ ∀ c', some c' ∈ l → c' = c ∨ chainEq nR c c' = true := by
  obtain ⟨h1, h2⟩ := pickGM_fold l none c h
  rcases h1 with h1 | ⟨_, h1⟩
  · simp at h1
  · exact ⟨h1, h2⟩

end Mifem.BlockSys
