import Verif.Model.TraceNum
import Mathlib.Data.List.Nodup
import Mathlib.Data.List.GetD
import Mathlib.Data.List.Perm.Subperm
import Mathlib.Algebra.Order.Group.Nat
import Mathlib.Algebra.BigOperators.Group.List.Basic

/-!
# What the renumbering of the surface dofs computes
-/

namespace Mifem.TraceNum

/-- gathering vectors as the naive numbering makes them: no dof twice in an element, a dof that is new is larger than all
dofs met before, and dofs at the internal places are in one element only. -/
structure FormVecs (nb : Nat) (ild : List Nat) (vs : List (List Nat)) : Prop where
  len : ∀ v ∈ vs, v.length = nb
  nodup : ∀ v ∈ vs, v.Nodup
  newAbove : ∀ (t : Nat) v d d', vs[t]? = some v → d ∈ v → (∀ w ∈ vs.take t, d ∉ w) → (∃ w ∈ vs.take t, d' ∈ w) → d' < d
  own : ∀ (t t' : Nat) v v' i, i ∈ ild → vs[t]? = some v → vs[t']? = some v' → v.getD i 0 ∈ v' → t = t'

/-! ## setMany -/

theorem setMany_notin (l : List (Nat × Int)) : ∀ (arr : Nat → Int) (x : Nat), x ∉ l.map Prod.fst → setMany arr l x = arr x := by
  induction l with
  | nil => intro arr x _; rfl
  | cons q l ih =>
    intro arr x hx
    simp only [List.map_cons, List.mem_cons, not_or] at hx
    show setMany _ l x = _
    rw [ih _ _ hx.2]
    exact if_neg hx.1

theorem setMany_const (l : List (Nat × Int)) (c : Int) (hc : ∀ q ∈ l, q.2 = c) : ∀ (arr : Nat → Int) (x : Nat), x ∈ l.map Prod.fst → setMany arr l x = c := by
  induction l with
  | nil => intro arr x hx; simp at hx
  | cons q l ih =>
    intro arr x hx
    show setMany _ l x = _
    by_cases h : x ∈ l.map Prod.fst
    · exact ih (fun q hq => hc q (List.mem_cons_of_mem _ hq)) _ _ h
    · rw [setMany_notin _ _ _ h]
      have : x = q.1 := by
        rcases List.mem_cons.1 hx with h' | h'
        · exact h'
        · exact absurd h' h
      exact (if_pos this).trans (hc q List.mem_cons_self)

theorem setMany_mem (l : List (Nat × Int)) (hn : (l.map Prod.fst).Nodup) : ∀ (arr : Nat → Int) (q : Nat × Int), q ∈ l → setMany arr l q.1 = q.2 := by
  induction l with
  | nil => intro arr q hq; simp at hq
  | cons r l ih =>
    intro arr q hq
    simp only [List.map_cons, List.nodup_cons] at hn
    show setMany _ l q.1 = _
    rcases List.mem_cons.1 hq with rfl | h
    · rw [setMany_notin _ _ _ hn.1]
      exact if_pos rfl
    · exact ih hn.2 _ _ h

/-! ## one element -/

/-- dofs of `v` at the places `is`. -/
def atPlaces (is : List Nat) (v : List Nat) : List Nat := is.map fun i => v.getD i 0

theorem mem_atPlaces (is v : List Nat) (d : Nat) : d ∈ atPlaces is v ↔ ∃ i ∈ is, v.getD i 0 = d := by
  simp [atPlaces]

theorem atPlaces_nodup (is v : List Nat) (h1 : is.Nodup) (h2 : v.Nodup) (h3 : ∀ i ∈ is, i < v.length) : (atPlaces is v).Nodup := by
  unfold atPlaces
  apply List.Nodup.map_on _ h1
  intro i hi j hj h
  have a := h3 i hi
  have b := h3 j hj
  rw [List.getD_eq_getElem _ _ a, List.getD_eq_getElem _ _ b] at h
  exact (List.Nodup.getElem_inj_iff h2).1 h

/-- the state after the elements `done`: `L` are the surface dofs in the order of their new numbers. -/
structure Inv (ild sld : List Nat) (done : List (List Nat)) (s : Ren) (L : List Nat) : Prop where
  nodup : L.Nodup
  len : s.cn = L.length
  mem : ∀ d, d ∈ L ↔ ∃ v ∈ done, d ∈ atPlaces sld v
  num : ∀ k, ∀ h : k < L.length, s.arr L[k] = k
  int : ∀ d, (∃ v ∈ done, d ∈ atPlaces ild v) → s.arr d = -1
  lim1 : ∀ d ∈ L, d < s.lim
  lim2 : s.lim = 0 ∨ s.lim - 1 ∈ L

theorem foldl_max_ge (l : List Nat) : ∀ a, a ≤ l.foldl max a ∧ ∀ x ∈ l, x ≤ l.foldl max a := by
  induction l with
  | nil => intro a; simp
  | cons y l ih =>
    intro a
    obtain ⟨h1, h2⟩ := ih (max a y)
    refine ⟨by simp only [List.foldl_cons]; omega, ?_⟩
    intro x hx
    rw [List.foldl_cons]
    rcases List.mem_cons.1 hx with rfl | h
    · omega
    · exact h2 x h

theorem foldl_max_mem (l : List Nat) : ∀ a, l.foldl max a = a ∨ l.foldl max a ∈ l := by
  induction l with
  | nil => intro a; simp
  | cons y l ih =>
    intro a
    rw [List.foldl_cons]
    rcases ih (max a y) with h | h
    · rw [h]
      rcases Nat.le_total a y with g | g
      · right; rw [Nat.max_eq_right g]; exact List.mem_cons_self
      · left; exact Nat.max_eq_left g
    · exact Or.inr (List.mem_cons_of_mem _ h)

theorem inv_step {nb : Nat} {ild sld : List Nat} {vs : List (List Nat)} (hv : FormVecs nb ild vs) (hs1 : sld.Nodup)
    (hs2 : ∀ i, i ∈ sld ↔ i < nb ∧ i ∉ ild) (hi : ∀ i ∈ ild, i < nb) {t : Nat} {v : List Nat} (ht : vs[t]? = some v) {s : Ren} {L : List Nat}
    (h : Inv ild sld (vs.take t) s L) :
    ∃ L', Inv ild sld (vs.take (t + 1)) (renStep ild sld s v) L' ∧ L <+: L' := by
  have hvm : v ∈ vs := List.mem_of_getElem? ht
  have hvl := hv.len v hvm
  have hvn := hv.nodup v hvm
  have htake : vs.take (t + 1) = vs.take t ++ [v] := by
    obtain ⟨hl, he⟩ := List.getElem?_eq_some_iff.1 ht
    rw [List.take_succ_eq_append_getElem hl, he]
  have hsl : ∀ i ∈ sld, i < v.length := fun i hi => by rw [hvl]; exact ((hs2 i).1 hi).1
  have hil : ∀ i ∈ ild, i < v.length := fun i h => by rw [hvl]; exact hi i h
  have earlier : ∀ w ∈ vs.take t, ∃ t', t' < t ∧ vs[t']? = some w := by
    intro w hw
    obtain ⟨k, hk, he⟩ := List.mem_iff_getElem.1 hw
    rw [List.length_take] at hk
    refine ⟨k, by omega, ?_⟩
    rw [← he, List.getElem_take, List.getElem?_eq_getElem (by omega)]
  have hint : ∀ d, d ∈ atPlaces ild v → ∀ w ∈ vs.take t, d ∉ w := by
    intro d hd w hw hdw
    obtain ⟨i, hii, rfl⟩ := (mem_atPlaces _ _ _).1 hd
    obtain ⟨t', ht', hw'⟩ := earlier w hw
    have := hv.own t t' v w i hii ht hw' hdw
    omega
  have inVec : ∀ (is w : List Nat) d, (∀ i ∈ is, i < w.length) → d ∈ atPlaces is w → d ∈ w := by
    intro is w d hlen hd
    obtain ⟨i, hii, rfl⟩ := (mem_atPlaces _ _ _).1 hd
    rw [List.getD_eq_getElem _ _ (hlen i hii)]
    exact List.getElem_mem _
  have hLv : ∀ d ∈ L, ∃ w ∈ vs.take t, d ∈ w := by
    intro d hd
    obtain ⟨w, hw, hdw⟩ := (h.mem d).1 hd
    refine ⟨w, hw, inVec sld w d ?_ hdw⟩
    intro i hii
    rw [hv.len w (List.mem_of_mem_take hw)]
    exact ((hs2 i).1 hii).1
  have hintL : ∀ d, d ∈ atPlaces ild v → d ∉ L := by
    intro d hd hdL
    obtain ⟨w, hw, hdw⟩ := hLv d hdL
    exact hint d hd w hw hdw
  -- surface dofs of this element below the limit are old ones
  have hold : ∀ d ∈ atPlaces sld v, d < s.lim → d ∈ L := by
    intro d hd hlt
    by_cases hseen : ∃ w ∈ vs.take t, d ∈ w
    · obtain ⟨w, hw, hdw⟩ := hseen
      obtain ⟨j, hj, he⟩ := List.mem_iff_getElem.1 hdw
      have hwl := hv.len w (List.mem_of_mem_take hw)
      by_cases hji : j ∈ ild
      · obtain ⟨t', ht', hw'⟩ := earlier w hw
        have := hv.own t' t w v j hji hw' ht (by
          rw [List.getD_eq_getElem _ _ hj, he]
          exact inVec sld v d hsl hd)
        omega
      · rw [h.mem]
        exact ⟨w, hw, (mem_atPlaces _ _ _).2 ⟨j, (hs2 j).2 ⟨by omega, hji⟩, by rw [List.getD_eq_getElem _ _ hj, he]⟩⟩
    · exfalso
      rcases h.lim2 with h0 | h0
      · omega
      · obtain ⟨w, hw, hdw⟩ := hLv _ h0
        have := hv.newAbove t v d (s.lim - 1) ht (inVec sld v d hsl hd) (fun w hw hdw => hseen ⟨w, hw, hdw⟩) ⟨w, hw, hdw⟩
        omega
  set sg := (atPlaces sld v).filter fun d => decide (s.lim ≤ d) with hsg
  have hsgm : ∀ d, d ∈ sg ↔ d ∈ atPlaces sld v ∧ s.lim ≤ d := by
    intro d
    rw [hsg, List.mem_filter]
    simp
  have hsgn : sg.Nodup := (atPlaces_nodup sld v hs1 hvn hsl).filter _
  have hdis : ∀ d ∈ L, d ∉ sg := by
    intro d hd hd'
    have := h.lim1 d hd
    have := ((hsgm d).1 hd').2
    omega
  have hmem' : ∀ d, d ∈ L ++ sg ↔ ∃ w ∈ vs.take (t + 1), d ∈ atPlaces sld w := by
    intro d
    rw [htake]
    simp only [List.mem_append, List.mem_singleton]
    constructor
    · rintro (hd | hd)
      · obtain ⟨w, hw, hdw⟩ := (h.mem d).1 hd
        exact ⟨w, Or.inl hw, hdw⟩
      · exact ⟨v, Or.inr rfl, ((hsgm d).1 hd).1⟩
    · rintro ⟨w, hw | rfl, hdw⟩
      · exact Or.inl ((h.mem d).2 ⟨w, hw, hdw⟩)
      · by_cases hlt : d < s.lim
        · exact Or.inl (hold d hdw hlt)
        · exact Or.inr ((hsgm d).2 ⟨hdw, by omega⟩)
  -- the array after the internal dofs
  set arr := setMany s.arr (ild.map fun i => (v.getD i 0, (-1 : Int))) with harr
  have hkeys : (ild.map fun i => (v.getD i 0, (-1 : Int))).map Prod.fst = atPlaces ild v := by
    rw [List.map_map]; rfl
  have harrL : ∀ d, d ∉ atPlaces ild v → arr d = s.arr d := by
    intro d hd
    rw [harr, setMany_notin _ _ _ (by rw [hkeys]; exact hd)]
  have harrI : ∀ d, (∃ w ∈ vs.take (t + 1), d ∈ atPlaces ild w) → arr d = -1 := by
    rintro d ⟨w, hw, hdw⟩
    by_cases hd : d ∈ atPlaces ild v
    · rw [harr]
      apply setMany_const
      · intro q hq
        obtain ⟨i, _, rfl⟩ := List.mem_map.1 hq
        rfl
      · rw [hkeys]; exact hd
    · rw [harrL d hd]
      apply h.int
      rw [htake, List.mem_append, List.mem_singleton] at hw
      rcases hw with hw | rfl
      · exact ⟨w, hw, hdw⟩
      · exact absurd hdw hd
  have hnotint : ∀ d, (∃ w ∈ vs.take (t + 1), d ∈ atPlaces ild w) → d ∉ sg := by
    rintro d ⟨w, hw, hdw⟩ hd
    have hdv := ((hsgm d).1 hd).1
    rw [htake, List.mem_append, List.mem_singleton] at hw
    rcases hw with hw | rfl
    · obtain ⟨i, hii, rfl⟩ := (mem_atPlaces _ _ _).1 hdw
      obtain ⟨t', ht', hw'⟩ := earlier w hw
      have := hv.own t' t w v i hii hw' ht (inVec sld v _ hsl hdv)
      omega
    · obtain ⟨i, hii, rfl⟩ := (mem_atPlaces _ _ _).1 hdw
      obtain ⟨j, hj, he⟩ := (mem_atPlaces _ _ _).1 hdv
      rw [List.getD_eq_getElem _ _ (hsl j hj), List.getD_eq_getElem _ _ (hil i hii)] at he
      have := (List.Nodup.getElem_inj_iff hvn).1 he
      subst this
      exact ((hs2 j).1 hj).2 hii
  have hstep : renStep ild sld s v = if sg = [] then ⟨arr, s.cn, s.lim⟩
      else ⟨setMany arr ((sg.zipIdx s.cn).map fun q => (q.1, (q.2 : Int))), s.cn + sg.length, sg.foldl max 0 + 1⟩ := rfl
  refine ⟨L ++ sg, ?_, List.prefix_append _ _⟩
  rw [hstep]
  by_cases hnil : sg = []
  · rw [if_pos hnil]
    have hLs : L ++ sg = L := by rw [hnil, List.append_nil]
    refine ⟨by rw [hLs]; exact h.nodup, by rw [hLs]; exact h.len, hmem', ?_, harrI, ?_, ?_⟩
    · rw [hLs]
      intro k hk
      show arr L[k] = _
      rw [harrL]
      · exact h.num k hk
      · intro hm
        exact hintL _ hm (List.getElem_mem hk)
    · rw [hLs]; exact h.lim1
    · rw [hLs]; exact h.lim2
  · rw [if_neg hnil]
    have hk2 : ((sg.zipIdx s.cn).map fun q => (q.1, (q.2 : Int))).map Prod.fst = sg := by
      rw [List.map_map]
      show (sg.zipIdx s.cn).map Prod.fst = sg
      exact List.zipIdx_map_fst s.cn sg
    obtain ⟨y, hy⟩ := List.exists_mem_of_ne_nil _ hnil
    have hmaxm : sg.foldl max 0 ∈ sg := by
      rcases foldl_max_mem sg 0 with h0 | h0
      · have := (foldl_max_ge sg 0).2 y hy
        rw [h0] at this
        have hy0 : y = 0 := by omega
        rw [h0, ← hy0]; exact hy
      · exact h0
    refine ⟨?_, ?_, hmem', ?_, ?_, ?_, ?_⟩
    · rw [List.nodup_append]
      refine ⟨h.nodup, hsgn, ?_⟩
      intro a ha b hb hab
      subst hab
      exact hdis a ha hb
    · show s.cn + sg.length = _
      rw [List.length_append, h.len]
    · intro k hk
      show setMany arr _ _ = _
      by_cases hkL : k < L.length
      · rw [List.getElem_append_left hkL, setMany_notin _ _ _ (by rw [hk2]; exact hdis _ (List.getElem_mem hkL)), harrL]
        · exact h.num k hkL
        · intro hm
          exact hintL _ hm (List.getElem_mem hkL)
      · rw [List.length_append] at hk
        rw [List.getElem_append_right (by omega)]
        have hq : (sg[k - L.length], (k : Int)) ∈ (sg.zipIdx s.cn).map fun q => (q.1, (q.2 : Int)) := by
          rw [List.mem_map]
          refine ⟨(sg[k - L.length], k), ?_, rfl⟩
          rw [List.mem_iff_getElem]
          refine ⟨k - L.length, by rw [List.length_zipIdx]; omega, ?_⟩
          rw [List.getElem_zipIdx, h.len]
          congr 1
          omega
        exact setMany_mem _ (by rw [hk2]; exact hsgn) arr _ hq
    · intro d hd
      show setMany arr _ _ = _
      rw [setMany_notin _ _ _ (by rw [hk2]; exact hnotint d hd)]
      exact harrI d hd
    · intro d hd
      show d < sg.foldl max 0 + 1
      rcases List.mem_append.1 hd with hd | hd
      · have h1 := h.lim1 d hd
        have h2 := ((hsgm y).1 hy).2
        have h3 := (foldl_max_ge sg 0).2 y hy
        omega
      · have := (foldl_max_ge sg 0).2 d hd
        omega
    · right
      show sg.foldl max 0 + 1 - 1 ∈ _
      rw [Nat.add_sub_cancel, List.mem_append]
      exact Or.inr hmaxm

/-- the elements `t, ..., t + n - 1`. -/
theorem inv_fold {nb : Nat} {ild sld : List Nat} {vs : List (List Nat)} (hv : FormVecs nb ild vs) (hs1 : sld.Nodup)
    (hs2 : ∀ i, i ∈ sld ↔ i < nb ∧ i ∉ ild) (hi : ∀ i ∈ ild, i < nb) (ws : List (List Nat)) : ∀ (pre post : List (List Nat)) (s : Ren) (L : List Nat),
    vs = pre ++ ws ++ post → Inv ild sld pre s L →
    ∃ L', Inv ild sld (pre ++ ws) (ws.foldl (renStep ild sld) s) L' ∧ L <+: L' := by
  induction ws with
  | nil =>
    intro pre post s L _ h
    exact ⟨L, by simpa using h, List.prefix_rfl⟩
  | cons w ws ih =>
    intro pre post s L he h
    have h1 : vs.take pre.length = pre := by rw [he, List.append_assoc, List.take_left]
    have h2 : vs[pre.length]? = some w := by
      rw [he, List.append_assoc, List.getElem?_append_right le_rfl]
      simp
    have h3 : vs.take (pre.length + 1) = pre ++ [w] := by
      obtain ⟨hl, hw⟩ := List.getElem?_eq_some_iff.1 h2
      rw [List.take_succ_eq_append_getElem hl, hw, h1]
    obtain ⟨L1, i1, p1⟩ := inv_step hv hs1 hs2 hi h2 (by rw [h1]; exact h)
    rw [h3] at i1
    obtain ⟨L2, i2, p2⟩ := ih (pre ++ [w]) post _ L1 (by rw [he]; simp) i1
    refine ⟨L2, ?_, p1.trans p2⟩
    rw [List.foldl_cons]
    simpa using i2

theorem inv_init (ild sld : List Nat) : Inv ild sld [] ⟨fun _ => 0, 0, 0⟩ [] where
  nodup := List.nodup_nil
  len := rfl
  mem := by simp
  num := by intro k h; simp at h
  int := by simp
  lim1 := by simp
  lim2 := Or.inl rfl

/-- the state after all ranks, and after each of them. -/
theorem renumber_spec {nb : Nat} {ild sld : List Nat} (ranks : List (List (List Nat))) (hv : FormVecs nb ild ranks.flatten) (hs1 : sld.Nodup)
    (hs2 : ∀ i, i ∈ sld ↔ i < nb ∧ i ∉ ild) (hi : ∀ i ∈ ild, i < nb) :
    ∃ L, Inv ild sld ranks.flatten (renumber ild sld ranks).1 L ∧ (renumber ild sld ranks).2.length = ranks.length ∧
      ∀ r, r < ranks.length → ∃ L' s, L' <+: L ∧ Inv ild sld (ranks.take (r + 1)).flatten s L' ∧ (renumber ild sld ranks).2[r]? = some s.arr := by
  have key : ∀ (rest pre : List (List (List Nat))) (s : Ren) (out : List (Nat → Int)) (L : List Nat), ranks = pre ++ rest →
      Inv ild sld pre.flatten s L → out.length = pre.length →
      (∀ r, r < pre.length → ∃ L' s', L' <+: L ∧ Inv ild sld (ranks.take (r + 1)).flatten s' L' ∧ out[r]? = some s'.arr) →
      ∃ L2, L <+: L2 ∧ Inv ild sld ranks.flatten (rest.foldl (fun s vs => let s' := vs.foldl (renStep ild sld) s.1; (s', s.2 ++ [s'.arr])) (s, out)).1 L2 ∧
        (rest.foldl (fun s vs => let s' := vs.foldl (renStep ild sld) s.1; (s', s.2 ++ [s'.arr])) (s, out)).2.length = ranks.length ∧
        ∀ r, r < ranks.length → ∃ L' s', L' <+: L2 ∧ Inv ild sld (ranks.take (r + 1)).flatten s' L' ∧
          (rest.foldl (fun s vs => let s' := vs.foldl (renStep ild sld) s.1; (s', s.2 ++ [s'.arr])) (s, out)).2[r]? = some s'.arr := by
    intro rest
    induction rest with
    | nil =>
      intro pre s out L he h1 h2 h3
      have : ranks = pre := by simpa using he
      subst this
      exact ⟨L, List.prefix_rfl, h1, h2, h3⟩
    | cons vs rest ih =>
      intro pre s out L he h1 h2 h3
      obtain ⟨L1, i1, p1⟩ := inv_fold hv hs1 hs2 hi vs pre.flatten rest.flatten s L (by rw [he]; simp) h1
      rw [List.foldl_cons]
      have hpre : (pre ++ [vs]).flatten = pre.flatten ++ vs := by simp
      have htk : ranks.take (pre.length + 1) = pre ++ [vs] := by
        rw [he, List.take_append]
        simp
      obtain ⟨L2, p2, g1, g2, g3⟩ := ih (pre ++ [vs]) (vs.foldl (renStep ild sld) s) (out ++ [(vs.foldl (renStep ild sld) s).arr]) L1 (by rw [he]; simp)
        (by rw [hpre]; exact i1) (by simp [h2]) (by
          intro r hr
          rw [List.length_append, List.length_singleton] at hr
          by_cases hrp : r < pre.length
          · obtain ⟨L', s', q1, q2, q3⟩ := h3 r hrp
            refine ⟨L', s', q1.trans p1, q2, ?_⟩
            rw [List.getElem?_append_left (by omega)]
            exact q3
          · have : r = pre.length := by omega
            subst this
            refine ⟨L1, _, List.prefix_rfl, by rw [htk, hpre]; exact i1, ?_⟩
            rw [← h2, List.getElem?_append_right le_rfl]
            simp)
      exact ⟨L2, p1.trans p2, g1, g2, g3⟩
  obtain ⟨L, _, g1, g2, g3⟩ := key ranks [] ⟨fun _ => 0, 0, 0⟩ [] [] rfl (inv_init ild sld) rfl (by intro r h; simp at h)
  exact ⟨L, g1, g2, g3⟩

/-- how many surface dofs there are. -/
theorem surface_count {nb : Nat} {ild sld : List Nat} {vs : List (List Nat)} (hv : FormVecs nb ild vs) (hs2 : ∀ i, i ∈ sld ↔ i < nb ∧ i ∉ ild)
    (hi : ∀ i ∈ ild, i < nb) (hin : ild.Nodup) {s : Ren} {L : List Nat} (h : Inv ild sld vs s L) {gnd : Nat}
    (hg : ∀ d, d < gnd ↔ ∃ v ∈ vs, d ∈ v) : L.length + vs.length * ild.length = gnd := by
  have hI : (vs.flatMap (atPlaces ild)).length = vs.length * ild.length := by
    rw [List.length_flatMap]
    have : (vs.map fun v => (atPlaces ild v).length) = vs.map fun _ => ild.length := by
      apply List.map_congr_left
      intro v _
      simp [atPlaces]
    rw [this, List.map_const', List.sum_replicate_nat]
  have inVec : ∀ (is w : List Nat) d, (∀ i ∈ is, i < w.length) → d ∈ atPlaces is w → d ∈ w := by
    intro is w d hlen hd
    obtain ⟨i, hii, rfl⟩ := (mem_atPlaces _ _ _).1 hd
    rw [List.getD_eq_getElem _ _ (hlen i hii)]
    exact List.getElem_mem _
  have hil : ∀ v ∈ vs, ∀ i ∈ ild, i < v.length := fun v hvm i h => by rw [hv.len v hvm]; exact hi i h
  have hsl : ∀ v ∈ vs, ∀ i ∈ sld, i < v.length := fun v hvm i h => by rw [hv.len v hvm]; exact ((hs2 i).1 h).1
  have hIn : (vs.flatMap (atPlaces ild)).Nodup := by
    rw [List.nodup_flatMap]
    refine ⟨fun v hvm => atPlaces_nodup ild v hin (hv.nodup v hvm) (hil v hvm), ?_⟩
    rw [List.pairwise_iff_getElem]
    intro a b ha hb hab x hxa hxb
    obtain ⟨i, hii, rfl⟩ := (mem_atPlaces _ _ _).1 hxa
    have := hv.own a b vs[a] vs[b] i hii (List.getElem?_eq_getElem ha) (List.getElem?_eq_getElem hb)
      (inVec ild vs[b] _ (hil _ (List.getElem_mem hb)) hxb)
    omega
  have hdis : ∀ d ∈ L, d ∉ vs.flatMap (atPlaces ild) := by
    intro d hd hd'
    obtain ⟨w, hw, hdw⟩ := List.mem_flatMap.1 hd'
    obtain ⟨v, hvm, hdv⟩ := (h.mem d).1 hd
    obtain ⟨i, hii, rfl⟩ := (mem_atPlaces _ _ _).1 hdw
    obtain ⟨a, ha, rfl⟩ := List.mem_iff_getElem.1 hw
    obtain ⟨b, hb, rfl⟩ := List.mem_iff_getElem.1 hvm
    have := hv.own a b _ _ i hii (List.getElem?_eq_getElem ha) (List.getElem?_eq_getElem hb) (inVec sld _ _ (hsl _ hvm) hdv)
    subst this
    obtain ⟨j, hj, he⟩ := (mem_atPlaces _ _ _).1 hdv
    rw [List.getD_eq_getElem _ _ (hsl _ hvm j hj), List.getD_eq_getElem _ _ (hil _ hw i hii)] at he
    have := (List.Nodup.getElem_inj_iff (hv.nodup _ hw)).1 he
    subst this
    exact ((hs2 j).1 hj).2 hii
  have hperm : (L ++ vs.flatMap (atPlaces ild)).Perm (List.range gnd) := by
    rw [List.perm_ext_iff_of_nodup _ List.nodup_range]
    · intro d
      rw [List.mem_append, List.mem_range, hg]
      constructor
      · rintro (hd | hd)
        · obtain ⟨v, hvm, hdv⟩ := (h.mem d).1 hd
          exact ⟨v, hvm, inVec sld v d (hsl v hvm) hdv⟩
        · obtain ⟨v, hvm, hdv⟩ := List.mem_flatMap.1 hd
          exact ⟨v, hvm, inVec ild v d (hil v hvm) hdv⟩
      · rintro ⟨v, hvm, hdv⟩
        obtain ⟨j, hj, rfl⟩ := List.mem_iff_getElem.1 hdv
        by_cases hji : j ∈ ild
        · exact Or.inr (List.mem_flatMap.2 ⟨v, hvm, (mem_atPlaces _ _ _).2 ⟨j, hji, List.getD_eq_getElem _ _ hj⟩⟩)
        · refine Or.inl ((h.mem _).2 ⟨v, hvm, (mem_atPlaces _ _ _).2 ⟨j, (hs2 j).2 ⟨?_, hji⟩, List.getD_eq_getElem _ _ hj⟩⟩)
          rw [← hv.len v hvm]; exact hj
    · rw [List.nodup_append]
      refine ⟨h.nodup, hIn, ?_⟩
      intro a ha b hb hab
      subst hab
      exact hdis a ha hb
  have := hperm.length_eq
  rw [List.length_append, List.length_range, hI] at this
  exact this

end Mifem.TraceNum
