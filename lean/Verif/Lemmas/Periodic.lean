import Verif.Lemmas.Mesh
import Mathlib.Data.List.Nodup
import Mathlib.Data.List.Perm.Subperm

/-!
# Lemmas about periodic pairs
-/

namespace Mifem.Mesh
open Mifem.Naive

theorem mem_alongSide (E : EArr) (j : Nat) (hd : j / 2 < E.shape.length) (hp : 0 < E.shape.getD (j / 2) 0) (x : Nat) :
    x ∈ alongSide E j ↔ ∃ i, InBox E.shape i ∧ atEnd E i j ∧ E.at_ i = x := by
  unfold alongSide
  simp only [List.mem_map, mem_fOrder]
  have hf : (if j % 2 = 0 then 0 else E.shape.getD (j / 2) 0 - 1) < E.shape.getD (j / 2) 0 := by
    by_cases h : j % 2 = 0
    · rw [if_pos h]; omega
    · rw [if_neg h]; omega
  constructor
  · rintro ⟨i, ⟨h1, h2⟩, rfl⟩
    have hl : i.length = E.shape.length := by simpa using h1
    refine ⟨_, ?_, ?_, rfl⟩
    · refine ⟨by simpa using hl, ?_⟩
      intro t ht
      rw [getD_set _ _ _ _ (by omega)]
      by_cases htd : t = j / 2
      · rw [if_pos htd, htd]
        exact hf
      · rw [if_neg htd]
        have := h2 t (by simpa using ht)
        rw [getD_set _ _ _ _ hd, if_neg htd] at this
        exact this
    · unfold atEnd
      rw [getD_set _ _ _ _ (by omega), if_pos rfl]
  · rintro ⟨i, h1, h2, rfl⟩
    have hl : i.length = E.shape.length := h1.1
    refine ⟨i.set (j / 2) 0, ⟨by simpa using hl, ?_⟩, ?_⟩
    · intro t ht
      rw [getD_set _ _ _ _ (by omega), getD_set _ _ _ _ hd]
      by_cases htd : t = j / 2
      · rw [if_pos htd, if_pos htd]; omega
      · rw [if_neg htd, if_neg htd]
        exact h1.2 t (by simpa using ht)
    · congr 1
      exact set_set_self i _ _ h2 0

theorem nodup_alongSide (E : EArr) (start j : Nat) (hE : Numbers start E) (hd : j / 2 < E.shape.length) (hp : 0 < E.shape.getD (j / 2) 0) :
    (alongSide E j).Nodup := by
  unfold alongSide
  have hf : (if j % 2 = 0 then 0 else E.shape.getD (j / 2) 0 - 1) < E.shape.getD (j / 2) 0 := by
    by_cases h : j % 2 = 0
    · rw [if_pos h]; omega
    · rw [if_neg h]; omega
  have hbox : ∀ i, InBox (E.shape.set (j / 2) 1) i →
      InBox E.shape (i.set (j / 2) (if j % 2 = 0 then 0 else E.shape.getD (j / 2) 0 - 1)) := by
    rintro i ⟨h1, h2⟩
    have hl : i.length = E.shape.length := by simpa using h1
    refine ⟨by simpa using hl, ?_⟩
    intro t ht
    rw [getD_set _ _ _ _ (by omega)]
    by_cases htd : t = j / 2
    · rw [if_pos htd, htd]
      exact hf
    · rw [if_neg htd]
      have := h2 t (by simpa using ht)
      rw [getD_set _ _ _ _ hd, if_neg htd] at this
      exact this
  apply List.Nodup.map_on _ (fOrder_nodup _)
  intro a ha b hb hab
  have ha' := (mem_fOrder _ _).1 ha
  have hb' := (mem_fOrder _ _).1 hb
  have heq := hE.inj _ _ (hbox a ha') (hbox b hb') hab
  have hla : a.length = E.shape.length := by simpa using ha'.1
  have hlb : b.length = E.shape.length := by simpa using hb'.1
  apply ext_getD _ _ (hla.trans hlb.symm)
  intro t ht
  by_cases htd : t = j / 2
  · have h1 := ha'.2 t (by simpa using (by omega : t < E.shape.length))
    have h2 := hb'.2 t (by simpa using (by omega : t < E.shape.length))
    rw [getD_set _ _ _ _ hd, if_pos htd] at h1 h2
    omega
  · have := congrArg (fun l => l.getD t 0) heq
    rw [getD_set _ _ _ _ (by omega), getD_set _ _ _ _ (by omega), if_neg htd, if_neg htd] at this
    exact this

/-- the two ends of a pair. -/
def ends (p : Pair) : List (Nat × Nat) := [(p.e1, p.s1), (p.e2, p.s2)]

/-- `p` joins the element side `x` with the element side `y`. -/
def joins (p : Pair) (x y : Nat × Nat) : Prop :=
  ((p.e1, p.s1) = x ∧ (p.e2, p.s2) = y) ∨ ((p.e2, p.s2) = x ∧ (p.e1, p.s1) = y)

theorem mem_ends (p : Pair) (x : Nat × Nat) : x ∈ ends p ↔ ∃ y, joins p x y := by
  unfold ends joins
  simp only [List.mem_cons, List.not_mem_nil, or_false]
  constructor
  · rintro (rfl | rfl)
    · exact ⟨_, Or.inl ⟨rfl, rfl⟩⟩
    · exact ⟨_, Or.inr ⟨rfl, rfl⟩⟩
  · rintro ⟨y, ⟨rfl, _⟩ | ⟨rfl, _⟩⟩
    · exact Or.inl rfl
    · exact Or.inr rfl

theorem joins_symm (p : Pair) (x y : Nat × Nat) (h : joins p x y) : joins p y x := by
  rcases h with ⟨h1, h2⟩ | ⟨h1, h2⟩
  · exact Or.inr ⟨h2, h1⟩
  · exact Or.inl ⟨h2, h1⟩

theorem applyPair_not (e k : Nat) (m : List Att) (p : Pair) (h : (e, k) ∉ ends p) : (applyPair e m p)[k]? = m[k]? := by
  unfold ends at h
  simp only [List.mem_cons, List.not_mem_nil, or_false, not_or, Prod.mk.injEq, not_and] at h
  obtain ⟨h1, h2⟩ := h
  unfold applyPair
  simp only
  by_cases g1 : e = p.e1
  · rw [if_pos g1]
    have := h1 g1
    by_cases g2 : e = p.e2
    · rw [if_pos g2]
      have := h2 g2
      rw [List.getElem?_set_ne (by omega), List.getElem?_set_ne (by omega)]
    · rw [if_neg g2, List.getElem?_set_ne (by omega)]
  · rw [if_neg g1]
    by_cases g2 : e = p.e2
    · rw [if_pos g2]
      have := h2 g2
      rw [List.getElem?_set_ne (by omega)]
    · rw [if_neg g2]

theorem applyPair_length (e : Nat) (m : List Att) (p : Pair) : (applyPair e m p).length = m.length := by
  unfold applyPair
  simp only
  by_cases g1 : e = p.e1 <;> by_cases g2 : e = p.e2 <;> simp [g1, g2, apply_ite]

theorem applyPair_joins (e k : Nat) (m : List Att) (p : Pair) (y : Nat × Nat) (hn : (ends p).Nodup) (hk : k < m.length) (h : joins p (e, k) y) :
    (applyPair e m p)[k]? = some (.other y.1) := by
  have hne : (p.e1, p.s1) ≠ (p.e2, p.s2) := by
    unfold ends at hn
    simp only [List.nodup_cons, List.mem_cons, List.not_mem_nil, or_false] at hn
    exact hn.1
  unfold applyPair
  simp only
  rcases h with ⟨h1, rfl⟩ | ⟨h1, rfl⟩
  · simp only [Prod.mk.injEq] at h1
    obtain ⟨rfl, rfl⟩ := h1
    rw [if_pos rfl]
    by_cases g : p.e1 = p.e2
    · rw [if_pos g, List.getElem?_set_ne, List.getElem?_set_self (by simpa using hk)]
      intro hc
      exact hne (by rw [g, hc])
    · rw [if_neg g, List.getElem?_set_self (by simpa using hk)]
  · simp only [Prod.mk.injEq] at h1
    obtain ⟨rfl, rfl⟩ := h1
    rw [if_pos rfl, List.getElem?_set_self]
    by_cases g : p.e2 = p.e1
    · rw [if_pos g]; simpa using hk
    · rw [if_neg g]; exact hk

theorem foldl_not (e k : Nat) : ∀ (ps : List Pair) (m : List Att), (e, k) ∉ ps.flatMap ends → (ps.foldl (applyPair e) m)[k]? = m[k]? := by
  intro ps
  induction ps with
  | nil => intro m _; rfl
  | cons p ps ih =>
    intro m h
    rw [List.flatMap_cons, List.mem_append, not_or] at h
    rw [List.foldl_cons, ih _ h.2, applyPair_not _ _ _ _ h.1]

theorem foldl_joins (e k : Nat) (y : Nat × Nat) : ∀ (ps : List Pair) (m : List Att), (ps.flatMap ends).Nodup → k < m.length →
    ∀ p ∈ ps, joins p (e, k) y → (ps.foldl (applyPair e) m)[k]? = some (.other y.1) := by
  intro ps
  induction ps with
  | nil => intro m _ _ p hp; exact absurd hp (by simp)
  | cons q ps ih =>
    intro m hn hk p hp hj
    rw [List.flatMap_cons, List.nodup_append] at hn
    rw [List.foldl_cons]
    rcases List.mem_cons.1 hp with rfl | hp
    · rw [foldl_not, applyPair_joins _ _ _ _ _ hn.1 hk hj]
      intro hc
      exact hn.2.2 _ ((mem_ends p _).2 ⟨y, hj⟩) _ hc rfl
    · exact ih _ hn.2.1 (by rw [applyPair_length]; exact hk) p hp hj

theorem foldl_length (e : Nat) : ∀ (ps : List Pair) (m : List Att), (ps.foldl (applyPair e) m).length = m.length := by
  intro ps
  induction ps with
  | nil => intro m; rfl
  | cons q ps ih => intro m; rw [List.foldl_cons, ih, applyPair_length]

theorem correspond_ends (j : Nat) : ∀ (as bs : List Nat) (ps : List Pair), correspond j as bs = some ps →
    (ps.flatMap ends).Perm (as.map (fun x => (x, j)) ++ (bs.take as.length).map fun x => (x, opp j)) := by
  intro as
  induction as with
  | nil =>
    intro bs ps h
    have : [] = ps := by simpa [correspond] using h
    rw [← this]
    simp
  | cons a as ih =>
    intro bs ps h
    cases bs with
    | nil => exact absurd h (by simp [correspond])
    | cons b bs =>
      rw [correspond, Option.map_eq_some_iff] at h
      obtain ⟨qs, h1, rfl⟩ := h
      have hq := ih bs qs h1
      rw [List.flatMap_cons]
      simp only [List.length_cons, List.take_succ_cons, List.map_cons, List.cons_append]
      have key : ∀ p : Pair, joins p (a, j) (b, opp j) → (ends p ++ qs.flatMap ends).Perm ((a, j) :: (as.map (fun x => (x, j)) ++ (b, opp j) :: (bs.take as.length).map fun x => (x, opp j))) := by
        intro p hp
        have h1 : (ends p).Perm [(a, j), (b, opp j)] := by
          rcases hp with ⟨h1, h2⟩ | ⟨h1, h2⟩
          · unfold ends
            rw [h1, h2]
          · unfold ends
            rw [h1, h2]
            exact List.Perm.swap _ _ _
        refine (h1.append hq).trans ?_
        rw [List.cons_append]
        refine List.Perm.cons _ ?_
        rw [List.cons_append, List.nil_append]
        exact List.perm_middle.symm
      by_cases hab : a < b
      · rw [if_pos hab]
        exact key _ (Or.inl ⟨rfl, rfl⟩)
      · rw [if_neg hab]
        exact key _ (Or.inr ⟨rfl, rfl⟩)

theorem correspond_joins (j : Nat) : ∀ (as bs : List Nat) (ps : List Pair), correspond j as bs = some ps →
    ∀ p ∈ ps, ∃ (t a b : Nat), as[t]? = some a ∧ bs[t]? = some b ∧ joins p (a, j) (b, opp j) := by
  intro as
  induction as with
  | nil =>
    intro bs ps h p hp
    have : [] = ps := by simpa [correspond] using h
    rw [← this] at hp
    exact absurd hp (by simp)
  | cons a as ih =>
    intro bs ps h p hp
    cases bs with
    | nil => exact absurd h (by simp [correspond])
    | cons b bs =>
      rw [correspond, Option.map_eq_some_iff] at h
      obtain ⟨qs, h1, rfl⟩ := h
      rcases List.mem_cons.1 hp with rfl | hp
      · refine ⟨0, a, b, rfl, rfl, ?_⟩
        by_cases hab : a < b
        · rw [if_pos hab]; exact Or.inl ⟨rfl, rfl⟩
        · rw [if_neg hab]; exact Or.inr ⟨rfl, rfl⟩
      · obtain ⟨t, x, y, h2, h3, h4⟩ := ih bs qs h1 p hp
        exact ⟨t + 1, x, y, by simpa using h2, by simpa using h3, h4⟩

theorem correspond_all (j : Nat) : ∀ (as bs : List Nat) (ps : List Pair), correspond j as bs = some ps →
    ∀ (t a : Nat), as[t]? = some a → ∃ b, bs[t]? = some b ∧ ∃ p ∈ ps, joins p (a, j) (b, opp j) := by
  intro as
  induction as with
  | nil =>
    intro bs ps h t a ha
    exact absurd ha (by simp)
  | cons a as ih =>
    intro bs ps h t x hx
    cases bs with
    | nil => exact absurd h (by simp [correspond])
    | cons b bs =>
      rw [correspond, Option.map_eq_some_iff] at h
      obtain ⟨qs, h1, rfl⟩ := h
      cases t with
      | zero =>
        have : a = x := by simpa using hx
        subst this
        refine ⟨b, rfl, _, List.mem_cons_self, ?_⟩
        by_cases hab : a < b
        · rw [if_pos hab]; exact Or.inl ⟨rfl, rfl⟩
        · rw [if_neg hab]; exact Or.inr ⟨rfl, rfl⟩
      | succ t =>
        obtain ⟨y, h2, p, h3, h4⟩ := ih bs qs h1 t x (by simpa using hx)
        exact ⟨y, by simpa using h2, p, List.mem_cons_of_mem _ h3, h4⟩

/-- the element sides along a region side. -/
def sideEnds (M : List EArr) (x : Nat × Nat) : List (Nat × Nat) :=
  match M[x.1]? with
  | some E => (alongSide E x.2).map fun e => (e, x.2)
  | none => []

/-- the region sides used by the periodic pairs. -/
def regionEnds (per : List (Nat × Nat × Nat)) : List (Nat × Nat) := per.flatMap fun x => [(x.1, x.2.1), (x.2.2, opp x.2.1)]

theorem sideEnds_eq (M : List EArr) (r j : Nat) (E : EArr) (h : M[r]? = some E) : sideEnds M (r, j) = (alongSide E j).map fun e => (e, j) := by
  unfold sideEnds
  simp only
  rw [h]

theorem allPairs_cons (M : List EArr) (r j s : Nat) (rest : List (Nat × Nat × Nat)) (ps : List Pair) (h : allPairs M ((r, j, s) :: rest) = some ps) :
    ∃ E E' c t, M[r]? = some E ∧ M[s]? = some E' ∧ correspond j (alongSide E j) (alongSide E' (opp j)) = some c ∧ allPairs M rest = some t ∧ ps = c ++ t := by
  rw [allPairs] at h
  cases hE : M[r]? with
  | none => rw [hE] at h; exact absurd h (by simp)
  | some E =>
    rw [hE] at h
    simp only [Option.bind_some] at h
    cases hE' : M[s]? with
    | none => rw [hE'] at h; exact absurd h (by simp)
    | some E' =>
      rw [hE'] at h
      simp only [Option.bind_some] at h
      cases hc : correspond j (alongSide E j) (alongSide E' (opp j)) with
      | none => rw [hc] at h; exact absurd h (by simp)
      | some c =>
        rw [hc] at h
        simp only [Option.bind_some] at h
        obtain ⟨t, ht, rfl⟩ := Option.map_eq_some_iff.1 h
        exact ⟨E, E', c, t, rfl, rfl, hc, ht, rfl⟩

theorem allPairs_subperm (M : List EArr) : ∀ (per : List (Nat × Nat × Nat)) (ps : List Pair), allPairs M per = some ps →
    (ps.flatMap ends).Subperm ((regionEnds per).flatMap (sideEnds M)) := by
  intro per
  induction per with
  | nil =>
    intro ps h
    have : [] = ps := by simpa [allPairs] using h
    rw [← this]
    exact List.nil_subperm
  | cons x rest ih =>
    intro ps h
    obtain ⟨r, j, s⟩ := x
    obtain ⟨E, E', c, t, h1, h2, h3, h4, rfl⟩ := allPairs_cons M r j s rest ps h
    have hr : (regionEnds ((r, j, s) :: rest)).flatMap (sideEnds M) = (sideEnds M (r, j) ++ sideEnds M (s, opp j)) ++ (regionEnds rest).flatMap (sideEnds M) := by
      simp [regionEnds]
    rw [hr, List.flatMap_append]
    refine List.Subperm.append ?_ (ih t h4)
    rw [sideEnds_eq M r j E h1, sideEnds_eq M s (opp j) E' h2]
    refine (correspond_ends j _ _ c h3).subperm.trans ?_
    apply List.Subperm.append (List.Subperm.refl _)
    exact ((List.take_sublist _ _).map _).subperm

theorem sideEnds_disjoint (dim : Nat) (M : List EArr) (rmap : Nat → Nat → Att) (h : MeshOK dim M rmap) (x y : Nat × Nat) (hx : x.2 < 2 * dim) (hy : y.2 < 2 * dim) (hne : x ≠ y) :
    List.Disjoint (sideEnds M x) (sideEnds M y) := by
  intro z hz1 hz2
  unfold sideEnds at hz1 hz2
  cases h1 : M[x.1]? with
  | none => rw [h1] at hz1; exact absurd hz1 (by simp)
  | some E =>
    cases h2 : M[y.1]? with
    | none => rw [h2] at hz2; exact absurd hz2 (by simp)
    | some E' =>
      rw [h1] at hz1
      rw [h2] at hz2
      simp only [List.mem_map] at hz1 hz2
      obtain ⟨a, ha, rfl⟩ := hz1
      obtain ⟨b, hb, hba⟩ := hz2
      simp only [Prod.mk.injEq] at hba
      obtain ⟨rfl, hs⟩ := hba
      have hd1 : x.2 / 2 < dim := by omega
      have hd2 : y.2 / 2 < dim := by omega
      have hE := h.dims _ E h1
      have hE' := h.dims _ E' h2
      obtain ⟨i, i1, _, i3⟩ := (mem_alongSide E x.2 (by rw [hE.1]; exact hd1) (hE.2 _ hd1) b).1 ha
      obtain ⟨i', i1', _, i3'⟩ := (mem_alongSide E' y.2 (by rw [hE'.1]; exact hd2) (hE'.2 _ hd2) b).1 hb
      have := (element_unique M h.num x.1 y.1 E E' h1 h2 i i' i1 i1' (i3.trans i3'.symm)).1
      exact hne (Prod.ext this hs.symm)

theorem sideEnds_nodup (dim : Nat) (M : List EArr) (rmap : Nat → Nat → Att) (h : MeshOK dim M rmap) (x : Nat × Nat) (hx : x.2 < 2 * dim) : (sideEnds M x).Nodup := by
  unfold sideEnds
  cases h1 : M[x.1]? with
  | none => exact List.nodup_nil
  | some E =>
    have hd1 : x.2 / 2 < dim := by omega
    have hE := h.dims _ E h1
    simp only
    apply List.Nodup.map
    · intro a b hab
      simpa using hab
    · exact nodup_alongSide E _ _ (h.num _ E h1) (by rw [hE.1]; exact hd1) (hE.2 _ hd1)

/-- the periodic pairs: every region side at most once, and only sides on the boundary of the domain. -/
structure PerOK (dim : Nat) (M : List EArr) (rmap : Nat → Nat → Att) (per : List (Nat × Nat × Nat)) : Prop where
  side : ∀ x ∈ per, x.2.1 < 2 * dim
  nodup : (regionEnds per).Nodup
  bnd : ∀ x ∈ per, (∃ b, rmap x.1 x.2.1 = .bnd b) ∧ ∃ b, rmap x.2.2 (opp x.2.1) = .bnd b

theorem mem_regionEnds (per : List (Nat × Nat × Nat)) (y : Nat × Nat) (h : y ∈ regionEnds per) :
    ∃ x ∈ per, y = (x.1, x.2.1) ∨ y = (x.2.2, opp x.2.1) := by
  unfold regionEnds at h
  rw [List.mem_flatMap] at h
  obtain ⟨x, hx, hy⟩ := h
  exact ⟨x, hx, by simpa using hy⟩

theorem PerOK.mem {dim : Nat} {M : List EArr} {rmap : Nat → Nat → Att} {per : List (Nat × Nat × Nat)} (h : PerOK dim M rmap per) (y : Nat × Nat) (hy : y ∈ regionEnds per) :
    y.2 < 2 * dim ∧ ∃ b, rmap y.1 y.2 = .bnd b := by
  obtain ⟨x, hx, rfl | rfl⟩ := mem_regionEnds per y hy
  · exact ⟨h.side x hx, (h.bnd x hx).1⟩
  · exact ⟨opp_lt dim _ (h.side x hx), (h.bnd x hx).2⟩

theorem pairs_nodup (dim : Nat) (M : List EArr) (rmap : Nat → Nat → Att) (h : MeshOK dim M rmap) (per : List (Nat × Nat × Nat)) (hper : PerOK dim M rmap per)
    (ps : List Pair) (hps : allPairs M per = some ps) : (ps.flatMap ends).Nodup := by
  have hs := allPairs_subperm M per ps hps
  have hn : ((regionEnds per).flatMap (sideEnds M)).Nodup := by
    rw [List.nodup_flatMap]
    refine ⟨fun x hx => sideEnds_nodup dim M rmap h x (hper.mem x hx).1, ?_⟩
    refine hper.nodup.imp_of_mem ?_
    intro a b ha hb hab
    exact sideEnds_disjoint dim M rmap h a b (hper.mem a ha).1 (hper.mem b hb).1 hab
  obtain ⟨l, hl, hsub⟩ := hs
  exact hl.nodup_iff.1 (hn.sublist hsub)

/-- an end of a pair is an element side on the boundary. -/
theorem ends_bnd (dim : Nat) (M : List EArr) (rmap : Nat → Nat → Att) (h : MeshOK dim M rmap) (per : List (Nat × Nat × Nat)) (hper : PerOK dim M rmap per)
    (ps : List Pair) (hps : allPairs M per = some ps) (e k : Nat) (hm : (e, k) ∈ ps.flatMap ends) :
    k < 2 * dim ∧ ∃ (r : Nat) (E : EArr) (i : List Nat), M[r]? = some E ∧ InBox E.shape i ∧ E.at_ i = e ∧ ∃ b, ∀ x, fetchSide M rmap r i k = some x → x = .bnd b := by
  have hs := (allPairs_subperm M per ps hps).subset hm
  rw [List.mem_flatMap] at hs
  obtain ⟨y, hy, he⟩ := hs
  obtain ⟨h1, b, h2⟩ := hper.mem y hy
  unfold sideEnds at he
  cases hE : M[y.1]? with
  | none => rw [hE] at he; exact absurd he (by simp)
  | some E =>
    rw [hE] at he
    simp only [List.mem_map, Prod.mk.injEq] at he
    obtain ⟨a, ha, rfl, rfl⟩ := he
    have hd1 : y.2 / 2 < dim := by omega
    have hE' := h.dims _ E hE
    obtain ⟨i, i1, i2, i3⟩ := (mem_alongSide E y.2 (by rw [hE'.1]; exact hd1) (hE'.2 _ hd1) a).1 ha
    refine ⟨h1, y.1, E, i, hE, i1, i3, b, ?_⟩
    intro x hx
    rcases fetchSide_cases dim M rmap h y.1 E hE i i1 y.2 h1 x hx with ⟨_, c, hc, hb⟩ | ⟨_, s, E', hr, _⟩ | ⟨hend, _⟩
    · rw [h2] at hc
      rw [hb, Att.bnd.inj hc]
    · rw [h2] at hr
      exact absurd hr (by simp)
    · exact absurd i2 hend

theorem allPairs_joins (M : List EArr) : ∀ (per : List (Nat × Nat × Nat)) (ps : List Pair), allPairs M per = some ps → ∀ p ∈ ps,
    ∃ (r j s : Nat) (E E' : EArr) (t a b : Nat), (r, j, s) ∈ per ∧ M[r]? = some E ∧ M[s]? = some E' ∧ (alongSide E j)[t]? = some a ∧ (alongSide E' (opp j))[t]? = some b ∧
      joins p (a, j) (b, opp j) := by
  intro per
  induction per with
  | nil =>
    intro ps h p hp
    have : [] = ps := by simpa [allPairs] using h
    rw [← this] at hp
    exact absurd hp (by simp)
  | cons x rest ih =>
    intro ps h p hp
    obtain ⟨r, j, s⟩ := x
    obtain ⟨E, E', c, t, h1, h2, h3, h4, rfl⟩ := allPairs_cons M r j s rest ps h
    rcases List.mem_append.1 hp with hp | hp
    · obtain ⟨u, a, b, g1, g2, g3⟩ := correspond_joins j _ _ c h3 p hp
      exact ⟨r, j, s, E, E', u, a, b, List.mem_cons_self, h1, h2, g1, g2, g3⟩
    · obtain ⟨r', j', s', F, F', u, a, b, g0, g⟩ := ih t h4 p hp
      exact ⟨r', j', s', F, F', u, a, b, List.mem_cons_of_mem _ g0, g⟩

theorem allPairs_all (M : List EArr) : ∀ (per : List (Nat × Nat × Nat)) (ps : List Pair), allPairs M per = some ps → ∀ r j s, (r, j, s) ∈ per →
    ∃ E E', M[r]? = some E ∧ M[s]? = some E' ∧ ∀ (t a : Nat), (alongSide E j)[t]? = some a → ∃ b, (alongSide E' (opp j))[t]? = some b ∧ ∃ p ∈ ps, joins p (a, j) (b, opp j) := by
  intro per
  induction per with
  | nil =>
    intro ps h r j s hm
    exact absurd hm (by simp)
  | cons x rest ih =>
    intro ps h r j s hm
    obtain ⟨r', j', s'⟩ := x
    obtain ⟨E, E', c, t, h1, h2, h3, h4, rfl⟩ := allPairs_cons M r' j' s' rest ps h
    rcases List.mem_cons.1 hm with heq | hm
    · simp only [Prod.mk.injEq] at heq
      obtain ⟨rfl, rfl, rfl⟩ := heq
      refine ⟨E, E', h1, h2, ?_⟩
      intro u a ha
      obtain ⟨b, hb, p, hp, hj⟩ := correspond_all j _ _ c h3 u a ha
      exact ⟨b, hb, p, List.mem_append_left _ hp, hj⟩
    · obtain ⟨F, F', g1, g2, g3⟩ := ih t h4 r j s hm
      refine ⟨F, F', g1, g2, ?_⟩
      intro u a ha
      obtain ⟨b, hb, p, hp, hj⟩ := g3 u a ha
      exact ⟨b, hb, p, List.mem_append_right _ hp, hj⟩

end Mifem.Mesh
