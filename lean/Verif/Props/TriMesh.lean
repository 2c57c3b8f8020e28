import Verif.Model.Tri
import Mathlib.Tactic.Linarith
import Mathlib.Tactic.Ring
import Mathlib.Tactic.FinCases

/-! # C61: construction of triangular meshes -/

namespace Mifem.Props
open Mifem.Tri

/-! ## Orientation -/

/-- Twice the signed area of a triangle. -/
def cross {F : Type*} [Field F] (p0 p1 p2 : F × F) : F := (p1.1 - p0.1) * (p2.2 - p0.2) - (p1.2 - p0.2) * (p2.1 - p0.1)

section
variable {F : Type*} [Field F] [LinearOrder F] [IsStrictOrderedRing F]

/-- C61: the vertices of every cell are put in anticlockwise order, starting from the same vertex; a cell is rejected
exactly if its vertices are collinear. -/
theorem c61_orientation (pt : Nat → F × F) (c : Cell) :
    (∀ d, fixCell pt c = some d → 0 < cross (pt (d 0)) (pt (d 1)) (pt (d 2)) ∧ d 0 = c 0 ∧
      (d 1 = c 1 ∧ d 2 = c 2 ∨ d 1 = c 2 ∧ d 2 = c 1)) ∧
    (fixCell pt c = none ↔ cross (pt (c 0)) (pt (c 1)) (pt (c 2)) = 0) := by
  have e : orientation (pt (c 0)) (pt (c 1)) (pt (c 2)) = -cross (pt (c 0)) (pt (c 1)) (pt (c 2)) := by
    simp only [orientation, cross]; ring
  have e' : cross (pt (c 0)) (pt (c 2)) (pt (c 1)) = -cross (pt (c 0)) (pt (c 1)) (pt (c 2)) := by
    simp only [cross]; ring
  simp only [fixCell, e]
  constructor
  · intro d hd
    split_ifs at hd with h1 h2
    · cases hd
      refine ⟨?_, by simp, Or.inr ⟨by simp, by simp⟩⟩
      simp only [Matrix.cons_val_zero, Matrix.cons_val_one, Matrix.cons_val]
      rw [e']; exact h1
    · cases hd
      exact ⟨by linarith, rfl, Or.inl ⟨rfl, rfl⟩⟩
  · split_ifs with h1 h2
    · simp only [reduceCtorEq, false_iff]; intro h; rw [h] at h1; simp at h1
    · simp only [reduceCtorEq, false_iff]; intro h; rw [h] at h2; simp at h2
    · simp only [true_iff]; apply le_antisymm <;> linarith

/-- The vertices of an accepted cell are pairwise different. -/
theorem fixCell_injective (pt : Nat → F × F) (c d : Cell) (h : fixCell pt c = some d) : Function.Injective d := by
  have hc := ((c61_orientation pt c).1 d h).1
  have h01 : d 0 ≠ d 1 := by intro e; simp [cross, e] at hc
  have h02 : d 0 ≠ d 2 := by intro e; simp [cross, e] at hc
  have h12 : d 1 ≠ d 2 := by intro e; rw [e] at hc; simp only [cross] at hc; ring_nf at hc; exact lt_irrefl _ hc
  intro a b hab
  fin_cases a <;> fin_cases b <;> simp_all [eq_comm]

end

/-! ## Element map -/

/-- Edge `m` of `c` and edge `n` of `d` have the same end points; `s`: they are traversed in opposite directions. -/
def SameEdge (c d : Cell) (m : Fin 3) (s : Bool) (n : Fin 3) : Prop :=
  edgeOf c m = if s then (edgeOf d n).swap else edgeOf d n

instance (c d m s n) : Decidable (SameEdge c d m s n) := by unfold SameEdge; infer_instance

theorem sameEdge_symm {c d m s n} : SameEdge c d m s n ↔ SameEdge d c n s m := by
  cases s <;> simp only [SameEdge, if_true, Bool.false_eq_true, if_false]
  · exact eq_comm
  · constructor <;> intro h <;> rw [h, Prod.swap_swap]

/-- A shared edge is found in one way only. -/
theorem sameEdge_unique {c d : Cell} (hd : Function.Injective d) {m s n s' n'} (h : SameEdge c d m s n)
    (h' : SameEdge c d m s' n') : s = s' ∧ n = n' := by
  have i01 : d 0 ≠ d 1 := fun e => absurd (hd e) (by decide)
  have i02 : d 0 ≠ d 2 := fun e => absurd (hd e) (by decide)
  have i12 : d 1 ≠ d 2 := fun e => absurd (hd e) (by decide)
  rw [SameEdge] at h h'
  rw [h] at h'
  revert h'
  fin_cases n <;> fin_cases n' <;> cases s <;> cases s' <;>
    simp [edgeOf, i01, i02, i12, i01.symm, i02.symm, i12.symm]

theorem tes_spec (c d : Cell) (m : Fin 3) (t : (Nat × Nat) × Bool × Fin 3) (ht : t ∈ tes d) (h : edgeOf c m = t.1) :
    SameEdge c d m t.2.1 t.2.2 := by
  rw [SameEdge, h]
  simp only [tes, List.mem_cons, List.not_mem_nil, or_false] at ht
  rcases ht with rfl | rfl | rfl | rfl | rfl | rfl <;> simp [edgeOf]

theorem mem_tes (c d : Cell) (m : Fin 3) (s : Bool) (n : Fin 3) (h : SameEdge c d m s n) :
    ∃ t ∈ tes d, edgeOf c m = t.1 := by
  refine ⟨(edgeOf c m, s, n), ?_, rfl⟩
  rw [h]
  fin_cases n <;> cases s <;> simp [tes, edgeOf]

theorem findEdge_spec (c d : Cell) {m s n} (h : SameEdge c d m s n) :
    SameEdge c d (findEdge c d).1 (findEdge c d).2.1 (findEdge c d).2.2 := by
  obtain ⟨t, ht, hm⟩ := mem_tes c d m s n h
  have hs : ((List.finRange 3).findSome? fun m => ((tes d).find? fun t => edgeOf c m = t.1).map fun t => (m, t.2)).isSome := by
    rw [List.isSome_findSome?, List.any_eq_true]
    refine ⟨m, List.mem_finRange m, ?_⟩
    rw [Option.isSome_map, List.find?_isSome]
    exact ⟨t, ht, by simpa using hm⟩
  obtain ⟨r, hr⟩ := Option.isSome_iff_exists.1 hs
  have e : findEdge c d = r := by rw [findEdge]; simp only [hr, Option.getD_some]
  obtain ⟨m', -, hm'⟩ := List.exists_of_findSome?_eq_some hr
  obtain ⟨t', ht', rfl⟩ := Option.map_eq_some_iff.1 hm'
  rw [e]
  exact tes_spec c d m' t' (List.mem_of_find?_eq_some ht') (by simpa using List.find?_some ht')

theorem shared_eq (c d : Cell) : shared c d = (if c 0 ∈ [d 0, d 1, d 2] then 1 else 0)
    + (if c 1 ∈ [d 0, d 1, d 2] then 1 else 0) + (if c 2 ∈ [d 0, d 1, d 2] then 1 else 0) := by
  simp only [shared, List.filter_cons, List.filter_nil, decide_eq_true_eq]
  split_ifs <;> rfl

theorem mem_of_sameEdge {c d : Cell} {m s n} (h : SameEdge c d m s n) :
    (edgeOf c m).1 ∈ [d 0, d 1, d 2] ∧ (edgeOf c m).2 ∈ [d 0, d 1, d 2] := by
  rw [h]
  fin_cases n <;> cases s <;> simp [edgeOf]

theorem two_le_shared {c d : Cell} {m s n} (h : SameEdge c d m s n) : 2 ≤ shared c d := by
  have := mem_of_sameEdge h
  rw [shared_eq]
  fin_cases m <;> simp only [edgeOf, Fin.zero_eta, Fin.mk_one, Fin.reduceFinMk, Matrix.cons_val_zero, Matrix.cons_val_one,
    Matrix.cons_val] at this <;> simp only [this.1, this.2, if_true] <;> omega

theorem three_of_two_edges {c d : Cell} {m s n m' s' n'} (h : SameEdge c d m s n) (h' : SameEdge c d m' s' n')
    (hm : m ≠ m') : shared c d = 3 := by
  have a := mem_of_sameEdge h
  have b := mem_of_sameEdge h'
  rw [shared_eq]
  fin_cases m <;> fin_cases m' <;> first | exact absurd rfl hm | skip
  all_goals
    simp only [edgeOf, Fin.zero_eta, Fin.mk_one, Fin.reduceFinMk, Matrix.cons_val_zero, Matrix.cons_val_one,
      Matrix.cons_val] at a b
    simp only [a.1, a.2, b.1, b.2, if_true]

theorem pair_edge {d : Cell} {x y : Nat} (hx : x ∈ [d 0, d 1, d 2]) (hy : y ∈ [d 0, d 1, d 2]) (hxy : x ≠ y) :
    ∃ (s : Bool) (n : Fin 3), (x, y) = if s then (edgeOf d n).swap else edgeOf d n := by
  simp only [List.mem_cons, List.not_mem_nil, or_false] at hx hy
  rcases hx with rfl | rfl | rfl <;> rcases hy with rfl | rfl | rfl <;> first | exact absurd rfl hxy | skip
  · exact ⟨false, 0, by simp [edgeOf]⟩
  · exact ⟨false, 1, by simp [edgeOf]⟩
  · exact ⟨true, 0, by simp [edgeOf]⟩
  · exact ⟨true, 2, by simp [edgeOf]⟩
  · exact ⟨true, 1, by simp [edgeOf]⟩
  · exact ⟨false, 2, by simp [edgeOf]⟩

theorem exists_sameEdge {c d : Cell} (hc : Function.Injective c) (h : shared c d = 2) : ∃ m s n, SameEdge c d m s n := by
  have i01 : c 0 ≠ c 1 := fun e => absurd (hc e) (by decide)
  have i02 : c 0 ≠ c 2 := fun e => absurd (hc e) (by decide)
  have i12 : c 1 ≠ c 2 := fun e => absurd (hc e) (by decide)
  rw [shared_eq] at h
  by_cases a0 : c 0 ∈ [d 0, d 1, d 2]
  · by_cases a1 : c 1 ∈ [d 0, d 1, d 2]
    · exact ⟨0, pair_edge a0 a1 i01⟩
    · by_cases a2 : c 2 ∈ [d 0, d 1, d 2]
      · exact ⟨1, pair_edge a0 a2 i02⟩
      · simp only [a0, a1, a2, if_true, if_false] at h; omega
  · by_cases a1 : c 1 ∈ [d 0, d 1, d 2]
    · by_cases a2 : c 2 ∈ [d 0, d 1, d 2]
      · exact ⟨2, pair_edge a2 a1 i12.symm⟩
      · simp only [a0, a1, a2, if_true, if_false] at h; omega
    · simp only [a0, a1, if_false] at h; split_ifs at h <;> omega

/-- A mesh: every cell has three different vertices, no two cells have the same three vertices, and no edge belongs to
three cells. -/
structure Triangulation (cell : Nat → Cell) (n : Nat) : Prop where
  inj : ∀ i < n, Function.Injective (cell i)
  two : ∀ i < n, ∀ j < n, i ≠ j → ∃ a, cell i a ∉ Set.range (cell j)
  edge : ∀ i < n, ∀ j < n, ∀ k < n, i ≠ j → i ≠ k → j ≠ k → ∀ m s e s' e',
    SameEdge (cell i) (cell j) m s e → ¬ SameEdge (cell i) (cell k) m s' e'

theorem Triangulation.shared {cell : Nat → Cell} {n : Nat} (h : Triangulation cell n) {i j : Nat} (hi : i < n) (hj : j < n)
    (hij : i ≠ j) : Tri.shared (cell i) (cell j) ≤ 2 := by
  obtain ⟨a, ha⟩ := h.two i hi j hj hij
  have : cell i a ∉ [cell j 0, cell j 1, cell j 2] := by
    intro hm
    simp only [List.mem_cons, List.not_mem_nil, or_false] at hm
    exact ha (by rcases hm with h | h | h <;> exact ⟨_, h.symm⟩)
  rw [shared_eq]
  fin_cases a <;> simp only [Fin.zero_eta, Fin.mk_one, Fin.reduceFinMk] at this <;> simp only [this, if_false] <;> split_ifs <;> omega

/-- What the map says after the pairs `P` have been compared. -/
def MapOf (cell : Nat → Cell) (P : Nat → Nat → Prop) (em : EMap) : Prop :=
  ∀ i m r, em i m = some r ↔ (P i r.other ∨ P r.other i) ∧ SameEdge (cell i) (cell r.other) m r.minus r.edge

theorem link_apply (em : EMap) (i j : Nat) (hij : i ≠ j) (r : Fin 3 × Bool × Fin 3) (a : Nat) (b : Fin 3) :
    link em i j r a b = if a = j ∧ b = r.2.2 then some ⟨i, r.2.1, r.1⟩
      else if a = i ∧ b = r.1 then some ⟨j, r.2.1, r.2.2⟩ else em a b := by
  simp only [link, Function.update_apply]
  by_cases ha : a = j
  · subst ha
    simp only [if_true, true_and, Ne.symm hij, if_false, false_and]
    by_cases hb : b = r.2.2
    · simp [hb]
    · simp [hb]
  · simp only [ha, if_false, false_and, Function.update_apply]
    by_cases hi : a = i
    · subst hi; simp [Function.update_apply]
    · simp [hi]

theorem mapOf_link {cell : Nat → Cell} {n : Nat} (h : Triangulation cell n) {P : Nat → Nat → Prop} {em : EMap}
    (hP : ∀ a b, P a b → a < b ∧ b < n) (hm : MapOf cell P em) {i j : Nat} (hij : i < j) (hj : j < n)
    (h2 : shared (cell i) (cell j) = 2) :
    MapOf cell (fun a b => P a b ∨ a = i ∧ b = j) (link em i j (findEdge (cell i) (cell j))) := by
  have hi : i < n := by omega
  obtain ⟨m0, s0, n0, h0⟩ := exists_sameEdge (h.inj i hi) h2
  have hf := findEdge_spec _ _ h0
  set r := findEdge (cell i) (cell j) with hr
  have uniq : ∀ m s e, SameEdge (cell i) (cell j) m s e → m = r.1 ∧ s = r.2.1 ∧ e = r.2.2 := by
    intro m s e hs
    have : m = r.1 := by
      by_contra hne
      have := three_of_two_edges hs hf hne
      omega
    subst this
    exact ⟨rfl, sameEdge_unique (h.inj j hj) hs hf⟩
  intro a b q
  rw [link_apply _ _ _ (by omega)]
  split_ifs with c1 c2
  · obtain ⟨rfl, rfl⟩ := c1
    constructor
    · intro e
      cases e
      exact ⟨Or.inr (Or.inr ⟨rfl, rfl⟩), sameEdge_symm.1 hf⟩
    · rintro ⟨hp, hs⟩
      obtain ⟨o, mi, ed⟩ := q
      have ho : o = i := by
        by_contra hne
        have hon : o < n ∧ o ≠ a := by
          rcases hp with (hp | hp) | (hp | hp)
          · have := hP _ _ hp; simp only at this; omega
          · simp only at hp; omega
          · have := hP _ _ hp; simp only at this; omega
          · simp only at hp; omega
        exact h.edge a hj i hi o hon.1 (by omega) (Ne.symm hon.2) (Ne.symm hne) _ _ _ _ _ (sameEdge_symm.1 hf) hs
      subst ho
      have := uniq _ _ _ (sameEdge_symm.1 hs)
      simp only at this
      rw [this.1, this.2.1]
  · obtain ⟨rfl, rfl⟩ := c2
    constructor
    · intro e
      cases e
      exact ⟨Or.inl (Or.inr ⟨rfl, rfl⟩), hf⟩
    · rintro ⟨hp, hs⟩
      obtain ⟨o, mi, ed⟩ := q
      have ho : o = j := by
        by_contra hne
        have hon : o < n ∧ o ≠ a := by
          rcases hp with (hp | hp) | (hp | hp)
          · have := hP _ _ hp; simp only at this; omega
          · simp only at hp; omega
          · have := hP _ _ hp; simp only at this; omega
          · simp only at hp; omega
        exact h.edge a hi j hj o hon.1 (by omega) (Ne.symm hon.2) (Ne.symm hne) _ _ _ _ _ hf hs
      subst ho
      have := uniq _ _ _ hs
      simp only at this
      rw [this.2.1, this.2.2]
  · rw [hm a b q]
    constructor
    · rintro ⟨hp | hp, hs⟩
      · exact ⟨Or.inl (Or.inl hp), hs⟩
      · exact ⟨Or.inr (Or.inl hp), hs⟩
    · rintro ⟨(hp | ⟨ha, hb⟩) | (hp | ⟨ha, hb⟩), hs⟩
      · exact ⟨Or.inl hp, hs⟩
      · rw [ha, hb] at hs
        exact absurd ⟨ha, (uniq _ _ _ hs).1⟩ c2
      · exact ⟨Or.inr hp, hs⟩
      · rw [ha, hb] at hs
        exact absurd ⟨hb, (uniq _ _ _ (sameEdge_symm.1 hs)).2.2⟩ c1

theorem mapOf_skip {cell : Nat → Cell} {P : Nat → Nat → Prop} {em : EMap} (hm : MapOf cell P em) {i j : Nat}
    (h1 : shared (cell i) (cell j) ≤ 1) : MapOf cell (fun a b => P a b ∨ a = i ∧ b = j) em := by
  intro a b q
  rw [hm a b q]
  constructor
  · rintro ⟨hp | hp, hs⟩
    · exact ⟨Or.inl (Or.inl hp), hs⟩
    · exact ⟨Or.inr (Or.inl hp), hs⟩
  · rintro ⟨(hp | ⟨ha, hb⟩) | (hp | ⟨ha, hb⟩), hs⟩
    · exact ⟨Or.inl hp, hs⟩
    · rw [ha, hb] at hs
      have := two_le_shared hs; omega
    · exact ⟨Or.inr hp, hs⟩
    · rw [ha, hb] at hs
      have := two_le_shared (sameEdge_symm.1 hs); omega

theorem mapOf_congr {cell : Nat → Cell} {P Q : Nat → Nat → Prop} {em : EMap} (hm : MapOf cell P em)
    (h : ∀ a b, P a b ↔ Q a b) : MapOf cell Q em := by
  intro a b q
  rw [hm a b q, h, h]

theorem mapLoop_spec {cell : Nat → Cell} {n : Nat} (h : Triangulation cell n) {i : Nat} :
    ∀ (js : List Nat) (P : Nat → Nat → Prop) (em : EMap), (∀ a b, P a b → a < b ∧ b < n) → MapOf cell P em →
      (∀ j ∈ js, i < j ∧ j < n) →
      ∃ em', mapLoop cell i js em = some em' ∧ MapOf cell (fun a b => P a b ∨ a = i ∧ b ∈ js) em' := by
  intro js
  induction js with
  | nil => intro P em _ hm _; exact ⟨em, rfl, mapOf_congr hm (by simp)⟩
  | cons j js ih =>
    intro P em hP hm hjs
    obtain ⟨hij, hj⟩ := hjs j (by simp)
    have hP' : ∀ a b, P a b ∨ a = i ∧ b = j → a < b ∧ b < n := by
      rintro a b (h | ⟨rfl, rfl⟩)
      · exact hP a b h
      · exact ⟨hij, hj⟩
    have key : ∀ em1, MapOf cell (fun a b => P a b ∨ a = i ∧ b = j) em1 → ∃ em', mapLoop cell i js em1 = some em' ∧
        MapOf cell (fun a b => P a b ∨ a = i ∧ b ∈ j :: js) em' := by
      intro em1 h1
      obtain ⟨em', e1, e2⟩ := ih _ em1 hP' h1 (fun k hk => hjs k (by simp [hk]))
      refine ⟨em', e1, mapOf_congr e2 ?_⟩
      intro a b
      simp only [List.mem_cons]
      tauto
    have := h.shared (by omega : i < n) hj (by omega)
    rw [mapLoop]
    split_ifs with c1 c2
    · exact key _ (mapOf_link h hP hm hij hj c1)
    · exact key _ (mapOf_skip hm c2)
    · omega
    · omega

theorem mapLoops_spec {cell : Nat → Cell} {n : Nat} (h : Triangulation cell n) :
    ∀ (is : List Nat) (P : Nat → Nat → Prop) (em : EMap), (∀ a b, P a b → a < b ∧ b < n) → MapOf cell P em →
      ∃ em', mapLoops cell n is em = some em' ∧ MapOf cell (fun a b => P a b ∨ a ∈ is ∧ a < b ∧ b < n) em' := by
  intro is
  induction is with
  | nil => intro P em _ hm; exact ⟨em, rfl, mapOf_congr hm (by simp)⟩
  | cons i is ih =>
    intro P em hP hm
    have hmem : ∀ b, b ∈ (List.range n).drop (i + 1) ↔ i < b ∧ b < n := by
      intro b
      rw [List.mem_drop_iff_getElem]
      constructor
      · rintro ⟨k, hk, rfl⟩
        simp only [List.length_range, List.getElem_range] at hk ⊢
        omega
      · rintro ⟨h1, h2⟩
        exact ⟨b - (i + 1), by simp; omega, by simp; omega⟩
    obtain ⟨em1, e1, e2⟩ := mapLoop_spec h ((List.range n).drop (i + 1)) P em hP hm (fun j hj => (hmem j).1 hj)
    obtain ⟨em', e3, e4⟩ := ih _ em1 (by
      rintro a b (hp | ⟨rfl, hb⟩)
      · exact hP a b hp
      · exact (hmem b).1 hb) e2
    refine ⟨em', by rw [mapLoops, e1]; exact e3, mapOf_congr e4 ?_⟩
    intro a b
    simp only [List.mem_cons, hmem]
    constructor
    · rintro ((hp | ⟨rfl, hb⟩) | ⟨ha, hb⟩)
      · exact Or.inl hp
      · exact Or.inr ⟨Or.inl rfl, hb⟩
      · exact Or.inr ⟨Or.inr ha, hb⟩
    · rintro (hp | ⟨rfl | ha, hb⟩)
      · exact Or.inl (Or.inl hp)
      · exact Or.inl (Or.inr ⟨rfl, hb⟩)
      · exact Or.inr ⟨ha, hb⟩

/-- C61: in the element map, edge `m` of cell `i` is marked with cell `j`, sign `s` and edge `e` exactly if `j` is another
cell, its edge `e` has the same two vertices, and the sign says whether the edges run in opposite directions.  In
particular the map is symmetric and exactly the edges of one cell only are left for the boundaries. -/
theorem c61_element_map (cell : Nat → Cell) (n : Nat) (h : Triangulation cell n) :
    ∃ em, elementMap cell n = some em ∧
      (∀ i < n, ∀ m r, em i m = some r ↔
        r.other < n ∧ r.other ≠ i ∧ SameEdge (cell i) (cell r.other) m r.minus r.edge) ∧
      (∀ i < n, ∀ m j s e, em i m = some ⟨j, s, e⟩ → em j e = some ⟨i, s, m⟩) ∧
      (∀ i < n, ∀ m, em i m = none ↔ ∀ j < n, j ≠ i → ∀ s e, ¬ SameEdge (cell i) (cell j) m s e) := by
  obtain ⟨em, e1, e2⟩ := mapLoops_spec h (List.range n) (fun _ _ => False) (fun _ _ => none) (by simp)
    (by intro i m r; simp)
  have main : ∀ i < n, ∀ m r, em i m = some r ↔
      r.other < n ∧ r.other ≠ i ∧ SameEdge (cell i) (cell r.other) m r.minus r.edge := by
    intro i hi m r
    rw [e2 i m r]
    simp only [false_or, List.mem_range]
    constructor
    · rintro ⟨hp, hs⟩
      exact ⟨by omega, by omega, hs⟩
    · rintro ⟨h1, h2, hs⟩
      exact ⟨by omega, hs⟩
  refine ⟨em, e1, main, ?_, ?_⟩
  · intro i hi m j s e he
    obtain ⟨h1, h2, h3⟩ := (main i hi m _).1 he
    exact (main j h1 e _).2 ⟨hi, Ne.symm h2, sameEdge_symm.1 h3⟩
  · intro i hi m
    rw [Option.eq_none_iff_forall_ne_some]
    constructor
    · intro hn j hj hne s e hs
      exact hn ⟨j, s, e⟩ ((main i hi m _).2 ⟨hj, hne, hs⟩)
    · intro hn r hr
      obtain ⟨h1, h2, h3⟩ := (main i hi m r).1 hr
      exact hn _ h1 h2 _ _ h3

/-- The whole construction: cells as read from a file (any orientation, no two with the same vertices, no edge in three
cells), then the element map of the reoriented cells. -/
theorem c61_construct {F : Type*} [Field F] [LinearOrder F] [IsStrictOrderedRing F] (pt : Nat → F × F)
    (cell fixed : Nat → Cell) (n : Nat) (hfix : ∀ i < n, fixCell pt (cell i) = some (fixed i))
    (htwo : ∀ i < n, ∀ j < n, i ≠ j → ∃ a, cell i a ∉ Set.range (cell j))
    (hedge : ∀ i < n, ∀ j < n, ∀ k < n, i ≠ j → i ≠ k → j ≠ k → ∀ a b, a ≠ b →
      cell i a ∈ Set.range (cell j) → cell i b ∈ Set.range (cell j) →
      ¬ (cell i a ∈ Set.range (cell k) ∧ cell i b ∈ Set.range (cell k))) :
    Triangulation fixed n := by
  have perm : ∀ i < n, ∃ σ : Fin 3 → Fin 3, Function.Bijective σ ∧ ∀ a, fixed i a = cell i (σ a) := by
    intro i hi
    obtain ⟨-, h0, h | h⟩ := (c61_orientation pt (cell i)).1 _ (hfix i hi)
    · refine ⟨id, Function.bijective_id, fun a => ?_⟩
      fin_cases a <;> simp [h0, h]
    · refine ⟨![0, 2, 1], by decide, fun a => ?_⟩
      fin_cases a <;> simp [h0, h]
  have rng : ∀ i < n, Set.range (fixed i) = Set.range (cell i) := by
    intro i hi
    obtain ⟨σ, hσ, e⟩ := perm i hi
    rw [show fixed i = cell i ∘ σ from funext e, hσ.2.range_comp]
  refine ⟨fun i hi => fixCell_injective pt _ _ (hfix i hi), fun i hi j hj hij => ?_, ?_⟩
  · obtain ⟨a, ha⟩ := htwo i hi j hj hij
    obtain ⟨σ, hσ, e⟩ := perm i hi
    obtain ⟨b, rfl⟩ := hσ.2 a
    exact ⟨b, by rw [rng j hj, e]; exact ha⟩
  · intro i hi j hj k hk hij hik hjk m s e s' e' h1 h2
    obtain ⟨σ, hσ, es⟩ := perm i hi
    have mem : ∀ j < n, ∀ s e, SameEdge (fixed i) (fixed j) m s e →
        ∀ x, x = (edgeOf (fixed i) m).1 ∨ x = (edgeOf (fixed i) m).2 → x ∈ Set.range (cell j) := by
      intro j hj s e h x hx
      rw [← rng j hj]
      have := mem_of_sameEdge h
      simp only [List.mem_cons, List.not_mem_nil, or_false] at this
      rcases hx with rfl | rfl
      · rcases this.1 with h | h | h <;> exact ⟨_, h.symm⟩
      · rcases this.2 with h | h | h <;> exact ⟨_, h.symm⟩
    have ends : ∃ a b, a ≠ b ∧ (edgeOf (fixed i) m).1 = fixed i a ∧ (edgeOf (fixed i) m).2 = fixed i b := by
      fin_cases m
      · exact ⟨0, 1, by decide, by simp [edgeOf], by simp [edgeOf]⟩
      · exact ⟨0, 2, by decide, by simp [edgeOf], by simp [edgeOf]⟩
      · exact ⟨2, 1, by decide, by simp [edgeOf], by simp [edgeOf]⟩
    obtain ⟨a, b, hab, ea, eb⟩ := ends
    refine hedge i hi j hj k hk hij hik hjk (σ a) (σ b) (fun h => hab (hσ.1 h)) ?_ ?_ ⟨?_, ?_⟩
    · exact mem j hj _ _ h1 _ (Or.inl (by rw [ea, es]))
    · exact mem j hj _ _ h1 _ (Or.inr (by rw [eb, es]))
    · exact mem k hk _ _ h2 _ (Or.inl (by rw [ea, es]))
    · exact mem k hk _ _ h2 _ (Or.inr (by rw [eb, es]))

/-- The hypotheses are met by a square cut in four triangles around its centre (point 4), two of them clockwise in the
file. -/
def squareCells : Nat → Cell := fun i =>
  if i = 0 then ![0, 1, 4] else if i = 1 then ![4, 2, 1] else if i = 2 then ![2, 3, 4] else ![0, 3, 4]

/-- Its points. -/
def squarePoints : Nat → ℚ × ℚ := fun i =>
  if i = 0 then (0, 0) else if i = 1 then (1, 0) else if i = 2 then (1, 1) else if i = 3 then (0, 1) else (1 / 2, 1 / 2)

/-- The cells after reorientation. -/
def squareFixed : Nat → Cell := fun i =>
  if i = 0 then ![0, 1, 4] else if i = 1 then ![4, 1, 2] else if i = 2 then ![2, 3, 4] else ![0, 4, 3]

theorem square_triangulation : Triangulation squareFixed 4 :=
  c61_construct squarePoints squareCells squareFixed 4 (by decide +kernel)
    (by simp only [Set.mem_range]; decide) (by
      have : ∀ i j k : Fin 4, i ≠ j ∧ i ≠ k ∧ j ≠ k → ∀ a b : Fin 3, a ≠ b →
          ¬ ((∃ y, squareCells j y = squareCells i a) ∧ (∃ y, squareCells j y = squareCells i b) ∧
            (∃ y, squareCells k y = squareCells i a) ∧ ∃ y, squareCells k y = squareCells i b) := by decide
      intro i hi j hj k hk h1 h2 h3 a b hab h4 h5 h6
      exact this ⟨i, hi⟩ ⟨j, hj⟩ ⟨k, hk⟩ ⟨by simpa using h1, by simpa using h2, by simpa using h3⟩ a b hab ⟨h4, h5, h6⟩)

example : (elementMap squareFixed 4).map (fun em => [em 0 0, em 0 1, em 0 2, em 1 0, em 1 1, em 1 2]) =
    some [none, some ⟨3, false, 0⟩, some ⟨1, false, 0⟩, some ⟨0, false, 2⟩, some ⟨2, true, 1⟩, none] := by decide

end Mifem.Props
