import Verif.Lemmas.NaiveSpec
import Verif.Lemmas.Mesh

/-!
# The places of the forms
-/

namespace Mifem.Naive
open Mifem.Mesh

/-- `α` is a place of the array of a component. -/
def PlaceOf (p : List Nat) (nodal : List Bool) (α : List Nat) : Prop :=
  α.length = p.length ∧ ∀ d, d < p.length → if nodal.getD d false then α.getD d 0 ≤ p.getD d 0 else α.getD d 0 < p.getD d 0

theorem shape_length (p : List Nat) (c : List Bool) (hc : c.length = p.length) : (shape p c).length = p.length := by
  simp [shape, hc]

theorem shape_getD (p : List Nat) (c : List Bool) (hc : c.length = p.length) (d : Nat) (hd : d < p.length) :
    (shape p c).getD d 0 = if c.getD d false then p.getD d 0 + 1 else p.getD d 0 := by
  have hd' : d < c.length := by omega
  rw [List.getD_eq_getElem?_getD, List.getD_eq_getElem?_getD, List.getD_eq_getElem?_getD]
  simp [shape, List.getElem?_zipWith, List.getElem?_eq_getElem hd, List.getElem?_eq_getElem hd']

theorem placeOf_iff (p : List Nat) (c : List Bool) (hc : c.length = p.length) (α : List Nat) : InBox (shape p c) α ↔ PlaceOf p c α := by
  unfold InBox PlaceOf
  rw [shape_length p c hc]
  constructor
  · rintro ⟨h1, h2⟩
    refine ⟨h1, fun d hd => ?_⟩
    have := h2 d hd
    rw [shape_getD p c hc d hd] at this
    split <;> rename_i hn
    · rw [if_pos hn] at this; omega
    · rw [if_neg hn] at this; omega
  · rintro ⟨h1, h2⟩
    refine ⟨h1, fun d hd => ?_⟩
    have := h2 d hd
    rw [shape_getD p c hc d hd]
    split <;> rename_i hn
    · rw [if_pos hn] at this; omega
    · rw [if_neg hn] at this; omega

/-- all components have one flag for every direction. -/
def Comps (p : List Nat) (comps : List (List Bool)) : Prop := ∀ c ∈ comps, c.length = p.length

/-- a place of the form: component and indices. -/
def IsPlace (p : List Nat) (comps : List (List Bool)) (x : Nat × List Nat) : Prop :=
  ∃ c, comps[x.1]? = some c ∧ PlaceOf p c x.2

theorem mem_places (order : List Nat → List (List Nat)) (horder : ∀ sh i, i ∈ order sh ↔ InBox sh i) (p : List Nat) (comps : List (List Bool))
    (hc : Comps p comps) (x : Nat × List Nat) : x ∈ places order p comps ↔ IsPlace p comps x := by
  unfold places IsPlace
  simp only [List.mem_flatMap, List.mem_map, horder]
  constructor
  · rintro ⟨⟨c, k⟩, hck, α, hα, rfl⟩
    have hk := List.mem_zipIdx_iff_getElem?.1 hck
    simp only at hk
    exact ⟨c, hk, (placeOf_iff p c (hc c (List.mem_of_getElem? hk)) α).1 hα⟩
  · rintro ⟨c, hk, hα⟩
    exact ⟨(c, x.1), List.mem_zipIdx_iff_getElem?.2 hk, x.2, (placeOf_iff p c (hc c (List.mem_of_getElem? hk)) x.2).2 hα, rfl⟩

/-- is component `k` nodal in direction `d`? -/
def nodalIn (comps : List (List Bool)) (k d : Nat) : Bool := (comps.getD k []).getD d false

theorem mem_sides (p : List Nat) (comps : List (List Bool)) (hc : Comps p comps) (j : Nat) (x y : Nat × List Nat) :
    (x, y) ∈ (formLayout p comps).sides j ↔ IsPlace p comps x ∧ nodalIn comps x.1 (j / 2) = true ∧
      x.2.getD (j / 2) 0 = (if j % 2 = 0 then 0 else p.getD (j / 2) 0) ∧
      y = (x.1, x.2.set (j / 2) (if j % 2 = 0 then p.getD (j / 2) 0 else 0)) := by
  unfold formLayout sidePairs nodalIn
  simp only [List.mem_map, List.mem_filter, Prod.mk.injEq, Bool.and_eq_true, beq_iff_eq]
  constructor
  · rintro ⟨q, ⟨z, ⟨h1, h2, h3⟩, rfl⟩, h4, h5⟩
    simp only at h4 h5
    subst h4
    exact ⟨(mem_places cOrder mem_cOrder p comps hc _).1 h1, h2, h3, h5.symm⟩
  · rintro ⟨h1, h2, h3, h4⟩
    exact ⟨_, ⟨x, ⟨(mem_places cOrder mem_cOrder p comps hc x).2 h1, h2, h3⟩, rfl⟩, rfl, h4.symm⟩

theorem places_nodup (order : List Nat → List (List Nat)) (horder : ∀ sh, (order sh).Nodup) (p : List Nat) (comps : List (List Bool)) :
    (places order p comps).Nodup := by
  unfold places
  rw [List.nodup_flatMap]
  constructor
  · intro x _
    apply List.Nodup.map
    · intro a b h
      simpa using h
    · exact horder _
  · have : (comps.zipIdx.map Prod.snd).Nodup := by
      have : comps.zipIdx.map Prod.snd = List.range' 0 comps.length := List.zipIdx_map_snd 0 comps
      rw [this]
      exact List.nodup_range'
    rw [List.Nodup, List.pairwise_map] at this
    refine this.imp ?_
    intro a b hab
    rw [Function.onFun]
    intro z hz1 hz2
    obtain ⟨_, _, rfl⟩ := List.mem_map.1 hz1
    obtain ⟨_, _, h⟩ := List.mem_map.1 hz2
    simp only [Prod.mk.injEq] at h
    exact hab h.1.symm

theorem flatMap_perm_congr {α β : Type} (l : List α) (f g : α → List β) (h : ∀ a ∈ l, (f a).Perm (g a)) : (l.flatMap f).Perm (l.flatMap g) := by
  induction l with
  | nil => exact List.Perm.refl _
  | cons a l ih =>
    rw [List.flatMap_cons, List.flatMap_cons]
    exact (h a List.mem_cons_self).append (ih fun b hb => h b (List.mem_cons_of_mem _ hb))

theorem isPlace_set (p : List Nat) (comps : List (List Bool)) (x : Nat × List Nat) (d v : Nat) (h : IsPlace p comps x) (hn : nodalIn comps x.1 d = true)
    (hv : v ≤ p.getD d 0) : IsPlace p comps (x.1, x.2.set d v) := by
  obtain ⟨c, h1, h2, h3⟩ := h
  have hnod : nodalIn comps x.1 d = c.getD d false := by
    unfold nodalIn
    rw [List.getD_eq_getElem?_getD (l := comps), h1]
    rfl
  refine ⟨c, h1, by simpa using h2, ?_⟩
  intro t ht
  simp only
  rw [getD_set' x.2 d v t]
  by_cases htd : t = d ∧ d < x.2.length
  · rw [if_pos htd, htd.1, ← hnod, if_pos hn]
    exact hv
  · rw [if_neg htd]
    exact h3 t ht
where
  getD_set' (i : List Nat) (d x t : Nat) : (i.set d x).getD t 0 = if t = d ∧ d < i.length then x else i.getD t 0 := by
    by_cases hd : d < i.length
    · rw [getD_set i d x t hd]
      by_cases h : t = d
      · rw [if_pos h, if_pos ⟨h, hd⟩]
      · rw [if_neg h, if_neg (fun h' => h h'.1)]
    · rw [List.set_eq_of_length_le (by omega), if_neg (fun h' => hd h'.2)]

theorem good_formLayout (p : List Nat) (comps : List (List Bool)) (hc : Comps p comps) : Good (formLayout p comps) where
  nodup := places_nodup cOrder cOrder_nodup p comps
  perm := by
    apply flatMap_perm_congr
    intro a _
    exact (fOrder_perm _).map _
  sides := by
    rintro j ⟨x, y⟩ hq
    obtain ⟨h1, h2, _, h4⟩ := (mem_sides p comps hc j x y).1 hq
    refine ⟨(mem_places cOrder mem_cOrder p comps hc x).2 h1, (mem_places cOrder mem_cOrder p comps hc y).2 ?_⟩
    rw [h4]
    apply isPlace_set p comps x _ _ h1 h2
    split <;> omega

theorem mem_slots (p : List Nat) (comps : List (List Bool)) (hc : Comps p comps) (x : Nat × List Nat) :
    x ∈ (formLayout p comps).slots ↔ IsPlace p comps x := mem_places cOrder mem_cOrder p comps hc x

/-- when a number is passed. -/
theorem mem_links_form (p : List Nat) (comps : List (List Bool)) (hc : Comps p comps) (emap : Nat → List (Option Nat)) (k : Nat) (a : Nat × List Nat) (x : Nat × (Nat × List Nat)) :
    x ∈ links (formLayout p comps) emap k k a ↔ x.1 < k ∧ ∃ j : Nat, (emap x.1)[j]? = some (some k) ∧ IsPlace p comps x.2 ∧ nodalIn comps x.2.1 (j / 2) = true ∧
      x.2.2.getD (j / 2) 0 = (if j % 2 = 0 then 0 else p.getD (j / 2) 0) ∧
      a = (x.2.1, x.2.2.set (j / 2) (if j % 2 = 0 then p.getD (j / 2) 0 else 0)) := by
  rw [mem_links]
  simp only [mem_sides p comps hc]

end Mifem.Naive
