import Verif.Props.SharedDofs
import Verif.Props.Nodal
import Verif.Model.GatheringVector

/-! # C68: the values found by the elements are the values of one global vector -/

namespace Mifem.Props
open Mifem.Disc Mifem.Naive Mifem.Mesh

/-- The place with number `n` in F order. -/
theorem fOrder_idx (sh : List Nat) (n : Nat) (α : List Nat) (h : (fOrder sh)[n]? = some α) : n = fNum sh α ∧ n < sh.prod := by
  have h1 : ((fOrder sh).map (fNum sh))[n]? = some (fNum sh α) := by rw [List.getElem?_map, h]; rfl
  rw [map_fNum] at h1
  obtain ⟨hl, hv⟩ := List.getElem?_eq_some_iff.1 h1
  simp only [List.getElem_range] at hv
  exact ⟨hv, by simpa using hl⟩

theorem fOrder_length (sh : List Nat) : (fOrder sh).length = sh.prod := by
  have := congrArg List.length (map_fNum sh)
  simpa using this

/-- If copies of a dof have the same value, the values are the values of one global vector. -/
theorem glue_values {V : Type*} [Inhabited V] (p : List Nat) (comps : List (List Bool)) (hc : Comps p comps)
    (emap : Nat → List (Option Nat)) (hmap : ∀ k, (emap k).length = 2 * p.length) (n : Nat) (ranks : List (List Nat)) (hr : ranks.flatten = List.range n)
    (out : List (List (Nat × Arr (Nat × List Nat)))) (hout : naive (formLayout p comps) emap ranks = some out)
    (val : Nat → Nat × List Nat → V)
    (h : ∀ k a l j, IsPlace p comps a → (emap k)[j]? = some (some l) → onSide p comps j a = true → val k a = val l (across p j a)) :
    ∃ g : Nat → V, ∀ k a v, IsPlace p comps a → Gives out k a v → val k a = g v := by
  classical
  have key : ∀ x y, Glued p comps emap x y → (IsPlace p comps x.2 ↔ IsPlace p comps y.2) ∧ (IsPlace p comps x.2 → val x.1 x.2 = val y.1 y.2) := by
    intro x y hxy
    induction hxy with
    | refl x => exact ⟨Iff.rfl, fun _ => rfl⟩
    | symm _ ih => exact ⟨ih.1.symm, fun hy => (ih.2 (ih.1.2 hy)).symm⟩
    | trans _ _ ih1 ih2 => exact ⟨ih1.1.trans ih2.1, fun hx => (ih1.2 hx).trans (ih2.2 (ih1.1.1 hx))⟩
    | side k l a b hab =>
      obtain ⟨j, h1, h2, rfl⟩ := (copies_iff p comps emap k a l b).1 hab
      have hj : j / 2 < p.length := by
        have := (List.getElem?_eq_some_iff.1 h1).1
        rw [hmap] at this
        omega
      refine ⟨⟨fun ha => (across_spec p comps a ha j hj h2).1, fun hb => ?_⟩, fun ha => h k a l j ha h1 h2⟩
      obtain ⟨c, hc, hl, hb⟩ := hb
      refine ⟨c, hc, by simpa [across] using hl, fun d hd => ?_⟩
      have hh := hb d hd
      unfold across at hh
      rw [onSide_iff] at h2
      rw [getD_set _ _ _ _ (by simp [across] at hl; omega)] at hh
      by_cases e : d = j / 2
      · subst e
        rw [nodalIn_of comps a.1 _ c hc] at h2
        rw [if_pos h2.1, h2.2]
        split <;> omega
      · rw [if_neg e] at hh
        exact hh
  refine ⟨fun v => if hv : ∃ x : Nat × (Nat × List Nat), IsPlace p comps x.2 ∧ Gives out x.1 x.2 v then val hv.choose.1 hv.choose.2 else default,
    fun k a v ha hg => ?_⟩
  have hv : ∃ x : Nat × (Nat × List Nat), IsPlace p comps x.2 ∧ Gives out x.1 x.2 v := ⟨(k, a), ha, hg⟩
  dsimp only
  rw [dif_pos hv]
  exact (key _ _ (c04_any_mesh p comps hc emap n ranks hr out hout k hv.choose.1 a hv.choose.2 ha hv.choose_spec.1 v hg hv.choose_spec.2)).2 ha

/-- The same for lists of local values: `loc` is the number of a place in the element. -/
theorem glue_lists (p : List Nat) (comps : List (List Bool)) (hc : Comps p comps)
    (emap : Nat → List (Option Nat)) (hmap : ∀ k, (emap k).length = 2 * p.length) (n : Nat) (ranks : List (List Nat)) (hr : ranks.flatten = List.range n)
    (out : List (List (Nat × Arr (Nat × List Nat)))) (hout : naive (formLayout p comps) emap ranks = some out)
    (cochain : Nat → List ℝ) (hlen : ∀ k, (cochain k).length = (places fOrder p comps).length) (loc : Nat × List Nat → Nat)
    (hloc : ∀ i a, (places fOrder p comps)[i]? = some a → i = loc a)
    (h : ∀ k a l j, IsPlace p comps a → (emap k)[j]? = some (some l) → onSide p comps j a = true →
      (cochain k)[loc a]? = (cochain l)[loc (across p j a)]?) :
    ∃ g : Nat → ℝ, ∀ x ∈ out.flatten, ∀ i v : Nat, (gatheringVector p comps x.2)[i]? = some (some v) → (cochain x.1)[i]? = some (g v) := by
  obtain ⟨g, hg⟩ := glue_values p comps hc emap hmap n ranks hr out hout (fun k a => (cochain k)[loc a]?) h
  refine ⟨fun v => (g v).getD 0, fun x hx i v hv => ?_⟩
  rw [gatheringVector, List.getElem?_map, Option.map_eq_some_iff] at hv
  obtain ⟨a, ha, hav⟩ := hv
  have hpl : IsPlace p comps a := (mem_places fOrder (fun sh i => mem_fOrder sh i) p comps hc a).1 (List.mem_of_getElem? ha)
  have hi : i < (cochain x.1).length := by rw [hlen]; exact (List.getElem?_eq_some_iff.1 ha).1
  have := hg x.1 a v hpl ⟨x, hx, rfl, hav⟩
  rw [← hloc i a ha, List.getElem?_eq_getElem hi] at this
  dsimp only
  rw [List.getElem?_eq_getElem hi, ← this]
  rfl

/-! ## 2D -/

/-- The number of a place of a 0-form, of an inner and of an outer 1-form. -/
def loc2d0 (p0 p1 : Nat) (a : Nat × List Nat) : Nat := Two.ln0 p0 p1 (a.2.getD 0 0) (a.2.getD 1 0)
@[inherit_doc loc2d0] def loc2d1i (p0 p1 : Nat) (a : Nat × List Nat) : Nat :=
  if a.1 = 0 then Two.lnI1c0 p0 p1 (a.2.getD 0 0) (a.2.getD 1 0) else Two.lnI1c1 p0 p1 (a.2.getD 0 0) (a.2.getD 1 0)
@[inherit_doc loc2d0] def loc2d1o (p0 p1 : Nat) (a : Nat × List Nat) : Nat :=
  if a.1 = 0 then Two.lnO1c0 p0 p1 (a.2.getD 0 0) (a.2.getD 1 0) else Two.lnO1c1 p0 p1 (a.2.getD 0 0) (a.2.getD 1 0)

theorem len_of_fOrder {sh : List Nat} {n : Nat} {α : List Nat} (h : (fOrder sh)[n]? = some α) : α.length = sh.length :=
  ((mem_fOrder sh α).1 (List.mem_of_getElem? h)).1

theorem fNum2 (a b : Nat) (α : List Nat) (h : α.length = 2) : fNum [a, b] α = fIdx2 a (α.getD 0 0) (α.getD 1 0) := by
  match α, h with
  | [i, j], _ => simp [fNum, fIdx2]

theorem loc2d0_spec (p0 p1 i : Nat) (a : Nat × List Nat) (h : (places fOrder [p0, p1] comps2d0)[i]? = some a) : i = loc2d0 p0 p1 a := by
  simp only [places, comps2d0, List.zipIdx_cons, List.zipIdx_nil, List.flatMap_cons, List.flatMap_nil, List.append_nil, List.getElem?_map,
    Option.map_eq_some_iff] at h
  obtain ⟨α, hα, rfl⟩ := h
  rw [(fOrder_idx _ _ _ hα).1]
  exact fNum2 _ _ _ (len_of_fOrder hα)

theorem two_comps {sh sh' : List Nat} {i : Nat} {a : Nat × List Nat} (h : ((fOrder sh).map (fun α => (0, α)) ++ (fOrder sh').map fun α => (1, α))[i]? = some a) :
    (a.1 = 0 ∧ i = fNum sh a.2 ∧ a.2.length = sh.length) ∨ (a.1 = 1 ∧ i = sh.prod + fNum sh' a.2 ∧ a.2.length = sh'.length) := by
  by_cases hi : i < ((fOrder sh).map fun α => (0, α)).length
  · rw [List.getElem?_append_left hi, List.getElem?_map, Option.map_eq_some_iff] at h
    obtain ⟨α, hα, rfl⟩ := h
    exact Or.inl ⟨rfl, (fOrder_idx _ _ _ hα).1, len_of_fOrder hα⟩
  · rw [List.getElem?_append_right (by omega), List.getElem?_map, Option.map_eq_some_iff] at h
    obtain ⟨α, hα, rfl⟩ := h
    have := (fOrder_idx _ _ _ hα).1
    rw [List.length_map, fOrder_length] at this hi
    exact Or.inr ⟨rfl, by dsimp only; omega, len_of_fOrder hα⟩

theorem places_2d1i (p0 p1 : Nat) : places fOrder [p0, p1] comps2d1i =
    (fOrder [p0, p1 + 1]).map (fun α => (0, α)) ++ (fOrder [p0 + 1, p1]).map fun α => (1, α) := by
  simp [places, comps2d1i, shape]

theorem places_2d1o (p0 p1 : Nat) : places fOrder [p0, p1] comps2d1o =
    (fOrder [p0 + 1, p1]).map (fun α => (0, α)) ++ (fOrder [p0, p1 + 1]).map fun α => (1, α) := by
  simp [places, comps2d1o, shape]

theorem loc2d1i_spec (p0 p1 i : Nat) (a : Nat × List Nat) (h : (places fOrder [p0, p1] comps2d1i)[i]? = some a) : i = loc2d1i p0 p1 a := by
  rw [places_2d1i] at h
  rcases two_comps h with ⟨h1, h2, h3⟩ | ⟨h1, h2, h3⟩
  · rw [h2, fNum2 _ _ _ h3, loc2d1i, if_pos h1]; rfl
  · rw [h2, fNum2 _ _ _ h3, loc2d1i, if_neg (by omega)]
    simp [Two.lnI1c1, Two.nbI1c0, Nat.add_comm]

theorem loc2d1o_spec (p0 p1 i : Nat) (a : Nat × List Nat) (h : (places fOrder [p0, p1] comps2d1o)[i]? = some a) : i = loc2d1o p0 p1 a := by
  rw [places_2d1o] at h
  rcases two_comps h with ⟨h1, h2, h3⟩ | ⟨h1, h2, h3⟩
  · rw [h2, fNum2 _ _ _ h3, loc2d1o, if_pos h1]; rfl
  · rw [h2, fNum2 _ _ _ h3, loc2d1o, if_neg (by omega)]
    simp [Two.lnO1c1, Two.nbO1c0, Nat.add_comm]

/-- The side with a number, in the order of the element map. -/
def side2 : Nat → Two.Side
  | 0 => .U
  | 1 => .D
  | 2 => .L
  | _ => .R

/-- The mesh: neighbours in the element map share a curve (up to a translation under which `f` is invariant). -/
def Conforms2 {α : Type*} (f : (Fin 2 → ℝ) → α) (E : Nat → Disc.Two.El ℝ) (emap : Nat → List (Option Nat)) : Prop :=
  (∀ k, (emap k).length = 4) ∧ ∀ k j l, (emap k)[j]? = some (some l) → Meets2 f (E k) (side2 j) (E l) (side2 (opp j))

theorem parallel_side2 {j : Nat} (h : j < 4) : parallel2 (side2 j) (side2 (opp j)) = true := by
  have : j = 0 ∨ j = 1 ∨ j = 2 ∨ j = 3 := by omega
  rcases this with rfl | rfl | rfl | rfl <;> rfl

/-- A place of a form on a 2D element. -/
theorem place2 {p0 p1 : Nat} {comps : List (List Bool)} {a : Nat × List Nat} (h : IsPlace [p0, p1] comps a) :
    ∃ c i j, a = (c, [i, j]) ∧ ∃ b, comps[c]? = some b ∧ (if b.getD 0 false then i ≤ p0 else i < p0) ∧ (if b.getD 1 false then j ≤ p1 else j < p1) := by
  obtain ⟨b, hb, hl, hi⟩ := h
  obtain ⟨c, α⟩ := a
  match α, hl with
  | [i, j], _ =>
    exact ⟨c, i, j, rfl, b, hb, by simpa using hi 0 (by simp), by simpa using hi 1 (by simp)⟩

section
variable (p0 p1 : Nat) (x0 x1 : Nat → ℝ) (hx0 : NodesOK p0 x0) (hx1 : NodesOK p1 x1) (r0 r1 : Rule ℝ) (h0 : RuleOK r0) (h1 : RuleOK r1)
  (E : Nat → Disc.Two.El ℝ) (emap : Nat → List (Option Nat)) (n : Nat) (ranks : List (List Nat))
  (hr : ranks.flatten = List.range n) (out : List (List (Nat × Arr (Nat × List Nat))))
include hx0 hx1 hr

/-- C68 (2D, 0-forms): on every conforming mesh the local values are the values of one global vector. -/
theorem c68_2d_0_global (hout : naive (formLayout [p0, p1] comps2d0) emap ranks = some out) (f : (Fin 2 → ℝ) → ℝ) (hmesh : Conforms2 f E emap) :
    ∃ g : Nat → ℝ, ∀ x ∈ out.flatten, ∀ i v : Nat, (gatheringVector [p0, p1] comps2d0 x.2)[i]? = some (some v) →
      (Disc.Two.disc0 p0 p1 x0 x1 (E x.1) f)[i]? = some (g v) := by
  refine glue_lists [p0, p1] comps2d0 (by intro c hc; simp [comps2d0] at hc; simp [hc]) emap hmesh.1 n ranks hr out hout
    (fun k => Disc.Two.disc0 p0 p1 x0 x1 (E k) f) (fun k => ?_) (loc2d0 p0 p1) (loc2d0_spec p0 p1) ?_
  · simp [Disc.Two.disc0, places, comps2d0, shape, fOrder_length, Two.nb0]
  · intro k a l j ha hj hs
    have hj4 : j < 4 := by rw [← hmesh.1 k]; exact (List.getElem?_eq_some_iff.1 hj).1
    have key := (singleValued_iff (by simpa using (len2 (p0 := p0) (p1 := p1) (parallel_side2 hj4)).1)).1 (c68_2d_0 p0 p1 x0 x1 hx0 hx1 E f
      [⟨k, side2 j, l, side2 (opp j)⟩] (by simpa using ⟨parallel_side2 hj4, hmesh.2 k j l hj⟩)) _ (List.mem_singleton.2 rfl)
    obtain ⟨c, i, m, rfl, b, hb, hi, hm⟩ := place2 ha
    rw [onSide_iff] at hs
    have hc : c = 0 := by
      have := (List.getElem?_eq_some_iff.1 hb).1
      simp [comps2d0] at this; exact this
    subst hc
    simp [comps2d0] at hb
    subst hb
    simp at hi hm
    have : j = 0 ∨ j = 1 ∨ j = 2 ∨ j = 3 := by omega
    rcases this with rfl | rfl | rfl | rfl <;>
    · simp [nodalIn, comps2d0] at hs
      subst hs
      simp [side2, opp, Two.dofs0, List.map_inj_left] at key
      simp [across, loc2d0]
      exact key _ (by omega)

variable (hE : ∀ k, SmoothEl2 (E k))
include h0 h1 hE

/-- C68 (2D, inner 1-forms). -/
theorem c68_2d_inner_global (hout : naive (formLayout [p0, p1] comps2d1i) emap ranks = some out) (f : (Fin 2 → ℝ) → Fin 2 → ℝ) (hmesh : Conforms2 f E emap) :
    ∃ g : Nat → ℝ, ∀ x ∈ out.flatten, ∀ i v : Nat, (gatheringVector [p0, p1] comps2d1i x.2)[i]? = some (some v) →
      (Disc.Two.discInner p0 p1 x0 x1 r0 r1 (E x.1) f)[i]? = some (g v) := by
  refine glue_lists [p0, p1] comps2d1i (by intro c hc; simp [comps2d1i] at hc; rcases hc with rfl | rfl <;> rfl) emap hmesh.1 n ranks hr out hout
    (fun k => Disc.Two.discInner p0 p1 x0 x1 r0 r1 (E k) f) (fun k => ?_) (loc2d1i p0 p1) (loc2d1i_spec p0 p1) ?_
  · rw [places_2d1i]
    simp [Disc.Two.discInner, fOrder_length, Two.nbI1c0, Two.nbI1c1]
  · intro k a l j ha hj hs
    have hj4 : j < 4 := by rw [← hmesh.1 k]; exact (List.getElem?_eq_some_iff.1 hj).1
    have key := (singleValued_iff (by simpa using (len2 (p0 := p0) (p1 := p1) (parallel_side2 hj4)).2.1)).1 (c68_2d_inner p0 p1 x0 x1 hx0 hx1 r0 r1 h0 h1 E hE f
      [⟨k, side2 j, l, side2 (opp j)⟩] (by simpa using ⟨parallel_side2 hj4, hmesh.2 k j l hj⟩)) _ (List.mem_singleton.2 rfl)
    obtain ⟨c, i, m, rfl, b, hb, hi, hm⟩ := place2 ha
    rw [onSide_iff] at hs
    have hc : c = 0 ∨ c = 1 := by
      have := (List.getElem?_eq_some_iff.1 hb).1
      simp [comps2d1i] at this; omega
    have : j = 0 ∨ j = 1 ∨ j = 2 ∨ j = 3 := by omega
    rcases hc with rfl | rfl <;> (
      simp [comps2d1i] at hb
      subst hb
      simp at hi hm
      rcases this with rfl | rfl | rfl | rfl) <;> first
    | (simp [nodalIn, comps2d1i] at hs; done)
    | (simp [nodalIn, comps2d1i] at hs
       subst hs
       simp [side2, opp, Two.dofsI1, List.map_inj_left] at key
       simp [across, loc2d1i]
       exact key _ (by omega))

/-- C68 (2D, outer 1-forms). -/
theorem c68_2d_outer_global (hout : naive (formLayout [p0, p1] comps2d1o) emap ranks = some out) (f : (Fin 2 → ℝ) → Fin 2 → ℝ) (hmesh : Conforms2 f E emap) :
    ∃ g : Nat → ℝ, ∀ x ∈ out.flatten, ∀ i v : Nat, (gatheringVector [p0, p1] comps2d1o x.2)[i]? = some (some v) →
      (Disc.Two.discOuter p0 p1 x0 x1 r0 r1 (E x.1) f)[i]? = some (g v) := by
  refine glue_lists [p0, p1] comps2d1o (by intro c hc; simp [comps2d1o] at hc; rcases hc with rfl | rfl <;> rfl) emap hmesh.1 n ranks hr out hout
    (fun k => Disc.Two.discOuter p0 p1 x0 x1 r0 r1 (E k) f) (fun k => ?_) (loc2d1o p0 p1) (loc2d1o_spec p0 p1) ?_
  · rw [places_2d1o]
    simp [Disc.Two.discOuter, fOrder_length, Two.nbO1c0, Two.nbO1c1]
  · intro k a l j ha hj hs
    have hj4 : j < 4 := by rw [← hmesh.1 k]; exact (List.getElem?_eq_some_iff.1 hj).1
    have key := (singleValued_iff (by simpa using (len2 (p0 := p0) (p1 := p1) (parallel_side2 hj4)).2.2)).1 (c68_2d_outer p0 p1 x0 x1 hx0 hx1 r0 r1 h0 h1 E hE f
      [⟨k, side2 j, l, side2 (opp j)⟩] (by simpa using ⟨parallel_side2 hj4, hmesh.2 k j l hj⟩)) _ (List.mem_singleton.2 rfl)
    obtain ⟨c, i, m, rfl, b, hb, hi, hm⟩ := place2 ha
    rw [onSide_iff] at hs
    have hc : c = 0 ∨ c = 1 := by
      have := (List.getElem?_eq_some_iff.1 hb).1
      simp [comps2d1o] at this; omega
    have : j = 0 ∨ j = 1 ∨ j = 2 ∨ j = 3 := by omega
    rcases hc with rfl | rfl <;> (
      simp [comps2d1o] at hb
      subst hb
      simp at hi hm
      rcases this with rfl | rfl | rfl | rfl) <;> first
    | (simp [nodalIn, comps2d1o] at hs; done)
    | (simp [nodalIn, comps2d1o] at hs
       subst hs
       simp [side2, opp, Two.dofsO1, List.map_inj_left] at key
       simp [across, loc2d1o]
       exact key _ (by omega))

end

/-! ## 3D -/

/-- The number of a place of a 0-form, a 1-form and a 2-form. -/
def loc3d0 (p0 p1 p2 : Nat) (a : Nat × List Nat) : Nat := Three.ln0 p0 p1 p2 (a.2.getD 0 0) (a.2.getD 1 0) (a.2.getD 2 0)
@[inherit_doc loc3d0] def loc3d1 (p0 p1 p2 : Nat) (a : Nat × List Nat) : Nat :=
  if a.1 = 0 then Three.ln1c0 p0 p1 p2 (a.2.getD 0 0) (a.2.getD 1 0) (a.2.getD 2 0)
  else if a.1 = 1 then Three.ln1c1 p0 p1 p2 (a.2.getD 0 0) (a.2.getD 1 0) (a.2.getD 2 0)
  else Three.ln1c2 p0 p1 p2 (a.2.getD 0 0) (a.2.getD 1 0) (a.2.getD 2 0)
@[inherit_doc loc3d0] def loc3d2 (p0 p1 p2 : Nat) (a : Nat × List Nat) : Nat :=
  if a.1 = 0 then Three.ln2c0 p0 p1 p2 (a.2.getD 0 0) (a.2.getD 1 0) (a.2.getD 2 0)
  else if a.1 = 1 then Three.ln2c1 p0 p1 p2 (a.2.getD 0 0) (a.2.getD 1 0) (a.2.getD 2 0)
  else Three.ln2c2 p0 p1 p2 (a.2.getD 0 0) (a.2.getD 1 0) (a.2.getD 2 0)

theorem fNum3 (a b c : Nat) (α : List Nat) (h : α.length = 3) : fNum [a, b, c] α = fIdx3 a b (α.getD 0 0) (α.getD 1 0) (α.getD 2 0) := by
  match α, h with
  | [i, j, k], _ => simp [fNum, fIdx3]

theorem loc3d0_spec (p0 p1 p2 i : Nat) (a : Nat × List Nat) (h : (places fOrder [p0, p1, p2] comps3d0)[i]? = some a) : i = loc3d0 p0 p1 p2 a := by
  simp only [places, comps3d0, List.zipIdx_cons, List.zipIdx_nil, List.flatMap_cons, List.flatMap_nil, List.append_nil, List.getElem?_map,
    Option.map_eq_some_iff] at h
  obtain ⟨α, hα, rfl⟩ := h
  rw [(fOrder_idx _ _ _ hα).1]
  exact fNum3 _ _ _ _ (len_of_fOrder hα)

theorem three_comps {sh sh' sh'' : List Nat} {i : Nat} {a : Nat × List Nat}
    (h : ((fOrder sh).map (fun α => (0, α)) ++ ((fOrder sh').map (fun α => (1, α)) ++ (fOrder sh'').map fun α => (2, α)))[i]? = some a) :
    (a.1 = 0 ∧ i = fNum sh a.2 ∧ a.2.length = sh.length) ∨ (a.1 = 1 ∧ i = sh.prod + fNum sh' a.2 ∧ a.2.length = sh'.length) ∨
      (a.1 = 2 ∧ i = sh.prod + sh'.prod + fNum sh'' a.2 ∧ a.2.length = sh''.length) := by
  by_cases hi : i < ((fOrder sh).map fun α => (0, α)).length
  · rw [List.getElem?_append_left hi, List.getElem?_map, Option.map_eq_some_iff] at h
    obtain ⟨α, hα, rfl⟩ := h
    exact Or.inl ⟨rfl, (fOrder_idx _ _ _ hα).1, len_of_fOrder hα⟩
  · rw [List.getElem?_append_right (by omega)] at h
    rw [List.length_map, fOrder_length] at hi h
    by_cases hi' : i - sh.prod < ((fOrder sh').map fun α => (1, α)).length
    · rw [List.getElem?_append_left hi', List.getElem?_map, Option.map_eq_some_iff] at h
      obtain ⟨α, hα, rfl⟩ := h
      have := (fOrder_idx _ _ _ hα).1
      exact Or.inr (Or.inl ⟨rfl, by dsimp only; omega, len_of_fOrder hα⟩)
    · rw [List.getElem?_append_right (by omega), List.getElem?_map, Option.map_eq_some_iff] at h
      obtain ⟨α, hα, rfl⟩ := h
      have := (fOrder_idx _ _ _ hα).1
      rw [List.length_map, fOrder_length] at this hi'
      exact Or.inr (Or.inr ⟨rfl, by dsimp only; omega, len_of_fOrder hα⟩)

theorem places_3d1 (p0 p1 p2 : Nat) : places fOrder [p0, p1, p2] comps3d1 =
    (fOrder [p0, p1 + 1, p2 + 1]).map (fun α => (0, α)) ++ ((fOrder [p0 + 1, p1, p2 + 1]).map (fun α => (1, α)) ++
      (fOrder [p0 + 1, p1 + 1, p2]).map fun α => (2, α)) := by
  simp [places, comps3d1, shape]

theorem places_3d2 (p0 p1 p2 : Nat) : places fOrder [p0, p1, p2] comps3d2 =
    (fOrder [p0 + 1, p1, p2]).map (fun α => (0, α)) ++ ((fOrder [p0, p1 + 1, p2]).map (fun α => (1, α)) ++
      (fOrder [p0, p1, p2 + 1]).map fun α => (2, α)) := by
  simp [places, comps3d2, shape]

theorem loc3d1_spec (p0 p1 p2 i : Nat) (a : Nat × List Nat) (h : (places fOrder [p0, p1, p2] comps3d1)[i]? = some a) : i = loc3d1 p0 p1 p2 a := by
  rw [places_3d1] at h
  rcases three_comps h with ⟨h1, h2, h3⟩ | ⟨h1, h2, h3⟩ | ⟨h1, h2, h3⟩
  · rw [h2, fNum3 _ _ _ _ h3, loc3d1, if_pos h1]; rfl
  · rw [h2, fNum3 _ _ _ _ h3, loc3d1, if_neg (by omega), if_pos h1]
    simp [Three.ln1c1, Three.nb1c0, Nat.add_comm, Nat.mul_assoc]
  · rw [h2, fNum3 _ _ _ _ h3, loc3d1, if_neg (by omega), if_neg (by omega)]
    simp [Three.ln1c2, Three.nb1c0, Three.nb1c1, Nat.add_comm, Nat.mul_assoc]

theorem loc3d2_spec (p0 p1 p2 i : Nat) (a : Nat × List Nat) (h : (places fOrder [p0, p1, p2] comps3d2)[i]? = some a) : i = loc3d2 p0 p1 p2 a := by
  rw [places_3d2] at h
  rcases three_comps h with ⟨h1, h2, h3⟩ | ⟨h1, h2, h3⟩ | ⟨h1, h2, h3⟩
  · rw [h2, fNum3 _ _ _ _ h3, loc3d2, if_pos h1]; rfl
  · rw [h2, fNum3 _ _ _ _ h3, loc3d2, if_neg (by omega), if_pos h1]
    simp [Three.ln2c1, Three.nb2c0, Nat.add_comm, Nat.mul_assoc]
  · rw [h2, fNum3 _ _ _ _ h3, loc3d2, if_neg (by omega), if_neg (by omega)]
    simp [Three.ln2c2, Three.nb2c0, Three.nb2c1, Nat.add_comm, Nat.mul_assoc]

/-- The side with a number, in the order of the element map. -/
def side3 : Nat → Three.Side
  | 0 => .N
  | 1 => .S
  | 2 => .W
  | 3 => .E
  | 4 => .B
  | _ => .F

/-- The mesh: neighbours in the element map share a surface (up to a translation under which `f` is invariant). -/
def Conforms3 {α : Type*} (f : (Fin 3 → ℝ) → α) (E : Nat → Disc.Three.El ℝ) (emap : Nat → List (Option Nat)) : Prop :=
  (∀ k, (emap k).length = 6) ∧ ∀ k j l, (emap k)[j]? = some (some l) → Meets3 f (E k) (side3 j) (E l) (side3 (opp j))

theorem parallel_side3 {j : Nat} (h : j < 6) : parallel3 (side3 j) (side3 (opp j)) = true := by
  have : j = 0 ∨ j = 1 ∨ j = 2 ∨ j = 3 ∨ j = 4 ∨ j = 5 := by omega
  rcases this with rfl | rfl | rfl | rfl | rfl | rfl <;> rfl

/-- A place of a form on a 3D element. -/
theorem place3 {p0 p1 p2 : Nat} {comps : List (List Bool)} {a : Nat × List Nat} (h : IsPlace [p0, p1, p2] comps a) :
    ∃ c i j m, a = (c, [i, j, m]) ∧ ∃ b, comps[c]? = some b ∧ (if b.getD 0 false then i ≤ p0 else i < p0) ∧
      (if b.getD 1 false then j ≤ p1 else j < p1) ∧ (if b.getD 2 false then m ≤ p2 else m < p2) := by
  obtain ⟨b, hb, hl, hi⟩ := h
  obtain ⟨c, α⟩ := a
  match α, hl with
  | [i, j, m], _ =>
    exact ⟨c, i, j, m, rfl, b, hb, by simpa using hi 0 (by simp), by simpa using hi 1 (by simp), by simpa using hi 2 (by simp)⟩

section
variable (p0 p1 p2 : Nat) (x0 x1 x2 : Nat → ℝ) (hx0 : NodesOK p0 x0) (hx1 : NodesOK p1 x1) (hx2 : NodesOK p2 x2)
  (r0 r1 r2 : Rule ℝ) (h0 : RuleOK r0) (h1 : RuleOK r1) (h2 : RuleOK r2)
  (E : Nat → Disc.Three.El ℝ) (emap : Nat → List (Option Nat)) (n : Nat) (ranks : List (List Nat))
  (hr : ranks.flatten = List.range n) (out : List (List (Nat × Arr (Nat × List Nat))))
include hx0 hx1 hx2 hr

/-- C68 (3D, 0-forms): on every conforming mesh the local values are the values of one global vector. -/
theorem c68_3d_0_global (hout : naive (formLayout [p0, p1, p2] comps3d0) emap ranks = some out) (f : (Fin 3 → ℝ) → ℝ) (hmesh : Conforms3 f E emap) :
    ∃ g : Nat → ℝ, ∀ x ∈ out.flatten, ∀ i v : Nat, (gatheringVector [p0, p1, p2] comps3d0 x.2)[i]? = some (some v) →
      (Disc.Three.disc0 p0 p1 p2 x0 x1 x2 (E x.1) f)[i]? = some (g v) := by
  refine glue_lists [p0, p1, p2] comps3d0 (by intro c hc; simp [comps3d0] at hc; simp [hc]) emap hmesh.1 n ranks hr out hout
    (fun k => Disc.Three.disc0 p0 p1 p2 x0 x1 x2 (E k) f) (fun k => ?_) (loc3d0 p0 p1 p2) (loc3d0_spec p0 p1 p2) ?_
  · simp [Disc.Three.disc0, places, comps3d0, shape, fOrder_length, Three.nb0, Nat.mul_assoc]
  · intro k a l j ha hj hs
    have hj6 : j < 6 := by rw [← hmesh.1 k]; exact (List.getElem?_eq_some_iff.1 hj).1
    have key := (singleValued_iff (by simpa using (len3 (p0 := p0) (p1 := p1) (p2 := p2) (parallel_side3 hj6)).1)).1
      (c68_3d_0 p0 p1 p2 x0 x1 x2 hx0 hx1 hx2 E f [⟨k, side3 j, l, side3 (opp j)⟩] (by simpa using ⟨parallel_side3 hj6, hmesh.2 k j l hj⟩)) _ (List.mem_singleton.2 rfl)
    obtain ⟨c, i, m, q, rfl, b, hb, hi, hm, hq⟩ := place3 ha
    rw [onSide_iff] at hs
    have hc : c = 0 := by
      have := (List.getElem?_eq_some_iff.1 hb).1
      simp [comps3d0] at this; omega
    have : j = 0 ∨ j = 1 ∨ j = 2 ∨ j = 3 ∨ j = 4 ∨ j = 5 := by omega
    rcases hc with rfl <;> (
      simp [comps3d0] at hb
      subst hb
      simp at hi hm hq
      rcases this with rfl | rfl | rfl | rfl | rfl | rfl) <;> first
    | (simp [nodalIn, comps3d0] at hs; done)
    | (simp [nodalIn, comps3d0] at hs
       subst hs
       simp only [side3, opp, Three.dofs0, map_ravelF_eq, Nat.reduceMod, Nat.reduceAdd, Nat.reduceSub, Nat.reduceEqDiff, if_true, if_false, reduceIte] at key
       simp [across, loc3d0]
       exact key _ _ (by omega) (by omega))

variable (hE : ∀ k, SmoothEl3 (E k))
include h0 h1 h2 hE

/-- C68 (3D, 1-forms). -/
theorem c68_3d_1_global (hout : naive (formLayout [p0, p1, p2] comps3d1) emap ranks = some out) (f : (Fin 3 → ℝ) → Fin 3 → ℝ) (hmesh : Conforms3 f E emap) :
    ∃ g : Nat → ℝ, ∀ x ∈ out.flatten, ∀ i v : Nat, (gatheringVector [p0, p1, p2] comps3d1 x.2)[i]? = some (some v) →
      (Disc.Three.disc1 p0 p1 p2 x0 x1 x2 r0 r1 r2 (E x.1) f)[i]? = some (g v) := by
  refine glue_lists [p0, p1, p2] comps3d1 (by intro c hc; simp [comps3d1] at hc; rcases hc with rfl | rfl | rfl <;> rfl) emap hmesh.1 n ranks hr out hout
    (fun k => Disc.Three.disc1 p0 p1 p2 x0 x1 x2 r0 r1 r2 (E k) f) (fun k => ?_) (loc3d1 p0 p1 p2) (loc3d1_spec p0 p1 p2) ?_
  · rw [places_3d1]
    simp [Disc.Three.disc1, fOrder_length, Three.nb1c0, Three.nb1c1, Three.nb1c2, Nat.mul_assoc, Nat.add_assoc]
  · intro k a l j ha hj hs
    have hj6 : j < 6 := by rw [← hmesh.1 k]; exact (List.getElem?_eq_some_iff.1 hj).1
    have key := (singleValued_iff (by simpa using (len3 (p0 := p0) (p1 := p1) (p2 := p2) (parallel_side3 hj6)).2.1)).1
      (c68_3d_1 p0 p1 p2 x0 x1 x2 hx0 hx1 hx2 r0 r1 r2 h0 h1 h2 E hE f [⟨k, side3 j, l, side3 (opp j)⟩] (by simpa using ⟨parallel_side3 hj6, hmesh.2 k j l hj⟩)) _ (List.mem_singleton.2 rfl)
    obtain ⟨c, i, m, q, rfl, b, hb, hi, hm, hq⟩ := place3 ha
    rw [onSide_iff] at hs
    have hc : c = 0 ∨ c = 1 ∨ c = 2 := by
      have := (List.getElem?_eq_some_iff.1 hb).1
      simp [comps3d1] at this; omega
    have : j = 0 ∨ j = 1 ∨ j = 2 ∨ j = 3 ∨ j = 4 ∨ j = 5 := by omega
    rcases hc with rfl | rfl | rfl <;> (
      simp [comps3d1] at hb
      subst hb
      simp at hi hm hq
      rcases this with rfl | rfl | rfl | rfl | rfl | rfl) <;> first
    | (simp [nodalIn, comps3d1] at hs; done)
    | (simp [nodalIn, comps3d1] at hs
       subst hs
       simp only [side3, opp, Three.dofs1, append_map_eqO, Nat.reduceMod, Nat.reduceAdd, Nat.reduceSub, Nat.reduceEqDiff, if_true, if_false, reduceIte] at key
       simp [across, loc3d1]
       first | exact key.1 _ _ (by omega) (by omega) | exact key.2 _ _ (by omega) (by omega))

/-- C68 (3D, 2-forms). -/
theorem c68_3d_2_global (hout : naive (formLayout [p0, p1, p2] comps3d2) emap ranks = some out) (f : (Fin 3 → ℝ) → Fin 3 → ℝ) (hmesh : Conforms3 f E emap) :
    ∃ g : Nat → ℝ, ∀ x ∈ out.flatten, ∀ i v : Nat, (gatheringVector [p0, p1, p2] comps3d2 x.2)[i]? = some (some v) →
      (Disc.Three.disc2 p0 p1 p2 x0 x1 x2 r0 r1 r2 (E x.1) f)[i]? = some (g v) := by
  refine glue_lists [p0, p1, p2] comps3d2 (by intro c hc; simp [comps3d2] at hc; rcases hc with rfl | rfl | rfl <;> rfl) emap hmesh.1 n ranks hr out hout
    (fun k => Disc.Three.disc2 p0 p1 p2 x0 x1 x2 r0 r1 r2 (E k) f) (fun k => ?_) (loc3d2 p0 p1 p2) (loc3d2_spec p0 p1 p2) ?_
  · rw [places_3d2]
    simp [Disc.Three.disc2, fOrder_length, Three.nb2c0, Three.nb2c1, Three.nb2c2, Nat.mul_assoc, Nat.add_assoc]
  · intro k a l j ha hj hs
    have hj6 : j < 6 := by rw [← hmesh.1 k]; exact (List.getElem?_eq_some_iff.1 hj).1
    have key := (singleValued_iff (by simpa using (len3 (p0 := p0) (p1 := p1) (p2 := p2) (parallel_side3 hj6)).2.2)).1
      (c68_3d_2 p0 p1 p2 x0 x1 x2 hx0 hx1 hx2 r0 r1 r2 h0 h1 h2 E hE f [⟨k, side3 j, l, side3 (opp j)⟩] (by simpa using ⟨parallel_side3 hj6, hmesh.2 k j l hj⟩)) _ (List.mem_singleton.2 rfl)
    obtain ⟨c, i, m, q, rfl, b, hb, hi, hm, hq⟩ := place3 ha
    rw [onSide_iff] at hs
    have hc : c = 0 ∨ c = 1 ∨ c = 2 := by
      have := (List.getElem?_eq_some_iff.1 hb).1
      simp [comps3d2] at this; omega
    have : j = 0 ∨ j = 1 ∨ j = 2 ∨ j = 3 ∨ j = 4 ∨ j = 5 := by omega
    rcases hc with rfl | rfl | rfl <;> (
      simp [comps3d2] at hb
      subst hb
      simp at hi hm hq
      rcases this with rfl | rfl | rfl | rfl | rfl | rfl) <;> first
    | (simp [nodalIn, comps3d2] at hs; done)
    | (simp [nodalIn, comps3d2] at hs
       subst hs
       simp only [side3, opp, Three.dofs2, map_ravelF_eq, Nat.reduceMod, Nat.reduceAdd, Nat.reduceSub, Nat.reduceEqDiff, if_true, if_false, reduceIte] at key
       simp [across, loc3d2]
       exact key _ _ (by omega) (by omega))

end

end Mifem.Props
