import Verif.Props.TraceRen
import Verif.Lemmas.Incidence3D
import Verif.Lemmas.Sides
import Mathlib.Tactic.Ring

/-!
# C83: the local numbering of non-hybrid trace forms
-/

namespace Mifem.TraceNum
open Three

theorem mem_slice (c : Nat) (is js ks : List Nat) (x : Place) :
    x ∈ slice c is js ks ↔ x.1 = c ∧ x.2.1 ∈ is ∧ x.2.2.1 ∈ js ∧ x.2.2.2 ∈ ks := by
  obtain ⟨c', i, j, k⟩ := x
  simp only [slice, List.mem_flatMap, List.mem_map, Prod.mk.injEq]
  constructor
  · rintro ⟨k', hk, j', hj, i', hi, rfl, rfl, rfl, rfl⟩
    exact ⟨rfl, hi, hj, hk⟩
  · rintro ⟨rfl, hi, hj, hk⟩
    exact ⟨k, hk, j, hj, i, hi, rfl, rfl, rfl, rfl⟩

theorem nodup_slice (c : Nat) (is js ks : List Nat) (hi : is.Nodup) (hj : js.Nodup) (hk : ks.Nodup) : (slice c is js ks).Nodup := by
  unfold slice
  rw [List.nodup_flatMap]
  refine ⟨?_, ?_⟩
  · intro k _
    rw [List.nodup_flatMap]
    refine ⟨?_, ?_⟩
    · intro j _
      apply hi.map
      intro a b h
      simp only [Prod.mk.injEq] at h
      exact h.2.1
    · refine hj.imp ?_
      intro a b hab x hx hy
      obtain ⟨i, _, rfl⟩ := List.mem_map.1 hx
      obtain ⟨i', _, h⟩ := List.mem_map.1 hy
      simp only [Prod.mk.injEq] at h
      exact hab h.2.2.1.symm
  · refine hk.imp ?_
    intro a b hab x hx hy
    obtain ⟨j, _, hx⟩ := List.mem_flatMap.1 hx
    obtain ⟨j', _, hy⟩ := List.mem_flatMap.1 hy
    obtain ⟨i, _, rfl⟩ := List.mem_map.1 hx
    obtain ⟨i', _, h⟩ := List.mem_map.1 hy
    simp only [Prod.mk.injEq] at h
    exact hab h.2.2.2.symm

theorem length_slice (c : Nat) (is js ks : List Nat) : (slice c is js ks).length = is.length * js.length * ks.length := by
  unfold slice
  rw [List.length_flatMap]
  have : (ks.map fun k => (js.flatMap fun j => is.map fun i => (c, i, j, k)).length) = ks.map fun _ => is.length * js.length := by
    apply List.map_congr_left
    intro k _
    rw [List.length_flatMap]
    have : (js.map fun j => (is.map fun i => (c, i, j, k)).length) = js.map fun _ => is.length := by
      apply List.map_congr_left
      intro j _
      simp
    rw [this, List.map_const', List.sum_replicate_nat, Nat.mul_comm]
  rw [this, List.map_const', List.sum_replicate_nat, Nat.mul_comm]

theorem mem_inner (p i : Nat) : i ∈ inner p ↔ 1 ≤ i ∧ i < p := by
  unfold inner
  rw [List.mem_range'_1]
  omega

theorem nodup_inner (p : Nat) : (inner p).Nodup := List.nodup_range'

/-! ## numbering the slices -/

theorem writeFold (l : List Place) (hn : l.Nodup) : ∀ (a : Place → Option Nat) (c : Nat) (x : Place),
    ((l.zipIdx c).foldl (fun a q => fun x => if x = q.1 then some q.2 else a x) a) x = if x ∈ l then some (c + l.idxOf x) else a x := by
  induction l with
  | nil => intro a c x; simp
  | cons y l ih =>
    intro a c x
    rw [List.nodup_cons] at hn
    rw [List.zipIdx_cons, List.foldl_cons, ih hn.2]
    by_cases hx : x ∈ l
    · have hxy : x ≠ y := fun h => hn.1 (h ▸ hx)
      rw [if_pos hx, if_pos (List.mem_cons_of_mem _ hx), List.idxOf_cons_ne _ (Ne.symm hxy)]
      congr 1
      omega
    · rw [if_neg hx]
      by_cases hxy : x = y
      · subst hxy
        simp
      · rw [if_neg hxy, if_neg (by simp [hxy, hx])]

theorem writeSlices (ls : List (List Place)) : ∀ (pre : List Place) (a : Place → Option Nat), (pre ++ ls.flatten).Nodup →
    (∀ x, a x = if x ∈ pre then some (pre.idxOf x) else none) →
    ∀ x, (ls.foldl writeSlice (a, pre.length)).1 x = if x ∈ pre ++ ls.flatten then some ((pre ++ ls.flatten).idxOf x) else none := by
  induction ls with
  | nil => intro pre a _ ha x; simpa using ha x
  | cons l ls ih =>
    intro pre a hn ha x
    rw [List.foldl_cons]
    have e : writeSlice (a, pre.length) l = (fun x => if x ∈ pre ++ l then some ((pre ++ l).idxOf x) else none, (pre ++ l).length) := by
      unfold writeSlice
      rw [List.length_append]
      congr 1
      funext y
      have hl : l.Nodup := by
        rw [List.flatten_cons, ← List.append_assoc] at hn
        exact (List.nodup_append.1 (List.nodup_append.1 hn).1).2.1
      have hd : ∀ y ∈ pre, y ∉ l := by
        rw [List.flatten_cons, ← List.append_assoc] at hn
        intro y hy hy'
        exact (List.nodup_append.1 (List.nodup_append.1 hn).1).2.2 y hy y hy' rfl
      rw [writeFold l hl]
      show (if y ∈ l then some (pre.length + l.idxOf y) else a y) = _
      rw [ha]
      by_cases hy : y ∈ l
      · have hyp : y ∉ pre := fun h => hd y h hy
        rw [if_pos hy, if_pos (List.mem_append_right _ hy), List.idxOf_append_of_notMem hyp]
      · rw [if_neg hy]
        by_cases hyp : y ∈ pre
        · rw [if_pos hyp, if_pos (List.mem_append_left _ hyp), List.idxOf_append_of_mem hyp]
        · rw [if_neg hyp, if_neg (by simp [hy, hyp])]
    rw [e]
    have := ih (pre ++ l) _ (by simpa using hn) (fun _ => rfl) x
    simpa using this

/-- the numbers of the sides are positions in the list of all slices. -/
theorem localGathering_eq (slices : List (List Place)) (sides : Side → List Place) (hn : slices.flatten.Nodup)
    (hs : ∀ s, ∀ x ∈ sides s, x ∈ slices.flatten) :
    localGathering slices sides = some (six.map fun s => (s, (sides s).map fun x => slices.flatten.idxOf x)) := by
  have harr := writeSlices slices [] (fun _ => none) (by simpa using hn) (by simp)
  unfold localGathering
  simp only []
  apply Props.mapM_eq_some
  intro s _
  rw [Props.mapM_eq_some _ (fun x => slices.flatten.idxOf x)]
  · rfl
  · intro x hx
    have := harr x
    simp only [List.nil_append, List.length_nil] at this
    rw [this, if_pos (hs s x hx)]

end Mifem.TraceNum

namespace Mifem.Props
open Mifem.TraceNum Mifem.Three Mifem.Assemblers

/-- the check of an assembler passes for numbers without holes. -/
theorem check_of {κ : Type} (G : List (κ × List Nat)) (n : Nat) (hn : 0 < n) (hne : ∀ p ∈ G, p.2 ≠ [])
    (h : ∀ k, (∃ p ∈ G, k ∈ p.2) ↔ k < n) : check G = some n := by
  unfold check
  have h0 : ¬(G.any fun p => p.2.isEmpty) = true := by
    rw [List.any_eq_true]
    rintro ⟨p, hp, h0⟩
    exact hne p hp (by simpa using h0)
  rw [if_neg h0]
  have hmem : ∀ k, k ∈ G.flatMap Prod.snd ↔ k < n := by
    intro k; rw [← h]; simp [List.mem_flatMap]
  generalize G.flatMap Prod.snd = all at hmem
  have hM : all.max? = some (n - 1) := by
    rw [List.max?_eq_some_iff]
    exact ⟨(hmem _).2 (by omega), fun b hb => by have := (hmem b).1 hb; omega⟩
  have hm : all.min? = some 0 := by
    rw [List.min?_eq_some_iff]
    exact ⟨(hmem _).2 hn, fun b hb => by omega⟩
  have hd : all.dedup.length = n := by
    have hp : all.dedup.Perm (List.range n) := by
      rw [List.perm_ext_iff_of_nodup (List.nodup_dedup _) List.nodup_range]
      intro k
      rw [List.mem_dedup, hmem, List.mem_range]
    simpa using hp.length_eq
  simp only [hM, hm]
  rw [if_pos ⟨trivial, by omega⟩]
  congr 1
  omega

/-- a local numbering by slices is right if the slices are the places of the sides, each once. -/
theorem sideLayout_of {nb : Nat} {I : List Place} {slices : List (List Place)} {sides : Side → List Place} {enc : Place → Nat} {valid : Place → Prop}
    (hn : slices.flatten.Nodup) (hE : ∀ x, x ∈ slices.flatten ↔ ∃ s, x ∈ sides s) (hv : ∀ x, valid x ↔ x ∈ slices.flatten ∨ x ∈ I)
    (hdis : ∀ x, x ∈ slices.flatten → x ∉ I) (hinj : ∀ x y, valid x → valid y → enc x = enc y → x = y)
    (hbd : ∀ x, valid x → enc x < nb) (hsur : ∀ r, r < nb → ∃ x, valid x ∧ enc x = r) (hne : ∀ s, sides s ≠ []) :
    ∃ lg, localGathering slices sides = some lg ∧ check lg = some slices.flatten.length ∧
      SideLayout nb (I.map enc) lg (fun s => (sides s).map enc) := by
  have hsE : ∀ s, ∀ x ∈ sides s, x ∈ slices.flatten := fun s x hx => (hE x).2 ⟨s, hx⟩
  have hck : check (six.map fun s => (s, (sides s).map fun x => slices.flatten.idxOf x)) = some slices.flatten.length := by
    apply check_of
    · obtain ⟨x, hx⟩ := List.exists_mem_of_ne_nil _ (hne .N)
      exact List.length_pos_of_mem (hsE _ x hx)
    · intro p hp
      obtain ⟨s, _, rfl⟩ := List.mem_map.1 hp
      simpa using hne s
    · intro k
      constructor
      · rintro ⟨p, hp, hk⟩
        obtain ⟨s, _, rfl⟩ := List.mem_map.1 hp
        obtain ⟨x, hx, rfl⟩ := List.mem_map.1 hk
        exact List.idxOf_lt_length_iff.2 (hsE s x hx)
      · intro hk
        obtain ⟨s, hs⟩ := (hE _).1 (List.getElem_mem hk)
        refine ⟨_, List.mem_map.2 ⟨s, mem_six s, rfl⟩, ?_⟩
        rw [List.mem_map]
        exact ⟨_, hs, List.Nodup.idxOf_getElem hn k hk⟩
  refine ⟨_, localGathering_eq slices sides hn hsE, hck, ?_, ?_, ?_, ⟨_, hck⟩, ?_⟩
  · rw [List.map_map]; rfl
  · intro p hp
    obtain ⟨s, _, rfl⟩ := List.mem_map.1 hp
    simp
  · intro p hp q hq t t' ht ht'
    obtain ⟨s, _, rfl⟩ := List.mem_map.1 hp
    obtain ⟨s', _, rfl⟩ := List.mem_map.1 hq
    simp only [List.length_map] at ht ht'
    simp only [List.getElem_map]
    have hx := hsE s _ (List.getElem_mem ht)
    have hy := hsE s' _ (List.getElem_mem ht')
    rw [List.idxOf_inj hx]
    rw [List.getElem?_eq_getElem (by simpa using ht), List.getElem?_eq_getElem (by simpa using ht'), Option.some.injEq]
    simp only [List.getElem_map]
    constructor
    · intro h; rw [h]
    · exact hinj _ _ ((hv _).2 (Or.inl hx)) ((hv _).2 (Or.inl hy))
  · intro i
    constructor
    · rintro ⟨hi, hni⟩
      obtain ⟨x, hx, rfl⟩ := hsur i hi
      rcases (hv x).1 hx with h | h
      · obtain ⟨s, hs⟩ := (hE x).1 h
        exact ⟨s, mem_six s, List.mem_map.2 ⟨x, hs, rfl⟩⟩
      · exact absurd (List.mem_map.2 ⟨x, h, rfl⟩) hni
    · rintro ⟨s, _, hi⟩
      obtain ⟨x, hx, rfl⟩ := List.mem_map.1 hi
      have hxE := hsE s x hx
      have hvx := (hv x).2 (Or.inl hxE)
      refine ⟨hbd x hvx, ?_⟩
      intro hm
      obtain ⟨y, hy, he⟩ := List.mem_map.1 hm
      have := hinj y x ((hv y).2 (Or.inr hy)) hvx he
      subst this
      exact hdis y hxE hy

/-! ## the three forms -/

/-- number of the place in the 0-form, 1-form, 2-form. -/
def enc0 (p0 p1 p2 : Nat) (x : Place) : Nat := ln0 p0 p1 p2 x.2.1 x.2.2.1 x.2.2.2
@[inherit_doc enc0] def enc1 (p0 p1 p2 : Nat) (x : Place) : Nat :=
  if x.1 = 0 then ln1c0 p0 p1 p2 x.2.1 x.2.2.1 x.2.2.2 else if x.1 = 1 then ln1c1 p0 p1 p2 x.2.1 x.2.2.1 x.2.2.2
  else ln1c2 p0 p1 p2 x.2.1 x.2.2.1 x.2.2.2
@[inherit_doc enc0] def enc2 (p0 p1 p2 : Nat) (x : Place) : Nat :=
  if x.1 = 0 then ln2c0 p0 p1 p2 x.2.1 x.2.2.1 x.2.2.2 else if x.1 = 1 then ln2c1 p0 p1 p2 x.2.1 x.2.2.1 x.2.2.2
  else ln2c2 p0 p1 p2 x.2.1 x.2.2.1 x.2.2.2

/-- the places of the forms. -/
def valid0 (p0 p1 p2 : Nat) (x : Place) : Prop := x.1 = 0 ∧ x.2.1 < p0 + 1 ∧ x.2.2.1 < p1 + 1 ∧ x.2.2.2 < p2 + 1
@[inherit_doc valid0] def valid1 (p0 p1 p2 : Nat) (x : Place) : Prop :=
  (x.1 = 0 ∧ x.2.1 < p0 ∧ x.2.2.1 < p1 + 1 ∧ x.2.2.2 < p2 + 1) ∨ (x.1 = 1 ∧ x.2.1 < p0 + 1 ∧ x.2.2.1 < p1 ∧ x.2.2.2 < p2 + 1) ∨
  (x.1 = 2 ∧ x.2.1 < p0 + 1 ∧ x.2.2.1 < p1 + 1 ∧ x.2.2.2 < p2)
@[inherit_doc valid0] def valid2 (p0 p1 p2 : Nat) (x : Place) : Prop :=
  (x.1 = 0 ∧ x.2.1 < p0 + 1 ∧ x.2.2.1 < p1 ∧ x.2.2.2 < p2) ∨ (x.1 = 1 ∧ x.2.1 < p0 ∧ x.2.2.1 < p1 + 1 ∧ x.2.2.2 < p2) ∨
  (x.1 = 2 ∧ x.2.1 < p0 ∧ x.2.2.1 < p1 ∧ x.2.2.2 < p2 + 1)

/-- the places inside. -/
def intPl0 (p0 p1 p2 : Nat) : List Place := slice 0 (inner p0) (inner p1) (inner p2)
@[inherit_doc intPl0] def intPl1 (p0 p1 p2 : Nat) : List Place :=
  slice 0 (List.range p0) (inner p1) (inner p2) ++ slice 1 (inner p0) (List.range p1) (inner p2) ++ slice 2 (inner p0) (inner p1) (List.range p2)
@[inherit_doc intPl0] def intPl2 (p0 p1 p2 : Nat) : List Place :=
  slice 0 (inner p0) (List.range p1) (List.range p2) ++ slice 1 (List.range p0) (inner p1) (List.range p2) ++ slice 2 (List.range p0) (List.range p1) (inner p2)

/-- the sides of the 2-trace. -/
def traceSide2 (px py pz : Nat) : Side → List Place
  | .N => slice 0 [0] (List.range py) (List.range pz)
  | .S => slice 0 [px] (List.range py) (List.range pz)
  | .W => slice 1 (List.range px) [0] (List.range pz)
  | .E => slice 1 (List.range px) [py] (List.range pz)
  | .B => slice 2 (List.range px) (List.range py) [0]
  | .F => slice 2 (List.range px) (List.range py) [pz]

theorem internal0_eq (p0 p1 p2 : Nat) : internal0 p0 p1 p2 = (intPl0 p0 p1 p2).map (enc0 p0 p1 p2) := rfl

theorem map_enc_slice {enc : Place → Nat} {f : Nat → Nat → Nat → Nat} (c : Nat) (h : ∀ i j k, enc (c, i, j, k) = f i j k) (is js ks : List Nat) :
    (slice c is js ks).map enc = (slice c is js ks).map fun x => f x.2.1 x.2.2.1 x.2.2.2 := by
  apply List.map_congr_left
  rintro ⟨c', i, j, k⟩ hx
  have := ((mem_slice _ _ _ _ _).1 hx).1
  simp only at this
  subst this
  exact h i j k

theorem internal1_eq (p0 p1 p2 : Nat) : internal1 p0 p1 p2 = (intPl1 p0 p1 p2).map (enc1 p0 p1 p2) := by
  unfold internal1 intPl1
  rw [List.map_append, List.map_append, map_enc_slice 0 (enc := enc1 p0 p1 p2) (f := ln1c0 p0 p1 p2) (fun _ _ _ => rfl),
    map_enc_slice 1 (enc := enc1 p0 p1 p2) (f := ln1c1 p0 p1 p2) (fun _ _ _ => rfl),
    map_enc_slice 2 (enc := enc1 p0 p1 p2) (f := ln1c2 p0 p1 p2) (fun _ _ _ => rfl)]

theorem slice_nil (c : Nat) (is js ks : List Nat) (h : is = [] ∨ js = [] ∨ ks = []) : slice c is js ks = [] := by
  rcases h with rfl | rfl | rfl <;> simp [slice]

theorem internal2_eq (p0 p1 p2 : Nat) (h : ¬(p0 = 1 ∧ p1 = 1 ∧ p2 = 1)) :
    internal2 p0 p1 p2 = some ((intPl2 p0 p1 p2).map (enc2 p0 p1 p2)) := by
  unfold internal2 intPl2
  rw [List.map_append, List.map_append, map_enc_slice 0 (enc := enc2 p0 p1 p2) (f := ln2c0 p0 p1 p2) (fun _ _ _ => rfl),
    map_enc_slice 1 (enc := enc2 p0 p1 p2) (f := ln2c1 p0 p1 p2) (fun _ _ _ => rfl),
    map_enc_slice 2 (enc := enc2 p0 p1 p2) (f := ln2c2 p0 p1 p2) (fun _ _ _ => rfl)]
  have hi : inner 1 = [] := rfl
  by_cases h0 : p0 = 1 <;> by_cases h1 : p1 = 1 <;> by_cases h2 : p2 = 1 <;>
    simp_all [slice_nil]

/-- **C83, not true of the code.** With all degrees 1 the 2-form has no internal dofs; finding them raises an exception, so
a non-hybrid 2-trace cannot be numbered. -/
theorem c83_degree_one_counterexample : internal2 1 1 1 = none := by decide

theorem enc0_inj (p0 p1 p2 : Nat) (x y : Place) (hx : valid0 p0 p1 p2 x) (hy : valid0 p0 p1 p2 y) (h : enc0 p0 p1 p2 x = enc0 p0 p1 p2 y) : x = y := by
  obtain ⟨c, i, j, k⟩ := x
  obtain ⟨c', i', j', k'⟩ := y
  obtain ⟨a0, a1, a2, a3⟩ := hx
  obtain ⟨b0, b1, b2, b3⟩ := hy
  simp only at a0 a1 a2 a3 b0 b1 b2 b3
  obtain ⟨rfl, rfl, rfl⟩ := ln0_inj (p2 := p2) b1 b2 a1 a2 h
  rw [a0, b0]

theorem enc1_inj (p0 p1 p2 : Nat) (x y : Place) (hx : valid1 p0 p1 p2 x) (hy : valid1 p0 p1 p2 y) (h : enc1 p0 p1 p2 x = enc1 p0 p1 p2 y) : x = y := by
  obtain ⟨c, i, j, k⟩ := x
  obtain ⟨c', i', j', k'⟩ := y
  have h' : enc1 p0 p1 p2 (c, i, j, k) = enc1 p0 p1 p2 (c', i', j', k') := h
  rcases hx with ⟨a0, a1, a2, a3⟩ | ⟨a0, a1, a2, a3⟩ | ⟨a0, a1, a2, a3⟩ <;> rcases hy with ⟨b0, b1, b2, b3⟩ | ⟨b0, b1, b2, b3⟩ | ⟨b0, b1, b2, b3⟩ <;>
    simp only at a0 a1 a2 a3 b0 b1 b2 b3 <;> subst a0 <;> subst b0
  · obtain ⟨rfl, rfl, rfl⟩ := ln1c0_inj (p2 := p2) b1 b2 a1 a2 h'; rfl
  · exfalso; have e1 := ln1c0_bd a1 a2 a3; have e2 := ln1c1_bd b1 b2 b3; have h3 : ln1c0 p0 p1 p2 i j k = ln1c1 p0 p1 p2 i' j' k' := h'; omega
  · exfalso; have e1 := ln1c0_bd a1 a2 a3; have e2 := ln1c2_bd b1 b2 b3; have h3 : ln1c0 p0 p1 p2 i j k = ln1c2 p0 p1 p2 i' j' k' := h'; omega
  · exfalso; have e1 := ln1c1_bd a1 a2 a3; have e2 := ln1c0_bd b1 b2 b3; have h3 : ln1c1 p0 p1 p2 i j k = ln1c0 p0 p1 p2 i' j' k' := h'; omega
  · obtain ⟨rfl, rfl, rfl⟩ := ln1c1_inj (p2 := p2) b1 b2 a1 a2 h'; rfl
  · exfalso; have e1 := ln1c1_bd a1 a2 a3; have e2 := ln1c2_bd b1 b2 b3; have h3 : ln1c1 p0 p1 p2 i j k = ln1c2 p0 p1 p2 i' j' k' := h'; omega
  · exfalso; have e1 := ln1c2_bd a1 a2 a3; have e2 := ln1c0_bd b1 b2 b3; have h3 : ln1c2 p0 p1 p2 i j k = ln1c0 p0 p1 p2 i' j' k' := h'; omega
  · exfalso; have e1 := ln1c2_bd a1 a2 a3; have e2 := ln1c1_bd b1 b2 b3; have h3 : ln1c2 p0 p1 p2 i j k = ln1c1 p0 p1 p2 i' j' k' := h'; omega
  · obtain ⟨rfl, rfl, rfl⟩ := ln1c2_inj (p2 := p2) b1 b2 a1 a2 h'; rfl

theorem enc2_inj (p0 p1 p2 : Nat) (x y : Place) (hx : valid2 p0 p1 p2 x) (hy : valid2 p0 p1 p2 y) (h : enc2 p0 p1 p2 x = enc2 p0 p1 p2 y) : x = y := by
  obtain ⟨c, i, j, k⟩ := x
  obtain ⟨c', i', j', k'⟩ := y
  have h' : enc2 p0 p1 p2 (c, i, j, k) = enc2 p0 p1 p2 (c', i', j', k') := h
  rcases hx with ⟨a0, a1, a2, a3⟩ | ⟨a0, a1, a2, a3⟩ | ⟨a0, a1, a2, a3⟩ <;> rcases hy with ⟨b0, b1, b2, b3⟩ | ⟨b0, b1, b2, b3⟩ | ⟨b0, b1, b2, b3⟩ <;>
    simp only at a0 a1 a2 a3 b0 b1 b2 b3 <;> subst a0 <;> subst b0
  · obtain ⟨rfl, rfl, rfl⟩ := ln2c0_inj (p2 := p2) b1 b2 a1 a2 h'; rfl
  · exfalso; have e1 := ln2c0_bd a1 a2 a3; have e2 := ln2c1_bd b1 b2 b3; have h3 : ln2c0 p0 p1 p2 i j k = ln2c1 p0 p1 p2 i' j' k' := h'; omega
  · exfalso; have e1 := ln2c0_bd a1 a2 a3; have e2 := ln2c2_bd b1 b2 b3; have h3 : ln2c0 p0 p1 p2 i j k = ln2c2 p0 p1 p2 i' j' k' := h'; omega
  · exfalso; have e1 := ln2c1_bd a1 a2 a3; have e2 := ln2c0_bd b1 b2 b3; have h3 : ln2c1 p0 p1 p2 i j k = ln2c0 p0 p1 p2 i' j' k' := h'; omega
  · obtain ⟨rfl, rfl, rfl⟩ := ln2c1_inj (p2 := p2) b1 b2 a1 a2 h'; rfl
  · exfalso; have e1 := ln2c1_bd a1 a2 a3; have e2 := ln2c2_bd b1 b2 b3; have h3 : ln2c1 p0 p1 p2 i j k = ln2c2 p0 p1 p2 i' j' k' := h'; omega
  · exfalso; have e1 := ln2c2_bd a1 a2 a3; have e2 := ln2c0_bd b1 b2 b3; have h3 : ln2c2 p0 p1 p2 i j k = ln2c0 p0 p1 p2 i' j' k' := h'; omega
  · exfalso; have e1 := ln2c2_bd a1 a2 a3; have e2 := ln2c1_bd b1 b2 b3; have h3 : ln2c2 p0 p1 p2 i j k = ln2c1 p0 p1 p2 i' j' k' := h'; omega
  · obtain ⟨rfl, rfl, rfl⟩ := ln2c2_inj (p2 := p2) b1 b2 a1 a2 h'; rfl

theorem enc0_bd (p0 p1 p2 : Nat) (x : Place) (hx : valid0 p0 p1 p2 x) : enc0 p0 p1 p2 x < nb0 p0 p1 p2 :=
  (ln0_bd hx.2.1 hx.2.2.1 hx.2.2.2).2

theorem enc1_bd (p0 p1 p2 : Nat) (x : Place) (hx : valid1 p0 p1 p2 x) : enc1 p0 p1 p2 x < nb1 p0 p1 p2 := by
  obtain ⟨c, i, j, k⟩ := x
  have e : nb1 p0 p1 p2 = nb1c0 p0 p1 p2 + nb1c1 p0 p1 p2 + nb1c2 p0 p1 p2 := rfl
  rcases hx with ⟨a0, a1, a2, a3⟩ | ⟨a0, a1, a2, a3⟩ | ⟨a0, a1, a2, a3⟩ <;> simp only at a0 a1 a2 a3 <;> subst a0
  · have := ln1c0_bd a1 a2 a3; show ln1c0 p0 p1 p2 i j k < _; omega
  · have := ln1c1_bd a1 a2 a3; show ln1c1 p0 p1 p2 i j k < _; omega
  · have := ln1c2_bd a1 a2 a3; show ln1c2 p0 p1 p2 i j k < _; omega

theorem enc2_bd (p0 p1 p2 : Nat) (x : Place) (hx : valid2 p0 p1 p2 x) : enc2 p0 p1 p2 x < nb2 p0 p1 p2 := by
  obtain ⟨c, i, j, k⟩ := x
  have e : nb2 p0 p1 p2 = nb2c0 p0 p1 p2 + nb2c1 p0 p1 p2 + nb2c2 p0 p1 p2 := rfl
  rcases hx with ⟨a0, a1, a2, a3⟩ | ⟨a0, a1, a2, a3⟩ | ⟨a0, a1, a2, a3⟩ <;> simp only at a0 a1 a2 a3 <;> subst a0
  · have := ln2c0_bd a1 a2 a3; show ln2c0 p0 p1 p2 i j k < _; omega
  · have := ln2c1_bd a1 a2 a3; show ln2c1 p0 p1 p2 i j k < _; omega
  · have := ln2c2_bd a1 a2 a3; show ln2c2 p0 p1 p2 i j k < _; omega

theorem enc0_sur (p0 p1 p2 r : Nat) (hr : r < nb0 p0 p1 p2) : ∃ x, valid0 p0 p1 p2 x ∧ enc0 p0 p1 p2 x = r := by
  obtain ⟨i, j, k, hi, hj, hk, e⟩ := ln0_cases hr
  exact ⟨(0, i, j, k), ⟨rfl, hi, hj, hk⟩, e⟩

theorem enc1_sur (p0 p1 p2 r : Nat) (hr : r < nb1 p0 p1 p2) : ∃ x, valid1 p0 p1 p2 x ∧ enc1 p0 p1 p2 x = r := by
  rcases ln1_cases hr with ⟨i, j, k, hi, hj, hk, e⟩ | ⟨i, j, k, hi, hj, hk, e⟩ | ⟨i, j, k, hi, hj, hk, e⟩
  · exact ⟨(0, i, j, k), Or.inl ⟨rfl, hi, hj, hk⟩, e⟩
  · exact ⟨(1, i, j, k), Or.inr (Or.inl ⟨rfl, hi, hj, hk⟩), e⟩
  · exact ⟨(2, i, j, k), Or.inr (Or.inr ⟨rfl, hi, hj, hk⟩), e⟩

theorem enc2_sur (p0 p1 p2 r : Nat) (hr : r < nb2 p0 p1 p2) : ∃ x, valid2 p0 p1 p2 x ∧ enc2 p0 p1 p2 x = r := by
  rcases ln2_cases hr with ⟨i, j, k, hi, hj, hk, e⟩ | ⟨i, j, k, hi, hj, hk, e⟩ | ⟨i, j, k, hi, hj, hk, e⟩
  · exact ⟨(0, i, j, k), Or.inl ⟨rfl, hi, hj, hk⟩, e⟩
  · exact ⟨(1, i, j, k), Or.inr (Or.inl ⟨rfl, hi, hj, hk⟩), e⟩
  · exact ⟨(2, i, j, k), Or.inr (Or.inr ⟨rfl, hi, hj, hk⟩), e⟩

theorem slice_x (c x a b : Nat) (f : Place → Nat) : (slice c [x] (List.range a) (List.range b)).map f = ravelF a b fun j k => f (c, x, j, k) := by
  simp [slice, ravelF, List.map_flatMap, ← List.map_eq_flatMap, Function.comp_def]

theorem slice_y (c y a b : Nat) (f : Place → Nat) : (slice c (List.range a) [y] (List.range b)).map f = ravelF a b fun i k => f (c, i, y, k) := by
  simp [slice, ravelF, List.map_flatMap, Function.comp_def]

theorem slice_z (c z a b : Nat) (f : Place → Nat) : (slice c (List.range a) (List.range b) [z]).map f = ravelF a b fun i j => f (c, i, j, z) := by
  simp [slice, ravelF, List.map_flatMap, Function.comp_def]

/-- the places of the sides are those of the dofs that the form finds on its sides. -/
theorem dofs0_eq (p0 p1 p2 : Nat) (s : Side) : (side0 p0 p1 p2 s).map (enc0 p0 p1 p2) = dofs0 p0 p1 p2 s := by
  cases s <;> simp only [side0, dofs0, slice_x, slice_y, slice_z] <;> rfl
theorem dofs1_eq (p0 p1 p2 : Nat) (s : Side) : (side1 p0 p1 p2 s).map (enc1 p0 p1 p2) = dofs1 p0 p1 p2 s := by
  cases s <;> simp only [side1, dofs1, List.map_append, slice_x, slice_y, slice_z] <;> rfl
theorem dofs2_eq (p0 p1 p2 : Nat) (s : Side) : (traceSide2 p0 p1 p2 s).map (enc2 p0 p1 p2) = dofs2 p0 p1 p2 s := by
  cases s <;> simp only [traceSide2, dofs2, slice_x, slice_y, slice_z] <;> rfl

theorem exists_side {P : Side → Prop} : (∃ s, P s) ↔ P .N ∨ P .S ∨ P .W ∨ P .E ∨ P .B ∨ P .F := by
  constructor
  · rintro ⟨s, h⟩; cases s <;> simp [h]
  · rintro (h | h | h | h | h | h) <;> exact ⟨_, h⟩

theorem disjoint_of {l m : List Place} (h : ∀ x ∈ l, x ∈ m → False) : l.Disjoint m := fun x hx hy => h x hx hy

/-- prove one of the disjuncts. -/
macro "pick" : tactic =>
  `(tactic| repeat' (first | (left; ((repeat' apply And.intro) <;> omega)) | right | ((repeat' apply And.intro) <;> omega)))

/-- the places on the surface. -/
def surf0 (p0 p1 p2 : Nat) (x : Place) : Prop :=
  valid0 p0 p1 p2 x ∧ (x.2.1 = 0 ∨ x.2.1 = p0 ∨ x.2.2.1 = 0 ∨ x.2.2.1 = p1 ∨ x.2.2.2 = 0 ∨ x.2.2.2 = p2)
@[inherit_doc surf0] def surf1 (p0 p1 p2 : Nat) (x : Place) : Prop :=
  (x.1 = 0 ∧ x.2.1 < p0 ∧ x.2.2.1 < p1 + 1 ∧ x.2.2.2 < p2 + 1 ∧ (x.2.2.1 = 0 ∨ x.2.2.1 = p1 ∨ x.2.2.2 = 0 ∨ x.2.2.2 = p2)) ∨
  (x.1 = 1 ∧ x.2.1 < p0 + 1 ∧ x.2.2.1 < p1 ∧ x.2.2.2 < p2 + 1 ∧ (x.2.1 = 0 ∨ x.2.1 = p0 ∨ x.2.2.2 = 0 ∨ x.2.2.2 = p2)) ∨
  (x.1 = 2 ∧ x.2.1 < p0 + 1 ∧ x.2.2.1 < p1 + 1 ∧ x.2.2.2 < p2 ∧ (x.2.1 = 0 ∨ x.2.1 = p0 ∨ x.2.2.1 = 0 ∨ x.2.2.1 = p1))
@[inherit_doc surf0] def surf2 (p0 p1 p2 : Nat) (x : Place) : Prop :=
  (x.1 = 0 ∧ x.2.2.1 < p1 ∧ x.2.2.2 < p2 ∧ (x.2.1 = 0 ∨ x.2.1 = p0)) ∨ (x.1 = 1 ∧ x.2.1 < p0 ∧ x.2.2.2 < p2 ∧ (x.2.2.1 = 0 ∨ x.2.2.1 = p1)) ∨
  (x.1 = 2 ∧ x.2.1 < p0 ∧ x.2.2.1 < p1 ∧ (x.2.2.2 = 0 ∨ x.2.2.2 = p2))

theorem tri (p i : Nat) (h : i < p + 1) : i = 0 ∨ i = p ∨ (1 ≤ i ∧ i < p) := by omega

theorem mem_flat0 (p0 p1 p2 : Nat) (x : Place) : x ∈ (slices0 p0 p1 p2).flatten ↔ surf0 p0 p1 p2 x := by
  obtain ⟨c, i, j, k⟩ := x
  simp only [slices0, surf0, valid0, List.flatten_cons, List.flatten_nil, List.append_nil, List.mem_append, mem_slice, mem_inner, List.mem_range,
    List.mem_singleton]
  constructor
  · rintro (h | h | h | h | h | h) <;> refine ⟨⟨?_, ?_, ?_, ?_⟩, ?_⟩ <;> omega
  · rintro ⟨⟨hc, hi, hj, hk⟩, h⟩
    rcases tri _ _ hi with a | a | a <;> rcases tri _ _ hj with b | b | b <;> rcases tri _ _ hk with d | d | d <;> pick

theorem mem_side0 (p0 p1 p2 : Nat) (x : Place) : (∃ s, x ∈ side0 p0 p1 p2 s) ↔ surf0 p0 p1 p2 x := by
  obtain ⟨c, i, j, k⟩ := x
  simp only [exists_side, side0, surf0, valid0, mem_slice, List.mem_range, List.mem_singleton]
  constructor
  · rintro (h | h | h | h | h | h) <;> refine ⟨⟨?_, ?_, ?_, ?_⟩, ?_⟩ <;> omega
  · rintro ⟨⟨hc, hi, hj, hk⟩, h⟩
    rcases h with h | h | h | h | h | h <;> pick

theorem split0 (p0 p1 p2 : Nat) (x : Place) : (valid0 p0 p1 p2 x ↔ surf0 p0 p1 p2 x ∨ x ∈ intPl0 p0 p1 p2) ∧ (surf0 p0 p1 p2 x → x ∉ intPl0 p0 p1 p2) := by
  obtain ⟨c, i, j, k⟩ := x
  simp only [surf0, valid0, intPl0, mem_slice, mem_inner]
  refine ⟨⟨?_, ?_⟩, ?_⟩
  · rintro ⟨hc, hi, hj, hk⟩
    rcases tri _ _ hi with a | a | a <;> rcases tri _ _ hj with b | b | b <;> rcases tri _ _ hk with d | d | d <;> pick
  · rintro (h | h) <;> omega
  · rintro ⟨⟨hc, hi, hj, hk⟩, h⟩
    rcases h with h | h | h | h | h | h <;> omega

theorem mem_flat1 (p0 p1 p2 : Nat) (x : Place) : x ∈ (slices1 p0 p1 p2).flatten ↔ surf1 p0 p1 p2 x := by
  obtain ⟨c, i, j, k⟩ := x
  simp only [slices1, surf1, List.flatten_cons, List.flatten_nil, List.append_nil, List.mem_append, mem_slice, mem_inner, List.mem_range,
    List.mem_singleton]
  constructor
  · rintro (h | h | h | h | h | h | h | h | h | h | h | h) <;> pick
  · rintro (⟨hc, hi, hj, hk, h⟩ | ⟨hc, hi, hj, hk, h⟩ | ⟨hc, hi, hj, hk, h⟩)
    · rcases tri _ _ hj with b | b | b <;> rcases tri _ _ hk with d | d | d <;> pick
    · rcases tri _ _ hi with b | b | b <;> rcases tri _ _ hk with d | d | d <;> pick
    · rcases tri _ _ hi with b | b | b <;> rcases tri _ _ hj with d | d | d <;> pick

theorem mem_side1 (p0 p1 p2 : Nat) (x : Place) : (∃ s, x ∈ side1 p0 p1 p2 s) ↔ surf1 p0 p1 p2 x := by
  obtain ⟨c, i, j, k⟩ := x
  simp only [exists_side, side1, surf1, List.mem_append, mem_slice, List.mem_range, List.mem_singleton, or_assoc]
  constructor
  · rintro (h | h | h | h | h | h | h | h | h | h | h | h) <;> pick
  · rintro (⟨hc, hi, hj, hk, h⟩ | ⟨hc, hi, hj, hk, h⟩ | ⟨hc, hi, hj, hk, h⟩) <;> rcases h with h | h | h | h <;> pick

theorem split1 (p0 p1 p2 : Nat) (x : Place) : (valid1 p0 p1 p2 x ↔ surf1 p0 p1 p2 x ∨ x ∈ intPl1 p0 p1 p2) ∧ (surf1 p0 p1 p2 x → x ∉ intPl1 p0 p1 p2) := by
  obtain ⟨c, i, j, k⟩ := x
  simp only [surf1, valid1, intPl1, List.mem_append, mem_slice, mem_inner, List.mem_range, or_assoc]
  refine ⟨⟨?_, ?_⟩, ?_⟩
  · rintro (⟨hc, hi, hj, hk⟩ | ⟨hc, hi, hj, hk⟩ | ⟨hc, hi, hj, hk⟩)
    · rcases tri _ _ hj with b | b | b <;> rcases tri _ _ hk with d | d | d <;> pick
    · rcases tri _ _ hi with b | b | b <;> rcases tri _ _ hk with d | d | d <;> pick
    · rcases tri _ _ hi with b | b | b <;> rcases tri _ _ hj with d | d | d <;> pick
  · rintro (⟨hc, hi, hj, hk, -⟩ | ⟨hc, hi, hj, hk, -⟩ | ⟨hc, hi, hj, hk, -⟩ | h | h | h) <;> pick
  · rintro h (g | g | g) <;> rcases h with ⟨hc, hi, hj, hk, h⟩ | ⟨hc, hi, hj, hk, h⟩ | ⟨hc, hi, hj, hk, h⟩ <;> omega

theorem mem_side2 (p0 p1 p2 : Nat) (x : Place) : (∃ s, x ∈ traceSide2 p0 p1 p2 s) ↔ surf2 p0 p1 p2 x := by
  obtain ⟨c, i, j, k⟩ := x
  simp only [exists_side, traceSide2, surf2, mem_slice, List.mem_range, List.mem_singleton]
  constructor
  · rintro (h | h | h | h | h | h) <;> pick
  · rintro (⟨hc, hi, hj, h⟩ | ⟨hc, hi, hj, h⟩ | ⟨hc, hi, hj, h⟩) <;> rcases h with h | h <;> pick

theorem split2 (p0 p1 p2 : Nat) (x : Place) : (valid2 p0 p1 p2 x ↔ surf2 p0 p1 p2 x ∨ x ∈ intPl2 p0 p1 p2) ∧ (surf2 p0 p1 p2 x → x ∉ intPl2 p0 p1 p2) := by
  obtain ⟨c, i, j, k⟩ := x
  simp only [surf2, valid2, intPl2, List.mem_append, mem_slice, mem_inner, List.mem_range, or_assoc]
  refine ⟨⟨?_, ?_⟩, ?_⟩
  · rintro (⟨hc, hi, hj, hk⟩ | ⟨hc, hi, hj, hk⟩ | ⟨hc, hi, hj, hk⟩)
    · rcases tri _ _ hi with b | b | b <;> pick
    · rcases tri _ _ hj with b | b | b <;> pick
    · rcases tri _ _ hk with b | b | b <;> pick
  · rintro (⟨hc, hi, hj, h | h⟩ | ⟨hc, hi, hj, h | h⟩ | ⟨hc, hi, hj, h | h⟩ | h | h | h) <;> pick
  · rintro h (g | g | g) <;> rcases h with ⟨hc, hi, hj, h⟩ | ⟨hc, hi, hj, h⟩ | ⟨hc, hi, hj, h⟩ <;> omega

theorem nodup_flat0 (p0 p1 p2 : Nat) (h0 : 0 < p0) (h1 : 0 < p1) (h2 : 0 < p2) : (slices0 p0 p1 p2).flatten.Nodup := by
  rw [List.nodup_flatten]
  constructor
  · intro l hl
    simp only [slices0, List.mem_cons, List.not_mem_nil, or_false] at hl
    rcases hl with rfl | rfl | rfl | rfl | rfl | rfl <;>
      exact nodup_slice _ _ _ _ (by simp [nodup_inner]) (by simp [nodup_inner, List.nodup_range]) (by simp [List.nodup_range])
  · simp only [slices0, List.pairwise_cons, List.mem_cons, List.not_mem_nil, or_false, forall_eq_or_imp, forall_eq, false_implies, implies_true,
      List.Pairwise.nil, and_true]
    refine ⟨⟨?_, ?_, ?_, ?_, ?_⟩, ⟨?_, ?_, ?_, ?_⟩, ⟨?_, ?_, ?_⟩, ⟨?_, ?_⟩, ?_⟩ <;> apply disjoint_of <;> intro x hx hy <;>
      simp only [mem_slice, mem_inner, List.mem_range, List.mem_singleton] at hx hy <;> omega

theorem nodup_flat1 (p0 p1 p2 : Nat) (h0 : 0 < p0) (h1 : 0 < p1) (h2 : 0 < p2) : (slices1 p0 p1 p2).flatten.Nodup := by
  rw [List.nodup_flatten]
  constructor
  · intro l hl
    simp only [slices1, List.mem_cons, List.not_mem_nil, or_false] at hl
    rcases hl with rfl | rfl | rfl | rfl | rfl | rfl | rfl | rfl | rfl | rfl | rfl | rfl <;>
      exact nodup_slice _ _ _ _ (by simp [nodup_inner, List.nodup_range]) (by simp [nodup_inner, List.nodup_range]) (by simp [List.nodup_range])
  · simp only [slices1, List.pairwise_cons, List.mem_cons, List.not_mem_nil, or_false, forall_eq_or_imp, forall_eq, false_implies, implies_true,
      List.Pairwise.nil, and_true]
    refine ⟨⟨?_, ?_, ?_, ?_, ?_, ?_, ?_, ?_, ?_, ?_, ?_⟩, ⟨?_, ?_, ?_, ?_, ?_, ?_, ?_, ?_, ?_, ?_⟩, ⟨?_, ?_, ?_, ?_, ?_, ?_, ?_, ?_, ?_⟩,
      ⟨?_, ?_, ?_, ?_, ?_, ?_, ?_, ?_⟩, ⟨?_, ?_, ?_, ?_, ?_, ?_, ?_⟩, ⟨?_, ?_, ?_, ?_, ?_, ?_⟩, ⟨?_, ?_, ?_, ?_, ?_⟩, ⟨?_, ?_, ?_, ?_⟩,
      ⟨?_, ?_, ?_⟩, ⟨?_, ?_⟩, ?_⟩ <;> apply disjoint_of <;> intro x hx hy <;>
      simp only [mem_slice, mem_inner, List.mem_range, List.mem_singleton] at hx hy <;> omega

/-- **C83, local numbering.** The 0-trace of an element: the numbers of the trace dofs on the sides are `0, ..., n - 1` with the
`n` of `num.basis`; two are the same exactly if they are the same node; the nodes on the sides are those not inside. -/
theorem c83_layout0 (p0 p1 p2 : Nat) (h0 : 0 < p0) (h1 : 0 < p1) (h2 : 0 < p2) :
    ∃ lg n, localGathering (slices0 p0 p1 p2) (side0 p0 p1 p2) = some lg ∧ check lg = some n ∧ (n : Int) = nbNon0 p0 p1 p2 ∧
      SideLayout (nb0 p0 p1 p2) (internal0 p0 p1 p2) lg (dofs0 p0 p1 p2) := by
  obtain ⟨lg, e1, e2, e3⟩ := sideLayout_of (nb := nb0 p0 p1 p2) (I := intPl0 p0 p1 p2) (slices := slices0 p0 p1 p2) (sides := side0 p0 p1 p2)
    (enc := enc0 p0 p1 p2) (valid := valid0 p0 p1 p2) (nodup_flat0 p0 p1 p2 h0 h1 h2)
    (fun x => (mem_flat0 p0 p1 p2 x).trans (mem_side0 p0 p1 p2 x).symm) (fun x => by rw [mem_flat0]; exact (split0 p0 p1 p2 x).1)
    (fun x hx => (split0 p0 p1 p2 x).2 ((mem_flat0 p0 p1 p2 x).1 hx)) (enc0_inj p0 p1 p2) (enc0_bd p0 p1 p2) (enc0_sur p0 p1 p2) (by
      intro s h
      have := congrArg List.length h
      cases s <;> simp [side0, length_slice] at this)
  refine ⟨lg, _, e1, e2, ?_, ?_⟩
  · obtain ⟨a, rfl⟩ := Nat.exists_eq_add_of_lt h0
    obtain ⟨b, rfl⟩ := Nat.exists_eq_add_of_lt h1
    obtain ⟨c, rfl⟩ := Nat.exists_eq_add_of_lt h2
    simp [slices0, length_slice, inner, nbNon0, nbT0]
    ring
  · have : (fun s => (side0 p0 p1 p2 s).map (enc0 p0 p1 p2)) = dofs0 p0 p1 p2 := by funext s; exact dofs0_eq p0 p1 p2 s
    rw [this, ← internal0_eq] at e3
    exact e3

/-- **C83, local numbering.** The 1-trace of an element. -/
theorem c83_layout1 (p0 p1 p2 : Nat) (h0 : 0 < p0) (h1 : 0 < p1) (h2 : 0 < p2) :
    ∃ lg n, localGathering (slices1 p0 p1 p2) (side1 p0 p1 p2) = some lg ∧ check lg = some n ∧ (n : Int) = nbNon1 p0 p1 p2 ∧
      SideLayout (nb1 p0 p1 p2) (internal1 p0 p1 p2) lg (dofs1 p0 p1 p2) := by
  obtain ⟨lg, e1, e2, e3⟩ := sideLayout_of (nb := nb1 p0 p1 p2) (I := intPl1 p0 p1 p2) (slices := slices1 p0 p1 p2) (sides := side1 p0 p1 p2)
    (enc := enc1 p0 p1 p2) (valid := valid1 p0 p1 p2) (nodup_flat1 p0 p1 p2 h0 h1 h2)
    (fun x => (mem_flat1 p0 p1 p2 x).trans (mem_side1 p0 p1 p2 x).symm) (fun x => by rw [mem_flat1]; exact (split1 p0 p1 p2 x).1)
    (fun x hx => (split1 p0 p1 p2 x).2 ((mem_flat1 p0 p1 p2 x).1 hx)) (enc1_inj p0 p1 p2) (enc1_bd p0 p1 p2) (enc1_sur p0 p1 p2) (by
      intro s h
      have := congrArg List.length h
      cases s <;> simp [side1, length_slice] at this <;> omega)
  refine ⟨lg, _, e1, e2, ?_, ?_⟩
  · obtain ⟨a, rfl⟩ := Nat.exists_eq_add_of_lt h0
    obtain ⟨b, rfl⟩ := Nat.exists_eq_add_of_lt h1
    obtain ⟨c, rfl⟩ := Nat.exists_eq_add_of_lt h2
    simp [slices1, length_slice, inner, nbNon1, nbT1]
    ring
  · have : (fun s => (side1 p0 p1 p2 s).map (enc1 p0 p1 p2)) = dofs1 p0 p1 p2 := by funext s; exact dofs1_eq p0 p1 p2 s
    rw [this, ← internal1_eq] at e3
    exact e3

/-- the sides of the 2-trace one after the other. -/
def slices2 (px py pz : Nat) : List (List Place) := six.map (traceSide2 px py pz)

theorem idxOf_range' (pre l post : List Place) (hn : (pre ++ l ++ post).Nodup) : l.map (fun x => (pre ++ l ++ post).idxOf x) = List.range' pre.length l.length := by
  apply List.ext_getElem
  · simp
  · intro k h1 h2
    rw [List.length_map] at h1
    rw [List.getElem_map, List.getElem_range']
    have : (pre ++ l ++ post)[pre.length + k]'(by simp; omega) = l[k] := by
      rw [List.getElem_append_left (by simp; omega), List.getElem_append_right (by omega)]
      congr 1
      omega
    rw [← this, List.Nodup.idxOf_getElem hn]
    omega

/-- the 2-trace of an element, for any degrees. -/
theorem layout2_all (p0 p1 p2 : Nat) (h0 : 0 < p0) (h1 : 0 < p1) (h2 : 0 < p2) :
    check (lg2 p0 p1 p2) = some (nbT2 p0 p1 p2) ∧
      SideLayout (nb2 p0 p1 p2) ((intPl2 p0 p1 p2).map (enc2 p0 p1 p2)) (lg2 p0 p1 p2) (dofs2 p0 p1 p2) := by
  have hnd : (slices2 p0 p1 p2).flatten.Nodup := by
    rw [List.nodup_flatten]
    constructor
    · intro l hl
      simp only [slices2, six, List.map_cons, List.map_nil, traceSide2, List.mem_cons, List.not_mem_nil, or_false] at hl
      rcases hl with rfl | rfl | rfl | rfl | rfl | rfl <;>
        exact nodup_slice _ _ _ _ (by simp [List.nodup_range]) (by simp [List.nodup_range]) (by simp [List.nodup_range])
    · simp only [slices2, six, List.map_cons, List.map_nil, traceSide2, List.pairwise_cons, List.mem_cons, List.not_mem_nil, or_false, forall_eq_or_imp, forall_eq,
        false_implies, implies_true, List.Pairwise.nil, and_true]
      refine ⟨⟨?_, ?_, ?_, ?_, ?_⟩, ⟨?_, ?_, ?_, ?_⟩, ⟨?_, ?_, ?_⟩, ⟨?_, ?_⟩, ?_⟩ <;> apply disjoint_of <;> intro x hx hy <;>
        simp only [mem_slice, List.mem_range, List.mem_singleton] at hx hy <;> omega
  have hmemf : ∀ x, x ∈ (slices2 p0 p1 p2).flatten ↔ ∃ s, x ∈ traceSide2 p0 p1 p2 s := by
    intro x
    simp only [slices2, List.mem_flatten, List.mem_map]
    constructor
    · rintro ⟨l, ⟨s, _, rfl⟩, hx⟩; exact ⟨s, hx⟩
    · rintro ⟨s, hx⟩; exact ⟨_, ⟨s, mem_six s, rfl⟩, hx⟩
  obtain ⟨lg, e1, e2, e3⟩ := sideLayout_of (nb := nb2 p0 p1 p2) (I := intPl2 p0 p1 p2) (slices := slices2 p0 p1 p2) (sides := traceSide2 p0 p1 p2)
    (enc := enc2 p0 p1 p2) (valid := valid2 p0 p1 p2) hnd hmemf (fun x => by rw [hmemf, mem_side2]; exact (split2 p0 p1 p2 x).1)
    (fun x hx => (split2 p0 p1 p2 x).2 ((mem_side2 p0 p1 p2 x).1 ((hmemf x).1 hx))) (enc2_inj p0 p1 p2) (enc2_bd p0 p1 p2) (enc2_sur p0 p1 p2) (by
      intro s h
      have := congrArg List.length h
      cases s <;> simp [traceSide2, length_slice] at this <;> omega)
  have hlg : lg = lg2 p0 p1 p2 := by
    rw [localGathering_eq _ _ hnd (fun s x hx => (hmemf x).2 ⟨s, hx⟩), Option.some.injEq] at e1
    rw [← e1]
    have hfl : (slices2 p0 p1 p2).flatten = traceSide2 p0 p1 p2 .N ++ (traceSide2 p0 p1 p2 .S ++ (traceSide2 p0 p1 p2 .W ++ (traceSide2 p0 p1 p2 .E ++
        (traceSide2 p0 p1 p2 .B ++ traceSide2 p0 p1 p2 .F)))) := by simp [slices2, six]
    have key : ∀ pre l post, (slices2 p0 p1 p2).flatten = pre ++ l ++ post → l.map (fun x => (slices2 p0 p1 p2).flatten.idxOf x) = List.range' pre.length l.length := by
      intro pre l post h
      rw [h] at hnd ⊢
      exact idxOf_range' pre l post hnd
    have lN : (traceSide2 p0 p1 p2 .N).length = p1 * p2 := by simp [traceSide2, length_slice]
    have lS : (traceSide2 p0 p1 p2 .S).length = p1 * p2 := by simp [traceSide2, length_slice]
    have lW : (traceSide2 p0 p1 p2 .W).length = p0 * p2 := by simp [traceSide2, length_slice]
    have lE : (traceSide2 p0 p1 p2 .E).length = p0 * p2 := by simp [traceSide2, length_slice]
    have lB : (traceSide2 p0 p1 p2 .B).length = p0 * p1 := by simp [traceSide2, length_slice]
    have lF : (traceSide2 p0 p1 p2 .F).length = p0 * p1 := by simp [traceSide2, length_slice]
    have kN := key [] (traceSide2 p0 p1 p2 .N) _ (by rw [hfl]; simp; rfl)
    have kS := key (traceSide2 p0 p1 p2 .N) (traceSide2 p0 p1 p2 .S) _ (by rw [hfl]; simp; rfl)
    have kW := key (traceSide2 p0 p1 p2 .N ++ traceSide2 p0 p1 p2 .S) (traceSide2 p0 p1 p2 .W) _ (by rw [hfl]; simp; rfl)
    have kE := key (traceSide2 p0 p1 p2 .N ++ traceSide2 p0 p1 p2 .S ++ traceSide2 p0 p1 p2 .W) (traceSide2 p0 p1 p2 .E) _ (by rw [hfl]; simp; rfl)
    have kB := key (traceSide2 p0 p1 p2 .N ++ traceSide2 p0 p1 p2 .S ++ traceSide2 p0 p1 p2 .W ++ traceSide2 p0 p1 p2 .E) (traceSide2 p0 p1 p2 .B) _ (by rw [hfl]; simp; rfl)
    have kF := key (traceSide2 p0 p1 p2 .N ++ traceSide2 p0 p1 p2 .S ++ traceSide2 p0 p1 p2 .W ++ traceSide2 p0 p1 p2 .E ++ traceSide2 p0 p1 p2 .B) (traceSide2 p0 p1 p2 .F) []
      (by rw [hfl]; simp)
    simp only [List.length_append, List.length_nil, lN, lS, lW, lE, lB, lF] at kN kS kW kE kB kF
    simp only [six, List.map_cons, List.map_nil, kN, kS, kW, kE, kB, kF]
    rfl
  subst hlg
  refine ⟨?_, ?_⟩
  · rw [e2]
    congr 1
    simp [slices2, six, traceSide2, length_slice, nbT2]
    ring
  · have : (fun s => (traceSide2 p0 p1 p2 s).map (enc2 p0 p1 p2)) = dofs2 p0 p1 p2 := by funext s; exact dofs2_eq p0 p1 p2 s
    rw [this] at e3
    exact e3

/-- **C83, local numbering.** The 2-trace of an element. -/
theorem c83_layout2 (p0 p1 p2 : Nat) (h0 : 0 < p0) (h1 : 0 < p1) (h2 : 0 < p2) (ild : List Nat) (hi : internal2 p0 p1 p2 = some ild) :
    check (lg2 p0 p1 p2) = some (nbT2 p0 p1 p2) ∧ SideLayout (nb2 p0 p1 p2) ild (lg2 p0 p1 p2) (dofs2 p0 p1 p2) := by
  have hild : ild = (intPl2 p0 p1 p2).map (enc2 p0 p1 p2) := by
    by_cases hone : p0 = 1 ∧ p1 = 1 ∧ p2 = 1
    · obtain ⟨rfl, rfl, rfl⟩ := hone
      rw [c83_degree_one_counterexample] at hi
      cases hi
    · rw [internal2_eq _ _ _ hone] at hi
      exact (Option.some.inj hi).symm
  rw [hild]
  exact layout2_all p0 p1 p2 h0 h1 h2

example : (localGathering (slices0 2 1 1) (side0 2 1 1)).map (fun l => l.map Prod.snd) =
    some [[0, 1, 2, 3], [4, 5, 6, 7], [0, 8, 4, 2, 9, 6], [1, 10, 5, 3, 11, 7], [0, 8, 4, 1, 10, 5], [2, 9, 6, 3, 11, 7]] := by decide

end Mifem.Props
