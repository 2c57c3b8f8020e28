import Verif.Model.Mesh
import Mathlib.Data.List.Range
import Mathlib.Data.List.Nodup
import Mathlib.Data.List.Perm.Basic
import Mathlib.Tactic.Ring
import Mathlib.Tactic.Linarith
import Mathlib.Algebra.BigOperators.Group.List.Basic

/-!
# Boxes of indices
-/

namespace Mifem.Mesh
open Mifem.Naive

/-- the index `i` is in the array of the given shape. -/
def InBox (sh i : List Nat) : Prop := i.length = sh.length ∧ ∀ d, d < sh.length → i.getD d 0 < sh.getD d 0

theorem inBox_nil (i : List Nat) : InBox [] i ↔ i = [] := by
  constructor
  · intro h
    exact List.eq_nil_of_length_eq_zero h.1
  · rintro rfl
    exact ⟨rfl, fun d hd => absurd hd (by simp)⟩

theorem inBox_cons (n : Nat) (ns : List Nat) (i : List Nat) : InBox (n :: ns) i ↔ ∃ x xs, i = x :: xs ∧ x < n ∧ InBox ns xs := by
  constructor
  · rintro ⟨h1, h2⟩
    cases i with
    | nil => exact absurd h1 (by simp)
    | cons x xs =>
      refine ⟨x, xs, rfl, ?_, ?_, ?_⟩
      · exact h2 0 (by simp)
      · simpa using h1
      · intro d hd
        have := h2 (d + 1) (by simpa using hd)
        simpa using this
  · rintro ⟨x, xs, rfl, h1, h2, h3⟩
    refine ⟨by simpa using h2, ?_⟩
    intro d hd
    cases d with
    | zero => simpa using h1
    | succ d =>
      have := h3 d (by simpa using hd)
      simpa using this

theorem mem_cOrder (sh : List Nat) : ∀ i, i ∈ cOrder sh ↔ InBox sh i := by
  induction sh with
  | nil =>
    intro i
    rw [inBox_nil]
    simp [cOrder]
  | cons n ns ih =>
    intro i
    rw [inBox_cons]
    simp only [cOrder, List.mem_flatMap, List.mem_map, List.mem_range, ih]
    constructor
    · rintro ⟨x, hx, xs, hxs, rfl⟩
      exact ⟨x, xs, rfl, hx, hxs⟩
    · rintro ⟨x, xs, rfl, hx, hxs⟩
      exact ⟨x, hx, xs, hxs, rfl⟩

theorem mem_fOrder (sh : List Nat) : ∀ i, i ∈ fOrder sh ↔ InBox sh i := by
  induction sh with
  | nil =>
    intro i
    rw [inBox_nil]
    simp [fOrder]
  | cons n ns ih =>
    intro i
    rw [inBox_cons]
    simp only [fOrder, List.mem_flatMap, List.mem_map, List.mem_range, ih]
    constructor
    · rintro ⟨xs, hxs, x, hx, rfl⟩
      exact ⟨x, xs, rfl, hx, hxs⟩
    · rintro ⟨x, xs, rfl, hx, hxs⟩
      exact ⟨xs, hxs, x, hx, rfl⟩

theorem map_range_mul (n : Nat) (k : Nat) : (List.range k).flatMap (fun v => (List.range n).map fun i => i + n * v) = List.range (n * k) := by
  induction k with
  | zero => simp
  | succ k ih =>
    rw [List.range_succ, List.flatMap_append, ih, Nat.mul_succ, List.range_add]
    congr 1
    simp only [List.flatMap_cons, List.flatMap_nil, List.append_nil]
    apply List.map_congr_left
    intro i _
    omega

/-- `fNum` counts the places in F order. -/
theorem map_fNum (sh : List Nat) : (fOrder sh).map (fNum sh) = List.range sh.prod := by
  induction sh with
  | nil => rfl
  | cons n ns ih =>
    simp only [fOrder, List.prod_cons, List.map_flatMap, List.map_map]
    have : (fun l => (List.range n).map (fNum (n :: ns) ∘ fun i => i :: l)) =
        (fun v => (List.range n).map fun i => i + n * v) ∘ fNum ns := by
      funext l
      rfl
    rw [this]
    have h2 : (fOrder ns).flatMap ((fun v => (List.range n).map fun i => i + n * v) ∘ fNum ns) =
        ((fOrder ns).map (fNum ns)).flatMap fun v => (List.range n).map fun i => i + n * v := by
      rw [List.flatMap_map]
      rfl
    rw [h2, ih, map_range_mul]

/-- `cNum` counts the places in C order. -/
theorem map_cNum (sh : List Nat) : (cOrder sh).map (cNum sh) = List.range sh.prod := by
  induction sh with
  | nil => rfl
  | cons n ns ih =>
    simp only [cOrder, List.prod_cons, List.map_flatMap, List.map_map]
    have : ∀ i, (cOrder ns).map (cNum (n :: ns) ∘ fun l => i :: l) = (List.range ns.prod).map fun v => v + ns.prod * i := by
      intro i
      rw [← ih, List.map_map]
      apply List.map_congr_left
      intro l _
      simp only [Function.comp, cNum]
      ring
    simp only [this]
    rw [map_range_mul, Nat.mul_comm]

theorem fOrder_nodup (sh : List Nat) : (fOrder sh).Nodup := by
  have h : ((fOrder sh).map (fNum sh)).Nodup := by
    rw [map_fNum]
    exact List.nodup_range
  exact List.Nodup.of_map _ h

theorem cOrder_nodup (sh : List Nat) : (cOrder sh).Nodup := by
  have h : ((cOrder sh).map (cNum sh)).Nodup := by
    rw [map_cNum]
    exact List.nodup_range
  exact List.Nodup.of_map _ h

theorem fOrder_perm (sh : List Nat) : (fOrder sh).Perm (cOrder sh) := by
  rw [List.perm_ext_iff_of_nodup (fOrder_nodup sh) (cOrder_nodup sh)]
  intro i
  rw [mem_cOrder, mem_fOrder]

theorem cOrder_length (sh : List Nat) : (cOrder sh).length = sh.prod := by
  have := congrArg List.length (map_cNum sh)
  simpa using this

/-! ## Numberings of a box -/

/-- a strictly increasing (in every index) numbering of a box with the numbers `start, start + 1, ...`. -/
structure Numbers (start : Nat) (E : EArr) : Prop where
  bound : ∀ i, InBox E.shape i → start ≤ E.at_ i ∧ E.at_ i < start + E.shape.prod
  inj : ∀ i j, InBox E.shape i → InBox E.shape j → E.at_ i = E.at_ j → i = j
  mono : ∀ i j, InBox E.shape i → InBox E.shape j → (∀ d, i.getD d 0 ≤ j.getD d 0) → E.at_ i ≤ E.at_ j

theorem Numbers.surj {start : Nat} {E : EArr} (h : Numbers start E) (v : Nat) (h1 : start ≤ v) (h2 : v < start + E.shape.prod) :
    ∃ i, InBox E.shape i ∧ E.at_ i = v := by
  have hnd : ((cOrder E.shape).map E.at_).Nodup := by
    apply List.Nodup.map_on
    · intro i hi j hj he
      exact h.inj i j ((mem_cOrder _ _).1 hi) ((mem_cOrder _ _).1 hj) he
    · exact cOrder_nodup _
  have hsub : (cOrder E.shape).map E.at_ ⊆ List.range' start E.shape.prod := by
    intro x hx
    obtain ⟨i, hi, rfl⟩ := List.mem_map.1 hx
    rw [List.mem_range'_1]
    exact h.bound i ((mem_cOrder _ _).1 hi)
  have hp : ((cOrder E.shape).map E.at_).Perm (List.range' start E.shape.prod) := by
    apply List.Subperm.perm_of_length_le
    · exact List.subperm_of_subset hnd hsub
    · simp [cOrder_length]
  have : v ∈ (cOrder E.shape).map E.at_ := by
    rw [hp.mem_iff, List.mem_range'_1]
    exact ⟨h1, h2⟩
  obtain ⟨i, hi, rfl⟩ := List.mem_map.1 this
  exact ⟨i, (mem_cOrder _ _).1 hi, rfl⟩

theorem prod_pos_of_inBox (sh i : List Nat) (h : InBox sh i) : 0 < sh.prod := by
  rw [← cOrder_length]
  exact List.length_pos_of_mem ((mem_cOrder sh i).2 h)

theorem fNum_mono : ∀ (sh i j : List Nat), i.length = j.length → (∀ d, i.getD d 0 ≤ j.getD d 0) → fNum sh i ≤ fNum sh j := by
  intro sh
  induction sh with
  | nil =>
    intro i j _ _
    simp [fNum]
  | cons n ns ih =>
    intro i j hl h
    cases i with
    | nil =>
      cases j with
      | nil => exact Nat.le_refl _
      | cons y ys => exact absurd hl (by simp)
    | cons x xs =>
      cases j with
      | nil => exact absurd hl (by simp)
      | cons y ys =>
        simp only [fNum]
        have h0 : x ≤ y := by simpa using h 0
        have h1 : fNum ns xs ≤ fNum ns ys := ih xs ys (by simpa using hl) fun d => by simpa using h (d + 1)
        have := Nat.mul_le_mul_left n h1
        omega

theorem cNum_mono : ∀ (sh i j : List Nat), i.length = j.length → (∀ d, i.getD d 0 ≤ j.getD d 0) → cNum sh i ≤ cNum sh j := by
  intro sh
  induction sh with
  | nil =>
    intro i j _ _
    simp [cNum]
  | cons n ns ih =>
    intro i j hl h
    cases i with
    | nil =>
      cases j with
      | nil => exact Nat.le_refl _
      | cons y ys => exact absurd hl (by simp)
    | cons x xs =>
      cases j with
      | nil => exact absurd hl (by simp)
      | cons y ys =>
        simp only [cNum]
        have h0 : x ≤ y := by simpa using h 0
        have h1 : cNum ns xs ≤ cNum ns ys := ih xs ys (by simpa using hl) fun d => by simpa using h (d + 1)
        have := Nat.mul_le_mul_right ns.prod h0
        omega

theorem fNum_bij (sh : List Nat) : (∀ i, InBox sh i → fNum sh i < sh.prod) ∧ ∀ i j, InBox sh i → InBox sh j → fNum sh i = fNum sh j → i = j := by
  constructor
  · intro i hi
    have : fNum sh i ∈ (fOrder sh).map (fNum sh) := List.mem_map.2 ⟨i, (mem_fOrder sh i).2 hi, rfl⟩
    rw [map_fNum] at this
    exact List.mem_range.1 this
  · intro i j hi hj he
    have h : ((fOrder sh).map (fNum sh)).Nodup := by
      rw [map_fNum]
      exact List.nodup_range
    exact List.inj_on_of_nodup_map h ((mem_fOrder sh i).2 hi) ((mem_fOrder sh j).2 hj) he

theorem cNum_bij (sh : List Nat) : (∀ i, InBox sh i → cNum sh i < sh.prod) ∧ ∀ i j, InBox sh i → InBox sh j → cNum sh i = cNum sh j → i = j := by
  constructor
  · intro i hi
    have : cNum sh i ∈ (cOrder sh).map (cNum sh) := List.mem_map.2 ⟨i, (mem_cOrder sh i).2 hi, rfl⟩
    rw [map_cNum] at this
    exact List.mem_range.1 this
  · intro i j hi hj he
    have h : ((cOrder sh).map (cNum sh)).Nodup := by
      rw [map_cNum]
      exact List.nodup_range
    exact List.inj_on_of_nodup_map h ((mem_cOrder sh i).2 hi) ((mem_cOrder sh j).2 hj) he

theorem numbers_arangeF (start : Nat) (sh : List Nat) : Numbers start (arangeF start sh) where
  bound := fun i hi => by
    have := (fNum_bij sh).1 i hi
    simp only [arangeF]
    omega
  inj := fun i j hi hj he => by
    simp only [arangeF] at he
    exact (fNum_bij sh).2 i j hi hj (by omega)
  mono := fun i j hi hj h => by
    have := fNum_mono sh i j (by rw [hi.1, hj.1]) h
    simp only [arangeF]
    omega

theorem numbers_arangeC (start : Nat) (sh : List Nat) : Numbers start (arangeC start sh) where
  bound := fun i hi => by
    have := (cNum_bij sh).1 i hi
    simp only [arangeC]
    omega
  inj := fun i j hi hj he => by
    simp only [arangeC] at he
    exact (cNum_bij sh).2 i j hi hj (by omega)
  mono := fun i j hi hj h => by
    have := cNum_mono sh i j (by rw [hi.1, hj.1]) h
    simp only [arangeC]
    omega

/-! ## Transposition -/

theorem getD_map_range (n : Nat) (f : Nat → Nat) (s : Nat) : ((List.range n).map f).getD s 0 = if s < n then f s else 0 := by
  rw [List.getD_eq_getElem?_getD, List.getElem?_map]
  by_cases h : s < n
  · rw [List.getElem?_range h, if_pos h]
    rfl
  · rw [if_neg h, List.getElem?_eq_none (by simpa using h)]
    rfl

theorem getD_map (l : List Nat) (f : Nat → Nat) (s : Nat) (h : s < l.length) : (l.map f).getD s 0 = f (l.getD s 0) := by
  rw [List.getD_eq_getElem?_getD, List.getElem?_map, List.getD_eq_getElem?_getD, List.getElem?_eq_getElem h]
  rfl

theorem ext_getD (i j : List Nat) (hl : i.length = j.length) (h : ∀ d, d < i.length → i.getD d 0 = j.getD d 0) : i = j := by
  apply List.ext_getElem hl
  intro d h1 h2
  have := h d h1
  rw [List.getD_eq_getElem?_getD, List.getD_eq_getElem?_getD, List.getElem?_eq_getElem h1, List.getElem?_eq_getElem h2] at this
  exact this

theorem numbers_transpose (start : Nat) (E : EArr) (axes : List Nat) (h : Numbers start E) (hp : axes.Perm (List.range E.shape.length)) :
    Numbers start (transpose E axes) := by
  have hlen : axes.length = E.shape.length := by
    have := hp.length_eq
    simpa using this
  have hnd : axes.Nodup := hp.nodup_iff.2 List.nodup_range
  have hmem : ∀ s, s ∈ axes ↔ s < E.shape.length := by
    intro s
    rw [hp.mem_iff, List.mem_range]
  have hprod : (transpose E axes).shape.prod = E.shape.prod := by
    have h1 : (transpose E axes).shape.Perm E.shape := by
      have : (List.range E.shape.length).map (fun s => E.shape.getD s 0) = E.shape := by
        apply ext_getD
        · simp
        · intro d hd
          rw [getD_map_range, if_pos (by simpa using hd)]
      have h2 := hp.map (fun s => E.shape.getD s 0)
      rw [this] at h2
      exact h2
    exact h1.prod_eq
  set φ : List Nat → List Nat := fun i => (List.range axes.length).map fun s => i.getD (axes.idxOf s) 0 with hφ
  have hφget : ∀ i s, s < E.shape.length → (φ i).getD s 0 = i.getD (axes.idxOf s) 0 := by
    intro i s hs
    rw [hφ]
    simp only
    rw [getD_map_range, if_pos (by omega)]
  have hshape : ∀ t, t < axes.length → (transpose E axes).shape.getD t 0 = E.shape.getD (axes.getD t 0) 0 := by
    intro t ht
    exact getD_map axes _ t ht
  have hidx : ∀ s, s < E.shape.length → axes.idxOf s < axes.length ∧ axes.getD (axes.idxOf s) 0 = s := by
    intro s hs
    have h1 : axes.idxOf s < axes.length := List.idxOf_lt_length_iff.2 ((hmem s).2 hs)
    refine ⟨h1, ?_⟩
    rw [List.getD_eq_getElem?_getD, List.getElem?_eq_getElem h1]
    simp
  have hbox : ∀ i, InBox (transpose E axes).shape i → InBox E.shape (φ i) := by
    intro i hi
    refine ⟨by rw [hφ]; simp [hlen], ?_⟩
    intro s hs
    rw [hφget i s hs]
    have h1 := hidx s hs
    have h2 := hi.2 (axes.idxOf s) (by simp [transpose, h1.1])
    rw [hshape _ h1.1, h1.2] at h2
    exact h2
  refine ⟨?_, ?_, ?_⟩
  · intro i hi
    rw [hprod]
    exact h.bound (φ i) (hbox i hi)
  · intro i j hi hj he
    have h1 := h.inj (φ i) (φ j) (hbox i hi) (hbox j hj) he
    apply ext_getD
    · rw [hi.1, hj.1]
    · intro t ht
      have ht' : t < axes.length := by
        have := hi.1
        simp only [transpose, List.length_map] at this
        omega
      have hs : axes[t] < E.shape.length := (hmem _).1 (List.getElem_mem ht')
      have h2 := congrArg (fun l => l.getD axes[t] 0) h1
      have h2 : (φ i).getD axes[t] 0 = (φ j).getD axes[t] 0 := h2
      rw [hφget i _ hs, hφget j _ hs, List.Nodup.idxOf_getElem hnd t ht'] at h2
      exact h2
  · intro i j hi hj hle
    apply h.mono (φ i) (φ j) (hbox i hi) (hbox j hj)
    intro s
    by_cases hs : s < E.shape.length
    · rw [hφget i s hs, hφget j s hs]
      exact hle _
    · have : ∀ k, (φ k).getD s 0 = 0 := by
        intro k
        rw [hφ]
        simp only
        rw [getD_map_range, if_neg (by omega)]
      rw [this, this]

theorem allAxes_perm (dim : Nat) (hd : dim = 2 ∨ dim = 3) (ax : List Nat) (h : ax ∈ allAxes dim) : ax.Perm (List.range dim) := by
  have key : ∀ ax ∈ allAxes dim, ax.isPerm (List.range dim) = true := by
    rcases hd with rfl | rfl <;> decide
  exact List.isPerm_iff.1 (key ax h)

theorem toShape_numbers (start : Nat) (E R : EArr) (layout : List Nat) (hd : layout.length = 2 ∨ layout.length = 3) (h : Numbers start E)
    (hl : E.shape.length = layout.length) (hr : toShape E layout = some R) : Numbers start R ∧ R.shape = layout := by
  unfold toShape at hr
  cases hf : (allAxes layout.length).find? fun ax => (transpose E ax).shape = layout with
  | none => rw [hf] at hr; exact absurd hr (by simp)
  | some ax =>
    rw [hf] at hr
    have hr : transpose E ax = R := by simpa using hr
    rw [← hr]
    refine ⟨?_, ?_⟩
    · apply numbers_transpose start E ax h
      rw [hl]
      exact allAxes_perm _ hd ax (List.mem_of_find?_eq_some hf)
    · have := List.find?_some hf
      simpa using this

/-- the alternatives cover all permutations of two or three numbers. -/
theorem toShape_isSome2 (E : EArr) (a b : Nat) (h : E.shape = [a, b] ∨ E.shape = [b, a]) : (toShape E [a, b]).isSome := by
  unfold toShape allAxes
  simp only [List.length_cons, List.length_nil, Nat.reduceAdd, if_true]
  rw [Option.isSome_map, List.find?_isSome]
  rcases h with h | h
  · exact ⟨[0, 1], by simp, by simp [transpose, h]⟩
  · exact ⟨[1, 0], by simp, by simp [transpose, h]⟩

theorem toShape_isSome3 (E : EArr) (a b c : Nat)
    (h : E.shape ∈ [[a, b, c], [a, c, b], [b, a, c], [b, c, a], [c, a, b], [c, b, a]]) : (toShape E [a, b, c]).isSome := by
  unfold toShape allAxes
  simp only [List.length_cons, List.length_nil, Nat.reduceAdd]
  rw [if_neg (by decide), Option.isSome_map, List.find?_isSome]
  simp only [List.mem_cons, List.not_mem_nil, or_false] at h
  rcases h with h | h | h | h | h | h
  · exact ⟨[0, 1, 2], by simp, by simp [transpose, h]⟩
  · exact ⟨[0, 2, 1], by simp, by simp [transpose, h]⟩
  · exact ⟨[1, 0, 2], by simp, by simp [transpose, h]⟩
  · exact ⟨[2, 0, 1], by simp, by simp [transpose, h]⟩
  · exact ⟨[1, 2, 0], by simp, by simp [transpose, h]⟩
  · exact ⟨[2, 1, 0], by simp, by simp [transpose, h]⟩

theorem sort2 (a b : Nat) : sort [a, b] = [a, b] ∨ sort [a, b] = [b, a] := by
  simp only [sort, ins]
  by_cases h : a ≤ b
  · rw [if_pos h]
    exact Or.inl rfl
  · rw [if_neg h]
    exact Or.inr rfl

theorem sort3 (a b c : Nat) : sort [a, b, c] ∈ [[a, b, c], [a, c, b], [b, a, c], [b, c, a], [c, a, b], [c, b, a]] := by
  simp only [sort, ins]
  by_cases h1 : b ≤ c
  · rw [if_pos h1]
    simp only [ins]
    by_cases h2 : a ≤ b
    · rw [if_pos h2]; simp
    · rw [if_neg h2]
      by_cases h3 : a ≤ c
      · rw [if_pos h3]; simp
      · rw [if_neg h3]; simp
  · rw [if_neg h1]
    simp only [ins]
    by_cases h2 : a ≤ c
    · rw [if_pos h2]; simp
    · rw [if_neg h2]
      by_cases h3 : a ≤ b
      · rw [if_pos h3]; simp
      · rw [if_neg h3]; simp

end Mifem.Mesh
