import Verif.Lemmas.Blocks
import Mathlib.Tactic.Tauto

/-!
# Lemmas about element numbers and the element map
-/

namespace Mifem.Mesh
open Mifem.Naive

theorem blockSize_ok (c : Bool) (X A : Nat) (hA : 0 < A) : 0 < blockSize c X A ∧ blockSize c X A ≤ A := by
  unfold blockSize
  simp only
  split <;> split <;> split <;> omega

/-- a layout with 2 or 3 positive numbers of elements. -/
structure LayoutOK (layout : List Nat) : Prop where
  dim : layout.length = 2 ∨ layout.length = 3
  pos : ∀ x ∈ layout, 0 < x

theorem list2 (l : List Nat) (h : l.length = 2) : ∃ a b, l = [a, b] := by
  match l, h with
  | [a, b], _ => exact ⟨a, b, rfl⟩

theorem list3 (l : List Nat) (h : l.length = 3) : ∃ a b c, l = [a, b, c] := by
  match l, h with
  | [a, b, c], _ => exact ⟨a, b, c, rfl⟩

theorem toShape_ok (start : Nat) (E : EArr) (layout : List Nat) (hd : layout.length = 2 ∨ layout.length = 3) (h : Numbers start E)
    (hs : E.shape = layout ∨ E.shape = sort layout) : ∃ R, toShape E layout = some R ∧ R.shape = layout ∧ Numbers start R := by
  have hl : E.shape.length = layout.length ∧ (toShape E layout).isSome := by
    rcases hd with hd | hd
    · obtain ⟨a, b, rfl⟩ := list2 layout hd
      have : E.shape = [a, b] ∨ E.shape = [b, a] := by
        rcases hs with hs | hs
        · exact Or.inl hs
        · rcases sort2 a b with h' | h'
          · exact Or.inl (hs.trans h')
          · exact Or.inr (hs.trans h')
      refine ⟨?_, toShape_isSome2 E a b this⟩
      rcases this with h' | h' <;> rw [h'] <;> rfl
    · obtain ⟨a, b, c, rfl⟩ := list3 layout hd
      have : E.shape ∈ [[a, b, c], [a, c, b], [b, a, c], [b, c, a], [c, a, b], [c, b, a]] := by
        rcases hs with hs | hs
        · rw [hs]
          exact List.mem_cons_self
        · rw [hs]
          exact sort3 a b c
      refine ⟨?_, toShape_isSome3 E a b c this⟩
      simp only [List.mem_cons, List.not_mem_nil, or_false] at this
      rcases this with h' | h' | h' | h' | h' | h' <;> rw [h'] <;> rfl
  obtain ⟨R, hR⟩ := Option.isSome_iff_exists.1 hl.2
  have := toShape_numbers start E R layout hd h hl.1 hR
  exact ⟨R, hR, this.2, this.1⟩

theorem regionNumbering_ok (junk : List Nat → Nat) (sch : Scheme) (start : Nat) (layout : List Nat) (hv : LayoutOK layout) :
    ∃ E, regionNumbering junk sch start layout = some E ∧ E.shape = layout ∧ Numbers start E := by
  have hd := hv.dim
  cases sch with
  | plainF => exact ⟨_, rfl, rfl, numbers_arangeF start layout⟩
  | plainC => exact ⟨_, rfl, rfl, numbers_arangeC start layout⟩
  | designF => exact toShape_ok start _ layout hd (numbers_arangeF start layout) (Or.inl rfl)
  | sortF => exact toShape_ok start _ layout hd (numbers_arangeF start (sort layout)) (Or.inr rfl)
  | blocks cne X Y =>
    have hd0 := hd
    have hsl : (sort layout).length = layout.length ∧ ∀ x ∈ sort layout, 0 < x := by
      have hpos := hv.pos
      rcases hd with hd | hd
      · obtain ⟨a, b, rfl⟩ := list2 layout hd
        rcases sort2 a b with h' | h' <;> rw [h'] <;> refine ⟨rfl, fun x hx => hpos x ?_⟩ <;>
          simp only [List.mem_cons, List.not_mem_nil, or_false] at hx ⊢ <;> tauto
      · obtain ⟨a, b, c, rfl⟩ := list3 layout hd
        have := sort3 a b c
        simp only [List.mem_cons, List.not_mem_nil, or_false] at this
        rcases this with h' | h' | h' | h' | h' | h' <;> rw [h'] <;> refine ⟨rfl, fun x hx => hpos x ?_⟩ <;>
          simp only [List.mem_cons, List.not_mem_nil, or_false] at hx ⊢ <;> tauto
    rcases hd with hd' | hd'
    · obtain ⟨A0, A1, hs⟩ := list2 (sort layout) (hsl.1.trans hd')
      have hp := hsl.2
      rw [hs] at hp
      have hX := blockSize_ok (decide (4 ≤ cne) && decide (2 ≤ A0)) X A0 (hp A0 (by simp))
      obtain ⟨f, hf, hf2⟩ := blocks2_eq junk start A0 A1 _ hX.1 hX.2
      have hn := numbers_blocks2 start A0 A1 _ hX.1 hX.2 f hf2
      obtain ⟨R, h1, h2, h3⟩ := toShape_ok start ⟨[A0, A1], f⟩ layout hd0 hn (Or.inr hs.symm)
      refine ⟨R, ?_, h2, h3⟩
      simp only [regionNumbering, hs, hf, Option.bind_some]
      exact h1
    · obtain ⟨A0, A1, A2, hs⟩ := list3 (sort layout) (hsl.1.trans hd')
      have hp := hsl.2
      rw [hs] at hp
      have hX := blockSize_ok (decide (4 < cne) && decide (2 ≤ A0) && decide (2 ≤ A1)) X A0 (hp A0 (by simp))
      have hY := blockSize_ok (decide (4 < cne) && decide (2 ≤ A0) && decide (2 ≤ A1)) Y A1 (hp A1 (by simp))
      obtain ⟨f, hf, hf2⟩ := blocks3_eq junk start A0 A1 A2 _ _ hX.1 hX.2 hY.1 hY.2
      have hn := numbers_blocks3 start A0 A1 A2 _ _ hX.1 hX.2 hY.1 hY.2 f hf2
      obtain ⟨R, h1, h2, h3⟩ := toShape_ok start ⟨[A0, A1, A2], f⟩ layout hd0 hn (Or.inr hs.symm)
      refine ⟨R, ?_, h2, h3⟩
      simp only [regionNumbering, hs, hf, Option.bind_some]
      exact h1

/-! ## All regions -/

/-- number of elements before region `r`. -/
def startOf (M : List EArr) (r : Nat) : Nat := ((M.take r).map fun E => E.shape.prod).sum

/-- number of elements. -/
def total (M : List EArr) : Nat := (M.map fun E => E.shape.prod).sum

theorem startOf_zero (M : List EArr) : startOf M 0 = 0 := rfl

theorem startOf_cons (E : EArr) (M : List EArr) (r : Nat) : startOf (E :: M) (r + 1) = E.shape.prod + startOf M r := by
  simp [startOf]

theorem startOf_succ (M : List EArr) (r : Nat) (E : EArr) (h : M[r]? = some E) : startOf M (r + 1) = startOf M r + E.shape.prod := by
  induction M generalizing r with
  | nil => exact absurd h (by simp)
  | cons F M ih =>
    cases r with
    | zero =>
      have : F = E := by simpa using h
      rw [startOf_cons, startOf_zero, startOf_zero, this]
      omega
    | succ r =>
      rw [startOf_cons, startOf_cons, ih r (by simpa using h)]
      omega

theorem startOf_le_total (M : List EArr) : ∀ r, startOf M r ≤ total M := by
  induction M with
  | nil =>
    intro r
    simp [startOf]
  | cons F M ih =>
    intro r
    cases r with
    | zero => simp [startOf]
    | succ r =>
      have := ih r
      rw [startOf_cons]
      simp only [total, List.map_cons, List.sum_cons] at this ⊢
      omega

theorem startOf_mono (M : List EArr) : ∀ r s, r ≤ s → startOf M r ≤ startOf M s := by
  induction M with
  | nil =>
    intro r s _
    simp [startOf]
  | cons F M ih =>
    intro r s h
    cases r with
    | zero => simp [startOf]
    | succ r =>
      cases s with
      | zero => omega
      | succ s =>
        have := ih r s (by omega)
        rw [startOf_cons, startOf_cons]
        omega

/-- the arrays number the elements region by region. -/
def WellNumbered (M : List EArr) : Prop := ∀ r E, M[r]? = some E → Numbers (startOf M r) E

theorem meshNumbering_ok (junk : List Nat → Nat) : ∀ (regs : List (Scheme × List Nat)) (start : Nat),
    (∀ x ∈ regs, LayoutOK x.2) →
    ∃ M, meshNumbering junk start regs = some M ∧ M.map EArr.shape = regs.map Prod.snd ∧
      ∀ r E, M[r]? = some E → Numbers (start + startOf M r) E := by
  intro regs
  induction regs with
  | nil =>
    intro start _
    exact ⟨[], rfl, rfl, fun r E h => absurd h (by simp)⟩
  | cons x rest ih =>
    intro start hv
    obtain ⟨sch, lay⟩ := x
    have hx := hv (sch, lay) List.mem_cons_self
    obtain ⟨E, h1, h2, h3⟩ := regionNumbering_ok junk sch start lay hx
    obtain ⟨M, g1, g2, g3⟩ := ih (start + lay.prod) fun x hx => hv x (List.mem_cons_of_mem _ hx)
    refine ⟨E :: M, ?_, ?_, ?_⟩
    · simp [meshNumbering, h1, g1]
    · simp [h2, g2]
    · intro r F hF
      cases r with
      | zero =>
        have : E = F := by simpa using hF
        rw [startOf_zero, ← this]
        exact h3
      | succ r =>
        rw [startOf_cons, h2, ← Nat.add_assoc]
        exact g3 r F (by simpa using hF)

theorem findRegion_eq (M : List EArr) : ∀ (acc r i : Nat), r < M.length → acc + startOf M r ≤ i → i < acc + startOf M (r + 1) → findRegion acc M i = some r := by
  induction M with
  | nil =>
    intro acc r i h
    exact absurd h (by simp)
  | cons E M ih =>
    intro acc r i hr h1 h2
    simp only [findRegion]
    cases r with
    | zero =>
      rw [startOf_cons, startOf_zero] at h2
      rw [if_pos (by omega)]
    | succ r =>
      rw [startOf_cons] at h1 h2
      rw [if_neg (by omega), ih (acc + E.shape.prod) r i (by simpa using hr) (by omega) (by omega)]
      rfl

theorem argwhere_eq (E : EArr) (start : Nat) (h : Numbers start E) (i : List Nat) (hi : InBox E.shape i) : argwhere E (E.at_ i) = some i := by
  unfold argwhere
  have hmem := (mem_cOrder E.shape i).2 hi
  cases hf : (cOrder E.shape).find? fun x => E.at_ x == E.at_ i with
  | none =>
    have := List.find?_eq_none.1 hf i hmem
    exact absurd this (by simp)
  | some x =>
    have h1 := List.find?_some hf
    have h2 := (mem_cOrder E.shape x).1 (List.mem_of_find?_eq_some hf)
    rw [h.inj x i h2 hi (by simpa using h1)]

theorem find_eq (M : List EArr) (hM : WellNumbered M) (r : Nat) (E : EArr) (hE : M[r]? = some E) (i : List Nat) (hi : InBox E.shape i) :
    find M (E.at_ i) = some (r, i) := by
  have hn := hM r E hE
  have hb := hn.bound i hi
  have hr : r < M.length := by
    by_contra hc
    rw [List.getElem?_eq_none (by omega)] at hE
    exact absurd hE (by simp)
  have hf := findRegion_eq M 0 r (E.at_ i) hr (by omega) (by rw [startOf_succ M r E hE]; omega)
  unfold find
  rw [hf]
  simp only [Option.bind_some]
  rw [hE]
  simp only [Option.bind_some]
  rw [argwhere_eq E _ hn i hi]
  rfl

theorem exists_region (M : List EArr) : ∀ e, e < total M → ∃ r E, M[r]? = some E ∧ startOf M r ≤ e ∧ e < startOf M r + E.shape.prod := by
  induction M with
  | nil =>
    intro e h
    exact absurd h (by simp [total])
  | cons F M ih =>
    intro e h
    by_cases hF : e < F.shape.prod
    · exact ⟨0, F, rfl, by rw [startOf_zero]; omega, by rw [startOf_zero]; omega⟩
    · have ht : total (F :: M) = F.shape.prod + total M := by simp [total]
      obtain ⟨r, E, h1, h2, h3⟩ := ih (e - F.shape.prod) (by omega)
      exact ⟨r + 1, E, by simpa using h1, by rw [startOf_cons]; omega, by rw [startOf_cons]; omega⟩

theorem exists_element (M : List EArr) (hM : WellNumbered M) (e : Nat) (he : e < total M) :
    ∃ (r : Nat) (E : EArr) (i : List Nat), M[r]? = some E ∧ InBox E.shape i ∧ E.at_ i = e := by
  obtain ⟨r, E, h1, h2, h3⟩ := exists_region M e he
  obtain ⟨i, hi, hv⟩ := (hM r E h1).surj e h2 h3
  exact ⟨r, E, i, h1, hi, hv⟩

theorem at_lt_total (M : List EArr) (hM : WellNumbered M) (r : Nat) (E : EArr) (hE : M[r]? = some E) (i : List Nat) (hi : InBox E.shape i) :
    E.at_ i < total M := by
  have h1 := (hM r E hE).bound i hi
  have h2 := startOf_le_total M (r + 1)
  rw [startOf_succ M r E hE] at h2
  omega

theorem element_unique (M : List EArr) (hM : WellNumbered M) (r r' : Nat) (E E' : EArr) (hE : M[r]? = some E) (hE' : M[r']? = some E')
    (i i' : List Nat) (hi : InBox E.shape i) (hi' : InBox E'.shape i') (he : E.at_ i = E'.at_ i') : r = r' ∧ i = i' := by
  have h1 := find_eq M hM r E hE i hi
  have h2 := find_eq M hM r' E' hE' i' hi'
  rw [he, h2] at h1
  have := Option.some.inj h1
  simp only [Prod.mk.injEq] at this
  exact ⟨this.1.symm, this.2.symm⟩

/-! ## The element map -/

theorem getD_set (i : List Nat) (d x t : Nat) (hd : d < i.length) : (i.set d x).getD t 0 = if t = d then x else i.getD t 0 := by
  rw [List.getD_eq_getElem?_getD, List.getElem?_set]
  by_cases h : d = t
  · rw [if_pos h, if_pos h.symm, if_pos (by omega)]
    rfl
  · rw [if_neg h, if_neg (fun h' => h h'.symm), List.getD_eq_getElem?_getD]

theorem inBox_set (sh i : List Nat) (d x : Nat) (h : InBox sh i) (hd : d < sh.length) (hx : x < sh.getD d 0) : InBox sh (i.set d x) := by
  refine ⟨by simpa using h.1, ?_⟩
  intro t ht
  rw [getD_set i d x t (by rw [h.1]; exact hd)]
  by_cases htd : t = d
  · rw [if_pos htd, htd]
    exact hx
  · rw [if_neg htd]
    exact h.2 t ht

/-- the indices of an element at the other side of an interface. -/
theorem inBox_set_other (sh i : List Nat) (d x : Nat) (hl : i.length = sh.length) (hd : d < sh.length) (hx : x < sh.getD d 0)
    (h : ((List.range sh.length).all fun t => t == d || decide (i.getD t 0 < sh.getD t 0)) = true) : InBox sh (i.set d x) := by
  refine ⟨by simpa using hl, ?_⟩
  intro t ht
  rw [getD_set i d x t (by omega)]
  rw [List.all_eq_true] at h
  have := h t (List.mem_range.2 ht)
  simp only [Bool.or_eq_true, beq_iff_eq, decide_eq_true_eq] at this
  by_cases htd : t = d
  · rw [if_pos htd, htd]
    exact hx
  · rw [if_neg htd]
    exact this.resolve_left htd

theorem set_set_self (i : List Nat) (d x : Nat) (h : i.getD d 0 = x) : ∀ y, (i.set d y).set d x = i := by
  intro y
  rw [List.set_set]
  by_cases hd : d < i.length
  · rw [List.getD_eq_getElem?_getD, List.getElem?_eq_getElem hd] at h
    rw [← h]
    simp
  · exact List.set_eq_of_length_le (by omega)

/-- a mesh whose regions all have `dim` positive numbers of elements. -/
structure MeshOK (dim : Nat) (M : List EArr) (rmap : Nat → Nat → Att) : Prop where
  num : WellNumbered M
  dims : ∀ (r : Nat) (E : EArr), M[r]? = some E → E.shape.length = dim ∧ ∀ d, d < dim → 0 < E.shape.getD d 0
  region : ∀ r j s, r < M.length → j < 2 * dim → rmap r j = .other s → s < M.length ∧ rmap s (opp j) = .other r

theorem opp_div (j : Nat) : opp j / 2 = j / 2 := by
  unfold opp
  by_cases h : j % 2 = 0
  · rw [if_pos h]; omega
  · rw [if_neg h]; omega

theorem opp_mod (j : Nat) : opp j % 2 = 1 - j % 2 := by
  unfold opp
  by_cases h : j % 2 = 0
  · rw [if_pos h]; omega
  · rw [if_neg h]; omega

theorem opp_opp (j : Nat) : opp (opp j) = j := by
  have h1 := opp_div (opp j)
  have h2 := opp_div j
  have h3 := opp_mod (opp j)
  have h4 := opp_mod j
  have := Nat.div_add_mod j 2
  have := Nat.div_add_mod (opp (opp j)) 2
  omega

theorem opp_lt (dim j : Nat) (h : j < 2 * dim) : opp j < 2 * dim := by
  have := opp_div j
  omega

theorem opp_ne (j : Nat) : opp j ≠ j := by
  have := opp_mod j
  omega

/-- the region side met by an element at the end of its region. -/
def atEnd (E : EArr) (i : List Nat) (j : Nat) : Prop :=
  i.getD (j / 2) 0 = if j % 2 = 0 then 0 else E.shape.getD (j / 2) 0 - 1

theorem lt_length {M : List EArr} {r : Nat} {E : EArr} (h : M[r]? = some E) : r < M.length := by
  by_contra hc
  rw [List.getElem?_eq_none (by omega)] at h
  exact absurd h (by simp)

/-- what the map contains. -/
theorem fetchSide_cases (dim : Nat) (M : List EArr) (rmap : Nat → Nat → Att) (h : MeshOK dim M rmap) (r : Nat) (E : EArr) (hE : M[r]? = some E)
    (i : List Nat) (hi : InBox E.shape i) (j : Nat) (hj : j < 2 * dim) (x : Att) (hx : fetchSide M rmap r i j = some x) :
    (atEnd E i j ∧ ∃ b, rmap r j = .bnd b ∧ x = .bnd b) ∨
    (atEnd E i j ∧ ∃ (s : Nat) (E' : EArr), rmap r j = .other s ∧ M[s]? = some E' ∧
      InBox E'.shape (i.set (j / 2) (if j % 2 = 0 then E'.shape.getD (j / 2) 0 - 1 else 0)) ∧
      x = .other (E'.at_ (i.set (j / 2) (if j % 2 = 0 then E'.shape.getD (j / 2) 0 - 1 else 0)))) ∨
    (¬ atEnd E i j ∧ InBox E.shape (i.set (j / 2) (if j % 2 = 0 then i.getD (j / 2) 0 - 1 else i.getD (j / 2) 0 + 1)) ∧
      x = .other (E.at_ (i.set (j / 2) (if j % 2 = 0 then i.getD (j / 2) 0 - 1 else i.getD (j / 2) 0 + 1)))) := by
  have hd : j / 2 < dim := by omega
  have hshape := h.dims r E hE
  have hilen : i.length = dim := by rw [hi.1, hshape.1]
  have hid := hi.2 (j / 2) (by rw [hshape.1]; exact hd)
  unfold fetchSide at hx
  rw [hE] at hx
  simp only [Option.bind_some] at hx
  unfold atEnd
  by_cases hpar : j % 2 = 0
  · simp only [if_pos hpar] at hx ⊢
    by_cases hend : i.getD (j / 2) 0 = 0
    · rw [if_pos hend] at hx
      cases hr : rmap r j with
      | bnd b =>
        rw [hr] at hx
        exact Or.inl ⟨hend, b, rfl, (Option.some.inj hx).symm⟩
      | other s =>
        rw [hr] at hx
        simp only at hx
        obtain ⟨hs, _⟩ := h.region r j s (lt_length hE) hj hr
        have hE' : M[s]? = some M[s] := List.getElem?_eq_getElem hs
        rw [hE'] at hx
        simp only [Option.bind_some] at hx
        unfold sideOf at hx
        have hshape' := h.dims s M[s] hE'
        by_cases hall : ((List.range M[s].shape.length).all fun t => t == j / 2 || decide (i.getD t 0 < M[s].shape.getD t 0)) = true
        · rw [if_pos hall] at hx
          refine Or.inr (Or.inl ⟨hend, s, M[s], rfl, hE', ?_, (Option.some.inj hx).symm⟩)
          apply inBox_set_other
          · rw [hshape'.1, hilen]
          · rw [hshape'.1]; exact hd
          · have := hshape'.2 (j / 2) hd
            omega
          · exact hall
        · rw [if_neg hall] at hx
          exact absurd hx (by simp)
    · rw [if_neg hend] at hx
      refine Or.inr (Or.inr ⟨hend, ?_, (Option.some.inj hx).symm⟩)
      apply inBox_set _ _ _ _ hi (by rw [hshape.1]; exact hd)
      omega
  · simp only [if_neg hpar] at hx ⊢
    by_cases hend : i.getD (j / 2) 0 = E.shape.getD (j / 2) 0 - 1
    · rw [if_pos hend] at hx
      cases hr : rmap r j with
      | bnd b =>
        rw [hr] at hx
        exact Or.inl ⟨hend, b, rfl, (Option.some.inj hx).symm⟩
      | other s =>
        rw [hr] at hx
        simp only at hx
        obtain ⟨hs, _⟩ := h.region r j s (lt_length hE) hj hr
        have hE' : M[s]? = some M[s] := List.getElem?_eq_getElem hs
        rw [hE'] at hx
        simp only [Option.bind_some] at hx
        unfold sideOf at hx
        have hshape' := h.dims s M[s] hE'
        by_cases hall : ((List.range M[s].shape.length).all fun t => t == j / 2 || decide (i.getD t 0 < M[s].shape.getD t 0)) = true
        · rw [if_pos hall] at hx
          refine Or.inr (Or.inl ⟨hend, s, M[s], rfl, hE', ?_, (Option.some.inj hx).symm⟩)
          apply inBox_set_other
          · rw [hshape'.1, hilen]
          · rw [hshape'.1]; exact hd
          · exact hshape'.2 (j / 2) hd
          · exact hall
        · rw [if_neg hall] at hx
          exact absurd hx (by simp)
    · rw [if_neg hend] at hx
      refine Or.inr (Or.inr ⟨hend, ?_, (Option.some.inj hx).symm⟩)
      apply inBox_set _ _ _ _ hi (by rw [hshape.1]; exact hd)
      omega

/-- the element at the other side finds this element at its opposite side. -/
theorem fetchSide_symm (dim : Nat) (M : List EArr) (rmap : Nat → Nat → Att) (h : MeshOK dim M rmap) (r : Nat) (E : EArr) (hE : M[r]? = some E)
    (i : List Nat) (hi : InBox E.shape i) (j : Nat) (hj : j < 2 * dim) (e' : Nat) (hx : fetchSide M rmap r i j = some (.other e')) :
    ∃ (s : Nat) (E' : EArr) (i' : List Nat), M[s]? = some E' ∧ InBox E'.shape i' ∧ E'.at_ i' = e' ∧ fetchSide M rmap s i' (opp j) = some (.other (E.at_ i)) := by
  have hd : j / 2 < dim := by omega
  have hshape := h.dims r E hE
  have hilen : i.length = dim := by rw [hi.1, hshape.1]
  have hid := hi.2 (j / 2) (by rw [hshape.1]; exact hd)
  rcases fetchSide_cases dim M rmap h r E hE i hi j hj _ hx with ⟨_, b, _, hb⟩ | ⟨hend, s, E', hr, hE', hbox, he⟩ | ⟨hend, hbox, he⟩
  · exact absurd hb (by simp)
  · refine ⟨s, E', _, hE', hbox, (Att.other.inj he).symm, ?_⟩
    obtain ⟨_, hsym⟩ := h.region r j s (lt_length hE) hj hr
    unfold fetchSide
    rw [hE']
    simp only [Option.bind_some, opp_div, opp_mod]
    unfold atEnd at hend
    have hall : ∀ y, ((List.range E.shape.length).all fun t => t == j / 2 || decide ((i.set (j / 2) y).getD t 0 < E.shape.getD t 0)) = true := by
      intro y
      rw [List.all_eq_true]
      intro t ht
      rw [List.mem_range] at ht
      simp only [Bool.or_eq_true, beq_iff_eq, decide_eq_true_eq]
      by_cases htd : t = j / 2
      · exact Or.inl htd
      · right
        rw [getD_set _ _ _ _ (by omega), if_neg htd]
        exact hi.2 t ht
    by_cases hpar : j % 2 = 0
    · simp only [hpar, if_true, Nat.sub_zero, Nat.one_ne_zero, if_false] at hend ⊢
      rw [getD_set _ _ _ _ (by omega), if_pos rfl, if_pos rfl, hsym]
      simp only
      rw [hE]
      simp only [Option.bind_some]
      unfold sideOf
      rw [if_pos (hall _), set_set_self i _ 0 hend]
      rfl
    · have hpar' : j % 2 = 1 := by omega
      simp only [hpar', Nat.one_ne_zero, if_false, Nat.sub_self, if_true] at hend ⊢
      rw [getD_set _ _ _ _ (by omega), if_pos rfl, if_pos rfl, hsym]
      simp only
      rw [hE]
      simp only [Option.bind_some]
      unfold sideOf
      rw [if_pos (hall _), set_set_self i _ _ hend]
      rfl
  · refine ⟨r, E, _, hE, hbox, (Att.other.inj he).symm, ?_⟩
    unfold fetchSide
    rw [hE]
    simp only [Option.bind_some, opp_div, opp_mod]
    unfold atEnd at hend
    by_cases hpar : j % 2 = 0
    · simp only [hpar, if_true, Nat.sub_zero, Nat.one_ne_zero, if_false] at hend ⊢
      rw [getD_set _ _ _ _ (by omega), if_pos rfl, if_neg (by omega)]
      have : i.getD (j / 2) 0 - 1 + 1 = i.getD (j / 2) 0 := by omega
      rw [this, set_set_self i _ _ rfl]
    · have hpar' : j % 2 = 1 := by omega
      simp only [hpar', Nat.one_ne_zero, if_false, Nat.sub_self, if_true] at hend ⊢
      rw [getD_set _ _ _ _ (by omega), if_pos rfl, if_neg (by omega)]
      have : i.getD (j / 2) 0 + 1 - 1 = i.getD (j / 2) 0 := by omega
      rw [this, set_set_self i _ _ rfl]

theorem mapM_some_iff {α β : Type} (f : α → Option β) : ∀ (l : List α) (m : List β), l.mapM f = some m ↔ m.length = l.length ∧ ∀ k (h : k < l.length), f l[k] = m[k]? := by
  intro l
  induction l with
  | nil =>
    intro m
    rw [List.mapM_nil]
    constructor
    · intro h
      have : [] = m := by simpa using h
      rw [← this]
      simp
    · rintro ⟨h, _⟩
      have : m = [] := List.eq_nil_of_length_eq_zero (by simpa using h)
      rw [this]
      rfl
  | cons a l ih =>
    intro m
    rw [List.mapM_cons]
    constructor
    · intro h
      cases ha : f a with
      | none => rw [ha] at h; exact absurd h (by simp)
      | some b =>
        rw [ha] at h
        cases hl : l.mapM f with
        | none => rw [hl] at h; exact absurd h (by simp)
        | some bs =>
          rw [hl] at h
          have : b :: bs = m := by simpa using h
          rw [← this]
          obtain ⟨h1, h2⟩ := (ih bs).1 hl
          refine ⟨by simp [h1], ?_⟩
          intro k hk
          cases k with
          | zero => simpa using ha
          | succ k => simpa using h2 k (by simpa using hk)
    · rintro ⟨h1, h2⟩
      cases m with
      | nil => exact absurd h1 (by simp)
      | cons b bs =>
        have ha : f a = some b := h2 0 (by simp)
        have hl : l.mapM f = some bs := by
          rw [ih]
          refine ⟨by simpa using h1, ?_⟩
          intro k hk
          exact h2 (k + 1) (by simpa using hk)
        rw [ha, hl]
        rfl

theorem elementMap_get (dim : Nat) (M : List EArr) (rmap : Nat → Nat → Att) (hM : WellNumbered M) (r : Nat) (E : EArr) (hE : M[r]? = some E)
    (i : List Nat) (hi : InBox E.shape i) (m : List Att) (h : elementMap dim M rmap (E.at_ i) = some m) :
    m.length = 2 * dim ∧ ∀ j, j < 2 * dim → fetchSide M rmap r i j = m[j]? := by
  unfold elementMap at h
  rw [find_eq M hM r E hE i hi] at h
  simp only [Option.bind_some] at h
  obtain ⟨h1, h2⟩ := (mapM_some_iff _ _ _).1 h
  refine ⟨by simpa using h1, ?_⟩
  intro j hj
  have := h2 j (by simpa using hj)
  simpa using this

end Mifem.Mesh
