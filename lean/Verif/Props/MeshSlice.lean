import Verif.Model.MeshSlice
import Mathlib.Tactic.Linarith
import Mathlib.Tactic.FieldSimp
import Mathlib.Tactic.Ring
import Mathlib.Tactic.Tauto
import Mathlib.Algebra.Order.Field.Rat
import Mathlib.Data.List.Basic

/-!
# C118: perpendicular slices of meshes

Specification: element `i` in a direction lies between the nodes `i` and `i + 1`; its point with the reference coordinate `ξ` is
`sᵢ + (ξ + 1) / 2 (sᵢ₊₁ - sᵢ)`.
-/

namespace Mifem.Props.Slice118
open Mifem.MeshSlice

/-- Nodes of a direction of a region: from 0 to 1, increasing, with at least one element. -/
structure Nodes (l : List ℚ) : Prop where
  sorted : l.Pairwise (· < ·)
  first : l[0]? = some 0
  last : l[l.length - 1]? = some 1

/-- `x` and `y` are the ends of element `i`. -/
def Ends (l : List ℚ) (i : ℕ) (x y : ℚ) : Prop := l[i]? = some x ∧ l[i + 1]? = some y

theorem mono {l : List ℚ} (h : l.Pairwise (· < ·)) {i j : ℕ} {x y : ℚ} (hx : l[i]? = some x) (hy : l[j]? = some y) (hij : i < j) : x < y := by
  obtain ⟨hi, rfl⟩ := List.getElem?_eq_some_iff.mp hx
  obtain ⟨hj, rfl⟩ := List.getElem?_eq_some_iff.mp hy
  exact List.pairwise_iff_getElem.mp h i j hi hj hij

theorem mono_le {l : List ℚ} (h : l.Pairwise (· < ·)) {i j : ℕ} {x y : ℚ} (hx : l[i]? = some x) (hy : l[j]? = some y) (hij : i ≤ j) : x ≤ y := by
  rcases Nat.lt_or_eq_of_le hij with h' | h'
  · exact le_of_lt (mono h hx hy h')
  · subst h'
    rw [hx] at hy
    cases hy
    exact le_refl _

/-- The position is at node `a`, or between the nodes `a` and `a + 1`. -/
def At (p : ℚ) (l : List ℚ) (a b : ℕ) : Prop :=
  (l[a]? = some p ∧ b = a) ∨ ∃ x y, l[a]? = some x ∧ l[a + 1]? = some y ∧ x < p ∧ p < y ∧ b = a + 1

theorem locate_some (p : ℚ) : ∀ (l : List ℚ) (j : ℕ) (f z : ℚ), l[0]? = some f → f ≤ p → l[l.length - 1]? = some z → p ≤ z →
    ∃ a b, locate p j l = some (j + a, j + b) ∧ At p l a b
  | [], _, _, _, h, _, _, _ => by simp at h
  | s :: l, j, f, z, hf, hfp, hz, hzp => by
    have hf : s = f := by simpa using hf
    subst hf
    unfold locate
    by_cases hps : p = s
    · rw [if_pos hps]
      exact ⟨0, 0, rfl, Or.inl ⟨by rw [hps]; rfl, rfl⟩⟩
    · rw [if_neg hps]
      have hsp : s < p := lt_of_le_of_ne hfp (fun h => hps h.symm)
      match l, hz with
      | [], hz =>
        have : s = z := by simpa using hz
        linarith
      | s' :: l', hz =>
        dsimp only
        by_cases hin : s < p ∧ p < s'
        · rw [if_pos hin]
          exact ⟨0, 1, rfl, Or.inr ⟨s, s', rfl, rfl, hin.1, hin.2, rfl⟩⟩
        · rw [if_neg hin]
          have hs' : s' ≤ p := by
            by_contra hlt
            exact hin ⟨hsp, not_le.mp hlt⟩
          obtain ⟨a, b, h1, h2⟩ := locate_some p (s' :: l') (j + 1) s' z rfl hs' (by simpa using hz) hzp
          refine ⟨a + 1, b + 1, by rw [h1]; congr 2 <;> omega, ?_⟩
          rcases h2 with ⟨h3, h4⟩ | ⟨x, y, h3, h4, h5, h6, h7⟩
          · exact Or.inl ⟨h3, by omega⟩
          · exact Or.inr ⟨x, y, h3, h4, h5, h6, by omega⟩

theorem locate_nodes {l : List ℚ} (hl : Nodes l) {p : ℚ} (h0 : 0 ≤ p) (h1 : p ≤ 1) : ∃ a b, locate p 0 l = some (a, b) ∧ At p l a b := by
  obtain ⟨a, b, h, h'⟩ := locate_some p l 0 0 1 hl.first h0 hl.last h1
  exact ⟨a, b, by simpa using h, h'⟩

theorem two_at : ∀ (l : List ℚ) (a : ℕ) (x : ℚ), l[a]? = some x →
    (∀ y, l[a + 1]? = some y → (l.drop a).take 2 = [x, y]) ∧ (l[a + 1]? = none → (l.drop a).take 2 = [x])
  | [], _, _, h => by simp at h
  | s :: l, 0, x, h => by
    have h : s = x := by simpa using h
    subst h
    constructor
    · intro y hy
      cases l with
      | nil => simp at hy
      | cons t l =>
        have : t = y := by simpa using hy
        simp [this]
    · intro hn
      cases l with
      | nil => rfl
      | cons t l => simp at hn
  | s :: l, a + 1, x, h => by
    have := two_at l a x (by simpa using h)
    simpa using this

theorem length_pos {l : List ℚ} (hl : Nodes l) : 2 ≤ l.length := by
  have h0 := hl.first
  have h1 := hl.last
  match l, h0, h1 with
  | [], h0, _ => simp at h0
  | [x], h0, h1 =>
    exfalso
    have e0 : x = 0 := by simpa using h0
    have e1 : x = 1 := by simpa using h1
    rw [e0] at e1
    exact absurd e1 (by decide)
  | _ :: _ :: _, _, _ => simp

/-- **C118 (position in the element).**  For each position in the region one element is found, and the position in the element is that of the slice:
in `[-1, 1)`, or 1 in the last element. -/
theorem c118_plane (l : List ℚ) (hl : Nodes l) (p : ℚ) (h0 : 0 ≤ p) (h1 : p ≤ 1) :
    ∃ i ξ x y, plane p l = some (i, ξ) ∧ Ends l i x y ∧ -1 ≤ ξ ∧ x + (ξ + 1) / 2 * (y - x) = p ∧
      (ξ < 1 ∨ (ξ = 1 ∧ p = 1 ∧ i + 2 = l.length)) := by
  obtain ⟨a, b, hloc, hat⟩ := locate_nodes hl h0 h1
  have gen : ∀ x y, l[a]? = some x → l[a + 1]? = some y → x ≤ p → p < y →
      ∃ i ξ x y, plane p l = some (i, ξ) ∧ Ends l i x y ∧ -1 ≤ ξ ∧ x + (ξ + 1) / 2 * (y - x) = p ∧
        (ξ < 1 ∨ (ξ = 1 ∧ p = 1 ∧ i + 2 = l.length)) := by
    intro x y hx hy hxp hpy
    have hd : 0 < y - x := by linarith
    refine ⟨a, -1 + 2 * (p - x) / (y - x), x, y, ?_, ⟨hx, hy⟩, ?_, ?_, Or.inl ?_⟩
    · unfold plane
      rw [hloc]
      dsimp only
      rw [(two_at l a x hx).1 y hy]
      dsimp only
      rw [if_pos ⟨hxp, hpy⟩]
    · have : 0 ≤ 2 * (p - x) / (y - x) := div_nonneg (by linarith) (le_of_lt hd)
      linarith
    · have hne : y - x ≠ 0 := ne_of_gt hd
      field_simp
      ring
    · have : 2 * (p - x) / (y - x) < 2 := by
        rw [div_lt_iff₀ hd]
        linarith
      linarith
  rcases hat with ⟨ha, _⟩ | ⟨x, y, hx, hy, hxp, hpy, _⟩
  · cases hy : l[a + 1]? with
    | some y => exact gen p y ha hy (le_refl p) (mono hl.sorted ha hy (Nat.lt_succ_self a))
    | none =>
      have hlen := length_pos hl
      have ha' : a < l.length := (List.getElem?_eq_some_iff.mp ha).1
      have hlast : a = l.length - 1 := by
        have := List.getElem?_eq_none_iff.mp hy
        omega
      have hp1 : p = 1 := by
        have := hl.last
        rw [← hlast, ha] at this
        exact Option.some.inj this
      obtain ⟨c, rfl⟩ : ∃ c, a = c + 1 := ⟨a - 1, by omega⟩
      obtain ⟨x, hx⟩ : ∃ x, l[c]? = some x := ⟨l[c]'(by omega), List.getElem?_eq_getElem (by omega)⟩
      refine ⟨c, 1, x, p, ?_, ⟨hx, ha⟩, by norm_num, by ring, Or.inr ⟨rfl, hp1, by omega⟩⟩
      unfold plane
      rw [hloc]
      dsimp only
      rw [(two_at l (c + 1) p ha).2 hy]
      dsimp only
      rw [if_pos hp1]
      rfl
  · exact gen x y hx hy (le_of_lt hxp) hpy

/-- **C118 (bounds).**  Between two bounds are exactly the elements that have points strictly between the bounds. -/
theorem c118_between (l : List ℚ) (hl : Nodes l) (lo hi : ℚ) (h0 : 0 ≤ lo) (h1 : lo ≤ hi) (h2 : hi ≤ 1) :
    ∃ r, between lo hi l = some r ∧ ∀ i x y, Ends l i x y → ((r.1 ≤ i ∧ i < r.2) ↔ lo < y ∧ x < hi) := by
  obtain ⟨a, a', hla, hA⟩ := locate_nodes hl h0 (by linarith)
  obtain ⟨b, b', hlb, hB⟩ := locate_nodes hl (by linarith : 0 ≤ hi) h2
  refine ⟨(a, b'), ?_, ?_⟩
  · unfold between
    rw [hla, hlb]
  · rintro i x y ⟨hx, hy⟩
    have e1 : a ≤ i ↔ lo < y := by
      rcases hA with ⟨ha, _⟩ | ⟨u, v, hu, hv, hul, hlv, _⟩
      · constructor
        · intro h
          exact mono hl.sorted ha hy (by omega)
        · intro h
          by_contra hlt
          have := mono_le hl.sorted hy ha (by omega)
          linarith
      · constructor
        · intro h
          have := mono_le hl.sorted hv hy (by omega)
          linarith
        · intro h
          by_contra hlt
          have := mono_le hl.sorted hy hu (by omega)
          linarith
    have e2 : i < b' ↔ x < hi := by
      rcases hB with ⟨hb, rfl⟩ | ⟨u, v, hu, hv, huh, hhv, rfl⟩
      · constructor
        · intro h
          exact mono hl.sorted hx hb h
        · intro h
          by_contra hlt
          have := mono_le hl.sorted hb hx (by omega)
          linarith
      · constructor
        · intro h
          have := mono_le hl.sorted hx hu (by omega)
          linarith
        · intro h
          by_contra hlt
          have := mono_le hl.sorted hv hx (by omega)
          linarith
    exact and_congr e1 e2

/-- An element with the ends `x`, `x'` in a direction meets the position (to the right of its first node, or at the end of the last element), or has
points strictly between the bounds. -/
def Meets (x x' : ℚ) : Arg → Prop
  | .one p => x ≤ p ∧ (p < x' ∨ p = 1 ∧ x' = 1)
  | .two lo hi => lo < x' ∧ x < hi

/-- Positions and bounds in the region. -/
def Inside : Arg → Prop
  | .one p => 0 ≤ p ∧ p ≤ 1
  | .two lo hi => 0 ≤ lo ∧ lo ≤ hi ∧ hi ≤ 1

theorem ends_eq {l : List ℚ} {i : ℕ} {x x' u v : ℚ} (h : Ends l i x x') (h' : Ends l i u v) : x = u ∧ x' = v :=
  ⟨Option.some.inj (h.1.symm.trans h'.1), Option.some.inj (h.2.symm.trans h'.2)⟩

theorem index_one {l : List ℚ} (hl : Nodes l) {p : ℚ} (hp : Inside (.one p)) : ∃ loc ξ, index (.one p) l = some ((0, l.length), some (loc, ξ)) ∧
    ∀ i x x', Ends l i x x' → i < l.length ∧ (i = loc ↔ Meets x x' (.one p)) ∧ (i = loc → x + (ξ + 1) / 2 * (x' - x) = p) := by
  obtain ⟨loc, ξ, u, v, hpl, ⟨hu, hv⟩, hξ, heq, hcase⟩ := c118_plane l hl p hp.1 hp.2
  refine ⟨loc, ξ, by simp [index, hpl], ?_⟩
  intro i x x' hx
  have huv : u < v := mono hl.sorted hu hv (Nat.lt_succ_self _)
  have hup : u ≤ p := by
    have : 0 ≤ (ξ + 1) / 2 * (v - u) := mul_nonneg (by linarith) (by linarith)
    linarith
  refine ⟨(List.getElem?_eq_some_iff.mp hx.1).1, ⟨?_, ?_⟩, ?_⟩
  · rintro rfl
    obtain ⟨rfl, rfl⟩ := ends_eq hx ⟨hu, hv⟩
    refine ⟨hup, ?_⟩
    rcases hcase with hlt | ⟨hξ1, hp, hlen⟩
    · left
      have : (ξ + 1) / 2 * (x' - x) < 1 * (x' - x) := mul_lt_mul_of_pos_right (by linarith) (by linarith)
      linarith
    · right
      refine ⟨hp, ?_⟩
      have := hl.last
      rw [show l.length - 1 = i + 1 by omega, hv] at this
      exact Option.some.inj this
  · rintro ⟨hxp, hor⟩
    rcases Nat.lt_trichotomy i loc with hlt | heq' | hgt
    · exfalso
      have hxu := mono_le hl.sorted hx.2 hu (by omega)
      rcases hor with h | ⟨hp, hx'⟩
      · linarith
      · have hv1 : v ≤ 1 := mono_le hl.sorted hv hl.last (by
          have := (List.getElem?_eq_some_iff.mp hv).1
          omega)
        linarith
    · exact heq'
    · exfalso
      have hvx := mono_le hl.sorted hv hx.1 (by omega)
      rcases hcase with hlt | ⟨_, _, hlen⟩
      · have : (ξ + 1) / 2 * (v - u) < 1 * (v - u) := mul_lt_mul_of_pos_right (by linarith) (by linarith)
        linarith
      · have := (List.getElem?_eq_some_iff.mp hx.2).1
        omega
  · rintro rfl
    obtain ⟨rfl, rfl⟩ := ends_eq hx ⟨hu, hv⟩
    exact heq

theorem index_two {l : List ℚ} (hl : Nodes l) {lo hi : ℚ} (hp : Inside (.two lo hi)) : ∃ r, index (.two lo hi) l = some (r, none) ∧
    ∀ i x x', Ends l i x x' → ((r.1 ≤ i ∧ i < r.2) ↔ Meets x x' (.two lo hi)) := by
  obtain ⟨r, hr, hb⟩ := c118_between l hl lo hi hp.1 hp.2.1 hp.2.2
  exact ⟨r, by simp [index, hr], hb⟩

/-- What is claimed of the result `o` for one element. -/
def Right (o : Option (Option ℚ)) (meets : Prop) (x x' p : ℚ) : Prop :=
  ∃ q, o = some q ∧ (q.isSome = true ↔ meets) ∧ ∀ ξ, q = some ξ → x + (ξ + 1) / 2 * (x' - x) = p

/-- The decision at the end. -/
theorem decided {a b c : Prop} [Decidable b] {m : Prop} {ξ x x' p : ℚ} (hm : a ∧ b ↔ m) (hx : b → x + (ξ + 1) / 2 * (x' - x) = p)
    (hc : c ↔ a) [Decidable c] : Right (if c then if b then some (some ξ) else some none else some none) m x x' p := by
  by_cases h1 : c
  · rw [if_pos h1]
    by_cases h2 : b
    · rw [if_pos h2]
      exact ⟨_, rfl, by simp [← hm, hc.mp h1, h2], fun ξ' h => by cases h; exact hx h2⟩
    · rw [if_neg h2]
      exact ⟨_, rfl, by simp [← hm, h2], fun ξ' h => by cases h⟩
  · rw [if_neg h1]
    exact ⟨_, rfl, by simp only [← hm, ← hc, h1, false_and, Option.isSome_none, Bool.false_eq_true], fun ξ' h => by cases h⟩

section
variable (p a a' b b' : ℚ) (sp1 sp2 sp3 : List ℚ) (h1 : Nodes sp1) (h2 : Nodes sp2) (h3 : Nodes sp3)
  (hp : Inside (.one p)) (ha : Inside (.two a a')) (hb : Inside (.two b b'))
  (i j k : ℕ) (x x' y y' z z' : ℚ) (hx : Ends sp1 i x x') (hy : Ends sp2 j y y') (hz : Ends sp3 k z z')
include h1 h2 h3 hp ha hb hx hy hz

/-- **C118 (slices perpendicular to the first direction).**  An element is in the slice exactly if it meets the position and has points strictly
between the bounds in both other directions; the position in it is that of the slice. -/
theorem c118_first : Right (slice 0 (.one p) (.two a a') (.two b b') sp1 sp2 sp3 i j k)
    (Meets x x' (.one p) ∧ Meets y y' (.two a a') ∧ Meets z z' (.two b b')) x x' p := by
  obtain ⟨loc, ξ, e1, f1⟩ := index_one h1 hp
  obtain ⟨r2, e2, f2⟩ := index_two h2 ha
  obtain ⟨r3, e3, f3⟩ := index_two h3 hb
  obtain ⟨g1, g2, g3⟩ := f1 i x x' hx
  unfold slice
  rw [e1, e2, e3]
  exact decided (a := (r2.1 ≤ j ∧ j < r2.2) ∧ (r3.1 ≤ k ∧ k < r3.2)) (b := i = loc)
    (by rw [f2 j y y' hy, f3 k z z' hz, g2]; tauto) g3 (by simp [g1])

/-- **C118 (second direction).** -/
theorem c118_second : Right (slice 1 (.two a a') (.one p) (.two b b') sp1 sp2 sp3 i j k)
    (Meets x x' (.two a a') ∧ Meets y y' (.one p) ∧ Meets z z' (.two b b')) y y' p := by
  obtain ⟨loc, ξ, e2, f2⟩ := index_one h2 hp
  obtain ⟨r1, e1, f1⟩ := index_two h1 ha
  obtain ⟨r3, e3, f3⟩ := index_two h3 hb
  obtain ⟨g1, g2, g3⟩ := f2 j y y' hy
  unfold slice
  rw [e1, e2, e3]
  exact decided (a := (r1.1 ≤ i ∧ i < r1.2) ∧ (r3.1 ≤ k ∧ k < r3.2)) (b := j = loc)
    (by rw [f1 i x x' hx, f3 k z z' hz, g2]; tauto) g3 (by simp [g1])

/-- **C118 (third direction).** -/
theorem c118_third : Right (slice 2 (.two a a') (.two b b') (.one p) sp1 sp2 sp3 i j k)
    (Meets x x' (.two a a') ∧ Meets y y' (.two b b') ∧ Meets z z' (.one p)) z z' p := by
  obtain ⟨loc, ξ, e3, f3⟩ := index_one h3 hp
  obtain ⟨r1, e1, f1⟩ := index_two h1 ha
  obtain ⟨r2, e2, f2⟩ := index_two h2 hb
  obtain ⟨g1, g2, g3⟩ := f3 k z z' hz
  unfold slice
  rw [e1, e2, e3]
  exact decided (a := (r1.1 ≤ i ∧ i < r1.2) ∧ (r2.1 ≤ j ∧ j < r2.2)) (b := k = loc)
    (by rw [f1 i x x' hx, f2 j y y' hy, g2]; tauto) g3 (by simp [g1])

end

/-- Positions outside of the region are refused. -/
theorem c118_outside (p : ℚ) : ∀ (l : List ℚ) (j : ℕ), (∀ x ∈ l, x < p) ∨ (∀ x ∈ l, p < x) → locate p j l = none
  | [], _, _ => rfl
  | [s], j, h => by
    have hne : p ≠ s := by
      rcases h with h | h
      · exact ne_of_gt (h s (List.mem_cons_self ..))
      · exact ne_of_lt (h s (List.mem_cons_self ..))
    unfold locate
    rw [if_neg hne]
  | s :: s' :: l, j, h => by
    have hne : p ≠ s := by
      rcases h with h | h
      · exact ne_of_gt (h s (List.mem_cons_self ..))
      · exact ne_of_lt (h s (List.mem_cons_self ..))
    have hin : ¬ (s < p ∧ p < s') := by
      rintro ⟨h1, h2⟩
      rcases h with h | h
      · have := h s' (List.mem_cons_of_mem _ (List.mem_cons_self ..))
        linarith
      · have := h s (List.mem_cons_self ..)
        linarith
    unfold locate
    rw [if_neg hne]
    dsimp only
    rw [if_neg hin]
    refine c118_outside p (s' :: l) (j + 1) ?_
    rcases h with h | h
    · exact Or.inl fun x hx => h x (List.mem_cons_of_mem _ hx)
    · exact Or.inr fun x hx => h x (List.mem_cons_of_mem _ hx)

/-! Four elements. -/

def four : List ℚ := [0, 1 / 4, 1 / 2, 3 / 4, 1]

example : Nodes four := ⟨by unfold four; norm_num, rfl, rfl⟩
example : Ends four 2 (1 / 2) (3 / 4) := ⟨rfl, rfl⟩
example : plane (5 / 8) four = some (2, 0) := by decide +kernel
example : plane (1 / 2) four = some (2, -1) := by decide +kernel
example : plane 1 four = some (3, 1) := by decide +kernel
example : between (1 / 8) (1 / 2) four = some (0, 2) := by decide +kernel
example : Inside (.one (5 / 8)) ∧ Inside (.two (1 / 8) (1 / 2)) := by unfold Inside; norm_num
example : slice 1 (.two (1 / 8) (1 / 2)) (.one (1 / 2)) (.two 0 1) four four four 1 2 3 = some (some (-1)) := by decide +kernel
example : slice 1 (.two (1 / 8) (1 / 2)) (.one (1 / 2)) (.two 0 1) four four four 1 1 3 = some none := by decide +kernel
example : locate (9 / 8) 0 four = none := by decide +kernel

end Mifem.Props.Slice118
