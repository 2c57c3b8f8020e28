import Verif.Model.BoundaryReg
import Mathlib.Tactic.Common
import Mathlib.Data.List.Basic

/-!
# C122: regularity of the distribution of boundaries
-/

namespace Mifem.Props.Reg122
open Mifem.BoundaryReg

/-- Sides are perpendicular if they are not the same or opposite: `N`, `S` are 0, 1; `W`, `E` are 2, 3; `B`, `F` are 4, 5. -/
def Perp (i cd : ℕ) : Prop := cd < 6 ∧ i / 2 ≠ cd / 2

/-- A boundary goes on at the same side of each region next to it. -/
def Regular (n : ℕ) (map : ℕ → ℕ → Cell) : Prop :=
  ∀ rn < n, ∀ i < 6, ∀ b, map rn i = .bd b → ∀ cd, Perp i cd → ∀ R, map rn cd = .reg R → map R i = .bd b

/-- Regions in the map are regions of the domain. -/
def Closed (n : ℕ) (map : ℕ → ℕ → Cell) : Prop := ∀ rn < n, ∀ i < 6, ∀ R, map rn i = .reg R → R < n

theorem mem_directions {i : ℕ} (hi : i < 6) (cd : ℕ) : cd ∈ directions i ↔ Perp i cd := by
  unfold directions Perp
  split
  · simp only [List.mem_cons, List.not_mem_nil, or_false]; omega
  · split
    · simp only [List.mem_cons, List.not_mem_nil, or_false]; omega
    · simp only [List.mem_cons, List.not_mem_nil, or_false]; omega

theorem loop_spec (f : ℕ → Option Bool) (P : ℕ → Prop) : ∀ l : List ℕ, (∀ x ∈ l, (f x = some true ∧ P x) ∨ (f x = some false ∧ ¬ P x)) →
    (loop f l = some true ∧ ∀ x ∈ l, P x) ∨ (loop f l = some false ∧ ¬ ∀ x ∈ l, P x)
  | [], _ => Or.inl ⟨rfl, by simp⟩
  | x :: l, h => by
    rcases h x (List.mem_cons_self ..) with ⟨h1, h2⟩ | ⟨h1, h2⟩
    · rcases loop_spec f P l (fun y hy => h y (List.mem_cons_of_mem _ hy)) with ⟨h3, h4⟩ | ⟨h3, h4⟩
      · exact Or.inl ⟨by simp [loop, h1, h3], by simpa using ⟨h2, h4⟩⟩
      · exact Or.inr ⟨by simp [loop, h1, h3], fun hall => h4 fun y hy => hall y (List.mem_cons_of_mem _ hy)⟩
    · exact Or.inr ⟨by simp [loop, h1], fun hall => h2 (hall x (List.mem_cons_self ..))⟩

theorem along_spec (n : ℕ) (map : ℕ → ℕ → Cell) (rn i : ℕ) : ∀ l : List ℕ, (∀ cd ∈ l, ∀ R, map rn cd = .reg R → R < n) →
    (along n map rn i l = some true ∧ ∀ cd ∈ l, ∀ R, map rn cd = .reg R → map R i = map rn i) ∨
    (along n map rn i l = some false ∧ ¬ ∀ cd ∈ l, ∀ R, map rn cd = .reg R → map R i = map rn i)
  | [], _ => Or.inl ⟨rfl, by simp⟩
  | cd :: l, h => by
    have ih := along_spec n map rn i l (fun c hc => h c (List.mem_cons_of_mem _ hc))
    cases hm : map rn cd with
    | bd b =>
      have e : along n map rn i (cd :: l) = along n map rn i l := by simp [along, hm]
      rw [e]
      rcases ih with ⟨h1, h2⟩ | ⟨h1, h2⟩
      · refine Or.inl ⟨h1, fun c hc R hR => ?_⟩
        rcases List.mem_cons.mp hc with rfl | hc
        · rw [hm] at hR; cases hR
        · exact h2 c hc R hR
      · exact Or.inr ⟨h1, fun hall => h2 fun c hc => hall c (List.mem_cons_of_mem _ hc)⟩
    | reg R0 =>
      have hR0 := h cd (List.mem_cons_self ..) R0 hm
      by_cases heq : map R0 i = map rn i
      · have e : along n map rn i (cd :: l) = along n map rn i l := by simp [along, hm, hR0, heq]
        rw [e]
        rcases ih with ⟨h1, h2⟩ | ⟨h1, h2⟩
        · refine Or.inl ⟨h1, fun c hc R hR => ?_⟩
          rcases List.mem_cons.mp hc with rfl | hc
          · rw [hm] at hR; cases hR; exact heq
          · exact h2 c hc R hR
        · exact Or.inr ⟨h1, fun hall => h2 fun c hc => hall c (List.mem_cons_of_mem _ hc)⟩
      · exact Or.inr ⟨by simp [along, hm, hR0, heq], fun hall => heq (hall cd (List.mem_cons_self ..) R0 hm)⟩

/-- **C122 (decision).**  The distribution is called regular exactly if each boundary goes on at the same side of each region next to it. -/
theorem c122_regular (n : ℕ) (map : ℕ → ℕ → Cell) (hc : Closed n map) :
    (regular n map = some true ∧ Regular n map) ∨ (regular n map = some false ∧ ¬ Regular n map) := by
  unfold regular
  by_cases h1 : n = 1
  · subst h1
    rw [if_pos rfl]
    refine Or.inl ⟨rfl, ?_⟩
    intro rn hrn i hi b hb cd hcd R hR
    have := hc rn hrn cd hcd.1 R hR
    have e : R = rn := by omega
    rw [e]; exact hb
  · rw [if_neg h1]
    have := loop_spec (fun rn => loop (side n map rn) (List.range 6))
      (fun rn => ∀ i ∈ List.range 6, ∀ b, map rn i = .bd b → ∀ cd, Perp i cd → ∀ R, map rn cd = .reg R → map R i = .bd b) (List.range n) (by
        intro rn hrn
        have hrn := List.mem_range.mp hrn
        refine loop_spec (side n map rn) (fun i => ∀ b, map rn i = .bd b → ∀ cd, Perp i cd → ∀ R, map rn cd = .reg R → map R i = .bd b)
          (List.range 6) ?_
        intro i hi
        have hi := List.mem_range.mp hi
        unfold side
        cases hm : map rn i with
        | reg R => exact Or.inl ⟨rfl, fun b hb => by cases hb⟩
        | bd b =>
          rcases along_spec n map rn i (directions i) (fun cd hcd R hR => hc rn hrn cd ((mem_directions hi cd).mp hcd).1 R hR) with
            ⟨h2, h3⟩ | ⟨h2, h3⟩
          · refine Or.inl ⟨h2, fun b' hb' cd hcd R hR => ?_⟩
            rw [← hb', ← hm]
            exact h3 cd ((mem_directions hi cd).mpr hcd) R hR
          · refine Or.inr ⟨h2, fun hall => h3 fun cd hcd R hR => ?_⟩
            rw [hm]
            exact hall b rfl cd ((mem_directions hi cd).mp hcd) R hR)
    rcases this with ⟨h2, h3⟩ | ⟨h2, h3⟩
    · exact Or.inl ⟨h2, fun rn hrn i hi => h3 rn (List.mem_range.mpr hrn) i (List.mem_range.mpr hi)⟩
    · exact Or.inr ⟨h2, fun hall => h3 fun rn hrn i hi => hall rn (List.mem_range.mp hrn) i (List.mem_range.mp hi)⟩

/-- `R'` is reached from `R` across sides that are perpendicular to side `i`. -/
inductive Reached (map : ℕ → ℕ → Cell) (i : ℕ) : ℕ → ℕ → Prop
  | here (R : ℕ) : Reached map i R R
  | next {R R' R'' : ℕ} (cd : ℕ) : Reached map i R R' → Perp i cd → map R' cd = .reg R'' → Reached map i R R''

/-- **C122 (spread).**  In domains called regular a boundary is at the same side of all regions that are reached from one with the boundary across
perpendicular sides, over any number of regions. -/
theorem c122_spread (n : ℕ) (map : ℕ → ℕ → Cell) (hc : Closed n map) (h : regular n map = some true) (i b R R' : ℕ) (hi : i < 6) (hR : R < n)
    (hb : map R i = .bd b) (hr : Reached map i R R') : R' < n ∧ map R' i = .bd b := by
  have hreg : Regular n map := by
    rcases c122_regular n map hc with ⟨_, h'⟩ | ⟨h', _⟩
    · exact h'
    · rw [h] at h'; cases h'
  induction hr with
  | here => exact ⟨hR, hb⟩
  | next cd _ hp hm ih => exact ⟨hc _ ih.1 cd hp.1 _ hm, hreg _ ih.1 i hi b ih.2 cd hp _ hm⟩

/-! Two regions next to each other in the first direction, with one boundary around both, and with a boundary of its own above the second. -/

def oneName : ℕ → ℕ → Cell
  | 0, 1 => .reg 1
  | 1, 0 => .reg 0
  | _, _ => .bd 0

def twoNames : ℕ → ℕ → Cell
  | 0, 1 => .reg 1
  | 1, 0 => .reg 0
  | 1, 5 => .bd 1
  | _, _ => .bd 0

theorem closed_oneName : Closed 2 oneName := by
  have : ∀ rn < 2, ∀ i < 6, ∀ R < 3, oneName rn i = .reg R → R < 2 := by decide
  intro rn hrn i hi R hR
  by_cases h : R < 3
  · exact this rn hrn i hi R h hR
  · exfalso
    unfold oneName at hR
    split at hR
    · cases hR; omega
    · cases hR; omega
    · cases hR

example : regular 2 oneName = some true := by decide
example : regular 2 twoNames = some false := by decide
example : Reached oneName 5 0 1 := .next 1 (.here 0) ⟨by decide, by decide⟩ rfl
example : oneName 0 5 = .bd 0 := rfl

end Mifem.Props.Reg122
