import Verif.Model.FileName
import Mathlib.Data.List.Basic
import Mathlib.Tactic.Common

/-!
# C120: names of files

Specification: the extension is what follows the last dot; the other dots are written as underscores.
-/

namespace Mifem.Props.Name120
open Mifem.FileName

/-- Dots become underscores. -/
def under (c : Char) : Char := if c = '.' then '_' else c

/-- The name as a whole may be used. -/
def Allowed (s : List Char) : Prop := (∀ c ∈ s, c ∉ special) ∧ s.length ≤ 64

/-- The part before the extension has a letter or digit, does not begin with a digit and has no space. -/
def Good (n : List Char) : Prop := (∃ c ∈ n, c ∈ letters) ∧ (∀ c, n.head? = some c → c ∉ digits) ∧ ' ' ∉ n

/-- The extension has something that is no digit. -/
def GoodExt (e : List Char) : Prop := ∃ c ∈ e, c ∉ digits

theorem split_ne : ∀ s, split s ≠ []
  | [] => by simp [split]
  | c :: l => by
    unfold split
    split
    · simp
    · split <;> simp

theorem split_plain : ∀ s : List Char, '.' ∉ s → split s = [s]
  | [], _ => rfl
  | c :: l, h => by
    have h1 : c ≠ '.' := fun hc => h (by simp [hc])
    have h2 := split_plain l (fun hl => h (List.mem_cons_of_mem _ hl))
    unfold split
    rw [if_neg h1, h2]

theorem split_append : ∀ m l : List Char, split (m ++ '.' :: l) = split m ++ split l
  | [], l => by simp [split]
  | c :: m, l => by
    have ih := split_append m l
    rw [List.cons_append, split, split]
    by_cases hc : c = '.'
    · rw [if_pos hc, if_pos hc, ih]
      rfl
    · rw [if_neg hc, if_neg hc, ih]
      cases hm : split m with
      | nil => exact absurd hm (split_ne m)
      | cons h t => rfl

theorem join_split : ∀ m : List Char, join (split m) = m.map under
  | [] => rfl
  | c :: m => by
    have ih := join_split m
    unfold split
    by_cases hc : c = '.'
    · rw [if_pos hc]
      cases hm : split m with
      | nil => exact absurd hm (split_ne m)
      | cons h t =>
        rw [hm] at ih
        simp [join, ih, under, hc]
    · rw [if_neg hc]
      cases hm : split m with
      | nil => exact absurd hm (split_ne m)
      | cons h t =>
        rw [hm] at ih
        have hu : under c = c := if_neg hc
        dsimp only
        rw [List.map_cons, hu, ← ih]
        cases t <;> rfl

theorem under_plain {m : List Char} (h : '.' ∉ m) : m.map under = m := by
  rw [List.map_congr_left (g := id)]
  · simp
  · intro c hc
    exact if_neg (fun (h' : c = '.') => h (h' ▸ hc))

theorem no_dot (m : List Char) : '.' ∉ m.map under := by
  intro h
  obtain ⟨c, _, hc⟩ := List.mem_map.mp h
  unfold under at hc
  split at hc
  · exact absurd hc (by decide)
  · next h => exact h hc

theorem normal_ext (m e : List Char) (he : '.' ∉ e) : normal (m ++ '.' :: e) = m.map under ++ '.' :: e := by
  unfold normal
  by_cases hc : 1 < (m ++ '.' :: e).count '.'
  · rw [if_pos hc, split_append, split_plain e he, List.dropLast_concat, join_split]
    simp
  · rw [if_neg hc]
    have : '.' ∉ m := by
      intro hm
      have h1 := List.count_pos_iff.mpr hm
      apply hc
      rw [List.count_append, List.count_cons_self]
      omega
    rw [under_plain this]

theorem parts_ext (m e : List Char) (hm : '.' ∉ m) (he : '.' ∉ e) : parts (m ++ '.' :: e) = some (m, some e) := by
  unfold parts
  rw [if_neg (by rw [List.count_append, List.count_cons_self]; omega), split_append, split_plain m hm, split_plain e he]
  rfl

theorem normal_plain (s : List Char) (h : '.' ∉ s) : normal s = s := by
  unfold normal
  rw [if_neg (by rw [List.count_eq_zero.mpr h]; omega)]

theorem parts_plain (s : List Char) (h : '.' ∉ s) : parts s = some (s, none) := by
  unfold parts
  rw [if_pos (List.count_eq_zero.mpr h)]

open Classical in
theorem check_of_parts (s n : List Char) (e : Option (List Char)) (h : parts (normal s) = some (n, e)) :
    checkName s = if Allowed s ∧ Good n ∧ (∀ x, e = some x → GoodExt x) then some (n, e) else none := by
  unfold checkName
  by_cases h1 : s.any (special.contains ·) = true
  · rw [if_pos h1, if_neg]
    rintro ⟨⟨ha, _⟩, _⟩
    obtain ⟨c, hc, hc'⟩ := List.any_eq_true.mp h1
    exact ha c hc (by simpa using hc')
  rw [if_neg h1]
  by_cases h2 : 64 < s.length
  · rw [if_pos h2, if_neg]
    rintro ⟨⟨_, hl⟩, _⟩
    omega
  rw [if_neg h2, h]
  dsimp only
  have hA : Allowed s := by
    refine ⟨fun c hc hs => h1 (List.any_eq_true.mpr ⟨c, hc, by simpa using hs⟩), by omega⟩
  by_cases h3 : allDigits e = true
  · rw [if_pos h3, if_neg]
    rintro ⟨_, _, hx⟩
    cases e with
    | none => cases h3
    | some x =>
      obtain ⟨c, hc, hd⟩ := hx x rfl
      have := List.all_eq_true.mp h3 c hc
      exact hd (by simpa using this)
  rw [if_neg h3]
  have hE : ∀ x, e = some x → GoodExt x := by
    rintro x rfl
    by_contra hn
    apply h3
    refine List.all_eq_true.mpr fun c hc => ?_
    by_contra hd
    exact hn ⟨c, hc, by simpa using hd⟩
  by_cases h4 : (! n.any (letters.contains ·)) = true
  · rw [if_pos h4, if_neg]
    rintro ⟨_, ⟨⟨c, hc, hl⟩, _⟩, _⟩
    have : n.any (letters.contains ·) = true := List.any_eq_true.mpr ⟨c, hc, by simpa using hl⟩
    rw [this] at h4
    cases h4
  rw [if_neg h4]
  have hL : ∃ c ∈ n, c ∈ letters := by
    have : n.any (letters.contains ·) = true := by simpa using h4
    obtain ⟨c, hc, hl⟩ := List.any_eq_true.mp this
    exact ⟨c, hc, by simpa using hl⟩
  by_cases h5 : n.head?.any (digits.contains ·) = true
  · rw [if_pos h5, if_neg]
    rintro ⟨_, ⟨_, hd, _⟩, _⟩
    cases hh : n.head? with
    | none => rw [hh] at h5; cases h5
    | some c =>
      rw [hh] at h5
      exact hd c hh (by simpa using h5)
  rw [if_neg h5]
  by_cases h6 : n.contains ' ' = true
  · rw [if_pos h6, if_neg]
    rintro ⟨_, ⟨_, _, hsp⟩, _⟩
    exact hsp (by simpa using h6)
  rw [if_neg h6, if_pos]
  refine ⟨hA, ⟨hL, ?_, by simpa using h6⟩, hE⟩
  intro c hc hd
  apply h5
  rw [hc]
  simpa using hd

open Classical in
/-- **C120 (names with an extension).**  What follows the last dot is the extension, other dots become underscores; exactly the names that may be used
are accepted. -/
theorem c120_extension (m e : List Char) (he : '.' ∉ e) : checkName (m ++ '.' :: e) =
    if Allowed (m ++ '.' :: e) ∧ Good (m.map under) ∧ GoodExt e then some (m.map under, some e) else none := by
  rw [check_of_parts _ (m.map under) (some e) (by rw [normal_ext m e he, parts_ext _ _ (no_dot m) he])]
  simp

open Classical in
/-- **C120 (names without extension).** -/
theorem c120_plain (s : List Char) (h : '.' ∉ s) : checkName s = if Allowed s ∧ Good s then some (s, none) else none := by
  rw [check_of_parts s s none (by rw [normal_plain s h, parts_plain s h])]
  simp

/-- Each string has no dot, or a last one. -/
theorem last_dot : ∀ s : List Char, '.' ∉ s ∨ ∃ m e, s = m ++ '.' :: e ∧ '.' ∉ e
  | [] => Or.inl (by simp)
  | c :: l => by
    rcases last_dot l with h | ⟨m, e, h, he⟩
    · by_cases hc : c = '.'
      · exact Or.inr ⟨[], l, by rw [hc]; rfl, h⟩
      · exact Or.inl fun hm => by
          rcases List.mem_cons.mp hm with h' | h'
          · exact hc h'.symm
          · exact h h'
    · exact Or.inr ⟨c :: m, e, by rw [h]; rfl, he⟩

/-- The name of the two parts. -/
def whole (n : List Char) : Option (List Char) → List Char
  | none => n
  | some e => n ++ '.' :: e

/-- **C120 (normal names).**  The parts of an accepted name, put together, are accepted and have the same parts. -/
theorem c120_normal (s n : List Char) (e : Option (List Char)) (h : checkName s = some (n, e)) : checkName (whole n e) = some (n, e) := by
  classical
  rcases last_dot s with hs | ⟨m, x, rfl, hx⟩
  · have h' := h
    rw [c120_plain s hs] at h'
    split at h'
    · cases h'
      exact h
    · cases h'
  · rw [c120_extension m x hx] at h
    split at h
    · next hc =>
      cases h
      show checkName (m.map under ++ '.' :: x) = _
      rw [c120_extension _ x hx, under_plain (no_dot m), if_pos]
      refine ⟨⟨?_, ?_⟩, hc.2⟩
      · intro c hcm
        rcases List.mem_append.mp hcm with h1 | h1
        · obtain ⟨d, hd, rfl⟩ := List.mem_map.mp h1
          unfold under
          split
          · decide
          · exact hc.1.1 d (List.mem_append.mpr (Or.inl hd))
        · exact hc.1.1 c (List.mem_append.mpr (Or.inr h1))
      · have := hc.1.2
        simpa using this
    · cases h

/-- **C120 (different names).**  Accepted names with at most one dot are given back by their parts, so different ones stay different.  Missing: names
with more dots, see `c120_dots_fails`. -/
theorem c120_different_partial (s n : List Char) (e : Option (List Char)) (hd : s.count '.' ≤ 1) (h : checkName s = some (n, e)) : whole n e = s := by
  classical
  rcases last_dot s with hs | ⟨m, x, rfl, hx⟩
  · rw [c120_plain s hs] at h
    split at h
    · cases h; rfl
    · cases h
  · rw [c120_extension m x hx] at h
    split at h
    · cases h
      have : '.' ∉ m := by
        intro hm
        have h1 := List.count_pos_iff.mpr hm
        rw [List.count_append, List.count_cons_self] at hd
        omega
      show m.map under ++ '.' :: x = _
      rw [under_plain this]
    · cases h

/-- **C120 fails** for several dots: different names are the same file. -/
theorem c120_dots_fails : checkName "a.b.txt".toList = checkName "a_b.txt".toList ∧ checkName "a.b.txt".toList = some ("a_b".toList, some "txt".toList) ∧
    "a.b.txt".toList ≠ "a_b.txt".toList := by decide +kernel

example : checkName "a....12d".toList = some ("a___".toList, some "12d".toList) := by decide +kernel
example : checkName "__aba_dSSF.mii".toList = some ("__aba_dSSF".toList, some "mii".toList) := by decide +kernel
example : checkName "field".toList = some ("field".toList, none) := by decide +kernel
example : checkName "field.".toList = none ∧ checkName "field.12".toList = none ∧ checkName "1field.txt".toList = none ∧
    checkName "my field.txt".toList = none ∧ checkName "a/b.txt".toList = none ∧ checkName "__.txt".toList = none := by decide +kernel

end Mifem.Props.Name120
