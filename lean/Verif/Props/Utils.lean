import Verif.Model.Utils
import Mathlib.Algebra.Order.Group.Unbundled.Abs
import Mathlib.Algebra.Order.Group.Abs
import Mathlib.Tactic.Linarith
import Mathlib.Tactic.Ring
import Mathlib.Tactic.IntervalCases
import Mathlib.Tactic.FieldSimp
import Mathlib.Data.Nat.Digits.Lemmas

/-!
# C40, C41: small utilities
-/

namespace Mifem.Props
open Mifem.Utils

section Closest
variable {α : Type} [AddCommGroup α] [LinearOrder α] [IsOrderedAddMonoid α]

omit [AddCommGroup α] [IsOrderedAddMonoid α] in
theorem sorted_le (a : List α) (hs : a.Pairwise (· ≤ ·)) (i j : Nat) (hij : i ≤ j) (hj : j < a.length) : a[i] ≤ a[j] := by
  rcases Nat.lt_or_ge i j with h | h
  · exact (List.pairwise_iff_getElem.1 hs) i j (by omega) hj h
  · have : i = j := by omega
    subst this
    exact le_refl _

omit [IsOrderedAddMonoid α] in
theorem bisect_spec (a : List α) (x : α) (hs : a.Pairwise (· ≤ ·)) (n lo hi : Nat) (hn : hi - lo = n) (hl : lo ≤ hi) (hh : hi ≤ a.length)
    (h1 : ∀ (i : Nat) (h : i < a.length), i < lo → a[i] < x) (h2 : ∀ (i : Nat) (h : i < a.length), hi ≤ i → x ≤ a[i]) :
    bisect a x lo hi ≤ a.length ∧ (∀ (i : Nat) (h : i < a.length), i < bisect a x lo hi → a[i] < x) ∧ ∀ (i : Nat) (h : i < a.length), bisect a x lo hi ≤ i → x ≤ a[i] := by
  induction n using Nat.strong_induction_on generalizing lo hi with
  | _ n ih =>
    unfold bisect
    split
    · rename_i hlt
      have hm : (lo + hi) / 2 < a.length := by omega
      simp only [List.getElem?_eq_getElem hm]
      split
      · rename_i hy
        refine ih (hi - ((lo + hi) / 2 + 1)) (by omega) _ _ rfl (by omega) hh (fun i h hi' => ?_) h2
        exact lt_of_le_of_lt (sorted_le a hs i _ (by omega) hm) hy
      · rename_i hy
        refine ih ((lo + hi) / 2 - lo) (by omega) _ _ rfl (by omega) (by omega) h1 (fun i h hi' => ?_)
        exact le_trans (not_lt.1 hy) (sorted_le a hs _ i hi' h)
    · rename_i hlt
      exact ⟨by omega, h1, fun i h hi' => h2 i h (by omega)⟩

/-- **C40, `take_closest`.** On a sorted list that is not empty the result is a member of the list, no member is closer, and
of the members that are equally close it is the smallest. -/
theorem c40_take_closest (a : List α) (x : α) (hs : a.Pairwise (· ≤ ·)) (hne : a ≠ []) :
    ∃ y, takeClosest a x = some y ∧ y ∈ a ∧ ∀ z ∈ a, |y - x| ≤ |z - x| ∧ (|z - x| = |y - x| → y ≤ z) := by
  have hlen : 0 < a.length := List.length_pos_iff.2 hne
  obtain ⟨hb, hlo, hhi⟩ := bisect_spec a x hs _ 0 a.length rfl (Nat.zero_le _) (le_refl _) (fun i _ h => absurd h (by omega)) (fun i h h' => absurd h' (by omega))
  unfold takeClosest
  simp only
  generalize hp : bisect a x 0 a.length = p at *
  have key_hi : ∀ (y z : α), x ≤ y → y ≤ z → |y - x| ≤ |z - x| ∧ (|z - x| = |y - x| → y ≤ z) := by
    intro y z h1 h2
    rw [abs_of_nonneg (sub_nonneg.2 h1), abs_of_nonneg (sub_nonneg.2 (le_trans h1 h2))]
    exact ⟨sub_le_sub_right h2 x, fun _ => h2⟩
  have key_lo : ∀ (y z : α), y < x → z ≤ y → |y - x| ≤ |z - x| ∧ (|z - x| = |y - x| → y ≤ z) := by
    intro y z h1 h2
    rw [abs_of_nonpos (sub_nonpos.2 (le_of_lt h1)), abs_of_nonpos (sub_nonpos.2 (le_trans h2 (le_of_lt h1))), neg_sub, neg_sub]
    refine ⟨sub_le_sub_left h2 x, fun h => ?_⟩
    have : z = y := by
      have := congrArg (fun t => x - t) h
      simpa using this
    rw [this]
  by_cases h0 : p = 0
  · rw [if_pos h0]
    refine ⟨a[0], List.getElem?_eq_getElem hlen, List.getElem_mem _, fun z hz => ?_⟩
    obtain ⟨j, hj, rfl⟩ := List.getElem_of_mem hz
    exact key_hi _ _ (hhi 0 hlen (by omega)) (sorted_le a hs 0 j (by omega) hj)
  rw [if_neg h0]
  by_cases hL : p = a.length
  · rw [if_pos hL, List.getLast?_eq_getElem?]
    refine ⟨a[a.length - 1], List.getElem?_eq_getElem (by omega), List.getElem_mem _, fun z hz => ?_⟩
    obtain ⟨j, hj, rfl⟩ := List.getElem_of_mem hz
    exact key_lo _ _ (hlo _ (by omega) (by omega)) (sorted_le a hs j _ (by omega) (by omega))
  rw [if_neg hL, List.getElem?_eq_getElem (show p - 1 < a.length by omega), List.getElem?_eq_getElem (show p < a.length by omega)]
  have hbe : a[p - 1] < x := hlo _ (by omega) (by omega)
  have haf : x ≤ a[p] := hhi _ (by omega) (le_refl _)
  have hab : |a[p] - x| = a[p] - x := abs_of_nonneg (sub_nonneg.2 haf)
  have hbb : |a[p - 1] - x| = x - a[p - 1] := by rw [abs_of_nonpos (sub_nonpos.2 (le_of_lt hbe)), neg_sub]
  simp only [Option.bind_eq_bind, Option.bind_some]
  split
  · rename_i hlt
    refine ⟨_, rfl, List.getElem_mem _, fun z hz => ?_⟩
    obtain ⟨j, hj, rfl⟩ := List.getElem_of_mem hz
    rcases Nat.lt_or_ge j p with h | h
    · obtain ⟨k1, _⟩ := key_lo a[p - 1] a[j] hbe (sorted_le a hs j _ (by omega) (by omega))
      rw [hbb] at k1
      rw [hab]
      exact ⟨le_trans (le_of_lt hlt) k1, fun h => absurd (lt_of_lt_of_le hlt k1) (by rw [h]; exact lt_irrefl _)⟩
    · exact key_hi _ _ haf (sorted_le a hs p j h hj)
  · rename_i hge
    rw [not_lt] at hge
    refine ⟨_, rfl, List.getElem_mem _, fun z hz => ?_⟩
    obtain ⟨j, hj, rfl⟩ := List.getElem_of_mem hz
    rcases Nat.lt_or_ge j p with h | h
    · exact key_lo _ _ hbe (sorted_le a hs j _ (by omega) (by omega))
    · obtain ⟨k1, _⟩ := key_hi a[p] a[j] haf (sorted_le a hs p j h hj)
      rw [hab] at k1
      rw [hbb]
      exact ⟨le_trans hge k1, fun _ => sorted_le a hs (p - 1) j (by omega) hj⟩

/-- on the empty list there is nothing to take. -/
theorem c40_take_closest_empty (x : α) : takeClosest [] x = none := by
  simp [takeClosest]

end Closest

/-- a tie between 2 and 6. -/
example : takeClosest ([-1, 2, 2, 6, 9] : List ℤ) 4 = some 2 := by
  obtain ⟨y, h1, h2, h3⟩ := c40_take_closest ([-1, 2, 2, 6, 9] : List ℤ) 4 (by decide) (by decide)
  have := h3 2 (by decide)
  simp only [List.mem_cons, List.not_mem_nil, or_false] at h2
  rcases h2 with rfl | rfl | rfl | rfl | rfl
  · exact absurd this.1 (by decide)
  · exact h1
  · exact h1
  · exact absurd (this.2 (by decide)) (by decide)
  · exact absurd this.1 (by decide)

theorem breakList_flatten {α : Type} (l : List α) : ∀ (ps : List Nat) (start : Nat), (breakList l start ps).flatten = (l.drop start).take ps.sum
  | [], start => by simp [breakList]
  | p :: ps, start => by
    rw [breakList, List.flatten_cons, breakList_flatten l ps, List.sum_cons, List.drop_take, Nat.add_sub_cancel_left, List.take_add, List.drop_drop]

theorem breakList_lengths {α : Type} (l : List α) : ∀ (ps : List Nat) (start : Nat), start + ps.sum ≤ l.length → (breakList l start ps).map List.length = ps
  | [], _, _ => rfl
  | p :: ps, start, h => by
    rw [List.sum_cons] at h
    rw [breakList, List.map_cons, breakList_lengths l ps _ (by omega), List.length_drop, List.length_take, Nat.min_eq_left (by omega), Nat.add_sub_cancel_left]

/-- **C40, `break_list_into_parts`.** If the sizes add up to the length, the pieces have these sizes and their concatenation
is the list. -/
theorem c40_break_list {α : Type} (l : List α) (ps : List Nat) (h : ps.sum = l.length) :
    (breakList l 0 ps).map List.length = ps ∧ (breakList l 0 ps).flatten = l := by
  refine ⟨breakList_lengths l ps 0 (by omega), ?_⟩
  rw [breakList_flatten, h]
  simp

/-- **C40, sizes that do not add up.** No error is raised: what is left over is dropped, what is missing makes pieces short. -/
theorem c40_break_list_any {α : Type} (l : List α) (ps : List Nat) : (breakList l 0 ps).flatten = l.take ps.sum ∧ (breakList l 0 ps).length = ps.length := by
  refine ⟨by rw [breakList_flatten]; simp, ?_⟩
  have : ∀ (ps : List Nat) (s : Nat), (breakList l s ps).length = ps.length := by
    intro ps
    induction ps with
    | nil => intro s; rfl
    | cons p ps ih => intro s; rw [breakList, List.length_cons, List.length_cons, ih]
  exact this ps 0

example : breakList [1, 2, 3, 4, 5] 0 [3, 0, 2] = [[1, 2, 3], [], [4, 5]] := by decide

/-! ## durations -/

theorem digit_isDigit (d : Nat) (h : d < 10) : (digit d).isDigit = true ∧ (digit d).toNat - 48 = d ∧ digit d ≠ ':' ∧ digit d ≠ '.' ∧ digit d ≠ '-' := by
  interval_cases d <;> decide

theorem dec_digits (n : Nat) : (∀ c ∈ dec n, c.isDigit = true) ∧ (∀ c ∈ dec n, c ≠ ':' ∧ c ≠ '.' ∧ c ≠ '-') ∧ dec n ≠ [] := by
  unfold dec
  split
  · refine ⟨by decide, by decide, by decide⟩
  · rename_i h
    have hd : ∀ c ∈ (Nat.digits 10 n).reverse.map digit, ∃ d, d < 10 ∧ c = digit d := by
      intro c hc
      rw [List.mem_map] at hc
      obtain ⟨d, h1, h2⟩ := hc
      exact ⟨d, Nat.digits_lt_base (by omega) (List.mem_reverse.1 h1), h2.symm⟩
    refine ⟨fun c hc => ?_, fun c hc => ?_, ?_⟩
    · obtain ⟨d, h1, rfl⟩ := hd c hc
      exact (digit_isDigit d h1).1
    · obtain ⟨d, h1, rfl⟩ := hd c hc
      exact (digit_isDigit d h1).2.2
    · simp [Nat.digits_eq_nil_iff_eq_zero, h]

theorem fold_digits : ∀ (ds : List Nat), (∀ d ∈ ds, d < 10) →
    (ds.reverse.map digit).foldl (fun a c => 10 * a + (c.toNat - 48)) 0 = Nat.ofDigits 10 ds
  | [], _ => by simp
  | d :: ds, h => by
    rw [List.reverse_cons, List.map_append, List.foldl_append, fold_digits ds (fun e he => h e (List.mem_cons_of_mem _ he)), Nat.ofDigits_cons]
    simp only [List.map_cons, List.map_nil, List.foldl_cons, List.foldl_nil]
    rw [(digit_isDigit d (h d List.mem_cons_self)).2.1]
    show 10 * _ + d = d + 10 * _
    omega

theorem fold_dec (n : Nat) : (dec n).foldl (fun a c => 10 * a + (c.toNat - 48)) 0 = n := by
  unfold dec
  split
  · rename_i h
    subst h
    decide
  · rw [fold_digits _ (fun d hd => Nat.digits_lt_base (by omega) hd), Nat.ofDigits_digits]

theorem fold_zeros : ∀ (k : Nat) (cs : List Char), (List.replicate k '0' ++ cs).foldl (fun a c => 10 * a + (c.toNat - 48)) 0 = cs.foldl (fun a c => 10 * a + (c.toNat - 48)) 0
  | 0, cs => rfl
  | k + 1, cs => by
    rw [List.replicate_succ, List.cons_append, List.foldl_cons]
    exact fold_zeros k cs

theorem parseNat_pad (k n : Nat) : parseNat (List.replicate k '0' ++ dec n) = some n := by
  unfold parseNat
  rw [if_pos, fold_zeros, fold_dec]
  refine ⟨by simp [(dec_digits n).2.2], fun c hc => ?_⟩
  rcases List.mem_append.1 hc with h | h
  · rw [List.eq_of_mem_replicate h]
    decide
  · exact (dec_digits n).1 c h

theorem fmt_clean (w : Nat) (z : ℤ) : ':' ∉ fmt w z ∧ '.' ∉ fmt w z := by
  have hb : ∀ (k n : Nat), ∀ c ∈ List.replicate k '0' ++ dec n, c ≠ ':' ∧ c ≠ '.' ∧ c ≠ '-' := by
    intro k n c hc
    rcases List.mem_append.1 hc with h | h
    · rw [List.eq_of_mem_replicate h]
      decide
    · exact (dec_digits n).2.1 c h
  unfold fmt
  split
  · constructor
    · intro h
      rcases List.mem_cons.1 h with h | h
      · exact absurd h (by decide)
      · exact (hb _ _ _ h).1 rfl
    · intro h
      rcases List.mem_cons.1 h with h | h
      · exact absurd h (by decide)
      · exact (hb _ _ _ h).2.1 rfl
  · exact ⟨fun h => (hb _ _ _ h).1 rfl, fun h => (hb _ _ _ h).2.1 rfl⟩

theorem parseInt_fmt (w : Nat) (z : ℤ) : parseInt (fmt w z) = some z := by
  unfold fmt
  split
  · simp only [parseInt, parseNat_pad, Option.map_some]
    congr 1
    omega
  · have hne : ∀ cs, List.replicate (w - (dec z.natAbs).length) '0' ++ dec z.natAbs ≠ '-' :: cs := by
      intro cs hc
      have : '-' ∈ List.replicate (w - (dec z.natAbs).length) '0' ++ dec z.natAbs := by rw [hc]; exact List.mem_cons_self
      rcases List.mem_append.1 this with h | h
      · exact absurd (List.eq_of_mem_replicate h) (by decide)
      · exact ((dec_digits _).2.1 _ h).2.2 rfl
    simp only
    unfold parseInt
    split
    · rename_i cs heq
      exact absurd heq (hne cs)
    · rw [parseNat_pad, Option.map_some]
      congr 1
      omega

theorem split_none (c : Char) : ∀ (a : List Char), c ∉ a → split c a = [a]
  | [], _ => rfl
  | x :: a, h => by
    rw [split, if_neg (fun hc : x = c => h (hc ▸ List.mem_cons_self)), split_none c a (fun hc => h (List.mem_cons_of_mem _ hc))]

theorem split_at (c : Char) (b : List Char) : ∀ (a : List Char), c ∉ a → split c (a ++ c :: b) = a :: split c b
  | [], _ => by simp [split]
  | x :: a, h => by
    rw [List.cons_append, split, if_neg (fun hc : x = c => h (hc ▸ List.mem_cons_self)), split_at c b a (fun hc => h (List.mem_cons_of_mem _ hc))]

/-- whole hours, minutes below 60 and seconds below 60 of a duration. -/
theorem hms_fields (s : ℚ) : ∃ h m k : ℤ, (divmod (divmod s 60).1 60).1 = h ∧ trunc (divmod (divmod s 60).1 60).2 = m ∧ trunc (divmod s 60).2 = k ∧
    0 ≤ m ∧ m < 60 ∧ 0 ≤ k ∧ k < 60 ∧ h * 3600 + m * 60 + k = ⌊s⌋ := by
  simp only [divmod]
  generalize hM : ⌊s / ((60 : ℤ) : ℚ)⌋ = M
  have hM1 : (M : ℚ) * 60 ≤ s := by
    have := Int.floor_le (s / ((60 : ℤ) : ℚ))
    rw [hM] at this
    push_cast at this
    rwa [le_div_iff₀ (by norm_num)] at this
  have hM2 : s < (M + 1 : ℚ) * 60 := by
    have := Int.lt_floor_add_one (s / ((60 : ℤ) : ℚ))
    rw [hM] at this
    push_cast at this
    rwa [div_lt_iff₀ (by norm_num)] at this
  have hH : ⌊((M : ℤ) : ℚ) / ((60 : ℤ) : ℚ)⌋ = M / 60 := by
    have := Rat.floor_intCast_div_natCast M 60
    simpa using this
  rw [hH]
  have h60 : (((60 : ℤ) : ℚ)) = 60 := by norm_num
  have hmin : trunc ((M : ℚ) - ((60 : ℤ) : ℚ) * ((M / 60 : ℤ) : ℚ)) = M - 60 * (M / 60) := by
    have : (M : ℚ) - ((60 : ℤ) : ℚ) * ((M / 60 : ℤ) : ℚ) = ((M - 60 * (M / 60) : ℤ) : ℚ) := by push_cast; ring
    rw [this]
    unfold trunc
    split
    · exact Int.floor_intCast _
    · exact Int.ceil_intCast _
  rw [hmin]
  have hsec : trunc (s - ((60 : ℤ) : ℚ) * (M : ℚ)) = ⌊s⌋ - 60 * M := by
    unfold trunc
    rw [if_pos (by rw [h60]; linarith)]
    have : s - ((60 : ℤ) : ℚ) * (M : ℚ) = s - ((60 * M : ℤ) : ℚ) := by push_cast; ring
    rw [this, Int.floor_sub_intCast]
  rw [hsec]
  have hf1 : 60 * M ≤ ⌊s⌋ := by
    rw [Int.le_floor]
    push_cast
    linarith
  have hf2 : ⌊s⌋ < 60 * M + 60 := by
    rw [Int.floor_lt]
    push_cast
    linarith
  refine ⟨_, _, _, rfl, rfl, rfl, by omega, by omega, by omega, by omega, by omega⟩

/-- **C41, `[hh:mm:ss]`.** Converting a duration to text and back gives its whole seconds. -/
theorem c41_hms (s : ℚ) : hms2seconds (seconds2hms s) = some ⌊s⌋ := by
  obtain ⟨h, m, k, e1, e2, e3, _, _, _, _, hsum⟩ := hms_fields s
  unfold seconds2hms
  simp only [e1, e2, e3]
  unfold hms2seconds
  have : ((['['] ++ fmt 2 h ++ [':'] ++ fmt 2 m ++ [':'] ++ fmt 2 k ++ [']']).drop 1).dropLast = fmt 2 h ++ ':' :: (fmt 2 m ++ ':' :: fmt 2 k) := by
    rw [show (['['] ++ fmt 2 h ++ [':'] ++ fmt 2 m ++ [':'] ++ fmt 2 k ++ [']']).drop 1 = (fmt 2 h ++ ':' :: (fmt 2 m ++ ':' :: fmt 2 k)) ++ [']'] by simp]
    exact List.dropLast_concat
  rw [this, split_at _ _ _ (fmt_clean 2 h).1, split_at _ _ _ (fmt_clean 2 m).1, split_none _ _ (fmt_clean 2 k).1]
  simp only [parseInt_fmt]
  rw [← hsum]
  rfl

/-- **C41, `[dd:hh:mm:ss]`.** Converting a duration to text and back gives its whole seconds. -/
theorem c41_dhms (s : ℚ) : dhms2seconds (seconds2dhms s) = some ⌊s⌋ := by
  unfold seconds2dhms
  simp only
  generalize hd : trunc (s / 86400) = d
  obtain ⟨h, m, k, e1, e2, e3, _, _, _, _, hsum⟩ := hms_fields (s - 86400 * d)
  simp only [e1, e2, e3]
  unfold dhms2seconds
  have : ((['['] ++ fmt 0 d ++ [':'] ++ fmt 2 h ++ [':'] ++ fmt 2 m ++ [':'] ++ fmt 2 k ++ [']']).drop 1).dropLast = fmt 0 d ++ ':' :: (fmt 2 h ++ ':' :: (fmt 2 m ++ ':' :: fmt 2 k)) := by
    rw [show (['['] ++ fmt 0 d ++ [':'] ++ fmt 2 h ++ [':'] ++ fmt 2 m ++ [':'] ++ fmt 2 k ++ [']']).drop 1 = (fmt 0 d ++ ':' :: (fmt 2 h ++ ':' :: (fmt 2 m ++ ':' :: fmt 2 k))) ++ [']'] by simp]
    exact List.dropLast_concat
  rw [this, split_at _ _ _ (fmt_clean 0 d).1, split_at _ _ _ (fmt_clean 2 h).1, split_at _ _ _ (fmt_clean 2 m).1, split_none _ _ (fmt_clean 2 k).1]
  simp only [parseInt_fmt]
  have hs : ⌊s - 86400 * (d : ℚ)⌋ = ⌊s⌋ - 86400 * d := by
    rw [show s - 86400 * (d : ℚ) = s - ((86400 * d : ℤ) : ℚ) by push_cast; ring, Int.floor_sub_intCast]
  rw [hs] at hsum
  show some (d * 86400 + h * 3600 + m * 60 + k) = some ⌊s⌋
  congr 1
  omega

/-- a natural number below 100 written with two digits. -/
def two (n : Nat) : List Char := [digit (n / 10), digit (n % 10)]

theorem fmt_two (n : Nat) (h : n < 100) : fmt 2 (n : ℤ) = two n := by
  interval_cases n <;> decide

/-- **C41, the text.** For a duration that is not negative, `[dd:hh:mm:ss]` shows the days and two digits each of hours below
24, minutes below 60 and seconds below 60. -/
theorem c41_text (s : ℚ) (h0 : 0 ≤ s) : ∃ d h m k : Nat, h < 24 ∧ m < 60 ∧ k < 60 ∧ (d * 86400 + h * 3600 + m * 60 + k : ℤ) = ⌊s⌋ ∧
    seconds2dhms s = ['['] ++ dec d ++ [':'] ++ two h ++ [':'] ++ two m ++ [':'] ++ two k ++ [']'] := by
  have ht : trunc (s / 86400) = ⌊s / 86400⌋ := by
    unfold trunc
    rw [if_pos (by positivity)]
  unfold seconds2dhms
  simp only
  rw [ht]
  generalize hd : ⌊s / 86400⌋ = d
  obtain ⟨h, m, k, e1, e2, e3, m0, m1, k0, k1, hsum⟩ := hms_fields (s - 86400 * d)
  simp only [e1, e2, e3]
  have hs : ⌊s - 86400 * (d : ℚ)⌋ = ⌊s⌋ - 86400 * d := by
    rw [show s - 86400 * (d : ℚ) = s - ((86400 * d : ℤ) : ℚ) by push_cast; ring, Int.floor_sub_intCast]
  rw [hs] at hsum
  have hd0 : 0 ≤ d := by
    rw [← hd]
    exact Int.floor_nonneg.2 (by positivity)
  have hd1 : 86400 * d ≤ ⌊s⌋ := by
    have := Int.floor_le (s / 86400)
    rw [hd, le_div_iff₀ (by norm_num)] at this
    rw [Int.le_floor]
    push_cast
    linarith
  have hd2 : ⌊s⌋ < 86400 * d + 86400 := by
    have := Int.lt_floor_add_one (s / 86400)
    rw [hd, div_lt_iff₀ (by norm_num)] at this
    rw [Int.floor_lt]
    push_cast
    linarith
  lift d to ℕ using hd0
  lift h to ℕ using by omega
  lift m to ℕ using m0
  lift k to ℕ using k0
  refine ⟨d, h, m, k, by omega, by omega, by omega, by omega, ?_⟩
  rw [fmt_two h (by omega), fmt_two m (by omega), fmt_two k (by omega)]
  congr 7
  unfold fmt
  rw [if_neg (by omega)]
  simp

example : seconds2dhms 90061 = "[1:01:01:01]".toList := by decide +kernel

/-- **C41, `[dd:hh:mm:ss.ms]`, durations that are not negative.** Converting to text and back gives the duration rounded down
to milliseconds. -/
theorem c41_dhmsm_partial (s : ℚ) (h0 : 0 ≤ s) : ∃ r : ℚ, dhmsm2seconds (seconds2dhmsm s) = some r ∧ r ≤ s ∧ s < r + 1 / 1000 ∧ ∃ n : ℤ, r = n / 1000 := by
  have ht : trunc s = ⌊s⌋ := by
    unfold trunc
    rw [if_pos h0]
  unfold seconds2dhmsm
  simp only
  rw [ht]
  generalize hd : trunc (s / 86400) = d
  obtain ⟨h, m, k, e1, e2, e3, _, _, _, _, hsum⟩ := hms_fields (s - 86400 * d)
  have hms : trunc ((s - ⌊s⌋) * 1000) = ⌊(s - ⌊s⌋) * 1000⌋ := by
    unfold trunc
    rw [if_pos]
    have := Int.floor_le s
    exact mul_nonneg (by linarith) (by norm_num)
  rw [hms]
  generalize hq : ⌊(s - ⌊s⌋) * 1000⌋ = q
  simp only [e1, e2, e3]
  unfold dhmsm2seconds
  have hsp : split '.' (['['] ++ fmt 0 d ++ [':'] ++ fmt 2 h ++ [':'] ++ fmt 2 m ++ [':'] ++ fmt 2 k ++ ['.'] ++ fmt 3 q ++ [']']) =
      ['[' :: (fmt 0 d ++ ':' :: (fmt 2 h ++ ':' :: (fmt 2 m ++ ':' :: fmt 2 k))), fmt 3 q ++ [']']] := by
    rw [show ['['] ++ fmt 0 d ++ [':'] ++ fmt 2 h ++ [':'] ++ fmt 2 m ++ [':'] ++ fmt 2 k ++ ['.'] ++ fmt 3 q ++ [']'] =
      ('[' :: (fmt 0 d ++ ':' :: (fmt 2 h ++ ':' :: (fmt 2 m ++ ':' :: fmt 2 k)))) ++ '.' :: (fmt 3 q ++ [']']) by simp]
    rw [split_at, split_none]
    · simp [(fmt_clean 3 q).2]
    · simp [(fmt_clean 0 d).2, (fmt_clean 2 h).2, (fmt_clean 2 m).2, (fmt_clean 2 k).2]
  rw [hsp]
  simp only [List.drop_succ_cons, List.drop_zero]
  rw [split_at _ _ _ (fmt_clean 0 d).1, split_at _ _ _ (fmt_clean 2 h).1, split_at _ _ _ (fmt_clean 2 m).1, split_none _ _ (fmt_clean 2 k).1]
  simp only [parseInt_fmt, List.dropLast_concat]
  have hs : ⌊s - 86400 * (d : ℚ)⌋ = ⌊s⌋ - 86400 * d := by
    rw [show s - 86400 * (d : ℚ) = s - ((86400 * d : ℤ) : ℚ) by push_cast; ring, Int.floor_sub_intCast]
  rw [hs] at hsum
  have hsum' : d * 86400 + h * 3600 + m * 60 + k = ⌊s⌋ := by omega
  refine ⟨((d * 86400 + h * 3600 + m * 60 + k : ℤ) : ℚ) + (q : ℚ) / 1000, rfl, ?_⟩
  rw [hsum']
  have q1 : (q : ℚ) ≤ (s - ⌊s⌋) * 1000 := hq ▸ Int.floor_le _
  have q2 : (s - ⌊s⌋) * 1000 < q + 1 := hq ▸ Int.lt_floor_add_one _
  refine ⟨by linarith, by linarith, ⌊s⌋ * 1000 + q, ?_⟩
  push_cast
  ring

/-- **C41, negative durations with milliseconds.** The milliseconds get their own sign while the seconds are rounded down, so
half a second before zero comes back as one and a half. -/
theorem c41_dhmsm_negative : dhmsm2seconds (seconds2dhmsm (-1/2)) = some (-3/2) := by decide +kernel

end Mifem.Props
