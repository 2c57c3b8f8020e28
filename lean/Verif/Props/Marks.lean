import Verif.Model.Marks
import Verif.Model.Region
import Verif.Props.EWC
import Verif.Props.Metric
import Mathlib.Tactic.Linarith
import Mathlib.Tactic.NormNum
import Mathlib.Tactic.Positivity

/-! # C58: marks of elements and cached matrices -/

namespace Mifem.Props
open Mifem.EWC Mifem.Marks

/-! ## Rounding -/

theorem rhe_near (q : ℚ) : |(rhe q : ℚ) - q| ≤ 1 / 2 := by
  have h1 := Int.floor_le q
  have h2 := Int.lt_floor_add_one q
  rw [abs_le]
  simp only [rhe]
  split_ifs <;> constructor <;> push_cast <;> linarith

theorem rhe_nonneg {q : ℚ} (h : 0 ≤ q) : 0 ≤ rhe q := by
  have := Int.floor_nonneg.2 h
  simp only [rhe]
  split_ifs <;> omega

theorem roundTo_near (d : Nat) (x : ℚ) : |roundTo d x - x| ≤ 1 / 2 / 10 ^ d := by
  have h := rhe_near (x * 10 ^ d)
  have p : (0 : ℚ) < 10 ^ d := by positivity
  rw [le_div_iff₀ p, ← abs_of_pos p, ← abs_mul, roundTo]
  rwa [sub_mul, div_mul_cancel₀ _ p.ne']

theorem roundTo_nonneg {d : Nat} {x : ℚ} (h : 0 ≤ x) : 0 ≤ roundTo d x :=
  div_nonneg (by exact_mod_cast rhe_nonneg (by positivity)) (by positivity)

/-! ## Decimal strings -/

/-- A digit. -/
def IsDigit (c : Char) : Prop := ∃ n < 10, c = Nat.digitChar n

theorem digitChar_inj : ∀ a < 10, ∀ b < 10, Nat.digitChar a = Nat.digitChar b → a = b := by decide

theorem dot_not_digit : ¬ IsDigit '.' := by
  rintro ⟨n, hn, h⟩
  interval_cases n <;> simp [Nat.digitChar] at h

theorem natStr_digits (n : Nat) : ∀ c ∈ natStr n, IsDigit c := by
  intro c hc
  rw [natStr] at hc
  split_ifs at hc with h
  · simp at hc; subst hc; exact ⟨0, by omega, rfl⟩
  · simp only [List.mem_map, List.mem_reverse] at hc
    obtain ⟨a, ha, rfl⟩ := hc
    exact ⟨a, Nat.digits_lt_base (by omega) ha, rfl⟩

theorem natStr_ne_nil (n : Nat) : natStr n ≠ [] := by
  rw [natStr]
  split_ifs with h
  · simp
  · simpa [Nat.digits_eq_nil_iff_eq_zero] using h

theorem map_digitChar_inj : ∀ {l l' : List Nat}, (∀ a ∈ l, a < 10) → (∀ a ∈ l', a < 10) →
    l.map Nat.digitChar = l'.map Nat.digitChar → l = l'
  | [], [], _, _, _ => rfl
  | [], _ :: _, _, _, h => by simp at h
  | _ :: _, [], _, _, h => by simp at h
  | a :: l, b :: l', h1, h2, h => by
    simp only [List.map_cons, List.cons.injEq] at h
    rw [digitChar_inj a (h1 a (by simp)) b (h2 b (by simp)) h.1,
      map_digitChar_inj (fun x hx => h1 x (by simp [hx])) (fun x hx => h2 x (by simp [hx])) h.2]

theorem natStr_inj {n m : Nat} (h : natStr n = natStr m) : n = m := by
  have key : ∀ k : Nat, ∃ l : List Nat, (∀ a ∈ l, a < 10) ∧ natStr k = l.reverse.map Nat.digitChar ∧
      Nat.ofDigits 10 l = k := by
    intro k
    by_cases hk : k = 0
    · exact ⟨[0], by simp, by simp [natStr, hk, Nat.digitChar], by simp [hk]⟩
    · exact ⟨Nat.digits 10 k, fun a ha => Nat.digits_lt_base (by omega) ha, by simp [natStr, hk], Nat.ofDigits_digits _ _⟩
  obtain ⟨l, h1, h2, h3⟩ := key n
  obtain ⟨l', h1', h2', h3'⟩ := key m
  rw [h2, h2'] at h
  have := map_digitChar_inj (by simpa using h1) (by simpa using h1') h
  rw [← h3, ← h3', List.reverse_injective this]

theorem fracStr_length (d m : Nat) : (fracStr d m).length = d := by
  induction d with
  | zero => rfl
  | succ d ih => simp [fracStr, ih]

theorem fracStr_inj {d n m : Nat} (h : fracStr d n = fracStr d m) : n % 10 ^ d = m % 10 ^ d := by
  induction d with
  | zero => simp [Nat.mod_one]
  | succ d ih =>
    simp only [fracStr, List.cons.injEq] at h
    have h1 := digitChar_inj _ (Nat.mod_lt _ (by omega)) _ (Nat.mod_lt _ (by omega)) h.1
    have h2 := ih h.2
    rw [pow_succ, Nat.mod_mul, Nat.mod_mul, h1, h2]

theorem prefix_split_at {P : Char → Prop} {a a' : Key} {c c' : Char} {r r' : Key} (ha : ∀ x ∈ a, P x) (ha' : ∀ x ∈ a', P x)
    (hc : ¬ P c) (hc' : ¬ P c') (h : a ++ c :: r <+: a' ++ c' :: r') : a = a' ∧ c = c' ∧ r <+: r' := by
  induction a generalizing a' with
  | nil =>
    cases a' with
    | nil => simpa [List.cons_prefix_cons] using h
    | cons b a' =>
      simp only [List.nil_append, List.cons_append, List.cons_prefix_cons] at h
      exact absurd (h.1 ▸ ha' b (by simp)) hc
  | cons b a ih =>
    cases a' with
    | nil =>
      simp only [List.nil_append, List.cons_append, List.cons_prefix_cons] at h
      exact absurd (h.1 ▸ ha b (by simp)) hc'
    | cons b' a' =>
      simp only [List.cons_append, List.cons_prefix_cons] at h
      obtain ⟨e, hc, hr⟩ := ih (fun x hx => ha x (by simp [hx])) (fun x hx => ha' x (by simp [hx])) h.2
      exact ⟨by rw [h.1, e], hc, hr⟩

/-- A decimal number is read off the front of a text in one way only. -/
theorem decimal_prefix {d n m : Nat} {r r' : Key} (h : decimal d n ++ r <+: decimal d m ++ r') : n = m ∧ r <+: r' := by
  simp only [decimal, List.append_assoc, List.cons_append] at h
  obtain ⟨h1, -, h2⟩ := prefix_split_at (natStr_digits _) (natStr_digits _) dot_not_digit dot_not_digit h
  have hl : (fracStr d n).length = (fracStr d m).length := by simp [fracStr_length]
  have h3 := prefix_split h2 (fun x => x.eq_of_length hl) (fun x => x.eq_of_length hl.symm)
  refine ⟨?_, h3.2⟩
  have e1 := natStr_inj h1
  have e2 := fracStr_inj h3.1
  rw [← Nat.div_add_mod n (10 ^ d), ← Nat.div_add_mod m (10 ^ d), e1, e2]

theorem decimal_cons (d n : Nat) : ∃ c r, decimal d n = c :: r ∧ IsDigit c := by
  have h := natStr_ne_nil (n / 10 ^ d)
  have hd := natStr_digits (n / 10 ^ d)
  cases e : natStr (n / 10 ^ d) with
  | nil => exact absurd e h
  | cons c r => exact ⟨c, r ++ '.' :: fracStr d n, by rw [decimal, e]; rfl, hd c (by rw [e]; simp)⟩

/-- Texts of two nonnegative numbers agree at the front: the numbers are near to each other. -/
theorem fmt_prefix {d : Nat} {x y : ℚ} (hx : 0 ≤ x) (hy : 0 ≤ y) {r r' : Key} (h : fmt d x ++ r <+: fmt d y ++ r') :
    |x - y| ≤ 1 / 10 ^ d ∧ fmt d x = fmt d y ∧ r <+: r' := by
  obtain ⟨h1, h2⟩ := decimal_prefix h
  refine ⟨?_, by rw [fmt, fmt, h1], h2⟩
  have e : rhe (x * 10 ^ d) = rhe (y * 10 ^ d) := by
    have a := rhe_nonneg (q := x * 10 ^ d) (by positivity)
    have b := rhe_nonneg (q := y * 10 ^ d) (by positivity)
    omega
  have nx := rhe_near (x * 10 ^ d)
  have ny := rhe_near (y * 10 ^ d)
  rw [e] at nx
  have p : (0 : ℚ) < 10 ^ d := by positivity
  rw [le_div_iff₀ p, ← abs_of_pos p, ← abs_mul, sub_mul]
  rw [abs_le] at nx ny ⊢
  constructor <;> linarith [nx.1, nx.2, ny.1, ny.2]

theorem not_digit (c : Char) (h : c ∈ ['x', 'y', 'z', '_']) : ¬ IsDigit c := by
  rintro ⟨n, hn, rfl⟩
  revert h
  revert n
  decide

/-- The letters in front of a number. -/
theorem tag_eq {a a' r r' : Key} {c c' : Char} (ha : ∀ x ∈ a, x ∈ ['x', 'y', 'z', '_'])
    (ha' : ∀ x ∈ a', x ∈ ['x', 'y', 'z', '_']) (hc : IsDigit c) (hc' : IsDigit c') (h : a ++ c :: r <+: a' ++ c' :: r') :
    a = a' :=
  (prefix_split_at (P := fun c => ¬ IsDigit c) (fun x hx => not_digit x (ha x hx)) (fun x hx => not_digit x (ha' x hx))
    (not_not.2 hc) (not_not.2 hc') h).1

/-- What follows `Orth.` in the mark of a 3D element with the rounded lengths `x`, `y`, `z`: letters and the rest. -/
def body3 (x y z : ℚ) : Key × Key :=
  if x = y ∧ y = z then ([], fmt 3 x)
  else if x = y then (['x', 'y'], fmt 4 x ++ 'z' :: fmt 4 z)
  else if x = z then (['x', 'z'], fmt 4 x ++ 'y' :: fmt 4 y)
  else if y = z then (['y', 'z'], fmt 4 y ++ 'x' :: fmt 4 x)
  else (['x'], fmt 3 x ++ 'y' :: (fmt 3 y ++ 'z' :: fmt 3 z))

theorem orth3_eq (L : Fin 3 → ℚ) :
    orth3 L = "Orth.".toList ++ ((body3 (roundTo 6 (L 0)) (roundTo 6 (L 1)) (roundTo 6 (L 2))).1
      ++ (body3 (roundTo 6 (L 0)) (roundTo 6 (L 1)) (roundTo 6 (L 2))).2) := by
  simp only [orth3, body3]
  split_ifs <;> simp

theorem body3_digit (x y z : ℚ) : ∃ c r, (body3 x y z).2 = c :: r ∧ IsDigit c := by
  have k : ∀ d q s, ∃ c r, fmt d q ++ s = c :: r ∧ IsDigit c := by
    intro d q s
    obtain ⟨c, r, h, hc⟩ := decimal_cons d (rhe (q * 10 ^ d)).toNat
    exact ⟨c, r ++ s, by rw [fmt, h]; rfl, hc⟩
  simp only [body3]
  split_ifs
  · simpa using k 3 x []
  all_goals exact k _ _ _

theorem body3_tag (x y z : ℚ) : ∀ c ∈ (body3 x y z).1, c ∈ ['x', 'y', 'z', '_'] := by
  simp only [body3]
  split_ifs <;> simp

theorem body3_prefix {x y z x' y' z' : ℚ} (hx : 0 ≤ x) (hy : 0 ≤ y) (hz : 0 ≤ z) (hx' : 0 ≤ x') (hy' : 0 ≤ y')
    (hz' : 0 ≤ z') (h : (body3 x y z).1 ++ (body3 x y z).2 <+: (body3 x' y' z').1 ++ (body3 x' y' z').2) :
    body3 x y z = body3 x' y' z' ∧ |x - x'| ≤ 1 / 10 ^ 3 ∧ |y - y'| ≤ 1 / 10 ^ 3 ∧ |z - z'| ≤ 1 / 10 ^ 3 := by
  have ht : (body3 x y z).1 = (body3 x' y' z').1 := by
    obtain ⟨c, r, e, hc⟩ := body3_digit x y z
    obtain ⟨c', r', e', hc'⟩ := body3_digit x' y' z'
    rw [e, e'] at h
    exact tag_eq (body3_tag x y z) (body3_tag x' y' z') hc hc' h
  rw [ht, List.prefix_append_right_inj] at h
  have w : (1 : ℚ) / 10 ^ 4 ≤ 1 / 10 ^ 3 := by norm_num
  simp only [body3] at ht h ⊢
  split_ifs at ht h ⊢ with a1 a2 a3 a4 b1 b2 b3 b4 <;> simp at ht
  · obtain ⟨h1, h2, -⟩ := fmt_prefix (r := []) (r' := []) hx hx' (by simpa using h)
    rw [h2]
    refine ⟨rfl, h1, ?_, ?_⟩
    · rw [← a1.1, ← ‹x' = y' ∧ y' = z'›.1]; exact h1
    · rw [← a1.2, ← ‹x' = y' ∧ y' = z'›.2, ← a1.1, ← ‹x' = y' ∧ y' = z'›.1]; exact h1
  · obtain ⟨h1, h2, h3⟩ := fmt_prefix hx hx' h
    rw [List.cons_prefix_cons] at h3
    obtain ⟨k1, k2, -⟩ := fmt_prefix (r := []) (r' := []) hz hz' (by simpa using h3.2)
    rw [h2, k2]
    refine ⟨rfl, h1.trans w, ?_, k1.trans w⟩
    rw [← ‹x = y›, ← ‹x' = y'›]; exact h1.trans w
  · obtain ⟨h1, h2, h3⟩ := fmt_prefix hx hx' h
    rw [List.cons_prefix_cons] at h3
    obtain ⟨k1, k2, -⟩ := fmt_prefix (r := []) (r' := []) hy hy' (by simpa using h3.2)
    rw [h2, k2]
    refine ⟨rfl, h1.trans w, k1.trans w, ?_⟩
    rw [← ‹x = z›, ← ‹x' = z'›]; exact h1.trans w
  · obtain ⟨h1, h2, h3⟩ := fmt_prefix hy hy' h
    rw [List.cons_prefix_cons] at h3
    obtain ⟨k1, k2, -⟩ := fmt_prefix (r := []) (r' := []) hx hx' (by simpa using h3.2)
    rw [h2, k2]
    refine ⟨rfl, k1.trans w, h1.trans w, ?_⟩
    rw [← ‹y = z›, ← ‹y' = z'›]; exact h1.trans w
  · obtain ⟨h1, h2, h3⟩ := fmt_prefix hx hx' h
    rw [List.cons_prefix_cons] at h3
    obtain ⟨k1, k2, k3⟩ := fmt_prefix hy hy' h3.2
    rw [List.cons_prefix_cons] at k3
    obtain ⟨l1, l2, -⟩ := fmt_prefix (r := []) (r' := []) hz hz' (by simpa using k3.2)
    rw [h2, k2, l2]
    exact ⟨rfl, h1, k1, l1⟩

/-- C58: marks of 3D orthogonal elements.  Elements of equal size have equal marks; no mark is a proper prefix of another;
elements with the same mark have, in each direction, lengths that differ by at most 0.001001. -/
theorem c58_marks_3d (L L' : Fin 3 → ℚ) (h : ∀ i, 0 ≤ L i) (h' : ∀ i, 0 ≤ L' i) :
    (orth3 L <+: orth3 L' → orth3 L = orth3 L') ∧ (orth3 L = orth3 L' → ∀ i, |L i - L' i| ≤ 0.001001) := by
  have key : orth3 L <+: orth3 L' → orth3 L = orth3 L' ∧ ∀ i, |L i - L' i| ≤ 0.001001 := by
    intro hp
    rw [orth3_eq, orth3_eq, List.prefix_append_right_inj] at hp
    obtain ⟨e, e0, e1, e2⟩ := body3_prefix (roundTo_nonneg (h 0)) (roundTo_nonneg (h 1)) (roundTo_nonneg (h 2))
      (roundTo_nonneg (h' 0)) (roundTo_nonneg (h' 1)) (roundTo_nonneg (h' 2)) hp
    refine ⟨by rw [orth3_eq, orth3_eq, e], fun i => ?_⟩
    have far : ∀ i, |roundTo 6 (L i) - roundTo 6 (L' i)| ≤ 1 / 10 ^ 3 → |L i - L' i| ≤ 0.001001 := by
      intro i hi
      have a := roundTo_near 6 (L i)
      have b := roundTo_near 6 (L' i)
      norm_num [abs_le] at a b hi ⊢
      constructor <;> linarith [a.1, a.2, b.1, b.2, hi.1, hi.2]
    fin_cases i
    · exact far 0 e0
    · exact far 1 e1
    · exact far 2 e2
  exact ⟨fun hp => (key hp).1, fun he => (key (by rw [he])).2⟩


/-- C58: the same for 2D orthogonal elements. -/
theorem c58_marks_2d (L L' : Fin 2 → ℚ) (h : ∀ i, 0 ≤ L i) (h' : ∀ i, 0 ≤ L' i) :
    (orth2 L <+: orth2 L' → orth2 L = orth2 L') ∧ (orth2 L = orth2 L' → ∀ i, |L i - L' i| ≤ 0.00011) := by
  have far : ∀ i, |roundTo 5 (L i) - roundTo 5 (L' i)| ≤ 1 / 10 ^ 4 → |L i - L' i| ≤ 0.00011 := by
    intro i hi
    have a := roundTo_near 5 (L i)
    have b := roundTo_near 5 (L' i)
    norm_num [abs_le] at a b hi ⊢
    constructor <;> linarith [a.1, a.2, b.1, b.2, hi.1, hi.2]
  have key : orth2 L <+: orth2 L' → orth2 L = orth2 L' ∧ ∀ i, |L i - L' i| ≤ 0.00011 := by
    intro hp
    have n0 : 0 ≤ roundTo 5 (L 0) := roundTo_nonneg (h 0)
    have n1 : 0 ≤ roundTo 5 (L 1) := roundTo_nonneg (h 1)
    have m0 : 0 ≤ roundTo 5 (L' 0) := roundTo_nonneg (h' 0)
    have m1 : 0 ≤ roundTo 5 (L' 1) := roundTo_nonneg (h' 1)
    have c0 := decimal_cons 4 (rhe (roundTo 5 (L 0) * 10 ^ 4)).toNat
    have c0' := decimal_cons 4 (rhe (roundTo 5 (L' 0) * 10 ^ 4)).toNat
    have f0 := far 0
    have f1 := far 1
    simp only [orth2] at hp ⊢
    rw [List.prefix_append_right_inj] at hp
    generalize roundTo 5 (L 0) = x at *
    generalize roundTo 5 (L 1) = y at *
    generalize roundTo 5 (L' 0) = x' at *
    generalize roundTo 5 (L' 1) = y' at *
    split_ifs at hp ⊢ with a b b
    · obtain ⟨h1, h2, -⟩ := fmt_prefix (r := []) (r' := []) n0 m0 (by simpa using hp)
      refine ⟨by rw [h2], fun i => ?_⟩
      fin_cases i
      · exact f0 h1
      · exact f1 (by rw [← a, ← b]; exact h1)
    · obtain ⟨c, r, e, hc⟩ := c0
      rw [fmt, e, List.cons_prefix_cons] at hp
      exact absurd (hp.1 ▸ hc) (not_digit 'x' (by simp))
    · obtain ⟨c, r, e, hc⟩ := c0'
      rw [fmt, fmt, fmt, e, List.cons_prefix_cons] at hp
      exact absurd (hp.1.symm ▸ hc) (not_digit 'x' (by simp))
    · rw [List.cons_prefix_cons] at hp
      obtain ⟨h1, h2, h3⟩ := fmt_prefix n0 m0 hp.2
      rw [List.cons_prefix_cons] at h3
      obtain ⟨k1, k2, -⟩ := fmt_prefix (r := []) (r' := []) n1 m1 (by simpa using h3.2)
      refine ⟨by rw [h2, k2], fun i => ?_⟩
      fin_cases i
      · exact f0 h1
      · exact f1 k1
  exact ⟨fun hp => (key hp).1, fun he => (key (by rw [he])).2⟩

/-- C58: the same for parallelograms: angles and lengths differ by at most 0.000011. -/
theorem c58_marks_parallelogram (p p' : Fin 4 → ℚ) (h : ∀ i, 0 ≤ p i) (h' : ∀ i, 0 ≤ p' i)
    (he : par2 (p 0) (p 1) (p 2) (p 3) <+: par2 (p' 0) (p' 1) (p' 2) (p' 3)) :
    par2 (p 0) (p 1) (p 2) (p 3) = par2 (p' 0) (p' 1) (p' 2) (p' 3) ∧ ∀ i, |p i - p' i| ≤ 0.000011 := by
  have far : ∀ i, |roundTo 6 (p i) - roundTo 6 (p' i)| ≤ 1 / 10 ^ 5 → |p i - p' i| ≤ 0.000011 := by
    intro i hi
    have a := roundTo_near 6 (p i)
    have b := roundTo_near 6 (p' i)
    norm_num [abs_le] at a b hi ⊢
    constructor <;> linarith [a.1, a.2, b.1, b.2, hi.1, hi.2]
  unfold par2 at he ⊢
  have he := (List.prefix_append_right_inj _).1 ((List.prefix_append_right_inj _).1 he)
  obtain ⟨a1, a2, a3⟩ := fmt_prefix (roundTo_nonneg (h 0)) (roundTo_nonneg (h' 0)) he
  have a3 := (List.prefix_append_right_inj _).1 a3
  obtain ⟨b1, b2, b3⟩ := fmt_prefix (roundTo_nonneg (h 1)) (roundTo_nonneg (h' 1)) a3
  rw [List.cons_prefix_cons] at b3
  obtain ⟨c1, c2, c3⟩ := fmt_prefix (roundTo_nonneg (h 2)) (roundTo_nonneg (h' 2)) b3.2
  have c3 := (List.prefix_append_right_inj _).1 c3
  obtain ⟨d1, d2, -⟩ := fmt_prefix (r := []) (r' := []) (roundTo_nonneg (h 3)) (roundTo_nonneg (h' 3))
    (by rw [List.append_nil, List.append_nil]; exact c3)
  refine ⟨by rw [a2, b2, c2, d2], fun i => ?_⟩
  match i with
  | 0 => exact far 0 a1
  | 1 => exact far 1 b1
  | 2 => exact far 2 c1
  | 3 => exact far 3 d1

/-- Concrete marks: a box of sides 0.5, 0.25, 0.25, a rectangle, a parallelogram. -/
example : orth3 ![0.5, 0.25, 0.25] = "Orth.yz0.2500x0.5000".toList ∧ orth2 ![0.5, 0.25] = "Orth.x0.5000y0.2500".toList ∧
    par2 0 0.5 1.2 2 = "Parallelogram.aL0.00000_L0.50000_1.20000_U2.00000".toList := by decide +kernel

/-! ## Cached matrices -/

/-- The Jacobian matrix of an element of an orthogonal region with bounds `b` and spacing `s`. -/
def orthJ (b : Fin 3 → ℚ × ℚ) (s : Fin 3 → ℚ) : Metric.M3 ℚ :=
  Metric.Three.jacobianMatrix true (Region.Three.orthogonalJ b 0) s

/-- The lengths of such an element. -/
def size (b : Fin 3 → ℚ × ℚ) (s : Fin 3 → ℚ) : Fin 3 → ℚ := lengths (fun i => (b i).2 - (b i).1) s

theorem orthJ_size (b : Fin 3 → ℚ × ℚ) (s : Fin 3 → ℚ) :
    orthJ b s = fun j l => if j = l then size b s j / 2 else 0 := by
  funext j l
  fin_cases j <;> fin_cases l <;> simp [orthJ, size, lengths, Metric.Three.jacobianMatrix, Region.Three.orthogonalJ] <;> ring

theorem orth3_ne_CTs (L : Fin 3 → ℚ) (m : Nat) : orth3 L ≠ (List.replicate (m + 1) ">CT<".toList).flatten := by
  rw [orth3_eq, List.replicate_succ, List.flatten_cons]
  intro h
  simp at h

theorem fmt_no_gt (d : Nat) (x : ℚ) : '>' ∉ fmt d x := by
  have g : ¬ IsDigit '>' := by
    rintro ⟨n, hn, h⟩
    interval_cases n <;> simp [Nat.digitChar] at h
  have f : ∀ d m, ∀ c ∈ fracStr d m, IsDigit c := by
    intro d m
    induction d with
    | zero => simp [fracStr]
    | succ d ih =>
      intro c hc
      rcases List.mem_cons.1 hc with rfl | hc
      · exact ⟨_, Nat.mod_lt _ (by omega), rfl⟩
      · exact ih c hc
  intro h
  simp only [fmt, decimal, List.mem_append, List.mem_cons] at h
  rcases h with h | h | h
  · exact g (natStr_digits _ _ h)
  · simp at h
  · exact g (f _ _ _ h)

theorem orth3_no_gt (L : Fin 3 → ℚ) : '>' ∉ orth3 L := by
  simp only [orth3, List.mem_append]
  rintro (h | h)
  · simp at h
  · split_ifs at h <;> simp [fmt_no_gt] at h

/-- If elements with the same mark have the same size, then the matrix read for an element is the one of its own metric
(`M` is any matrix computed from the Jacobian matrix, such as a mass matrix), for all histories of reads. -/
theorem c58_cached_of_marks {β : Type} (M : Metric.M3 ℚ → β) (E : List Nat) (b : Nat → Fin 3 → ℚ × ℚ)
    (s : Nat → Fin 3 → ℚ)
    (hsame : ∀ i ∈ E, ∀ j ∈ E, orth3 (size (b i) (s i)) = orth3 (size (b j) (s j)) → size (b i) (s i) = size (b j) (s j))
    (is : List Nat) (his : ∀ i ∈ is, i ∈ E) :
    run [Node.leaf (fun i => M (orthJ (b i) (s i))) (fun i => orth3 (size (b i) (s i)))] E (is.map fun i => .read 0 i) St.init
      = some (is.map fun i => M (orthJ (b i) (s i))) := by
  rw [c12_cache_faithful]
  · congr 1
    induction is with
    | nil => rfl
    | cons i is ih => simp only [List.map_cons, ExpectedLeaf]; rw [ih fun j hj => his j (by simp [hj])]
  · intro i hi j hj he _
    rw [orthJ_size, orthJ_size, hsame i hi j hj he]
  · intro i _ m he
    exact absurd he (orth3_ne_CTs _ m)
  · intro e he
    obtain ⟨i, hi, rfl⟩ := List.mem_map.1 he
    exact ⟨rfl, his i hi⟩

/-- C58 (partial): if any two elements have the same size or differ by more than 0.001001 in some side, then the matrix
read for an element is the one of its own metric, for all histories of reads. Missing: elements whose sizes differ by
less (`c58_counterexample`). -/
theorem c58_cached_partial {β : Type} (M : Metric.M3 ℚ → β) (E : List Nat) (b : Nat → Fin 3 → ℚ × ℚ)
    (s : Nat → Fin 3 → ℚ) (hpos : ∀ i ∈ E, ∀ k, 0 ≤ size (b i) (s i) k)
    (hsep : ∀ i ∈ E, ∀ j ∈ E,
      size (b i) (s i) = size (b j) (s j) ∨ ∃ k, 0.001001 < |size (b i) (s i) k - size (b j) (s j) k|)
    (is : List Nat) (his : ∀ i ∈ is, i ∈ E) :
    run [Node.leaf (fun i => M (orthJ (b i) (s i))) (fun i => orth3 (size (b i) (s i)))] E (is.map fun i => .read 0 i) St.init
      = some (is.map fun i => M (orthJ (b i) (s i))) := by
  refine c58_cached_of_marks M E b s (fun i hi j hj he => ?_) is his
  rcases hsep i hi j hj with h | ⟨k, hk⟩
  · exact h
  · exact absurd ((c58_marks_3d _ _ (hpos i hi) (hpos j hj)).2 he k) (not_le.2 hk)

/-- The hypotheses are met: elements 0, 1 have sides 1/2, 1/3, 1/4 (in two regions), element 2 has sides 1, 1/3, 1/4. -/
example :
    let b : Nat → Fin 3 → ℚ × ℚ := fun i k => if i = 1 ∧ k = 0 then (1, 2) else (0, 1)
    let s : Nat → Fin 3 → ℚ := fun i => if i = 2 then ![1, 1 / 3, 1 / 4] else ![1 / 2, 1 / 3, 1 / 4]
    run [Node.leaf (fun i => Metric.Three.jacobian (orthJ (b i) (s i))) (fun i => orth3 (size (b i) (s i)))] [0, 1, 2]
      ([2, 0, 1, 2].map fun i => .read 0 i) St.init
      = some ([2, 0, 1, 2].map fun i => Metric.Three.jacobian (orthJ (b i) (s i))) := by
  intro b s
  exact c58_cached_partial _ _ b s (by decide +kernel) (by decide +kernel) _ (by decide)

/-- The same leaf can be combined with others as in C14. -/
theorem c58_leaf_ok {β : Type} (M : Metric.M3 ℚ → β) (E : List Nat) (b : Nat → Fin 3 → ℚ × ℚ) (s : Nat → Fin 3 → ℚ)
    (hpos : ∀ i ∈ E, ∀ k, 0 ≤ size (b i) (s i) k)
    (hsame : ∀ i ∈ E, ∀ j ∈ E, orth3 (size (b i) (s i)) = orth3 (size (b j) (s j)) → size (b i) (s i) = size (b j) (s j)) :
    LeafOK E (fun i => M (orthJ (b i) (s i))) (fun i => orth3 (size (b i) (s i))) := by
  refine Or.inr (Or.inr ⟨fun i _ => ⟨by simp [orth3_eq], ?_⟩, fun i hi j hj hp => ?_, fun i hi j hj he => ?_⟩)
  · exact orth3_no_gt _
  · exact (c58_marks_3d _ _ (hpos i hi) (hpos j hj)).1 hp
  · simp only
    rw [orthJ_size, orthJ_size, hsame i hi j hj he]

/-- All cubes with sides below half a thousandth have the same mark. -/
theorem c58_small_cubes (a a' : ℚ) (h : 0 ≤ a) (h' : 0 ≤ a') (ha : a < 0.0004) (ha' : a' < 0.0004) :
    orth3 (fun _ => a) = orth3 (fun _ => a') := by
  have z : ∀ a : ℚ, 0 ≤ a → a < 0.0004 → rhe (roundTo 6 a * 10 ^ 3) = 0 := by
    intro a h ha
    have n := roundTo_near 6 a
    have p : 0 ≤ roundTo 6 a := roundTo_nonneg h
    have q := rhe_near (roundTo 6 a * 10 ^ 3)
    have q0 := rhe_nonneg (q := roundTo 6 a * 10 ^ 3) (by positivity)
    have : (rhe (roundTo 6 a * 10 ^ 3) : ℚ) < 1 := by
      norm_num [abs_le] at n q ha ⊢
      linarith [n.2, q.2]
    have : rhe (roundTo 6 a * 10 ^ 3) < 1 := by exact_mod_cast this
    omega
  simp [orth3, fmt, z a h ha, z a' h' ha']

/-- C58 fails: in a mesh with two cubes of sides 0.0001 and 0.0002 the matrix of the second element (here its Jacobian)
is that of the first one, eight times too small, when the first one has been read before. -/
theorem c58_counterexample :
    let b : Nat → Fin 3 → ℚ × ℚ := fun _ _ => (0, 0.0003)
    let s : Nat → Fin 3 → ℚ := fun i _ => if i = 0 then 1 / 3 else 2 / 3
    run [Node.leaf (fun i => Metric.Three.jacobian (orthJ (b i) (s i))) (fun i => orth3 (size (b i) (s i)))] [0, 1]
      [.read 0 0, .read 0 1] St.init = some [1 / 10 ^ 12 / 8, 1 / 10 ^ 12 / 8] ∧
    Metric.Three.jacobian (orthJ (b 1) (s 1)) = 8 * (1 / 10 ^ 12 / 8) := by
  decide +kernel

end Mifem.Props
