import Verif.Lemmas.Box

/-!
# Numbering in blocks
-/

namespace Mifem.Mesh
open Mifem.Naive

/-- the block of index `a`. -/
def bk (A X a : Nat) : Nat := min (a / X) (A / X - 1)

/-- number of rows before block `m`. -/
def pre (A X m : Nat) : Nat := if m < A / X then m * X else A

theorem one_le_B {A X : Nat} (h1 : 0 < X) (h2 : X ≤ A) : 1 ≤ A / X := Nat.div_pos h2 h1

theorem pre_zero {A X : Nat} (h1 : 0 < X) (h2 : X ≤ A) : pre A X 0 = 0 := by
  have := one_le_B h1 h2
  unfold pre
  rw [if_pos (by omega)]
  omega

theorem pre_last (A X : Nat) : pre A X (A / X) = A := by
  unfold pre
  rw [if_neg (by omega)]

theorem pre_succ {A X : Nat} (m : Nat) (hm : m < A / X) : pre A X (m + 1) = pre A X m + width A X m := by
  unfold pre width
  rw [if_pos hm]
  by_cases h : m + 1 < A / X
  · rw [if_pos h, if_pos (by omega)]
    ring
  · have hB : m + 1 = A / X := by omega
    rw [if_neg h, if_neg (by omega)]
    have h1 := Nat.div_add_mod A X
    have h2 : X * (A / X) = m * X + X := by
      rw [← hB]
      ring
    omega

theorem pre_lt {A X : Nat} (m : Nat) (hm : m < A / X) : pre A X m = m * X := if_pos hm

theorem bk_lt {A X : Nat} (h1 : 0 < X) (h2 : X ≤ A) (a : Nat) : bk A X a < A / X := by
  have := one_le_B h1 h2
  unfold bk
  omega

theorem inBlock_iff {A X : Nat} (h1 : 0 < X) (h2 : X ≤ A) (m a : Nat) (hm : m < A / X) : inBlock A X m a = true ↔ m = bk A X a := by
  unfold inBlock bk
  have hB := one_le_B h1 h2
  have hle : m * X ≤ a ↔ m ≤ a / X := (Nat.le_div_iff_mul_le h1).symm
  by_cases h : m ≠ A / X - 1
  · rw [if_pos h]
    simp only [Bool.and_eq_true, decide_eq_true_eq]
    have hlt : a < (m + 1) * X ↔ a / X < m + 1 := (Nat.div_lt_iff_lt_mul h1).symm
    rw [hle, hlt]
    omega
  · rw [if_neg h]
    simp only [decide_eq_true_eq]
    rw [hle]
    omega

/-- index inside the block. -/
theorem in_width {A X : Nat} (h1 : 0 < X) (h2 : X ≤ A) (a : Nat) (ha : a < A) :
    bk A X a * X ≤ a ∧ a - bk A X a * X < width A X (bk A X a) := by
  have hB := one_le_B h1 h2
  have hb := bk_lt h1 h2 a
  have hi := (inBlock_iff h1 h2 (bk A X a) a hb).2 rfl
  unfold inBlock at hi
  by_cases h : bk A X a ≠ A / X - 1
  · rw [if_pos h] at hi
    simp only [Bool.and_eq_true, decide_eq_true_eq] at hi
    refine ⟨hi.1, ?_⟩
    unfold width
    rw [if_pos h]
    have : (bk A X a + 1) * X = bk A X a * X + X := by ring
    omega
  · rw [if_neg h] at hi
    simp only [decide_eq_true_eq] at hi
    refine ⟨hi, ?_⟩
    have hs := pre_succ (A := A) (X := X) (bk A X a) hb
    rw [pre_lt _ hb] at hs
    have hl : bk A X a + 1 = A / X := by omega
    rw [hl, pre_last] at hs
    omega

theorem pre_mono {A X : Nat} (m m' : Nat) (h : m ≤ m') (hm : m' ≤ A / X) : pre A X m ≤ pre A X m' := by
  induction m' with
  | zero =>
    have : m = 0 := by omega
    rw [this]
  | succ k ih =>
    by_cases hk : m = k + 1
    · rw [hk]
    · have := ih (by omega) (by omega)
      have := pre_succ (A := A) (X := X) k (by omega)
      omega

theorem bk_mono {A X : Nat} (a a' : Nat) (h : a ≤ a') : bk A X a ≤ bk A X a' := by
  unfold bk
  have := Nat.div_le_div_right (c := X) h
  omega

/-! ## 2D -/

/-- closed form of the numbering. -/
def form2 (start A0 A1 X : Nat) (i : List Nat) : Nat :=
  start + pre A0 X (bk A0 X (i.getD 0 0)) * A1 +
    fNum [width A0 X (bk A0 X (i.getD 0 0)), A1] [i.getD 0 0 - bk A0 X (i.getD 0 0) * X, i.getD 1 0]

theorem blocks2_loop (junk : List Nat → Nat) (start A0 A1 X : Nat) (h1 : 0 < X) (h2 : X ≤ A0) (n : Nat) (hn : n ≤ A0 / X) :
    ((List.range n).foldl (block2 A0 A1 X) (junk, start)).2 = start + pre A0 X n * A1 ∧
      ∀ i, bk A0 X (i.getD 0 0) < n → ((List.range n).foldl (block2 A0 A1 X) (junk, start)).1 i = form2 start A0 A1 X i := by
  induction n with
  | zero =>
    refine ⟨?_, fun i hi => by omega⟩
    simp [pre_zero h1 h2]
  | succ n ih =>
    obtain ⟨ih1, ih2⟩ := ih (by omega)
    rw [List.range_succ, List.foldl_append]
    simp only [List.foldl_cons, List.foldl_nil]
    set s := (List.range n).foldl (block2 A0 A1 X) (junk, start) with hs
    refine ⟨?_, ?_⟩
    · simp only [block2]
      rw [ih1, pre_succ n (by omega)]
      ring
    · intro i hi
      simp only [block2]
      by_cases hb : inBlock A0 X n (i.getD 0 0) = true
      · rw [if_pos hb, ih1]
        have hb := (inBlock_iff h1 h2 n _ (by omega)).1 hb
        unfold form2
        rw [← hb]
      · rw [if_neg hb]
        apply ih2
        have : n ≠ bk A0 X (i.getD 0 0) := fun h => hb ((inBlock_iff h1 h2 n _ (by omega)).2 h)
        omega

theorem blocks2_eq (junk : List Nat → Nat) (start A0 A1 X : Nat) (h1 : 0 < X) (h2 : X ≤ A0) :
    ∃ f, blocks2 junk start A0 A1 X = some ⟨[A0, A1], f⟩ ∧ ∀ i, f i = form2 start A0 A1 X i := by
  obtain ⟨a, b⟩ := blocks2_loop junk start A0 A1 X h1 h2 (A0 / X) (Nat.le_refl _)
  rw [pre_last] at a
  refine ⟨_, ?_, fun i => b i (bk_lt h1 h2 _)⟩
  unfold blocks2
  simp only
  rw [if_pos a]

theorem box2 (A0 A1 : Nat) (i : List Nat) : InBox [A0, A1] i ↔ ∃ a b, i = [a, b] ∧ a < A0 ∧ b < A1 := by
  rw [inBox_cons]
  constructor
  · rintro ⟨x, xs, rfl, hx, h⟩
    rw [inBox_cons] at h
    obtain ⟨y, ys, rfl, hy, h⟩ := h
    rw [inBox_nil] at h
    subst h
    exact ⟨x, y, rfl, hx, hy⟩
  · rintro ⟨x, y, rfl, hx, hy⟩
    exact ⟨x, [y], rfl, hx, (inBox_cons _ _ _).2 ⟨y, [], rfl, hy, (inBox_nil _).2 rfl⟩⟩

theorem box3 (A0 A1 A2 : Nat) (i : List Nat) : InBox [A0, A1, A2] i ↔ ∃ a b c, i = [a, b, c] ∧ a < A0 ∧ b < A1 ∧ c < A2 := by
  rw [inBox_cons]
  constructor
  · rintro ⟨x, xs, rfl, hx, h⟩
    rw [box2] at h
    obtain ⟨y, z, rfl, hy, hz⟩ := h
    exact ⟨x, y, z, rfl, hx, hy, hz⟩
  · rintro ⟨x, y, z, rfl, hx, hy, hz⟩
    exact ⟨x, [y, z], rfl, hx, (box2 _ _ _).2 ⟨y, z, rfl, hy, hz⟩⟩

theorem numbers_blocks2 (start A0 A1 X : Nat) (h1 : 0 < X) (h2 : X ≤ A0) (f : List Nat → Nat) (hf : ∀ i, f i = form2 start A0 A1 X i) :
    Numbers start ⟨[A0, A1], f⟩ := by
  -- size of the part inside a block
  have hin : ∀ a b, a < A0 → b < A1 →
      fNum [width A0 X (bk A0 X a), A1] [a - bk A0 X a * X, b] < width A0 X (bk A0 X a) * A1 := by
    intro a b ha hb
    have := (fNum_bij [width A0 X (bk A0 X a), A1]).1 [a - bk A0 X a * X, b]
      ((box2 _ _ _).2 ⟨_, _, rfl, (in_width h1 h2 a ha).2, hb⟩)
    simpa using this
  have hform : ∀ a b, f [a, b] = start + pre A0 X (bk A0 X a) * A1 + fNum [width A0 X (bk A0 X a), A1] [a - bk A0 X a * X, b] :=
    fun a b => hf [a, b]
  -- numbers of lower blocks are lower
  have hlt : ∀ a b a' b', a < A0 → b < A1 → bk A0 X a < bk A0 X a' → f [a, b] < f [a', b'] := by
    intro a b a' b' ha hb hlt
    rw [hform, hform]
    have e1 := hin a b ha hb
    have e2 := pre_succ (A := A0) (X := X) (bk A0 X a) (bk_lt h1 h2 a)
    have e3 := pre_mono (A := A0) (X := X) (bk A0 X a + 1) (bk A0 X a') (by omega) (Nat.le_of_lt (bk_lt h1 h2 a'))
    have e4 := Nat.mul_le_mul_right A1 e3
    rw [e2, Nat.add_mul] at e4
    omega
  refine ⟨?_, ?_, ?_⟩
  · intro i hi
    obtain ⟨a, b, rfl, ha, hb⟩ := (box2 _ _ _).1 hi
    simp only
    rw [hform]
    have e1 := hin a b ha hb
    have e2 := pre_succ (A := A0) (X := X) (bk A0 X a) (bk_lt h1 h2 a)
    have e3 := pre_mono (A := A0) (X := X) (bk A0 X a + 1) (A0 / X) (bk_lt h1 h2 a) (Nat.le_refl _)
    rw [pre_last] at e3
    have e4 := Nat.mul_le_mul_right A1 e3
    rw [e2, Nat.add_mul] at e4
    simp only [List.prod_cons, List.prod_nil, Nat.mul_one]
    omega
  · intro i j hi hj he
    obtain ⟨a, b, rfl, ha, hb⟩ := (box2 _ _ _).1 hi
    obtain ⟨a', b', rfl, ha', hb'⟩ := (box2 _ _ _).1 hj
    simp only at he
    have hbk : bk A0 X a = bk A0 X a' := by
      rcases Nat.lt_trichotomy (bk A0 X a) (bk A0 X a') with h | h | h
      · have := hlt a b a' b' ha hb h
        omega
      · exact h
      · have := hlt a' b' a b ha' hb' h
        omega
    rw [hform, hform, hbk] at he
    have w := in_width h1 h2 a ha
    have w' := in_width h1 h2 a' ha'
    rw [hbk] at w
    have := (fNum_bij [width A0 X (bk A0 X a'), A1]).2 _ _
      ((box2 _ _ _).2 ⟨_, _, rfl, w.2, hb⟩) ((box2 _ _ _).2 ⟨_, _, rfl, w'.2, hb'⟩) (by omega)
    simp only [List.cons.injEq, and_true] at this
    have ea : a = a' := by omega
    rw [ea, this.2]
  · intro i j hi hj hle
    obtain ⟨a, b, rfl, ha, hb⟩ := (box2 _ _ _).1 hi
    obtain ⟨a', b', rfl, ha', hb'⟩ := (box2 _ _ _).1 hj
    have l0 : a ≤ a' := by simpa using hle 0
    have l1 : b ≤ b' := by simpa using hle 1
    simp only
    rcases Nat.lt_or_ge (bk A0 X a) (bk A0 X a') with h | h
    · exact Nat.le_of_lt (hlt a b a' b' ha hb h)
    · have hbk : bk A0 X a = bk A0 X a' := Nat.le_antisymm (bk_mono a a' l0) h
      rw [hform, hform, hbk]
      apply Nat.add_le_add_left
      apply fNum_mono
      · rfl
      · intro d
        rcases d with _ | _ | d
        · simp only [List.getD_cons_zero]
          omega
        · simpa using l1
        · simp

/-! ## 3D -/

def form3 (start A0 A1 A2 X Y : Nat) (i : List Nat) : Nat :=
  start + pre A1 Y (bk A1 Y (i.getD 1 0)) * (A0 * A2) + pre A0 X (bk A0 X (i.getD 0 0)) * (width A1 Y (bk A1 Y (i.getD 1 0)) * A2) +
    fNum [width A0 X (bk A0 X (i.getD 0 0)), width A1 Y (bk A1 Y (i.getD 1 0)), A2]
      [i.getD 0 0 - bk A0 X (i.getD 0 0) * X, i.getD 1 0 - bk A1 Y (i.getD 1 0) * Y, i.getD 2 0]

theorem blocks3_inner (A0 A1 A2 X Y : Nat) (h1 : 0 < X) (h2 : X ≤ A0) (h3 : 0 < Y) (h4 : Y ≤ A1) (n : Nat) (hn : n < A1 / Y)
    (s : (List Nat → Nat) × Nat) (m : Nat) (hm : m ≤ A0 / X) :
    ((List.range m).foldl (block3 A0 A1 A2 X Y n) s).2 = s.2 + pre A0 X m * (width A1 Y n * A2) ∧
      (∀ i, bk A0 X (i.getD 0 0) < m → bk A1 Y (i.getD 1 0) = n → ((List.range m).foldl (block3 A0 A1 A2 X Y n) s).1 i =
        s.2 + pre A0 X (bk A0 X (i.getD 0 0)) * (width A1 Y n * A2) +
          fNum [width A0 X (bk A0 X (i.getD 0 0)), width A1 Y n, A2] [i.getD 0 0 - bk A0 X (i.getD 0 0) * X, i.getD 1 0 - n * Y, i.getD 2 0]) ∧
      (∀ i, bk A1 Y (i.getD 1 0) ≠ n → ((List.range m).foldl (block3 A0 A1 A2 X Y n) s).1 i = s.1 i) := by
  induction m with
  | zero =>
    refine ⟨?_, fun i hi => by omega, fun i _ => rfl⟩
    simp [pre_zero h1 h2]
  | succ m ih =>
    obtain ⟨ih1, ih2, ih3⟩ := ih (by omega)
    rw [List.range_succ, List.foldl_append]
    simp only [List.foldl_cons, List.foldl_nil]
    set t := (List.range m).foldl (block3 A0 A1 A2 X Y n) s with ht
    refine ⟨?_, ?_, ?_⟩
    · simp only [block3]
      rw [ih1, pre_succ m (by omega)]
      ring
    · intro i hi hin
      simp only [block3]
      have hY : inBlock A1 Y n (i.getD 1 0) = true := (inBlock_iff h3 h4 n _ hn).2 hin.symm
      by_cases hb : inBlock A0 X m (i.getD 0 0) = true
      · rw [if_pos (by rw [hb, hY]; rfl), ih1]
        have hb := (inBlock_iff h1 h2 m _ (by omega)).1 hb
        rw [← hb]
      · rw [if_neg (by rw [Bool.and_eq_true]; exact fun h => hb h.1)]
        apply ih2 i _ hin
        have : m ≠ bk A0 X (i.getD 0 0) := fun h => hb ((inBlock_iff h1 h2 m _ (by omega)).2 h)
        omega
    · intro i hin
      simp only [block3]
      have hY : ¬ inBlock A1 Y n (i.getD 1 0) = true := fun h => hin ((inBlock_iff h3 h4 n _ hn).1 h).symm
      rw [if_neg (by rw [Bool.and_eq_true]; exact fun h => hY h.2)]
      exact ih3 i hin

theorem blocks3_loop (junk : List Nat → Nat) (start A0 A1 A2 X Y : Nat) (h1 : 0 < X) (h2 : X ≤ A0) (h3 : 0 < Y) (h4 : Y ≤ A1) (n : Nat) (hn : n ≤ A1 / Y) :
    ((List.range n).foldl (fun s n => (List.range (A0 / X)).foldl (block3 A0 A1 A2 X Y n) s) (junk, start)).2 = start + pre A1 Y n * (A0 * A2) ∧
      ∀ i, bk A1 Y (i.getD 1 0) < n →
        ((List.range n).foldl (fun s n => (List.range (A0 / X)).foldl (block3 A0 A1 A2 X Y n) s) (junk, start)).1 i = form3 start A0 A1 A2 X Y i := by
  induction n with
  | zero =>
    refine ⟨?_, fun i hi => by omega⟩
    simp [pre_zero h3 h4]
  | succ n ih =>
    obtain ⟨ih1, ih2⟩ := ih (by omega)
    rw [List.range_succ, List.foldl_append]
    simp only [List.foldl_cons, List.foldl_nil]
    set s := (List.range n).foldl (fun s n => (List.range (A0 / X)).foldl (block3 A0 A1 A2 X Y n) s) (junk, start) with hs
    obtain ⟨g1, g2, g3⟩ := blocks3_inner A0 A1 A2 X Y h1 h2 h3 h4 n (by omega) s (A0 / X) (Nat.le_refl _)
    refine ⟨?_, ?_⟩
    · rw [g1, ih1, pre_succ n (by omega), pre_last]
      ring
    · intro i hi
      by_cases hb : bk A1 Y (i.getD 1 0) = n
      · rw [g2 i (bk_lt h1 h2 _) hb, ih1]
        unfold form3
        rw [hb]
      · rw [g3 i hb]
        apply ih2
        omega

theorem blocks3_eq (junk : List Nat → Nat) (start A0 A1 A2 X Y : Nat) (h1 : 0 < X) (h2 : X ≤ A0) (h3 : 0 < Y) (h4 : Y ≤ A1) :
    ∃ f, blocks3 junk start A0 A1 A2 X Y = some ⟨[A0, A1, A2], f⟩ ∧ ∀ i, f i = form3 start A0 A1 A2 X Y i := by
  obtain ⟨a, b⟩ := blocks3_loop junk start A0 A1 A2 X Y h1 h2 h3 h4 (A1 / Y) (Nat.le_refl _)
  rw [pre_last] at a
  refine ⟨_, ?_, fun i => b i (bk_lt h3 h4 _)⟩
  unfold blocks3
  simp only
  rw [if_pos (by rw [a]; ring)]

theorem numbers_blocks3 (start A0 A1 A2 X Y : Nat) (h1 : 0 < X) (h2 : X ≤ A0) (h3 : 0 < Y) (h4 : Y ≤ A1) (f : List Nat → Nat)
    (hf : ∀ i, f i = form3 start A0 A1 A2 X Y i) : Numbers start ⟨[A0, A1, A2], f⟩ := by
  have hform : ∀ a b c, f [a, b, c] = start + pre A1 Y (bk A1 Y b) * (A0 * A2) + pre A0 X (bk A0 X a) * (width A1 Y (bk A1 Y b) * A2) +
      fNum [width A0 X (bk A0 X a), width A1 Y (bk A1 Y b), A2] [a - bk A0 X a * X, b - bk A1 Y b * Y, c] :=
    fun a b c => hf [a, b, c]
  -- size of the part inside a block
  have hin : ∀ a b c, a < A0 → b < A1 → c < A2 →
      fNum [width A0 X (bk A0 X a), width A1 Y (bk A1 Y b), A2] [a - bk A0 X a * X, b - bk A1 Y b * Y, c] <
        width A0 X (bk A0 X a) * (width A1 Y (bk A1 Y b) * A2) := by
    intro a b c ha hb hc
    have := (fNum_bij [width A0 X (bk A0 X a), width A1 Y (bk A1 Y b), A2]).1 [a - bk A0 X a * X, b - bk A1 Y b * Y, c]
      ((box3 _ _ _ _).2 ⟨_, _, _, rfl, (in_width h1 h2 a ha).2, (in_width h3 h4 b hb).2, hc⟩)
    simpa using this
  -- the two lower digits
  have hin2 : ∀ a b c, a < A0 → b < A1 → c < A2 →
      pre A0 X (bk A0 X a) * (width A1 Y (bk A1 Y b) * A2) +
        fNum [width A0 X (bk A0 X a), width A1 Y (bk A1 Y b), A2] [a - bk A0 X a * X, b - bk A1 Y b * Y, c] <
          pre A0 X (bk A0 X a + 1) * (width A1 Y (bk A1 Y b) * A2) := by
    intro a b c ha hb hc
    have e1 := hin a b c ha hb hc
    have e2 := pre_succ (A := A0) (X := X) (bk A0 X a) (bk_lt h1 h2 a)
    rw [e2, Nat.add_mul]
    omega
  have hin3 : ∀ a b c, a < A0 → b < A1 → c < A2 →
      pre A0 X (bk A0 X a) * (width A1 Y (bk A1 Y b) * A2) +
        fNum [width A0 X (bk A0 X a), width A1 Y (bk A1 Y b), A2] [a - bk A0 X a * X, b - bk A1 Y b * Y, c] <
          width A1 Y (bk A1 Y b) * (A0 * A2) := by
    intro a b c ha hb hc
    have e1 := hin2 a b c ha hb hc
    have e3 := pre_mono (A := A0) (X := X) (bk A0 X a + 1) (A0 / X) (bk_lt h1 h2 a) (Nat.le_refl _)
    rw [pre_last] at e3
    have e4 := Nat.mul_le_mul_right (width A1 Y (bk A1 Y b) * A2) e3
    have e5 : width A1 Y (bk A1 Y b) * (A0 * A2) = A0 * (width A1 Y (bk A1 Y b) * A2) := by ring
    omega
  have hltY : ∀ a b c a' b' c', a < A0 → b < A1 → c < A2 → bk A1 Y b < bk A1 Y b' → f [a, b, c] < f [a', b', c'] := by
    intro a b c a' b' c' ha hb hc hlt
    rw [hform, hform]
    have e1 := hin3 a b c ha hb hc
    have e2 := pre_succ (A := A1) (X := Y) (bk A1 Y b) (bk_lt h3 h4 b)
    have e3 := pre_mono (A := A1) (X := Y) (bk A1 Y b + 1) (bk A1 Y b') (by omega) (Nat.le_of_lt (bk_lt h3 h4 b'))
    have e4 := Nat.mul_le_mul_right (A0 * A2) e3
    rw [e2, Nat.add_mul] at e4
    omega
  have hltX : ∀ a b c a' b' c', a < A0 → b < A1 → c < A2 → bk A1 Y b = bk A1 Y b' → bk A0 X a < bk A0 X a' → f [a, b, c] < f [a', b', c'] := by
    intro a b c a' b' c' ha hb hc hY hlt
    rw [hform, hform]
    have e1 := hin2 a b c ha hb hc
    have e3 := pre_mono (A := A0) (X := X) (bk A0 X a + 1) (bk A0 X a') (by omega) (Nat.le_of_lt (bk_lt h1 h2 a'))
    have e4 := Nat.mul_le_mul_right (width A1 Y (bk A1 Y b) * A2) e3
    rw [← hY]
    omega
  refine ⟨?_, ?_, ?_⟩
  · intro i hi
    obtain ⟨a, b, c, rfl, ha, hb, hc⟩ := (box3 _ _ _ _).1 hi
    simp only
    rw [hform]
    have e1 := hin3 a b c ha hb hc
    have e2 := pre_succ (A := A1) (X := Y) (bk A1 Y b) (bk_lt h3 h4 b)
    have e3 := pre_mono (A := A1) (X := Y) (bk A1 Y b + 1) (A1 / Y) (bk_lt h3 h4 b) (Nat.le_refl _)
    rw [pre_last] at e3
    have e4 := Nat.mul_le_mul_right (A0 * A2) e3
    rw [e2, Nat.add_mul] at e4
    have e5 : A1 * (A0 * A2) = A0 * (A1 * A2) := by ring
    simp only [List.prod_cons, List.prod_nil, Nat.mul_one]
    omega
  · intro i j hi hj he
    obtain ⟨a, b, c, rfl, ha, hb, hc⟩ := (box3 _ _ _ _).1 hi
    obtain ⟨a', b', c', rfl, ha', hb', hc'⟩ := (box3 _ _ _ _).1 hj
    simp only at he
    have hY : bk A1 Y b = bk A1 Y b' := by
      rcases Nat.lt_trichotomy (bk A1 Y b) (bk A1 Y b') with h | h | h
      · have := hltY a b c a' b' c' ha hb hc h
        omega
      · exact h
      · have := hltY a' b' c' a b c ha' hb' hc' h
        omega
    have hX : bk A0 X a = bk A0 X a' := by
      rcases Nat.lt_trichotomy (bk A0 X a) (bk A0 X a') with h | h | h
      · have := hltX a b c a' b' c' ha hb hc hY h
        omega
      · exact h
      · have := hltX a' b' c' a b c ha' hb' hc' hY.symm h
        omega
    rw [hform, hform, hX, hY] at he
    have w := in_width h1 h2 a ha
    have w' := in_width h1 h2 a' ha'
    have v := in_width h3 h4 b hb
    have v' := in_width h3 h4 b' hb'
    rw [hX] at w
    rw [hY] at v
    have := (fNum_bij [width A0 X (bk A0 X a'), width A1 Y (bk A1 Y b'), A2]).2 _ _
      ((box3 _ _ _ _).2 ⟨_, _, _, rfl, w.2, v.2, hc⟩) ((box3 _ _ _ _).2 ⟨_, _, _, rfl, w'.2, v'.2, hc'⟩) (by omega)
    simp only [List.cons.injEq, and_true] at this
    have ea : a = a' := by omega
    have eb : b = b' := by omega
    rw [ea, eb, this.2.2]
  · intro i j hi hj hle
    obtain ⟨a, b, c, rfl, ha, hb, hc⟩ := (box3 _ _ _ _).1 hi
    obtain ⟨a', b', c', rfl, ha', hb', hc'⟩ := (box3 _ _ _ _).1 hj
    have l0 : a ≤ a' := by simpa using hle 0
    have l1 : b ≤ b' := by simpa using hle 1
    have l2 : c ≤ c' := by simpa using hle 2
    simp only
    rcases Nat.lt_or_ge (bk A1 Y b) (bk A1 Y b') with h | h
    · exact Nat.le_of_lt (hltY a b c a' b' c' ha hb hc h)
    · have hY : bk A1 Y b = bk A1 Y b' := Nat.le_antisymm (bk_mono b b' l1) h
      rcases Nat.lt_or_ge (bk A0 X a) (bk A0 X a') with h | h
      · exact Nat.le_of_lt (hltX a b c a' b' c' ha hb hc hY h)
      · have hX : bk A0 X a = bk A0 X a' := Nat.le_antisymm (bk_mono a a' l0) h
        rw [hform, hform, hX, hY]
        apply Nat.add_le_add_left
        apply fNum_mono
        · rfl
        · intro d
          rcases d with _ | _ | _ | d
          · simp only [List.getD_cons_zero]
            omega
          · simp only [List.getD_cons_succ, List.getD_cons_zero]
            omega
          · simpa using l2
          · simp

end Mifem.Mesh
