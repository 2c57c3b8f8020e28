import Verif.Model.Portion
import Mathlib.Order.Monotone.Basic
import Mathlib.Data.List.Basic
import Mathlib.Data.Rat.Defs
import Mathlib.Algebra.Order.Ring.Rat
import Mathlib.Tactic.Linarith
import Mathlib.Tactic.NormNum

/-!
# C111: portions of discrete fields in a rectangle

Specification: of all data points those whose coordinates are in the rectangle, in the same order.
-/

namespace Mifem.Props.Portion111
open Mifem.Portion

variable {K : Type} [LinearOrder K]

/-- The point is in the closed rectangle. -/
def inside {α : Type} (x y : K × K) (p : K × K × α) : Bool :=
  decide (x.1 ≤ p.1 ∧ p.1 ≤ x.2 ∧ y.1 ≤ p.2.1 ∧ p.2.1 ≤ y.2)

/-- Between the first that satisfies `p` and the first that satisfies `q` are those that satisfy `p` and not `q`, if both stay true. -/
theorem slice_filter {α : Type} (p q : α → Bool) (l : List α) (hp : l.Pairwise fun a b => p a = true → p b = true)
    (hq : l.Pairwise fun a b => q a = true → q b = true) :
    slice l (l.findIdx p) (l.findIdx q) = l.filter fun a => p a && !q a := by
  unfold slice
  induction l with
  | nil => rfl
  | cons a l ih =>
    rw [List.pairwise_cons] at hp hq
    have ih' := ih hp.2 hq.2
    by_cases hqa : q a = true
    · rw [List.findIdx_cons (p := q), hqa]
      simp only [cond_true, List.take_zero, List.drop_nil]
      symm
      rw [List.filter_eq_nil_iff]
      intro b hb
      rcases List.mem_cons.1 hb with rfl | hb
      · simp [hqa]
      · simp [hq.1 b hb hqa]
    · have hqa' : q a = false := by simpa using hqa
      rw [List.findIdx_cons (p := q), hqa']
      simp only [cond_false, List.take_succ_cons]
      by_cases hpa : p a = true
      · rw [List.findIdx_cons (p := p), hpa]
        simp only [cond_true, List.drop_zero]
        rw [List.filter_cons, hpa, hqa']
        simp only [Bool.not_false, Bool.and_self, if_true]
        congr 1
        rw [← ih']
        have h0 : l.findIdx p = 0 ∨ l = [] := by
          cases l with
          | nil => exact Or.inr rfl
          | cons b l => left; rw [List.findIdx_cons, hp.1 b (by simp) hpa]; rfl
        rcases h0 with h0 | h0
        · rw [h0]; rfl
        · rw [h0]; rfl
      · have hpa' : p a = false := by simpa using hpa
        rw [List.findIdx_cons (p := p), hpa']
        simp only [cond_false, List.drop_succ_cons]
        rw [List.filter_cons, hpa']
        simpa using ih'

theorem findIdx?_getD {α : Type} (p : α → Bool) (l : List α) : (l.findIdx? p).getD l.length = l.findIdx p := by
  rw [List.findIdx?_eq_guard_findIdx_lt]
  by_cases h : l.findIdx p < l.length
  · simp [Option.guard, h]
  · have := List.findIdx_le_length (p := p) (xs := l)
    simp only [Option.guard, h, decide_false, Bool.false_eq_true, if_false, Option.getD_none]
    omega

theorem findIdx?_some {α : Type} (p : α → Bool) (l : List α) (h : ∃ a ∈ l, p a = true) : l.findIdx? p = some (l.findIdx p) := by
  rw [List.findIdx?_eq_guard_findIdx_lt]
  have : l.findIdx p < l.length := List.findIdx_lt_length.2 h
  simp [Option.guard, this]

theorem slice_map {α β : Type} (f : α → β) (l : List α) (a b : ℕ) : slice (l.map f) a b = (slice l a b).map f := by
  unfold slice
  rw [← List.map_take, ← List.map_drop]

theorem findIdx_map' {α β : Type} (f : α → β) (p : β → Bool) (l : List α) : (l.map f).findIdx p = l.findIdx (p ∘ f) := by
  induction l with
  | nil => rfl
  | cons a l ih => rw [List.map_cons, List.findIdx_cons, List.findIdx_cons, ih]; rfl

/-- Of the grid numbers those whose images are in the interval. -/
def keep (f : K → K) (x : K × K) (r : List K) : List K := r.filter fun a => decide (x.1 ≤ f a ∧ f a ≤ x.2)

theorem spec_eq {α : Type} (f g : K → K) (v : K → K → α) (r s : List K) (x y : K × K) :
    (r.map fun a => s.map fun b => (f a, g b, v a b)).flatten.filter (inside x y) =
      ((keep f x r).map fun a => (keep g y s).map fun b => (f a, g b, v a b)).flatten := by
  induction r with
  | nil => rfl
  | cons a r ih =>
    rw [List.map_cons, List.flatten_cons, List.filter_append, ih]
    unfold keep
    rw [List.filter_cons]
    by_cases h : x.1 ≤ f a ∧ f a ≤ x.2
    · rw [if_pos (by simpa using h), List.map_cons, List.flatten_cons]
      congr 1
      rw [List.filter_map]
      congr 1
      apply List.filter_congr
      intro b _
      simp [inside, h]
    · rw [if_neg (by simpa using h)]
      have : (s.map fun b => (f a, g b, v a b)).filter (inside x y) = [] := by
        rw [List.filter_eq_nil_iff]
        intro p hp
        obtain ⟨b, _, rfl⟩ := List.mem_map.1 hp
        simp only [inside, decide_eq_true_eq]
        exact fun h' => h ⟨h'.1, h'.2.1⟩
      rw [this, List.nil_append]

section axis
variable [Zero K] [One K]

theorem axis_keep (f : K → K) (hf : Monotone f) (r : List K) (hr : r.Pairwise (· ≤ ·)) (h01 : ∀ a ∈ r, (0 : K) ≤ a ∧ a ≤ 1)
    (lo hi : K) :
    slice r ((r.map f).findIdx fun a => decide (a ≥ if lo < f 0 then f 0 else lo))
      ((r.map f).findIdx fun a => decide (a > if hi > f 1 then f 1 else hi)) = keep f (lo, hi) r := by
  rw [findIdx_map', findIdx_map', slice_filter]
  · unfold keep
    apply List.filter_congr
    intro a ha
    have h0 := hf (h01 a ha).1
    have h1 := hf (h01 a ha).2
    simp only [Function.comp, ← decide_not, ← Bool.decide_and, decide_eq_decide, not_lt, ge_iff_le, gt_iff_lt]
    split_ifs with c1 c2 c2
    · exact ⟨fun _ => ⟨c1.le.trans h0, h1.trans c2.le⟩, fun _ => ⟨h0, h1⟩⟩
    · exact ⟨fun h => ⟨c1.le.trans h0, h.2⟩, fun h => ⟨h0, h.2⟩⟩
    · exact ⟨fun h => ⟨h.1, h1.trans c2.le⟩, fun h => ⟨h.1, h1⟩⟩
    · exact Iff.rfl
  · refine hr.imp fun {a b} hab h => ?_
    simp only [Function.comp, decide_eq_true_eq] at h ⊢
    exact le_trans h (hf hab)
  · refine hr.imp fun {a b} hab h => ?_
    simp only [Function.comp, decide_eq_true_eq] at h ⊢
    exact lt_of_lt_of_le h (hf hab)

/-- Nothing is kept if the grid is beside the interval. -/
theorem axis_beside (f : K → K) (hf : Monotone f) (r : List K) (hr : r.Pairwise (· ≤ ·)) (h01 : ∀ a ∈ r, (0 : K) ≤ a ∧ a ≤ 1)
    (lo hi Rh Rl : K) (hh : (r.map f).head? = some Rh) (hl : (r.map f).getLast? = some Rl)
    (h : (if lo < f 0 then f 0 else lo) > Rl ∨ (if hi > f 1 then f 1 else hi) < Rh) : keep f (lo, hi) r = [] := by
  unfold keep
  rw [List.filter_eq_nil_iff]
  intro a ha
  simp only [decide_eq_true_eq, not_and]
  intro h1 h2
  have hR : (r.map f).Pairwise (· ≤ ·) := List.Pairwise.map f (fun _ _ h => hf h) hr
  rcases h with h | h
  · have : f a ≤ Rl := by
      obtain ⟨l, hl'⟩ := List.getLast?_eq_some_iff.1 hl
      have hm : f a ∈ r.map f := List.mem_map.2 ⟨a, ha, rfl⟩
      rw [hl'] at hm hR
      rcases List.mem_append.1 hm with hm | hm
      · exact (List.pairwise_append.1 hR).2.2 _ hm _ (by simp)
      · exact (List.mem_singleton.1 hm).le
    split_ifs at h
    · exact absurd (hf (h01 a ha).1) (not_le.2 (lt_of_le_of_lt this h))
    · exact absurd h1 (not_le.2 (lt_of_le_of_lt this h))
  · have : Rh ≤ f a := by
      obtain ⟨l, hl'⟩ := List.head?_eq_some_iff.1 hh
      have hm : f a ∈ r.map f := List.mem_map.2 ⟨a, ha, rfl⟩
      rw [hl'] at hm hR
      rcases List.mem_cons.1 hm with hm | hm
      · exact hm.ge
      · exact (List.pairwise_cons.1 hR).1 _ hm
    split_ifs at h
    · exact absurd (hf (h01 a ha).2) (not_le.2 (lt_of_lt_of_le h this))
    · exact absurd h2 (not_le.2 (lt_of_lt_of_le h this))

omit [Zero K] [One K] in
theorem axis_found (f : K → K) (r : List K) (x0 Rl : K) (hl : (r.map f).getLast? = some Rl) (h : ¬ x0 > Rl) :
    ((r.map f).findIdx? fun a => decide (a ≥ x0)) = some ((r.map f).findIdx fun a => decide (a ≥ x0)) := by
  apply findIdx?_some
  exact ⟨Rl, List.mem_of_getLast? hl, by simpa using h⟩

theorem findIdx_le {α : Type} (p q : α → Bool) (l : List α) (h : ∀ a, q a = true → p a = true) : l.findIdx p ≤ l.findIdx q := by
  induction l with
  | nil => exact le_rfl
  | cons a l ih =>
    rw [List.findIdx_cons, List.findIdx_cons]
    cases hp : p a
    · cases hq : q a
      · simpa using ih
      · rw [h a hq] at hp; cases hp
    · simp

theorem slice_self {α : Type} (l : List α) (a : ℕ) : slice l a a = [] := by
  unfold slice
  rw [List.drop_eq_nil_iff, List.length_take]
  exact min_le_left _ _

theorem flatten_map_nil {β γ : Type} (l : List β) : (l.map fun _ => ([] : List γ)).flatten = [] := by
  induction l with
  | nil => rfl
  | cons a l ih => simp

end axis

/-! ## The claims -/

variable [Zero K] [One K]

/-- In a region with sides along the axes (x depends on r only, y on s only, both increasing) that has more than its boundary in common
with the rectangle, `xy_range` keeps exactly the data in the closed rectangle, in order; and the data of a region beside or touching
the rectangle are left out as a whole. -/
theorem c111_rectangle_partial {α : Type} (f g : K → K) (hf : Monotone f) (hg : Monotone g) (hf01 : f 0 < f 1) (hg01 : g 0 < g 1)
    (v : K → K → α) (r s : List K) (hr : r.Pairwise (· ≤ ·)) (hs : s.Pairwise (· ≤ ·)) (hr0 : r ≠ []) (hs0 : s ≠ [])
    (hr01 : ∀ a ∈ r, (0 : K) ≤ a ∧ a ≤ 1) (hs01 : ∀ b ∈ s, (0 : K) ≤ b ∧ b ≤ 1) (x y : K × K) (hx : x.1 < x.2) (hy : y.1 < y.2) :
    ∃ out, xyRange (fun a _ => f a) (fun _ b => g b) v r s x y = some out ∧
      ((x.1 < f 1 ∧ f 0 < x.2 ∧ y.1 < g 1 ∧ g 0 < y.2) →
        out.flatten = (sample (fun a _ => f a) (fun _ b => g b) v r s).flatten.filter (inside x y)) ∧
      (¬ (x.1 < f 1 ∧ f 0 < x.2 ∧ y.1 < g 1 ∧ g 0 < y.2) → out = []) := by
  obtain ⟨xa, xb⟩ := x
  obtain ⟨ya, yb⟩ := y
  dsimp only at hx hy
  have hspec := spec_eq f g v r s (xa, xb) (ya, yb)
  unfold xyRange indices sample
  dsimp only
  rw [if_neg (by simp [hx, hy])]
  by_cases hov : xa < f 1 ∧ f 0 < xb ∧ ya < g 1 ∧ g 0 < yb
  swap
  · rw [if_pos (by
      by_contra h
      simp only [not_or, ge_iff_le, not_le] at h
      exact hov ⟨h.1, h.2.1, h.2.2.1, h.2.2.2⟩)]
    exact ⟨[], rfl, fun h => absurd h hov, fun _ => rfl⟩
  rw [if_neg (by
    simp only [not_or, ge_iff_le, not_le]
    exact hov)]
  have hclip : ∀ (lo hi l1 l2 : K), lo < hi → l1 < l2 → lo < l2 → l1 < hi → (if lo < l1 then l1 else lo) < if hi > l2 then l2 else hi := by
    intro lo hi l1 l2 h1 h2 h3 h4
    split_ifs <;> assumption
  rw [if_neg (by
    rintro (h | h)
    · exact h (hclip _ _ _ _ hx hf01 hov.1 hov.2.1)
    · exact h (hclip _ _ _ _ hy hg01 hov.2.2.1 hov.2.2.2))]
  have kx := axis_keep f hf r hr hr01 xa xb
  have ky := axis_keep g hg s hs hs01 ya yb
  have bx := axis_beside f hf r hr hr01 xa xb
  have by' := axis_beside g hg s hs hs01 ya yb
  have lx := hclip _ _ _ _ hx hf01 hov.1 hov.2.1
  have ly := hclip _ _ _ _ hy hg01 hov.2.2.1 hov.2.2.2
  generalize (if xa < f 0 then f 0 else xa) = x0 at *
  generalize (if xb > f 1 then f 1 else xb) = x1 at *
  generalize (if ya < g 0 then g 0 else ya) = y0 at *
  generalize (if yb > g 1 then g 1 else yb) = y1 at *
  obtain ⟨Rh, hRh⟩ : ∃ a, (r.map f).head? = some a := by
    cases r with
    | nil => exact absurd rfl hr0
    | cons a r => exact ⟨f a, rfl⟩
  obtain ⟨Rl, hRl⟩ : ∃ a, (r.map f).getLast? = some a := by
    cases h : (r.map f).getLast? with
    | none => exact absurd (List.map_eq_nil_iff.1 (List.getLast?_eq_none_iff.1 h)) hr0
    | some a => exact ⟨a, rfl⟩
  obtain ⟨Sh, hSh⟩ : ∃ a, (s.map g).head? = some a := by
    cases s with
    | nil => exact absurd rfl hs0
    | cons a r => exact ⟨g a, rfl⟩
  obtain ⟨Sl, hSl⟩ : ∃ a, (s.map g).getLast? = some a := by
    cases h : (s.map g).getLast? with
    | none => exact absurd (List.map_eq_nil_iff.1 (List.getLast?_eq_none_iff.1 h)) hs0
    | some a => exact ⟨a, rfl⟩
  rw [hRh, hRl, hSh, hSl]
  dsimp only
  have nilx : keep f (xa, xb) r = [] → [] = (r.map fun a => s.map fun b => (f a, g b, v a b)).flatten.filter (inside (xa, xb) (ya, yb)) := by
    intro h
    rw [hspec, h]
    rfl
  have nily : keep g (ya, yb) s = [] → [] = (r.map fun a => s.map fun b => (f a, g b, v a b)).flatten.filter (inside (xa, xb) (ya, yb)) := by
    intro h
    rw [hspec, h]
    exact (flatten_map_nil _).symm
  by_cases hout : x0 > Rl ∨ x1 < Rh ∨ y0 > Sl ∨ y1 < Sh
  · rw [if_pos hout]
    refine ⟨[], rfl, fun _ => ?_, fun h => absurd hov h⟩
    rcases hout with h | h | h | h
    · exact nilx (bx Rh Rl hRh hRl (Or.inl h))
    · exact nilx (bx Rh Rl hRh hRl (Or.inr h))
    · exact nily (by' Sh Sl hSh hSl (Or.inl h))
    · exact nily (by' Sh Sl hSh hSl (Or.inr h))
  rw [if_neg hout]
  simp only [not_or] at hout
  rw [findIdx?_getD, findIdx?_getD, axis_found f r x0 Rl hRl hout.1, axis_found g s y0 Sl hSl hout.2.2.1]
  dsimp only
  have mx : (r.map f).findIdx (fun a => decide (a ≥ x0)) ≤ (r.map f).findIdx (fun a => decide (a > x1)) :=
    findIdx_le _ _ _ fun a h => by
      simp only [decide_eq_true_eq] at h ⊢
      exact (lt_trans lx h).le
  have my : (s.map g).findIdx (fun a => decide (a ≥ y0)) ≤ (s.map g).findIdx (fun a => decide (a > y1)) :=
    findIdx_le _ _ _ fun a h => by
      simp only [decide_eq_true_eq] at h ⊢
      exact (lt_trans ly h).le
  generalize (r.map f).findIdx (fun a => decide (a ≥ x0)) = il at *
  generalize (r.map f).findIdx (fun a => decide (a > x1)) = iu at *
  generalize (s.map g).findIdx (fun a => decide (a ≥ y0)) = jl at *
  generalize (s.map g).findIdx (fun a => decide (a > y1)) = ju at *
  by_cases he : il = iu ∨ jl = ju
  · rw [if_pos he]
    refine ⟨[], rfl, fun _ => ?_, fun h => absurd hov h⟩
    rcases he with h | h
    · exact nilx (by rw [← kx, h, slice_self])
    · exact nily (by rw [← ky, h, slice_self])
  rw [if_neg he]
  simp only [not_or] at he
  rw [if_pos ⟨lt_of_le_of_ne mx he.1, lt_of_le_of_ne my he.2⟩]
  refine ⟨_, rfl, fun _ => ?_, fun h => absurd hov h⟩
  dsimp only
  rw [hspec, slice_map, kx, List.map_map, ← ky]
  congr 1
  apply List.map_congr_left
  intro a _
  exact slice_map _ s jl ju

/-- Unit square, grid with four points in each direction; the rectangle cuts it. -/
example : (xyRange (fun a _ => a) (fun _ b => b) (fun a b => (a, b)) [0, 1/4, 1/2, 1] [0, 1/2, 3/4, 1] ((1/5 : ℚ), 3/5) (1/2, 2)).map
    (·.flatten.map (·.2.2)) = some [(1/4, 1/2), (1/4, 3/4), (1/4, 1), (1/2, 1/2), (1/2, 3/4), (1/2, 1)] := by decide +kernel

/-- The region of twice the width of the unit square. -/
example : ∃ out, xyRange (fun a _ => 2 * a) (fun _ b => b) (fun _ _ => ()) [0, 1/2, 1] [0, 1] ((1/2 : ℚ), 3/2) (0, 1) = some out ∧
    out.flatten = [(1, 0, ()), (1, 1, ())] := by
  obtain ⟨out, h1, h2, _⟩ := c111_rectangle_partial (fun a : ℚ => 2 * a) (fun b => b) (fun a b h => by linarith) monotone_id
    (by norm_num) (by norm_num) (fun _ _ => ()) [0, 1/2, 1] [0, 1] (by decide +kernel) (by decide +kernel) (by simp) (by simp)
    (by decide +kernel) (by decide +kernel) ((1/2 : ℚ), 3/2) (0, 1) (by norm_num) (by norm_num)
  exact ⟨out, h1, (h2 (by norm_num)).trans (by decide +kernel)⟩

/-- The data on the side of a region are left out if the rectangle only touches the region there, though they are in the rectangle. -/
theorem c111_touch_fails : ∃ (r s : List ℚ) (x y : ℚ × ℚ), xyRange (fun a _ => a) (fun _ b => b) (fun _ _ => ()) r s x y = some [] ∧
    (sample (fun a _ => a) (fun _ b => b) (fun _ _ => ()) r s).flatten.filter (inside x y) ≠ [] :=
  ⟨[0, 1], [0, 1], (1, 2), (0, 1), by decide +kernel, by decide +kernel⟩

/-- In a region with the sides turned (x decreases with r) all data in the rectangle are left out. -/
theorem c111_turned_fails : ∃ (r s : List ℚ) (x y : ℚ × ℚ),
    xyRange (fun a _ => 1 - a) (fun _ b => b) (fun _ _ => ()) r s x y = some [] ∧
      (sample (fun a _ => 1 - a) (fun _ b => b) (fun _ _ => ()) r s).flatten.filter (inside x y) ≠ [] :=
  ⟨[0, 1/2, 1], [0, 1/2, 1], (1/4, 3/4), (1/4, 3/4), by decide +kernel, by decide +kernel⟩

/-- In a slanted region data outside the rectangle are returned. -/
theorem c111_slanted_fails : ∃ (r s : List ℚ) (x y : ℚ × ℚ) (out : List (List (ℚ × ℚ × Unit))),
    xyRange (fun a b => a + b) (fun _ b => b) (fun _ _ => ()) r s x y = some out ∧ ∃ p ∈ out.flatten, inside x y p = false :=
  ⟨[0, 1/2, 1], [0, 1/2, 1], (0, 1/2), (0, 1), [[(0, 0, ()), (1/2, 1/2, ()), (1, 1, ())], [(1/2, 0, ()), (1, 1/2, ()), (3/2, 1, ())]],
    by decide +kernel, (1, 1/2, ()), by decide +kernel, by decide +kernel⟩

end Mifem.Props.Portion111
