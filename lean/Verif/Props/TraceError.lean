import Verif.Model.TraceRec
import Mathlib.Tactic.Linarith
import Mathlib.Tactic.NormNum
import Mathlib.Order.Bounds.Basic
import Mathlib.Data.List.GetD
import Mathlib.Tactic.IntervalCases

/-! # C88: the maximum-norm error of trace forms -/

namespace Mifem.Props
open Mifem.TraceRec

/-- The differences of the values at the points of one trace element, in the components below `n`. -/
def Diffs (n : Nat) (t : List (List ℝ) × List (List ℝ)) : Set ℝ :=
  {x | ∃ m < n, ∃ i, i < (t.1.getD m []).length ∧ x = |(t.1.getD m []).getD i 0 - (t.2.getD m []).getD i 0|}

/-- At least `n` components, each with the same positive number of values on both sides. -/
def FitsTe (n : Nat) (t : List (List ℝ) × List (List ℝ)) : Prop :=
  n ≤ t.1.length ∧ n ≤ t.2.length ∧
    ∀ m < n, 0 < (t.1.getD m []).length ∧ (t.1.getD m []).length = (t.2.getD m []).length

theorem foldl_max_isGreatest (l : List ℝ) (a : ℝ) : IsGreatest ({a} ∪ {x | x ∈ l}) (l.foldl max a) := by
  induction l generalizing a with
  | nil => simp [IsGreatest, upperBounds]
  | cons b l ih =>
    obtain ⟨h1, h2⟩ := ih (max a b)
    rw [List.foldl_cons]
    constructor
    · rcases h1 with h | h
      · rw [h]
        rcases max_choice a b with e | e
        · exact .inl e
        · exact .inr (by rw [e]; simp)
      · exact .inr (List.mem_cons_of_mem _ h)
    · have hm := h2 (Or.inl rfl)
      rintro x (rfl | hx)
      · exact (le_max_left _ _).trans hm
      · rcases List.mem_cons.1 hx with rfl | hx
        · exact (le_max_right _ _).trans hm
        · exact h2 (.inr hx)

/-- A list of nonnegative numbers that is not empty. -/
theorem foldl_max_nonneg {l : List ℝ} {a : ℝ} (h : ∀ x ∈ l, a ≤ x) (hl : l ≠ []) : IsGreatest {x | x ∈ l} (l.foldl max a) := by
  obtain ⟨h1, h2⟩ := foldl_max_isGreatest l a
  refine ⟨?_, fun x hx => h2 (.inr hx)⟩
  rcases h1 with e | h1
  · obtain ⟨b, hb⟩ := List.exists_mem_of_ne_nil l hl
    have e' : l.foldl max a = a := e
    have : b ≤ a := e' ▸ h2 (.inr hb)
    have : b = a := le_antisymm this (h b hb)
    rw [e', ← this]
    exact hb
  · exact h1

theorem mapM_comps {α : Type} (l : List α) (f : α → Option ℝ) (g : α → ℝ) (h : ∀ a ∈ l, f a = some (g a)) :
    l.mapM f = some (l.map g) := by
  induction l with
  | nil => rfl
  | cons a l ih =>
    rw [List.mapM_cons, h a (by simp), ih fun x hx => h x (by simp [hx])]
    rfl

theorem errorAt_greatest {k : Nat} {t : List (List ℝ) × List (List ℝ)} (h : FitsTe (comps k) t) :
    ∃ x, errorAt k t.1 t.2 = some x ∧ IsGreatest (Diffs (comps k) t) x := by
  obtain ⟨h1, h2, h3⟩ := h
  set z := fun m => (List.zipWith (fun a b => |a - b|) (t.1.getD m []) (t.2.getD m [])) with hz
  have e : errorAt k t.1 t.2 = some (((List.range (comps k)).map fun m => (z m).foldl max 0).foldl max 0) := by
    rw [errorAt, mapM_comps _ _ (fun m => (z m).foldl max 0)]
    · rfl
    · intro m hm
      rw [List.mem_range] at hm
      simp only [List.getElem?_eq_getElem (by omega : m < t.1.length), List.getElem?_eq_getElem (by omega : m < t.2.length),
        Option.bind_eq_bind, Option.bind_some, Option.pure_def, hz, List.getD_eq_getElem _ _ (by omega : m < t.1.length),
        List.getD_eq_getElem _ _ (by omega : m < t.2.length)]
  refine ⟨_, e, ?_⟩
  have pos : ∀ m, ∀ x ∈ z m, 0 ≤ x := by
    intro m x hx
    obtain ⟨i, hi, rfl⟩ := List.getElem_of_mem hx
    simp [hz]
  have len : ∀ m < comps k, (z m).length = (t.1.getD m []).length := fun m hm => by
    have := (h3 m hm).2
    simp only [hz, List.length_zipWith]
    omega
  have val : ∀ m < comps k, ∀ i (hi : i < (z m).length), (z m)[i] = |(t.1.getD m []).getD i 0 - (t.2.getD m []).getD i 0| := by
    intro m hm i hi
    have a := len m hm
    have b := (h3 m hm).2
    simp only [hz, List.getElem_zipWith]
    rw [List.getD_eq_getElem _ _ (by omega : i < (t.1.getD m []).length), List.getD_eq_getElem _ _ (by omega : i < (t.2.getD m []).length)]
  have inner : ∀ m < comps k, IsGreatest {x | x ∈ z m} ((z m).foldl max 0) := fun m hm =>
    foldl_max_nonneg (pos m) (List.ne_nil_of_length_pos (by have := (h3 m hm).1; have := len m hm; omega))
  have k0 : 0 < comps k := by unfold comps; split <;> omega
  have outer : IsGreatest {x | x ∈ (List.range (comps k)).map fun m => (z m).foldl max 0}
      (((List.range (comps k)).map fun m => (z m).foldl max 0).foldl max 0) := by
    refine foldl_max_nonneg ?_ (by simp; omega)
    intro x hx
    simp only [List.mem_map, List.mem_range] at hx
    obtain ⟨m, hm, rfl⟩ := hx
    exact pos m _ (inner m hm).1
  constructor
  · have := outer.1
    simp only [List.mem_map, List.mem_range, Set.mem_ofPred_eq] at this
    obtain ⟨m, hm, hx⟩ := this
    have := (inner m hm).1
    obtain ⟨i, hi, e'⟩ := List.getElem_of_mem this
    refine ⟨m, hm, i, by rw [← len m hm]; exact hi, ?_⟩
    rw [← hx, ← e', val m hm]
  · rintro x ⟨m, hm, i, hi, rfl⟩
    have hi' : i < (z m).length := by rw [len m hm]; exact hi
    rw [← val m hm i hi']
    refine ((inner m hm).2 (List.getElem_mem hi')).trans (outer.2 ?_)
    simp only [List.mem_map, List.mem_range, Set.mem_ofPred_eq]
    exact ⟨m, hm, rfl⟩

theorem diffs_nonneg {n : Nat} {t : List (List ℝ) × List (List ℝ)} {x : ℝ} (h : x ∈ Diffs n t) : 0 ≤ x := by
  obtain ⟨m, -, i, -, rfl⟩ := h
  exact abs_nonneg _

/-- The largest error of one core: at least `-1`, and the greatest difference if there is a trace element. -/
theorem localError_greatest {k : Nat} (L : List (List (List ℝ) × List (List ℝ))) (h : ∀ t ∈ L, FitsTe (comps k) t) :
    ∃ x, localError k L = some x ∧ (∀ t ∈ L, ∀ y ∈ Diffs (comps k) t, y ≤ x) ∧
      (L = [] ∧ x = -1 ∨ ∃ t ∈ L, x ∈ Diffs (comps k) t) := by
  have key : ∀ (L : List (List (List ℝ) × List (List ℝ))) (a : ℝ), (∀ t ∈ L, FitsTe (comps k) t) →
      ∃ x, L.foldlM (fun acc t => (errorAt k t.1 t.2).map fun x => if acc < x then x else acc) a = some x ∧ a ≤ x ∧
        (∀ t ∈ L, ∀ y ∈ Diffs (comps k) t, y ≤ x) ∧ (x = a ∨ ∃ t ∈ L, x ∈ Diffs (comps k) t) := by
    intro L
    induction L with
    | nil => intro a _; exact ⟨a, rfl, le_rfl, by simp, .inl rfl⟩
    | cons t L ih =>
      intro a hL
      obtain ⟨b, hb, b1, b2⟩ := errorAt_greatest (hL t (by simp))
      obtain ⟨x, hx, x0, x1, x2⟩ := ih (if a < b then b else a) fun t ht => hL t (by simp [ht])
      have ab : a ≤ (if a < b then b else a) ∧ b ≤ (if a < b then b else a) := by
        split_ifs with c
        · exact ⟨c.le, le_rfl⟩
        · exact ⟨le_rfl, not_lt.1 c⟩
      refine ⟨x, ?_, ab.1.trans x0, ?_, ?_⟩
      · rw [List.foldlM_cons, hb]
        exact hx
      · intro t' ht' y hy
        rcases List.mem_cons.1 ht' with rfl | ht'
        · exact (b2 hy).trans (ab.2.trans x0)
        · exact x1 t' ht' y hy
      · rcases x2 with e | ⟨t', ht', hd⟩
        · split_ifs at e with c
          · exact .inr ⟨t, by simp, e ▸ b1⟩
          · exact .inl e
        · exact .inr ⟨t', by simp [ht'], hd⟩
  obtain ⟨x, hx, x0, x1, x2⟩ := key L (-1) h
  refine ⟨x, hx, x1, ?_⟩
  cases L with
  | nil => exact .inl ⟨rfl, by rcases x2 with e | ⟨t, ht, -⟩; exact e; simp at ht⟩
  | cons t L =>
    right
    rcases x2 with e | hd
    · obtain ⟨b, -, b1, -⟩ := errorAt_greatest (h t (by simp))
      have := x1 t (by simp) b b1
      have := diffs_nonneg b1
      linarith
    · exact hd

/-- The greatest difference over all cores. -/
theorem globalError_greatest {k : Nat} (C : List (List (List (List ℝ) × List (List ℝ)))) (hC : C ≠ [])
    (h : ∀ L ∈ C, ∀ t ∈ L, FitsTe (comps k) t) (hn : ∃ L ∈ C, L ≠ []) :
    ∃ x, globalError k C = some x ∧ IsGreatest {y | ∃ L ∈ C, ∃ t ∈ L, y ∈ Diffs (comps k) t} x := by
  have hl : ∀ L, ∃ x, L ∈ C → localError k L = some x ∧ (∀ t ∈ L, ∀ y ∈ Diffs (comps k) t, y ≤ x) ∧
      (L = [] ∧ x = -1 ∨ ∃ t ∈ L, x ∈ Diffs (comps k) t) := by
    intro L
    by_cases hL : L ∈ C
    · obtain ⟨x, hx⟩ := localError_greatest L (h L hL)
      exact ⟨x, fun _ => hx⟩
    · exact ⟨0, fun h => absurd h hL⟩
  choose g hg using hl
  have e : globalError k C = some ((C.map g).foldl max (-1)) := by
    have : C.mapM (localError k) = some (C.map g) := mapM_comps C (localError k) g fun L hL => (hg L hL).1
    rw [globalError, this]; rfl
  have low : ∀ x ∈ C.map g, -1 ≤ x := by
    intro x hx
    obtain ⟨L, hL, rfl⟩ := List.mem_map.1 hx
    rcases (hg L hL).2.2 with h | ⟨t, -, hd⟩
    · exact h.2.ge
    · linarith [diffs_nonneg hd]
  obtain ⟨g1, g2⟩ := foldl_max_nonneg low (by simpa using hC)
  refine ⟨_, e, ?_, ?_⟩
  · obtain ⟨L, hL, e'⟩ := List.mem_map.1 g1
    rcases (hg L hL).2.2 with ⟨-, hx⟩ | ⟨t, ht, hd⟩
    · obtain ⟨L', hL', hne⟩ := hn
      obtain ⟨t, ht⟩ := List.exists_mem_of_ne_nil _ hne
      rcases (hg L' hL').2.2 with h0 | ⟨t', -, hd'⟩
      · exact absurd h0.1 hne
      · have a := g2 (List.mem_map_of_mem hL')
        have b := diffs_nonneg hd'
        rw [← e', hx] at a
        linarith
    · exact ⟨L, hL, t, ht, e' ▸ hd⟩
  · rintro y ⟨L, hL, t, ht, hy⟩
    exact ((hg L hL).2.1 t ht y hy).trans (g2 (List.mem_map_of_mem hL))

/-- **C88, 0-traces.**  The error is the greatest difference between the form and its function at the points of the grids of all
trace elements of all cores; some cores may have no trace element. -/
theorem c88_0 (C : List (List (List (List ℝ) × List (List ℝ)))) (hC : C ≠ []) (h : ∀ L ∈ C, ∀ t ∈ L, FitsTe 1 t)
    (hn : ∃ L ∈ C, L ≠ []) : ∃ x, globalError 0 C = some x ∧ IsGreatest {y | ∃ L ∈ C, ∃ t ∈ L, y ∈ Diffs 1 t} x :=
  globalError_greatest C hC h hn

/-- **C88, 1-traces (partial).**  For 1-traces it is the greatest difference of the first two components.  Missing: the third
component, which is not looked at (`c88_1_counterexample`). -/
theorem c88_1_partial (C : List (List (List (List ℝ) × List (List ℝ)))) (hC : C ≠ []) (h : ∀ L ∈ C, ∀ t ∈ L, FitsTe 3 t)
    (hn : ∃ L ∈ C, L ≠ []) : ∃ x, globalError 1 C = some x ∧ IsGreatest {y | ∃ L ∈ C, ∃ t ∈ L, y ∈ Diffs 2 t} x :=
  globalError_greatest C hC (fun L hL t ht => ⟨(h L hL t ht).1.trans' (by decide), (h L hL t ht).2.1.trans' (by decide),
    fun m hm => (h L hL t ht).2.2 m (by simp [comps] at hm; omega)⟩) hn

/-- One trace element, one point; the form is zero and the function is `(0, 0, 1)`. -/
theorem c88_1_counterexample : let t : List (List ℝ) × List (List ℝ) := ([[0], [0], [0]], [[0], [0], [1]])
    FitsTe 3 t ∧ globalError 1 [[t]] = some 0 ∧ (1 : ℝ) ∈ Diffs 3 t := by
  intro t
  refine ⟨⟨by simp [t], by simp [t], ?_⟩, ?_, ⟨2, by omega, 0, by simp [t], by simp [t]⟩⟩
  · intro m hm
    interval_cases m <;> simp [t]
  · obtain ⟨x, hx, h1, -⟩ := c88_1_partial [[t]] (by simp) (by
      simp only [List.forall_mem_singleton, t]
      refine ⟨by simp, by simp, fun m hm => ?_⟩
      interval_cases m <;> simp) (by simp)
    obtain ⟨L, hL, t', ht', m, hm, i, hi, rfl⟩ := h1
    simp only [List.mem_singleton] at hL
    subst hL
    simp only [List.mem_singleton] at ht'
    subst ht'
    rw [hx]
    interval_cases m <;> simp [t] at hi <;> simp [t, hi]

/-- **C88: the error of 2-traces cannot be computed.**  A 2-trace has one component and so has its function; as soon as some
trace element exists, asking for the error fails. -/
theorem c88_2_counterexample (C : List (List (List (List ℝ) × List (List ℝ)))) (h : ∀ L ∈ C, ∀ t ∈ L, t.1.length = 1)
    (hn : ∃ L ∈ C, L ≠ []) : globalError 2 C = none := by
  have e1 : ∀ t : List (List ℝ) × List (List ℝ), t.1.length = 1 → errorAt 2 t.1 t.2 = none := by
    intro t ht
    have c : t.1[1]? = none := by simp [ht]
    have r : List.range (comps 2) = [0, 1] := rfl
    rw [errorAt, r]
    simp only [List.mapM_cons, c]
    cases t.1[0]? <;> cases t.2[0]? <;> rfl
  have e2 : ∀ L : List (List (List ℝ) × List (List ℝ)), (∀ t ∈ L, t.1.length = 1) → L ≠ [] → localError 2 L = none := by
    intro L hL hne
    cases L with
    | nil => exact absurd rfl hne
    | cons t L => rw [localError, List.foldlM_cons, e1 t (hL t (by simp))]; rfl
  obtain ⟨L, hL, hne⟩ := hn
  have e3 : ∀ C : List (List (List (List ℝ) × List (List ℝ))), L ∈ C → C.mapM (localError 2) = none := by
    intro C
    induction C with
    | nil => simp
    | cons L' C ih =>
      intro hm
      rw [List.mapM_cons]
      rcases List.mem_cons.1 hm with rfl | hm
      · rw [e2 L (h L hL) hne]; rfl
      · rw [ih hm]; cases localError 2 L' <;> rfl
  rw [globalError, e3 C hL]; rfl

/-- Without trace elements the error is `-1`. -/
theorem c88_none (k n : Nat) : globalError k (List.replicate n []) = some (-1) := by
  have : (List.replicate n ([] : List (List (List ℝ) × List (List ℝ)))).mapM (localError k) = some (List.replicate n (-1)) := by
    rw [mapM_comps _ _ (fun _ => (-1 : ℝ)) fun L hL => by rw [List.eq_of_mem_replicate hL]; rfl]
    simp
  rw [globalError, this, Option.map_some, Option.some.injEq]
  induction n with
  | zero => rfl
  | succ n ih => rw [List.replicate_succ, List.foldl_cons, max_self]; exact ih (by
      rw [mapM_comps _ _ (fun _ => (-1 : ℝ)) fun L hL => by rw [List.eq_of_mem_replicate hL]; rfl]; simp)

/-- Two cores, one without trace elements. -/
example : ∃ x, globalError 0 [[], [([[1, 2]], [[1, 4]]), ([[0, 1]], [[1, 1]])]] = some x ∧
    IsGreatest {y | ∃ L ∈ [[], [([[1, 2]], [[1, 4]]), ([[0, 1]], [[1, 1]])]], ∃ t ∈ L, y ∈ Diffs 1 t} x := by
  refine c88_0 _ (by simp) ?_ ⟨[([[1, 2]], [[1, 4]]), ([[0, 1]], [[1, 1]])], by simp, by simp⟩
  intro L hL t ht
  simp only [List.mem_cons, List.not_mem_nil, or_false] at hL
  rcases hL with rfl | rfl
  · simp at ht
  · simp only [List.mem_cons, List.not_mem_nil, or_false] at ht
    rcases ht with rfl | rfl <;> simp [FitsTe]

end Mifem.Props
