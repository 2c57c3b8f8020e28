import Verif.Model.NumericalDerivative
import Mathlib.Analysis.Calculus.Deriv.MeanValue
import Mathlib.Analysis.Calculus.Deriv.Pow
import Mathlib.Analysis.Calculus.Deriv.Add
import Mathlib.Analysis.Calculus.Deriv.Comp
import Mathlib.Analysis.Calculus.Deriv.Slope

/-!
# C74: numerical derivatives and the comparison of a given derivative with them
-/

set_option linter.unusedSectionVars false

namespace Mifem.Props

open Mifem.ES Mifem.ND

/-! ## The central difference -/

/-- Exact on quadratic functions. -/
theorem c74_quadratic (h : ℝ) (hh : h ≠ 0) (a b c x : ℝ) :
    central h (fun s => a * s ^ 2 + b * s + c) x = 2 * a * x + b := by
  simp only [central]
  field_simp
  ring

/-- A function that vanishes at `0` and grows no faster than another stays below it. -/
theorem grow_le {g k g' k' : ℝ → ℝ} {h : ℝ} (hg : ∀ s ∈ Set.Icc 0 h, HasDerivAt g (g' s) s)
    (hk : ∀ s ∈ Set.Icc 0 h, HasDerivAt k (k' s) s) (h0 : g 0 ≤ k 0)
    (hle : ∀ s ∈ Set.Icc 0 h, g' s ≤ k' s) : ∀ s ∈ Set.Icc 0 h, g s ≤ k s := by
  have hd : ∀ s ∈ Set.Icc 0 h, HasDerivAt (fun s => k s - g s) (k' s - g' s) s :=
    fun s hs => (hk s hs).sub (hg s hs)
  have mono : MonotoneOn (fun s => k s - g s) (Set.Icc 0 h) := by
    refine monotoneOn_of_deriv_nonneg (convex_Icc 0 h)
      (fun s hs => (hd s hs).continuousAt.continuousWithinAt)
      (fun s hs => (hd s (interior_subset hs)).differentiableAt.differentiableWithinAt)
      (fun s hs => ?_)
    rw [(hd s (interior_subset hs)).deriv]
    exact sub_nonneg.2 (hle s (interior_subset hs))
  intro s hs
  have := mono (Set.left_mem_Icc.2 (hs.1.trans hs.2)) hs hs.1
  simp only at this
  linarith

/-- One side of the truncation error. -/
theorem central_le {f f1 f2 f3 : ℝ → ℝ} {a h M : ℝ} (hh : 0 ≤ h)
    (d1 : ∀ s ∈ Set.Icc (a - h) (a + h), HasDerivAt f (f1 s) s)
    (d2 : ∀ s ∈ Set.Icc (a - h) (a + h), HasDerivAt f1 (f2 s) s)
    (d3 : ∀ s ∈ Set.Icc (a - h) (a + h), HasDerivAt f2 (f3 s) s)
    (hM : ∀ s ∈ Set.Icc (a - h) (a + h), f3 s ≤ M) :
    f (a + h) - f (a - h) - 2 * h * f1 a ≤ M * h ^ 3 / 3 := by
  have mp : ∀ s ∈ Set.Icc 0 h, a + s ∈ Set.Icc (a - h) (a + h) := by
    intro s hs; constructor <;> linarith [hs.1, hs.2]
  have mm : ∀ s ∈ Set.Icc 0 h, a - s ∈ Set.Icc (a - h) (a + h) := by
    intro s hs; constructor <;> linarith [hs.1, hs.2]
  have up : ∀ {g g' : ℝ → ℝ} (_ : ∀ s ∈ Set.Icc (a - h) (a + h), HasDerivAt g (g' s) s),
      ∀ s ∈ Set.Icc 0 h, HasDerivAt (fun s => g (a + s)) (g' (a + s)) s := by
    intro g g' hg s hs
    exact (hg _ (mp s hs)).comp_const_add a s
  have dn : ∀ {g g' : ℝ → ℝ} (_ : ∀ s ∈ Set.Icc (a - h) (a + h), HasDerivAt g (g' s) s),
      ∀ s ∈ Set.Icc 0 h, HasDerivAt (fun s => g (a - s)) (-g' (a - s)) s := by
    intro g g' hg s hs
    exact (hg _ (mm s hs)).comp_const_sub a s
  have l3 : ∀ s ∈ Set.Icc 0 h, f2 (a + s) - f2 (a - s) ≤ 2 * M * s := by
    refine grow_le (g' := fun s => f3 (a + s) + f3 (a - s)) (k' := fun _ => 2 * M) ?_ ?_ ?_ ?_
    · intro s hs; simpa using (up d3 s hs).fun_sub (dn d3 s hs)
    · intro s _; simpa using (hasDerivAt_id s).const_mul (2 * M)
    · simp
    · intro s hs; linarith [hM _ (mp s hs), hM _ (mm s hs)]
  have l2 : ∀ s ∈ Set.Icc 0 h, f1 (a + s) + f1 (a - s) - 2 * f1 a ≤ M * s ^ 2 := by
    refine grow_le (g' := fun s => f2 (a + s) - f2 (a - s)) (k' := fun s => 2 * M * s) ?_ ?_ ?_ l3
    · intro s hs; simpa [sub_eq_add_neg] using ((up d2 s hs).fun_add (dn d2 s hs)).sub_const (2 * f1 a)
    · intro s _
      have := (hasDerivAt_pow 2 s).const_mul M
      refine this.congr_deriv ?_
      push_cast; ring
    · simp; linarith
  have l1 : ∀ s ∈ Set.Icc 0 h, f (a + s) - f (a - s) - 2 * s * f1 a ≤ M * s ^ 3 / 3 := by
    refine grow_le (g' := fun s => f1 (a + s) + f1 (a - s) - 2 * f1 a) (k' := fun s => M * s ^ 2)
      ?_ ?_ ?_ l2
    · intro s hs
      have h1 := ((up d1 s hs).fun_sub (dn d1 s hs)).fun_sub
        (((hasDerivAt_id s).const_mul 2).mul_const (f1 a))
      refine h1.congr_deriv ?_
      ring
    · intro s _
      have := ((hasDerivAt_pow 3 s).const_mul M).div_const 3
      refine this.congr_deriv ?_
      push_cast; ring
    · simp
  exact l1 h (Set.right_mem_Icc.2 hh)

/-- The truncation error of the numerical derivative is at most `h² / 6` times a bound of the
third derivative. -/
theorem c74_error {f f1 f2 f3 : ℝ → ℝ} {a h M : ℝ} (hh : 0 < h)
    (d1 : ∀ s ∈ Set.Icc (a - h) (a + h), HasDerivAt f (f1 s) s)
    (d2 : ∀ s ∈ Set.Icc (a - h) (a + h), HasDerivAt f1 (f2 s) s)
    (d3 : ∀ s ∈ Set.Icc (a - h) (a + h), HasDerivAt f2 (f3 s) s)
    (hM : ∀ s ∈ Set.Icc (a - h) (a + h), |f3 s| ≤ M) :
    |central h f a - f1 a| ≤ h ^ 2 / 6 * M := by
  have hi := central_le hh.le d1 d2 d3 fun s hs => (abs_le.1 (hM s hs)).2
  have lo := central_le (f := fun s => -f s) (f1 := fun s => -f1 s) (f2 := fun s => -f2 s)
    (f3 := fun s => -f3 s) hh.le (fun s hs => (d1 s hs).neg) (fun s hs => (d2 s hs).neg)
    (fun s hs => (d3 s hs).neg) fun s hs => by linarith [(abs_le.1 (hM s hs)).1]
  have e : central h f a - f1 a = (f (a + h) - f (a - h) - 2 * h * f1 a) / (2 * h) := by
    simp only [central]; field_simp; ring
  have e2 : h ^ 2 / 6 * M = M * h ^ 3 / 3 / (2 * h) := by field_simp; ring
  rw [e, e2, abs_div, abs_of_pos (by linarith : (0 : ℝ) < 2 * h)]
  gcongr
  exact abs_le.2 ⟨by linarith, hi⟩

/-- The numerical derivative tends to the derivative, wherever there is one. -/
theorem c74_limit {f : ℝ → ℝ} {f' a : ℝ} (hf : HasDerivAt f f' a) :
    Filter.Tendsto (fun h => central h f a) (nhdsWithin 0 {0}ᶜ) (nhds f') := by
  have h1 := hasDerivAt_iff_tendsto_slope_zero.1 hf
  have neg0 : Filter.Tendsto (fun h : ℝ => -h) (nhdsWithin 0 {0}ᶜ) (nhdsWithin 0 {0}ᶜ) := by
    refine tendsto_nhdsWithin_iff.2 ⟨?_, ?_⟩
    · have : Filter.Tendsto (fun h : ℝ => -h) (nhds 0) (nhds (-0)) := continuous_neg.tendsto 0
      rw [neg_zero] at this
      exact this.mono_left nhdsWithin_le_nhds
    · filter_upwards [self_mem_nhdsWithin] with h hh
      simpa using hh
  have h2 := h1.comp neg0
  have h3 := (h1.add h2).const_mul (1 / 2)
  have : (1 / 2 : ℝ) * (f' + f') = f' := by ring
  rw [this] at h3
  refine h3.congr' ?_
  filter_upwards [self_mem_nhdsWithin] with h hh
  have hh' : h ≠ 0 := hh
  simp only [central, Function.comp, smul_eq_mul, sub_eq_add_neg]
  field_simp
  ring

/-! ## The comparison -/

section check

variable {K : Type} [Field K] [LinearOrder K] [IsStrictOrderedRing K]

theorem foldl_max_lt (l : List K) (a c : K) : l.foldl max a < c ↔ a < c ∧ ∀ x ∈ l, x < c := by
  induction l generalizing a with
  | nil => simp
  | cons b l ih =>
    rw [List.foldl_cons, ih, max_lt_iff]
    simp only [List.mem_cons, forall_eq_or_imp, and_assoc]

theorem npMax_lt {l : List K} {m c : K} (h : npMax l = some m) : m < c ↔ ∀ x ∈ l, x < c := by
  cases l with
  | nil => simp [npMax] at h
  | cons a l =>
    simp only [npMax, Option.some.injEq] at h
    rw [← h, foldl_max_lt]
    simp

theorem npMax_isSome {l : List K} (h : l ≠ []) : ∃ m, npMax l = some m := by
  cases l with
  | nil => exact absurd rfl h
  | cons a l => exact ⟨_, rfl⟩

/-- The answer of the comparison, node by node: all absolute errors are below the tolerance, or all
denominators are non-zero and all relative errors are below the tolerance. -/
def AllClose (tol : K) (func self den : List K) : Prop :=
  (∀ i (h1 : i < func.length) (h2 : i < self.length), |func[i] - self[i]| < tol) ∨
  (∀ i (h1 : i < func.length) (h2 : i < self.length) (h3 : i < den.length),
    den[i] ≠ 0 ∧ |func[i] - self[i]| < tol * |den[i]|)

theorem relErrors_get {func self den : List K} {i : ℕ} (h : i < (relErrors func self den).length)
    (h1 : i < func.length) (h2 : i < self.length) (h3 : i < den.length) :
    (relErrors func self den)[i] = (npDiv (func[i] - self[i]) den[i]).map fun q => |q| := by
  simp [relErrors]

theorem npMaxNan_eq {l : List (Option K)} (hl : l ≠ []) (c : K) :
    (∃ r, npMaxNan l = some (some r) ∧ r < c) ↔ ∀ x ∈ l, ∃ v, x = some v ∧ v < c := by
  have he : l.isEmpty = false := by cases l with
    | nil => exact absurd rfl hl
    | cons => rfl
  simp only [npMaxNan, he, Bool.false_eq_true, if_false]
  constructor
  · rintro ⟨r, hr, hlt⟩ x hx
    split at hr
    · rename_i hall
      have hx' := List.all_eq_true.1 hall x hx
      obtain ⟨v, rfl⟩ := Option.isSome_iff_exists.1 hx'
      refine ⟨v, rfl, (npMax_lt (Option.some.inj hr)).1 hlt v ?_⟩
      exact List.mem_filterMap.2 ⟨some v, hx, rfl⟩
    · simp at hr
  · intro h
    have hall : l.all Option.isSome = true := List.all_eq_true.2 fun x hx => by
      obtain ⟨v, rfl, _⟩ := h x hx; rfl
    rw [if_pos hall]
    have hne : l.filterMap id ≠ [] := by
      cases l with
      | nil => exact absurd rfl hl
      | cons a l =>
        obtain ⟨v, rfl, _⟩ := h a (List.mem_cons_self ..)
        simp
    obtain ⟨m, hm⟩ := npMax_isSome hne
    refine ⟨m, by rw [hm], (npMax_lt hm).2 fun x hx => ?_⟩
    obtain ⟨y, hy, hyx⟩ := List.mem_filterMap.1 hx
    obtain ⟨v, rfl, hv⟩ := h y hy
    simp only [id, Option.some.injEq] at hyx
    exact hyx ▸ hv

/-- The comparison accepts exactly the close arrays; it raises for empty ones only. -/
theorem c74_check (tol : K) {func self den : List K} (hs : self.length = func.length)
    (hd : den.length = func.length) :
    (checkPartial tol func self den = none ↔ func = []) ∧
    (func ≠ [] → (checkPartial tol func self den = some true ↔ AllClose tol func self den)) := by
  by_cases h0 : func = []
  · subst h0
    simp [checkPartial, absErrors, npMax]
  have hlen : 0 < func.length := List.length_pos_iff.2 h0
  have hane : absErrors func self ≠ [] := by
    rw [← List.length_pos_iff]; simp [absErrors, hs, hlen]
  have hrlen : (relErrors func self den).length = func.length := by simp [relErrors, hs, hd]
  have hrne : relErrors func self den ≠ [] := by
    rw [← List.length_pos_iff, hrlen]; exact hlen
  obtain ⟨m, hm⟩ := npMax_isSome hane
  have habs : m < tol ↔ ∀ i (h1 : i < func.length) (h2 : i < self.length),
      |func[i] - self[i]| < tol := by
    rw [npMax_lt hm]
    constructor
    · intro h i h1 h2
      have hi : i < (absErrors func self).length := by simp [absErrors, h1, h2]
      have := h _ (List.getElem_mem hi)
      simpa [absErrors] using this
    · intro h x hx
      obtain ⟨i, hi, rfl⟩ := List.getElem_of_mem hx
      have h1 : i < func.length := by simp [absErrors] at hi; omega
      have h2 : i < self.length := by omega
      simpa [absErrors] using h i h1 h2
  have hrel : (∃ r, npMaxNan (relErrors func self den) = some (some r) ∧ r < tol) ↔
      ∀ i (h1 : i < func.length) (h2 : i < self.length) (h3 : i < den.length),
        den[i] ≠ 0 ∧ |func[i] - self[i]| < tol * |den[i]| := by
    rw [npMaxNan_eq hrne]
    constructor
    · intro h i h1 h2 h3
      have hi : i < (relErrors func self den).length := by omega
      obtain ⟨v, hv, hlt⟩ := h _ (List.getElem_mem hi)
      rw [relErrors_get hi h1 h2 h3] at hv
      unfold npDiv at hv
      split at hv
      · simp at hv
      · rename_i hne
        refine ⟨hne, ?_⟩
        simp only [Option.map_some, Option.some.injEq] at hv
        rw [← hv, abs_div, div_lt_iff₀ (abs_pos.2 hne)] at hlt
        exact hlt
    · intro h x hx
      obtain ⟨i, hi, rfl⟩ := List.getElem_of_mem hx
      have h1 : i < func.length := by omega
      have h2 : i < self.length := by omega
      have h3 : i < den.length := by omega
      obtain ⟨hne, hlt⟩ := h i h1 h2 h3
      refine ⟨|(func[i] - self[i]) / den[i]|, ?_, ?_⟩
      · rw [relErrors_get hi h1 h2 h3]; simp [npDiv, hne]
      · rw [abs_div, div_lt_iff₀ (abs_pos.2 hne)]; exact hlt
  have hnn : ∃ q, npMaxNan (relErrors func self den) = some q := by
    have he : (relErrors func self den).isEmpty = false := by
      cases h : relErrors func self den with
      | nil => exact absurd h hrne
      | cons => rfl
    unfold npMaxNan
    rw [he]
    simp only [Bool.false_eq_true, if_false]
    split <;> exact ⟨_, rfl⟩
  obtain ⟨q, hq⟩ := hnn
  have hcheck : checkPartial tol func self den
      = if m < tol then some true else q.elim (some false) fun r => some (decide (r < tol)) := by
    unfold checkPartial
    rw [hm]
    simp only [hq]
    cases q <;> rfl
  rw [hcheck]
  refine ⟨?_, fun _ => ?_⟩
  · simp only [h0, iff_false]
    split
    · simp
    · cases q <;> simp
  · unfold AllClose
    rw [← habs, ← hrel, hq]
    by_cases hlt : m < tol
    · simp [hlt]
    · cases q with
      | none => simp [hlt]
      | some r => simp [hlt]

end check

/-- Soundness: an accepted derivative is, at every node, within the tolerance (absolute, or relative
to the numerical derivative) plus the truncation error of the true one. -/
theorem c74_sound {f f1 f2 f3 g : ℝ → ℝ} {h tol M : ℝ} {nodes : List ℝ} (hh : 0 < h)
    (d1 : ∀ s, HasDerivAt f (f1 s) s) (d2 : ∀ s, HasDerivAt f1 (f2 s) s)
    (d3 : ∀ s, HasDerivAt f2 (f3 s) s) (hM : ∀ s, |f3 s| ≤ M)
    (hacc : checkDerivative h tol f g nodes = some true) :
    (∀ a ∈ nodes, |g a - f1 a| < tol + h ^ 2 / 6 * M) ∨
    (∀ a ∈ nodes, |g a - f1 a| < tol * |central h f a| + h ^ 2 / 6 * M) := by
  have hne : nodes.map g ≠ [] := by
    intro h0
    rw [checkDerivative, ((c74_check tol (by simp [scipyDerivative]) (by simp [scipyDerivative])).1).2 h0]
      at hacc
    cases hacc
  have hc := ((c74_check tol (func := nodes.map g) (self := scipyDerivative h f nodes)
    (den := scipyDerivative h f nodes) (by simp [scipyDerivative]) (by simp [scipyDerivative])).2
    hne).1 hacc
  have err : ∀ a, |central h f a - f1 a| ≤ h ^ 2 / 6 * M := fun a =>
    c74_error hh (fun s _ => d1 s) (fun s _ => d2 s) (fun s _ => d3 s) fun s _ => hM s
  have tri : ∀ a, |g a - f1 a| ≤ |g a - central h f a| + |central h f a - f1 a| := fun a =>
    abs_sub_le _ _ _
  rcases hc with hc | hc
  · left
    intro a ha
    obtain ⟨i, hi, rfl⟩ := List.getElem_of_mem ha
    have h1 := hc i (by simpa using hi) (by simpa [scipyDerivative] using hi)
    simp only [scipyDerivative, List.getElem_map] at h1
    linarith [tri nodes[i], err nodes[i]]
  · right
    intro a ha
    obtain ⟨i, hi, rfl⟩ := List.getElem_of_mem ha
    have h1 := (hc i (by simpa using hi) (by simpa [scipyDerivative] using hi)
      (by simpa [scipyDerivative] using hi)).2
    simp only [scipyDerivative, List.getElem_map] at h1
    linarith [tri nodes[i], err nodes[i]]

/-- Completeness: the true derivative is accepted if the truncation error is below the tolerance. -/
theorem c74_complete {f f1 f2 f3 : ℝ → ℝ} {h tol M : ℝ} {nodes : List ℝ} (hh : 0 < h)
    (hn : nodes ≠ []) (d1 : ∀ s, HasDerivAt f (f1 s) s) (d2 : ∀ s, HasDerivAt f1 (f2 s) s)
    (d3 : ∀ s, HasDerivAt f2 (f3 s) s) (hM : ∀ s, |f3 s| ≤ M) (ht : h ^ 2 / 6 * M < tol) :
    checkDerivative h tol f f1 nodes = some true := by
  refine ((c74_check tol (by simp [scipyDerivative]) (by simp [scipyDerivative])).2
    (by simpa using hn)).2 (Or.inl fun i h1 h2 => ?_)
  simp only [scipyDerivative, List.getElem_map]
  rw [abs_sub_comm]
  exact (c74_error hh (fun s _ => d1 s) (fun s _ => d2 s) (fun s _ => d3 s) fun s _ => hM s).trans_lt ht

/-- A node where the numerical derivative vanishes switches the relative test off for all nodes:
values that agree to one part in a million are refused. -/
theorem c74_zero_node : checkPartial (K := ℚ) (1 / 100000) [0, 1000001] [0, 1000000] [0, 1000000]
    = some false ∧
    checkPartial (K := ℚ) (1 / 100000) [1000001] [1000000] [1000000] = some true := by
  decide +kernel

/-- The hypotheses of soundness and completeness: `f = sin`, step `10⁻⁶`, tolerance `10⁻⁵`. -/
example (nodes : List ℝ) (hn : nodes ≠ []) :
    checkDerivative (1 / 10 ^ 6) (1 / 10 ^ 5) Real.sin Real.cos nodes = some true :=
  c74_complete (f2 := fun s => -Real.sin s) (f3 := fun s => -Real.cos s) (M := 1) (by norm_num) hn
    Real.hasDerivAt_sin Real.hasDerivAt_cos (fun s => (Real.hasDerivAt_sin s).neg)
    (fun s => by rw [abs_neg]; exact Real.abs_cos_le_one s) (by norm_num)

end Mifem.Props
