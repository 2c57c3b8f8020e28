import Verif.Model.Norms
import Verif.Props.Metric
import Mathlib.Analysis.MeanInequalities
import Mathlib.Algebra.BigOperators.Fin

/-!
# C76: error norms and energies are norms of the difference
-/

namespace Mifem.Props

open Mifem.Norms Finset

/-! ## The specification -/

/-- The quadrature of `|v - f|^n`, summed over all components and all elements of the mesh. -/
def powInt (n c N : ℕ) (w : ℕ → ℝ) (es : List Elt) : ℝ :=
  ∑ k : Fin es.length, ∑ q ∈ range N, w q * es[k].detJ q * ∑ m ∈ range c, |es[k].v m q - es[k].f m q| ^ n

/-- The `L^n` norm of the difference, by quadrature. -/
noncomputable def lnNorm (n c N : ℕ) (w : ℕ → ℝ) (es : List Elt) : ℝ := powInt n c N w es ^ (1 / (n : ℝ))

/-- Positive weights, elements that are not inverted: what quadrature rules (C70) and meshes provide. -/
structure Positive (N : ℕ) (w : ℕ → ℝ) (es : List Elt) : Prop where
  w : ∀ q < N, 0 < w q
  J : ∀ e ∈ es, ∀ q < N, 0 < e.detJ q

/-- The two functions agree at all quadrature points of all elements. -/
def AgreeAt (c N : ℕ) (es : List Elt) : Prop := ∀ e ∈ es, ∀ m < c, ∀ q < N, e.v m q = e.f m q

theorem powInt_nonneg {n c N : ℕ} {w : ℕ → ℝ} {es : List Elt} (h : Positive N w es) : 0 ≤ powInt n c N w es := by
  refine sum_nonneg fun k _ => sum_nonneg fun q hq => mul_nonneg (mul_nonneg ?_ ?_) (sum_nonneg fun m _ => ?_)
  · exact (h.w q (mem_range.1 hq)).le
  · exact (h.J _ (List.getElem_mem k.2) q (mem_range.1 hq)).le
  · positivity

theorem powInt_eq_zero {n c N : ℕ} (hn : n ≠ 0) {w : ℕ → ℝ} {es : List Elt} (h : Positive N w es) :
    powInt n c N w es = 0 ↔ AgreeAt c N es := by
  have pos : ∀ k : Fin es.length, ∀ q ∈ range N, 0 < w q * es[k].detJ q := fun k q hq =>
    mul_pos (h.w q (mem_range.1 hq)) (h.J _ (List.getElem_mem k.2) q (mem_range.1 hq))
  have inner : ∀ (k : Fin es.length) (q : ℕ), 0 ≤ ∑ m ∈ range c, |es[k].v m q - es[k].f m q| ^ n :=
    fun k q => sum_nonneg fun m _ => by positivity
  unfold powInt
  rw [sum_eq_zero_iff_of_nonneg fun k _ => sum_nonneg fun q hq => mul_nonneg (pos k q hq).le (inner k q)]
  constructor
  · intro H e he m hm q hq
    obtain ⟨i, hi, rfl⟩ := List.getElem_of_mem he
    have h1 := H ⟨i, hi⟩ (mem_univ _)
    rw [sum_eq_zero_iff_of_nonneg fun q hq => mul_nonneg (pos _ q hq).le (inner _ q)] at h1
    have h2 := (mul_eq_zero.1 (h1 q (mem_range.2 hq))).resolve_left (pos ⟨i, hi⟩ q (mem_range.2 hq)).ne'
    rw [sum_eq_zero_iff_of_nonneg fun m _ => by positivity] at h2
    have h3 := h2 m (mem_range.2 hm)
    exact sub_eq_zero.1 (abs_eq_zero.1 (pow_eq_zero_iff hn |>.1 h3))
  · intro H k _
    refine sum_eq_zero fun q hq => ?_
    have : ∑ m ∈ range c, |es[k].v m q - es[k].f m q| ^ n = 0 := sum_eq_zero fun m hm => by
      rw [H es[k] (List.getElem_mem k.2) m (mem_range.1 hm) q (mem_range.1 hq), sub_self, abs_zero, zero_pow hn]
    rw [this, mul_zero]

theorem gatheredSum_flatten (g : Elt → ℝ) (cores : List (List Elt)) :
    gatheredSum g cores = (cores.flatten.map g).sum := by
  unfold gatheredSum
  induction cores with
  | nil => rfl
  | cons a l ih => simp only [List.map_cons, List.sum_cons, List.flatten_cons, List.map_append, List.sum_append, ih]

theorem elementError_eq (n c N : ℕ) (w : ℕ → ℝ) (e : Elt) :
    elementError n c N w e = ∑ q ∈ range N, w q * e.detJ q * ∑ m ∈ range c, (e.v m q - e.f m q) ^ n := by
  unfold elementError
  rw [Basis.range_map_sum]
  refine sum_congr rfl fun q _ => ?_
  rw [Basis.range_map_sum]
  ring

theorem gathered_even {n c N : ℕ} (hn : Even n) (w : ℕ → ℝ) (cores : List (List Elt)) :
    gatheredSum (elementError n c N w) cores = powInt n c N w cores.flatten := by
  rw [gatheredSum_flatten, ← Fin.sum_univ_fun_getElem]
  refine sum_congr rfl fun k _ => ?_
  rw [elementError_eq]
  refine sum_congr rfl fun q _ => ?_
  congr 1
  refine sum_congr rfl fun m _ => ?_
  rw [hn.pow_abs]
  rfl

theorem npRoot_even {n : ℕ} (h0 : n ≠ 0) (h1 : n ≠ 1) {x : ℝ} (hx : 0 ≤ x) :
    npRoot x n = .val (x ^ (1 / (n : ℝ))) := by
  rw [npRoot, if_neg h0, if_neg h1, if_neg (not_lt.2 hx)]

/-- For even `n` the error is the `L^n` norm of the difference over the whole mesh; it does not depend on how the
elements are distributed to the cores. -/
theorem c76_even {n c N : ℕ} (hn : Even n) (h0 : n ≠ 0) {w : ℕ → ℝ} {cores : List (List Elt)}
    (h : Positive N w cores.flatten) :
    errorL2d n c N w false cores = .val (lnNorm n c N w cores.flatten) ∧
    errorL3d n c N w false cores = .val (lnNorm n c N w cores.flatten) ∧
    diffFrom n c N w cores = .val (lnNorm n c N w cores.flatten) := by
  have h1 : n ≠ 1 := by rintro rfl; exact absurd hn (by decide)
  have e : npRoot (gatheredSum (elementError n c N w) cores) n = .val (lnNorm n c N w cores.flatten) := by
    rw [gathered_even hn, npRoot_even h0 h1 (powInt_nonneg h)]
    rfl
  have nn : 0 ≤ lnNorm n c N w cores.flatten := Real.rpow_nonneg (powInt_nonneg h) _
  refine ⟨?_, ?_, e⟩
  · simp only [errorL2d, Bool.false_eq_true, if_false, e]
  · simp only [errorL3d, Bool.false_eq_true, if_false, h0, e, nn, if_true]

/-- It is zero exactly if the functions agree at the quadrature points, and never negative. -/
theorem c76_definite {n c N : ℕ} (h0 : n ≠ 0) {w : ℕ → ℝ} {es : List Elt} (h : Positive N w es) :
    0 ≤ lnNorm n c N w es ∧ (lnNorm n c N w es = 0 ↔ AgreeAt c N es) := by
  refine ⟨Real.rpow_nonneg (powInt_nonneg h) _, ?_⟩
  rw [lnNorm, Real.rpow_eq_zero (powInt_nonneg h) (by positivity), powInt_eq_zero h0 h]

theorem powInt_list (n c N : ℕ) (w : ℕ → ℝ) (l : List Elt) : powInt n c N w l =
    (l.map fun e => ∑ q ∈ range N, w q * e.detJ q * ∑ m ∈ range c, |e.v m q - e.f m q| ^ n).sum := by
  rw [← Fin.sum_univ_fun_getElem]; rfl

theorem powInt_perm {n c N : ℕ} {w : ℕ → ℝ} {es fs : List Elt} (h : es.Perm fs) :
    powInt n c N w es = powInt n c N w fs := by
  rw [powInt_list, powInt_list, (h.map _).sum_eq]

/-- Any other distribution of the same elements gives the same error, for every `n`. -/
theorem c76_distribution {n c N : ℕ} {w : ℕ → ℝ} {upon : Bool} {cores cores' : List (List Elt)}
    (h : cores.flatten.Perm cores'.flatten) :
    errorL2d n c N w upon cores = errorL2d n c N w upon cores' ∧
    errorL3d n c N w upon cores = errorL3d n c N w upon cores' ∧
    Norms.norm n c N w cores = Norms.norm n c N w cores' := by
  have : ∀ g : Elt → ℝ, gatheredSum g cores = gatheredSum g cores' := fun g => by
    rw [gatheredSum_flatten, gatheredSum_flatten, (h.map g).sum_eq]
  refine ⟨?_, ?_, ?_⟩ <;> simp only [errorL2d, errorL3d, Norms.norm, energy, this]

/-- Three forms on the same mesh. -/
structure Elt3 where
  a : ℕ → ℕ → ℝ
  b : ℕ → ℕ → ℝ
  c : ℕ → ℕ → ℝ
  detJ : ℕ → ℝ

/-- Pairs of them. -/
def Elt3.ab (e : Elt3) : Elt := ⟨e.a, e.b, e.detJ⟩
@[inherit_doc Elt3.ab] def Elt3.ba (e : Elt3) : Elt := ⟨e.b, e.a, e.detJ⟩
@[inherit_doc Elt3.ab] def Elt3.bc (e : Elt3) : Elt := ⟨e.b, e.c, e.detJ⟩
@[inherit_doc Elt3.ab] def Elt3.ac (e : Elt3) : Elt := ⟨e.a, e.c, e.detJ⟩

/-- `compute_Ln_diff_from` with even `n` is a distance: symmetric, and with the triangle inequality. -/
theorem c76_distance {n c N : ℕ} (hn : Even n) (h0 : n ≠ 0) {w : ℕ → ℝ} (cores : List (List Elt3))
    (hw : ∀ q < N, 0 < w q) (hJ : ∀ e ∈ cores.flatten, ∀ q < N, 0 < e.detJ q) :
    ∃ ab bc ac, diffFrom n c N w (cores.map (·.map Elt3.ab)) = .val ab ∧
      diffFrom n c N w (cores.map (·.map Elt3.ba)) = .val ab ∧
      diffFrom n c N w (cores.map (·.map Elt3.bc)) = .val bc ∧
      diffFrom n c N w (cores.map (·.map Elt3.ac)) = .val ac ∧ ac ≤ ab + bc := by
  have hp : ∀ g : Elt3 → Elt, (∀ e, (g e).detJ = e.detJ) → Positive N w (cores.map (·.map g)).flatten := by
    intro g hg
    refine ⟨hw, fun e he q hq => ?_⟩
    rw [← List.map_flatten] at he
    obtain ⟨x, hx, rfl⟩ := List.mem_map.1 he
    rw [hg]
    exact hJ x hx q hq
  refine ⟨_, _, _, (c76_even hn h0 (hp _ fun _ => rfl)).2.2, ?_, (c76_even hn h0 (hp _ fun _ => rfl)).2.2,
    (c76_even hn h0 (hp _ fun _ => rfl)).2.2, ?_⟩
  · rw [(c76_even hn h0 (hp Elt3.ba fun _ => rfl)).2.2]
    unfold lnNorm
    congr 2
    rw [← List.map_flatten, ← List.map_flatten, powInt_list, powInt_list, List.map_map, List.map_map]
    congr 1
    refine List.map_congr_left fun e _ => ?_
    simp only [Function.comp, Elt3.ab, Elt3.ba, abs_sub_comm]
  · -- Minkowski
    rw [← List.map_flatten, ← List.map_flatten, ← List.map_flatten]
    set es := cores.flatten with hes
    have np : (0 : ℝ) < n := by positivity
    have n1 : (1 : ℝ) ≤ n := by exact_mod_cast Nat.one_le_iff_ne_zero.2 h0
    let W : Fin es.length × Fin N × Fin c → ℝ := fun i => w i.2.1 * es[i.1].detJ i.2.1
    have Wpos : ∀ i, 0 < W i := fun i => mul_pos (hw _ i.2.1.2) (hJ _ (List.getElem_mem i.1.2) _ i.2.1.2)
    have key : ∀ (g : Elt3 → Elt) (F : Fin es.length × Fin N × Fin c → ℝ), (∀ e, (g e).detJ = e.detJ) →
        (∀ i, F i = W i ^ (1 / (n : ℝ)) * ((g es[i.1]).v i.2.2 i.2.1 - (g es[i.1]).f i.2.2 i.2.1)) →
        powInt n c N w (es.map g) = ∑ i, |F i| ^ (n : ℝ) := by
      intro g F hg hF
      have e1 : powInt n c N w (es.map g) = (es.map fun e => ∑ q ∈ range N, w q * e.detJ q
          * ∑ m ∈ range c, |(g e).v m q - (g e).f m q| ^ n).sum := by
        rw [powInt_list, List.map_map]
        congr 1
        refine List.map_congr_left fun e _ => ?_
        simp only [Function.comp, hg]
      rw [e1, ← Fin.sum_univ_fun_getElem, Fintype.sum_prod_type]
      refine sum_congr rfl fun k _ => ?_
      rw [Fintype.sum_prod_type, sum_range]
      refine sum_congr rfl fun q _ => ?_
      rw [sum_range, mul_sum]
      refine sum_congr rfl fun m _ => ?_
      rw [hF, abs_mul, Real.mul_rpow (abs_nonneg _) (abs_nonneg _), abs_of_pos (Real.rpow_pos_of_pos (Wpos _) _),
        ← Real.rpow_mul (Wpos _).le, one_div_mul_cancel np.ne', Real.rpow_one, Real.rpow_natCast]
      rfl
    have M := Real.Lp_add_le (univ : Finset (Fin es.length × Fin N × Fin c))
      (fun i => W i ^ (1 / (n : ℝ)) * (es[i.1].a i.2.2 i.2.1 - es[i.1].b i.2.2 i.2.1))
      (fun i => W i ^ (1 / (n : ℝ)) * (es[i.1].b i.2.2 i.2.1 - es[i.1].c i.2.2 i.2.1)) n1
    have ec := key Elt3.ac (fun i => W i ^ (1 / (n : ℝ)) * (es[i.1].a i.2.2 i.2.1 - es[i.1].b i.2.2 i.2.1)
      + W i ^ (1 / (n : ℝ)) * (es[i.1].b i.2.2 i.2.1 - es[i.1].c i.2.2 i.2.1)) (fun _ => rfl)
      (fun i => by simp only [Elt3.ac]; ring)
    have ea := key Elt3.ab (fun i => W i ^ (1 / (n : ℝ)) * (es[i.1].a i.2.2 i.2.1 - es[i.1].b i.2.2 i.2.1))
      (fun _ => rfl) (fun i => rfl)
    have eb := key Elt3.bc (fun i => W i ^ (1 / (n : ℝ)) * (es[i.1].b i.2.2 i.2.1 - es[i.1].c i.2.2 i.2.1))
      (fun _ => rfl) (fun i => rfl)
    simp only [lnNorm]
    rw [ec, ea, eb]
    exact M

/-- Without a difference to a second function: the norm of a form or field. -/
theorem c76_norm {n c N : ℕ} (hn : Even n) (h0 : n ≠ 0) {w : ℕ → ℝ} {cores : List (List Elt)}
    (h : Positive N w cores.flatten) (hf : ∀ e ∈ cores.flatten, ∀ m q, e.f m q = 0) :
    Norms.norm n c N w cores = .val (lnNorm n c N w cores.flatten) := by
  rw [← (c76_even (c := c) hn h0 h).2.2, Norms.norm, diffFrom, energy, gatheredSum_flatten, gatheredSum_flatten]
  congr 2
  refine List.map_congr_left fun e he => ?_
  simp only [elementError, hf e he, sub_zero]

/-! ## Where the claim fails -/

/-- One element, one component, two points with weight 1. -/
def pairElt (a b : ℝ) : Elt := ⟨fun _ q => if q = 0 then a else b, fun _ _ => 0, fun _ => 1⟩

theorem pairElt_positive (a b : ℝ) : Positive 2 (fun _ => 1) [[pairElt a b]].flatten :=
  ⟨fun _ _ => one_pos, fun e he q _ => by
    simp only [List.flatten_cons, List.flatten_nil, List.append_nil, List.mem_singleton] at he
    subst he; exact one_pos⟩

theorem pairElt_sum (a b : ℝ) (n : ℕ) :
    gatheredSum (elementError n 1 2 fun _ => 1) [[pairElt a b]] = a ^ n + b ^ n := by
  simp [gatheredSum, elementError, pairElt, List.range_succ]

/-- `error.L(1)` adds the signed errors: it is zero for functions that differ at every point. -/
theorem c76_odd_cancels : ∃ cores : List (List Elt), Positive 2 (fun _ => 1) cores.flatten ∧
    ¬ AgreeAt 1 2 cores.flatten ∧ errorL2d 1 1 2 (fun _ => 1) false cores = .val 0 ∧
    errorL3d 1 1 2 (fun _ => 1) false cores = .val 0 := by
  refine ⟨[[pairElt 1 (-1)]], pairElt_positive _ _, fun h => ?_, ?_, ?_⟩
  · have := h (pairElt 1 (-1)) (by simp) 0 one_pos 0 two_pos
    simp [pairElt] at this
  · simp [errorL2d, pairElt_sum, npRoot]
  · simp [errorL3d, pairElt_sum, npRoot]

/-- For `n = 3` and a function below the exact one, 2D forms return nan, and 3D forms raise AssertionError. -/
theorem c76_odd_nan : ∃ cores : List (List Elt), Positive 2 (fun _ => 1) cores.flatten ∧
    errorL2d 3 1 2 (fun _ => 1) false cores = .nan ∧ errorL3d 3 1 2 (fun _ => 1) false cores = .raise := by
  refine ⟨[[pairElt (-1) (-1)]], pairElt_positive _ _, ?_, ?_⟩
  · simp only [errorL2d, pairElt_sum, npRoot, Bool.false_eq_true, if_false]
    norm_num
  · simp only [errorL3d, pairElt_sum, npRoot, Bool.false_eq_true, if_false]
    norm_num

/-- Asking for the error upon a given function always raises. -/
theorem c76_upon (n c N : ℕ) (w : ℕ → ℝ) (cores : List (List Elt)) :
    errorL2d n c N w true cores = .raise ∧ errorL3d n c N w true cores = .raise ∧ errorInf3d c N true cores = .raise := by
  refine ⟨if_pos rfl, ?_, if_pos rfl⟩
  unfold errorL3d
  split <;> rfl

/-- The norm of a vector field in 2D raises on every mesh. -/
theorem c76_vector_field_2d (n N : ℕ) (w : ℕ → ℝ) {cores : List (List Elt)} (h : cores.flatten ≠ []) :
    vectorFieldNorm2d n N w cores = .raise := by
  obtain ⟨e, he⟩ := List.exists_mem_of_ne_nil _ h
  obtain ⟨es, hes, he'⟩ := List.mem_flatten.1 he
  exact if_pos ⟨by decide, es, hes, List.ne_nil_of_mem he'⟩

/-- The other fields have the components that are read. -/
theorem c76_field {dim n c N : ℕ} (hc : dim ≤ c) (hn : Even n) (h0 : n ≠ 0) {w : ℕ → ℝ} {cores : List (List Elt)}
    (h : Positive N w cores.flatten) (hf : ∀ e ∈ cores.flatten, ∀ m q, e.f m q = 0) :
    fieldNorm dim n c N w cores = .val (lnNorm n dim N w cores.flatten) := by
  rw [fieldNorm, if_neg fun H => absurd H.1 (by omega), c76_norm hn h0 h hf]

/-! ## The largest error -/

theorem foldl_max_spec (l : List ℝ) (a : ℝ) :
    a ≤ l.foldl max a ∧ (∀ x ∈ l, x ≤ l.foldl max a) ∧ (l.foldl max a = a ∨ l.foldl max a ∈ l) := by
  induction l generalizing a with
  | nil => exact ⟨le_refl a, fun x h => absurd h List.not_mem_nil, Or.inl rfl⟩
  | cons b l ih =>
    obtain ⟨h1, h2, h3⟩ := ih (max a b)
    refine ⟨(le_max_left a b).trans h1, fun x hx => ?_, ?_⟩
    · rcases List.mem_cons.1 hx with rfl | hx
      · exact (le_max_right a x).trans h1
      · exact h2 x hx
    · rcases h3 with h3 | h3
      · rw [List.foldl_cons, h3]
        rcases max_choice a b with h | h
        · exact Or.inl h
        · exact Or.inr (by rw [h]; exact List.mem_cons_self)
      · exact Or.inr (List.mem_cons_of_mem b h3)

theorem maxAbs_greatest {N : ℕ} (hN : 0 < N) (v f : ℕ → ℝ) :
    IsGreatest {x | ∃ q < N, x = |v q - f q|} (maxAbs N v f) := by
  obtain ⟨h1, h2, h3⟩ := foldl_max_spec ((List.range N).map fun q => |v q - f q|) 0
  refine ⟨?_, ?_⟩
  · rcases h3 with h3 | h3
    · refine ⟨0, hN, ?_⟩
      have := h2 |v 0 - f 0| (List.mem_map.2 ⟨0, List.mem_range.2 hN, rfl⟩)
      rw [h3] at this
      rw [maxAbs, h3]
      exact (le_antisymm this (abs_nonneg _)).symm
    · obtain ⟨q, hq, e⟩ := List.mem_map.1 h3
      exact ⟨q, List.mem_range.1 hq, e.symm⟩
  · rintro x ⟨q, hq, rfl⟩
    exact h2 _ (List.mem_map.2 ⟨q, List.mem_range.2 hq, rfl⟩)

/-- The largest error of an element. -/
noncomputable def eltMax (c N : ℕ) (e : Elt) : ℝ := ((List.range c).map fun m => maxAbs N (e.v m) (e.f m)).foldl max 0

theorem eltMax_greatest {c N : ℕ} (hc : 0 < c) (hN : 0 < N) (e : Elt) :
    IsGreatest {x | ∃ m < c, ∃ q < N, x = |e.v m q - e.f m q|} (eltMax c N e) := by
  obtain ⟨h1, h2, h3⟩ := foldl_max_spec ((List.range c).map fun m => maxAbs N (e.v m) (e.f m)) 0
  have G := fun m => maxAbs_greatest hN (e.v m) (e.f m)
  refine ⟨?_, ?_⟩
  · rcases h3 with h3 | h3
    · have b := h2 _ (List.mem_map.2 ⟨0, List.mem_range.2 hc, rfl⟩)
      have b' := (G 0).2 ⟨0, hN, rfl⟩
      refine ⟨0, hc, 0, hN, ?_⟩
      rw [eltMax, h3]
      rw [h3] at b
      exact (le_antisymm (b'.trans b) (abs_nonneg _)).symm
    · obtain ⟨m, hm, e'⟩ := List.mem_map.1 h3
      obtain ⟨q, hq, e2⟩ := (G m).1
      exact ⟨m, List.mem_range.1 hm, q, hq, by rw [← e2, e']; rfl⟩
  · rintro x ⟨m, hm, q, hq, rfl⟩
    exact ((G m).2 ⟨q, hq, rfl⟩).trans (h2 _ (List.mem_map.2 ⟨m, List.mem_range.2 hm, rfl⟩))

theorem coreInf_eq (c N : ℕ) (es : List Elt) : coreInf c N es = (es.map (eltMax c N)).foldl max (-1) := by
  unfold coreInf
  rw [List.foldl_map]
  congr 1
  funext a e
  simp only [eltMax]
  split
  · exact (max_eq_right (le_of_lt ‹_›)).symm
  · exact (max_eq_left (not_lt.1 ‹_›)).symm

/-- `error.L('infinity')` is the largest error over all sample points, components and elements of the mesh, whatever the
distribution of the elements; cores without elements do not matter. -/
theorem c76_infinity {c N : ℕ} (hc : 0 < c) (hN : 0 < N) {cores : List (List Elt)} (h : cores.flatten ≠ []) :
    IsGreatest {x | ∃ e ∈ cores.flatten, ∃ m < c, ∃ q < N, x = |e.v m q - e.f m q|} (errorInf c N cores) ∧
    errorInf3d c N false cores = .val (errorInf c N cores) := by
  have E : errorInf c N cores = (cores.flatten.map (eltMax c N)).foldl max (-1) := by
    have : ∀ a, -1 ≤ a → (cores.map (coreInf c N)).foldl max a = (cores.flatten.map (eltMax c N)).foldl max a := by
      clear h
      induction cores with
      | nil => intro a _; rfl
      | cons x l ih =>
        intro a ha
        have key : ∀ (l : List ℝ) (a b : ℝ), max a (l.foldl max b) = l.foldl max (max a b) := by
          intro l
          induction l with
          | nil => intro a b; rfl
          | cons y l ih => intro a b; rw [List.foldl_cons, List.foldl_cons, ih, max_assoc]
        rw [List.map_cons, List.foldl_cons, List.flatten_cons, List.map_append, List.foldl_append, ih _ (ha.trans (le_max_left _ _)),
          coreInf_eq, key, max_eq_left ha]
    exact this (-1) (le_refl _)
  obtain ⟨h1, h2, h3⟩ := foldl_max_spec (cores.flatten.map (eltMax c N)) (-1)
  have G := fun e => eltMax_greatest hc hN e
  obtain ⟨e0, he0⟩ := List.exists_mem_of_ne_nil _ h
  have nn : ∀ e, 0 ≤ eltMax c N e := fun e => (abs_nonneg _).trans ((G e).2 ⟨0, hc, 0, hN, rfl⟩)
  have pos : 0 ≤ errorInf c N cores := by
    rw [E]; exact (nn e0).trans (h2 _ (List.mem_map_of_mem he0))
  refine ⟨⟨?_, ?_⟩, ?_⟩
  · rcases h3 with h3 | h3
    · rw [← E] at h3; rw [h3] at pos; norm_num at pos
    · obtain ⟨e, he, e'⟩ := List.mem_map.1 h3
      obtain ⟨m, hm, q, hq, e2⟩ := (G e).1
      exact ⟨e, he, m, hm, q, hq, by rw [← e2, e', E]⟩
  · rintro x ⟨e, he, m, hm, q, hq, rfl⟩
    rw [E]
    exact ((G e).2 ⟨m, hm, q, hq, rfl⟩).trans (h2 _ (List.mem_map_of_mem he))
  · simp only [errorInf3d, Bool.false_eq_true, if_false, pos, if_true]

/-- It is zero exactly if the functions agree at all sample points. -/
theorem c76_infinity_zero {c N : ℕ} (hc : 0 < c) (hN : 0 < N) {cores : List (List Elt)} (h : cores.flatten ≠ []) :
    errorInf c N cores = 0 ↔ AgreeAt c N cores.flatten := by
  have G := (c76_infinity hc hN h).1
  constructor
  · intro H e he m hm q hq
    have := G.2 ⟨e, he, m, hm, q, hq, rfl⟩
    rw [H] at this
    exact sub_eq_zero.1 (abs_eq_zero.1 (le_antisymm this (abs_nonneg _)))
  · intro H
    obtain ⟨e, he, m, hm, q, hq, e'⟩ := G.1
    rw [e', H e he m hm q hq, sub_self, abs_zero]

/-- There is at least one sample point, and all lie inside the reference element. -/
theorem c76_samples (d : ℝ) : 1 ≤ sampleNum d ∧ (samplePoints (sampleNum d)).length = sampleNum d ∧
    ∀ x ∈ samplePoints (sampleNum d), -1 < x ∧ x < 1 := by
  have h1 : 1 ≤ sampleNum d := by
    have : ∀ d' : ℝ, 1 ≤ d' → 1 ≤ if Int.fract d' ≥ 1 / 2 then ⌊d'⌋₊ + 1 else ⌊d'⌋₊ := fun d' h => by
      have f1 : 1 ≤ ⌊d'⌋₊ := Nat.le_floor (by exact_mod_cast h)
      split
      · exact f1.trans (Nat.le_succ _)
      · exact f1
    exact this _ (by split <;> linarith)
  refine ⟨h1, by simp only [samplePoints, List.length_map, List.length_range], fun x hx => ?_⟩
  set k := sampleNum d
  obtain ⟨i, hi, rfl⟩ := List.mem_map.1 hx
  have hk : (0 : ℝ) < k := by exact_mod_cast h1
  have hi' : (i : ℝ) + 1 ≤ k := by exact_mod_cast List.mem_range.1 hi
  have hi0 : (0 : ℝ) ≤ i := Nat.cast_nonneg i
  dsimp only
  have e : (-1 + 2 * (i : ℝ) / k + (-1 + 2 * ((i + 1 : ℕ) : ℝ) / k)) / 2 = (2 * i + 1) / k - 1 := by
    push_cast; field_simp; ring
  rw [e]
  constructor
  · have : 0 < (2 * (i : ℝ) + 1) / k := by positivity
    linarith
  · have : (2 * (i : ℝ) + 1) / k < 2 := by rw [div_lt_iff₀ hk]; linarith
    linarith

/-! ## The H error -/

/-- `error.H`: at least both parts, at most their sum, and zero only if both are. -/
theorem c76_h_error {a b : ℝ} (ha : 0 ≤ a) (hb : 0 ≤ b) : ∃ x, hError (.val a) (.val b) = .val x ∧
    a ≤ x ∧ b ≤ x ∧ x ≤ a + b ∧ x ^ 2 = a ^ 2 + b ^ 2 ∧ (x = 0 ↔ a = 0 ∧ b = 0) := by
  have s : ((a ^ 2 + b ^ 2) ^ (1 / 2 : ℝ)) ^ 2 = a ^ 2 + b ^ 2 := by
    rw [← Real.rpow_natCast, ← Real.rpow_mul (by positivity)]; norm_num
  have nn : 0 ≤ (a ^ 2 + b ^ 2) ^ (1 / 2 : ℝ) := Real.rpow_nonneg (by positivity) _
  refine ⟨_, rfl, ?_, ?_, ?_, s, ?_⟩
  · exact le_of_sq_le_sq (by rw [s]; nlinarith) nn
  · exact le_of_sq_le_sq (by rw [s]; nlinarith) nn
  · exact le_of_sq_le_sq (by rw [s]; nlinarith [mul_nonneg ha hb]) (by positivity)
  · rw [← pow_eq_zero_iff (two_ne_zero), s]
    constructor
    · intro h
      have h1 := sq_nonneg a
      have h2 := sq_nonneg b
      exact ⟨pow_eq_zero_iff two_ne_zero |>.1 (by linarith), pow_eq_zero_iff two_ne_zero |>.1 (by linarith)⟩
    · rintro ⟨rfl, rfl⟩; norm_num

/-! ## Energies -/

theorem sumOpt_some (l : List ℝ) : sumOpt (l.map some) = some l.sum := by
  induction l with
  | nil => rfl
  | cons a l ih => rw [List.map_cons, sumOpt, ih]; rfl

theorem sumOpt_none {l : List (Option ℝ)} (h : none ∈ l) : sumOpt l = none := by
  induction l with
  | nil => exact absurd h List.not_mem_nil
  | cons a l ih =>
    cases a with
    | none => rfl
    | some x =>
      rw [sumOpt, ih ((List.mem_cons.1 h).resolve_left (by simp))]
      rfl

/-- The bilinear form. -/
def bilinVal (a : List ℝ) (M : Mat) (b : List ℝ) : ℝ :=
  ∑ i ∈ range M.rows, ∑ j ∈ range M.cols, a.getD i 0 * M.e i j * b.getD j 0

theorem bilin_eq {a : List ℝ} {M : Mat} {b : List ℝ} (ha : a.length = M.rows) (hb : b.length = M.cols) :
    bilin a M b = some (bilinVal a M b) := by
  rw [bilin, if_pos ⟨ha, hb⟩, Basis.range_map_sum]
  simp only [Basis.range_map_sum]
  rfl

/-- The flag of a core is right: elements of a homogeneous core have the same matrix. -/
def FlagsRight (cores : List (Bool × List PairElt)) : Prop :=
  ∀ c ∈ cores, c.1 = true → ∀ x ∈ c.2, ∀ y ∈ c.2, x.M = y.M

theorem coreEnergy_eq (swap hom : Bool) (es : List PairElt) (h : hom = true → ∀ x ∈ es, ∀ y ∈ es, x.M = y.M) :
    coreEnergy swap hom es =
      sumOpt (es.map fun x => if swap then bilin x.other x.M x.self else bilin x.self x.M x.other) := by
  cases es with
  | nil => rfl
  | cons e l =>
    simp only [coreEnergy]
    congr 1
    refine List.map_congr_left fun x hx => ?_
    cases hom with
    | false => simp only [Bool.false_eq_true, if_false]
    | true => simp only [if_true, h rfl e List.mem_cons_self x hx]

/-- `compute_L2_energy_with` in 2D: matrices have the rows of the other form and the columns of this form.  The energy is
the sum over all elements of the bilinear form, on any number of cores, whether or not cores are homogeneous. -/
theorem c76_energy_2d {cores : List (Bool × List PairElt)} (hf : FlagsRight cores)
    (hs : ∀ c ∈ cores, ∀ x ∈ c.2, x.other.length = x.M.rows ∧ x.self.length = x.M.cols) :
    energyWith true cores = some (((cores.map Prod.snd).flatten.map fun x => bilinVal x.other x.M x.self).sum) := by
  have : cores.map (fun c => coreEnergy true c.1 c.2)
      = (cores.map fun c => (c.2.map fun x => bilinVal x.other x.M x.self).sum).map some := by
    rw [List.map_map]
    refine List.map_congr_left fun c hc => ?_
    rw [coreEnergy_eq _ _ _ (hf c hc), Function.comp, ← sumOpt_some, List.map_map]
    congr 1
    refine List.map_congr_left fun x hx => ?_
    rw [if_pos rfl, bilin_eq (hs c hc x hx).1 (hs c hc x hx).2]
    rfl
  rw [energyWith, this, sumOpt_some]
  congr 1
  clear this hf hs
  induction cores with
  | nil => rfl
  | cons a l ih => simp only [List.map_cons, List.sum_cons, List.flatten_cons, List.map_append, List.sum_append, ih]

/-- In 3D the two forms are swapped, but not the matrix.  For two forms in the same space this is right … -/
theorem c76_energy_3d_partial {cores : List (Bool × List PairElt)} (hf : FlagsRight cores)
    (hs : ∀ c ∈ cores, ∀ x ∈ c.2, x.other.length = x.M.rows ∧ x.self.length = x.M.cols)
    (hq : ∀ c ∈ cores, ∀ x ∈ c.2, x.M.rows = x.M.cols) (sym : ∀ c ∈ cores, ∀ x ∈ c.2, ∀ i j, x.M.e i j = x.M.e j i) :
    energyWith false cores = energyWith true cores := by
  unfold energyWith
  congr 1
  refine List.map_congr_left fun c hc => ?_
  rw [coreEnergy_eq _ _ _ (hf c hc), coreEnergy_eq _ _ _ (hf c hc)]
  congr 1
  refine List.map_congr_left fun x hx => ?_
  obtain ⟨h1, h2⟩ := hs c hc x hx
  have h3 := hq c hc x hx
  rw [if_pos rfl, if_neg (by decide), bilin_eq (by omega) (by omega), bilin_eq h1 h2]
  congr 1
  unfold bilinVal
  rw [sum_comm, h3]
  refine sum_congr rfl fun i _ => sum_congr rfl fun j _ => ?_
  rw [sym c hc x hx]
  ring

/-- … but for forms with different numbers of dofs it raises. -/
theorem c76_energy_3d_raises {cores : List (Bool × List PairElt)} (hf : FlagsRight cores)
    (hs : ∀ c ∈ cores, ∀ x ∈ c.2, x.other.length = x.M.rows ∧ x.self.length = x.M.cols)
    (hd : ∃ c ∈ cores, ∃ x ∈ c.2, x.self.length ≠ x.other.length) :
    energyWith false cores = none ∧ ∃ v, energyWith true cores = some v := by
  refine ⟨?_, _, c76_energy_2d hf hs⟩
  obtain ⟨c, hc, x, hx, hne⟩ := hd
  refine sumOpt_none (List.mem_map.2 ⟨c, hc, ?_⟩)
  rw [coreEnergy_eq _ _ _ (hf c hc)]
  refine sumOpt_none (List.mem_map.2 ⟨x, hx, ?_⟩)
  obtain ⟨h1, h2⟩ := hs c hc x hx
  rw [if_neg (by decide), bilin, if_neg (by omega)]

/-- The matrix between a 0-form with nodes -1, 1 (rows) and one with nodes 0, 1 (columns), one quadrature point: the
bases have the same size, but the matrix is not symmetric.  `self @ M @ other` is not the integral of the product. -/
theorem c76_energy_3d_wrong : ∃ (O S : ℕ → ℝ) (a b : List ℝ),
    let M : Mat := ⟨2, 2, fun i j => O i * S j⟩
    a.length = 2 ∧ b.length = 2 ∧
    energyWith false [(true, [⟨M, b, a⟩])]
      ≠ some ((∑ i ∈ range 2, a.getD i 0 * O i) * (∑ j ∈ range 2, b.getD j 0 * S j)) ∧
    energyWith true [(true, [⟨M, b, a⟩])]
      = some ((∑ i ∈ range 2, a.getD i 0 * O i) * (∑ j ∈ range 2, b.getD j 0 * S j)) := by
  refine ⟨fun i => if i = 0 then 1 else 0, fun j => if j = 0 then 0 else 1, [1, 0], [0, 1], rfl, rfl, ?_, ?_⟩
  · simp [energyWith, coreEnergy, bilin, sumOpt, List.range_succ, Finset.sum_range_succ]
  · simp [energyWith, coreEnergy, bilin, sumOpt, List.range_succ, Finset.sum_range_succ]

/-! ### With the mass matrices of C56 -/

/-- A 2D element with two inner 1-forms: nodes `ox oy` of the other form, `nx ny` of this form. -/
structure Geo2 where
  A : ℕ → Metric.M2 ℝ
  delta : Fin 2 → ℝ
  orth : Bool
  self : List ℝ
  other : List ℝ

/-- The matrix that `inner` provides for it. -/
noncomputable def Geo2.pair (q : ℕ → ℝ) (same : Bool) (ox oy nx ny xs ys : List ℝ) (g : Geo2) : PairElt :=
  ⟨⟨Mifem.Two.nbI1 (ox.length - 1) (oy.length - 1), Mifem.Two.nbI1 (nx.length - 1) (ny.length - 1),
    Metric.Two.innerInner1 g.orth same (fun m => Metric.Two.jacobianMatrix g.orth (g.A m) g.delta) q
      (Metric.Two.basisInner1 ox oy xs ys) (Metric.Two.basisInner1 nx ny xs ys)⟩, g.self, g.other⟩

/-- 2D, inner 1-forms in any two spaces: the energy is the quadrature of the dot product of the two vector fields that
the forms represent. -/
theorem c76_energy_2d_integral (q : ℕ → ℝ) (same : Bool) {ox oy nx ny : List ℝ} (xs ys : List ℝ) (hox : ox ≠ [])
    (hoy : oy ≠ []) (hx : nx ≠ []) (hy : ny ≠ []) (hs : same = true → ox = nx ∧ oy = ny)
    (cores : List (Bool × List Geo2))
    (hf : FlagsRight (cores.map fun c => (c.1, c.2.map (Geo2.pair q same ox oy nx ny xs ys))))
    (ho : ∀ c ∈ cores, ∀ g ∈ c.2, g.other.length = Mifem.Two.nbI1 (ox.length - 1) (oy.length - 1))
    (hn : ∀ c ∈ cores, ∀ g ∈ c.2, g.self.length = Mifem.Two.nbI1 (nx.length - 1) (ny.length - 1)) :
    energyWith true (cores.map fun c => (c.1, c.2.map (Geo2.pair q same ox oy nx ny xs ys)))
      = some (((cores.map Prod.snd).flatten.map fun g =>
          quad2 (ys.length * xs.length) q (fun m => Metric.Two.jacobianMatrix g.orth (g.A m) g.delta) fun m =>
            dotProduct
              (Metric.Two.reconstructInner1 g.orth (fun m => Metric.Two.jacobianMatrix g.orth (g.A m) g.delta)
                ox oy xs ys (fun i => g.other.getD i 0) m)
              (Metric.Two.reconstructInner1 g.orth (fun m => Metric.Two.jacobianMatrix g.orth (g.A m) g.delta)
                nx ny xs ys (fun i => g.self.getD i 0) m)).sum) := by
  rw [c76_energy_2d hf]
  · rw [List.map_map]
    have : (cores.map (Prod.snd ∘ fun c : Bool × List Geo2 => (c.1, c.2.map (Geo2.pair q same ox oy nx ny xs ys)))).flatten
        = (cores.map Prod.snd).flatten.map (Geo2.pair q same ox oy nx ny xs ys) := by
      rw [List.map_flatten, List.map_map]; rfl
    rw [this, List.map_map]
    congr 2
    refine List.map_congr_left fun g _ => ?_
    rw [← c56_inner_1form_2d g.orth same g.A g.delta q ox oy nx ny xs ys hox hoy hx hy hs]
    rfl
  · rintro _ hc _ hx
    obtain ⟨c, hc', rfl⟩ := List.mem_map.1 hc
    obtain ⟨g, hg, rfl⟩ := List.mem_map.1 hx
    exact ⟨ho c hc' g hg, hn c hc' g hg⟩

/-- A 3D element with two 2-forms in the same space. -/
structure Geo3 where
  A : ℕ → Metric.M3 ℝ
  delta : Fin 3 → ℝ
  orth : Bool
  self : List ℝ
  other : List ℝ

@[inherit_doc Geo2.pair] noncomputable def Geo3.pair (q : ℕ → ℝ) (same : Bool) (nx ny nz xs ys zs : List ℝ) (g : Geo3) : PairElt :=
  ⟨⟨Mifem.Three.nb2 (nx.length - 1) (ny.length - 1) (nz.length - 1),
    Mifem.Three.nb2 (nx.length - 1) (ny.length - 1) (nz.length - 1),
    Metric.Three.inner2 g.orth same (fun m => Metric.Three.jacobianMatrix g.orth (g.A m) g.delta) q
      (Metric.Three.basis2 nx ny nz xs ys zs) (Metric.Three.basis2 nx ny nz xs ys zs)⟩, g.self, g.other⟩

/-- 3D, 2-forms in the same space: the energy is the quadrature of the dot product of the vector fields. -/
theorem c76_energy_3d_integral (q : ℕ → ℝ) (same : Bool) {nx ny nz : List ℝ} (xs ys zs : List ℝ)
    (hx : nx ≠ []) (hy : ny ≠ []) (hz : nz ≠ []) (cores : List (Bool × List Geo3))
    (hf : FlagsRight (cores.map fun c => (c.1, c.2.map (Geo3.pair q same nx ny nz xs ys zs))))
    (ho : ∀ c ∈ cores, ∀ g ∈ c.2, g.other.length = Mifem.Three.nb2 (nx.length - 1) (ny.length - 1) (nz.length - 1))
    (hn : ∀ c ∈ cores, ∀ g ∈ c.2, g.self.length = Mifem.Three.nb2 (nx.length - 1) (ny.length - 1) (nz.length - 1)) :
    energyWith false (cores.map fun c => (c.1, c.2.map (Geo3.pair q same nx ny nz xs ys zs)))
      = some (((cores.map Prod.snd).flatten.map fun g =>
          quad3 (zs.length * ys.length * xs.length) q
            (fun m => Metric.Three.jacobianMatrix g.orth (g.A m) g.delta) fun m =>
            dotProduct
              (Metric.Three.reconstruct2 g.orth (fun m => Metric.Three.jacobianMatrix g.orth (g.A m) g.delta)
                nx ny nz xs ys zs (fun i => g.self.getD i 0) m)
              (Metric.Three.reconstruct2 g.orth (fun m => Metric.Three.jacobianMatrix g.orth (g.A m) g.delta)
                nx ny nz xs ys zs (fun i => g.other.getD i 0) m)).sum) := by
  have hw : energyWith false (cores.map fun c => (c.1, c.2.map (Geo3.pair q same nx ny nz xs ys zs)))
      = energyWith true (cores.map fun c => (c.1, (c.2.map (Geo3.pair q same nx ny nz xs ys zs)).map
          fun x : PairElt => ⟨x.M, x.other, x.self⟩)) := by
    unfold energyWith
    rw [List.map_map, List.map_map]
    congr 1
    refine List.map_congr_left fun c hc => ?_
    have h1 := hf _ (List.mem_map_of_mem hc)
    simp only [Function.comp]
    rw [coreEnergy_eq _ _ _ h1, coreEnergy_eq]
    · rw [List.map_map (l := c.2.map _)]
      rfl
    · intro hh x hx y hy
      obtain ⟨x, hx', rfl⟩ := List.mem_map.1 hx
      obtain ⟨y, hy', rfl⟩ := List.mem_map.1 hy
      exact h1 hh x hx' y hy'
  rw [hw, c76_energy_2d]
  · rw [List.map_map]
    have : (cores.map (Prod.snd ∘ fun c : Bool × List Geo3 => (c.1, (c.2.map (Geo3.pair q same nx ny nz xs ys zs)).map
          fun x : PairElt => (⟨x.M, x.other, x.self⟩ : PairElt)))).flatten
        = ((cores.map Prod.snd).flatten.map (Geo3.pair q same nx ny nz xs ys zs)).map
          fun x : PairElt => (⟨x.M, x.other, x.self⟩ : PairElt) := by
      rw [List.map_flatten, List.map_map, List.map_flatten, List.map_map]; rfl
    rw [this, List.map_map, List.map_map]
    congr 2
    refine List.map_congr_left fun g _ => ?_
    rw [← c56_2form_3d g.orth same g.A g.delta q nx ny nz nx ny nz xs ys zs hx hy hz hx hy hz (fun _ => ⟨rfl, rfl, rfl⟩)]
    rfl
  · intro c hc hh x hx y hy
    obtain ⟨c, hc', rfl⟩ := List.mem_map.1 hc
    obtain ⟨x, hx', rfl⟩ := List.mem_map.1 hx
    obtain ⟨y, hy', rfl⟩ := List.mem_map.1 hy
    exact hf _ (List.mem_map_of_mem hc') hh x hx' y hy'
  · rintro _ hc _ hx
    obtain ⟨c, hc', rfl⟩ := List.mem_map.1 hc
    obtain ⟨x, hx', rfl⟩ := List.mem_map.1 hx
    obtain ⟨g, hg, rfl⟩ := List.mem_map.1 hx'
    exact ⟨hn c hc' g hg, ho c hc' g hg⟩

/-! ## Vectorized reconstruction -/

/-- The vectorized values of a homogeneous core are those of each element if the elements have the same Jacobian. -/
theorem vectorized_eq {α : Type} (hom : Bool) (X : ℕ → α) (hh : hom = true → ∀ k, X k = X 0) (k : ℕ) :
    vectorized hom X k = X k := by
  cases hom with
  | false => rfl
  | true => exact (hh rfl k).symm

/-- The vectorized reconstruction of inner 1-forms equals the reconstruction element by element. -/
theorem c76_vectorized_inner1 (hom allOrth : Bool) (A : ℕ → ℕ → Metric.M2 ℝ) (delta : ℕ → Fin 2 → ℝ) (orth : ℕ → Bool)
    (nx ny xs ys : List ℝ) (hx : nx ≠ []) (hy : ny ≠ []) (C : ℕ → ℕ → ℝ)
    (hh : hom = true → ∀ k, (fun m => Metric.Two.jacobianMatrix (orth k) (A k m) (delta k))
      = fun m => Metric.Two.jacobianMatrix (orth 0) (A 0 m) (delta 0))
    (ho : allOrth = true → ∀ k, orth k = true) (k m : ℕ) :
    let J := fun k m => Metric.Two.jacobianMatrix (orth k) (A k m) (delta k)
    let r := vecInner1 hom allOrth (fun k m => Metric.Two.inverse (J k m)) (Basis.Two.basisDxi nx ny xs ys)
      (Basis.Two.basisDet nx ny xs ys) C k m
    ![r.1, r.2] = Metric.Two.reconstructInner1 (orth k) (J k) nx ny xs ys (C k) m := by
  intro J r
  have hv : vectorized hom (fun k m => Metric.Two.inverse (J k m)) k = fun m => Metric.Two.inverse (J k m) :=
    vectorized_eq _ _ (fun h k => by funext m; exact congrArg _ (congrFun (hh h k) m)) k
  have hd := Metric.two_diag_inv (Metric.two_diag_jac (orth k) (A k m) (delta k))
  have hu : einsumKJ (Basis.Two.basisDxi nx ny xs ys) C k m = (Basis.Two.reconInner1 nx ny xs ys (C k) m).1 := by
    rw [reconI_eq hx hy]; rfl
  have hw : einsumKJ (Basis.Two.basisDet nx ny xs ys) (fun k i => C k ((Basis.Two.basisDxi nx ny xs ys).rows + i)) k m
      = (Basis.Two.reconInner1 nx ny xs ys (C k) m).2 := by
    rw [reconI_eq hx hy]; rfl
  have hr : r = if allOrth then ((Basis.Two.reconInner1 nx ny xs ys (C k) m).1 * Metric.Two.inverse (J k m) 0 0,
        (Basis.Two.reconInner1 nx ny xs ys (C k) m).2 * Metric.Two.inverse (J k m) 1 1)
      else ((Basis.Two.reconInner1 nx ny xs ys (C k) m).1 * Metric.Two.inverse (J k m) 0 0
          + (Basis.Two.reconInner1 nx ny xs ys (C k) m).2 * Metric.Two.inverse (J k m) 1 0,
        (Basis.Two.reconInner1 nx ny xs ys (C k) m).1 * Metric.Two.inverse (J k m) 0 1
          + (Basis.Two.reconInner1 nx ny xs ys (C k) m).2 * Metric.Two.inverse (J k m) 1 1) := by
    simp only [r, vecInner1, hu, hw, hv]
  funext x
  rw [hr, Metric.Two.reconstructInner1]
  cases allOrth with
  | true => rw [ho rfl k]; fin_cases x <;> rfl
  | false => rw [Metric.valueInner_eq hd]; fin_cases x <;> rfl

@[inherit_doc c76_vectorized_inner1]
theorem c76_vectorized_outer1 (hom allOrth : Bool) (A : ℕ → ℕ → Metric.M2 ℝ) (delta : ℕ → Fin 2 → ℝ) (orth : ℕ → Bool)
    (nx ny xs ys : List ℝ) (hx : nx ≠ []) (hy : ny ≠ []) (C : ℕ → ℕ → ℝ)
    (hh : hom = true → ∀ k, (fun m => Metric.Two.jacobianMatrix (orth k) (A k m) (delta k))
      = fun m => Metric.Two.jacobianMatrix (orth 0) (A 0 m) (delta 0))
    (ho : allOrth = true → ∀ k, orth k = true) (k m : ℕ) :
    let J := fun k m => Metric.Two.jacobianMatrix (orth k) (A k m) (delta k)
    let r := vecOuter1 hom allOrth (fun k m => Metric.Two.inverse (J k m)) (Basis.Two.basisDet nx ny xs ys)
      (Basis.Two.basisDxi nx ny xs ys) C k m
    ![r.1, r.2] = Metric.Two.reconstructOuter1 (orth k) (J k) nx ny xs ys (C k) m := by
  intro J r
  have hv : vectorized hom (fun k m => Metric.Two.inverse (J k m)) k = fun m => Metric.Two.inverse (J k m) :=
    vectorized_eq _ _ (fun h k => by funext m; exact congrArg _ (congrFun (hh h k) m)) k
  have hd := Metric.two_diag_inv (Metric.two_diag_jac (orth k) (A k m) (delta k))
  have hu : einsumKJ (Basis.Two.basisDet nx ny xs ys) C k m = (Basis.Two.reconOuter1 nx ny xs ys (C k) m).1 := by
    rw [reconO_eq hx hy]; rfl
  have hw : einsumKJ (Basis.Two.basisDxi nx ny xs ys) (fun k i => C k ((Basis.Two.basisDet nx ny xs ys).rows + i)) k m
      = (Basis.Two.reconOuter1 nx ny xs ys (C k) m).2 := by
    rw [reconO_eq hx hy]; rfl
  have hr : r = if allOrth then ((Basis.Two.reconOuter1 nx ny xs ys (C k) m).1 * Metric.Two.inverse (J k m) 1 1,
        (Basis.Two.reconOuter1 nx ny xs ys (C k) m).2 * Metric.Two.inverse (J k m) 0 0)
      else ((Basis.Two.reconOuter1 nx ny xs ys (C k) m).1 * Metric.Two.inverse (J k m) 1 1
          - (Basis.Two.reconOuter1 nx ny xs ys (C k) m).2 * Metric.Two.inverse (J k m) 0 1,
        -((Basis.Two.reconOuter1 nx ny xs ys (C k) m).1 * Metric.Two.inverse (J k m) 1 0)
          + (Basis.Two.reconOuter1 nx ny xs ys (C k) m).2 * Metric.Two.inverse (J k m) 0 0) := by
    simp only [r, vecOuter1, hu, hw, hv]
  funext x
  rw [hr, Metric.Two.reconstructOuter1]
  cases allOrth with
  | true => rw [ho rfl k]; fin_cases x <;> rfl
  | false => rw [Metric.valueOuter_eq hd]; fin_cases x <;> simp [Metric.Two.valueOuter1, J]

/-- Forms of the highest degree in 2D. -/
theorem c76_vectorized_top (hom : Bool) (J : ℕ → ℕ → Metric.M2 ℝ) (nx ny xs ys : List ℝ) (C : ℕ → ℕ → ℝ)
    (hh : hom = true → ∀ k, J k = J 0) (k m : ℕ) :
    vecTop hom (fun k m => Metric.Two.inverseJacobian (Metric.Two.inverse (J k m))) (Basis.Two.basis2 nx ny xs ys) C k m
      = Metric.Two.reconstruct2 (J k) nx ny xs ys (C k) m := by
  rw [vecTop, vectorized_eq _ _ (fun h k => by rw [hh h k])]
  simp only [Metric.Two.reconstruct2, Metric.Two.value2]
  congr 1
  exact List.map_congr_left fun i _ => by ring

/-! ## Statistics of the metric marks -/

section
variable {α : Type} [DecidableEq α]

theorem bump_sum (a : α) (l : List (α × ℕ)) :
    ((bump a l).map fun p => (p.2 : ℤ) - 1).sum = (l.map fun p => (p.2 : ℤ) - 1).sum + 1 := by
  induction l with
  | nil => simp [bump]
  | cons p l ih =>
    obtain ⟨b, n⟩ := p
    simp only [bump]
    split
    · simp only [List.map_cons, List.sum_cons]; push_cast; ring
    · simp only [List.map_cons, List.sum_cons, ih]; ring

theorem parse_spec (marks : List α) : (parse marks).counter.Nodup ∧ (∀ a, a ∈ (parse marks).counter ↔ a ∈ marks) ∧
    ((parse marks).mem.map fun p => (p.2 : ℤ) - 1).sum + (parse marks).counter.length = marks.length := by
  induction marks using List.reverseRecOn with
  | nil => exact ⟨List.nodup_nil, fun a => Iff.rfl, rfl⟩
  | append_singleton l a ih =>
    obtain ⟨h1, h2, h3⟩ := ih
    have e : parse (l ++ [a]) = if a ∈ (parse l).counter then { parse l with mem := bump a (parse l).mem }
        else { parse l with counter := (parse l).counter ++ [a] } := by
      unfold parse
      rw [List.foldl_append, List.foldl_cons, List.foldl_nil]
    rw [e]
    split
    · rename_i ha
      refine ⟨h1, fun b => ?_, ?_⟩
      · dsimp only
        rw [h2 b, List.mem_append, List.mem_singleton]
        constructor
        · exact Or.inl
        · rintro (h | rfl)
          · exact h
          · exact (h2 _).1 ha
      · dsimp only
        rw [bump_sum, List.length_append, List.length_singleton]
        push_cast
        linarith
    · rename_i ha
      refine ⟨?_, fun b => ?_, ?_⟩
      · exact List.nodup_append.2 ⟨h1, List.nodup_singleton a, fun x hx y hy e => ha (by
          rw [← List.mem_singleton.1 hy, ← e]; exact hx)⟩
      · dsimp only
        rw [List.mem_append, List.mem_append, h2 b]
      · dsimp only
        rw [List.length_append, List.length_append, List.length_singleton]
        push_cast
        linarith

/-- The 'amount of types wrt metric' is the number of different marks. -/
theorem c76_amount (marks : List α) : amount marks = (marks.toFinset.card : ℤ) := by
  obtain ⟨h1, h2, h3⟩ := parse_spec marks
  have : marks.toFinset = (parse marks).counter.toFinset := by ext a; rw [List.mem_toFinset, List.mem_toFinset, h2]
  rw [this, List.toFinset_card_of_nodup h1, amount]
  linarith

/-- A core is reported homogeneous exactly if all its elements have the same mark: the flag used by the vectorized
reconstruction and by the energies. -/
theorem c76_homogeneous (marks : List α) : homogeneous marks = true ↔ ∀ a ∈ marks, ∀ b ∈ marks, a = b := by
  unfold homogeneous
  split
  · rename_i h
    refine ⟨fun _ a ha b hb => ?_, fun _ => rfl⟩
    match marks, h with
    | [], _ => exact absurd ha List.not_mem_nil
    | [x], _ => rw [List.mem_singleton.1 ha, List.mem_singleton.1 hb]
  · rename_i h
    have h2 : (1 : ℚ) < marks.length := by exact_mod_cast not_le.1 h
    rw [decide_eq_true_iff, similarity, c76_amount, div_eq_one_iff_eq (by linarith)]
    have : ((marks.length : ℚ) - ((marks.toFinset.card : ℤ) : ℚ) = marks.length - 1) ↔ marks.toFinset.card = 1 := by
      push_cast
      constructor
      · intro e; exact_mod_cast (by linarith : (marks.toFinset.card : ℚ) = 1)
      · intro e; rw [e]; norm_num
    rw [this]
    constructor
    · intro e a ha b hb
      exact card_le_one.1 e.le a (List.mem_toFinset.2 ha) b (List.mem_toFinset.2 hb)
    · intro H
      refine le_antisymm (card_le_one.2 fun a ha b hb => H a (List.mem_toFinset.1 ha) b (List.mem_toFinset.1 hb)) ?_
      refine Nat.succ_le_of_lt (card_pos.2 ?_)
      obtain ⟨x, hx⟩ := List.exists_mem_of_ne_nil marks (by rintro rfl; simp at h)
      exact ⟨x, List.mem_toFinset.2 hx⟩

end

/-! ## Examples -/

/-- Two cores, three elements, two components, two points with different weights. -/
def normCores : List (List Elt) :=
  [[⟨fun m q => m + q, fun _ _ => 1, fun _ => 2⟩, pairElt 1 2], [], [pairElt (-3) 4]]

theorem normCores_positive : Positive 2 (fun q => (q : ℝ) + 1) normCores.flatten := by
  refine ⟨fun q _ => by positivity, fun e he q _ => ?_⟩
  simp only [normCores, List.flatten_cons, List.flatten_nil, List.append_nil, List.nil_append, List.cons_append,
    List.mem_cons, List.not_mem_nil, or_false] at he
  rcases he with rfl | rfl | rfl
  · exact two_pos
  · exact one_pos
  · exact one_pos

example : ∃ x, errorL2d 2 2 2 (fun q => (q : ℝ) + 1) false normCores = .val x ∧ 0 < x := by
  refine ⟨_, (c76_even (by decide) (by decide) normCores_positive).1, ?_⟩
  obtain ⟨h1, h2⟩ := c76_definite (n := 2) (c := 2) (by decide) normCores_positive
  refine lt_of_le_of_ne h1 fun e => ?_
  have := h2.1 e.symm (pairElt 1 2) (by simp [normCores]) 0 two_pos 0 two_pos
  simp [pairElt] at this

example : powInt 2 2 2 (fun q => (q : ℝ) + 1) normCores.flatten = 106 := by
  rw [powInt_list]
  simp [normCores, pairElt, Finset.sum_range_succ]
  norm_num

example : normCores.flatten ≠ [] := by simp [normCores]

example : errorInf 2 2 normCores = 4 := by
  refine IsGreatest.unique (c76_infinity two_pos two_pos (by simp [normCores])).1 ⟨?_, ?_⟩
  · exact ⟨pairElt (-3) 4, by simp [normCores], 0, two_pos, 1, by decide, by simp [pairElt]⟩
  · rintro x ⟨e, he, m, hm, q, hq, rfl⟩
    simp only [normCores, List.flatten_cons, List.flatten_nil, List.append_nil, List.nil_append, List.cons_append,
      List.mem_cons, List.not_mem_nil, or_false] at he
    have hm' : m = 0 ∨ m = 1 := by omega
    have hq' : q = 0 ∨ q = 1 := by omega
    rcases he with rfl | rfl | rfl <;> rcases hm' with rfl | rfl <;> rcases hq' with rfl | rfl <;>
      norm_num [pairElt]

/-- Three forms for the distance. -/
example : (∀ e ∈ ([[⟨fun m q => m + q, fun _ _ => 1, fun m _ => m, fun q => q + 1⟩], []] : List (List Elt3)).flatten,
    ∀ q < 3, 0 < e.detJ q) := by
  intro e he q _
  simp only [List.flatten_cons, List.flatten_nil, List.append_nil, List.mem_singleton] at he
  subst he
  positivity

/-- Two cores, one homogeneous with equal matrices, one not. -/
example : FlagsRight [(true, [⟨⟨1, 1, fun _ _ => 2⟩, [1], [3]⟩, ⟨⟨1, 1, fun _ _ => 2⟩, [5], [1]⟩]),
    (false, [⟨⟨1, 1, fun _ _ => 2⟩, [1], [3]⟩, ⟨⟨1, 1, fun _ _ => 4⟩, [5], [1]⟩])] := by
  intro c hc ht x hx y hy
  simp only [List.mem_cons, List.not_mem_nil, or_false] at hc
  rcases hc with rfl | rfl
  · simp only [List.mem_cons, List.not_mem_nil, or_false] at hx hy
    rcases hx with rfl | rfl <;> rcases hy with rfl | rfl <;> rfl
  · simp at ht

example : homogeneous ["a", "a", "a"] = true ∧ homogeneous ["a", "b", "a"] = false ∧ amount ["a", "b", "a", "c", "b"] = 3 := by
  decide +kernel

end Mifem.Props
