import Mathlib.Tactic.Linarith
import Mathlib.Tactic.FinCases
import Mathlib.Analysis.SpecialFunctions.Complex.Arg
import Mathlib.Topology.Order.IntermediateValue
import Verif.Props.Region
import Verif.Model.Plates

/-!
# C106: two-dimensional domains with a circular hole
-/

namespace Mifem.Props.Plate106
open Mifem.Region Mifem.Plates

/-- The points of an edge. -/
def trace (e : Edge ℝ) : Set (ℝ × ℝ) := {P | ∃ o, 0 ≤ o ∧ o ≤ 1 ∧ P = (e.X o, e.Y o)}

/-- The points of a boundary of the domain. -/
def curve {ν : Type} (d : Input ν) (b : String) : Set (ℝ × ℝ) := {P | ∃ x ∈ d.boundary b, P ∈ trace (d.edge x)}

/-- The circle with centre `(0, 0)`. -/
def circle (R : ℝ) : Set (ℝ × ℝ) := {P | P.1 ^ 2 + P.2 ^ 2 = R ^ 2}

/-- A segment parallel to the first axis. -/
def segX (a b y : ℝ) : Set (ℝ × ℝ) := {P | min a b ≤ P.1 ∧ P.1 ≤ max a b ∧ P.2 = y}

/-- A segment parallel to the second axis. -/
def segY (x a b : ℝ) : Set (ℝ × ℝ) := {P | P.1 = x ∧ min a b ≤ P.2 ∧ P.2 ≤ max a b}

/-! ## Straight edges -/

theorem affine_mem {a b t : ℝ} : (∃ o : ℝ, 0 ≤ o ∧ o ≤ 1 ∧ t = a + o * (b - a)) ↔ min a b ≤ t ∧ t ≤ max a b := by
  constructor
  · rintro ⟨o, h0, h1, rfl⟩
    rcases le_total a b with h | h
    · rw [min_eq_left h, max_eq_right h]; constructor <;> nlinarith
    · rw [min_eq_right h, max_eq_left h]; constructor <;> nlinarith
  · rintro ⟨h0, h1⟩
    by_cases e : a = b
    · subst e
      simp at h0 h1
      exact ⟨0, le_rfl, zero_le_one, by linarith⟩
    · have hn : b - a ≠ 0 := sub_ne_zero.2 (Ne.symm e)
      refine ⟨(t - a) / (b - a), ?_, ?_, by field_simp; ring⟩
      · rcases le_total a b with h | h
        · rw [min_eq_left h] at h0; exact div_nonneg (by linarith) (by linarith)
        · rw [max_eq_left h] at h1; exact div_nonneg_of_nonpos (by linarith) (by linarith)
      · rcases lt_or_gt_of_ne e with h | h
        · rw [max_eq_right h.le] at h1; rw [div_le_one (by linarith)]; linarith
        · rw [min_eq_right h.le] at h0; rw [div_le_one_of_neg (by linarith)]; linarith

theorem trace_segX (a b y : ℝ) : trace (straight (a, y) (b, y)) = segX a b y := by
  ext P
  simp only [trace, segX, straight, Set.mem_setOf_eq, sub_self, mul_zero, add_zero]
  rw [← and_assoc, ← affine_mem]
  constructor
  · rintro ⟨o, h0, h1, rfl⟩; exact ⟨⟨o, h0, h1, rfl⟩, rfl⟩
  · rintro ⟨⟨o, h0, h1, e⟩, e'⟩; exact ⟨o, h0, h1, Prod.ext e e'⟩

theorem trace_segY (x a b : ℝ) : trace (straight (x, a) (x, b)) = segY x a b := by
  ext P
  simp only [trace, segY, straight, Set.mem_setOf_eq, sub_self, mul_zero, add_zero]
  rw [← affine_mem]
  constructor
  · rintro ⟨o, h0, h1, rfl⟩; exact ⟨rfl, ⟨o, h0, h1, rfl⟩⟩
  · rintro ⟨e', ⟨o, h0, h1, e⟩⟩; exact ⟨o, h0, h1, Prod.ext e' e⟩

/-! ## Arcs -/

theorem trace_arc (R t0 t1 : ℝ) : trace (arc 0 0 R t0 t1) =
    {P | ∃ θ, min t0 t1 ≤ θ ∧ θ ≤ max t0 t1 ∧ P = (R * Real.cos θ, R * Real.sin θ)} := by
  ext P
  simp only [trace, arc, Set.mem_setOf_eq, zero_add]
  constructor
  · rintro ⟨o, h0, h1, rfl⟩
    have := (affine_mem (a := t0) (b := t1)).1 ⟨o, h0, h1, rfl⟩
    exact ⟨_, this.1, this.2, by rw [add_comm]⟩
  · rintro ⟨θ, h0, h1, rfl⟩
    obtain ⟨o, g0, g1, rfl⟩ := affine_mem.2 ⟨h0, h1⟩
    exact ⟨o, g0, g1, by rw [add_comm]⟩

theorem rad_eq {s x y : ℝ} (hs : 0 < s) (hx : x ^ 2 = s ^ 2) (hy : y ^ 2 = s ^ 2) : radius (x, y) (0, 0) = Real.sqrt 2 * s := by
  simp only [radius, sub_zero]
  rw [hx, hy, ← two_mul, Real.sqrt_mul (by norm_num), Real.sqrt_sq hs.le]

theorem cos_34 : Real.cos (3 * Real.pi / 4) = -(Real.sqrt 2 / 2) := by
  rw [show 3 * Real.pi / 4 = Real.pi - Real.pi / 4 by ring, Real.cos_pi_sub, Real.cos_pi_div_four]

theorem quot {s : ℝ} (hs : 0 < s) : s / (Real.sqrt 2 * s) = Real.sqrt 2 / 2 := by
  have h2 : Real.sqrt 2 * Real.sqrt 2 = 2 := Real.mul_self_sqrt (by norm_num)
  have : (0 : ℝ) < Real.sqrt 2 := by positivity
  field_simp
  nlinarith

theorem arccos_pos {s : ℝ} (hs : 0 < s) : Real.arccos (s / (Real.sqrt 2 * s)) = Real.pi / 4 := by
  rw [quot hs, ← Real.cos_pi_div_four, Real.arccos_cos] <;> linarith [Real.pi_pos]

theorem arccos_neg' {s : ℝ} (hs : 0 < s) : Real.arccos (-s / (Real.sqrt 2 * s)) = 3 * Real.pi / 4 := by
  rw [neg_div, quot hs, ← cos_34, Real.arccos_cos] <;> linarith [Real.pi_pos]

theorem angle_eq {s x y : ℝ} (hs : 0 < s) (hx : x ^ 2 = s ^ 2) (hy : y ^ 2 = s ^ 2) :
    angle (0, 0) (x, y) = if y < 0 then 2 * Real.pi - Real.arccos (x / (Real.sqrt 2 * s)) else Real.arccos (x / (Real.sqrt 2 * s)) := by
  have := rad_eq hs hx hy
  simp only [radius, sub_zero] at this
  simp only [angle, sub_zero, this, one_mul, zero_mul, add_zero]

theorem angle_pp {s : ℝ} (hs : 0 < s) : angle (0, 0) (s, s) = Real.pi / 4 := by
  rw [angle_eq hs rfl rfl, if_neg (by linarith), arccos_pos hs]
theorem angle_np {s : ℝ} (hs : 0 < s) : angle (0, 0) (-s, s) = 3 * Real.pi / 4 := by
  rw [angle_eq hs (by ring) rfl, if_neg (by linarith), arccos_neg' hs]
theorem angle_nn {s : ℝ} (hs : 0 < s) : angle (0, 0) (-s, -s) = 5 * Real.pi / 4 := by
  rw [angle_eq hs (by ring) (by ring), if_pos (by linarith), arccos_neg' hs]; ring
theorem angle_pn {s : ℝ} (hs : 0 < s) : angle (0, 0) (s, -s) = 7 * Real.pi / 4 := by
  rw [angle_eq hs rfl (by ring), if_pos (by linarith), arccos_pos hs]; ring

/-- The part of the circle between two polar angles. -/
def sector (R a b : ℝ) : Set (ℝ × ℝ) := {P | ∃ θ, a ≤ θ ∧ θ ≤ b ∧ P = (R * Real.cos θ, R * Real.sin θ)}

theorem tr_top {s : ℝ} (hs : 0 < s) : trace (acw (-s, s) (s, s) (0, 0)) = sector (Real.sqrt 2 * s) (Real.pi / 4) (3 * Real.pi / 4) := by
  have := Real.pi_pos
  rw [acw, acwEnd, angle_pp hs, angle_np hs, if_neg (by linarith), rad_eq hs (by ring) rfl, trace_arc,
    min_eq_right (by linarith), max_eq_left (by linarith)]
  rfl
theorem tr_left {s : ℝ} (hs : 0 < s) : trace (acw (-s, -s) (-s, s) (0, 0)) =
    sector (Real.sqrt 2 * s) (3 * Real.pi / 4) (5 * Real.pi / 4) := by
  have := Real.pi_pos
  rw [acw, acwEnd, angle_nn hs, angle_np hs, if_neg (by linarith), rad_eq hs (by ring) (by ring), trace_arc,
    min_eq_right (by linarith), max_eq_left (by linarith)]
  rfl
theorem tr_bottom {s : ℝ} (hs : 0 < s) : trace (acw (s, -s) (-s, -s) (0, 0)) =
    sector (Real.sqrt 2 * s) (5 * Real.pi / 4) (7 * Real.pi / 4) := by
  have := Real.pi_pos
  rw [acw, acwEnd, angle_pn hs, angle_nn hs, if_neg (by linarith), rad_eq hs (by ring) (by ring), trace_arc,
    min_eq_right (by linarith), max_eq_left (by linarith)]
  rfl
theorem tr_right {s : ℝ} (hs : 0 < s) : trace (acw (s, s) (s, -s) (0, 0)) =
    sector (Real.sqrt 2 * s) (7 * Real.pi / 4 - 2 * Real.pi) (Real.pi / 4) := by
  have := Real.pi_pos
  rw [acw, acwEnd, angle_pp hs, angle_pn hs, if_pos (by linarith), rad_eq hs (by ring) (by ring), trace_arc,
    min_eq_right (by linarith), max_eq_left (by linarith)]
  rfl
theorem tr_bottom' {s : ℝ} (hs : 0 < s) : trace (aacw (-s, -s) (s, -s) (0, 0)) =
    sector (Real.sqrt 2 * s) (5 * Real.pi / 4) (7 * Real.pi / 4) := by
  have := Real.pi_pos
  rw [aacw, aacwEnd, angle_pn hs, angle_nn hs, if_neg (by linarith), rad_eq hs (by ring) (by ring), trace_arc,
    min_eq_left (by linarith), max_eq_right (by linarith)]
  rfl
theorem tr_right' {s : ℝ} (hs : 0 < s) : trace (aacw (s, -s) (s, s) (0, 0)) =
    sector (Real.sqrt 2 * s) (7 * Real.pi / 4 - 2 * Real.pi) (Real.pi / 4) := by
  have := Real.pi_pos
  rw [aacw, aacwEnd, angle_pp hs, angle_pn hs, if_pos (by linarith), rad_eq hs (by ring) (by ring), trace_arc,
    min_eq_left (by linarith), max_eq_right (by linarith)]
  ext P
  constructor
  · rintro ⟨θ, h0, h1, rfl⟩
    exact ⟨θ - 2 * Real.pi, by linarith, by linarith, by rw [Real.cos_sub_two_pi, Real.sin_sub_two_pi]⟩
  · rintro ⟨θ, h0, h1, rfl⟩
    exact ⟨θ + 2 * Real.pi, by linarith, by linarith, by rw [Real.cos_add_two_pi, Real.sin_add_two_pi]⟩

theorem sector_sub (R a b : ℝ) : sector R a b ⊆ circle R := by
  rintro P ⟨θ, -, -, rfl⟩
  simp only [circle, Set.mem_setOf_eq]
  linear_combination R ^ 2 * Real.cos_sq_add_sin_sq θ

/-- Every point of a circle has a polar angle in `(-π, π]`. -/
theorem polar {R : ℝ} (hR : 0 < R) {P : ℝ × ℝ} (hP : P ∈ circle R) :
    ∃ θ, -Real.pi < θ ∧ θ ≤ Real.pi ∧ P = (R * Real.cos θ, R * Real.sin θ) := by
  have hn : ‖(⟨P.1, P.2⟩ : ℂ)‖ = R := by
    rw [← sq_eq_sq₀ (norm_nonneg _) hR.le, ← Complex.normSq_eq_norm_sq, Complex.normSq_mk]
    simp only [circle, Set.mem_setOf_eq] at hP
    linarith
  refine ⟨Complex.arg ⟨P.1, P.2⟩, Complex.neg_pi_lt_arg _, Complex.arg_le_pi _, ?_⟩
  have h1 := Complex.norm_mul_cos_arg ⟨P.1, P.2⟩
  have h2 := Complex.norm_mul_sin_arg ⟨P.1, P.2⟩
  rw [hn] at h1 h2
  rw [h1, h2]

theorem four {R : ℝ} (hR : 0 < R) : sector R (Real.pi / 4) (3 * Real.pi / 4) ∪ sector R (3 * Real.pi / 4) (5 * Real.pi / 4) ∪
    sector R (5 * Real.pi / 4) (7 * Real.pi / 4) ∪ sector R (7 * Real.pi / 4 - 2 * Real.pi) (Real.pi / 4) = circle R := by
  have := Real.pi_pos
  apply Set.Subset.antisymm
  · rintro P (((h | h) | h) | h) <;> exact sector_sub _ _ _ h
  · intro P hP
    obtain ⟨θ, h0, h1, rfl⟩ := polar hR hP
    have sh : (R * Real.cos θ, R * Real.sin θ) = (R * Real.cos (θ + 2 * Real.pi), R * Real.sin (θ + 2 * Real.pi)) := by
      rw [Real.cos_add_two_pi, Real.sin_add_two_pi]
    by_cases g1 : θ < -(3 * Real.pi / 4)
    · exact Or.inl (Or.inl (Or.inr ⟨θ + 2 * Real.pi, by linarith, by linarith, sh⟩))
    by_cases g2 : θ < -(Real.pi / 4)
    · exact Or.inl (Or.inr ⟨θ + 2 * Real.pi, by linarith, by linarith, sh⟩)
    by_cases g3 : θ ≤ Real.pi / 4
    · exact Or.inr ⟨θ, by linarith, g3, rfl⟩
    by_cases g4 : θ ≤ 3 * Real.pi / 4
    · exact Or.inl (Or.inl (Or.inl ⟨θ, by linarith, g4, rfl⟩))
    · exact Or.inl (Or.inl (Or.inr ⟨θ, by linarith, by linarith, rfl⟩))

theorem circle_inj {R S : ℝ} (hR : 0 < R) (hS : 0 < S) (h : circle R = circle S) : R = S := by
  have : ((R, 0) : ℝ × ℝ) ∈ circle S := by rw [← h]; simp [circle]
  simp only [circle, Set.mem_setOf_eq] at this
  nlinarith

/-! ## The cylinder in a channel -/

/-- **C106.** Cylinder in a channel: for all parameters the boundary `Internal` is the circle with radius `r`, the other
boundaries are the sides of the channel `[-h/2 - li, h/2 + lo] × [-h/2, h/2]`. -/
theorem c106_cylinder {h r li lo : ℝ} (hr : 0 < r) (hh : r < h / 2) (hi : 0 < li) (ho : 0 < lo) :
    ∃ d, cic h r li lo = some d ∧ curve d "Internal" = circle r ∧
      curve d "Upper" = segX (-h / 2 - li) (h / 2 + lo) (h / 2) ∧ curve d "Down" = segX (-h / 2 - li) (h / 2 + lo) (-h / 2) ∧
      curve d "Left" = segY (-h / 2 - li) (-h / 2) (h / 2) ∧ curve d "Right" = segY (h / 2 + lo) (-h / 2) (h / 2) := by
  have s2 : (0 : ℝ) < Real.sqrt 2 := by positivity
  have hs : 0 < r / Real.sqrt 2 := by positivity
  have hR : Real.sqrt 2 * (r / Real.sqrt 2) = r := by field_simp
  unfold cic
  rw [if_neg (by push Not; exact ⟨by linarith, hr, hr, hr, hh⟩)]
  refine ⟨_, rfl, ?_, ?_, ?_, ?_, ?_⟩
  · rw [← four hr]
    ext P
    have t1 := tr_top hs; have t2 := tr_left hs; have t3 := tr_bottom hs; have t4 := tr_right hs
    rw [hR] at t1 t2 t3 t4
    simp [curve, Input.boundary, Input.edge, Two.ofCorners, EdgeType.geometry, t1, t2, t3, t4, or_assoc]
  · ext P
    have e1 := trace_segX (-h / 2) (-h / 2 - li) (h / 2)
    have e2 := trace_segX (-h / 2) (h / 2) (h / 2)
    have e3 := trace_segX (h / 2) (h / 2 + lo) (h / 2)
    simp [curve, Input.boundary, Input.edge, Two.ofCorners, EdgeType.geometry, e1, e2, e3]
    simp only [segX, Set.mem_setOf_eq]
    rw [min_eq_right (by linarith), max_eq_left (by linarith), min_eq_left (by linarith), max_eq_right (by linarith),
      min_eq_left (by linarith), max_eq_right (by linarith), min_eq_left (by linarith), max_eq_right (by linarith)]
    constructor
    · rintro (h | h | h) <;> exact ⟨by linarith [h.1, h.2.1], by linarith [h.1, h.2.1], h.2.2⟩
    · rintro ⟨g0, g1, g2⟩
      by_cases k : P.1 ≤ -h / 2
      · exact Or.inl ⟨g0, k, g2⟩
      by_cases k' : P.1 ≤ h / 2
      · exact Or.inr (Or.inl ⟨by linarith, k', g2⟩)
      · exact Or.inr (Or.inr ⟨by linarith, g1, g2⟩)
  · ext P
    have e1 := trace_segX (-h / 2) (-h / 2 - li) (-h / 2)
    have e2 := trace_segX (h / 2) (-h / 2) (-h / 2)
    have e3 := trace_segX (h / 2) (h / 2 + lo) (-h / 2)
    simp [curve, Input.boundary, Input.edge, Two.ofCorners, EdgeType.geometry, e1, e2, e3]
    simp only [segX, Set.mem_setOf_eq]
    rw [min_eq_right (by linarith), max_eq_left (by linarith), min_eq_right (by linarith), max_eq_left (by linarith),
      min_eq_left (by linarith), max_eq_right (by linarith), min_eq_left (by linarith), max_eq_right (by linarith)]
    constructor
    · rintro (h | h | h) <;> exact ⟨by linarith [h.1, h.2.1], by linarith [h.1, h.2.1], h.2.2⟩
    · rintro ⟨g0, g1, g2⟩
      by_cases k : P.1 ≤ -h / 2
      · exact Or.inl ⟨g0, k, g2⟩
      by_cases k' : P.1 ≤ h / 2
      · exact Or.inr (Or.inl ⟨by linarith, k', g2⟩)
      · exact Or.inr (Or.inr ⟨by linarith, g1, g2⟩)
  · ext P
    simp [curve, Input.boundary, Input.edge, Two.ofCorners, EdgeType.geometry, trace_segY]
  · ext P
    have e := trace_segY (h / 2 + lo) (h / 2) (-h / 2)
    simp [curve, Input.boundary, Input.edge, Two.ofCorners, EdgeType.geometry, e]
    simp only [segY, Set.mem_setOf_eq, min_comm, max_comm]

/-- A channel meeting the hypotheses: the default one. -/
example : ∃ d, cic 1.5 0.5 0.75 2.25 = some d ∧ curve d "Internal" = circle 0.5 := by
  obtain ⟨d, h, h', -⟩ := c106_cylinder (h := 1.5) (r := 0.5) (li := 0.75) (lo := 2.25) (by norm_num) (by norm_num) (by norm_num)
    (by norm_num)
  exact ⟨d, h, h'⟩

/-! ## The plates with a hole -/

/-- The four outer boundaries are the sides of the plate `[-hx/2, hx/2] × [-hy/2, hy/2]`, where `Upper` is at the larger second
coordinate. -/
def PlateXY {ν : Type} (d : Input ν) (hx hy : ℝ) : Prop :=
  curve d "Upper" = segX (-hx / 2) (hx / 2) (hy / 2) ∧ curve d "Down" = segX (-hx / 2) (hx / 2) (-hy / 2) ∧
  curve d "Left" = segY (-hx / 2) (-hy / 2) (hy / 2) ∧ curve d "Right" = segY (hx / 2) (-hy / 2) (hy / 2)

/-- The same, where `Upper` is at the smaller first coordinate. -/
def PlateUD {ν : Type} (d : Input ν) (hx hy : ℝ) : Prop :=
  curve d "Upper" = segY (-hx / 2) (-hy / 2) (hy / 2) ∧ curve d "Down" = segY (hx / 2) (-hy / 2) (hy / 2) ∧
  curve d "Left" = segX (-hx / 2) (hx / 2) (-hy / 2) ∧ curve d "Right" = segX (-hx / 2) (hx / 2) (hy / 2)

/-- **C106.** First plate: the outer boundary is that of the plate; the hole is the circle with radius `√(r/2)`. -/
theorem c106_plate1 {hx hy r : ℝ} (hr : 0 < r) (h1 : r < hx) (h2 : r < hy) :
    ∃ d, chp1 hx hy r = some d ∧ curve d "Internal" = circle (Real.sqrt (r / 2)) ∧ PlateXY d hx hy := by
  have s2 : (0 : ℝ) < Real.sqrt 2 := by positivity
  have hs : 0 < 0.5 * Real.sqrt r := by positivity
  have hR : Real.sqrt 2 * (0.5 * Real.sqrt r) = Real.sqrt (r / 2) := by
    rw [Real.sqrt_div hr.le, eq_div_iff s2.ne']
    have := Real.mul_self_sqrt (show (0 : ℝ) ≤ 2 by norm_num)
    linear_combination 0.5 * Real.sqrt r * this
  unfold chp1
  rw [if_neg (by push Not; exact ⟨by linarith, by linarith⟩), if_neg (by push Not; exact lt_min h1 h2)]
  refine ⟨_, rfl, ?_, ?_, ?_, ?_, ?_⟩
  · rw [← four (show 0 < Real.sqrt (r / 2) by positivity)]
    ext P
    have t1 := tr_top hs; have t2 := tr_left hs; have t3 := tr_bottom hs; have t4 := tr_right hs
    rw [hR] at t1 t2 t3 t4
    simp [curve, Input.boundary, Input.edge, Two.ofCorners, EdgeType.geometry, t1, t2, t3, t4, or_assoc]
  · ext P
    simp [curve, Input.boundary, Input.edge, Two.ofCorners, EdgeType.geometry, trace_segX]
  · ext P
    simp [curve, Input.boundary, Input.edge, Two.ofCorners, EdgeType.geometry, trace_segX]
    simp only [segX, Set.mem_setOf_eq, min_comm, max_comm]
  · ext P
    simp [curve, Input.boundary, Input.edge, Two.ofCorners, EdgeType.geometry, trace_segY]
  · ext P
    simp [curve, Input.boundary, Input.edge, Two.ofCorners, EdgeType.geometry, trace_segY]
    simp only [segY, Set.mem_setOf_eq, min_comm, max_comm]

/-- **C106, false of the code.** For every radius other than 1/2 the hole of the first plate is not the circle with that
radius. -/
theorem c106_plate1_fails {hx hy r : ℝ} (hr : 0 < r) (h1 : r < hx) (h2 : r < hy) (hne : r ≠ 1 / 2) :
    ∃ d, chp1 hx hy r = some d ∧ curve d "Internal" ≠ circle r := by
  obtain ⟨d, hd, hc, -⟩ := c106_plate1 hr h1 h2
  refine ⟨d, hd, fun e => hne ?_⟩
  have := circle_inj (by positivity) hr (hc.symm.trans e)
  have h := Real.sq_sqrt (show 0 ≤ r / 2 by positivity)
  rw [this] at h
  have : r * (r - 1 / 2) = 0 := by linear_combination h
  rcases mul_eq_zero.1 this with h | h <;> linarith

/-- **C106.** First plate with the default radius.  What is missing: other radii, for which this is false. -/
theorem c106_plate1_partial {hx hy : ℝ} (h1 : 1 / 2 < hx) (h2 : 1 / 2 < hy) :
    ∃ d, chp1 hx hy (1 / 2) = some d ∧ curve d "Internal" = circle (1 / 2) ∧ PlateXY d hx hy := by
  obtain ⟨d, hd, hc, hp⟩ := c106_plate1 (by norm_num) h1 h2
  refine ⟨d, hd, ?_, hp⟩
  rw [hc, show (1 : ℝ) / 2 / 2 = (1 / 2) ^ 2 by norm_num, Real.sqrt_sq (by norm_num)]

/-- Joining three segments. -/
theorem join3X {a s b y : ℝ} (h0 : -a / 2 ≤ -s) (h1 : -s ≤ s) (h2 : s ≤ b / 2) (P : ℝ × ℝ) :
    (P ∈ segX (-a / 2) (-s) y ∨ P ∈ segX (-s) s y ∨ P ∈ segX s (b / 2) y) ↔ P ∈ segX (-a / 2) (b / 2) y := by
  simp only [segX, Set.mem_setOf_eq]
  rw [min_eq_left h0, max_eq_right h0, min_eq_left h1, max_eq_right h1, min_eq_left h2, max_eq_right h2,
    min_eq_left (by linarith), max_eq_right (by linarith)]
  constructor
  · rintro (h | h | h) <;> exact ⟨by linarith [h.1, h.2.1], by linarith [h.1, h.2.1], h.2.2⟩
  · rintro ⟨g0, g1, g2⟩
    by_cases k : P.1 ≤ -s
    · exact Or.inl ⟨g0, k, g2⟩
    by_cases k' : P.1 ≤ s
    · exact Or.inr (Or.inl ⟨by linarith, k', g2⟩)
    · exact Or.inr (Or.inr ⟨by linarith, g1, g2⟩)

/-- Joining three segments. -/
theorem join3Y {a s b x : ℝ} (h0 : -a / 2 ≤ -s) (h1 : -s ≤ s) (h2 : s ≤ b / 2) (P : ℝ × ℝ) :
    (P ∈ segY x (-a / 2) (-s) ∨ P ∈ segY x (-s) s ∨ P ∈ segY x s (b / 2)) ↔ P ∈ segY x (-a / 2) (b / 2) := by
  simp only [segY, Set.mem_setOf_eq]
  rw [min_eq_left h0, max_eq_right h0, min_eq_left h1, max_eq_right h1, min_eq_left h2, max_eq_right h2,
    min_eq_left (by linarith), max_eq_right (by linarith)]
  constructor
  · rintro (h | h | h) <;> exact ⟨h.1, by linarith [h.2.1, h.2.2], by linarith [h.2.1, h.2.2]⟩
  · rintro ⟨g2, g0, g1⟩
    by_cases k : P.2 ≤ -s
    · exact Or.inl ⟨g2, g0, k⟩
    by_cases k' : P.2 ≤ s
    · exact Or.inr (Or.inl ⟨g2, by linarith, k'⟩)
    · exact Or.inr (Or.inr ⟨g2, by linarith, g1⟩)

theorem sr_eq (r : ℝ) : Real.sqrt 2 * (Real.sqrt 2 * r / 2) = r := by
  have := Real.mul_self_sqrt (show (0 : ℝ) ≤ 2 by norm_num)
  linear_combination r / 2 * this

theorem sr_lt {r : ℝ} (hr : 0 < r) : 0 < Real.sqrt 2 * r / 2 ∧ Real.sqrt 2 * r / 2 < r := by
  have : Real.sqrt 2 < 2 := by
    rw [show (2 : ℝ) = Real.sqrt (2 ^ 2) by rw [Real.sqrt_sq (by norm_num)]]
    exact Real.sqrt_lt_sqrt (by positivity) (by norm_num)
  exact ⟨by positivity, by nlinarith⟩

/-- **C106.** Second plate: for all accepted radii the hole is the circle with radius `r`. -/
theorem c106_plate2_hole {hx hy r : ℝ} (hr : 0 < r) (h1 : r < hx) (h2 : r < hy) :
    ∃ d, chp2 hx hy r = some d ∧ curve d "Internal" = circle r := by
  have hs := (sr_lt hr).1
  have hR := sr_eq r
  unfold chp2
  rw [if_neg (by push Not; exact ⟨by linarith, by linarith⟩), if_neg (by push Not; exact lt_min h1 h2)]
  refine ⟨_, rfl, ?_⟩
  rw [← four hr]
  ext P
  have t1 := tr_top hs; have t2 := tr_left hs; have t3 := tr_bottom' hs; have t4 := tr_right' hs
  rw [hR] at t1 t2 t3 t4
  simp [curve, Input.boundary, Input.edge, Two.ofCorners, EdgeType.geometry, t1, t2, t3, t4]
  tauto

/-- The circle lies strictly inside the plate. -/
def Inside (R hx hy : ℝ) : Prop := ∀ P ∈ circle R, -hx / 2 < P.1 ∧ P.1 < hx / 2 ∧ -hy / 2 < P.2 ∧ P.2 < hy / 2

/-- **C106.** Second plate with a hole of less than half the size of the plate: the outer boundary is that of the plate, and the
hole is inside.  What is missing: larger accepted radii, for which this is false. -/
theorem c106_plate2_partial {hx hy r : ℝ} (hr : 0 < r) (h1 : r < hx / 2) (h2 : r < hy / 2) :
    ∃ d, chp2 hx hy r = some d ∧ curve d "Internal" = circle r ∧ PlateUD d hx hy ∧ Inside r hx hy := by
  obtain ⟨hs, hs'⟩ := sr_lt hr
  obtain ⟨d', hd', hc⟩ := c106_plate2_hole (hx := hx) (hy := hy) hr (by linarith) (by linarith)
  refine ⟨d', hd', hc, ?_, ?_⟩
  · unfold chp2 at hd'
    rw [if_neg (by push Not; exact ⟨by linarith, by linarith⟩), if_neg (by push Not; exact lt_min (by linarith) (by linarith))] at hd'
    rw [← Option.some.inj hd']
    refine ⟨?_, ?_, ?_, ?_⟩ <;> ext P
    · rw [← join3Y (a := hy) (b := hy) (s := Real.sqrt 2 * r / 2) (by linarith) (by linarith) (by linarith) P]
      simp [curve, Input.boundary, Input.edge, Two.ofCorners, EdgeType.geometry, trace_segY]
    · rw [← join3Y (a := hy) (b := hy) (s := Real.sqrt 2 * r / 2) (by linarith) (by linarith) (by linarith) P]
      simp [curve, Input.boundary, Input.edge, Two.ofCorners, EdgeType.geometry, trace_segY]
    · rw [← join3X (a := hx) (b := hx) (s := Real.sqrt 2 * r / 2) (by linarith) (by linarith) (by linarith) P]
      simp [curve, Input.boundary, Input.edge, Two.ofCorners, EdgeType.geometry, trace_segX]
    · rw [← join3X (a := hx) (b := hx) (s := Real.sqrt 2 * r / 2) (by linarith) (by linarith) (by linarith) P]
      simp [curve, Input.boundary, Input.edge, Two.ofCorners, EdgeType.geometry, trace_segX]
  · intro P hP
    simp only [circle, Set.mem_setOf_eq] at hP
    have a1 := abs_le_of_sq_le_sq (show P.1 ^ 2 ≤ r ^ 2 by nlinarith [sq_nonneg P.2]) hr.le
    have a2 := abs_le_of_sq_le_sq (show P.2 ^ 2 ≤ r ^ 2 by nlinarith [sq_nonneg P.1]) hr.le
    have b1 := abs_le.1 a1; have b2 := abs_le.1 a2
    exact ⟨by linarith [b1.1], by linarith [b1.2], by linarith [b2.1], by linarith [b2.2]⟩

/-- **C106, false of the code.** Every hole between half the size and the size of the plate is accepted and sticks out of the
plate. -/
theorem c106_plate2_fails {hx hy r : ℝ} (hr : 0 < r) (h0 : hx / 2 ≤ r) (h1 : r < hx) (h2 : r < hy) :
    ∃ d, chp2 hx hy r = some d ∧ curve d "Internal" = circle r ∧ ¬ Inside r hx hy := by
  obtain ⟨d, hd, hc⟩ := c106_plate2_hole hr h1 h2
  refine ⟨d, hd, hc, fun h => ?_⟩
  have := (h (r, 0) (by simp [circle])).2.1
  simp only at this
  linarith

/-- Radii and plates meeting the hypotheses. -/
example : (∃ d, chp2 2 3 (1 / 2) = some d ∧ Inside (1 / 2) 2 3) ∧ (∃ d, chp2 2 3 (3 / 2) = some d ∧ ¬ Inside (3 / 2) 2 3) ∧
    ∃ d, chp1 4 4 1 = some d ∧ curve d "Internal" ≠ circle 1 := by
  refine ⟨?_, ?_, ?_⟩
  · obtain ⟨d, h, -, -, h'⟩ := c106_plate2_partial (hx := 2) (hy := 3) (r := 1 / 2) (by norm_num) (by norm_num) (by norm_num)
    exact ⟨d, h, h'⟩
  · obtain ⟨d, h, -, h'⟩ := c106_plate2_fails (hx := 2) (hy := 3) (r := 3 / 2) (by norm_num) (by norm_num) (by norm_num) (by norm_num)
    exact ⟨d, h, h'⟩
  · exact c106_plate1_fails (by norm_num) (by norm_num) (by norm_num) (by norm_num)

end Mifem.Props.Plate106
