import Mathlib.Geometry.Euclidean.Triangle
import Mathlib.Analysis.InnerProductSpace.PiL2
import Mathlib.Tactic.Linarith
import Mathlib.Tactic.FieldSimp
import Mathlib.Tactic.Ring
import Mathlib.Tactic.Positivity
import Mathlib.Tactic.LinearCombination
import Verif.Model.CellShape

/-!
# C105: angles and quality of a triangular cell
-/

namespace Mifem.Props.Shape105
open Mifem.Tri Mifem.CellShape

/-- The point of the Euclidean plane with the coordinates `p`. -/
noncomputable def pt (p : ℝ × ℝ) : EuclideanSpace ℝ (Fin 2) := !₂[p.1, p.2]

/-- The three vertices lie on one line. -/
def OnLine (p : Fin 3 → ℝ × ℝ) : Prop :=
  ((p 1).1 - (p 0).1) * ((p 2).2 - (p 0).2) = ((p 2).1 - (p 0).1) * ((p 1).2 - (p 0).2)

/-- The three sides have the same length. -/
def Equilateral (p : Fin 3 → ℝ × ℝ) : Prop :=
  dist (pt (p 0)) (pt (p 1)) = dist (pt (p 1)) (pt (p 2)) ∧ dist (pt (p 1)) (pt (p 2)) = dist (pt (p 2)) (pt (p 0))

/-- No two vertices coincide. -/
def Distinct (p : Fin 3 → ℝ × ℝ) : Prop := p 0 ≠ p 1 ∧ p 0 ≠ p 2 ∧ p 1 ≠ p 2

theorem distance_eq (p q : ℝ × ℝ) : distance p q = dist (pt p) (pt q) := by
  simp [distance, pt, EuclideanSpace.dist_eq, Real.dist_eq, sq_abs]

theorem pt_inj {p q : ℝ × ℝ} (h : pt p = pt q) : p = q := by
  have h0 := congrArg (fun v : EuclideanSpace ℝ (Fin 2) => v 0) h
  have h1 := congrArg (fun v : EuclideanSpace ℝ (Fin 2) => v 1) h
  simp [pt] at h0 h1
  exact Prod.ext h0 h1

open EuclideanGeometry in
theorem degrees_eq (x y z : EuclideanSpace ℝ (Fin 2)) (hxy : x ≠ y) (hxz : x ≠ z) :
    degrees (dist x y ^ 2 + dist x z ^ 2 - dist y z ^ 2) (2 * dist x y * dist x z) = some (∠ y x z * 180 / Real.pi) := by
  have h1 : 0 < dist x y := dist_pos.2 hxy
  have h2 : 0 < dist x z := dist_pos.2 hxz
  have hc : (dist x y ^ 2 + dist x z ^ 2 - dist y z ^ 2) / (2 * dist x y * dist x z) = Real.cos (∠ y x z) := by
    have := dist_sq_eq_dist_sq_add_dist_sq_sub_two_mul_dist_mul_dist_mul_cos_angle y x z
    rw [dist_comm y x, dist_comm z x] at this
    rw [div_eq_iff (by positivity)]
    nlinarith [this]
  have hn : ¬ 2 * dist x y * dist x z = 0 := by positivity
  rw [degrees, if_neg hn, hc, if_neg, Real.arccos_cos (angle_nonneg _ _ _) (angle_le_pi _ _ _)]
  have := Real.neg_one_le_cos (∠ y x z); have := Real.cos_le_one (∠ y x z)
  rintro (h | h) <;> linarith

open EuclideanGeometry in
/-- **C105.** For every triangle with three distinct vertices the reported numbers are the angles, in degrees, at the
vertices 0, 1 and 2; they lie between 0 and 180 and their sum is 180. -/
theorem c105_angles (p : Fin 3 → ℝ × ℝ) (h : Distinct p) :
    ∃ α β γ, angles p = some (α, β, γ) ∧
      α = ∠ (pt (p 1)) (pt (p 0)) (pt (p 2)) * 180 / Real.pi ∧
      β = ∠ (pt (p 0)) (pt (p 1)) (pt (p 2)) * 180 / Real.pi ∧
      γ = ∠ (pt (p 0)) (pt (p 2)) (pt (p 1)) * 180 / Real.pi ∧
      0 ≤ α ∧ 0 ≤ β ∧ 0 ≤ γ ∧ α ≤ 180 ∧ β ≤ 180 ∧ γ ≤ 180 ∧ α + β + γ = 180 := by
  obtain ⟨h01, h02, h12⟩ := h
  have g01 : pt (p 0) ≠ pt (p 1) := fun e => h01 (pt_inj e)
  have g02 : pt (p 0) ≠ pt (p 2) := fun e => h02 (pt_inj e)
  have g12 : pt (p 1) ≠ pt (p 2) := fun e => h12 (pt_inj e)
  have e0 := degrees_eq (pt (p 0)) (pt (p 2)) (pt (p 1)) g02 g01
  have e1 := degrees_eq (pt (p 1)) (pt (p 2)) (pt (p 0)) g12 g01.symm
  have e2 := degrees_eq (pt (p 2)) (pt (p 1)) (pt (p 0)) g12.symm g02.symm
  have hs := angle_add_angle_add_angle_eq_pi (pt (p 2)) g01.symm
  have hpi := Real.pi_pos
  have bd : ∀ t : ℝ, 0 ≤ t → t ≤ Real.pi → 0 ≤ t * 180 / Real.pi ∧ t * 180 / Real.pi ≤ 180 := fun t h0 h1 =>
    ⟨by positivity, by rw [div_le_iff₀ hpi]; nlinarith⟩
  have b0 := bd _ (angle_nonneg (pt (p 1)) (pt (p 0)) (pt (p 2))) (angle_le_pi _ _ _)
  have b1 := bd _ (angle_nonneg (pt (p 0)) (pt (p 1)) (pt (p 2))) (angle_le_pi _ _ _)
  have b2 := bd _ (angle_nonneg (pt (p 0)) (pt (p 2)) (pt (p 1))) (angle_le_pi _ _ _)
  refine ⟨_, _, _, ?_, rfl, rfl, rfl, b0.1, b1.1, b2.1, b0.2, b1.2, b2.2, ?_⟩
  · rw [dist_comm (pt (p 2)) (pt (p 1)), angle_comm] at e0
    rw [dist_comm (pt (p 1)) (pt (p 0)), dist_comm (pt (p 2)) (pt (p 0)), angle_comm] at e1
    rw [dist_comm (pt (p 2)) (pt (p 1)), dist_comm (pt (p 2)) (pt (p 0)), dist_comm (pt (p 1)) (pt (p 0)),
      angle_comm] at e2
    simp only [angles, distance_eq, e0, e1, e2]
    rfl
  · rw [angle_comm (pt (p 2)) (pt (p 0)), angle_comm (pt (p 1)) (pt (p 2)) (pt (p 0))] at hs
    rw [← add_div, ← add_div, ← add_mul, div_eq_iff hpi.ne']
    linear_combination 180 * hs

/-- **C105.** With two coinciding vertices no angles are reported. -/
theorem c105_degenerate (p : Fin 3 → ℝ × ℝ) (h : ¬ Distinct p) : angles p = none ∧ quality p = none := by
  have hz : ∀ q : ℝ × ℝ, distance q q = 0 := fun q => by simp [distance]
  have : angles p = none := by
    have : p 0 = p 1 ∨ p 0 = p 2 ∨ p 1 = p 2 := by
      unfold Distinct at h; tauto
    rcases this with h | h | h
    · simp [angles, degrees, h, hz]
    · simp [angles, degrees, h, hz]
    · have : ∀ x, degrees x 0 = none := fun x => by simp [degrees]
      simp only [angles, h, hz, mul_zero, zero_mul, this]
      cases degrees (distance (p 0) (p 2) ^ 2 + distance (p 0) (p 2) ^ 2 - 0 ^ 2)
        (2 * distance (p 0) (p 2) * distance (p 0) (p 2)) <;> rfl
  exact ⟨this, by simp [quality, this]⟩

/-- The sum of the deviations from 60 of three angles with sum 180. -/
theorem deviation {α β γ : ℝ} (h0 : 0 ≤ α) (h1 : 0 ≤ β) (h2 : 0 ≤ γ) (hs : α + β + γ = 180) :
    0 ≤ |α - 60| + |β - 60| + |γ - 60| ∧ |α - 60| + |β - 60| + |γ - 60| ≤ 240 ∧
    (|α - 60| + |β - 60| + |γ - 60| = 0 ↔ α = 60 ∧ β = 60 ∧ γ = 60) ∧
    (|α - 60| + |β - 60| + |γ - 60| = 240 ↔ α = 180 ∨ β = 180 ∨ γ = 180) := by
  refine ⟨by positivity, ?_, ⟨?_, ?_⟩, ⟨?_, ?_⟩⟩
  · rcases abs_cases (α - 60) with h | h <;> rcases abs_cases (β - 60) with h' | h' <;>
      rcases abs_cases (γ - 60) with h'' | h'' <;> linarith
  · intro h
    have := abs_nonneg (α - 60); have := abs_nonneg (β - 60); have := abs_nonneg (γ - 60)
    exact ⟨by linarith [abs_eq_zero.1 (show |α - 60| = 0 by linarith)],
      by linarith [abs_eq_zero.1 (show |β - 60| = 0 by linarith)],
      by linarith [abs_eq_zero.1 (show |γ - 60| = 0 by linarith)]⟩
  · rintro ⟨rfl, rfl, rfl⟩; simp
  · intro h
    rcases abs_cases (α - 60) with g | g <;> rcases abs_cases (β - 60) with g' | g' <;>
      rcases abs_cases (γ - 60) with g'' | g''
    all_goals first
      | (exfalso; linarith)
      | (left; linarith)
      | (right; left; linarith)
      | (right; right; linarith)
  · rintro (h | h | h) <;> rcases abs_cases (α - 60) with g | g <;> rcases abs_cases (β - 60) with g' | g' <;>
      rcases abs_cases (γ - 60) with g'' | g'' <;> linarith

theorem cos_of_degrees {num den d : ℝ} (h : degrees num den = some d) :
    den ≠ 0 ∧ num / den = Real.cos (d * Real.pi / 180) := by
  unfold degrees at h
  split_ifs at h with h1 h2
  · push Not at h2
    refine ⟨h1, ?_⟩
    have : d = Real.arccos (num / den) * 180 / Real.pi := by simpa using h.symm
    rw [this, show Real.arccos (num / den) * 180 / Real.pi * Real.pi / 180 = Real.arccos (num / den) by
      field_simp, Real.cos_arccos h2.1 h2.2]

theorem parts {p : Fin 3 → ℝ × ℝ} {α β γ : ℝ} (h : angles p = some (α, β, γ)) :
    let a := distance (p 1) (p 2); let b := distance (p 0) (p 2); let c := distance (p 0) (p 1)
    degrees (b ^ 2 + c ^ 2 - a ^ 2) (2 * b * c) = some α ∧ degrees (a ^ 2 + c ^ 2 - b ^ 2) (2 * a * c) = some β ∧
      degrees (a ^ 2 + b ^ 2 - c ^ 2) (2 * a * b) = some γ := by
  intro a b c
  simp only [angles, Option.bind_eq_bind, Option.bind_eq_some_iff] at h
  obtain ⟨x, hx, y, hy, z, hz, e⟩ := h
  simp at e
  obtain ⟨rfl, rfl, rfl⟩ := e
  exact ⟨hx, hy, hz⟩

theorem dsq (p q : ℝ × ℝ) : distance p q ^ 2 = (p.1 - q.1) ^ 2 + (p.2 - q.2) ^ 2 := by
  rw [distance, Real.sq_sqrt (by positivity)]

/-- **C105.** The quality of a triangle with distinct vertices lies between 0 and 1; it is 1 for the equilateral triangles
and only for them, and it is 0 for the triangles whose vertices are on a line and only for them. -/
theorem c105_quality (p : Fin 3 → ℝ × ℝ) (h : Distinct p) :
    ∃ q, quality p = some q ∧ 0 ≤ q ∧ q ≤ 1 ∧ (q = 1 ↔ Equilateral p) ∧ (q = 0 ↔ OnLine p) := by
  obtain ⟨α, β, γ, he, -, -, -, h0, h1, h2, -, -, -, hs⟩ := c105_angles p h
  obtain ⟨d0, d1, d2, d3⟩ := deviation h0 h1 h2 hs
  set D := |α - 60| + |β - 60| + |γ - 60| with hD
  have hq : quality p = some (1 - D / 240) := by
    simp only [quality, he]
    change some |1 - D / 240| = _
    rw [abs_of_nonneg]
    linarith [div_le_one_of_le₀ d1 (by norm_num : (0 : ℝ) ≤ 240)]
  obtain ⟨e0, e1, e2⟩ := parts he
  obtain ⟨n0, c0⟩ := cos_of_degrees e0
  obtain ⟨n1, c1⟩ := cos_of_degrees e1
  obtain ⟨n2, c2⟩ := cos_of_degrees e2
  have s0 := dsq (p 1) (p 2); have s1 := dsq (p 0) (p 2); have s2 := dsq (p 0) (p 1)
  have p0 : 0 ≤ distance (p 1) (p 2) := Real.sqrt_nonneg _
  have p1 : 0 ≤ distance (p 0) (p 2) := Real.sqrt_nonneg _
  have p2 : 0 ≤ distance (p 0) (p 1) := Real.sqrt_nonneg _
  have heq : Equilateral p ↔ distance (p 0) (p 1) = distance (p 1) (p 2) ∧ distance (p 1) (p 2) = distance (p 0) (p 2) := by
    rw [Equilateral, distance_eq, distance_eq, distance_eq, dist_comm (pt (p 2)) (pt (p 0))]
  rw [div_eq_iff n0] at c0
  rw [div_eq_iff n1] at c1
  rw [div_eq_iff n2] at c2
  set a := distance (p 1) (p 2); set b := distance (p 0) (p 2); set c := distance (p 0) (p 1)
  have ha : a ≠ 0 := fun e => n1 (by rw [e]; ring)
  have hb : b ≠ 0 := fun e => n0 (by rw [e]; ring)
  have hc : c ≠ 0 := fun e => n0 (by rw [e]; ring)
  have hpi := Real.pi_pos
  have c60 : ∀ t : ℝ, t = 60 → Real.cos (t * Real.pi / 180) = 1 / 2 := by
    rintro t rfl
    rw [show (60 : ℝ) * Real.pi / 180 = Real.pi / 3 by ring, Real.cos_pi_div_three]
  have rng : ∀ t : ℝ, 0 ≤ t → t ≤ 180 → t * Real.pi / 180 ∈ Set.Icc 0 Real.pi := fun t g0 g1 =>
    ⟨by positivity, by rw [div_le_iff₀ (by norm_num)]; nlinarith⟩
  have inj : ∀ t u : ℝ, 0 ≤ t → t ≤ 180 → 0 ≤ u → u ≤ 180 → Real.cos (t * Real.pi / 180) = Real.cos (u * Real.pi / 180) →
      t = u := fun t u g0 g1 g2 g3 e => by
    have := Real.injOn_cos (rng t g0 g1) (rng u g2 g3) e
    field_simp at this
    exact this
  refine ⟨_, hq, ?_, ?_, ?_, ?_⟩
  · linarith [div_le_one_of_le₀ d1 (by norm_num : (0 : ℝ) ≤ 240)]
  · linarith [div_nonneg d0 (by norm_num : (0 : ℝ) ≤ 240)]
  · rw [heq, show (1 - D / 240 = 1 ↔ D = 0) from ⟨fun e => by linarith, fun e => by rw [e]; norm_num⟩, d2]
    constructor
    · rintro ⟨f0, f1, f2⟩
      rw [c60 _ f0] at c0; rw [c60 _ f1] at c1; rw [c60 _ f2] at c2
      have g1 : c * (2 * c - (a + b)) = 0 := by linear_combination c0 + c1
      have g2 : a * (2 * a - (b + c)) = 0 := by linear_combination c1 + c2
      have g1' := (mul_eq_zero.1 g1).resolve_left hc
      have g2' := (mul_eq_zero.1 g2).resolve_left ha
      constructor <;> linarith
    · rintro ⟨f0, f1⟩
      have k0 : Real.cos (α * Real.pi / 180) = Real.cos (60 * Real.pi / 180) := by
        rw [c60 60 rfl]
        apply mul_right_cancel₀ (mul_ne_zero ha ha)
        rw [f0, ← f1] at c0
        linear_combination (-1 / 2) * c0
      have k1 : Real.cos (β * Real.pi / 180) = Real.cos (60 * Real.pi / 180) := by
        rw [c60 60 rfl]
        apply mul_right_cancel₀ (mul_ne_zero ha ha)
        rw [f0, ← f1] at c1
        linear_combination (-1 / 2) * c1
      have g0 := inj _ 60 h0 (by linarith) (by norm_num) (by norm_num) k0
      have g1 := inj _ 60 h1 (by linarith) (by norm_num) (by norm_num) k1
      exact ⟨g0, g1, by linarith⟩
  · rw [show (1 - D / 240 = 0 ↔ D = 240) from ⟨fun e => by linarith, fun e => by rw [e]; norm_num⟩, d3]
    have id0 : ∀ x : ℝ, b ^ 2 + c ^ 2 - a ^ 2 = x * (2 * b * c) → 4 * b ^ 2 * c ^ 2 * (1 - x ^ 2) =
        4 * (((p 1).1 - (p 0).1) * ((p 2).2 - (p 0).2) - ((p 2).1 - (p 0).1) * ((p 1).2 - (p 0).2)) ^ 2 := by
      intro x hx
      have : 4 * b ^ 2 * c ^ 2 * (1 - x ^ 2) = 4 * b ^ 2 * c ^ 2 - (b ^ 2 + c ^ 2 - a ^ 2) ^ 2 := by rw [hx]; ring
      rw [this, s0, s1, s2]; ring
    have id1 : ∀ x : ℝ, a ^ 2 + c ^ 2 - b ^ 2 = x * (2 * a * c) → 4 * a ^ 2 * c ^ 2 * (1 - x ^ 2) =
        4 * (((p 1).1 - (p 0).1) * ((p 2).2 - (p 0).2) - ((p 2).1 - (p 0).1) * ((p 1).2 - (p 0).2)) ^ 2 := by
      intro x hx
      have : 4 * a ^ 2 * c ^ 2 * (1 - x ^ 2) = 4 * a ^ 2 * c ^ 2 - (a ^ 2 + c ^ 2 - b ^ 2) ^ 2 := by rw [hx]; ring
      rw [this, s0, s1, s2]; ring
    have id2 : ∀ x : ℝ, a ^ 2 + b ^ 2 - c ^ 2 = x * (2 * a * b) → 4 * a ^ 2 * b ^ 2 * (1 - x ^ 2) =
        4 * (((p 1).1 - (p 0).1) * ((p 2).2 - (p 0).2) - ((p 2).1 - (p 0).1) * ((p 1).2 - (p 0).2)) ^ 2 := by
      intro x hx
      have : 4 * a ^ 2 * b ^ 2 * (1 - x ^ 2) = 4 * a ^ 2 * b ^ 2 - (a ^ 2 + b ^ 2 - c ^ 2) ^ 2 := by rw [hx]; ring
      rw [this, s0, s1, s2]; ring
    have c180 : ∀ t : ℝ, t = 180 → Real.cos (t * Real.pi / 180) = -1 := by
      rintro t rfl
      rw [show (180 : ℝ) * Real.pi / 180 = Real.pi by ring, Real.cos_pi]
    have line : 0 = 4 * (((p 1).1 - (p 0).1) * ((p 2).2 - (p 0).2) -
        ((p 2).1 - (p 0).1) * ((p 1).2 - (p 0).2)) ^ 2 → OnLine p := by
      intro e
      have := pow_eq_zero_iff (two_ne_zero) |>.1 (show (((p 1).1 - (p 0).1) * ((p 2).2 - (p 0).2) -
        ((p 2).1 - (p 0).1) * ((p 1).2 - (p 0).2)) ^ 2 = 0 by linarith)
      exact sub_eq_zero.1 this
    constructor
    · rintro (f | f | f)
      · rw [c180 _ f] at c0
        exact line (by rw [← id0 _ c0]; ring)
      · rw [c180 _ f] at c1
        exact line (by rw [← id1 _ c1]; ring)
      · rw [c180 _ f] at c2
        exact line (by rw [← id2 _ c2]; ring)
    · intro hl
      have z : ((p 1).1 - (p 0).1) * ((p 2).2 - (p 0).2) - ((p 2).1 - (p 0).1) * ((p 1).2 - (p 0).2) = 0 :=
        sub_eq_zero.2 hl
      have ends : ∀ t u v : ℝ, u ≠ 0 → v ≠ 0 → 0 ≤ t → t ≤ 180 → 4 * u ^ 2 * v ^ 2 * (1 - Real.cos (t * Real.pi / 180) ^ 2) = 0 →
          t = 0 ∨ t = 180 := by
        intro t u v hu hv g0 g1 e
        have e' : 1 - Real.cos (t * Real.pi / 180) ^ 2 = 0 := by
          rcases mul_eq_zero.1 e with e | e
          · exact absurd e (by positivity)
          · exact e
        have : (Real.cos (t * Real.pi / 180) - 1) * (Real.cos (t * Real.pi / 180) + 1) = 0 := by linear_combination -e'
        rcases mul_eq_zero.1 this with e | e
        · left
          exact inj t 0 g0 g1 le_rfl (by norm_num) (by rw [zero_mul, zero_div, Real.cos_zero]; linarith)
        · right
          exact inj t 180 g0 g1 (by norm_num) le_rfl (by rw [c180 180 rfl]; linarith)
      have r0 := ends α b c hb hc h0 (by linarith) (by rw [id0 _ c0, z]; ring)
      have r1 := ends β a c ha hc h1 (by linarith) (by rw [id1 _ c1, z]; ring)
      have r2 := ends γ a b ha hb h2 (by linarith) (by rw [id2 _ c2, z]; ring)
      rcases r0 with r0 | r0
      · rcases r1 with r1 | r1
        · right; right; linarith
        · exact Or.inr (Or.inl r1)
      · exact Or.inl r0

/-- **C105.** Triangles of the same shape have the same angles and quality: multiplying all sides with one positive number
(and moving, turning or reflecting the triangle) changes nothing. -/
theorem c105_similar (p q : Fin 3 → ℝ × ℝ) (k : ℝ) (hk : 0 < k)
    (h : ∀ i j, dist (pt (q i)) (pt (q j)) = k * dist (pt (p i)) (pt (p j))) :
    angles q = angles p ∧ quality q = quality p := by
  have hd : ∀ x y, degrees (k ^ 2 * x) (k ^ 2 * y) = degrees x y := by
    intro x y
    have k2 : k ^ 2 ≠ 0 := by positivity
    simp only [degrees, mul_eq_zero, k2, false_or, mul_div_mul_left _ _ k2]
  have : angles q = angles p := by
    have hh : ∀ x y z : ℝ, degrees ((k * x) ^ 2 + (k * y) ^ 2 - (k * z) ^ 2) (2 * (k * x) * (k * y)) =
        degrees (x ^ 2 + y ^ 2 - z ^ 2) (2 * x * y) := fun x y z => by
      rw [← hd (x ^ 2 + y ^ 2 - z ^ 2)]
      congr 1 <;> ring
    simp only [angles, distance_eq, h, hh]
  exact ⟨this, by simp [quality, this]⟩

/-- A triangle with distinct vertices. -/
example : Distinct ![(0, 0), (1, 0), (0, 1)] := by
  refine ⟨?_, ?_, ?_⟩ <;> simp

/-- Three distinct vertices on a line have quality 0. -/
example : quality ![(0, 0), (1, 0), (3, 0)] = some 0 := by
  obtain ⟨q, hq, -, -, -, h⟩ := c105_quality ![(0, 0), (1, 0), (3, 0)] (by refine ⟨?_, ?_, ?_⟩ <;> simp)
  rw [hq, h.2 (by simp [OnLine])]

end Mifem.Props.Shape105
