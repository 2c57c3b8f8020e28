import Verif.Model.Region
import Verif.Props.Metric
import Mathlib.Analysis.SpecialFunctions.Trigonometric.Deriv
import Mathlib.Analysis.Calculus.FDeriv.Mul
import Mathlib.Analysis.Calculus.Deriv.Comp
import Mathlib.Analysis.Real.Pi.Bounds
import Mathlib.Tactic.Linarith
import Mathlib.Tactic.Positivity
import Mathlib.Tactic.FinCases

/-!
# C55: mappings of regions
-/

namespace Mifem.Props
open Mifem.Metric Mifem.Region

/-! ## Gradients -/

/-- `g` is the gradient of `f` at `x`. -/
def Grad {n : Nat} (f : (Fin n → ℝ) → ℝ) (g : Fin n → ℝ) (x : Fin n → ℝ) : Prop :=
  HasFDerivAt f (∑ i, g i • ContinuousLinearMap.proj (R := ℝ) (φ := fun _ : Fin n => ℝ) i) x

theorem grad_pi {n : Nat} {F : (Fin n → ℝ) → (Fin n → ℝ)} {A : Fin n → Fin n → ℝ} {x : Fin n → ℝ}
    (h : ∀ i, Grad (fun v => F v i) (A i) x) : HasFDerivAt F (lin A) x := by
  rw [hasFDerivAt_pi']
  intro i
  refine (h i).congr_fderiv ?_
  ext v
  simp [lin_apply]

theorem Grad.congr {n : Nat} {f : (Fin n → ℝ) → ℝ} {g g' : Fin n → ℝ} {x : Fin n → ℝ} (h : Grad f g x)
    (e : ∀ i, g i = g' i) : Grad f g' x := by
  rwa [show g' = g from funext fun i => (e i).symm]

theorem Grad.const {n : Nat} (c : ℝ) (x : Fin n → ℝ) : Grad (fun _ => c) (fun _ => 0) x := by
  refine (hasFDerivAt_const c x).congr_fderiv ?_
  ext v; simp

theorem Grad.proj {n : Nat} (i : Fin n) (x : Fin n → ℝ) : Grad (fun v => v i) (fun j => if j = i then 1 else 0) x := by
  refine (hasFDerivAt_apply i x).congr_fderiv ?_
  ext v; simp

theorem Grad.add {n : Nat} {f g : (Fin n → ℝ) → ℝ} {f' g' x : Fin n → ℝ} (hf : Grad f f' x) (hg : Grad g g' x) :
    Grad (fun v => f v + g v) (fun i => f' i + g' i) x := by
  refine (HasFDerivAt.add hf hg).congr_fderiv ?_
  ext v; simp [add_mul, Finset.sum_add_distrib]

theorem Grad.neg {n : Nat} {f : (Fin n → ℝ) → ℝ} {f' x : Fin n → ℝ} (hf : Grad f f' x) :
    Grad (fun v => -f v) (fun i => -f' i) x := by
  refine (HasFDerivAt.neg hf).congr_fderiv ?_
  ext v; simp

theorem Grad.sub {n : Nat} {f g : (Fin n → ℝ) → ℝ} {f' g' x : Fin n → ℝ} (hf : Grad f f' x) (hg : Grad g g' x) :
    Grad (fun v => f v - g v) (fun i => f' i - g' i) x := by
  refine (HasFDerivAt.sub hf hg).congr_fderiv ?_
  ext v; simp [sub_mul, Finset.sum_sub_distrib]

theorem Grad.mul {n : Nat} {f g : (Fin n → ℝ) → ℝ} {f' g' x : Fin n → ℝ} (hf : Grad f f' x) (hg : Grad g g' x) :
    Grad (fun v => f v * g v) (fun i => f x * g' i + g x * f' i) x := by
  refine (HasFDerivAt.mul hf hg).congr_fderiv ?_
  ext v
  simp [add_mul, Finset.sum_add_distrib, Finset.mul_sum, mul_assoc]

theorem Grad.comp {n : Nat} {φ : ℝ → ℝ} {φ' : ℝ} {f : (Fin n → ℝ) → ℝ} {f' x : Fin n → ℝ}
    (h : HasDerivAt φ φ' (f x)) (hf : Grad f f' x) : Grad (fun v => φ (f v)) (fun i => φ' * f' i) x := by
  refine (h.comp_hasFDerivAt x hf).congr_fderiv ?_
  ext v
  simp [Finset.mul_sum, mul_assoc]

theorem Grad.comp2 {n : Nat} {F : ℝ → ℝ → ℝ} {p q : ℝ} {f g : (Fin n → ℝ) → ℝ} {f' g' x : Fin n → ℝ}
    (h : Grad (n := 2) (fun v => F (v 0) (v 1)) ![p, q] ![f x, g x]) (hf : Grad f f' x) (hg : Grad g g' x) :
    Grad (fun v => F (f v) (g v)) (fun i => p * f' i + q * g' i) x := by
  have hin : HasFDerivAt (fun v : Fin n → ℝ => (![f v, g v] : Fin 2 → ℝ))
      (ContinuousLinearMap.pi ![∑ i, f' i • ContinuousLinearMap.proj (R := ℝ) (φ := fun _ : Fin n => ℝ) i,
        ∑ i, g' i • ContinuousLinearMap.proj (R := ℝ) (φ := fun _ : Fin n => ℝ) i]) x := by
    rw [hasFDerivAt_pi']
    intro i
    fin_cases i
    · exact hf
    · exact hg
  have := HasFDerivAt.comp x (g := fun v : Fin 2 → ℝ => F (v 0) (v 1)) (f := fun v => ![f v, g v]) h hin
  refine HasFDerivAt.congr_fderiv this ?_
  ext v
  simp [Finset.mul_sum, add_mul, Finset.sum_add_distrib, mul_assoc]

/-! ## Edges in 2D -/

/-- An edge starts at `c1`, ends at `c2`, and reports its own derivative. -/
structure EdgeOk (c1 c2 : ℝ × ℝ) (e : Edge ℝ) : Prop where
  x0 : e.X 0 = c1.1
  y0 : e.Y 0 = c1.2
  x1 : e.X 1 = c2.1
  y1 : e.Y 1 = c2.2
  dx : ∀ o, HasDerivAt e.X (e.Xo o) o
  dy : ∀ o, HasDerivAt e.Y (e.Yo o) o

/-- What the user has to provide: for arcs a center at the same nonzero distance of both corners (the assertion of
aacw.py 18 and acw.py 19 with exact arithmetic), for customized edges functions that fit. -/
def Provided (c1 c2 : ℝ × ℝ) : EdgeType → Prop
  | .straight => True
  | .aacw ctr => radius c1 ctr = radius c2 ctr ∧ c1 ≠ ctr
  | .acw ctr => radius c1 ctr = radius c2 ctr ∧ c1 ≠ ctr
  | .customized X Y Xo Yo => EdgeOk c1 c2 ⟨X, Y, Xo, Yo⟩

theorem radius_pos {pt ctr : ℝ × ℝ} (h : pt ≠ ctr) : 0 < radius pt ctr := by
  rw [radius, Real.sqrt_pos]
  by_contra hn
  push Not at hn
  have h1 := sq_nonneg (pt.1 - ctr.1)
  have h2 := sq_nonneg (pt.2 - ctr.2)
  have e1 : pt.1 - ctr.1 = 0 := by nlinarith
  have e2 : pt.2 - ctr.2 = 0 := by nlinarith
  exact h (Prod.ext (by linarith) (by linarith))

theorem radius_sq (pt ctr : ℝ × ℝ) : radius pt ctr ^ 2 = (pt.1 - ctr.1) ^ 2 + (pt.2 - ctr.2) ^ 2 :=
  Real.sq_sqrt (by positivity)

/-- `angle` is the polar angle in `[0, 2π)`. -/
theorem angle_spec {pt ctr : ℝ × ℝ} (h : pt ≠ ctr) :
    radius pt ctr * Real.cos (angle ctr pt) = pt.1 - ctr.1 ∧
    radius pt ctr * Real.sin (angle ctr pt) = pt.2 - ctr.2 ∧
    0 ≤ angle ctr pt ∧ angle ctr pt < 2 * Real.pi := by
  have hr := radius_pos h
  have hs := radius_sq pt ctr
  set R := radius pt ctr with hR
  have hR' : Real.sqrt ((pt.1 - ctr.1) ^ 2 + (pt.2 - ctr.2) ^ 2) = R := rfl
  set x := pt.1 - ctr.1 with hx
  set y := pt.2 - ctr.2 with hy
  have hle : |x| ≤ R := abs_le_of_sq_le_sq (by nlinarith [sq_nonneg y]) hr.le
  have h1 : -1 ≤ x / R := by rw [le_div_iff₀ hr]; linarith [(abs_le.1 hle).1]
  have h2 : x / R ≤ 1 := by rw [div_le_one hr]; exact (abs_le.1 hle).2
  have hc : Real.cos (Real.arccos (x / R)) = x / R := Real.cos_arccos h1 h2
  have hsn : Real.sin (Real.arccos (x / R)) = |y| / R := by
    rw [Real.sin_arccos]
    have : 1 - (x / R) ^ 2 = (|y| / R) ^ 2 := by
      rw [div_pow, div_pow, sq_abs]; field_simp; linarith
    rw [this, Real.sqrt_sq (by positivity)]
  have ha : angle ctr pt = if y < 0 then 2 * Real.pi - Real.arccos (x / R) else Real.arccos (x / R) := by
    simp only [angle, ← hx, ← hy, hR', one_mul, zero_mul, add_zero]
  rw [ha]
  have p := Real.pi_pos
  have a0 := Real.arccos_nonneg (x / R)
  have a1 := Real.arccos_le_pi (x / R)
  split_ifs with hy0
  · have hpos : 0 < Real.arccos (x / R) := by
      rcases a0.lt_or_eq with h | h
      · exact h
      · exfalso
        rw [← h, Real.sin_zero] at hsn
        have : 0 < |y| / R := div_pos (abs_pos.2 hy0.ne) hr
        linarith
    refine ⟨?_, ?_, by linarith, by linarith⟩
    · rw [Real.cos_two_pi_sub, hc]; field_simp
    · rw [Real.sin_two_pi_sub, hsn, abs_of_neg hy0]; field_simp
  · refine ⟨?_, ?_, a0, by linarith⟩
    · rw [hc]; field_simp
    · rw [hsn, abs_of_nonneg (not_lt.1 hy0)]; field_simp

theorem arc_ok {c1 c2 ctr : ℝ × ℝ} (h1 : c1 ≠ ctr) (hr : radius c1 ctr = radius c2 ctr) (t1 : ℝ)
    (hc : Real.cos t1 = Real.cos (angle ctr c2)) (hs : Real.sin t1 = Real.sin (angle ctr c2)) :
    EdgeOk c1 c2 (arc ctr.1 ctr.2 (radius c1 ctr) (angle ctr c1) t1) := by
  have h2 : c2 ≠ ctr := by
    rintro rfl
    have : 0 < radius c1 c2 := radius_pos h1
    rw [hr] at this
    simp [radius] at this
  obtain ⟨a1, b1, _⟩ := angle_spec h1
  obtain ⟨a2, b2, _⟩ := angle_spec h2
  have lin' : ∀ o : ℝ, HasDerivAt (fun o => o * (t1 - angle ctr c1) + angle ctr c1) (t1 - angle ctr c1) o := by
    intro o
    simpa using ((hasDerivAt_id o).mul_const (t1 - angle ctr c1)).add_const (angle ctr c1)
  refine ⟨?_, ?_, ?_, ?_, ?_, ?_⟩
  · simp [arc, a1]
  · simp [arc, b1]
  · simp only [arc, one_mul, sub_add_cancel, hc]; rw [hr, a2]; ring
  · simp only [arc, one_mul, sub_add_cancel, hs]; rw [hr, b2]; ring
  · intro o
    have := (((Real.hasDerivAt_cos _).comp o (lin' o)).const_mul (radius c1 ctr)).const_add ctr.1
    refine this.congr_deriv ?_
    simp only [arc]; ring
  · intro o
    have := (((Real.hasDerivAt_sin _).comp o (lin' o)).const_mul (radius c1 ctr)).const_add ctr.2
    refine this.congr_deriv ?_
    simp only [arc]; ring

/-- C55 (2D edges): every edge runs from its first to its second corner and reports its own derivative. -/
theorem c55_edges (c1 c2 : ℝ × ℝ) (et : EdgeType) (h : Provided c1 c2 et) : EdgeOk c1 c2 (et.geometry c1 c2) := by
  cases et with
  | straight =>
    refine ⟨by simp [EdgeType.geometry, straight], by simp [EdgeType.geometry, straight],
      by simp [EdgeType.geometry, straight], by simp [EdgeType.geometry, straight], fun o => ?_, fun o => ?_⟩
    · simpa [EdgeType.geometry, straight] using ((hasDerivAt_id o).mul_const (c2.1 - c1.1)).const_add c1.1
    · simpa [EdgeType.geometry, straight] using ((hasDerivAt_id o).mul_const (c2.2 - c1.2)).const_add c1.2
  | aacw ctr =>
    refine arc_ok h.2 h.1 _ ?_ ?_ <;> rw [aacwEnd] <;> split_ifs <;> simp
  | acw ctr =>
    refine arc_ok h.2 h.1 _ ?_ ?_ <;> rw [acwEnd] <;> split_ifs <;> simp
  | customized X Y Xo Yo => exact h

/-- `pt` turned about `ctr` anticlockwise by `θ`. -/
noncomputable def turn (ctr : ℝ × ℝ) (θ : ℝ) (pt : ℝ × ℝ) : ℝ × ℝ :=
  (ctr.1 + (Real.cos θ * (pt.1 - ctr.1) - Real.sin θ * (pt.2 - ctr.2)),
   ctr.2 + (Real.sin θ * (pt.1 - ctr.1) + Real.cos θ * (pt.2 - ctr.2)))

theorem arc_turn {c1 ctr : ℝ × ℝ} (h1 : c1 ≠ ctr) (t1 o : ℝ) :
    ((arc ctr.1 ctr.2 (radius c1 ctr) (angle ctr c1) t1).X o, (arc ctr.1 ctr.2 (radius c1 ctr) (angle ctr c1) t1).Y o)
      = turn ctr (o * (t1 - angle ctr c1)) c1 := by
  obtain ⟨a1, b1, _⟩ := angle_spec h1
  simp only [arc, turn, ← a1, ← b1, Real.cos_add, Real.sin_add]
  refine Prod.ext ?_ ?_ <;> ring

/-- C55 (arcs): an `aacw` edge turns its first corner anticlockwise about the center with constant speed, by less than
a full turn; an `acw` edge turns it clockwise. -/
theorem c55_arcs (c1 c2 ctr : ℝ × ℝ) (h : radius c1 ctr = radius c2 ctr) (h1 : c1 ≠ ctr) :
    (∃ θ, 0 ≤ θ ∧ θ < 2 * Real.pi ∧
      ∀ o, ((aacw c1 c2 ctr).X o, (aacw c1 c2 ctr).Y o) = turn ctr (o * θ) c1) ∧
    (∃ θ, θ ≤ 0 ∧ -(2 * Real.pi) < θ ∧
      ∀ o, ((acw c1 c2 ctr).X o, (acw c1 c2 ctr).Y o) = turn ctr (o * θ) c1) := by
  have h2 : c2 ≠ ctr := by
    rintro rfl
    have : 0 < radius c1 c2 := radius_pos h1
    rw [h] at this
    simp [radius] at this
  obtain ⟨_, _, p1, q1⟩ := angle_spec h1
  obtain ⟨_, _, p2, q2⟩ := angle_spec h2
  constructor
  · refine ⟨aacwEnd c1 c2 ctr - angle ctr c1, ?_, ?_, fun o => arc_turn h1 _ o⟩ <;> rw [aacwEnd] <;> split_ifs <;>
      linarith
  · refine ⟨acwEnd c1 c2 ctr - angle ctr c1, ?_, ?_, fun o => arc_turn h1 _ o⟩ <;> rw [acwEnd] <;> split_ifs <;>
      linarith

/-! ## Transfinite interpolation in 2D -/

/-- C55 (2D): the transfinite mapping of a region takes the four sides of the unit square to the four edges. -/
theorem c55_transfinite_edges_2d (cc : Fin 4 → ℝ × ℝ) (et : Fin 4 → EdgeType)
    (hU : Provided (cc 0) (cc 2) (et 0)) (hD : Provided (cc 1) (cc 3) (et 1))
    (hL : Provided (cc 0) (cc 1) (et 2)) (hR : Provided (cc 2) (cc 3) (et 3)) (o : ℝ) :
    let E := Two.ofCorners cc et
    Two.transfinite E ![0, o] = ![E.U.X o, E.U.Y o] ∧ Two.transfinite E ![1, o] = ![E.D.X o, E.D.Y o] ∧
    Two.transfinite E ![o, 0] = ![E.L.X o, E.L.Y o] ∧ Two.transfinite E ![o, 1] = ![E.R.X o, E.R.Y o] := by
  intro E
  have u : EdgeOk (cc 0) (cc 2) E.U := c55_edges _ _ _ hU
  have d : EdgeOk (cc 1) (cc 3) E.D := c55_edges _ _ _ hD
  have l : EdgeOk (cc 0) (cc 1) E.L := c55_edges _ _ _ hL
  have r : EdgeOk (cc 2) (cc 3) E.R := c55_edges _ _ _ hR
  refine ⟨?_, ?_, ?_, ?_⟩ <;> funext i <;> fin_cases i <;>
    simp [Two.transfinite, Two.mapC, u.x0, u.y0, u.x1, u.y1, d.x0, d.y0, d.x1, d.y1, l.x0, l.y0, l.x1, l.y1,
      r.x0, r.y0, r.x1, r.y1] <;> ring

theorem mapC_grad {E : Two.Edges ℝ} {c dc : Edge ℝ → ℝ → ℝ} {v : Fin 2 → ℝ}
    (hU : HasDerivAt (c E.U) (dc E.U (v 1)) (v 1)) (hD : HasDerivAt (c E.D) (dc E.D (v 1)) (v 1))
    (hL : HasDerivAt (c E.L) (dc E.L (v 0)) (v 0)) (hR : HasDerivAt (c E.R) (dc E.R (v 0)) (v 0)) :
    Grad (fun w => Two.mapC c E (w 0) (w 1)) ![Two.mapCr c dc E (v 0) (v 1), Two.mapCs c dc E (v 0) (v 1)] v := by
  have r := Grad.proj (0 : Fin 2) v
  have s := Grad.proj (1 : Fin 2) v
  have one := Grad.const (1 : ℝ) v
  have r1 := one.sub r
  have s1 := one.sub s
  have k := fun a : ℝ => Grad.const a v
  have := ((((r1.mul (Grad.comp hU s)).add (r.mul (Grad.comp hD s))).add (s1.mul (Grad.comp hL r))).add
    (s.mul (Grad.comp hR r))).sub (r1.mul ((s1.mul (k (c E.L 0))).add (s.mul (k (c E.R 0)))))
    |>.sub (r.mul ((s1.mul (k (c E.L 1))).add (s.mul (k (c E.R 1)))))
  refine this.congr fun i => ?_
  fin_cases i <;> simp [Two.mapCr, Two.mapCs] <;> ring

/-- C55 (2D): `Jacobian_matrix` of the transfinite interpolation is the derivative of its mapping. -/
theorem c55_transfinite_derivative_2d (cc : Fin 4 → ℝ × ℝ) (et : Fin 4 → EdgeType)
    (hU : Provided (cc 0) (cc 2) (et 0)) (hD : Provided (cc 1) (cc 3) (et 1))
    (hL : Provided (cc 0) (cc 1) (et 2)) (hR : Provided (cc 2) (cc 3) (et 3)) (v : Fin 2 → ℝ) :
    HasFDerivAt (Two.transfinite (Two.ofCorners cc et)) (lin (Two.transfiniteJ (Two.ofCorners cc et) v)) v := by
  have u : EdgeOk (cc 0) (cc 2) (Two.ofCorners cc et).U := c55_edges _ _ _ hU
  have d : EdgeOk (cc 1) (cc 3) (Two.ofCorners cc et).D := c55_edges _ _ _ hD
  have l : EdgeOk (cc 0) (cc 1) (Two.ofCorners cc et).L := c55_edges _ _ _ hL
  have r : EdgeOk (cc 2) (cc 3) (Two.ofCorners cc et).R := c55_edges _ _ _ hR
  refine grad_pi fun i => ?_
  fin_cases i
  · exact mapC_grad (u.dx _) (d.dx _) (l.dx _) (r.dx _)
  · exact mapC_grad (u.dy _) (d.dy _) (l.dy _) (r.dy _)

/-- C55 (2D): with straight edges the mapping is the bilinear one through the corners. -/
theorem c55_bilinear_2d (cc : Fin 4 → ℝ × ℝ) (v : Fin 2 → ℝ) :
    Two.transfinite (Two.ofCorners cc fun _ => .straight) v
      = ![(1 - v 0) * (1 - v 1) * (cc 0).1 + v 0 * (1 - v 1) * (cc 1).1 + (1 - v 0) * v 1 * (cc 2).1
            + v 0 * v 1 * (cc 3).1,
          (1 - v 0) * (1 - v 1) * (cc 0).2 + v 0 * (1 - v 1) * (cc 1).2 + (1 - v 0) * v 1 * (cc 2).2
            + v 0 * v 1 * (cc 3).2] := by
  funext i
  fin_cases i <;> simp [Two.transfinite, Two.mapC, Two.ofCorners, EdgeType.geometry, straight] <;> ring

/-- A region with three straight edges and a quarter of a circle meets the hypotheses. -/
example : Provided ((1, 0) : ℝ × ℝ) (0, 1) (.aacw (0, 0)) := by
  constructor
  · norm_num [radius]
  · intro h; simpa using congrArg Prod.fst h

/-! ## Transfinite interpolation in 3D -/

/-- The twelve edges are the same seen from their two sides (what `___check_line_consistency___`, transfinite.py 35-87,
samples). -/
structure SidesAgree {K : Type*} [Field K] (G : Three.Sides K) : Prop where
  NW : ∀ t, G.N.f 0 t = G.W.f 0 t
  NE : ∀ t, G.N.f 1 t = G.E.f 0 t
  NB : ∀ s, G.N.f s 0 = G.B.f 0 s
  NF : ∀ s, G.N.f s 1 = G.F.f 0 s
  SW : ∀ t, G.S.f 0 t = G.W.f 1 t
  SE : ∀ t, G.S.f 1 t = G.E.f 1 t
  SB : ∀ s, G.S.f s 0 = G.B.f 1 s
  SF : ∀ s, G.S.f s 1 = G.F.f 1 s
  WB : ∀ r, G.W.f r 0 = G.B.f r 0
  WF : ∀ r, G.W.f r 1 = G.F.f r 0
  EB : ∀ r, G.E.f r 0 = G.B.f r 1
  EF : ∀ r, G.E.f r 1 = G.F.f r 1

/-- C55 (3D): the transfinite mapping takes the six sides of the unit cube to the six sides of the region. -/
theorem c55_transfinite_sides_3d {K : Type*} [Field K] (G : Fin 3 → Three.Sides K) (h : ∀ i, SidesAgree (G i)) (p q : K)
    (i : Fin 3) :
    Three.transfinite G ![0, p, q] i = (G i).N.f p q ∧ Three.transfinite G ![1, p, q] i = (G i).S.f p q ∧
    Three.transfinite G ![p, 0, q] i = (G i).W.f p q ∧ Three.transfinite G ![p, 1, q] i = (G i).E.f p q ∧
    Three.transfinite G ![p, q, 0] i = (G i).B.f p q ∧ Three.transfinite G ![p, q, 1] i = (G i).F.f p q := by
  have H := h i
  have c1 := H.WB 0; have c2 := H.WF 0; have c3 := H.EB 0; have c4 := H.EF 0
  have c5 := H.WB 1; have c6 := H.WF 1; have c7 := H.EB 1; have c8 := H.EF 1
  refine ⟨?_, ?_, ?_, ?_, ?_, ?_⟩ <;>
    simp [Three.transfinite, Three.mapC, H.NW, H.NE, H.SW, H.SE, H.NB, H.NF, H.SB, H.SF, H.WB, H.WF, H.EB, H.EF] <;>
    ring

/-- A side reports its own partial derivatives. -/
def SideOk (s : Side ℝ) : Prop := ∀ p q, Grad (n := 2) (fun v => s.f (v 0) (v 1)) ![s.fp p q, s.fq p q] ![p, q]

/-- C55 (3D): `Jacobian_matrix` of the transfinite interpolation is the derivative of its mapping. -/
theorem c55_transfinite_derivative_3d (G : Fin 3 → Three.Sides ℝ)
    (h : ∀ i, SideOk (G i).N ∧ SideOk (G i).S ∧ SideOk (G i).W ∧ SideOk (G i).E ∧ SideOk (G i).B ∧ SideOk (G i).F)
    (v : Fin 3 → ℝ) : HasFDerivAt (Three.transfinite G) (lin (Three.transfiniteJ G v)) v := by
  refine grad_pi fun i => ?_
  obtain ⟨hN, hS, hW, hE, hB, hF⟩ := h i
  change Grad (fun w => Three.mapC (G i) (w 0) (w 1) (w 2)) _ v
  have r := Grad.proj (0 : Fin 3) v
  have s := Grad.proj (1 : Fin 3) v
  have t := Grad.proj (2 : Fin 3) v
  have k := fun a : ℝ => Grad.const a v
  have r1 := (k 1).sub r
  have s1 := (k 1).sub s
  have t1 := (k 1).sub t
  have two : ∀ {sd : Side ℝ}, SideOk sd → ∀ {f g : (Fin 3 → ℝ) → ℝ} {f' g' : Fin 3 → ℝ}, Grad f f' v → Grad g g' v →
      Grad (fun w => sd.f (f w) (g w)) (fun j => sd.fp (f v) (g v) * f' j + sd.fq (f v) (g v) * g' j) v :=
    fun hs _ _ _ _ hf hg => Grad.comp2 (hs _ _) hf hg
  have x1 := (r1.mul (two hN s t)).add (r.mul (two hS s t))
  have x2 := (s1.mul (two hW r t)).add (s.mul (two hE r t))
  have x3 := (t1.mul (two hB r s)).add (t.mul (two hF r s))
  have x12 := ((((r1.mul s1).mul (two hN (k 0) t)).add ((r1.mul s).mul (two hN (k 1) t))).add
    ((r.mul s1).mul (two hS (k 0) t))).add ((r.mul s).mul (two hS (k 1) t))
  have x13 := ((((r1.mul t1).mul (two hN s (k 0))).add ((r1.mul t).mul (two hN s (k 1)))).add
    ((r.mul t1).mul (two hS s (k 0)))).add ((r.mul t).mul (two hS s (k 1)))
  have x23 := ((((s1.mul t1).mul (two hW r (k 0))).add ((s1.mul t).mul (two hW r (k 1)))).add
    ((s.mul t1).mul (two hE r (k 0)))).add ((s.mul t).mul (two hE r (k 1)))
  have na := ((r1.mul s1).mul t1).mul (k ((G i).N.f 0 0))
  have nb := ((r1.mul s1).mul t).mul (k ((G i).N.f 0 1))
  have nc := ((r1.mul s).mul t1).mul (k ((G i).N.f 1 0))
  have nd := ((r1.mul s).mul t).mul (k ((G i).N.f 1 1))
  have sa := ((r.mul s1).mul t1).mul (k ((G i).S.f 0 0))
  have sb := ((r.mul s1).mul t).mul (k ((G i).S.f 0 1))
  have sc := ((r.mul s).mul t1).mul (k ((G i).S.f 1 0))
  have sd := ((r.mul s).mul t).mul (k ((G i).S.f 1 1))
  have x123 := ((((((na.add nb).add nc).add nd).add sa).add sb).add sc).add sd
  have all := (((((x1.add x2).add x3).sub x12).sub x13).sub x23).add x123
  refine all.congr fun j => ?_
  fin_cases j <;> simp [Three.transfiniteJ, Three.mapCr, Three.mapCs, Three.mapCt] <;> ring

theorem plane_ok (d0 d1 d2 d3 : ℝ) : SideOk (plane d0 d1 d2 d3) := by
  intro p q
  have x := Grad.proj (0 : Fin 2) ![p, q]
  have y := Grad.proj (1 : Fin 2) ![p, q]
  have k := fun a : ℝ => Grad.const a ![p, q]
  have := (((((k (d3 - (d1 - d0) - (d2 - d0) - d0)).mul x).mul y).add ((k (d1 - d0)).mul x)).add ((k (d2 - d0)).mul y)).add
    (k d0)
  refine this.congr fun j => ?_
  fin_cases j <;> simp [plane] <;> ring

theorem planes_consistent {K : Type*} [Field K] (c : Fin 8 → K) : SidesAgree (Three.planes c) := by
  constructor <;> intro x <;> simp [Three.planes, plane] <;> ring

/-- C55 (3D): plane sides agree on their edges, the mapping is the trilinear one through the corners NWB, SWB, NEB, SEB, NWF, SWF, NEF,
SEF, and `Jacobian_matrix` is its derivative. -/
theorem c55_planes_3d (cc : Fin 8 → Fin 3 → ℝ) (v : Fin 3 → ℝ) :
    let G := fun i => Three.planes fun k => cc k i
    (∀ i, SidesAgree (G i)) ∧ (∀ i, Three.transfinite G v i
      = (1 - v 0) * (1 - v 1) * (1 - v 2) * cc 0 i + v 0 * (1 - v 1) * (1 - v 2) * cc 1 i
        + (1 - v 0) * v 1 * (1 - v 2) * cc 2 i + v 0 * v 1 * (1 - v 2) * cc 3 i
        + (1 - v 0) * (1 - v 1) * v 2 * cc 4 i + v 0 * (1 - v 1) * v 2 * cc 5 i
        + (1 - v 0) * v 1 * v 2 * cc 6 i + v 0 * v 1 * v 2 * cc 7 i) ∧
    HasFDerivAt (Three.transfinite G) (lin (Three.transfiniteJ G v)) v := by
  intro G
  refine ⟨fun i => planes_consistent _, fun i => ?_, c55_transfinite_derivative_3d G (fun i => ⟨plane_ok _ _ _ _, plane_ok _ _ _ _, plane_ok _ _ _ _,
    plane_ok _ _ _ _, plane_ok _ _ _ _, plane_ok _ _ _ _⟩) v⟩
  simp [G, Three.transfinite, Three.mapC, Three.planes, plane]
  ring

/-- C55 (3D): `Jacobian_matrix` of the orthogonal interpolation is the derivative of its mapping; for a box it is the
mapping of the transfinite interpolation. -/
theorem c55_orthogonal_3d (b : Fin 3 → ℝ × ℝ) (v : Fin 3 → ℝ) :
    HasFDerivAt (Three.orthogonal b) (lin (Three.orthogonalJ b v)) v ∧
    (let cc : Fin 8 → Fin 3 → ℝ := fun k => ![if k.val % 2 = 0 then (b 0).1 else (b 0).2,
        if k.val / 2 % 2 = 0 then (b 1).1 else (b 1).2, if k.val / 4 = 0 then (b 2).1 else (b 2).2]
     Three.orthogonal (Three.bounds cc) v = Three.transfinite (fun i => Three.planes fun k => cc k i) v) := by
  constructor
  · refine grad_pi fun i => ?_
    have := ((Grad.const ((b i).2 - (b i).1) v).mul (Grad.proj i v)).add (Grad.const (b i).1 v)
    refine this.congr fun j => ?_
    fin_cases i <;> fin_cases j <;> simp [Three.orthogonalJ]
  · intro cc
    funext i
    rw [(c55_planes_3d cc v).2.1 i]
    fin_cases i <;> simp [Three.orthogonal, Three.bounds, cc] <;> ring

/-- The check of the twelve edges looks at up to four points only: at 0, 1/3, 1/2, 2/3 and 1 these sides agree, but the
side `N` is not reproduced. -/
theorem c55_check_incomplete : ∃ G : Three.Sides ℚ,
    (∀ x ∈ ([0, 1/3, 1/2, 2/3, 1] : List ℚ),
      G.N.f 0 x = G.W.f 0 x ∧ G.N.f 1 x = G.E.f 0 x ∧ G.N.f x 0 = G.B.f 0 x ∧ G.N.f x 1 = G.F.f 0 x ∧
      G.S.f 0 x = G.W.f 1 x ∧ G.S.f 1 x = G.E.f 1 x ∧ G.S.f x 0 = G.B.f 1 x ∧ G.S.f x 1 = G.F.f 1 x ∧
      G.W.f x 0 = G.B.f x 0 ∧ G.W.f x 1 = G.F.f x 0 ∧ G.E.f x 0 = G.B.f x 1 ∧ G.E.f x 1 = G.F.f x 1) ∧
    Three.transfinite (fun _ => G) ![0, 0, 1/4] 0 ≠ G.N.f 0 (1/4) := by
  let z : Side ℚ := ⟨fun _ _ => 0, fun _ _ => 0, fun _ _ => 0⟩
  refine ⟨⟨z, z, ⟨fun r t => (1 - r) * (t * (t - 1/3) * (t - 1/2) * (t - 2/3) * (t - 1)), fun _ _ => 0, fun _ _ => 0⟩,
    z, z, z⟩, ?_, ?_⟩
  · intro x hx
    simp only [List.mem_cons, List.not_mem_nil, or_false] at hx
    rcases hx with rfl | rfl | rfl | rfl | rfl <;> norm_num [z]
  · simp only [Three.transfinite, Three.mapC, z, Matrix.cons_val]
    norm_num

/-! ## The crazy mappings -/

theorem sin_grad {n : Nat} (i : Fin n) (v : Fin n → ℝ) :
    Grad (fun w => Real.sin (2 * Real.pi * w i)) (fun j => Real.cos (2 * Real.pi * v i) * (2 * Real.pi * if j = i then 1 else 0)) v := by
  have := Grad.comp (Real.hasDerivAt_sin (2 * Real.pi * v i)) ((Grad.const (2 * Real.pi) v).mul (Grad.proj i v))
  refine this.congr fun j => ?_
  simp

/-- C55 (2D): `Jacobian_matrix` of the crazy interpolation is the derivative of its mapping. -/
theorem c55_crazy_derivative_2d (b : Fin 2 → ℝ × ℝ) (c : ℝ) (v : Fin 2 → ℝ) :
    HasFDerivAt (Two.crazy b c) (lin (Two.crazyJ b c v)) v := by
  refine grad_pi fun i => ?_
  have k := fun a : ℝ => Grad.const a v
  have := ((k ((b i).2 - (b i).1)).mul ((Grad.proj i v).add ((((k 0.5).mul (k c)).mul (sin_grad 0 v)).mul
    (sin_grad 1 v)))).add (k (b i).1)
  refine this.congr fun j => ?_
  fin_cases i <;> fin_cases j <;> simp [Two.crazyJ] <;> ring

theorem crazy_eq (b : Fin 3 → ℝ × ℝ) (c : ℝ) (v : Fin 3 → ℝ) (i : Fin 3) :
    Three.crazy b c v i = ((b i).2 - (b i).1) * (v i + 0.5 * c * Real.sin (2 * Real.pi * v 0)
      * Real.sin (2 * Real.pi * v 1) * Real.sin (2 * Real.pi * v 2)) + (b i).1 := by
  rw [Three.crazy]
  split_ifs with h
  · subst h; ring
  · rfl

/-- C55 (3D). -/
theorem c55_crazy_derivative_3d (b : Fin 3 → ℝ × ℝ) (c : ℝ) (v : Fin 3 → ℝ) :
    HasFDerivAt (Three.crazy b c) (lin (Three.crazyJ b c v)) v := by
  refine grad_pi fun i => ?_
  have k := fun a : ℝ => Grad.const a v
  have := ((k ((b i).2 - (b i).1)).mul ((Grad.proj i v).add (((((k 0.5).mul (k c)).mul (sin_grad 0 v)).mul
    (sin_grad 1 v)).mul (sin_grad 2 v)))).add (k (b i).1)
  simp only [crazy_eq]
  refine this.congr fun j => ?_
  by_cases h : c = 0
  · subst h
    fin_cases i <;> fin_cases j <;> simp [Three.crazyJ]
  · fin_cases i <;> fin_cases j <;> simp [Three.crazyJ, h] <;> ring

/-- C55: on the sides of the unit square (cube) the crazy mappings are affine onto the sides of the box, so they do not
depend on `c` there. -/
theorem c55_crazy_boundary (c : ℝ) :
    (∀ (b : Fin 2 → ℝ × ℝ) (v : Fin 2 → ℝ), (∃ j, v j = 0 ∨ v j = 1) →
      ∀ i, Two.crazy b c v i = (b i).1 + v i * ((b i).2 - (b i).1)) ∧
    (∀ (b : Fin 3 → ℝ × ℝ) (v : Fin 3 → ℝ), (∃ j, v j = 0 ∨ v j = 1) →
      ∀ i, Three.crazy b c v i = (b i).1 + v i * ((b i).2 - (b i).1)) := by
  have s0 : ∀ x : ℝ, x = 0 ∨ x = 1 → Real.sin (2 * Real.pi * x) = 0 := by
    rintro x (rfl | rfl) <;> simp
  constructor
  · rintro b v ⟨j, hj⟩ i
    have := s0 _ hj
    fin_cases j <;> simp only [Fin.mk_zero, Fin.mk_one, Fin.isValue] at this <;>
      rw [Two.crazy, this] <;> ring
  · rintro b v ⟨j, hj⟩ i
    have := s0 _ hj
    rw [crazy_eq]
    fin_cases j <;> simp only [Fin.mk_zero, Fin.mk_one, Fin.isValue, Fin.reduceFinMk] at this <;>
      rw [this] <;> ring

theorem det_crazy_2d (b : Fin 2 → ℝ × ℝ) (c : ℝ) (v : Fin 2 → ℝ) :
    Matrix.det (Matrix.of (Two.crazyJ b c v)) = ((b 0).2 - (b 0).1) * ((b 1).2 - (b 1).1)
      * (1 + Real.pi * c * Real.sin (2 * Real.pi * (v 0 + v 1))) := by
  rw [mul_add (2 * Real.pi), Real.sin_add]
  simp [Two.crazyJ, Matrix.det_fin_two]
  ring

/-- C60 (2D): the crazy mapping has a positive Jacobian on the whole unit square exactly when `|c| < 1/π`. -/
theorem c60_regular_2d (b : Fin 2 → ℝ × ℝ) (hb : ∀ i, (b i).1 < (b i).2) (c : ℝ) :
    (∀ v : Fin 2 → ℝ, (∀ i, 0 ≤ v i ∧ v i ≤ 1) → 0 < Matrix.det (Matrix.of (Two.crazyJ b c v))) ↔ Real.pi * |c| < 1 := by
  have pos : 0 < ((b 0).2 - (b 0).1) * ((b 1).2 - (b 1).1) := mul_pos (sub_pos.2 (hb 0)) (sub_pos.2 (hb 1))
  have hp := Real.pi_pos
  simp only [det_crazy_2d, mul_pos_iff_of_pos_left pos]
  constructor
  · intro h
    have h1 := h ![1/4, 0] (by intro i; fin_cases i <;> norm_num)
    have h2 := h ![3/4, 0] (by intro i; fin_cases i <;> norm_num)
    simp only [Matrix.cons_val, add_zero] at h1 h2
    have e1 : 2 * Real.pi * (1/4) = Real.pi / 2 := by ring
    have e2 : 2 * Real.pi * (3/4) = Real.pi / 2 + Real.pi := by ring
    rw [e1, Real.sin_pi_div_two] at h1
    rw [e2, Real.sin_add_pi, Real.sin_pi_div_two] at h2
    rcases abs_cases c with ⟨e, _⟩ | ⟨e, _⟩ <;> rw [e] <;> linarith
  · intro h v _
    have a : |Real.pi * c * Real.sin (2 * Real.pi * (v 0 + v 1))| ≤ Real.pi * |c| := by
      rw [abs_mul, abs_mul, abs_of_pos hp]
      exact mul_le_of_le_one_right (by positivity) (Real.abs_sin_le_one _)
    linarith [(abs_le.1 a).1]

theorem det_crazy_3d (b : Fin 3 → ℝ × ℝ) (c : ℝ) (v : Fin 3 → ℝ) :
    Matrix.det (Matrix.of (Three.crazyJ b c v)) = (((b 0).2 - (b 0).1) * ((b 1).2 - (b 1).1) * ((b 2).2 - (b 2).1))
      * (1 + Real.pi * c * (Real.sin (2 * Real.pi * v 2) * Real.sin (2 * Real.pi * v 0 + 2 * Real.pi * v 1)
        + Real.cos (2 * Real.pi * v 2) * (Real.sin (2 * Real.pi * v 0) * Real.sin (2 * Real.pi * v 1)))) := by
  rw [Real.sin_add]
  by_cases h : c = 0
  · subst h
    simp [Three.crazyJ, Matrix.det_fin_three]
  · simp [Three.crazyJ, Matrix.det_fin_three, h]
    ring

theorem crazy_amplitude (x y z : ℝ) :
    (Real.sin z * Real.sin (x + y) + Real.cos z * (Real.sin x * Real.sin y)) ^ 2 ≤ 4 / 3 := by
  have h1 : 2 * (Real.sin x * Real.sin y) = Real.cos (x - y) - Real.cos (x + y) := by
    rw [Real.cos_sub, Real.cos_add]; ring
  set B := Real.sin x * Real.sin y
  set A := Real.sin (x + y)
  have h2 : A ^ 2 + Real.cos (x + y) ^ 2 = 1 := Real.sin_sq_add_cos_sq _
  set k := Real.cos (x + y)
  have h3 := Real.cos_le_one (x - y)
  have h4 := Real.neg_one_le_cos (x - y)
  have h5 : B ^ 2 ≤ (1 + |k|) ^ 2 / 4 := by
    have : |2 * B| ≤ 1 + |k| := by
      rw [h1]
      exact (abs_sub _ _).trans (add_le_add (Real.abs_cos_le_one _) le_rfl)
    have := pow_le_pow_left₀ (abs_nonneg _) this 2
    rw [sq_abs] at this
    linarith
  have h6 : A ^ 2 + B ^ 2 ≤ 4 / 3 := by
    have := sq_abs k
    nlinarith [sq_nonneg (|k| - 1 / 3)]
  have h7 := Real.sin_sq_add_cos_sq z
  nlinarith [sq_nonneg (Real.sin z * B - Real.cos z * A)]

/-- C60 (3D): the crazy mapping has a positive Jacobian on the whole unit cube exactly when `|c| < √3/(2π)`. -/
theorem c60_regular_3d (b : Fin 3 → ℝ × ℝ) (hb : ∀ i, (b i).1 < (b i).2) (c : ℝ) :
    (∀ v : Fin 3 → ℝ, (∀ i, 0 ≤ v i ∧ v i ≤ 1) → 0 < Matrix.det (Matrix.of (Three.crazyJ b c v))) ↔
      2 * Real.pi * |c| < Real.sqrt 3 := by
  have pos : 0 < ((b 0).2 - (b 0).1) * ((b 1).2 - (b 1).1) * ((b 2).2 - (b 2).1) :=
    mul_pos (mul_pos (sub_pos.2 (hb 0)) (sub_pos.2 (hb 1))) (sub_pos.2 (hb 2))
  have hp := Real.pi_pos
  have h3 : Real.sqrt 3 ^ 2 = 3 := Real.sq_sqrt (by norm_num)
  have h3p : 0 < Real.sqrt 3 := Real.sqrt_pos.2 (by norm_num)
  simp only [det_crazy_3d, mul_pos_iff_of_pos_left pos]
  constructor
  · intro h
    have key : ∀ e : ℝ, e ^ 2 = 1 → 0 < Real.sqrt 3 + 2 * Real.pi * c * e := by
      intro e he
      set u := e * Real.sqrt 3 / 3 with hu
      have hu2 : u ^ 2 = 1 / 3 := by rw [hu, div_pow, mul_pow, he, h3]; norm_num
      have hu1 : -1 ≤ u ∧ u ≤ 1 := by constructor <;> nlinarith
      set a := Real.arccos u with ha
      have c1 : Real.cos a = u := Real.cos_arccos hu1.1 hu1.2
      have s1 : Real.sin a ^ 2 = 2 / 3 := by
        have := Real.sin_sq_add_cos_sq a
        rw [c1, hu2] at this; linarith
      have a0 := Real.arccos_nonneg u
      have a1 := Real.arccos_le_pi u
      have q0 : 0 ≤ a / (2 * Real.pi) := by positivity
      have q1 : a / (2 * Real.pi) ≤ 1 := by rw [div_le_one (by positivity)]; linarith
      have hh := h ![a / (2 * Real.pi), a / (2 * Real.pi), a / (2 * Real.pi)] (by
        intro i; fin_cases i <;> exact ⟨q0, q1⟩)
      simp only [Matrix.cons_val] at hh
      have e1 : 2 * Real.pi * (a / (2 * Real.pi)) = a := by field_simp
      rw [e1, Real.sin_add, c1] at hh
      have e2 : Real.sin a * (Real.sin a * u + u * Real.sin a) + u * (Real.sin a * Real.sin a) = 2 * u := by
        linear_combination 3 * u * s1
      rw [e2, hu] at hh
      have : 0 < Real.sqrt 3 * (1 + Real.pi * c * (2 * (e * Real.sqrt 3 / 3))) := mul_pos h3p hh
      have e3 : Real.sqrt 3 * (1 + Real.pi * c * (2 * (e * Real.sqrt 3 / 3)))
          = Real.sqrt 3 + 2 * Real.pi * c * e * (Real.sqrt 3 ^ 2 / 3) := by ring
      rw [e3, h3] at this
      linarith
    have k1 := key 1 (by norm_num)
    have k2 := key (-1) (by norm_num)
    rcases abs_cases c with ⟨e, _⟩ | ⟨e, _⟩ <;> rw [e] <;> linarith
  · intro h v _
    have am := crazy_amplitude (2 * Real.pi * v 0) (2 * Real.pi * v 1) (2 * Real.pi * v 2)
    set S := Real.sin (2 * Real.pi * v 2) * Real.sin (2 * Real.pi * v 0 + 2 * Real.pi * v 1)
        + Real.cos (2 * Real.pi * v 2) * (Real.sin (2 * Real.pi * v 0) * Real.sin (2 * Real.pi * v 1))
    have hs : |Real.pi * c * S| < 1 := by
      rw [← sq_lt_one_iff_abs_lt_one, mul_pow]
      have hc : (2 * Real.pi * |c|) ^ 2 < 3 := by
        rw [← h3]; exact pow_lt_pow_left₀ h (by positivity) (by norm_num)
      rw [mul_pow, sq_abs] at hc
      have : (Real.pi * c) ^ 2 < 3 / 4 := by nlinarith
      nlinarith [sq_nonneg (Real.pi * c), sq_nonneg S]
    linarith [(abs_lt.1 hs).1]

/-- C60: all the 2D crazy meshes that `random_parameters` draws (`c` in `[0, 0.3)`, `_2d/.../inputs/crazy.py` 57) are
regular. -/
theorem c60_random_2d (b : Fin 2 → ℝ × ℝ) (hb : ∀ i, (b i).1 < (b i).2) (c : ℝ) (h0 : 0 ≤ c) (h1 : c < 0.3)
    (v : Fin 2 → ℝ) (hv : ∀ i, 0 ≤ v i ∧ v i ≤ 1) : 0 < Matrix.det (Matrix.of (Two.crazyJ b c v)) := by
  refine (c60_regular_2d b hb c).2 ?_ v hv
  rw [abs_of_nonneg h0]
  nlinarith [Real.pi_lt_d2, Real.pi_pos]

/-- C60: in 3D this is only so up to `c = 0.27`; missing: `c` in `[0.27, 0.3)`, where it fails (`c60_folds`). -/
theorem c60_random_3d_partial (b : Fin 3 → ℝ × ℝ) (hb : ∀ i, (b i).1 < (b i).2) (c : ℝ) (h0 : 0 ≤ c) (h1 : c ≤ 0.27)
    (v : Fin 3 → ℝ) (hv : ∀ i, 0 ≤ v i ∧ v i ≤ 1) : 0 < Matrix.det (Matrix.of (Three.crazyJ b c v)) := by
  refine (c60_regular_3d b hb c).2 ?_ v hv
  rw [abs_of_nonneg h0]
  refine lt_of_le_of_lt (b := 1.701) (by nlinarith [Real.pi_lt_d2, Real.pi_pos]) ?_
  exact Real.lt_sqrt_of_sq_lt (by norm_num)

/-- `random_parameters` of 3D crazy meshes draws `c` from `[0, 0.3)` too (`_3d/.../inputs/crazy.py` 59): the mesh with
`c = 0.29` is folded. -/
theorem c60_folds (b : Fin 3 → ℝ × ℝ) (hb : ∀ i, (b i).1 < (b i).2) :
    ∃ v : Fin 3 → ℝ, (∀ i, 0 ≤ v i ∧ v i ≤ 1) ∧ Matrix.det (Matrix.of (Three.crazyJ b 0.29 v)) ≤ 0 := by
  by_contra hn
  push Not at hn
  rw [c60_regular_3d b hb, abs_of_pos (by norm_num)] at hn
  have h3 : Real.sqrt 3 ^ 2 = 3 := Real.sq_sqrt (by norm_num)
  nlinarith [Real.pi_gt_d2, Real.sqrt_nonneg 3]

end Mifem.Props
