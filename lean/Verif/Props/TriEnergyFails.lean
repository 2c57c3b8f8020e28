import Verif.Props.TriEnergyInner

/-!
# C99: products of 1-forms of different orientations
-/

namespace Mifem.Props

open Mifem.Tri Mifem.Basis Mifem.Disc Mifem.Quadrature Mifem.Vortex Finset MeasureTheory

section
variable {p : Nat} {nodes : List ℝ}

/-- **C99, energies with itself.**  `inner` of a form with itself gives its energy. -/
theorem c99_with_self (h : TriNodes p nodes) {gauss : Nat → Rule ℝ} (hg : ∀ d, GaussRule (d + 1) (gauss d)) (e : FormElt ℝ)
    (hpos : 0 < cross (e.pts 0) (e.pts 1) (e.pts 2)) :
    bilinear (1 + p * (p + 1)) (1 + p * (p + 1)) (opZero gauss p nodes nodes e.pts) e.w e.w =
      elementEnergy 2 .zero p nodes (gauss (p + 1)) e ∧
    bilinear (oneDofs p .inner) (oneDofs p .inner) (opOne gauss p .inner .inner nodes nodes e.T e.T e.pts) e.w e.w =
      elementEnergy 2 .inner p nodes (gauss (p + 1)) e ∧
    bilinear (oneDofs p .outer) (oneDofs p .outer) (opOne gauss p .outer .outer nodes nodes e.T e.T e.pts) e.w e.w =
      elementEnergy 2 .outer p nodes (gauss (p + 1)) e ∧
    bilinear (p * p) (p * p) (opTwo gauss p nodes nodes e.pts) e.w e.w = elementEnergy 2 .two p nodes (gauss (p + 1)) e := by
  simp only [op_zero h h, op_one h h, op_two h h hpos hg, elementEnergy_grid, Kind.comps, sum_range_succ, sum_range_zero, zero_add, values,
    reconOne, Fin.sum_univ_two, sq, if_true, one_ne_zero, if_false, and_self]

end

theorem edge_half (t : ℝ) : edgeAt ([-1, 1] : List ℝ) 0 t = 1 / 2 := by
  have a := edge_eq_deriv triNodes1 (k := 0) (by omega) t
  have b : (fun t => ∑ i ∈ range (1 + 1), (if 0 < i then (1 : ℝ) else 0) * lagrangeAt ([-1, 1] : List ℝ) i t) = fun t => (t + 1) / 2 := by
    funext t
    simp [sum_range_succ, lagrangeAt, node, List.range_succ]
    ring
  rw [b] at a
  exact a.unique (((hasDerivAt_id t).add_const 1).div_const 2)

theorem lagrange_one (t : ℝ) : lagrangeAt ([-1, 1] : List ℝ) 1 t = (t + 1) / 2 := by
  simp [lagrangeAt, node, List.range_succ]
  ring

/-- A triangle whose sides at the singular vertex differ. -/
def longTri : Fin 3 → ℝ × ℝ := ![(0, 0), (2, 0), (0, 1)]

theorem longTri_pos : 0 < cross (longTri 0) (longTri 1) (longTri 2) := by simp [cross, longTri]

/-- **C99, inner products, disagreement.**  `inner` accepts an outer 1-form as `other` of an inner 1-form.  In a triangle with sides of
different lengths the fields of the first dof of the inner and of the last dof of the outer form (`p = 1`) are orthogonal everywhere, but the
entry of the matrix is not 0. -/
theorem c99_mixed_fails {gauss : Nat → Rule ℝ} (hg : ∀ d, GaussRule (d + 1) (gauss d)) :
    (∀ φ ψ : (Fin 2 → ℝ) → Fin 2 → ℝ,
      (∀ v ∈ openSquare, φ (mapping longTri v) = reconOne .inner 1 [-1, 1] (fun _ => 1) longTri [v 0] [v 1] (Pi.single 0 1) 0) →
      (∀ v ∈ openSquare, ψ (mapping longTri v) = reconOne .outer 1 [-1, 1] (fun _ => 1) longTri [v 0] [v 1] (Pi.single 2 1) 0) →
      ∫ x in insideTri longTri, dotProduct (φ x) (ψ x) = 0) ∧
    bilinear (oneDofs 1 .inner) (oneDofs 1 .outer) (opOne gauss 1 .inner .outer [-1, 1] [-1, 1] (fun _ => 1) (fun _ => 1) longTri)
      (Pi.single 0 1) (Pi.single 2 1) = -1 / 4 := by
  constructor
  · intro φ ψ hφ hψ
    rw [triangle_integral longTri_pos (Poly2.const 0 0) _ fun v hv => ?_]
    · simp [squareInt]
    · simp only [hφ v hv, hψ v hv]
      simp only [reconOne, reconInner, reconOuter, basisInner, basisOuter, withTransition, basisDx, basisDy, einsum, kron, vstack, rowsFrom,
        nodeBasis, edgeBasis, slice, dotProduct, Fin.sum_univ_two]
      simp [List.range_succ, Pi.single_apply]
      left
      ring
  · have e1 : bilinear (oneDofs 1 .inner) (oneDofs 1 .outer) (opOne gauss 1 .inner .outer [-1, 1] [-1, 1] (fun _ => 1) (fun _ => 1) longTri)
        (Pi.single 0 1) (Pi.single 2 1) = opOne gauss 1 .inner .outer [-1, 1] [-1, 1] (fun _ => 1) (fun _ => 1) longTri 0 2 := by
      simp [bilinear, oneDofs, List.range_succ, Pi.single_apply]
    set r := gauss (1 + 1) with hr
    have hR : GaussRule 3 r := hg 2
    have e2 : opOne gauss 1 .inner .outer [-1, 1] [-1, 1] (fun _ => 1) (fun _ => 1) longTri 0 2 =
        gridSum r fun x y => detAt longTri x y *
          Metric.Two.inverseMetricMatrix (Metric.Two.inverse (jacobianMatrix longTri ![x, y])) 0 1 * ((y + 1) / 4) ^ 2 := by
      rw [← grid_sum]
      simp only [opOne, Metric.bmat2, basisOne, ← hr]
      have s1 : (basisInner ([-1, 1] : List ℝ) (fun _ => 1) (rpts r) (rpts r)).1.rows = 1 := (sizes_inner triNodes1 _ _ _).1
      have s2 : (basisOuter ([-1, 1] : List ℝ) (fun _ => 1) (rpts r) (rpts r)).1.rows = 2 := (sizes_outer triNodes1 _ _ _).1
      have s3 : (basisOuter ([-1, 1] : List ℝ) (fun _ => 1) (rpts r) (rpts r)).2.cols = r.n * r.n := by
        rw [(sizes_outer triNodes1 _ _ _).2.2.2, rpts_length]
      simp only [s1, s2, Nat.lt_irrefl, if_false, Nat.zero_lt_one, if_true, Matrix.cons_val_zero, Matrix.cons_val_one, Matrix.cons_val_fin_one,
        Nat.sub_self, Metric.gram, s3, range_map_sum]
      refine sum_congr rfl fun m _ => ?_
      rw [two_jacobian]
      simp [basisInner, basisOuter, withTransition, basisDx, basisDy, kron, vstack, rowsFrom, nodeBasis, edgeBasis, edge_half, lagrange_one,
        Basis.Two.meshgrid, gridJ]
      ring
    rw [e1, e2]
    have hP : Poly2 2 fun x y : ℝ => -((y + 1) ^ 2 * (3 + 5 * x)) / 64 := by
      have := (Poly2.prod (d := 2) (Polynomial.C 3 + Polynomial.C 5 * Polynomial.X) ((Polynomial.X + Polynomial.C 1) ^ 2)
        ((Polynomial.natDegree_add_le _ _).trans (by
          rw [Polynomial.natDegree_C]
          exact max_le (by omega) (((Polynomial.natDegree_C_mul_le _ _).trans Polynomial.natDegree_X_le).trans (by omega))))
        (Polynomial.natDegree_pow_le.trans (by rw [Polynomial.natDegree_X_add_C]))).smul (-1 / 64)
      exact this.congr fun x y => by simp; ring
    have hc : ∀ x y : ℝ, -1 < y → detAt longTri x y *
          Metric.Two.inverseMetricMatrix (Metric.Two.inverse (jacobianMatrix longTri ![x, y])) 0 1 * ((y + 1) / 4) ^ 2 =
          -((y + 1) ^ 2 * (3 + 5 * x)) / 64 := by
      intro x y hy
      have hy' : y + 1 ≠ 0 := by linarith
      have j00 : jacobianMatrix longTri ![x, y] 0 0 = (y + 1) / 2 := by
        simp [jacobianMatrix, Region.Two.transfiniteJ, Region.Two.mapCr, Region.Two.mapCs, edges, longTri]; ring
      have j01 : jacobianMatrix longTri ![x, y] 0 1 = (1 + x) / 2 := by
        simp [jacobianMatrix, Region.Two.transfiniteJ, Region.Two.mapCr, Region.Two.mapCs, edges, longTri]; ring
      have j10 : jacobianMatrix longTri ![x, y] 1 0 = -(y + 1) / 4 := by
        simp [jacobianMatrix, Region.Two.transfiniteJ, Region.Two.mapCr, Region.Two.mapCs, edges, longTri]; ring
      have j11 : jacobianMatrix longTri ![x, y] 1 1 = (1 - x) / 4 := by
        simp [jacobianMatrix, Region.Two.transfiniteJ, Region.Two.mapCr, Region.Two.mapCs, edges, longTri]; ring
      have hdet : (y + 1) / 2 * ((1 - x) / 4) - (1 + x) / 2 * (-(y + 1) / 4) = (y + 1) / 4 := by ring
      rw [detAt, Matrix.det_fin_two]
      simp only [Metric.two_imetric_apply, Metric.Two.inverse, Matrix.of_apply, Fin.sum_univ_two, Matrix.cons_val_zero, Matrix.cons_val_one,
        Matrix.cons_val_fin_one, j00, j01, j10, j11, hdet]
      field_simp
      ring
    rw [exact_degree hg hP (by omega) hc, squareInt_congr hc]
    have i1 : ∀ y : ℝ, ∫ x in (-1 : ℝ)..1, -((y + 1) ^ 2 * (3 + 5 * x)) / 64 = -(y + 1) ^ 2 * (3 / 32) := by
      intro y
      have : (fun x : ℝ => -((y + 1) ^ 2 * (3 + 5 * x)) / 64) = fun x => (-(y + 1) ^ 2 / 64) * (3 + 5 * x) := by
        funext x; ring
      have i0 : ∫ x in (-1 : ℝ)..1, (3 + 5 * x) = 6 := by
        have hi : IntervalIntegrable (fun x : ℝ => 5 * x) volume (-1) 1 := (continuous_const.mul continuous_id).intervalIntegrable _ _
        have hj : IntervalIntegrable (fun _ : ℝ => (3 : ℝ)) volume (-1) 1 := continuous_const.intervalIntegrable _ _
        rw [intervalIntegral.integral_add hj hi, intervalIntegral.integral_const_mul, intervalIntegral.integral_const, integral_id]
        norm_num
      rw [this, intervalIntegral.integral_const_mul, i0]
      ring
    rw [squareInt]
    simp only [i1]
    have : (fun y : ℝ => -(y + 1) ^ 2 * (3 / 32)) = fun y => (-3 / 32) * (y + 1) ^ 2 := by funext y; ring
    rw [this, intervalIntegral.integral_const_mul, intervalIntegral.integral_comp_add_right fun y => y ^ 2, integral_pow]
    norm_num

end Mifem.Props
