import Verif.Props.TriEnergy

/-!
# C99: inner products of two forms on triangular meshes
-/

namespace Mifem.Props

open Mifem.Tri Mifem.Basis Mifem.Disc Mifem.Quadrature Mifem.Vortex Finset MeasureTheory

section
variable {p p' : Nat} {nodes nodes' : List ℝ}

/-- The number of dofs of a 1-form in the first component and in total. -/
def oneFirst (p : Nat) : Orient → Nat
  | .inner => p ^ 2
  | .outer => p * (p + 1)

/-- The number of dofs of a 1-form. -/
def oneDofs (p : Nat) : Orient → Nat
  | .inner => p ^ 2 + p * (p + 1)
  | .outer => p * (p + 1) + p ^ 2

/-- The values of a 1-form. -/
noncomputable def reconOne (o : Orient) (p : Nat) (nodes : List ℝ) (T : Nat → Int) (pts : Fin 3 → ℝ × ℝ) (xs ys : List ℝ) (w : Nat → ℝ)
    (c : Nat) : Fin 2 → ℝ :=
  match o with
  | .inner => reconInner p nodes T pts xs ys w c
  | .outer => reconOuter p nodes T pts xs ys w c

theorem reconOne_point (o : Orient) (T : Nat → Int) (pts : Fin 3 → ℝ × ℝ) (xs ys : List ℝ) (w : Nat → ℝ) (c : Nat) :
    reconOne o p nodes T pts xs ys w c =
      reconOne o p nodes T pts [(Basis.Two.meshgrid xs ys c).1] [(Basis.Two.meshgrid xs ys c).2] w 0 := by
  obtain ⟨-, h1, h2, -⟩ := c97_meshgrid p nodes xs ys T pts w c
  cases o
  · exact h1
  · exact h2

theorem poly_reconOne (h : TriNodes p nodes) (o : Orient) (T : Nat → Int) {pts : Fin 3 → ℝ × ℝ} (hpos : 0 < cross (pts 0) (pts 1) (pts 2))
    (w : Nat → ℝ) (k : Fin 2) : ∃ F, Poly2 p F ∧ ∀ x y, -1 < y → reconOne o p nodes T pts [x] [y] w 0 k = F x y := by
  cases o
  · exact poly_reconInner h T hpos w k
  · exact poly_reconOuter h T hpos w k

theorem op_zero (h : TriNodes p nodes) (h' : TriNodes p' nodes') (pts : Fin 3 → ℝ × ℝ) (gauss : Nat → Rule ℝ) (a b : Nat → ℝ) :
    bilinear (1 + p * (p + 1)) (1 + p' * (p' + 1)) (opZero gauss p nodes nodes' pts) a b =
      gridSum (gauss (p + 1)) fun x y => recon0 nodes [x] [y] a 0 * recon0 nodes' [x] [y] b 0 * detAt pts x y := by
  set r := gauss (p + 1) with hr
  have e := Metric.inner0_form (fun m => Metric.Two.jacobian (gridJ pts (rpts r) (rpts r) m)) (ravelWeight [r, r])
    (basisS0 nodes (rpts r) (rpts r)) (basisS0 nodes' (rpts r) (rpts r)) a b
  rw [rows_zero h, rows_zero h', cols_zero, rpts_length] at e
  simp only [bilinear, range_map_sum]
  refine Eq.trans e ?_
  rw [← grid_sum]
  refine sum_congr rfl fun m _ => ?_
  have g := fun w => (c97_meshgrid p nodes (rpts r) (rpts r) (fun _ => 1) pts w m).1
  have g' := fun w => (c97_meshgrid p nodes' (rpts r) (rpts r) (fun _ => 1) pts w m).1
  simp only [recon0] at g g'
  simp only [recon0, two_jacobian, g, g']
  ring

theorem op_two (h : TriNodes p nodes) (h' : TriNodes p' nodes') {pts : Fin 3 → ℝ × ℝ} (hpos : 0 < cross (pts 0) (pts 1) (pts 2))
    {gauss : Nat → Rule ℝ} (hg : ∀ d, GaussRule (d + 1) (gauss d)) (a b : Nat → ℝ) :
    bilinear (p * p) (p' * p') (opTwo gauss p nodes nodes' pts) a b =
      gridSum (gauss (p + 1)) fun x y => recon2 nodes pts [x] [y] a 0 * recon2 nodes' pts [x] [y] b 0 * detAt pts x y := by
  set r := gauss (p + 1)
  have hr : GaussRule (p + 2) r := hg (p + 1)
  have e := Metric.innerTop_form (fun m => Metric.Two.jacobian (gridJ pts (rpts r) (rpts r) m)) (ravelWeight [r, r])
    (basisS2 nodes (rpts r) (rpts r)) (basisS2 nodes' (rpts r) (rpts r)) a b (fun m hm => by
      rw [cols_two, rpts_length] at hm
      rw [two_jacobian]; exact (grid_det hpos hr hm).ne')
  rw [rows_two h, rows_two h', cols_two, rpts_length] at e
  simp only [bilinear, range_map_sum]
  refine Eq.trans e ?_
  rw [← grid_sum]
  refine sum_congr rfl fun m hm => ?_
  have g := fun w => (c97_meshgrid p nodes (rpts r) (rpts r) (fun _ => 1) pts w m).2.2.2
  have g' := fun w => (c97_meshgrid p nodes' (rpts r) (rpts r) (fun _ => 1) pts w m).2.2.2
  have hd := (grid_det hpos hr (mem_range.1 hm)).ne'
  simp only [← g, ← g', recon2_eq_grid pts _ _ _ m hd, two_jacobian]
  ring

theorem op_one (h : TriNodes p nodes) (h' : TriNodes p' nodes') (o : Orient) (T T' : Nat → Int) (pts : Fin 3 → ℝ × ℝ)
    (gauss : Nat → Rule ℝ) (a b : Nat → ℝ) :
    bilinear (oneDofs p o) (oneDofs p' o) (opOne gauss p o o nodes nodes' T T' pts) a b =
      gridSum (gauss (p + 1)) fun x y =>
        (∑ k, reconOne o p nodes T pts [x] [y] a 0 k * reconOne o p' nodes' T' pts [x] [y] b 0 k) * detAt pts x y := by
  set r := gauss (p + 1) with hr
  simp only [bilinear, range_map_sum]
  cases o with
  | inner =>
    obtain ⟨s1, s2, s3, s4⟩ := sizes_inner h T (rpts r) (rpts r)
    obtain ⟨t1, t2, t3, t4⟩ := sizes_inner h' T' (rpts r) (rpts r)
    let O : Fin 2 → Arr ℝ := ![(basisInner nodes T (rpts r) (rpts r)).1, (basisInner nodes T (rpts r) (rpts r)).2]
    let S : Fin 2 → Arr ℝ := ![(basisInner nodes' T' (rpts r) (rpts r)).1, (basisInner nodes' T' (rpts r) (rpts r)).2]
    have e := Metric.innerInner1_form (orth := false) (same := false) (gridJ pts (rpts r) (rpts r)) (fun m ho => by simp at ho)
      (ravelWeight [r, r]) O S (r.n * r.n) (fun k => by fin_cases k <;> simp [S, t3, t4, rpts_length]) (fun h => by simp at h) a b
    have eq : ∀ i j, opOne gauss p .inner .inner nodes nodes' T T' pts i j =
        Metric.Two.innerInner1 false false (gridJ pts (rpts r) (rpts r)) (ravelWeight [r, r]) O S i j := by
      intro i j
      simp only [opOne, Metric.Two.innerInner1, basisOne, ← hr]
      congr 1
      funext k l i j
      fin_cases k <;> fin_cases l <;> simp [O, S]
    simp only [← eq] at e
    simp only [O, S, Matrix.cons_val_zero, Matrix.cons_val_one, Matrix.cons_val_fin_one, s1, s2, t1, t2] at e
    refine Eq.trans e ?_
    rw [← grid_sum]
    refine sum_congr rfl fun m hm => ?_
    have g := fun w => (c97_meshgrid p nodes (rpts r) (rpts r) T pts w m).2.1
    have g' := fun w => (c97_meshgrid p' nodes' (rpts r) (rpts r) T' pts w m).2.1
    simp only [reconOne, ← g, ← g', two_jacobian]
    simp only [Fin.sum_univ_two, Metric.Two.valueInner1, reconInner, inverseAt, gridJ]
    simp
    ring
  | outer =>
    obtain ⟨s1, s2, s3, s4⟩ := sizes_outer h T (rpts r) (rpts r)
    obtain ⟨t1, t2, t3, t4⟩ := sizes_outer h' T' (rpts r) (rpts r)
    let O : Fin 2 → Arr ℝ := ![(basisOuter nodes T (rpts r) (rpts r)).1, (basisOuter nodes T (rpts r) (rpts r)).2]
    let S : Fin 2 → Arr ℝ := ![(basisOuter nodes' T' (rpts r) (rpts r)).1, (basisOuter nodes' T' (rpts r) (rpts r)).2]
    have e := Metric.innerOuter1_form (orth := false) (same := false) (gridJ pts (rpts r) (rpts r)) (fun m ho => by simp at ho)
      (ravelWeight [r, r]) O S (r.n * r.n) (fun k => by fin_cases k <;> simp [S, t3, t4, rpts_length]) (fun h => by simp at h) a b
    have eq : ∀ i j, opOne gauss p .outer .outer nodes nodes' T T' pts i j =
        Metric.Two.innerOuter1 false false (gridJ pts (rpts r) (rpts r)) (ravelWeight [r, r]) O S i j := by
      intro i j
      simp only [opOne, Metric.Two.innerOuter1, basisOne, ← hr]
      congr 1
      funext k l i j
      fin_cases k <;> fin_cases l <;> simp [O, S]
    simp only [← eq] at e
    simp only [O, S, Matrix.cons_val_zero, Matrix.cons_val_one, Matrix.cons_val_fin_one, s1, s2, t1, t2] at e
    refine Eq.trans e ?_
    rw [← grid_sum]
    refine sum_congr rfl fun m hm => ?_
    have g := fun w => (c97_meshgrid p nodes (rpts r) (rpts r) T pts w m).2.2.1
    have g' := fun w => (c97_meshgrid p' nodes' (rpts r) (rpts r) T' pts w m).2.2.1
    simp only [reconOne, ← g, ← g', two_jacobian]
    simp only [Fin.sum_univ_two, Metric.Two.valueOuter1, reconOuter, inverseAt, gridJ]
    simp
    ring

/-- **C99, inner products.**  Let `other` have a degree `p'` of at most `p + 2`.  For two 0-forms and for two 1-forms of the same
orientation the matrix of `operators.inner` with the local cochains gives the integral of the product of the two fields over the triangle. -/
theorem c99_inner_partial (h : TriNodes p nodes) (h' : TriNodes p' nodes') (hp : p' ≤ p + 2) {pts : Fin 3 → ℝ × ℝ}
    (hpos : 0 < cross (pts 0) (pts 1) (pts 2)) {gauss : Nat → Rule ℝ} (hg : ∀ d, GaussRule (d + 1) (gauss d)) (a b : Nat → ℝ) :
    (∀ φ ψ : (Fin 2 → ℝ) → ℝ, (∀ v ∈ openSquare, φ (mapping pts v) = recon0 nodes [v 0] [v 1] a 0) →
      (∀ v ∈ openSquare, ψ (mapping pts v) = recon0 nodes' [v 0] [v 1] b 0) →
      bilinear (1 + p * (p + 1)) (1 + p' * (p' + 1)) (opZero gauss p nodes nodes' pts) a b = ∫ x in insideTri pts, φ x * ψ x) ∧
    ∀ (o : Orient) (T T' : Nat → Int) (φ ψ : (Fin 2 → ℝ) → Fin 2 → ℝ),
      (∀ v ∈ openSquare, φ (mapping pts v) = reconOne o p nodes T pts [v 0] [v 1] a 0) →
      (∀ v ∈ openSquare, ψ (mapping pts v) = reconOne o p' nodes' T' pts [v 0] [v 1] b 0) →
      bilinear (oneDofs p o) (oneDofs p' o) (opOne gauss p o o nodes nodes' T T' pts) a b =
        ∫ x in insideTri pts, dotProduct (φ x) (ψ x) := by
  refine ⟨fun φ ψ hφ hψ => ?_, fun o T T' φ ψ hφ hψ => ?_⟩
  · have hP := ((poly_recon0 h a).mul (poly_recon0 h' b)).mul (poly_det pts)
    rw [op_zero h h', exact_degree hg hP (by omega) fun _ _ _ => rfl]
    exact (triangle_integral hpos hP _ fun v hv => by beta_reduce; rw [hφ v hv, hψ v hv]).symm
  · choose F hF eF using fun k => poly_reconOne h o T hpos a k
    choose G hG eG using fun k => poly_reconOne h' o T' hpos b k
    have hP := (Poly2.sum univ (fun k x y => F k x y * G k x y) fun k _ => (hF k).mul (hG k)).mul (poly_det pts)
    rw [op_one h h', exact_degree hg hP (by omega) fun x y hy => by simp only [eF _ x y hy, eG _ x y hy]]
    rw [triangle_integral hpos hP _
      fun v hv => by simp only [dotProduct, hφ v hv, hψ v hv, eF _ (v 0) (v 1) (hv 1).1, eG _ (v 0) (v 1) (hv 1).1]]
    exact squareInt_congr fun x y hy => by simp only [eF _ x y hy, eG _ x y hy]

/-- **C99, the mass matrix.**  `inner` of a form with itself is its mass matrix. -/
theorem c99_self (gauss : Nat → Rule ℝ) (p : Nat) (nodes : List ℝ) (T : Nat → Int) (pts : Fin 3 → ℝ × ℝ) :
    opZero gauss p nodes nodes pts = massZero gauss p nodes pts ∧
    opTwo gauss p nodes nodes pts = massTwo gauss p nodes pts ∧
    opOne gauss p .inner .inner nodes nodes T T pts = massOneInner gauss p nodes T pts ∧
    opOne gauss p .outer .outer nodes nodes T T pts = massOneOuter gauss p nodes T pts := by
  have gs : ∀ (q q' : Nat → ℝ) (A B : Arr ℝ) (_ : ∀ m, q m = q' m) (_ : A.cols = B.cols) (i j : Nat),
      Metric.gram q A B i j = Metric.gram q' B A j i := by
    intro q q' A B hq hc i j
    simp only [Metric.gram, hc, hq]
    congr 2
    funext m
    ring
  have gsym : ∀ xs m, Metric.Two.inverseMetricMatrix (Metric.Two.inverse (gridJ pts xs xs m)) 1 0 =
      Metric.Two.inverseMetricMatrix (Metric.Two.inverse (gridJ pts xs xs m)) 0 1 := fun xs m => Metric.two_imetric_symm _ 1 0
  have cI : ∀ xs : List ℝ, (basisInner nodes T xs xs).1.cols = (basisInner nodes T xs xs).2.cols := fun xs => by
    simp [basisInner, withTransition, basisDx, basisDy, kron, rowsFrom, vstack, nodeBasis, edgeBasis]
  have cO : ∀ xs : List ℝ, (basisOuter nodes T xs xs).1.cols = (basisOuter nodes T xs xs).2.cols := fun xs => by
    simp [basisOuter, withTransition, basisDx, basisDy, kron, rowsFrom, vstack, nodeBasis, edgeBasis]
  refine ⟨rfl, rfl, ?_, ?_⟩
  · funext i j
    simp only [opOne, massOneInner, massInner, basisOne]
    congr 4
    funext i j
    refine gs _ _ _ _ (fun m => ?_) (cI _).symm i j
    rw [gsym]
  · funext i j
    simp only [opOne, massOneOuter, massOuter, basisOne]
    congr 4
    funext i j
    refine gs _ _ _ _ (fun m => ?_) (cO _).symm i j
    rw [gsym]

/-- **C99, exchange.**  The product of two forms is the same from both sides, if the degrees differ by at most 2. -/
theorem c99_exchange (h : TriNodes p nodes) (h' : TriNodes p' nodes') (hp : p' ≤ p + 2) (hp' : p ≤ p' + 2) {pts : Fin 3 → ℝ × ℝ}
    (hpos : 0 < cross (pts 0) (pts 1) (pts 2)) {gauss : Nat → Rule ℝ} (hg : ∀ d, GaussRule (d + 1) (gauss d)) (a b : Nat → ℝ) :
    bilinear (1 + p * (p + 1)) (1 + p' * (p' + 1)) (opZero gauss p nodes nodes' pts) a b =
      bilinear (1 + p' * (p' + 1)) (1 + p * (p + 1)) (opZero gauss p' nodes' nodes pts) b a ∧
    ∀ (o : Orient) (T T' : Nat → Int), bilinear (oneDofs p o) (oneDofs p' o) (opOne gauss p o o nodes nodes' T T' pts) a b =
      bilinear (oneDofs p' o) (oneDofs p o) (opOne gauss p' o o nodes' nodes T' T pts) b a := by
  constructor
  · obtain ⟨φ, hφ⟩ := field_exists hpos fun v => recon0 nodes [v 0] [v 1] a 0
    obtain ⟨ψ, hψ⟩ := field_exists hpos fun v => recon0 nodes' [v 0] [v 1] b 0
    rw [(c99_inner_partial h h' hp hpos hg a b).1 φ ψ hφ hψ, (c99_inner_partial h' h hp' hpos hg b a).1 ψ φ hψ hφ]
    simp only [mul_comm]
  · intro o T T'
    obtain ⟨φ, hφ⟩ := field_exists hpos fun v => reconOne o p nodes T pts [v 0] [v 1] a 0
    obtain ⟨ψ, hψ⟩ := field_exists hpos fun v => reconOne o p' nodes' T' pts [v 0] [v 1] b 0
    rw [(c99_inner_partial h h' hp hpos hg a b).2 o T T' φ ψ hφ hψ, (c99_inner_partial h' h hp' hpos hg b a).2 o T' T ψ φ hψ hφ]
    simp only [dotProduct_comm]

/-- **C99, energies with another form.**  `compute_L2_energy_with` sums the integrals of all elements of all cores. -/
theorem c99_energy_with {ι : Type*} (n m : Nat) (M : ι → Nat → Nat → ℝ) (a b : ι → Nat → ℝ) (I : ι → ℝ) (cores : List (List ι))
    (hI : ∀ e ∈ cores.flatten, bilinear n m (M e) (a e) (b e) = I e) : energyWith n m M a b cores = (cores.flatten.map I).sum := by
  rw [energyWith, List.map_flatten, List.sum_flatten, List.map_map]
  refine congrArg List.sum (List.map_congr_left fun es hes => ?_)
  have : (es.map fun e => bilinear n m (M e) (a e) (b e)) = es.map I :=
    List.map_congr_left fun e he => hI e (List.mem_flatten.2 ⟨es, hes, he⟩)
  simp only [this]
  split_ifs with h0
  · simp [List.length_eq_zero_iff.1 h0]
  · rfl

end

end Mifem.Props
