import Verif.Props.TriCochains
import Mathlib.Algebra.MvPolynomial.PDeriv
import Mathlib.Algebra.MvPolynomial.Polynomial
import Mathlib.Algebra.Polynomial.Derivative
import Mathlib.Algebra.Polynomial.Eval.Degree

/-! # C66: on triangular meshes discretization commutes with the derivatives -/

namespace Mifem.Props
open Mifem.Tri
open Polynomial

section
variable {F : Type*} [Field F] [LinearOrder F] [IsStrictOrderedRing F]

/-- The quadrature rule integrates `t ^ k` over `[-1, 1]` exactly for `k ≤ d`. -/
def ExactQuad (q : Quad F) (d : Nat) : Prop :=
  ∀ k ≤ d, (q.map fun t => t.2 * t.1 ^ k).sum = (1 - (-1) ^ (k + 1)) / ((k : F) + 1)

omit [LinearOrder F] [IsStrictOrderedRing F] in
theorem sum_finset_list {α : Type*} (l : List α) (n : Nat) (g : Nat → α → F) :
    (l.map fun a => ∑ k ∈ Finset.range n, g k a).sum = ∑ k ∈ Finset.range n, (l.map (g k)).sum := by
  induction l with
  | nil => simp
  | cons a l ih => simp [ih, Finset.sum_add_distrib]

theorem quad_poly {q : Quad F} {d : Nat} (hq : ExactQuad q d) (R : F[X]) (hR : R.natDegree ≤ d) :
    (q.map fun t => t.2 * R.eval t.1).sum = ∑ k ∈ Finset.range (d + 1), R.coeff k * ((1 - (-1) ^ (k + 1)) / ((k : F) + 1)) := by
  have e : (fun t : F × F => t.2 * R.eval t.1) = fun t => ∑ k ∈ Finset.range (d + 1), R.coeff k * (t.2 * t.1 ^ k) := by
    funext t
    rw [Polynomial.eval_eq_sum_range' (Nat.lt_succ_of_le hR), Finset.mul_sum]
    refine Finset.sum_congr rfl fun k _ => ?_
    ring
  rw [e, sum_finset_list]
  refine Finset.sum_congr rfl fun k hk => ?_
  rw [List.sum_map_mul_left, hq k (by simp at hk; omega)]

theorem quad_same {q q' : Quad F} {d : Nat} (hq : ExactQuad q d) (hq' : ExactQuad q' d) (R : F[X]) (hR : R.natDegree ≤ d) :
    (q.map fun t => t.2 * R.eval t.1).sum = (q'.map fun t => t.2 * R.eval t.1).sum := by
  rw [quad_poly hq R hR, quad_poly hq' R hR]

/-- An exact rule gives the difference of the end values for a derivative. -/
theorem quad_deriv {q : Quad F} {d : Nat} (hq : ExactQuad q d) (R : F[X]) (hR : R.natDegree ≤ d + 1) :
    (q.map fun t => t.2 * (derivative R).eval t.1).sum = R.eval 1 - R.eval (-1) := by
  rw [quad_poly hq _ ((natDegree_derivative_le R).trans (by omega)),
    Polynomial.eval_eq_sum_range' (n := d + 2) (by omega) 1, Polynomial.eval_eq_sum_range' (n := d + 2) (by omega) (-1),
    Finset.sum_range_succ' _ (d + 1), Finset.sum_range_succ' _ (d + 1)]
  simp only [pow_zero, add_sub_add_right_eq_sub]
  rw [← Finset.sum_sub_distrib]
  refine Finset.sum_congr rfl fun k _ => ?_
  rw [coeff_derivative]
  have : (k : F) + 1 ≠ 0 := by positivity
  field_simp
  ring

/-! ## Polynomials along lines -/

omit [LinearOrder F] [IsStrictOrderedRing F] in
theorem eval_along (L : Fin 2 → F[X]) (P : MvPolynomial (Fin 2) F) (t : F) :
    (MvPolynomial.aeval L P).eval t = MvPolynomial.eval (fun c => (L c).eval t) P := by
  induction P using MvPolynomial.induction_on with
  | C a => simp
  | add p q hp hq => simp [hp, hq]
  | mul_X p i hp => simp [hp]

omit [LinearOrder F] [IsStrictOrderedRing F] in
theorem deriv_along (L : Fin 2 → F[X]) (P : MvPolynomial (Fin 2) F) :
    derivative (MvPolynomial.aeval L P) = ∑ c, MvPolynomial.aeval L (MvPolynomial.pderiv c P) * derivative (L c) := by
  induction P using MvPolynomial.induction_on with
  | C a => simp
  | add p q hp hq => simp [hp, hq, add_mul, Finset.sum_add_distrib]
  | mul_X p i hp =>
    simp only [map_mul, MvPolynomial.aeval_X, derivative_mul, hp, Derivation.leibniz, map_add, smul_eq_mul,
      MvPolynomial.pderiv_X, Fin.sum_univ_two, Pi.single_apply]
    fin_cases i <;> simp <;> ring

/-- The node of a cell as a polynomial of the quadrature node. -/
noncomputable def nodeP (x : Nat → F) (i : Nat) : F[X] := C (1 / 2 * (x (i + 1) - x i)) * (X + 1) + C (x i)

omit [LinearOrder F] [IsStrictOrderedRing F] in
theorem eval_nodeP (x : Nat → F) (i : Nat) (t : F) : (nodeP x i).eval t = cellNode x i t := by
  simp [nodeP, cellNode]

omit [LinearOrder F] [IsStrictOrderedRing F] in
theorem derivative_nodeP (x : Nat → F) (i : Nat) : derivative (nodeP x i) = C (1 / 2 * (x (i + 1) - x i)) := by
  simp only [nodeP, derivative_add, derivative_C, add_zero, derivative_C_mul, derivative_X, derivative_one, mul_one]

omit [LinearOrder F] [IsStrictOrderedRing F] in
theorem natDegree_nodeP (x : Nat → F) (i : Nat) : (nodeP x i).natDegree ≤ 1 := by
  unfold nodeP; compute_degree

theorem cellNode_ends (x : Nat → F) (i : Nat) : cellNode x i 1 = x (i + 1) ∧ cellNode x i (-1) = x i := by
  constructor <;> simp only [cellNode] <;> ring

omit [LinearOrder F] [IsStrictOrderedRing F] in
theorem natDegree_affine (a b : F) (x : Nat → F) (i : Nat) : (C a + C b * nodeP x i).natDegree ≤ 1 := by
  refine (natDegree_add_le _ _).trans (max_le (by simp) ?_)
  exact (natDegree_C_mul_le _ _).trans (natDegree_nodeP x i)

/-- The mapping is linear in each reference coordinate. -/
theorem mapping_lines (pts : Fin 3 → F × F) (a b : F) (c : Fin 2) :
    mapping pts ![a, b] c = mapping pts ![0, b] c + jacobianMatrix pts ![0, b] c 0 * a ∧
    mapping pts ![a, b] c = mapping pts ![a, 0] c + jacobianMatrix pts ![a, 0] c 1 * b ∧
    jacobianMatrix pts ![a, b] c 0 = jacobianMatrix pts ![0, b] c 0 ∧
    jacobianMatrix pts ![a, b] c 1 = jacobianMatrix pts ![a, 0] c 1 ∧
    ∃ κ, (∀ a b, jacobianMatrix pts ![a, b] c 0 = jacobianMatrix pts ![a, 0] c 0 + κ * b) ∧
      ∀ a b, jacobianMatrix pts ![a, b] c 1 = jacobianMatrix pts ![0, b] c 1 + κ * a := by
  have h2 : (2 : F) ≠ 0 := two_ne_zero
  refine ⟨?_, ?_, ?_, ?_, ?_⟩
  · rw [mapping_eq _ _ h2, mapping_eq _ _ h2]
    fin_cases c <;> simp [bary, jacobianMatrix, Region.Two.transfiniteJ, Region.Two.mapCr, Region.Two.mapCs, edges] <;> field_simp <;> ring
  · rw [mapping_eq _ _ h2, mapping_eq _ _ h2]
    fin_cases c <;> simp [bary, jacobianMatrix, Region.Two.transfiniteJ, Region.Two.mapCr, Region.Two.mapCs, edges] <;> field_simp <;> ring
  · fin_cases c <;> simp [jacobianMatrix, Region.Two.transfiniteJ, Region.Two.mapCr, Region.Two.mapCs, edges] <;> ring
  · fin_cases c <;> simp [jacobianMatrix, Region.Two.transfiniteJ, Region.Two.mapCr, Region.Two.mapCs, edges] <;> ring
  · refine ⟨(![(pts 1).1, (pts 1).2] c - ![(pts 2).1, (pts 2).2] c) / 4, ?_, ?_⟩ <;> intro a b <;>
      fin_cases c <;> simp [jacobianMatrix, Region.Two.transfiniteJ, Region.Two.mapCr, Region.Two.mapCs, edges] <;> ring

/-- The mapping along the first reference coordinate. -/
noncomputable def alongX (pts : Fin 3 → F × F) (x : Nat → F) (i : Nat) (b : F) (c : Fin 2) : F[X] :=
  C (mapping pts ![0, b] c) + C (jacobianMatrix pts ![0, b] c 0) * nodeP x i

/-- The mapping along the second reference coordinate. -/
noncomputable def alongY (pts : Fin 3 → F × F) (x : Nat → F) (j : Nat) (a : F) (c : Fin 2) : F[X] :=
  C (mapping pts ![a, 0] c) + C (jacobianMatrix pts ![a, 0] c 1) * nodeP x j

theorem eval_alongX (pts : Fin 3 → F × F) (x : Nat → F) (i : Nat) (b t : F) (P : MvPolynomial (Fin 2) F) :
    (MvPolynomial.aeval (alongX pts x i b) P).eval t = MvPolynomial.eval (mapping pts ![cellNode x i t, b]) P := by
  rw [eval_along]
  congr 2
  funext c
  simp only [alongX, eval_add, eval_mul, eval_C, eval_nodeP]
  exact ((mapping_lines pts _ _ c).1).symm

theorem eval_alongY (pts : Fin 3 → F × F) (x : Nat → F) (j : Nat) (a t : F) (P : MvPolynomial (Fin 2) F) :
    (MvPolynomial.aeval (alongY pts x j a) P).eval t = MvPolynomial.eval (mapping pts ![a, cellNode x j t]) P := by
  rw [eval_along]
  congr 2
  funext c
  simp only [alongY, eval_add, eval_mul, eval_C, eval_nodeP]
  exact ((mapping_lines pts _ _ c).2.1).symm

theorem eval_deriv_alongX (pts : Fin 3 → F × F) (x : Nat → F) (i : Nat) (b t : F) (P : MvPolynomial (Fin 2) F) :
    (derivative (MvPolynomial.aeval (alongX pts x i b) P)).eval t =
      (∑ c, MvPolynomial.eval (mapping pts ![cellNode x i t, b]) (MvPolynomial.pderiv c P) *
        jacobianMatrix pts ![cellNode x i t, b] c 0) * ((x (i + 1) - x i) * (1 / 2)) := by
  rw [deriv_along, eval_finsetSum, Finset.sum_mul]
  refine Finset.sum_congr rfl fun c _ => ?_
  rw [eval_mul, eval_alongX, (mapping_lines pts _ _ c).2.2.1]
  simp only [alongX, derivative_add, derivative_C, zero_add, derivative_C_mul, derivative_nodeP, eval_mul, eval_C]
  ring

theorem eval_deriv_alongY (pts : Fin 3 → F × F) (x : Nat → F) (j : Nat) (a t : F) (P : MvPolynomial (Fin 2) F) :
    (derivative (MvPolynomial.aeval (alongY pts x j a) P)).eval t =
      (∑ c, MvPolynomial.eval (mapping pts ![a, cellNode x j t]) (MvPolynomial.pderiv c P) *
        jacobianMatrix pts ![a, cellNode x j t] c 1) * ((x (j + 1) - x j) * (1 / 2)) := by
  rw [deriv_along, eval_finsetSum, Finset.sum_mul]
  refine Finset.sum_congr rfl fun c _ => ?_
  rw [eval_mul, eval_alongY, (mapping_lines pts _ _ c).2.2.2.1]
  simp only [alongY, derivative_add, derivative_C, zero_add, derivative_C_mul, derivative_nodeP, eval_mul, eval_C]
  ring

theorem natDegree_alongX (pts : Fin 3 → F × F) (x : Nat → F) (i : Nat) (b : F) (P : MvPolynomial (Fin 2) F) {m : Nat}
    (hP : P.totalDegree ≤ m) : (MvPolynomial.aeval (alongX pts x i b) P).natDegree ≤ m := by
  have := MvPolynomial.aeval_natDegree_le P hP (alongX pts x i b) (n := 1) fun c => natDegree_affine _ _ x i
  simpa using this

theorem natDegree_alongY (pts : Fin 3 → F × F) (x : Nat → F) (j : Nat) (a : F) (P : MvPolynomial (Fin 2) F) {m : Nat}
    (hP : P.totalDegree ≤ m) : (MvPolynomial.aeval (alongY pts x j a) P).natDegree ≤ m := by
  have := MvPolynomial.aeval_natDegree_le P hP (alongY pts x j a) (n := 1) fun c => natDegree_affine _ _ x j
  simpa using this

/-! ## Gradient and curl -/

/-- The gradient of a polynomial. -/
noncomputable def gradP (P : MvPolynomial (Fin 2) F) (z : Fin 2 → F) : Fin 2 → F :=
  ![MvPolynomial.eval z (MvPolynomial.pderiv 0 P), MvPolynomial.eval z (MvPolynomial.pderiv 1 P)]

/-- The curl of a scalar polynomial, `(∂P/∂y, -∂P/∂x)`. -/
noncomputable def curlP (P : MvPolynomial (Fin 2) F) (z : Fin 2 → F) : Fin 2 → F :=
  ![MvPolynomial.eval z (MvPolynomial.pderiv 1 P), -MvPolynomial.eval z (MvPolynomial.pderiv 0 P)]

theorem innerDx_grad (x : Nat → F) {q : Quad F} {d : Nat} (hq : ExactQuad q d) (pts : Fin 3 → F × F)
    (P : MvPolynomial (Fin 2) F) (hP : P.totalDegree ≤ d + 1) (i j : Nat) :
    innerDx x q pts (gradP P) i j =
      MvPolynomial.eval (mapping pts ![x (i + 1), x j]) P - MvPolynomial.eval (mapping pts ![x i, x j]) P := by
  have h := quad_deriv hq _ (natDegree_alongX pts x i (x j) P hP)
  rw [eval_alongX, eval_alongX, (cellNode_ends x i).1, (cellNode_ends x i).2] at h
  rw [← h, innerDx]
  congr 1
  apply List.map_congr_left
  intro t _
  rw [eval_deriv_alongX, Fin.sum_univ_two]
  simp only [gradP, Matrix.cons_val_zero, Matrix.cons_val_one]
  ring

theorem innerDy_grad (x : Nat → F) {q : Quad F} {d : Nat} (hq : ExactQuad q d) (pts : Fin 3 → F × F)
    (P : MvPolynomial (Fin 2) F) (hP : P.totalDegree ≤ d + 1) (i j : Nat) :
    innerDy x q pts (gradP P) i j =
      MvPolynomial.eval (mapping pts ![x i, x (j + 1)]) P - MvPolynomial.eval (mapping pts ![x i, x j]) P := by
  have h := quad_deriv hq _ (natDegree_alongY pts x j (x i) P hP)
  rw [eval_alongY, eval_alongY, (cellNode_ends x j).1, (cellNode_ends x j).2] at h
  rw [← h, innerDy]
  congr 1
  apply List.map_congr_left
  intro t _
  rw [eval_deriv_alongY, Fin.sum_univ_two]
  simp only [gradP, Matrix.cons_val_zero, Matrix.cons_val_one]
  ring

/-- C66: the discretized gradient is the gradient of the discretized function. -/
theorem c66_grad (p : Nat) (x : Nat → F) (hx : SymmetricNodes p x) (q : Quad F) (d : Nat) (hq : ExactQuad q d)
    (pts : Fin 3 → F × F) (T : Nat → Int) (P : MvPolynomial (Fin 2) F) (hP : P.totalDegree ≤ d + 1) (r : Nat) (hr : r < num1 p) :
    (discretizeInner p x q pts (gradP P) T)[r]? = some (coboundary0 (num0 p) (setAll (gradInner p)) T
      (fun k => ((discretize0 p x pts fun z => MvPolynomial.eval z P)[k]?).getD 0) r) := by
  obtain ⟨y, hy, rfl⟩ := segNumInner_surj p r hr
  rw [discretizeInner_at p x q pts _ T y hy, coboundary0_eq]
  congr 2
  obtain ⟨b, i, j⟩ := y
  cases b
  · simp only [ValidSeg, Bool.false_eq_true, if_false] at hy
    refine Eq.trans ?_ (grad_dx p _ i j hy.1 hy.2.1 hy.2.2).symm
    rw [discretize0_at p x hx _ _ _ _ (by omega) hy.2.2, discretize0_at p x hx _ _ _ _ (by omega) hy.2.2]
    exact innerDx_grad x hq pts P hP i j
  · simp only [ValidSeg, if_true] at hy
    refine Eq.trans ?_ (grad_dy p _ i j hy.1 hy.2).symm
    rw [discretize0_at p x hx _ _ _ _ hy.1 hy.2, discretize0_at p x hx _ _ _ _ hy.1 (by omega)]
    exact innerDy_grad x hq pts P hP i j

/-- C66: the discretized curl is the curl of the discretized function. -/
theorem c66_curl (p : Nat) (x : Nat → F) (hx : SymmetricNodes p x) (q : Quad F) (d : Nat) (hq : ExactQuad q d)
    (pts : Fin 3 → F × F) (T : Nat → Int) (P : MvPolynomial (Fin 2) F) (hP : P.totalDegree ≤ d + 1) (r : Nat) (hr : r < num1 p) :
    (discretizeOuter p x q pts (curlP P) T)[r]? = some (coboundary0 (num0 p) (setAll (curlOuter p)) T
      (fun k => ((discretize0 p x pts fun z => MvPolynomial.eval z P)[k]?).getD 0) r) := by
  obtain ⟨y, hy, rfl⟩ := segNumOuter_surj p r hr
  rw [discretizeOuter_at p x q pts _ T y hy, coboundary0_eq]
  congr 2
  have turn : (fun z => ![-(curlP P z 1), curlP P z 0]) = gradP P := by
    funext z
    simp [curlP, gradP]
  obtain ⟨b, i, j⟩ := y
  cases b
  · simp only [ValidSeg, Bool.false_eq_true, if_false] at hy
    refine Eq.trans ?_ (curl_dx p _ i j hy.1 hy.2.1 hy.2.2).symm
    rw [discretize0_at p x hx _ _ _ _ (by omega) hy.2.2, discretize0_at p x hx _ _ _ _ (by omega) hy.2.2]
    refine ((outer_eq_inner x q pts (curlP P) i j).2).trans ?_
    rw [turn, innerDx_grad x hq pts P hP i j]
    simp
  · simp only [ValidSeg, if_true] at hy
    refine Eq.trans ?_ (curl_dy p _ i j hy.1 hy.2).symm
    rw [discretize0_at p x hx _ _ _ _ hy.1 hy.2, discretize0_at p x hx _ _ _ _ hy.1 (by omega)]
    refine ((outer_eq_inner x q pts (curlP P) i j).1).trans ?_
    rw [turn]
    exact innerDy_grad x hq pts P hP i j

/-! ## Divergence and rot -/

/-- A polynomial vector field. -/
noncomputable def fieldP (P : Fin 2 → MvPolynomial (Fin 2) F) (z : Fin 2 → F) : Fin 2 → F :=
  fun c => MvPolynomial.eval z (P c)

/-- Its divergence. -/
noncomputable def divP (P : Fin 2 → MvPolynomial (Fin 2) F) (z : Fin 2 → F) : F :=
  MvPolynomial.eval z (MvPolynomial.pderiv 0 (P 0)) + MvPolynomial.eval z (MvPolynomial.pderiv 1 (P 1))

/-- Its rot. -/
noncomputable def rotP (P : Fin 2 → MvPolynomial (Fin 2) F) (z : Fin 2 → F) : F :=
  MvPolynomial.eval z (MvPolynomial.pderiv 0 (P 1)) - MvPolynomial.eval z (MvPolynomial.pderiv 1 (P 0))

/-- Flux density through a line of the second reference coordinate, along the first one. -/
noncomputable def fluxX (pts : Fin 3 → F × F) (x : Nat → F) (i : Nat) (b : F) (κ : Fin 2 → F) (P : Fin 2 → MvPolynomial (Fin 2) F) : F[X] :=
  MvPolynomial.aeval (alongX pts x i b) (P 0) * (C (jacobianMatrix pts ![0, b] 1 1) + C (κ 1) * nodeP x i) -
    MvPolynomial.aeval (alongX pts x i b) (P 1) * (C (jacobianMatrix pts ![0, b] 0 1) + C (κ 0) * nodeP x i)

/-- Flux density through a line of the first reference coordinate, along the second one. -/
noncomputable def fluxY (pts : Fin 3 → F × F) (x : Nat → F) (j : Nat) (a : F) (κ : Fin 2 → F) (P : Fin 2 → MvPolynomial (Fin 2) F) : F[X] :=
  MvPolynomial.aeval (alongY pts x j a) (P 1) * (C (jacobianMatrix pts ![a, 0] 0 0) + C (κ 0) * nodeP x j) -
    MvPolynomial.aeval (alongY pts x j a) (P 0) * (C (jacobianMatrix pts ![a, 0] 1 0) + C (κ 1) * nodeP x j)

theorem natDegree_flux (A B L M : F[X]) {d : Nat} (hA : A.natDegree ≤ d) (hB : B.natDegree ≤ d) (hL : L.natDegree ≤ 1)
    (hM : M.natDegree ≤ 1) : (A * L - B * M).natDegree ≤ d + 1 := by
  refine (natDegree_sub_le _ _).trans (max_le ?_ ?_)
  · exact natDegree_mul_le.trans (add_le_add hA hL)
  · exact natDegree_mul_le.trans (add_le_add hB hM)

theorem list_swap (q0 q1 : Quad F) (g : F × F → F × F → F) :
    (q0.map fun s => (q1.map fun t => g s t).sum).sum = (q1.map fun t => (q0.map fun s => g s t).sum).sum := by
  induction q0 with
  | nil => simp
  | cons a l ih => simp [ih, List.sum_map_add]

/-- The divergence theorem on a cell, for a polynomial field. -/
theorem cell_div (x : Nat → F) {q0 q1 q : Quad F} {d : Nat} (h0 : ExactQuad q0 d) (h1 : ExactQuad q1 d) (hq : ExactQuad q d)
    (pts : Fin 3 → F × F) (P : Fin 2 → MvPolynomial (Fin 2) F) (hP : ∀ c, (P c).totalDegree ≤ d) (i j : Nat) :
    (q0.map fun s => (q1.map fun t =>
      let v := ![(s.1 + 1) * (x (i + 1) - x i) / 2 + x i, (t.1 + 1) * (x (j + 1) - x j) / 2 + x j]
      divP P (mapping pts v) * jacobian pts v * s.2 * t.2 * ((x (i + 1) - x i) * (x (j + 1) - x j) * (1 / 4))).sum).sum =
    outerDx x q pts (fieldP P) i (j + 1) - outerDx x q pts (fieldP P) i j +
      outerDy x q pts (fieldP P) (i + 1) j - outerDy x q pts (fieldP P) i j := by
  obtain ⟨κ0, k00, k01⟩ := (mapping_lines pts 0 0 0).2.2.2.2
  obtain ⟨κ1, k10, k11⟩ := (mapping_lines pts 0 0 1).2.2.2.2
  set κ : Fin 2 → F := ![κ0, κ1] with hκ
  -- the fluxes with the rule of the 2-form
  have dy : ∀ i, outerDy x q pts (fieldP P) i j = (q1.map fun t => t.2 * ((x (j + 1) - x j) * (1 / 2) *
      (fieldP P (mapping pts ![x i, cellNode x j t.1]) 0 * jacobianMatrix pts ![x i, cellNode x j t.1] 1 1 -
       fieldP P (mapping pts ![x i, cellNode x j t.1]) 1 * jacobianMatrix pts ![x i, cellNode x j t.1] 0 1))).sum := by
    intro i
    have deg : (C ((x (j + 1) - x j) * (1 / 2)) * (MvPolynomial.aeval (alongY pts x j (x i)) (P 0) * C (jacobianMatrix pts ![x i, 0] 1 1) -
        MvPolynomial.aeval (alongY pts x j (x i)) (P 1) * C (jacobianMatrix pts ![x i, 0] 0 1))).natDegree ≤ d := by
      refine (natDegree_C_mul_le _ _).trans ((natDegree_sub_le _ _).trans (max_le ?_ ?_))
      · exact (natDegree_mul_C_le _ _).trans (natDegree_alongY pts x j _ _ (hP 0))
      · exact (natDegree_mul_C_le _ _).trans (natDegree_alongY pts x j _ _ (hP 1))
    have same := quad_same hq h1 _ deg
    simp only [eval_mul, eval_sub, eval_C, eval_alongY] at same
    rw [outerDy]
    refine Eq.trans ?_ (same.trans ?_)
    · congr 1
      apply List.map_congr_left
      intro t _
      simp only [fieldP, (mapping_lines pts (x i) (cellNode x j t.1) 0).2.2.2.1, (mapping_lines pts (x i) (cellNode x j t.1) 1).2.2.2.1]
      ring
    · congr 1
  have dx : ∀ j, outerDx x q pts (fieldP P) i j = (q0.map fun s => s.2 * ((x (i + 1) - x i) * (1 / 2) *
      (fieldP P (mapping pts ![cellNode x i s.1, x j]) 1 * jacobianMatrix pts ![cellNode x i s.1, x j] 0 0 -
       fieldP P (mapping pts ![cellNode x i s.1, x j]) 0 * jacobianMatrix pts ![cellNode x i s.1, x j] 1 0))).sum := by
    intro j
    have deg : (C ((x (i + 1) - x i) * (1 / 2)) * (MvPolynomial.aeval (alongX pts x i (x j)) (P 1) * C (jacobianMatrix pts ![0, x j] 0 0) -
        MvPolynomial.aeval (alongX pts x i (x j)) (P 0) * C (jacobianMatrix pts ![0, x j] 1 0))).natDegree ≤ d := by
      refine (natDegree_C_mul_le _ _).trans ((natDegree_sub_le _ _).trans (max_le ?_ ?_))
      · exact (natDegree_mul_C_le _ _).trans (natDegree_alongX pts x i _ _ (hP 1))
      · exact (natDegree_mul_C_le _ _).trans (natDegree_alongX pts x i _ _ (hP 0))
    have same := quad_same hq h0 _ deg
    simp only [eval_mul, eval_sub, eval_C, eval_alongX] at same
    rw [outerDx]
    refine Eq.trans ?_ (same.trans ?_)
    · congr 1
      apply List.map_congr_left
      intro t _
      simp only [fieldP, (mapping_lines pts (cellNode x i t.1) (x j) 0).2.2.1, (mapping_lines pts (cellNode x i t.1) (x j) 1).2.2.1]
      ring
    · congr 1
  -- the integrals of the derivatives
  have fx : ∀ b, (q0.map fun s => s.2 * (derivative (fluxX pts x i b κ P)).eval s.1).sum =
      (fluxX pts x i b κ P).eval 1 - (fluxX pts x i b κ P).eval (-1) := fun b =>
    quad_deriv h0 _ (natDegree_flux _ _ _ _ (natDegree_alongX pts x i b _ (hP 0)) (natDegree_alongX pts x i b _ (hP 1))
      (natDegree_affine _ _ x i) (natDegree_affine _ _ x i))
  have fy : ∀ a, (q1.map fun t => t.2 * (derivative (fluxY pts x j a κ P)).eval t.1).sum =
      (fluxY pts x j a κ P).eval 1 - (fluxY pts x j a κ P).eval (-1) := fun a =>
    quad_deriv h1 _ (natDegree_flux _ _ _ _ (natDegree_alongY pts x j a _ (hP 1)) (natDegree_alongY pts x j a _ (hP 0))
      (natDegree_affine _ _ x j) (natDegree_affine _ _ x j))
  have ex : ∀ b s, (fluxX pts x i b κ P).eval s =
      fieldP P (mapping pts ![cellNode x i s, b]) 0 * jacobianMatrix pts ![cellNode x i s, b] 1 1 -
      fieldP P (mapping pts ![cellNode x i s, b]) 1 * jacobianMatrix pts ![cellNode x i s, b] 0 1 := by
    intro b s
    simp only [fluxX, eval_sub, eval_mul, eval_add, eval_C, eval_alongX, eval_nodeP, fieldP, k01 (cellNode x i s), k11 (cellNode x i s), hκ,
      Matrix.cons_val_zero, Matrix.cons_val_one]
  have ey : ∀ a t, (fluxY pts x j a κ P).eval t =
      fieldP P (mapping pts ![a, cellNode x j t]) 1 * jacobianMatrix pts ![a, cellNode x j t] 0 0 -
      fieldP P (mapping pts ![a, cellNode x j t]) 0 * jacobianMatrix pts ![a, cellNode x j t] 1 0 := by
    intro a t
    simp only [fluxY, eval_sub, eval_mul, eval_add, eval_C, eval_alongY, eval_nodeP, fieldP, k00 a (cellNode x j t), k10 a (cellNode x j t), hκ,
      Matrix.cons_val_zero, Matrix.cons_val_one]
  -- the pointwise identity
  have point : ∀ s t : F, divP P (mapping pts ![cellNode x i s, cellNode x j t]) * jacobian pts ![cellNode x i s, cellNode x j t] *
      ((x (i + 1) - x i) * (x (j + 1) - x j) * (1 / 4)) =
      (x (j + 1) - x j) * (1 / 2) * (derivative (fluxX pts x i (cellNode x j t) κ P)).eval s +
      (x (i + 1) - x i) * (1 / 2) * (derivative (fluxY pts x j (cellNode x i s) κ P)).eval t := by
    intro s t
    have a0 := k00 (cellNode x i s) (cellNode x j t)
    have a1 := k10 (cellNode x i s) (cellNode x j t)
    have b0 := k01 (cellNode x i s) (cellNode x j t)
    have b1 := k11 (cellNode x i s) (cellNode x j t)
    simp only [fluxX, fluxY, derivative_sub, derivative_mul, derivative_add, derivative_C, zero_add, derivative_C_mul, derivative_nodeP,
      eval_sub, eval_mul, eval_add, eval_C, eval_alongX, eval_alongY, eval_deriv_alongX, eval_deriv_alongY, eval_nodeP, Fin.sum_univ_two,
      divP, jacobian, hκ, Matrix.cons_val_zero, Matrix.cons_val_one, a0, a1, b0, b1, eval_zero, zero_mul, zero_add]
    ring
  have cn : ∀ i s, (s + 1) * (x (i + 1) - x i) / 2 + x i = cellNode x i s := by
    intro i s; simp only [cellNode]; ring
  have split : (q0.map fun s => (q1.map fun t =>
      let v := ![(s.1 + 1) * (x (i + 1) - x i) / 2 + x i, (t.1 + 1) * (x (j + 1) - x j) / 2 + x j]
      divP P (mapping pts v) * jacobian pts v * s.2 * t.2 * ((x (i + 1) - x i) * (x (j + 1) - x j) * (1 / 4))).sum).sum =
      (q1.map fun t => (t.2 * ((x (j + 1) - x j) * (1 / 2))) * (q0.map fun s => s.2 * (derivative (fluxX pts x i (cellNode x j t.1) κ P)).eval s.1).sum).sum +
      (q0.map fun s => (s.2 * ((x (i + 1) - x i) * (1 / 2))) * (q1.map fun t => t.2 * (derivative (fluxY pts x j (cellNode x i s.1) κ P)).eval t.1).sum).sum := by
    simp only [← List.sum_map_mul_left]
    rw [list_swap q1 q0, ← List.sum_map_add]
    congr 1
    apply List.map_congr_left
    intro s _
    rw [← List.sum_map_add]
    congr 1
    apply List.map_congr_left
    intro t _
    simp only [cn]
    linear_combination s.2 * t.2 * point s.1 t.1
  rw [split, dx, dx, dy, dy]
  simp only [fx, fy, ex, ey, (cellNode_ends x i).1, (cellNode_ends x i).2, (cellNode_ends x j).1, (cellNode_ends x j).2]
  have sub : ∀ (l : Quad F) (g h : F × F → F), (l.map g).sum - (l.map h).sum = (l.map fun a => g a - h a).sum := by
    intro l g h
    induction l with
    | nil => simp
    | cons a l ih => simp only [List.map_cons, List.sum_cons, ← ih]; ring
  rw [sub, add_sub_assoc, sub, add_comm]
  congr 2
  · apply List.map_congr_left
    intro t _
    ring
  · apply List.map_congr_left
    intro t _
    ring

theorem outerDx_zero (p : Nat) (x : Nat → F) (hx : SymmetricNodes p x) (q : Quad F) (pts : Fin 3 → F × F)
    (f : (Fin 2 → F) → Fin 2 → F) (i : Nat) : outerDx x q pts f i 0 = 0 := by
  rw [outerDx]
  apply List.sum_eq_zero
  intro a ha
  obtain ⟨t, -, rfl⟩ := List.mem_map.1 ha
  simp only [hx.first]
  have e : ∀ c, jacobianMatrix pts ![cellNode x i t.1, -1] c 0 = 0 := by
    intro c
    fin_cases c <;> simp [jacobianMatrix, Region.Two.transfiniteJ, Region.Two.mapCr, Region.Two.mapCs, edges]
  simp [e]

theorem discretize2_at (p : Nat) (x : Nat → F) (q0 q1 : Quad F) (pts : Fin 3 → F × F) (f : (Fin 2 → F) → F) (i j : Nat)
    (hi : i < p) (hj : j < p) : (discretize2 p x q0 q1 pts f)[ln2 p i j]? = some
      ((q0.map fun s => (q1.map fun t =>
        let v := ![(s.1 + 1) * (x (i + 1) - x i) / 2 + x i, (t.1 + 1) * (x (j + 1) - x j) / 2 + x j]
        f (mapping pts v) * jacobian pts v * s.2 * t.2 * ((x (i + 1) - x i) * (x (j + 1) - x j) * (1 / 4))).sum).sum) := by
  exact getElem?_ravelF _ _ _ _ _ hi hj

/-- C66: the discretized divergence is the divergence of the discretized field. -/
theorem c66_div (p : Nat) (x : Nat → F) (hx : SymmetricNodes p x) (q0 q1 q : Quad F) (d : Nat) (h0 : ExactQuad q0 d)
    (h1 : ExactQuad q1 d) (hq : ExactQuad q d) (pts : Fin 3 → F × F) (T : Nat → Int) (hT : ∀ r, T r * T r = 1)
    (P : Fin 2 → MvPolynomial (Fin 2) F) (hP : ∀ c, (P c).totalDegree ≤ d) (r : Nat) (hr : r < p * p) :
    (discretize2 p x q0 q1 pts (divP P))[r]? = some (coboundary1 (num1 p) (setAll (divOuter p)) T
      (fun k => ((discretizeOuter p x q pts (fieldP P) T)[k]?).getD 0) r) := by
  have hp : 0 < p := by rcases Nat.eq_zero_or_pos p with rfl | h' <;> omega
  obtain ⟨i, j, hi, hj, rfl⟩ : ∃ i j, i < p ∧ j < p ∧ r = ln2 p i j :=
    ⟨r % p, r / p, Nat.mod_lt _ hp, Nat.div_lt_of_lt_mul hr, (Nat.div_add_mod' r p).symm⟩
  have TT : ∀ r, (T r : F) * (T r : F) = 1 := fun r => by exact_mod_cast congrArg (Int.cast (R := F)) (hT r)
  have val : ∀ y, ValidSeg p y → (T (segNumOuter p y) : F) * ((discretizeOuter p x q pts (fieldP P) T)[segNumOuter p y]?).getD 0 =
      rawOuter x q pts (fieldP P) y := by
    intro y hy
    rw [discretizeOuter_at p x q pts _ T y hy, Option.getD_some, ← mul_assoc, TT, one_mul]
  rw [discretize2_at p x q0 q1 pts _ i j hi hj, cell_div x h0 h1 hq pts P hP, coboundary1_eq, div_row p _ i j hi hj]
  have v1 := val (true, i + 1, j) (by simp only [ValidSeg, if_true]; omega)
  have v2 := val (true, i, j) (by simp only [ValidSeg, if_true]; omega)
  have v3 := val (false, i, j + 1) (by simp only [ValidSeg, Bool.false_eq_true, if_false]; omega)
  simp only [segNumOuter, if_true, Bool.false_eq_true, if_false, rawOuter] at v1 v2 v3
  have v4 : dxVal (oDx p) (fun c => (T c : F) * ((discretizeOuter p x q pts (fieldP P) T)[c]?).getD 0) i j =
      outerDx x q pts (fieldP P) i j := by
    rw [dxVal]
    split_ifs with hj0
    · rw [hj0, outerDx_zero p x hx]
    · have := val (false, i, j) (by simp only [ValidSeg, Bool.false_eq_true, if_false]; omega)
      simpa only [segNumOuter, Bool.false_eq_true, if_false, rawOuter] using this
  rw [v4, v1, v2, dxVal, if_neg (Nat.succ_ne_zero j), v3]

/-- C66: the discretized rot is the rot of the discretized field. -/
theorem c66_rot (p : Nat) (x : Nat → F) (hx : SymmetricNodes p x) (q0 q1 q : Quad F) (d : Nat) (h0 : ExactQuad q0 d)
    (h1 : ExactQuad q1 d) (hq : ExactQuad q d) (pts : Fin 3 → F × F) (T : Nat → Int) (hT : ∀ r, T r * T r = 1)
    (P : Fin 2 → MvPolynomial (Fin 2) F) (hP : ∀ c, (P c).totalDegree ≤ d) (r : Nat) (hr : r < p * p) :
    (discretize2 p x q0 q1 pts (rotP P))[r]? = some (coboundary1 (num1 p) (setAll (rotInner p)) T
      (fun k => ((discretizeInner p x q pts (fieldP P) T)[k]?).getD 0) r) := by
  have hp : 0 < p := by rcases Nat.eq_zero_or_pos p with rfl | h' <;> omega
  obtain ⟨i, j, hi, hj, rfl⟩ : ∃ i j, i < p ∧ j < p ∧ r = ln2 p i j :=
    ⟨r % p, r / p, Nat.mod_lt _ hp, Nat.div_lt_of_lt_mul hr, (Nat.div_add_mod' r p).symm⟩
  have TT : ∀ r, (T r : F) * (T r : F) = 1 := fun r => by exact_mod_cast congrArg (Int.cast (R := F)) (hT r)
  have val : ∀ y, ValidSeg p y → (T (segNumInner p y) : F) * ((discretizeInner p x q pts (fieldP P) T)[segNumInner p y]?).getD 0 =
      rawInner x q pts (fieldP P) y := by
    intro y hy
    rw [discretizeInner_at p x q pts _ T y hy, Option.getD_some, ← mul_assoc, TT, one_mul]
  set Q : Fin 2 → MvPolynomial (Fin 2) F := ![P 1, -(P 0)] with hQ
  have e1 : rotP P = divP Q := by
    funext z
    simp [rotP, divP, hQ]
    ring
  have e2 : (fun z => ![-(fieldP Q z 1), fieldP Q z 0]) = fieldP P := by
    funext z c
    fin_cases c <;> simp [fieldP, hQ]
  have degQ : ∀ c, (Q c).totalDegree ≤ d := by
    intro c
    fin_cases c
    · exact hP 1
    · simpa [hQ] using hP 0
  have ox := fun i j => (outer_eq_inner x q pts (fieldP Q) i j).2
  have oy := fun i j => (outer_eq_inner x q pts (fieldP Q) i j).1
  rw [e2] at ox oy
  rw [discretize2_at p x q0 q1 pts _ i j hi hj, e1, cell_div x h0 h1 hq pts Q degQ, coboundary1_eq, rot_row p _ i j hi hj]
  have v1 := val (true, i + 1, j) (by simp only [ValidSeg, if_true]; omega)
  have v2 := val (true, i, j) (by simp only [ValidSeg, if_true]; omega)
  have v3 := val (false, i, j + 1) (by simp only [ValidSeg, Bool.false_eq_true, if_false]; omega)
  simp only [segNumInner, if_true, Bool.false_eq_true, if_false, rawInner] at v1 v2 v3
  have v4 : dxVal (iDx p) (fun c => (T c : F) * ((discretizeInner p x q pts (fieldP P) T)[c]?).getD 0) i j =
      innerDx x q pts (fieldP P) i j := by
    rw [dxVal]
    split_ifs with hj0
    · have := outerDx_zero p x hx q pts (fieldP Q) i
      rw [ox, neg_eq_zero] at this
      rw [hj0, this]
    · have := val (false, i, j) (by simp only [ValidSeg, Bool.false_eq_true, if_false]; omega)
      simpa only [segNumInner, Bool.false_eq_true, if_false, rawInner] using this
  rw [v4, v1, v2, dxVal, if_neg (Nat.succ_ne_zero j), v3, ox, ox, oy, oy]
  congr 1
  ring

end

/-! ## Examples -/

/-- Simpson's rule is exact to degree 3. -/
theorem simpson_exact : ExactQuad simpson 3 := by
  intro k hk
  interval_cases k <;> norm_num [simpson]

/-- A field of degree 3: `(x y², x² y)` has divergence `y² + x²`. -/
example : ∀ c, ((![MvPolynomial.X 0 * MvPolynomial.X 1 * MvPolynomial.X 1, MvPolynomial.X 0 * MvPolynomial.X 0 * MvPolynomial.X 1] :
    Fin 2 → MvPolynomial (Fin 2) ℚ) c).totalDegree ≤ 3 := by
  intro c
  fin_cases c <;>
    refine (MvPolynomial.totalDegree_mul _ _).trans (Nat.add_le_add (MvPolynomial.totalDegree_mul _ _) le_rfl |>.trans ?_) <;>
    simp [MvPolynomial.totalDegree_X]

/-- The discretized divergence of `(x, 2 y)` on a triangle: its integral 3 times the area 1/2, split over four cells. -/
example : discretize2 2 (fun k => (k : ℚ) - 1) simpson simpson ![(0, 0), (1, 0), (0, 1)] (fun _ => 3) =
    [3 / 16, 3 / 16, 9 / 16, 9 / 16] := by
  decide +kernel

example : (List.range 4).map (fun r => coboundary1 (num1 2) (setAll (divOuter 2)) (fun _ => 1)
    (fun k => ((discretizeOuter 2 (fun k => (k : ℚ) - 1) simpson ![(0, 0), (1, 0), (0, 1)] (fun z => ![z 0, 2 * z 1]) (fun _ => 1))[k]?).getD 0) r) =
    [3 / 16, 3 / 16, 9 / 16, 9 / 16] := by
  decide +kernel

end Mifem.Props
