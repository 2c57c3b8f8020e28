import Verif.Props.TriRecCont
import Mathlib.Analysis.Calculus.FDeriv.Pi
import Mathlib.Analysis.Calculus.FDeriv.Comp
import Mathlib.Analysis.Calculus.FDeriv.Mul
import Mathlib.Analysis.Calculus.Deriv.Polynomial
import Mathlib.Analysis.Calculus.Deriv.Pi

/-!
# Property C97: reconstruction commutes with the derivatives, and reproduces polynomials
-/

namespace Mifem.Props

open Mifem.Tri Mifem.Basis Finset

section
variable {p : Nat} {nodes : List ℝ}

/-! ## Polynomials -/

/-- **C97, reproduction.**  The reconstruction of the discretization of a polynomial of degree at most `p` is the polynomial. -/
theorem c97_reproduces (h : TriNodes p nodes) (pts : Fin 3 → ℝ × ℝ) (P : MvPolynomial (Fin 2) ℝ) (hP : P.totalDegree ≤ p)
    (v : Fin 2 → ℝ) :
    recon0 nodes [v 0] [v 1] (fun r => ((discretize0 p (node nodes) pts fun z => MvPolynomial.eval z P)[r]?).getD 0) 0 =
      MvPolynomial.eval (mapping pts v) P := by
  have hd := accepted_distinct h.acc
  have hl := h.len
  have lines : ∀ (L : Fin 2 → Polynomial ℝ), (∀ c, (L c).natDegree ≤ 1) → (MvPolynomial.aeval L P).degree < nodes.length := by
    intro L hL
    refine lt_of_le_of_lt Polynomial.degree_le_natDegree ?_
    have := MvPolynomial.aeval_natDegree_le P hP L hL
    rw [hl]
    exact_mod_cast (by omega : (MvPolynomial.aeval L P).natDegree < p + 1)
  have lx : ∀ b x : ℝ, ∑ i ∈ range (p + 1), lagrangeAt nodes i x * MvPolynomial.eval (mapping pts ![node nodes i, b]) P =
      MvPolynomial.eval (mapping pts ![x, b]) P := by
    intro b x
    set L : Fin 2 → Polynomial ℝ := fun c => Polynomial.C (mapping pts ![0, b] c) + Polynomial.C (jacobianMatrix pts ![0, b] c 0) * Polynomial.X
    have ev : ∀ x, (MvPolynomial.aeval L P).eval x = MvPolynomial.eval (mapping pts ![x, b]) P := by
      intro x
      rw [eval_along]
      congr 2
      funext c
      simp only [L, Polynomial.eval_add, Polynomial.eval_mul, Polynomial.eval_C, Polynomial.eval_X]
      exact ((mapping_lines pts x b c).1).symm
    have := reproduce hd (lines L (fun c => by simp only [L]; compute_degree)) x
    rw [ev, hl] at this
    rw [← this]
    exact sum_congr rfl fun i _ => by rw [ev]; ring
  have ly : ∀ a y : ℝ, ∑ j ∈ range (p + 1), lagrangeAt nodes j y * MvPolynomial.eval (mapping pts ![a, node nodes j]) P =
      MvPolynomial.eval (mapping pts ![a, y]) P := by
    intro a y
    set L : Fin 2 → Polynomial ℝ := fun c => Polynomial.C (mapping pts ![a, 0] c) + Polynomial.C (jacobianMatrix pts ![a, 0] c 1) * Polynomial.X
    have ev : ∀ y, (MvPolynomial.aeval L P).eval y = MvPolynomial.eval (mapping pts ![a, y]) P := by
      intro y
      rw [eval_along]
      congr 2
      funext c
      simp only [L, Polynomial.eval_add, Polynomial.eval_mul, Polynomial.eval_C, Polynomial.eval_X]
      exact ((mapping_lines pts a y c).2.1).symm
    have := reproduce hd (lines L (fun c => by simp only [L]; compute_degree)) y
    rw [ev, hl] at this
    rw [← this]
    exact sum_congr rfl fun i _ => by rw [ev]; ring
  rw [recon0_sum h]
  have e : ∀ j ∈ range (p + 1), ∑ i ∈ range (p + 1), lagrangeAt nodes j (v 1) * lagrangeAt nodes i (v 0) *
      (((discretize0 p (node nodes) pts fun z => MvPolynomial.eval z P)[ln0 p i j]?).getD 0) =
      lagrangeAt nodes j (v 1) * MvPolynomial.eval (mapping pts ![v 0, node nodes j]) P := by
    intro j hj
    rw [← lx (node nodes j) (v 0), mul_sum]
    refine sum_congr rfl fun i hi => ?_
    rw [discretize0_at p _ h.symmetric pts _ i j (by have := mem_range.1 hi; omega) (by have := mem_range.1 hj; omega)]
    simp only [Option.getD_some]; ring
  rw [sum_congr rfl e, ly]
  congr 2

/-! ## Derivatives in the reference element -/

/-- A 0-form of the reference coordinates. -/
noncomputable def ref0 (nodes : List ℝ) (w : Nat → ℝ) (v : Fin 2 → ℝ) : ℝ := recon0 nodes [v 0] [v 1] w 0

/-- Sums of products of polynomials. -/
theorem differentiable_sum (N M : Nat) (A B : Nat → ℝ → ℝ) (a : Nat → Nat → ℝ) (hA : ∀ j, Differentiable ℝ (A j))
    (hB : ∀ i, Differentiable ℝ (B i)) :
    Differentiable ℝ fun v : Fin 2 → ℝ => ∑ j ∈ range N, ∑ i ∈ range M, A j (v 1) * B i (v 0) * a i j := by
  have h1 : ∀ j, Differentiable ℝ fun v : Fin 2 → ℝ => A j (v 1) := fun j => (hA j).comp (differentiable_apply 1)
  have h2 : ∀ i, Differentiable ℝ fun v : Fin 2 → ℝ => B i (v 0) := fun i => (hB i).comp (differentiable_apply 0)
  refine Differentiable.fun_sum fun j _ => Differentiable.fun_sum fun i _ => ?_
  exact ((h1 j).mul (h2 i)).mul_const _

theorem lagrange_differentiable (nodes : List ℝ) (i : Nat) : Differentiable ℝ (lagrangeAt nodes i) := by
  rw [show lagrangeAt nodes i = fun x => (lag nodes i).eval x from funext fun x => lagrangeAt_eq nodes i x]
  exact Polynomial.differentiable _

theorem edge_differentiable (h : TriNodes p nodes) {i : Nat} (hi : i < p) : Differentiable ℝ (edgeAt nodes i) := by
  rw [show edgeAt nodes i = fun x => (edg nodes i).eval x from
    funext fun x => edgeAt_eq (accepted_distinct h.acc) (by rw [h.len]; omega) x]
  exact Polynomial.differentiable _

theorem ref0_differentiable (h : TriNodes p nodes) (w : Nat → ℝ) : Differentiable ℝ (ref0 nodes w) := by
  rw [show ref0 nodes w = fun v => ∑ j ∈ range (p + 1), ∑ i ∈ range (p + 1),
    lagrangeAt nodes j (v 1) * lagrangeAt nodes i (v 0) * w (ln0 p i j) from funext fun v => recon0_sum h w _ _]
  exact differentiable_sum _ _ _ _ (fun i j => w (ln0 p i j)) (lagrange_differentiable nodes) (lagrange_differentiable nodes)

/-- Sums over edge functions in the first coordinate. -/
theorem differentiable_edges (N M : Nat) (A B : Nat → ℝ → ℝ) (a : Nat → Nat → ℝ) (hA : ∀ j < N, Differentiable ℝ (A j))
    (hB : ∀ i < M, Differentiable ℝ (B i)) :
    Differentiable ℝ fun v : Fin 2 → ℝ => ∑ j ∈ range N, ∑ i ∈ range M, A j (v 1) * B i (v 0) * a i j := by
  refine Differentiable.fun_sum fun j hj => Differentiable.fun_sum fun i hi => ?_
  have h1 : Differentiable ℝ fun v : Fin 2 → ℝ => A j (v 1) := (hA j (mem_range.1 hj)).comp (differentiable_apply 1)
  have h2 : Differentiable ℝ fun v : Fin 2 → ℝ => B i (v 0) := (hB i (mem_range.1 hi)).comp (differentiable_apply 0)
  exact (h1.mul h2).mul_const _

theorem innerU_differentiable (h : TriNodes p nodes) (w : Nat → ℝ) :
    Differentiable ℝ fun v : Fin 2 → ℝ => innerU p nodes w (v 0) (v 1) :=
  differentiable_edges _ _ _ _ _ (fun j _ => lagrange_differentiable nodes j) fun _ hi => edge_differentiable h hi

theorem innerV_differentiable (h : TriNodes p nodes) (w : Nat → ℝ) :
    Differentiable ℝ fun v : Fin 2 → ℝ => innerV p nodes w (v 0) (v 1) :=
  differentiable_edges _ _ _ _ (fun i j => w (lnInnerDy p i j)) (fun _ hj => edge_differentiable h hj)
    fun i _ => lagrange_differentiable nodes i

theorem outerU_differentiable (h : TriNodes p nodes) (w : Nat → ℝ) :
    Differentiable ℝ fun v : Fin 2 → ℝ => outerU p nodes w (v 0) (v 1) :=
  differentiable_edges _ _ _ _ (fun i j => w (lnOuterDy p i j)) (fun _ hj => edge_differentiable h hj)
    fun i _ => lagrange_differentiable nodes i

theorem outerV_differentiable (h : TriNodes p nodes) (w : Nat → ℝ) :
    Differentiable ℝ fun v : Fin 2 → ℝ => outerV p nodes w (v 0) (v 1) :=
  differentiable_edges _ _ _ _ _ (fun j _ => lagrange_differentiable nodes j) fun _ hi => edge_differentiable h hi

/-- The derivatives of a double sum over nodal functions. -/
theorem double_dx (h : TriNodes p nodes) (N : Nat) (A : Nat → ℝ) (a : Nat → Nat → ℝ) (x : ℝ) :
    HasDerivAt (fun t => ∑ j ∈ range N, ∑ i ∈ range (p + 1), A j * lagrangeAt nodes i t * a i j)
      (∑ j ∈ range N, ∑ i ∈ range p, A j * edgeAt nodes i x * (a (i + 1) j - a i j)) x := by
  have := sum_hasDeriv nodes h.acc (range N) A (fun j i => a i j) x
  rwa [h.len, Nat.add_sub_cancel] at this

theorem double_dy (h : TriNodes p nodes) (M : Nat) (B : Nat → ℝ) (a : Nat → Nat → ℝ) (y : ℝ) :
    HasDerivAt (fun t => ∑ j ∈ range (p + 1), ∑ i ∈ range M, lagrangeAt nodes j t * B i * a i j)
      (∑ j ∈ range p, ∑ i ∈ range M, edgeAt nodes j y * B i * (a i (j + 1) - a i j)) y := by
  have := sum_hasDeriv nodes h.acc (range M) B (fun i j => a i j) y
  rw [h.len, Nat.add_sub_cancel] at this
  have e1 : (fun t => ∑ j ∈ range (p + 1), ∑ i ∈ range M, lagrangeAt nodes j t * B i * a i j) =
      fun t => ∑ i ∈ range M, ∑ j ∈ range (p + 1), B i * lagrangeAt nodes j t * a i j := by
    funext t
    rw [sum_comm]
    exact sum_congr rfl fun i _ => sum_congr rfl fun j _ => by ring
  have e2 : ∑ j ∈ range p, ∑ i ∈ range M, edgeAt nodes j y * B i * (a i (j + 1) - a i j) =
      ∑ i ∈ range M, ∑ j ∈ range p, B i * edgeAt nodes j y * (a i (j + 1) - a i j) := by
    rw [sum_comm]
    exact sum_congr rfl fun i _ => sum_congr rfl fun j _ => by ring
  rw [e1, e2]
  exact this

/-- The derivatives of a 0-form are the coefficients of its gradient; the transition signs cancel. -/
theorem ref_grad (h : TriNodes p nodes) (w : Nat → ℝ) (x y : ℝ) :
    let g := mulVec (num0 p) (setAll (gradInner p)) w
    HasDerivAt (fun t => recon0 nodes [t] [y] w 0) (innerU p nodes g x y) x ∧
    HasDerivAt (fun t => recon0 nodes [x] [t] w 0) (innerV p nodes g x y) y := by
  intro g
  simp only [recon0_sum h]
  constructor
  · have := double_dx h (p + 1) (fun j => lagrangeAt nodes j y) (fun i j => w (ln0 p i j)) x
    convert this using 1
    refine sum_congr rfl fun j hj => sum_congr rfl fun i hi => ?_
    congr 1
    rw [dxVal]
    have hj' := mem_range.1 hj
    by_cases q : j = 0
    · subst q; simp [ln0_eq]
    · rw [if_neg q]; exact grad_dx p w i j (mem_range.1 hi) (by omega) (by omega)
  · have := double_dy h (p + 1) (fun i => lagrangeAt nodes i x) (fun i j => w (ln0 p i j)) y
    convert this using 1
    refine sum_congr rfl fun j hj => sum_congr rfl fun i hi => ?_
    congr 1
    exact grad_dy p w i j (by have := mem_range.1 hi; omega) (mem_range.1 hj)

theorem ref_curl (h : TriNodes p nodes) (w : Nat → ℝ) (x y : ℝ) :
    let g := mulVec (num0 p) (setAll (curlOuter p)) w
    HasDerivAt (fun t => recon0 nodes [t] [y] w 0) (-outerV p nodes g x y) x ∧
    HasDerivAt (fun t => recon0 nodes [x] [t] w 0) (outerU p nodes g x y) y := by
  intro g
  simp only [recon0_sum h]
  constructor
  · have := double_dx h (p + 1) (fun j => lagrangeAt nodes j y) (fun i j => w (ln0 p i j)) x
    convert this using 1
    rw [outerV, ← sum_neg_distrib]
    refine sum_congr rfl fun j hj => ?_
    rw [← sum_neg_distrib]
    refine sum_congr rfl fun i hi => ?_
    rw [← mul_neg]
    congr 1
    rw [dxVal]
    have hj' := mem_range.1 hj
    by_cases q : j = 0
    · subst q; simp [ln0_eq]
    · rw [if_neg q, show g (oDx p i j) = _ from curl_dx p w i j (mem_range.1 hi) (by omega) (by omega)]; ring
  · have := double_dy h (p + 1) (fun i => lagrangeAt nodes i x) (fun i j => w (ln0 p i j)) y
    convert this using 1
    refine sum_congr rfl fun j hj => sum_congr rfl fun i hi => ?_
    congr 1
    exact curl_dy p w i j (by have := mem_range.1 hi; omega) (mem_range.1 hj)

theorem ref_div (h : TriNodes p nodes) (w : Nat → ℝ) (x y : ℝ) : ∃ a b,
    HasDerivAt (fun t => outerU p nodes w t y) a x ∧ HasDerivAt (fun t => outerV p nodes w x t) b y ∧
    a + b = ∑ j ∈ range p, ∑ i ∈ range p, edgeAt nodes j y * edgeAt nodes i x * mulVec (num1 p) (setAll (divOuter p)) w (ln2 p i j) := by
  refine ⟨_, _, double_dx h p (fun j => edgeAt nodes j y) (fun i j => w (lnOuterDy p i j)) x,
    double_dy h p (fun i => edgeAt nodes i x) (fun i j => dxVal (oDx p) w i j) y, ?_⟩
  rw [← sum_add_distrib]
  refine sum_congr rfl fun j hj => ?_
  rw [← sum_add_distrib]
  refine sum_congr rfl fun i hi => ?_
  rw [div_row p w i j (mem_range.1 hi) (mem_range.1 hj)]; ring

theorem ref_rot (h : TriNodes p nodes) (w : Nat → ℝ) (x y : ℝ) : ∃ a b,
    HasDerivAt (fun t => innerV p nodes w t y) a x ∧ HasDerivAt (fun t => -innerU p nodes w x t) b y ∧
    a + b = ∑ j ∈ range p, ∑ i ∈ range p, edgeAt nodes j y * edgeAt nodes i x * mulVec (num1 p) (setAll (rotInner p)) w (ln2 p i j) := by
  refine ⟨_, _, double_dx h p (fun j => edgeAt nodes j y) (fun i j => w (lnInnerDy p i j)) x,
    (double_dy h p (fun i => edgeAt nodes i x) (fun i j => dxVal (iDx p) w i j) y).neg, ?_⟩
  rw [← sub_eq_add_neg, ← sum_sub_distrib]
  refine sum_congr rfl fun j hj => ?_
  rw [← sum_sub_distrib]
  refine sum_congr rfl fun i hi => ?_
  rw [rot_row p w i j (mem_range.1 hi) (mem_range.1 hj)]; ring

end

/-! ## Functions of the reference coordinates as functions of the place -/

section
variable {pts : Fin 3 → ℝ × ℝ}

/-- The weight of vertex 1 of a point. -/
noncomputable def recWeight1 (pts : Fin 3 → ℝ × ℝ) (z : Fin 2 → ℝ) : ℝ :=
  ((z 0 - (pts 0).1) * ((pts 2).2 - (pts 0).2) - (z 1 - (pts 0).2) * ((pts 2).1 - (pts 0).1)) / cross (pts 0) (pts 1) (pts 2)
/-- The weight of vertex 2. -/
noncomputable def recWeight2 (pts : Fin 3 → ℝ × ℝ) (z : Fin 2 → ℝ) : ℝ :=
  ((z 1 - (pts 0).2) * ((pts 1).1 - (pts 0).1) - (z 0 - (pts 0).1) * ((pts 1).2 - (pts 0).2)) / cross (pts 0) (pts 1) (pts 2)
/-- The reference coordinates of a point. -/
noncomputable def invMap (pts : Fin 3 → ℝ × ℝ) (z : Fin 2 → ℝ) : Fin 2 → ℝ :=
  ![2 * (recWeight1 pts z / (recWeight1 pts z + recWeight2 pts z)) - 1, 2 * (recWeight1 pts z + recWeight2 pts z) - 1]

theorem weights (hpos : 0 < cross (pts 0) (pts 1) (pts 2)) (v : Fin 2 → ℝ) :
    recWeight1 pts (mapping pts v) = (v 0 + 1) / 2 * ((v 1 + 1) / 2) ∧
    recWeight2 pts (mapping pts v) = (1 - (v 0 + 1) / 2) * ((v 1 + 1) / 2) := by
  rw [mapping_eq _ _ two_ne_zero]
  constructor
  · rw [recWeight1, div_eq_iff hpos.ne']
    simp only [bary, cross, Matrix.cons_val_zero, Matrix.cons_val_one, Matrix.cons_val_fin_one]; ring
  · rw [recWeight2, div_eq_iff hpos.ne']
    simp only [bary, cross, Matrix.cons_val_zero, Matrix.cons_val_one, Matrix.cons_val_fin_one]; ring

theorem invMap_mapping (hpos : 0 < cross (pts 0) (pts 1) (pts 2)) {v : Fin 2 → ℝ} (hv : -1 < v 1) :
    invMap pts (mapping pts v) = v := by
  obtain ⟨h1, h2⟩ := weights hpos v
  have hs : (v 0 + 1) / 2 * ((v 1 + 1) / 2) + (1 - (v 0 + 1) / 2) * ((v 1 + 1) / 2) = (v 1 + 1) / 2 := by ring
  have hne : (v 1 + 1) / 2 ≠ 0 := by have : 0 < (v 1 + 1) / 2 := by linarith
                                     exact this.ne'
  funext i
  fin_cases i
  · simp only [invMap, h1, h2, hs, Fin.zero_eta, Matrix.cons_val_zero]
    rw [mul_div_assoc, div_self hne]; ring
  · simp only [invMap, h1, h2, hs, Fin.mk_one, Matrix.cons_val_one, Matrix.cons_val_fin_one]; ring

theorem invMap_differentiableAt (hpos : 0 < cross (pts 0) (pts 1) (pts 2)) {v : Fin 2 → ℝ} (hv : -1 < v 1) :
    DifferentiableAt ℝ (invMap pts) (mapping pts v) := by
  obtain ⟨h1, h2⟩ := weights hpos v
  have d0 : Differentiable ℝ fun z : Fin 2 → ℝ => z 0 := differentiable_apply 0
  have d1 : Differentiable ℝ fun z : Fin 2 → ℝ => z 1 := differentiable_apply 1
  have w1 : Differentiable ℝ (recWeight1 pts) := by unfold recWeight1; fun_prop
  have w2 : Differentiable ℝ (recWeight2 pts) := by unfold recWeight2; fun_prop
  have hne : recWeight1 pts (mapping pts v) + recWeight2 pts (mapping pts v) ≠ 0 := by
    rw [h1, h2]
    have : (v 0 + 1) / 2 * ((v 1 + 1) / 2) + (1 - (v 0 + 1) / 2) * ((v 1 + 1) / 2) = (v 1 + 1) / 2 := by ring
    rw [this]
    have : 0 < (v 1 + 1) / 2 := by linarith
    exact this.ne'
  have W1 := w1 (mapping pts v)
  have W2 := w2 (mapping pts v)
  rw [differentiableAt_pi]
  intro i
  fin_cases i
  · have hS : DifferentiableAt ℝ (fun z => recWeight1 pts z + recWeight2 pts z) (mapping pts v) := W1.add W2
    have hq := (((W1.mul (hS.inv hne)).const_mul 2).sub_const 1)
    simp only [← div_eq_mul_inv] at hq
    exact hq
  · exact ((W1.add W2).const_mul 2).sub_const 1

/-- The chain rule for a function of the reference coordinates. -/
theorem push (hpos : 0 < cross (pts 0) (pts 1) (pts 2)) {R : (Fin 2 → ℝ) → ℝ} {v : Fin 2 → ℝ} (hv : -1 < v 1)
    (hR : DifferentiableAt ℝ R v) : ∃ L : (Fin 2 → ℝ) →L[ℝ] ℝ, HasFDerivAt (fun z => R (invMap pts z)) L (mapping pts v) ∧
      ∀ j R', HasDerivAt (fun t => R (Function.update v j t)) R' (v j) → L (fun i => jacobianMatrix pts v i j) = R' := by
  have e := invMap_mapping hpos hv
  have hg : DifferentiableAt ℝ (fun z => R (invMap pts z)) (mapping pts v) :=
    DifferentiableAt.comp (mapping pts v) (by rw [e]; exact hR) (invMap_differentiableAt hpos hv)
  refine ⟨_, hg.hasFDerivAt, ?_⟩
  intro j R' hR'
  have curve : HasDerivAt (fun t => mapping pts (Function.update v j t)) (fun i => jacobianMatrix pts v i j) (v j) :=
    hasDerivAt_pi.2 fun i => c62_jacobian pts v i j
  have hg' : HasFDerivAt (fun z => R (invMap pts z)) (fderiv ℝ (fun z => R (invMap pts z)) (mapping pts v))
      (mapping pts (Function.update v j (v j))) := by
    rw [Function.update_eq_self]; exact hg.hasFDerivAt
  have h1 := hg'.comp_hasDerivAt (v j) curve
  refine HasDerivAt.unique h1 (hR'.congr_of_eventuallyEq ?_)
  have : ∀ᶠ t in nhds (v j), -1 < Function.update v j t 1 := by
    by_cases q : j = 1
    · subst q
      simp only [Function.update_self]
      exact lt_mem_nhds hv
    · filter_upwards with t
      rw [Function.update_of_ne (Ne.symm q)]; exact hv
  filter_upwards [this] with t ht
  simp only [Function.comp_apply]
  rw [invMap_mapping hpos ht]

theorem linear_columns (L : (Fin 2 → ℝ) →L[ℝ] ℝ) (a : Fin 2 → ℝ) : L a = L (Pi.single 0 1) * a 0 + L (Pi.single 1 1) * a 1 := by
  have : a = a 0 • (Pi.single 0 1 : Fin 2 → ℝ) + a 1 • (Pi.single 1 1 : Fin 2 → ℝ) := by
    funext i; fin_cases i <;> simp
  conv_lhs => rw [this]
  rw [map_add, map_smul, map_smul, smul_eq_mul, smul_eq_mul]; ring

theorem fin_two_eta (v : Fin 2 → ℝ) : ![v 0, v 1] = v := by funext i; fin_cases i <;> rfl

theorem update_zero (v : Fin 2 → ℝ) (t : ℝ) : Function.update v 0 t = ![t, v 1] := by
  funext i; fin_cases i <;> simp [Function.update]

theorem update_one (v : Fin 2 → ℝ) (t : ℝ) : Function.update v 1 t = ![v 0, t] := by
  funext i; fin_cases i <;> simp [Function.update]

/-- The Jacobian matrix in closed form. -/
theorem jac_closed (pts : Fin 3 → ℝ × ℝ) : ∃ κ m : Fin 2 → ℝ,
    (∀ v c, jacobianMatrix pts v c 0 = (v 1 + 1) * κ c ∧ jacobianMatrix pts v c 1 = m c + κ c * v 0) ∧
    κ 0 * m 1 - κ 1 * m 0 = cross (pts 0) (pts 1) (pts 2) / 8 := by
  refine ⟨fun c => (![(pts 1).1, (pts 1).2] c - ![(pts 2).1, (pts 2).2] c) / 4,
    fun c => (![(pts 1).1, (pts 1).2] c + ![(pts 2).1, (pts 2).2] c - 2 * ![(pts 0).1, (pts 0).2] c) / 4, ?_, ?_⟩
  · intro v c
    fin_cases c <;> constructor <;>
      simp [jacobianMatrix, Region.Two.transfiniteJ, Region.Two.mapCr, Region.Two.mapCs, edges] <;> ring
  · simp [cross]; ring

/-- The divergence of a field given by its fluxes in the reference element. -/
theorem piola (hpos : 0 < cross (pts 0) (pts 1) (pts 2)) {A B : (Fin 2 → ℝ) → ℝ} (hA : Differentiable ℝ A) (hB : Differentiable ℝ B) :
    ∃ f : (Fin 2 → ℝ) → Fin 2 → ℝ, (∀ v : Fin 2 → ℝ, -1 < v 1 → ∀ k, f (mapping pts v) k * jacobian pts v =
        jacobianMatrix pts v k 0 * A v + jacobianMatrix pts v k 1 * B v) ∧
      ∀ v : Fin 2 → ℝ, -1 < v 1 → ∃ L : Fin 2 → ((Fin 2 → ℝ) →L[ℝ] ℝ),
        (∀ k, HasFDerivAt (fun z => f z k) (L k) (mapping pts v)) ∧
        ∀ a b, HasDerivAt (fun t => A ![t, v 1]) a (v 0) → HasDerivAt (fun t => B ![v 0, t]) b (v 1) →
          (L 0 (Pi.single 0 1) + L 1 (Pi.single 1 1)) * jacobian pts v = a + b := by
  obtain ⟨κ, m, hJ, hδ⟩ := jac_closed pts
  set δ := κ 0 * m 1 - κ 1 * m 0 with hδ'
  have hδ0 : δ ≠ 0 := by rw [hδ]; exact (by linarith : 0 < cross (pts 0) (pts 1) (pts 2) / 8).ne'
  have hdet : ∀ v : Fin 2 → ℝ, jacobian pts v = (v 1 + 1) * δ := by
    intro v
    rw [jacobian_eq pts v two_ne_zero, hδ]; ring
  set W : Fin 2 → (Fin 2 → ℝ) → ℝ := fun k v => κ k / δ * A v + (m k + κ k * v 0) / δ * (B v * (v 1 + 1)⁻¹) with hW
  refine ⟨fun z k => W k (invMap pts z), ?_, ?_⟩
  · intro v hv k
    have h1 : v 1 + 1 ≠ 0 := by have : 0 < v 1 + 1 := by linarith
                                exact this.ne'
    simp only [invMap_mapping hpos hv, hdet, (hJ v k).1, (hJ v k).2, hW]
    field_simp
  · intro v hv
    have h1 : v 1 + 1 ≠ 0 := by have : 0 < v 1 + 1 := by linarith
                                exact this.ne'
    have d0 : DifferentiableAt ℝ (fun z : Fin 2 → ℝ => z 0) v := (differentiable_apply 0) v
    have d1 : DifferentiableAt ℝ (fun z : Fin 2 → ℝ => (z 1 + 1)⁻¹) v :=
      ((differentiable_apply (1 : Fin 2) v).add_const 1).inv h1
    have hWd : ∀ k, DifferentiableAt ℝ (W k) v := by
      intro k
      have e : DifferentiableAt ℝ (fun v : Fin 2 → ℝ => (m k + κ k * v 0) / δ) v := by
        simp only [div_eq_mul_inv]
        exact ((d0.const_mul _).const_add _).mul_const _
      exact ((hA v).const_mul _).add (e.mul ((hB v).mul d1))
    choose L hL hcol using fun k => push hpos hv (hWd k)
    refine ⟨L, hL, ?_⟩
    intro a b ha hb
    -- the other partial derivatives
    have part : ∀ (F : (Fin 2 → ℝ) → ℝ), Differentiable ℝ F → (∃ q, HasDerivAt (fun t => F ![t, v 1]) q (v 0)) ∧
        ∃ q, HasDerivAt (fun t => F ![v 0, t]) q (v 1) := by
      intro F hF
      constructor
      · have : Differentiable ℝ fun t : ℝ => F ![t, v 1] := hF.comp (by
          rw [differentiable_pi]; intro i; fin_cases i
          · exact differentiable_id
          · exact differentiable_const _)
        exact ⟨_, (this (v 0)).hasDerivAt⟩
      · have : Differentiable ℝ fun t : ℝ => F ![v 0, t] := hF.comp (by
          rw [differentiable_pi]; intro i; fin_cases i
          · exact differentiable_const _
          · exact differentiable_id)
        exact ⟨_, (this (v 1)).hasDerivAt⟩
    obtain ⟨a', ha'⟩ := (part A hA).2
    obtain ⟨b', hb'⟩ := (part B hB).1
    have X : ∀ k, L k (fun i => jacobianMatrix pts v i 0) =
        κ k / δ * a + (κ k / δ * (B v * (v 1 + 1)⁻¹) + (m k + κ k * v 0) / δ * (b' * (v 1 + 1)⁻¹)) := by
      intro k
      apply hcol k 0
      have e : (fun t => W k (Function.update v 0 t)) = fun t => κ k / δ * A ![t, v 1] +
          (m k + κ k * t) / δ * (B ![t, v 1] * (v 1 + 1)⁻¹) := by
        funext t; rw [update_zero]; simp [hW]
      rw [e]
      have l : HasDerivAt (fun t : ℝ => (m k + κ k * t) / δ) (κ k / δ) (v 0) := by
        have := (((hasDerivAt_id (v 0)).const_mul (κ k)).const_add (m k)).div_const δ
        simpa using this
      have := (ha.const_mul (κ k / δ)).add (l.mul (hb'.mul_const (v 1 + 1)⁻¹))
      simp only [fin_two_eta] at this
      exact this
    have Y : ∀ k, L k (fun i => jacobianMatrix pts v i 1) =
        κ k / δ * a' + (m k + κ k * v 0) / δ * (b * (v 1 + 1)⁻¹ + B v * (-1 / (v 1 + 1) ^ 2)) := by
      intro k
      apply hcol k 1
      have e : (fun t => W k (Function.update v 1 t)) = fun t => κ k / δ * A ![v 0, t] +
          (m k + κ k * v 0) / δ * (B ![v 0, t] * (t + 1)⁻¹) := by
        funext t; rw [update_one]; simp [hW]
      rw [e]
      have l : HasDerivAt (fun t : ℝ => (t + 1)⁻¹) (-1 / (v 1 + 1) ^ 2) (v 1) := ((hasDerivAt_id (v 1)).add_const 1).inv h1
      have := (ha'.const_mul (κ k / δ)).add ((hb.mul l).const_mul ((m k + κ k * v 0) / δ))
      simp only [fin_two_eta] at this
      exact this
    have X0 := X 0
    have Y0 := Y 0
    have X1 := X 1
    have Y1 := Y 1
    rw [linear_columns] at X0 Y0 X1 Y1
    simp only [fun v c => (hJ v c).1, fun v c => (hJ v c).2] at X0 Y0 X1 Y1
    rw [hdet]
    have key : (L 0 (Pi.single 0 1) + L 1 (Pi.single 1 1)) * ((v 1 + 1) * δ) =
        (m 1 + κ 1 * v 0) * (L 0 (Pi.single 0 1) * ((v 1 + 1) * κ 0) + L 0 (Pi.single 1 1) * ((v 1 + 1) * κ 1)) -
        (v 1 + 1) * κ 1 * (L 0 (Pi.single 0 1) * (m 0 + κ 0 * v 0) + L 0 (Pi.single 1 1) * (m 1 + κ 1 * v 0)) +
        (v 1 + 1) * κ 0 * (L 1 (Pi.single 0 1) * (m 0 + κ 0 * v 0) + L 1 (Pi.single 1 1) * (m 1 + κ 1 * v 0)) -
        (m 0 + κ 0 * v 0) * (L 1 (Pi.single 0 1) * ((v 1 + 1) * κ 0) + L 1 (Pi.single 1 1) * ((v 1 + 1) * κ 1)) := by
      rw [hδ']; ring
    rw [key, X0, Y0, X1, Y1]
    field_simp
    rw [hδ']
    ring

variable {p : Nat} {nodes : List ℝ}

/-- Two solutions of an invertible system of two equations. -/
theorem solve_two {a b c d x y x' y' : ℝ} (hd : a * d - b * c ≠ 0) (h1 : x * a + y * c = x' * a + y' * c)
    (h2 : x * b + y * d = x' * b + y' * d) : x = x' ∧ y = y' := by
  constructor
  · have : (x - x') * (a * d - b * c) = 0 := by linear_combination d * h1 - c * h2
    exact sub_eq_zero.1 ((mul_eq_zero.1 this).resolve_right hd)
  · have : (y - y') * (a * d - b * c) = 0 := by linear_combination a * h2 - b * h1
    exact sub_eq_zero.1 ((mul_eq_zero.1 this).resolve_right hd)

theorem signs_cancel {T : Nat → Int} (hT : ∀ r, T r * T r = 1) (n : Nat) (E : Nat → Nat → Int) (w : Nat → ℝ) :
    (fun r => (T r : ℝ) * coboundary0 n E T w r) = mulVec n E w := by
  funext r
  rw [coboundary0_eq, ← mul_assoc, ← Int.cast_mul, hT]; simp

/-- **C97, gradient.**  A reconstructed 0-form is a differentiable function of the place in the element (without the singular vertex), and its
gradient is the reconstruction of the gradient (the coboundary) of the cochain. -/
theorem c97_grad (h : TriNodes p nodes) (hpos : 0 < cross (pts 0) (pts 1) (pts 2)) (T : Nat → Int) (hT : ∀ r, T r * T r = 1) (w : Nat → ℝ) :
    ∃ g : (Fin 2 → ℝ) → ℝ, (∀ v, -1 < v 1 → g (mapping pts v) = recon0 nodes [v 0] [v 1] w 0) ∧
      ∀ v, -1 < v 1 → ∃ L : (Fin 2 → ℝ) →L[ℝ] ℝ, HasFDerivAt g L (mapping pts v) ∧ ∀ k, L (Pi.single k 1) =
        reconInner p nodes T pts [v 0] [v 1] (coboundary0 (num0 p) (setAll (gradInner p)) T w) 0 k := by
  refine ⟨fun z => ref0 nodes w (invMap pts z), fun v hv => ?_, fun v hv => ?_⟩
  · show ref0 nodes w (invMap pts (mapping pts v)) = _
    rw [invMap_mapping hpos hv]; rfl
  · obtain ⟨L, hL, hc⟩ := push hpos hv (ref0_differentiable h w v)
    refine ⟨L, hL, ?_⟩
    have r := ref_grad h w (v 0) (v 1)
    have c0 := hc 0 _ (by simp only [update_zero]; exact r.1)
    have c1 := hc 1 _ (by simp only [update_one]; exact r.2)
    have q := inner_pull h T hpos (coboundary0 (num0 p) (setAll (gradInner p)) T w) (x := v 0) hv
    simp only [signs_cancel hT, fin_two_eta] at q
    rw [linear_columns] at c0 c1
    have := solve_two (jac_ne_zero hpos hv) (c0.trans q.1.symm) (c1.trans q.2.symm)
    intro k
    fin_cases k
    · exact this.1
    · exact this.2

/-- **C97, curl.**  The reconstruction of the curl of an outer 0-cochain is the curl `(∂g/∂y, -∂g/∂x)` of the reconstruction. -/
theorem c97_curl (h : TriNodes p nodes) (hpos : 0 < cross (pts 0) (pts 1) (pts 2)) (T : Nat → Int) (hT : ∀ r, T r * T r = 1) (w : Nat → ℝ) :
    ∃ g : (Fin 2 → ℝ) → ℝ, (∀ v, -1 < v 1 → g (mapping pts v) = recon0 nodes [v 0] [v 1] w 0) ∧
      ∀ v, -1 < v 1 → ∃ L : (Fin 2 → ℝ) →L[ℝ] ℝ, HasFDerivAt g L (mapping pts v) ∧
        reconOuter p nodes T pts [v 0] [v 1] (coboundary0 (num0 p) (setAll (curlOuter p)) T w) 0 = ![L (Pi.single 1 1), -L (Pi.single 0 1)] := by
  refine ⟨fun z => ref0 nodes w (invMap pts z), fun v hv => ?_, fun v hv => ?_⟩
  · show ref0 nodes w (invMap pts (mapping pts v)) = _
    rw [invMap_mapping hpos hv]; rfl
  · obtain ⟨L, hL, hc⟩ := push hpos hv (ref0_differentiable h w v)
    refine ⟨L, hL, ?_⟩
    have r := ref_curl h w (v 0) (v 1)
    have c0 := hc 0 _ (by simp only [update_zero]; exact r.1)
    have c1 := hc 1 _ (by simp only [update_one]; exact r.2)
    have q := outer_pull h T hpos (coboundary0 (num0 p) (setAll (curlOuter p)) T w) (x := v 0) hv
    simp only [signs_cancel hT, fin_two_eta] at q
    rw [linear_columns] at c0 c1
    set f := reconOuter p nodes T pts [v 0] [v 1] (coboundary0 (num0 p) (setAll (curlOuter p)) T w) 0
    have := solve_two (x := -f 1) (y := f 0) (x' := L (Pi.single 0 1)) (y' := L (Pi.single 1 1)) (jac_ne_zero hpos hv) (by linear_combination (-1) * q.2 - c0) (by linear_combination q.1 - c1)
    funext k
    fin_cases k
    · exact this.2
    · simp only [Fin.mk_one, Matrix.cons_val_one, Matrix.cons_val_fin_one]
      linarith [this.1]

theorem recon2_density (h : TriNodes p nodes) (hpos : 0 < cross (pts 0) (pts 1) (pts 2)) (w : Nat → ℝ) {v : Fin 2 → ℝ} (hv : -1 < v 1) :
    recon2 nodes pts [v 0] [v 1] w 0 * jacobian pts v =
      ∑ j ∈ range p, ∑ i ∈ range p, edgeAt nodes j (v 1) * edgeAt nodes i (v 0) * w (ln2 p i j) := by
  have hd := jac_ne_zero hpos hv
  rw [recon2_sum h, fin_two_eta]
  simp only [Metric.Two.inverse, Metric.Two.inverseJacobian, jacobian, Matrix.cons_val_zero, Matrix.cons_val_one, Matrix.cons_val_fin_one]
  set a := jacobianMatrix pts v 0 0
  set b := jacobianMatrix pts v 0 1
  set c := jacobianMatrix pts v 1 0
  set d := jacobianMatrix pts v 1 1
  field_simp

/-- **C97, divergence.**  The divergence of a reconstructed outer 1-form is the reconstruction of its coboundary. -/
theorem c97_div (h : TriNodes p nodes) (hpos : 0 < cross (pts 0) (pts 1) (pts 2)) (T : Nat → Int) (w : Nat → ℝ) :
    ∃ f : (Fin 2 → ℝ) → Fin 2 → ℝ, (∀ v, -1 < v 1 → f (mapping pts v) = reconOuter p nodes T pts [v 0] [v 1] w 0) ∧
      ∀ v, -1 < v 1 → ∃ L : Fin 2 → ((Fin 2 → ℝ) →L[ℝ] ℝ), (∀ k, HasFDerivAt (fun z => f z k) (L k) (mapping pts v)) ∧
        L 0 (Pi.single 0 1) + L 1 (Pi.single 1 1) =
          recon2 nodes pts [v 0] [v 1] (coboundary1 (num1 p) (setAll (divOuter p)) T w) 0 := by
  obtain ⟨f, hf, hL⟩ := piola hpos (outerU_differentiable h fun r => (T r : ℝ) * w r) (outerV_differentiable h fun r => (T r : ℝ) * w r)
  refine ⟨f, fun v hv => ?_, fun v hv => ?_⟩
  · have hd := jac_ne_zero hpos hv
    have q := outer_pull h T hpos w (x := v 0) hv
    simp only [fin_two_eta] at q
    funext k
    have e := hf v hv k
    have hd' : jacobian pts v ≠ 0 := hd
    rw [← sub_eq_zero]
    have : (f (mapping pts v) k - reconOuter p nodes T pts [v 0] [v 1] w 0 k) * jacobian pts v = 0 := by
      rw [sub_mul, e, ← q.1, ← q.2]
      simp only [jacobian]
      fin_cases k <;> simp <;> ring
    exact (mul_eq_zero.1 this).resolve_right hd'
  · obtain ⟨L, h1, h2⟩ := hL v hv
    refine ⟨L, h1, ?_⟩
    obtain ⟨a, b, ha, hb, hab⟩ := ref_div h (fun r => (T r : ℝ) * w r) (v 0) (v 1)
    have e := h2 a b ha hb
    have d := recon2_density h hpos (coboundary1 (num1 p) (setAll (divOuter p)) T w) hv
    have hd' : jacobian pts v ≠ 0 := jac_ne_zero hpos hv
    have hab' : a + b = recon2 nodes pts [v 0] [v 1] (coboundary1 (num1 p) (setAll (divOuter p)) T w) 0 * jacobian pts v := by
      rw [d, hab]
      simp only [coboundary1_eq]
    exact mul_right_cancel₀ hd' (e.trans hab')

/-- **C97, rot.**  The rot `∂f₁/∂x - ∂f₀/∂y` of a reconstructed inner 1-form is the reconstruction of its coboundary. -/
theorem c97_rot (h : TriNodes p nodes) (hpos : 0 < cross (pts 0) (pts 1) (pts 2)) (T : Nat → Int) (w : Nat → ℝ) :
    ∃ f : (Fin 2 → ℝ) → Fin 2 → ℝ, (∀ v, -1 < v 1 → f (mapping pts v) = reconInner p nodes T pts [v 0] [v 1] w 0) ∧
      ∀ v, -1 < v 1 → ∃ L : Fin 2 → ((Fin 2 → ℝ) →L[ℝ] ℝ), (∀ k, HasFDerivAt (fun z => f z k) (L k) (mapping pts v)) ∧
        L 1 (Pi.single 0 1) - L 0 (Pi.single 1 1) =
          recon2 nodes pts [v 0] [v 1] (coboundary1 (num1 p) (setAll (rotInner p)) T w) 0 := by
  obtain ⟨f, hf, hL⟩ := piola hpos (innerV_differentiable h fun r => (T r : ℝ) * w r) (innerU_differentiable h fun r => (T r : ℝ) * w r).neg
  refine ⟨fun z => ![-(f z 1), f z 0], fun v hv => ?_, fun v hv => ?_⟩
  · have hd' : jacobian pts v ≠ 0 := jac_ne_zero hpos hv
    have q := inner_pull h T hpos w (x := v 0) hv
    simp only [fin_two_eta] at q
    have e0 := hf v hv 0
    have e1 := hf v hv 1
    simp only [Pi.neg_apply] at e0 e1
    funext k
    rw [← sub_eq_zero]
    have : ((![-(f (mapping pts v) 1), f (mapping pts v) 0] : Fin 2 → ℝ) k - reconInner p nodes T pts [v 0] [v 1] w 0 k) * jacobian pts v = 0 := by
      rw [← q.1, ← q.2] at e0 e1
      fin_cases k
      · simp only [jacobian, Fin.zero_eta, Matrix.cons_val_zero] at e1 ⊢
        linear_combination (-1) * e1
      · simp only [jacobian, Fin.mk_one, Matrix.cons_val_one, Matrix.cons_val_fin_one] at e0 ⊢
        linear_combination e0
    exact (mul_eq_zero.1 this).resolve_right hd'
  · obtain ⟨L, h1, h2⟩ := hL v hv
    refine ⟨![-L 1, L 0], ?_, ?_⟩
    · intro k
      fin_cases k
      · exact (h1 1).neg
      · exact h1 0
    obtain ⟨a, b, ha, hb, hab⟩ := ref_rot h (fun r => (T r : ℝ) * w r) (v 0) (v 1)
    have e := h2 a b ha hb
    have d := recon2_density h hpos (coboundary1 (num1 p) (setAll (rotInner p)) T w) hv
    have hd' : jacobian pts v ≠ 0 := jac_ne_zero hpos hv
    have hab' : a + b = recon2 nodes pts [v 0] [v 1] (coboundary1 (num1 p) (setAll (rotInner p)) T w) 0 * jacobian pts v := by
      rw [d, hab]
      simp only [coboundary1_eq]
    have := mul_right_cancel₀ hd' (e.trans hab')
    rw [← this]
    simp

/-! ## Integrals and densities -/

/-- **C97, 2-forms.**  The integral of a reconstructed 2-form over a cell of the element is the dof of the cell. -/
theorem c97_cells (h : TriNodes p nodes) (hpos : 0 < cross (pts 0) (pts 1) (pts 2)) (w : Nat → ℝ) (i j : Nat) (hi : i < p) (hj : j < p) :
    ∫ y in (node nodes j)..(node nodes (j + 1)), ∫ x in (node nodes i)..(node nodes (i + 1)),
      recon2 nodes pts [x] [y] w 0 * jacobian pts ![x, y] = w (ln2 p i j) := by
  have hl := h.len
  have hlt : ∀ k < p, node nodes k < node nodes (k + 1) := fun k hk => accepted_lt h.acc (by omega) (by rw [hl]; omega)
  have hge : -1 ≤ node nodes j := by
    rw [← h.symmetric.first]
    rcases Nat.eq_zero_or_pos j with q | q
    · rw [q]
    · exact (accepted_lt h.acc q (by rw [hl]; omega)).le
  have int1 : ∀ k < p, ∀ l < p, ∫ x in (node nodes k)..(node nodes (k + 1)), edgeAt nodes l x = if k = l then 1 else 0 := by
    intro k hk l hl'
    have := c49_integral nodes h.acc l k (by rw [hl]; omega) (by rw [hl]; omega)
    rw [show (if k = l then (1 : ℝ) else 0) = if l = k then 1 else 0 from by simp only [eq_comm]]
    exact this
  have cont : ∀ l < p, Continuous (edgeAt nodes l) := fun l hl' => (edge_differentiable h hl').continuous
  have inner : ∀ y, -1 < y → ∫ x in (node nodes i)..(node nodes (i + 1)), recon2 nodes pts [x] [y] w 0 * jacobian pts ![x, y] =
      ∑ b ∈ range p, edgeAt nodes b y * w (ln2 p i b) := by
    intro y hy
    have e : (fun x => recon2 nodes pts [x] [y] w 0 * jacobian pts ![x, y]) =
        fun x => ∑ b ∈ range p, ∑ a ∈ range p, edgeAt nodes b y * edgeAt nodes a x * w (ln2 p a b) := by
      funext x
      exact recon2_density h hpos w (v := ![x, y]) hy
    rw [e, intervalIntegral.integral_finsetSum]
    · refine sum_congr rfl fun b hb => ?_
      rw [intervalIntegral.integral_finsetSum]
      · have : ∀ a ∈ range p, ∫ x in (node nodes i)..(node nodes (i + 1)), edgeAt nodes b y * edgeAt nodes a x * w (ln2 p a b) =
            edgeAt nodes b y * (if i = a then 1 else 0) * w (ln2 p a b) := by
          intro a ha
          rw [intervalIntegral.integral_mul_const, intervalIntegral.integral_const_mul, int1 i hi a (mem_range.1 ha)]
        rw [sum_congr rfl this, sum_eq_single i]
        · simp
        · intro a _ hai; rw [if_neg (Ne.symm hai)]; ring
        · intro hk'; exact absurd (mem_range.2 hi) hk'
      · intro a ha
        exact ((continuous_const.mul (cont a (mem_range.1 ha))).mul continuous_const).intervalIntegrable _ _
    · intro b hb
      exact (continuous_finset_sum _ fun a ha =>
        ((continuous_const.mul (cont a (mem_range.1 ha))).mul continuous_const)).intervalIntegrable _ _
  have outer : ∫ y in (node nodes j)..(node nodes (j + 1)), ∫ x in (node nodes i)..(node nodes (i + 1)),
      recon2 nodes pts [x] [y] w 0 * jacobian pts ![x, y] =
      ∫ y in (node nodes j)..(node nodes (j + 1)), ∑ b ∈ range p, edgeAt nodes b y * w (ln2 p i b) := by
    refine intervalIntegral.integral_congr_ae (Filter.Eventually.of_forall fun y hy => ?_)
    rw [Set.uIoc_of_le (hlt j hj).le] at hy
    exact inner y (lt_of_le_of_lt hge hy.1)
  rw [outer, intervalIntegral.integral_finsetSum]
  · have : ∀ b ∈ range p, ∫ y in (node nodes j)..(node nodes (j + 1)), edgeAt nodes b y * w (ln2 p i b) =
        (if j = b then 1 else 0) * w (ln2 p i b) := by
      intro b hb
      rw [intervalIntegral.integral_mul_const, int1 j hj b (mem_range.1 hb)]
    rw [sum_congr rfl this, sum_eq_single j]
    · simp
    · intro a _ hai; rw [if_neg (Ne.symm hai)]; ring
    · intro hk'; exact absurd (mem_range.2 hj) hk'
  · intro b hb
    exact ((cont b (mem_range.1 hb)).mul continuous_const).intervalIntegrable _ _

theorem triNodes1 : TriNodes 1 ([-1, 1] : List ℝ) where
  acc := by simp [accepted, node]
  len := rfl
  symm := by intro k hk; interval_cases k <;> simp [node]

theorem triNodes2 : TriNodes 2 ([-1, 0, 1] : List ℝ) where
  acc := accepted_real
  len := rfl
  symm := by intro k hk; interval_cases k <;> simp [node]

/-- **C97, the lowest order.**  With `p = 1` the reconstruction of the 2-form whose dof is the area of the triangle, the integral of the density 1,
is not 1: the values grow without bound towards the singular vertex. -/
theorem c97_density_fails (hpos : 0 < cross (pts 0) (pts 1) (pts 2)) (x : ℝ) {y : ℝ} (hy : -1 < y) :
    recon2 ([-1, 1] : List ℝ) pts [x] [y] (fun _ => area pts) 0 = 1 / (y + 1) := by
  have e := recon2_density triNodes1 hpos (fun _ => area pts) (v := ![x, y]) hy
  have h1 : ∀ t, edgeAt ([-1, 1] : List ℝ) 0 t = 1 / 2 := by
    intro t
    have a := edge_eq_deriv triNodes1 (k := 0) (by omega) t
    have b : (fun t => ∑ i ∈ range (1 + 1), (if 0 < i then (1 : ℝ) else 0) * lagrangeAt ([-1, 1] : List ℝ) i t) = fun t => (t + 1) / 2 := by
      funext t
      simp [sum_range_succ, lagrangeAt, node, List.range_succ]
      ring
    rw [b] at a
    exact a.unique (((hasDerivAt_id t).add_const 1).div_const 2)
  simp only [sum_range_one, h1, Matrix.cons_val_zero, Matrix.cons_val_one, Matrix.cons_val_fin_one] at e
  rw [jacobian_eq _ _ two_ne_zero, (c62_area pts hpos).1] at e
  simp only [Matrix.cons_val_one, Matrix.cons_val_fin_one] at e
  have hy' : y + 1 ≠ 0 := by have : 0 < y + 1 := by linarith
                             exact this.ne'
  rw [(c62_area pts hpos).1, eq_div_iff hy']
  have := hpos.ne'
  field_simp at e
  linarith

/-! ## Examples -/

/-- The square of four triangles, with real coordinates. -/
def squareReal (i : Nat) : ℝ × ℝ := (((squarePoints i).1 : ℝ), ((squarePoints i).2 : ℝ))

example : 0 < cross (squareReal (squareFixed 0 0)) (squareReal (squareFixed 0 1)) (squareReal (squareFixed 0 2)) := by
  have e : squareFixed 0 0 = 0 ∧ squareFixed 0 1 = 1 ∧ squareFixed 0 2 = 4 := by decide
  rw [e.1, e.2.1, e.2.2]
  norm_num [cross, squareReal, squarePoints]

/-- A polynomial of degree 2. -/
example (v : Fin 2 → ℝ) :
    recon0 [-1, 0, 1] [v 0] [v 1] (fun r => ((discretize0 2 (node [-1, 0, 1]) ![(0, 0), (2, 0), (0, 3)] fun z =>
      MvPolynomial.eval z (MvPolynomial.X 0 * MvPolynomial.X 1))[r]?).getD 0) 0 =
      MvPolynomial.eval (mapping ![(0, 0), (2, 0), (0, 3)] v) (MvPolynomial.X 0 * MvPolynomial.X 1) :=
  c97_reproduces triNodes2 _ _ ((MvPolynomial.totalDegree_mul _ _).trans (by simp [MvPolynomial.totalDegree_X])) v

example : ∃ em, elementMap squareFixed 4 = some em ∧ ∃ s0, number (form0 2) squareFixed em 4 = some s0 ∧
    FromGlobal 4 (num0 2) (fun c => gv0 2 (s0.done c)) (fun c r => ((discretize0 2 (node [-1, 0, 1]) (fun a => squareReal (squareFixed c a))
      fun z => z 0 ^ 5)[r]?).getD 0) := by
  obtain ⟨em, hem, -⟩ := c61_element_map _ 4 square_triangulation
  obtain ⟨s0, h0, -⟩ := c63_zero_forms 2 (by omega) _ 4 square_triangulation em hem
  exact ⟨em, hem, s0, h0, c65_zero_forms 2 (by omega) _ triNodes2.symmetric _ _ 4 square_triangulation em hem s0 h0 _⟩

/-- Any global vector gives the local dofs of a 1-form. -/
example (X : Nat → ℝ) : ∃ em, elementMap squareFixed 4 = some em ∧ ∃ s1, number (form1Inner 2) squareFixed em 4 = some s1 ∧
    FromGlobal 4 (num1 2) (fun c => gv1Inner 2 (s1.done c)) fun c r => X ((((gv1Inner 2 (s1.done c))[r]?).getD none).getD 0) := by
  obtain ⟨em, hem, -⟩ := c61_element_map _ 4 square_triangulation
  obtain ⟨s1, h1, -⟩ := c63_one_forms_inner 2 _ 4 square_triangulation em hem
  exact ⟨em, hem, s1, h1, X, fun c _ r _ k hk => by simp [hk]⟩

example : ∃ m s e, SameEdge (squareFixed 0) (squareFixed 1) m s e := by
  unfold SameEdge
  decide +kernel

end

end Mifem.Props
