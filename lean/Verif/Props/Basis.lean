import Verif.Lemmas.Basis
import Verif.Lemmas.Incidence2D
import Verif.Lemmas.Incidence3D
import Mathlib.Analysis.Calculus.Deriv.Polynomial
import Mathlib.Analysis.Calculus.Deriv.Add
import Mathlib.Analysis.Calculus.Deriv.Mul
import Mathlib.MeasureTheory.Integral.IntervalIntegral.FundThmCalculus
import Mathlib.Topology.Algebra.Polynomial
import Mathlib.Data.Real.Basic
import Mathlib.Tactic.NormNum

/-!
# Properties C48-C51: node and edge basis functions, and reconstruction commutes with the derivative
-/

namespace Mifem.Props
open Finset Polynomial Mifem.Basis

section generic
variable {K : Type*} [Field K] [LinearOrder K] [IsStrictOrderedRing K]

theorem accepted_lt {nodes : List K} (h : accepted nodes = true) {i j : Nat} (hij : i < j) (hj : j < nodes.length) :
    node nodes i < node nodes j := by
  have h1 : ∀ i, i + 1 < nodes.length → node nodes i < node nodes (i + 1) := by
    intro i hi
    simp only [accepted, Bool.and_eq_true, List.all_eq_true, List.mem_range, decide_eq_true_eq] at h
    exact h.1.1 i (by omega)
  induction j with
  | zero => omega
  | succ j ih =>
    rcases Nat.lt_succ_iff_lt_or_eq.1 hij with hlt | heq
    · exact lt_trans (ih hlt (by omega)) (h1 j hj)
    · subst heq; exact h1 i hj

theorem accepted_distinct {nodes : List K} (h : accepted nodes = true) : Distinct nodes := by
  intro i hi j hj hij
  simp only [coe_range, Set.mem_Iio] at hi hj
  rcases Nat.lt_trichotomy i j with hl | he | hg
  · exact absurd hij (ne_of_lt (accepted_lt h hl hj))
  · exact he
  · exact absurd hij.symm (ne_of_lt (accepted_lt h hg hi))

theorem accepted_two {nodes : List K} (h : accepted nodes = true) : 2 ≤ nodes.length := by
  simp only [accepted, Bool.and_eq_true, decide_eq_true_eq] at h
  obtain ⟨⟨_, h1⟩, h2⟩ := h
  match nodes, h1, h2 with
  | [a], h1, h2 =>
    simp only [List.getLast?_singleton, Option.some.injEq, List.head?_cons] at h1 h2
    rw [h1] at h2
    have : (-1 : K) < 1 := by linarith [zero_lt_one (α := K)]
    rw [← h2] at this
    exact absurd this (lt_irrefl _)
  | _ :: _ :: _, _, _ => simp

theorem getD_node (nodes : List K) (i : Nat) : nodes.getD i 0 = node nodes i := rfl

/-! ## C48: node basis -/

/-- **C48, Kronecker property.**  For every accepted set of nodes, the `i`-th node basis function is 1 at the
`i`-th node and 0 at all other nodes. -/
theorem c48_kronecker (nodes : List K) (h : accepted nodes = true) (i j : Nat) (hi : i < nodes.length)
    (hj : j < nodes.length) : (nodeBasis nodes nodes).e i j = if i = j then 1 else 0 := by
  have hd := accepted_distinct h
  show lagrangeAt nodes i (nodes.getD j 0) = _
  rw [lagrangeAt_eq, getD_node]
  by_cases hij : i = j
  · subst hij; rw [if_pos rfl]; exact Lagrange.eval_basis_self hd (mem_range.2 hi)
  · rw [if_neg hij]; exact Lagrange.eval_basis_of_ne hij (mem_range.2 hj)

/-- **C48, reproduction.**  At any points, combining the node basis with the nodal values of a polynomial of
degree at most `p` gives the values of that polynomial. -/
theorem c48_reproduces (nodes : List K) (h : accepted nodes = true) (f : K[X]) (hf : f.degree < nodes.length)
    (xs : List K) (c : Nat) :
    ∑ i ∈ range (nodeBasis nodes xs).rows, f.eval (nodes.getD i 0) * (nodeBasis nodes xs).e i c =
      f.eval (xs.getD c 0) :=
  reproduce (accepted_distinct h) hf (xs.getD c 0)

/-- **C48, partition of unity.** -/
theorem c48_sum_one (nodes : List K) (h : accepted nodes = true) (xs : List K) (c : Nat) :
    ∑ i ∈ range (nodeBasis nodes xs).rows, (nodeBasis nodes xs).e i c = 1 := by
  have h2 := accepted_two h
  have := c48_reproduces nodes h 1 (by
    rw [degree_one]; exact_mod_cast (by omega : 0 < nodes.length)) xs c
  simpa using this

/-- the degree bound is sharp: the nodal polynomial (degree `p + 1`) is not reproduced. -/
theorem c48_degree_sharp (nodes : List K) (h : accepted nodes = true) :
    ∃ f : K[X], f.degree = nodes.length ∧ ∃ x : K,
      ∑ i ∈ range nodes.length, f.eval (nodes.getD i 0) * (nodeBasis nodes [x]).e i 0 ≠ f.eval x := by
  have h2 := accepted_two h
  refine ⟨Lagrange.nodal (range nodes.length) (node nodes), by rw [Lagrange.degree_nodal, card_range], 
    node nodes (nodes.length - 1) + 1, ?_⟩
  have h0 : ∑ i ∈ range nodes.length, (Lagrange.nodal (range nodes.length) (node nodes)).eval (nodes.getD i 0) *
      (nodeBasis nodes [node nodes (nodes.length - 1) + 1]).e i 0 = 0 := by
    refine Finset.sum_eq_zero fun i hi => ?_
    rw [getD_node, Lagrange.eval_nodal_at_node hi, zero_mul]
  rw [h0]
  refine (Lagrange.eval_nodal_not_at_node ?_).symm
  intro i hi hc
  have : node nodes i ≤ node nodes (nodes.length - 1) := by
    rcases Nat.lt_or_ge i (nodes.length - 1) with hl | hg
    · exact le_of_lt (accepted_lt h hl (by omega))
    · have := mem_range.1 hi
      rw [show i = nodes.length - 1 by omega]
  rw [← hc] at this
  linarith [zero_lt_one (α := K)]

end generic

example : accepted ([-1, 0, 1/2, 1] : List ℚ) = true := by decide +kernel
example : accepted ([-1, 1/2, 0, 1] : List ℚ) = false := by decide +kernel
example : (List.range 3).map (fun i => (nodeBasis ([-1, 0, 1] : List ℚ) [1/2]).e i 0) = [-1/8, 3/4, 3/8] := by
  decide +kernel
example : (List.range 2).map (fun i => (edgeBasis ([-1, 0, 1] : List ℚ) [1/2]).e i 0) = [0, 1] := by
  decide +kernel

/-! ## C49: edge basis -/

theorem lag_hasDeriv (nodes : List ℝ) (h : Distinct nodes) {p : Nat} (hp : nodes.length = p + 1) (a : Nat → ℝ) (x : ℝ) :
    HasDerivAt (fun t => ∑ i ∈ range (p + 1), a i * lagrangeAt nodes i t)
      (∑ i ∈ range p, (a (i + 1) - a i) * edgeAt nodes i x) x := by
  have h1 := (∑ i ∈ range (p + 1), C (a i) * lag nodes i).hasDerivAt x
  rw [deriv_interp h hp a, eval_finsetSum] at h1
  have h2 : (fun t => ∑ i ∈ range (p + 1), a i * lagrangeAt nodes i t)
      = fun t => (∑ i ∈ range (p + 1), C (a i) * lag nodes i).eval t := by
    funext t
    rw [eval_finsetSum]
    refine Finset.sum_congr rfl fun i _ => ?_
    rw [eval_mul, eval_C, lagrangeAt_eq]
  rw [h2]
  have h3 : ∑ i ∈ range p, (a (i + 1) - a i) * edgeAt nodes i x
      = ∑ i ∈ range p, (C (a (i + 1) - a i) * edg nodes i).eval x := by
    refine Finset.sum_congr rfl fun i hi => ?_
    rw [eval_mul, eval_C, edgeAt_eq h (by have := mem_range.1 hi; omega)]
  rw [h3]
  exact h1

/-- **C49, derivative.**  Along one direction, the derivative of the function with nodal values `a` is the edge
basis combined with the differences of the nodal values. -/
theorem c49_derivative (nodes : List ℝ) (h : accepted nodes = true) (a : Nat → ℝ) (x : ℝ) :
    HasDerivAt (fun t => ∑ i ∈ range (nodeBasis nodes [t]).rows, a i * (nodeBasis nodes [t]).e i 0)
      (∑ i ∈ range (edgeBasis nodes [x]).rows, (a (i + 1) - a i) * (edgeBasis nodes [x]).e i 0) x := by
  have h2 := accepted_two h
  show HasDerivAt (fun t => ∑ i ∈ range nodes.length, a i * (nodeBasis nodes [t]).e i 0)
      (∑ i ∈ range (nodes.length - 1), (a (i + 1) - a i) * (edgeBasis nodes [x]).e i 0) x
  have := lag_hasDeriv nodes (accepted_distinct h) (p := nodes.length - 1) (by omega) a x
  rw [show nodes.length - 1 + 1 = nodes.length by omega] at this
  exact this

/-- **C49, integrals.**  The `i`-th edge basis function has integral 1 over the `i`-th interval between
neighbouring nodes and integral 0 over every other one. -/
theorem c49_integral (nodes : List ℝ) (h : accepted nodes = true) (i j : Nat) (hi : i + 1 < nodes.length)
    (hj : j + 1 < nodes.length) :
    ∫ x in (nodes.getD j 0)..(nodes.getD (j + 1) 0), (edgeBasis nodes [x]).e i 0 = if i = j then 1 else 0 := by
  have hd := accepted_distinct h
  have hder : ∀ x : ℝ, HasDerivAt (fun t => (-∑ m ∈ range (i + 1), lag nodes m).eval t)
      ((edgeBasis nodes [x]).e i 0) x := by
    intro x
    have h1 := (-∑ m ∈ range (i + 1), lag nodes m).hasDerivAt x
    rw [derivative_neg, derivative_sum] at h1
    have : (edgeBasis nodes [x]).e i 0 = (edg nodes i).eval x := edgeAt_eq hd (by omega) x
    rw [this]
    exact h1
  have hcont : (fun x => (edgeBasis nodes [x]).e i 0) = fun x => (edg nodes i).eval x := by
    funext x; exact edgeAt_eq hd (by omega) x
  rw [intervalIntegral.integral_eq_sub_of_hasDerivAt (fun x _ => hder x)
    (by rw [hcont]; exact (edg nodes i).continuous.intervalIntegrable _ _)]
  simp only [getD_node, eval_neg]
  rw [sum_lag_node hd (by omega) (by omega), sum_lag_node hd (by omega) (by omega)]
  by_cases h1 : j + 1 ≤ i
  · rw [if_pos h1, if_pos (by omega), if_neg (by omega)]; ring
  · by_cases h2 : j ≤ i
    · rw [if_neg h1, if_pos h2, if_pos (by omega)]; ring
    · rw [if_neg h1, if_neg h2, if_neg (by omega)]; ring

/-- **C49, reproduction.**  The edge basis combined with the integrals of a polynomial of degree at most `p - 1`
over the intervals between the nodes gives back the polynomial. -/
theorem c49_reproduces (nodes : List ℝ) (h : accepted nodes = true) (f : ℝ[X])
    (hf : f.natDegree + 1 < nodes.length) (x : ℝ) :
    ∑ i ∈ range (edgeBasis nodes [x]).rows, (∫ t in (nodes.getD i 0)..(nodes.getD (i + 1) 0), f.eval t) *
      (edgeBasis nodes [x]).e i 0 = f.eval x := by
  have hd := accepted_distinct h
  -- an antiderivative
  obtain ⟨F, hF, hFd⟩ : ∃ F : ℝ[X], derivative F = f ∧ F.degree < nodes.length := by
    refine ⟨∑ n ∈ range (f.natDegree + 1), C (f.coeff n / ((n : ℝ) + 1)) * X ^ (n + 1), ?_, ?_⟩
    · rw [derivative_sum]
      conv_rhs => rw [f.as_sum_range_C_mul_X_pow]
      refine Finset.sum_congr rfl fun n _ => ?_
      have hn : ((n : ℝ) + 1) ≠ 0 := by positivity
      rw [derivative_C_mul_X_pow]
      congr 2
      push_cast
      field_simp
    · refine lt_of_le_of_lt (degree_sum_le _ _) ?_
      rw [Finset.sup_lt_iff (by exact_mod_cast WithBot.bot_lt_coe _)]
      intro n hn
      refine lt_of_le_of_lt (degree_C_mul_X_pow_le _ _) ?_
      have := mem_range.1 hn
      exact_mod_cast (by omega : n + 1 < nodes.length)
  have hint : ∀ i, ∫ t in (nodes.getD i 0)..(nodes.getD (i + 1) 0), f.eval t
      = F.eval (node nodes (i + 1)) - F.eval (node nodes i) := by
    intro i
    rw [intervalIntegral.integral_eq_sub_of_hasDerivAt (f := fun t => F.eval t)
      (fun t _ => by have := F.hasDerivAt t; rwa [hF] at this)
      (f.continuous.intervalIntegrable _ _)]
    rfl
  have h1 : HasDerivAt (fun t => ∑ i ∈ range nodes.length, F.eval (node nodes i) * (nodeBasis nodes [t]).e i 0)
      (∑ i ∈ range (nodes.length - 1), (F.eval (node nodes (i + 1)) - F.eval (node nodes i)) *
        (edgeBasis nodes [x]).e i 0) x := c49_derivative nodes h (fun i => F.eval (node nodes i)) x
  have h2 : (fun t => ∑ i ∈ range nodes.length, F.eval (node nodes i) * (nodeBasis nodes [t]).e i 0)
      = fun t => F.eval t := by
    funext t
    exact c48_reproduces nodes h F hFd [t] 0
  rw [h2] at h1
  have h3 := F.hasDerivAt x
  rw [hF] at h3
  rw [← h1.unique h3]
  exact Finset.sum_congr rfl fun i _ => by rw [hint i]

theorem accepted_real : accepted ([-1, 0, 1] : List ℝ) = true := by
  simp [accepted, node, List.range_succ]

example : ∫ x in (-1 : ℝ)..0, (edgeBasis ([-1, 0, 1] : List ℝ) [x]).e 0 0 = 1 :=
  c49_integral [-1, 0, 1] accepted_real 0 0 (by simp) (by simp)
example : ∫ x in (0 : ℝ)..1, (edgeBasis ([-1, 0, 1] : List ℝ) [x]).e 0 0 = 0 :=
  c49_integral [-1, 0, 1] accepted_real 0 1 (by simp) (by simp)

/-! ## C50: 2D reconstruction -/

/-- derivative of a sum of one-directional interpolants. -/
theorem sum_hasDeriv {ι : Type*} (nodes : List ℝ) (h : accepted nodes = true) (s : Finset ι) (g : ι → ℝ)
    (a : ι → Nat → ℝ) (x : ℝ) :
    HasDerivAt (fun t => ∑ r ∈ s, ∑ i ∈ range nodes.length, g r * lagrangeAt nodes i t * a r i)
      (∑ r ∈ s, ∑ i ∈ range (nodes.length - 1), g r * edgeAt nodes i x * (a r (i + 1) - a r i)) x := by
  have h2 := accepted_two h
  have h1 : ∀ r ∈ s, HasDerivAt (fun t => ∑ i ∈ range nodes.length, g r * lagrangeAt nodes i t * a r i)
      (∑ i ∈ range (nodes.length - 1), g r * edgeAt nodes i x * (a r (i + 1) - a r i)) x := by
    intro r _
    have := lag_hasDeriv nodes (accepted_distinct h) (p := nodes.length - 1) (by omega) (fun i => g r * a r i) x
    rw [show nodes.length - 1 + 1 = nodes.length by omega] at this
    have e1 : (fun t => ∑ i ∈ range nodes.length, g r * lagrangeAt nodes i t * a r i)
        = fun t => ∑ i ∈ range nodes.length, g r * a r i * lagrangeAt nodes i t := by
      funext t; exact Finset.sum_congr rfl fun i _ => by ring
    have e2 : ∑ i ∈ range (nodes.length - 1), g r * edgeAt nodes i x * (a r (i + 1) - a r i)
        = ∑ i ∈ range (nodes.length - 1), (g r * a r (i + 1) - g r * a r i) * edgeAt nodes i x :=
      Finset.sum_congr rfl fun i _ => by ring
    rw [e1, e2]; exact this
  exact HasDerivAt.fun_sum h1

section two
variable {nx ny : List ℝ}

theorem two_recon (A B : Arr ℝ) (hB : B.cols = 1) (w : Nat → ℝ) :
    einsum (kron A B) w 0 = ∑ j ∈ range A.rows, ∑ i ∈ range B.rows, A.e j 0 * B.e i 0 * w (fIdx2 B.rows i j) := by
  have := einsum_kron A B w (a := 0) (b := 0) (by omega)
  rw [fIdx2, hB] at this
  exact this

theorem two_dx (hx : accepted nx = true) (B : Arr ℝ) (w : Nat → ℝ) (x : ℝ) :
    HasDerivAt (fun t => einsum (kron B (nodeBasis nx [t])) w 0)
      (∑ j ∈ range B.rows, ∑ i ∈ range (nx.length - 1),
        B.e j 0 * edgeAt nx i x * (w (fIdx2 nx.length (i + 1) j) - w (fIdx2 nx.length i j))) x := by
  have h1 := sum_hasDeriv nx hx (range B.rows) (fun j => B.e j 0) (fun j i => w (fIdx2 nx.length i j)) x
  have e : (fun t => einsum (kron B (nodeBasis nx [t])) w 0) = fun t => ∑ r ∈ range B.rows,
      ∑ i ∈ range nx.length, B.e r 0 * lagrangeAt nx i t * w (fIdx2 nx.length i r) := by
    funext t
    rw [two_recon _ _ rfl]
    rfl
  rw [e]; exact h1

theorem two_dy (hy : accepted ny = true) (A : Arr ℝ) (hA : A.cols = 1) (w : Nat → ℝ) (y : ℝ) :
    HasDerivAt (fun t => einsum (kron (nodeBasis ny [t]) A) w 0)
      (∑ j ∈ range (ny.length - 1), ∑ i ∈ range A.rows,
        edgeAt ny j y * A.e i 0 * (w (fIdx2 A.rows i (j + 1)) - w (fIdx2 A.rows i j))) y := by
  have h1 := sum_hasDeriv ny hy (range A.rows) (fun i => A.e i 0) (fun i j => w (fIdx2 A.rows i j)) y
  have e : (fun t => einsum (kron (nodeBasis ny [t]) A) w 0) = fun t => ∑ i ∈ range A.rows,
      ∑ j ∈ range ny.length, A.e i 0 * lagrangeAt ny j t * w (fIdx2 A.rows i j) := by
    funext t
    rw [two_recon _ _ hA, Finset.sum_comm]
    refine Finset.sum_congr rfl fun i _ => Finset.sum_congr rfl fun j _ => ?_
    rw [mul_comm (A.e i 0)]
    rfl
  rw [e]
  have e2 : ∑ j ∈ range (ny.length - 1), ∑ i ∈ range A.rows,
        edgeAt ny j y * A.e i 0 * (w (fIdx2 A.rows i (j + 1)) - w (fIdx2 A.rows i j))
      = ∑ i ∈ range A.rows, ∑ j ∈ range (ny.length - 1),
        A.e i 0 * edgeAt ny j y * (w (fIdx2 A.rows i (j + 1)) - w (fIdx2 A.rows i j)) := by
    rw [Finset.sum_comm]
    exact Finset.sum_congr rfl fun i _ => Finset.sum_congr rfl fun j _ => by ring
  rw [e2]; exact h1

/-- the coboundary of a cochain: incidence matrix times cochain. -/
local notation "cob" => applyM (R := ℝ)

/-- **C50, gradient.**  The partial derivatives of a reconstructed inner 0-form are the two components of the
reconstruction of its coboundary. -/
theorem c50_grad (hx : accepted nx = true) (hy : accepted ny = true) (w : Nat → ℝ) (x y : ℝ) :
    let dw := cob (Mifem.Two.nb0 (nx.length - 1) (ny.length - 1))
      (Mifem.Two.gradInner (nx.length - 1) (ny.length - 1)) w
    HasDerivAt (fun t => Two.recon0 nx ny [t] [y] w 0) (Two.reconInner1 nx ny [x] [y] dw 0).1 x ∧
    HasDerivAt (fun t => Two.recon0 nx ny [x] [t] w 0) (Two.reconInner1 nx ny [x] [y] dw 0).2 y := by
  intro dw
  have hlx := accepted_two hx
  have hly := accepted_two hy
  constructor
  · refine (two_dx hx (nodeBasis ny [y]) w x).congr_deriv ?_
    simp only [Two.reconInner1, Two.basisDxi]
    rw [two_recon _ _ rfl]
    refine Finset.sum_congr rfl fun j hj => Finset.sum_congr rfl fun i hi => ?_
    have hi' := mem_range.1 hi
    have hj' : j < ny.length := mem_range.1 hj
    have := Mifem.Two.gradInner_c0 (R := ℝ) (p0 := nx.length - 1) (p1 := ny.length - 1) w (i := i) (j := j)
      hi' (by omega)
    simp only [Mifem.Two.lnI1c0, Mifem.Two.ln0, show nx.length - 1 + 1 = nx.length by omega] at this
    change dw _ = _ at this
    show _ * _ * _ = _ * _ * dw (fIdx2 (nx.length - 1) i j)
    rw [this]; rfl
  · refine (two_dy hy (nodeBasis nx [x]) rfl w y).congr_deriv ?_
    simp only [Two.reconInner1, Two.basisDet]
    rw [two_recon _ _ rfl]
    refine Finset.sum_congr rfl fun j hj => Finset.sum_congr rfl fun i hi => ?_
    have hi' : i < nx.length := mem_range.1 hi
    have hj' : j < ny.length - 1 := mem_range.1 hj
    have := Mifem.Two.gradInner_c1 (R := ℝ) (p0 := nx.length - 1) (p1 := ny.length - 1) w (i := i) (j := j)
      (by omega) hj'
    simp only [Mifem.Two.lnI1c1, Mifem.Two.ln0, show nx.length - 1 + 1 = nx.length by omega] at this
    change dw _ = _ at this
    show _ * _ * _ = _ * _ * dw (Mifem.Two.nbI1c0 (nx.length - 1) (ny.length - 1) + fIdx2 nx.length i j)
    rw [Nat.add_comm (Mifem.Two.nbI1c0 _ _), this]; rfl

/-- **C50, rotation.**  The difference of the cross derivatives of a reconstructed inner 1-form is the
reconstruction of its coboundary. -/
theorem c50_rot (hx : accepted nx = true) (hy : accepted ny = true) (w : Nat → ℝ) (x y : ℝ) :
    let dw := cob (Mifem.Two.nbI1 (nx.length - 1) (ny.length - 1))
      (Mifem.Two.rotInner (nx.length - 1) (ny.length - 1)) w
    ∃ a b, HasDerivAt (fun t => (Two.reconInner1 nx ny [t] [y] w 0).2) a x ∧
      HasDerivAt (fun t => (Two.reconInner1 nx ny [x] [t] w 0).1) b y ∧
      Two.recon2 nx ny [x] [y] dw 0 = a - b := by
  intro dw
  have hlx := accepted_two hx
  have hly := accepted_two hy
  refine ⟨_, _, two_dx hx (edgeBasis ny [y]) (slice w _) x, two_dy hy (edgeBasis nx [x]) rfl w y, ?_⟩
  simp only [Two.recon2, Two.basis2]
  rw [two_recon _ _ rfl]
  have : ∀ (f g : Nat → Nat → ℝ) (m n : Nat), (∑ j ∈ range m, ∑ i ∈ range n, f j i)
      - (∑ j ∈ range m, ∑ i ∈ range n, g j i) = ∑ j ∈ range m, ∑ i ∈ range n, (f j i - g j i) := by
    intro f g m n; simp [Finset.sum_sub_distrib]
  refine Eq.trans ?_ (this _ _ _ _).symm
  refine Finset.sum_congr rfl fun j hj => Finset.sum_congr rfl fun i hi => ?_
  have hi' : i < nx.length - 1 := mem_range.1 hi
  have hj' : j < ny.length - 1 := mem_range.1 hj
  have := Mifem.Two.rotInner_row (R := ℝ) (p0 := nx.length - 1) (p1 := ny.length - 1) w (i := i) (j := j) hi' hj'
  simp only [Mifem.Two.lnI1c0, Mifem.Two.lnI1c1, Mifem.Two.ln2, show nx.length - 1 + 1 = nx.length by omega] at this
  change dw _ = _ at this
  show _ * _ * dw (fIdx2 (nx.length - 1) i j) = _
  rw [this]
  simp only [slice, edgeBasis, List.getD_cons_zero, Nat.add_comm (Mifem.Two.nbI1c0 _ _)]
  ring

/-- **C50, outer curl.**  For an outer 0-form the reconstruction of the coboundary is
`(∂/∂η, -∂/∂ξ)` of the reconstruction. -/
theorem c50_curl (hx : accepted nx = true) (hy : accepted ny = true) (w : Nat → ℝ) (x y : ℝ) :
    let dw := cob (Mifem.Two.nb0 (nx.length - 1) (ny.length - 1))
      (Mifem.Two.curlOuter (nx.length - 1) (ny.length - 1)) w
    HasDerivAt (fun t => Two.recon0 nx ny [x] [t] w 0) (Two.reconOuter1 nx ny [x] [y] dw 0).1 y ∧
    HasDerivAt (fun t => Two.recon0 nx ny [t] [y] w 0) (-(Two.reconOuter1 nx ny [x] [y] dw 0).2) x := by
  intro dw
  have hlx := accepted_two hx
  have hly := accepted_two hy
  constructor
  · refine (two_dy hy (nodeBasis nx [x]) rfl w y).congr_deriv ?_
    simp only [Two.reconOuter1, Two.basisDet]
    rw [two_recon _ _ rfl]
    refine Finset.sum_congr rfl fun j hj => Finset.sum_congr rfl fun i hi => ?_
    have hi' : i < nx.length := mem_range.1 hi
    have hj' : j < ny.length - 1 := mem_range.1 hj
    have := Mifem.Two.curlOuter_c0 (R := ℝ) (p0 := nx.length - 1) (p1 := ny.length - 1) w (i := i) (j := j)
      (by omega) hj'
    simp only [Mifem.Two.lnO1c0, Mifem.Two.ln0, show nx.length - 1 + 1 = nx.length by omega] at this
    change dw _ = _ at this
    show _ * _ * _ = _ * _ * dw (fIdx2 nx.length i j)
    rw [this]; rfl
  · refine (two_dx hx (nodeBasis ny [y]) w x).congr_deriv ?_
    simp only [Two.reconOuter1, Two.basisDxi]
    rw [two_recon _ _ rfl, ← Finset.sum_neg_distrib]
    refine Finset.sum_congr rfl fun j hj => ?_
    rw [← Finset.sum_neg_distrib]
    refine Finset.sum_congr rfl fun i hi => ?_
    have hi' : i < nx.length - 1 := mem_range.1 hi
    have hj' : j < ny.length := mem_range.1 hj
    have := Mifem.Two.curlOuter_c1 (R := ℝ) (p0 := nx.length - 1) (p1 := ny.length - 1) w (i := i) (j := j)
      hi' (by omega)
    simp only [Mifem.Two.lnO1c1, Mifem.Two.ln0, show nx.length - 1 + 1 = nx.length by omega] at this
    change dw _ = _ at this
    show _ * _ * _ = -(_ * _ * dw (Mifem.Two.nbO1c0 (nx.length - 1) (ny.length - 1) + fIdx2 (nx.length - 1) i j))
    rw [Nat.add_comm (Mifem.Two.nbO1c0 _ _), this]
    simp only [edgeBasis, List.getD_cons_zero]
    ring

/-- **C50, divergence.**  The divergence of a reconstructed outer 1-form is the reconstruction of its
coboundary. -/
theorem c50_div (hx : accepted nx = true) (hy : accepted ny = true) (w : Nat → ℝ) (x y : ℝ) :
    let dw := cob (Mifem.Two.nbO1 (nx.length - 1) (ny.length - 1))
      (Mifem.Two.divOuter (nx.length - 1) (ny.length - 1)) w
    ∃ a b, HasDerivAt (fun t => (Two.reconOuter1 nx ny [t] [y] w 0).1) a x ∧
      HasDerivAt (fun t => (Two.reconOuter1 nx ny [x] [t] w 0).2) b y ∧
      Two.recon2 nx ny [x] [y] dw 0 = a + b := by
  intro dw
  have hlx := accepted_two hx
  have hly := accepted_two hy
  refine ⟨_, _, two_dx hx (edgeBasis ny [y]) w x, two_dy hy (edgeBasis nx [x]) rfl (slice w _) y, ?_⟩
  simp only [Two.recon2, Two.basis2]
  rw [two_recon _ _ rfl]
  have : ∀ (f g : Nat → Nat → ℝ) (m n : Nat), (∑ j ∈ range m, ∑ i ∈ range n, f j i)
      + (∑ j ∈ range m, ∑ i ∈ range n, g j i) = ∑ j ∈ range m, ∑ i ∈ range n, (f j i + g j i) := by
    intro f g m n; simp [Finset.sum_add_distrib]
  refine Eq.trans ?_ (this _ _ _ _).symm
  refine Finset.sum_congr rfl fun j hj => Finset.sum_congr rfl fun i hi => ?_
  have hi' : i < nx.length - 1 := mem_range.1 hi
  have hj' : j < ny.length - 1 := mem_range.1 hj
  have := Mifem.Two.divOuter_row (R := ℝ) (p0 := nx.length - 1) (p1 := ny.length - 1) w (i := i) (j := j) hi' hj'
  simp only [Mifem.Two.lnO1c0, Mifem.Two.lnO1c1, Mifem.Two.ln2, show nx.length - 1 + 1 = nx.length by omega] at this
  change dw _ = _ at this
  show _ * _ * dw (fIdx2 (nx.length - 1) i j) = _
  rw [this]
  simp only [slice, edgeBasis, List.getD_cons_zero, Nat.add_comm (Mifem.Two.nbO1c0 _ _)]
  ring

end two

/-! ## C51: 3D reconstruction -/

section three
variable {nx ny nz : List ℝ}

theorem three_recon (D B A : Arr ℝ) (hA : A.cols = 1) (hB : B.cols = 1) (w : Nat → ℝ) :
    einsum (Three.kron3 D B A) w 0 = ∑ k ∈ range D.rows, ∑ j ∈ range B.rows, ∑ i ∈ range A.rows,
      D.e k 0 * B.e j 0 * A.e i 0 * w (fIdx3 A.rows B.rows i j k) := by
  unfold Three.kron3
  rw [two_recon _ _ hA, show (kron D B).rows = D.rows * B.rows from rfl, sum_range_mul]
  refine Finset.sum_congr rfl fun k _ => Finset.sum_congr rfl fun j hj => Finset.sum_congr rfl fun i _ => ?_
  have := kron_e D B (i := j) (j := k) (mem_range.1 hj) (a := 0) (b := 0) (by omega)
  rw [hB, show fIdx2 1 0 0 = 0 from rfl] at this
  rw [this, fIdx3_eq]

theorem three_dx (hx : accepted nx = true) (D B : Arr ℝ) (hB : B.cols = 1) (w : Nat → ℝ) (x : ℝ) :
    HasDerivAt (fun t => einsum (Three.kron3 D B (nodeBasis nx [t])) w 0)
      (∑ k ∈ range D.rows, ∑ j ∈ range B.rows, ∑ i ∈ range (nx.length - 1), D.e k 0 * B.e j 0 * edgeAt nx i x *
        (w (fIdx3 nx.length B.rows (i + 1) j k) - w (fIdx3 nx.length B.rows i j k))) x := by
  have h1 := sum_hasDeriv nx hx (range D.rows ×ˢ range B.rows) (fun r => D.e r.1 0 * B.e r.2 0)
    (fun r i => w (fIdx3 nx.length B.rows i r.2 r.1)) x
  rw [Finset.sum_product] at h1
  have e : (fun t => einsum (Three.kron3 D B (nodeBasis nx [t])) w 0)
      = fun t => ∑ r ∈ range D.rows ×ˢ range B.rows, ∑ i ∈ range nx.length,
        D.e r.1 0 * B.e r.2 0 * lagrangeAt nx i t * w (fIdx3 nx.length B.rows i r.2 r.1) := by
    funext t
    rw [three_recon _ _ _ rfl hB, Finset.sum_product]
    rfl
  rw [e]; exact h1

theorem three_dy (hy : accepted ny = true) (D A : Arr ℝ) (hA : A.cols = 1) (w : Nat → ℝ) (y : ℝ) :
    HasDerivAt (fun t => einsum (Three.kron3 D (nodeBasis ny [t]) A) w 0)
      (∑ k ∈ range D.rows, ∑ j ∈ range (ny.length - 1), ∑ i ∈ range A.rows, D.e k 0 * edgeAt ny j y * A.e i 0 *
        (w (fIdx3 A.rows ny.length i (j + 1) k) - w (fIdx3 A.rows ny.length i j k))) y := by
  have h1 := sum_hasDeriv ny hy (range D.rows ×ˢ range A.rows) (fun r => D.e r.1 0 * A.e r.2 0)
    (fun r j => w (fIdx3 A.rows ny.length r.2 j r.1)) y
  rw [Finset.sum_product] at h1
  have e : (fun t => einsum (Three.kron3 D (nodeBasis ny [t]) A) w 0)
      = fun t => ∑ r ∈ range D.rows ×ˢ range A.rows, ∑ j ∈ range ny.length,
        D.e r.1 0 * A.e r.2 0 * lagrangeAt ny j t * w (fIdx3 A.rows ny.length r.2 j r.1) := by
    funext t
    rw [three_recon _ _ _ hA rfl, Finset.sum_product]
    refine Finset.sum_congr rfl fun k _ => ?_
    rw [Finset.sum_comm]
    refine Finset.sum_congr rfl fun i _ => Finset.sum_congr rfl fun j _ => ?_
    simp only [nodeBasis, List.getD_cons_zero]
    ring
  rw [e]
  refine h1.congr_deriv ?_
  refine Finset.sum_congr rfl fun k _ => ?_
  rw [Finset.sum_comm]
  refine Finset.sum_congr rfl fun j _ => Finset.sum_congr rfl fun i _ => ?_
  ring

theorem three_dz (hz : accepted nz = true) (B A : Arr ℝ) (hA : A.cols = 1) (hB : B.cols = 1) (w : Nat → ℝ) (z : ℝ) :
    HasDerivAt (fun t => einsum (Three.kron3 (nodeBasis nz [t]) B A) w 0)
      (∑ k ∈ range (nz.length - 1), ∑ j ∈ range B.rows, ∑ i ∈ range A.rows, edgeAt nz k z * B.e j 0 * A.e i 0 *
        (w (fIdx3 A.rows B.rows i j (k + 1)) - w (fIdx3 A.rows B.rows i j k))) z := by
  have h1 := sum_hasDeriv nz hz (range B.rows ×ˢ range A.rows) (fun r => B.e r.1 0 * A.e r.2 0)
    (fun r k => w (fIdx3 A.rows B.rows r.2 r.1 k)) z
  rw [Finset.sum_product] at h1
  have e : (fun t => einsum (Three.kron3 (nodeBasis nz [t]) B A) w 0)
      = fun t => ∑ r ∈ range B.rows ×ˢ range A.rows, ∑ k ∈ range nz.length,
        B.e r.1 0 * A.e r.2 0 * lagrangeAt nz k t * w (fIdx3 A.rows B.rows r.2 r.1 k) := by
    funext t
    rw [three_recon _ _ _ hA hB, Finset.sum_product, Finset.sum_comm]
    refine Finset.sum_congr rfl fun j _ => ?_
    rw [Finset.sum_comm]
    refine Finset.sum_congr rfl fun i _ => Finset.sum_congr rfl fun k _ => ?_
    simp only [nodeBasis, List.getD_cons_zero]
    ring
  rw [e]
  refine h1.congr_deriv ?_
  rw [Finset.sum_comm (s := range (nz.length - 1))]
  refine Finset.sum_congr rfl fun j _ => ?_
  rw [Finset.sum_comm]
  refine Finset.sum_congr rfl fun i _ => Finset.sum_congr rfl fun k _ => ?_
  ring

theorem sum3_congr {a b c : Nat} {f g : Nat → Nat → Nat → ℝ}
    (h : ∀ k j i, k < a → j < b → i < c → f k j i = g k j i) :
    ∑ k ∈ range a, ∑ j ∈ range b, ∑ i ∈ range c, f k j i = ∑ k ∈ range a, ∑ j ∈ range b, ∑ i ∈ range c, g k j i :=
  Finset.sum_congr rfl fun k hk => Finset.sum_congr rfl fun j hj => Finset.sum_congr rfl fun i hi =>
    h k j i (mem_range.1 hk) (mem_range.1 hj) (mem_range.1 hi)

theorem sum3_sub (f g : Nat → Nat → Nat → ℝ) (a b c : Nat) :
    ∑ k ∈ range a, ∑ j ∈ range b, ∑ i ∈ range c, f k j i - ∑ k ∈ range a, ∑ j ∈ range b, ∑ i ∈ range c, g k j i
      = ∑ k ∈ range a, ∑ j ∈ range b, ∑ i ∈ range c, (f k j i - g k j i) := by
  simp [Finset.sum_sub_distrib]

theorem sum3_add (f g : Nat → Nat → Nat → ℝ) (a b c : Nat) :
    ∑ k ∈ range a, ∑ j ∈ range b, ∑ i ∈ range c, f k j i + ∑ k ∈ range a, ∑ j ∈ range b, ∑ i ∈ range c, g k j i
      = ∑ k ∈ range a, ∑ j ∈ range b, ∑ i ∈ range c, (f k j i + g k j i) := by
  simp [Finset.sum_add_distrib]

/-- **C51, gradient.**  In 3D, the partial derivatives of a reconstructed 0-form are the components of the
reconstruction of its coboundary. -/
theorem c51_grad (hx : accepted nx = true) (hy : accepted ny = true) (hz : accepted nz = true) (w : Nat → ℝ)
    (x y z : ℝ) :
    let dw := applyM (Mifem.Three.nb0 (nx.length - 1) (ny.length - 1) (nz.length - 1)) (Mifem.Three.grad (nx.length - 1) (ny.length - 1) (nz.length - 1)) w
    let u := Three.recon1 nx ny nz [x] [y] [z] dw 0
    HasDerivAt (fun t => Three.recon0 nx ny nz [t] [y] [z] w 0) u.1 x ∧
    HasDerivAt (fun t => Three.recon0 nx ny nz [x] [t] [z] w 0) u.2.1 y ∧
    HasDerivAt (fun t => Three.recon0 nx ny nz [x] [y] [t] w 0) u.2.2 z := by
  intro dw
  have hlx := accepted_two hx
  have hly := accepted_two hy
  have hlz := accepted_two hz
  have ex : nx.length - 1 + 1 = nx.length := by omega
  have ey : ny.length - 1 + 1 = ny.length := by omega
  have ez : nz.length - 1 + 1 = nz.length := by omega
  have en : Mifem.Three.nb1 (nx.length - 1) (ny.length - 1) (nz.length - 1)
      - Mifem.Three.nb1c2 (nx.length - 1) (ny.length - 1) (nz.length - 1)
      = Mifem.Three.nb1c0 (nx.length - 1) (ny.length - 1) (nz.length - 1)
        + Mifem.Three.nb1c1 (nx.length - 1) (ny.length - 1) (nz.length - 1) := by
    rw [Mifem.Three.nb1, Nat.add_sub_cancel]
  have en2 : Mifem.Three.nb2 (nx.length - 1) (ny.length - 1) (nz.length - 1)
      - Mifem.Three.nb2c2 (nx.length - 1) (ny.length - 1) (nz.length - 1)
      = Mifem.Three.nb2c0 (nx.length - 1) (ny.length - 1) (nz.length - 1)
        + Mifem.Three.nb2c1 (nx.length - 1) (ny.length - 1) (nz.length - 1) := by
    rw [Mifem.Three.nb2, Nat.add_sub_cancel]
  refine ⟨?_, ?_, ?_⟩
  · refine (three_dx hx (nodeBasis nz [z]) (nodeBasis ny [y]) rfl w x).congr_deriv ?_
    simp only [Three.recon1]
    rw [three_recon _ _ _ rfl rfl]
    refine sum3_congr fun k j i hk hj hi => ?_
    simp only [nodeBasis, edgeBasis, List.getD_cons_zero] at hk hj hi ⊢
    have := Mifem.Three.grad_c0 (R := ℝ) (p0 := nx.length - 1) (p1 := ny.length - 1) (p2 := nz.length - 1) w
      (i := i) (j := j) (k := k) (by omega) (by omega) (by omega)
    simp only [Mifem.Three.ln1c0, Mifem.Three.ln0, ex, ey] at this
    change dw _ = _ at this
    rw [this]
  · refine (three_dy hy (nodeBasis nz [z]) (nodeBasis nx [x]) rfl w y).congr_deriv ?_
    simp only [Three.recon1]
    rw [three_recon _ _ _ rfl rfl]
    refine sum3_congr fun k j i hk hj hi => ?_
    simp only [nodeBasis, edgeBasis, List.getD_cons_zero, slice] at hk hj hi ⊢
    have := Mifem.Three.grad_c1 (R := ℝ) (p0 := nx.length - 1) (p1 := ny.length - 1) (p2 := nz.length - 1) w
      (i := i) (j := j) (k := k) (by omega) (by omega) (by omega)
    simp only [Mifem.Three.ln1c1, Mifem.Three.ln0, ex, ey] at this
    change dw _ = _ at this
    rw [Nat.add_comm (Mifem.Three.nb1c0 _ _ _), this]
  · refine (three_dz hz (nodeBasis ny [y]) (nodeBasis nx [x]) rfl rfl w z).congr_deriv ?_
    simp only [Three.recon1, en]
    rw [three_recon _ _ _ rfl rfl]
    refine sum3_congr fun k j i hk hj hi => ?_
    simp only [nodeBasis, edgeBasis, List.getD_cons_zero, slice] at hk hj hi ⊢
    have := Mifem.Three.grad_c2 (R := ℝ) (p0 := nx.length - 1) (p1 := ny.length - 1) (p2 := nz.length - 1) w
      (i := i) (j := j) (k := k) (by omega) (by omega) (by omega)
    simp only [Mifem.Three.ln1c2, Mifem.Three.ln0, ex, ey] at this
    change dw _ = _ at this
    rw [Nat.add_comm (Mifem.Three.nb1c0 _ _ _ + _) , this]

/-- **C51, curl.**  The curl of a reconstructed 1-form is the reconstruction of its coboundary. -/
theorem c51_curl (hx : accepted nx = true) (hy : accepted ny = true) (hz : accepted nz = true) (w : Nat → ℝ)
    (x y z : ℝ) :
    let dw := applyM (Mifem.Three.nb1 (nx.length - 1) (ny.length - 1) (nz.length - 1)) (Mifem.Three.curl (nx.length - 1) (ny.length - 1) (nz.length - 1)) w
    let u := fun x y z => Three.recon1 nx ny nz [x] [y] [z] w 0
    let v := Three.recon2 nx ny nz [x] [y] [z] dw 0
    (∃ a b, HasDerivAt (fun t => (u x t z).2.2) a y ∧ HasDerivAt (fun t => (u x y t).2.1) b z ∧ v.1 = a - b) ∧
    (∃ a b, HasDerivAt (fun t => (u x y t).1) a z ∧ HasDerivAt (fun t => (u t y z).2.2) b x ∧ v.2.1 = a - b) ∧
    (∃ a b, HasDerivAt (fun t => (u t y z).2.1) a x ∧ HasDerivAt (fun t => (u x t z).1) b y ∧ v.2.2 = a - b) := by
  intro dw u v
  have hlx := accepted_two hx
  have hly := accepted_two hy
  have hlz := accepted_two hz
  have ex : nx.length - 1 + 1 = nx.length := by omega
  have ey : ny.length - 1 + 1 = ny.length := by omega
  have ez : nz.length - 1 + 1 = nz.length := by omega
  have en : Mifem.Three.nb1 (nx.length - 1) (ny.length - 1) (nz.length - 1)
      - Mifem.Three.nb1c2 (nx.length - 1) (ny.length - 1) (nz.length - 1)
      = Mifem.Three.nb1c0 (nx.length - 1) (ny.length - 1) (nz.length - 1)
        + Mifem.Three.nb1c1 (nx.length - 1) (ny.length - 1) (nz.length - 1) := by
    rw [Mifem.Three.nb1, Nat.add_sub_cancel]
  have en2 : Mifem.Three.nb2 (nx.length - 1) (ny.length - 1) (nz.length - 1)
      - Mifem.Three.nb2c2 (nx.length - 1) (ny.length - 1) (nz.length - 1)
      = Mifem.Three.nb2c0 (nx.length - 1) (ny.length - 1) (nz.length - 1)
        + Mifem.Three.nb2c1 (nx.length - 1) (ny.length - 1) (nz.length - 1) := by
    rw [Mifem.Three.nb2, Nat.add_sub_cancel]
  refine ⟨?_, ?_, ?_⟩
  · refine ⟨_, _, three_dy hy (edgeBasis nz [z]) (nodeBasis nx [x]) rfl (slice w _) y,
      three_dz hz (edgeBasis ny [y]) (nodeBasis nx [x]) rfl rfl (slice w _) z, ?_⟩
    show (Three.recon2 nx ny nz [x] [y] [z] dw 0).1 = _
    simp only [Three.recon2, en2]
    rw [three_recon _ _ _ rfl rfl]
    refine Eq.trans ?_ (sum3_sub _ _ _ _ _).symm
    refine sum3_congr fun k j i hk hj hi => ?_
    simp only [nodeBasis, edgeBasis, List.getD_cons_zero, slice, en] at hk hj hi ⊢
    have := Mifem.Three.curl_c0 (R := ℝ) (p0 := nx.length - 1) (p1 := ny.length - 1) (p2 := nz.length - 1) w
      (i := i) (j := j) (k := k) (by omega) (by omega) (by omega)
    simp only [Mifem.Three.ln2c0, Mifem.Three.ln1c1, Mifem.Three.ln1c2, ex, ey] at this
    change dw _ = _ at this
    rw [this]
    simp only [Nat.add_comm (Mifem.Three.nb1c0 _ _ _), Nat.add_comm (Mifem.Three.nb1c0 _ _ _ + _)]
    ring_nf
  · refine ⟨_, _, three_dz hz (nodeBasis ny [y]) (edgeBasis nx [x]) rfl rfl w z,
      three_dx hx (edgeBasis nz [z]) (nodeBasis ny [y]) rfl (slice w _) x, ?_⟩
    show (Three.recon2 nx ny nz [x] [y] [z] dw 0).2.1 = _
    simp only [Three.recon2, en2]
    rw [three_recon _ _ _ rfl rfl]
    refine Eq.trans ?_ (sum3_sub _ _ _ _ _).symm
    refine sum3_congr fun k j i hk hj hi => ?_
    simp only [nodeBasis, edgeBasis, List.getD_cons_zero, slice, en] at hk hj hi ⊢
    have := Mifem.Three.curl_c1 (R := ℝ) (p0 := nx.length - 1) (p1 := ny.length - 1) (p2 := nz.length - 1) w
      (i := i) (j := j) (k := k) (by omega) (by omega) (by omega)
    simp only [Mifem.Three.ln2c1, Mifem.Three.ln1c0, Mifem.Three.ln1c2, ex, ey] at this
    change dw _ = _ at this
    rw [Nat.add_comm (Mifem.Three.nb2c0 _ _ _), this]
    simp only [Nat.add_comm (Mifem.Three.nb1c0 _ _ _), Nat.add_comm (Mifem.Three.nb1c0 _ _ _ + _)]
    ring_nf
  · refine ⟨_, _, three_dx hx (nodeBasis nz [z]) (edgeBasis ny [y]) rfl (slice w _) x,
      three_dy hy (nodeBasis nz [z]) (edgeBasis nx [x]) rfl w y, ?_⟩
    show (Three.recon2 nx ny nz [x] [y] [z] dw 0).2.2 = _
    simp only [Three.recon2, en2]
    rw [three_recon _ _ _ rfl rfl]
    refine Eq.trans ?_ (sum3_sub _ _ _ _ _).symm
    refine sum3_congr fun k j i hk hj hi => ?_
    simp only [nodeBasis, edgeBasis, List.getD_cons_zero, slice, en] at hk hj hi ⊢
    have := Mifem.Three.curl_c2 (R := ℝ) (p0 := nx.length - 1) (p1 := ny.length - 1) (p2 := nz.length - 1) w
      (i := i) (j := j) (k := k) (by omega) (by omega) (by omega)
    simp only [Mifem.Three.ln2c2, Mifem.Three.ln1c0, Mifem.Three.ln1c1, ex, ey] at this
    change dw _ = _ at this
    rw [Nat.add_comm (Mifem.Three.nb2c0 _ _ _ + _), this]
    simp only [Nat.add_comm (Mifem.Three.nb1c0 _ _ _), Nat.add_comm (Mifem.Three.nb1c0 _ _ _ + _)]
    ring_nf

/-- **C51, divergence.**  The divergence of a reconstructed 2-form is the reconstruction of its coboundary. -/
theorem c51_div (hx : accepted nx = true) (hy : accepted ny = true) (hz : accepted nz = true) (w : Nat → ℝ)
    (x y z : ℝ) :
    let dw := applyM (Mifem.Three.nb2 (nx.length - 1) (ny.length - 1) (nz.length - 1)) (Mifem.Three.div (nx.length - 1) (ny.length - 1) (nz.length - 1)) w
    let u := fun x y z => Three.recon2 nx ny nz [x] [y] [z] w 0
    ∃ a b c, HasDerivAt (fun t => (u t y z).1) a x ∧ HasDerivAt (fun t => (u x t z).2.1) b y ∧
      HasDerivAt (fun t => (u x y t).2.2) c z ∧ Three.recon3 nx ny nz [x] [y] [z] dw 0 = a + b + c := by
  intro dw u
  have hlx := accepted_two hx
  have hly := accepted_two hy
  have hlz := accepted_two hz
  have ex : nx.length - 1 + 1 = nx.length := by omega
  have ey : ny.length - 1 + 1 = ny.length := by omega
  have ez : nz.length - 1 + 1 = nz.length := by omega
  have en : Mifem.Three.nb1 (nx.length - 1) (ny.length - 1) (nz.length - 1)
      - Mifem.Three.nb1c2 (nx.length - 1) (ny.length - 1) (nz.length - 1)
      = Mifem.Three.nb1c0 (nx.length - 1) (ny.length - 1) (nz.length - 1)
        + Mifem.Three.nb1c1 (nx.length - 1) (ny.length - 1) (nz.length - 1) := by
    rw [Mifem.Three.nb1, Nat.add_sub_cancel]
  have en2 : Mifem.Three.nb2 (nx.length - 1) (ny.length - 1) (nz.length - 1)
      - Mifem.Three.nb2c2 (nx.length - 1) (ny.length - 1) (nz.length - 1)
      = Mifem.Three.nb2c0 (nx.length - 1) (ny.length - 1) (nz.length - 1)
        + Mifem.Three.nb2c1 (nx.length - 1) (ny.length - 1) (nz.length - 1) := by
    rw [Mifem.Three.nb2, Nat.add_sub_cancel]
  refine ⟨_, _, _, three_dx hx (edgeBasis nz [z]) (edgeBasis ny [y]) rfl w x,
    three_dy hy (edgeBasis nz [z]) (edgeBasis nx [x]) rfl (slice w _) y,
    three_dz hz (edgeBasis ny [y]) (edgeBasis nx [x]) rfl rfl (slice w _) z, ?_⟩
  simp only [Three.recon3, en2]
  rw [three_recon _ _ _ rfl rfl]
  refine Eq.trans ?_ (congrArg (· + _) (sum3_add _ _ _ _ _).symm)
  refine Eq.trans ?_ (sum3_add _ _ _ _ _).symm
  refine sum3_congr fun k j i hk hj hi => ?_
  simp only [nodeBasis, edgeBasis, List.getD_cons_zero, slice, en2] at hk hj hi ⊢
  have := Mifem.Three.div_row (R := ℝ) (p0 := nx.length - 1) (p1 := ny.length - 1) (p2 := nz.length - 1) w
    (i := i) (j := j) (k := k) (by omega) (by omega) (by omega)
  simp only [Mifem.Three.ln3, Mifem.Three.ln2c0, Mifem.Three.ln2c1, Mifem.Three.ln2c2, ex, ey] at this
  change dw _ = _ at this
  rw [this]
  simp only [Nat.add_comm (Mifem.Three.nb2c0 _ _ _), Nat.add_comm (Mifem.Three.nb2c0 _ _ _ + _)]
  ring_nf

end three

/-! ## values on a whole grid -/

/-- **C50, grid.**  On a grid, entry `c` of a 2D reconstruction is the value at the `c`-th point of the raveled
grid. -/
theorem c50_meshgrid (nx ny xs ys : List ℝ) (w : Nat → ℝ) (c : Nat) :
    let P := Two.meshgrid xs ys c
    Two.recon0 nx ny xs ys w c = Two.recon0 nx ny [P.1] [P.2] w 0 ∧
    Two.reconInner1 nx ny xs ys w c = Two.reconInner1 nx ny [P.1] [P.2] w 0 ∧
    Two.reconOuter1 nx ny xs ys w c = Two.reconOuter1 nx ny [P.1] [P.2] w 0 ∧
    Two.recon2 nx ny xs ys w c = Two.recon2 nx ny [P.1] [P.2] w 0 := by
  intro P
  refine ⟨?_, ?_, ?_, ?_⟩ <;>
    simp [Two.recon0, Two.reconInner1, Two.reconOuter1, Two.recon2, Two.basis0, Two.basisDxi, Two.basisDet,
      Two.basis2, einsum, kron, nodeBasis, edgeBasis, P, Two.meshgrid]

/-- **C51, grid.**  The same in 3D. -/
theorem c51_meshgrid (nx ny nz xs ys zs : List ℝ) (w : Nat → ℝ) (c : Nat) :
    let P := Three.meshgrid xs ys zs c
    Three.recon0 nx ny nz xs ys zs w c = Three.recon0 nx ny nz [P.1] [P.2.1] [P.2.2] w 0 ∧
    Three.recon1 nx ny nz xs ys zs w c = Three.recon1 nx ny nz [P.1] [P.2.1] [P.2.2] w 0 ∧
    Three.recon2 nx ny nz xs ys zs w c = Three.recon2 nx ny nz [P.1] [P.2.1] [P.2.2] w 0 ∧
    Three.recon3 nx ny nz xs ys zs w c = Three.recon3 nx ny nz [P.1] [P.2.1] [P.2.2] w 0 := by
  intro P
  refine ⟨?_, ?_, ?_, ?_⟩ <;>
    simp [Three.recon0, Three.recon1, Three.recon2, Three.recon3, Three.kron3, einsum, kron, nodeBasis, edgeBasis, P,
      Three.meshgrid]

example : Two.recon0 ([-1, 0, 1] : List ℚ) [-1, 1] [1/2] [0] (fun i => (i : ℚ)) 0 = 3 := by decide +kernel
example : Two.reconInner1 ([-1, 0, 1] : List ℚ) [-1, 1] [1/2] [0]
    (applyM (Mifem.Two.nb0 2 1) (Mifem.Two.gradInner 2 1) (fun i => (i : ℚ))) 0 = (1, 3/2) := by decide +kernel
example : Three.recon0 ([-1, 0, 1] : List ℚ) [-1, 1] [-1, 1] [1/2, 1] [0] [-1, 1] (fun i => (i : ℚ)) 3 = 19/2 := by
  decide +kernel
example := c51_curl (nx := [-1, 0, 1]) (ny := [-1, 0, 1]) (nz := [-1, 0, 1]) accepted_real accepted_real
  accepted_real (fun i => (i : ℝ) ^ 2) (1/2) 0 (1/3)

end Mifem.Props
