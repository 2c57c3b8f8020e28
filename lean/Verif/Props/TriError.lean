import Verif.Props.TriTriple

/-!
# C99: errors and gradients on triangular meshes
-/

namespace Mifem.Props

open Mifem.Tri Mifem.Basis Mifem.Disc Mifem.Quadrature Mifem.Vortex Mifem.Norms Finset MeasureTheory

section
variable {p : Nat} {nodes : List ℝ}

theorem err_positive {gauss : Nat → Rule ℝ} (hg : ∀ d, GaussRule (d + 1) (gauss d)) (k : Kind) (d : Nat) (f : Nat → (Fin 2 → ℝ) → ℝ)
    (es : List (FormElt ℝ)) (hpos : ∀ e ∈ es, 0 < cross (e.pts 0) (e.pts 1) (e.pts 2)) :
    Positive ((rpts (gauss d)).length * (rpts (gauss d)).length) (ravelWeight [gauss d, gauss d]) (es.map (errElt k p nodes (gauss d) f)) := by
  rw [rpts_length]
  refine ⟨fun q hq => weight_pos (hg d) hq, fun e he q hq => ?_⟩
  obtain ⟨a, ha, rfl⟩ := List.mem_map.1 he
  simp only [errElt, two_jacobian]
  exact grid_det (hpos a ha) (hg d) hq

/-- **C99, errors.**  For even `n`, `error.L` of a form is a number; it is never negative, and zero exactly if in every element the form agrees with the
exact function at the points of the Gauss rule. -/
theorem c99_error {gauss : Nat → Rule ℝ} (hg : ∀ d, GaussRule (d + 1) (gauss d)) (k : Kind) {n : Nat} (hn : Even n) (hn0 : n ≠ 0)
    (d : Option Nat) (f : Nat → (Fin 2 → ℝ) → ℝ) (cores : List (List (FormElt ℝ)))
    (hpos : ∀ e ∈ cores.flatten, 0 < cross (e.pts 0) (e.pts 1) (e.pts 2)) :
    ∃ x, triErrorL gauss n k p nodes d f cores = .val x ∧ 0 ≤ x ∧
      (x = 0 ↔ let r := gauss (d.getD (p + 2))
        ∀ e ∈ cores.flatten, ∀ m < k.comps, ∀ i < r.n, ∀ j < r.n,
          values k p nodes [r.x i] [r.x j] e m 0 = f m (mapping e.pts ![r.x i, r.x j])) := by
  set r := gauss (d.getD (p + 2)) with hr
  have hP := err_positive (p := p) (nodes := nodes) hg k (d.getD (p + 2)) f cores.flatten hpos
  rw [← hr] at hP
  have hf : (cores.map fun es => es.map (errElt k p nodes r f)).flatten = cores.flatten.map (errElt k p nodes r f) := List.map_flatten.symm
  have e := (c76_even (c := k.comps) hn hn0 (cores := cores.map fun es => es.map (errElt k p nodes r f)) (by rw [hf]; exact hP)).1
  rw [hf] at e
  obtain ⟨h1, h2⟩ := c76_definite (c := k.comps) hn0 hP
  refine ⟨_, e, h1, h2.trans ?_⟩
  constructor
  · intro h _ a ha m hm i hi j hj
    have := h _ (List.mem_map.2 ⟨a, ha, rfl⟩) m hm (j * r.n + i) (by rw [rpts_length]; nlinarith)
    simp only [errElt] at this
    rw [values_point, tri_grid_point r hi hj] at this
    exact this
  · rintro h e he m hm q hq
    obtain ⟨a, ha, rfl⟩ := List.mem_map.1 he
    rw [rpts_length] at hq
    obtain ⟨i, hi, j, hj, rfl⟩ := grid_index hq
    simp only [errElt]
    rw [values_point, tri_grid_point r hi hj]
    exact h a ha m hm i hi j hj

/-- **C99, errors of polynomials.**  The `L²` error of the discretization of a polynomial of degree at most `p` is 0. -/
theorem c99_error_zero (h : TriNodes p nodes) {gauss : Nat → Rule ℝ} (hg : ∀ d, GaussRule (d + 1) (gauss d)) {n : Nat} (hn : Even n)
    (hn0 : n ≠ 0) (d : Option Nat) (P : MvPolynomial (Fin 2) ℝ) (hP : P.totalDegree ≤ p) (cores : List (List (FormElt ℝ)))
    (hpos : ∀ e ∈ cores.flatten, 0 < cross (e.pts 0) (e.pts 1) (e.pts 2))
    (hw : ∀ e ∈ cores.flatten, e.w = fun r => ((discretize0 p (node nodes) e.pts fun z => MvPolynomial.eval z P)[r]?).getD 0) :
    triErrorL gauss n .zero p nodes d (fun _ z => MvPolynomial.eval z P) cores = .val 0 := by
  obtain ⟨x, e, -, hx⟩ := c99_error (p := p) (nodes := nodes) hg .zero hn hn0 d (fun _ z => MvPolynomial.eval z P) cores hpos
  rw [e, hx.2 fun a ha m _ i _ j _ => ?_]
  have := c97_reproduces h a.pts P hP ![(gauss (d.getD (p + 2))).x i, (gauss (d.getD (p + 2))).x j]
  rw [← hw a ha] at this
  exact this

/-! ## Gradients -/

theorem square_near {v : Fin 2 → ℝ} (hv : v ∈ openSquare) : ∀ᶠ u in nhds v, u ∈ openSquare := openSquare_open.mem_nhds hv

/-- The reconstruction of the gradient is the derivative of any function that agrees with the form in the element. -/
theorem grad_unique (h : TriNodes p nodes) {pts : Fin 3 → ℝ × ℝ} (hpos : 0 < cross (pts 0) (pts 1) (pts 2)) {T : Nat → Int}
    (hT : ∀ r, T r * T r = 1) {w : Nat → ℝ} {f : (Fin 2 → ℝ) → ℝ} (hf : ∀ v ∈ openSquare, f (mapping pts v) = recon0 nodes [v 0] [v 1] w 0)
    {v : Fin 2 → ℝ} (hv : v ∈ openSquare) {L : (Fin 2 → ℝ) →L[ℝ] ℝ} (hL : HasFDerivAt f L (mapping pts v)) (k : Fin 2) :
    L (Pi.single k 1) = reconInner p nodes T pts [v 0] [v 1] (coboundary0 (num0 p) (setAll (gradInner p)) T w) 0 k := by
  obtain ⟨g, hg, hg'⟩ := c97_grad h hpos T hT w
  obtain ⟨L', hL', hk⟩ := hg' v (hv 1).1
  have hJ := mapping_fderiv pts v
  have e : (fun u => f (mapping pts u)) =ᶠ[nhds v] fun u => g (mapping pts u) :=
    (square_near hv).mono fun u hu => by beta_reduce; rw [hf u hu, hg u (hu 1).1]
  have c := (hL.comp v hJ).unique ((hL'.comp v hJ).congr_of_eventuallyEq e)
  have col : ∀ j, jacMap pts v (Pi.single j 1) = fun i => jacobianMatrix pts v i j := by
    intro j
    funext i
    simp [jacMap, Matrix.mulVec_single]
  have c' : ∀ j, L (fun i => jacobianMatrix pts v i j) = L' (fun i => jacobianMatrix pts v i j) := by
    intro j
    have := congrArg (fun A : (Fin 2 → ℝ) →L[ℝ] ℝ => A (Pi.single j 1)) c
    simpa only [ContinuousLinearMap.comp_apply, col] using this
  have c0 := c' 0
  have c1 := c' 1
  rw [linear_columns L, linear_columns L'] at c0 c1
  have s := solve_two (jac_ne_zero hpos (hv 1).1) c0 c1
  rw [← hk]
  fin_cases k
  · exact s.1
  · exact s.2

theorem poly_fderiv (P : MvPolynomial (Fin 2) ℝ) (z : Fin 2 → ℝ) :
    ∃ L : (Fin 2 → ℝ) →L[ℝ] ℝ, HasFDerivAt (fun z => MvPolynomial.eval z P) L z ∧
      ∀ k, L (Pi.single k 1) = MvPolynomial.eval z (MvPolynomial.pderiv k P) := by
  induction P using MvPolynomial.induction_on with
  | C a => exact ⟨0, by simpa using hasFDerivAt_const a z, fun k => by simp⟩
  | add P Q hP hQ =>
    obtain ⟨L, h1, h2⟩ := hP
    obtain ⟨M, h3, h4⟩ := hQ
    refine ⟨L + M, ?_, fun k => by simp [h2, h4]⟩
    simp only [map_add]
    exact h1.add h3
  | mul_X P i hP =>
    obtain ⟨L, h1, h2⟩ := hP
    have := h1.mul (hasFDerivAt_apply (𝕜 := ℝ) i z)
    refine ⟨MvPolynomial.eval z P • (ContinuousLinearMap.proj i) + z i • L, ?_, ?_⟩
    · simp only [map_mul, MvPolynomial.eval_X]
      exact this
    · intro k
      simp [h2, MvPolynomial.pderiv_X, Pi.single_apply, Derivation.leibniz]
      split_ifs with c1 c2 c2 <;> simp_all

/-- The order of the gradient: component 0 is `∂/∂x`. -/
noncomputable def gradFun (P : MvPolynomial (Fin 2) ℝ) (m : Nat) (z : Fin 2 → ℝ) : ℝ :=
  MvPolynomial.eval z (MvPolynomial.pderiv (if m = 0 then 0 else 1) P)

theorem values_inner (xs ys : List ℝ) (e : FormElt ℝ) (m c : Nat) :
    values .inner p nodes xs ys e m c = reconInner p nodes e.T e.pts xs ys e.w c (if m = 0 then 0 else 1) := rfl

/-- **C99, `H` error.**  The `H` error of the discretization of a polynomial of degree at most `p` is 0 if its gradient is given as `d_func`. -/
theorem c99_H (h : TriNodes p nodes) {gauss : Nat → Rule ℝ} (hg : ∀ d, GaussRule (d + 1) (gauss d)) (d : Option Nat)
    (P : MvPolynomial (Fin 2) ℝ) (hP : P.totalDegree ≤ p) (cores : List (List (FormElt ℝ × (Nat → Int))))
    (hpos : ∀ e ∈ cores.flatten, 0 < cross (e.1.pts 0) (e.1.pts 1) (e.1.pts 2)) (hT : ∀ e ∈ cores.flatten, ∀ r, e.2 r * e.2 r = 1)
    (hw : ∀ e ∈ cores.flatten, e.1.w = fun r => ((discretize0 p (node nodes) e.1.pts fun z => MvPolynomial.eval z P)[r]?).getD 0) :
    triErrorH gauss p nodes d (fun _ z => MvPolynomial.eval z P) (gradFun P) cores = .val 0 := by
  have f1 : (cores.map fun es => es.map Prod.fst).flatten = cores.flatten.map Prod.fst := List.map_flatten.symm
  have f2 : (cores.map fun es => es.map fun e => gradElt p e.2 e.1).flatten = cores.flatten.map fun e => gradElt p e.2 e.1 :=
    List.map_flatten.symm
  have e1 := c99_error_zero h hg (n := 2) (by decide) (by omega) d P hP (cores.map fun es => es.map Prod.fst)
    (by rw [f1]; intro e he; obtain ⟨a, ha, rfl⟩ := List.mem_map.1 he; exact hpos a ha)
    (by rw [f1]; intro e he; obtain ⟨a, ha, rfl⟩ := List.mem_map.1 he; exact hw a ha)
  obtain ⟨x, e2, -, hx⟩ := c99_error (p := p) (nodes := nodes) hg .inner (n := 2) (by decide) (by omega) d (gradFun P)
    (cores.map fun es => es.map fun e => gradElt p e.2 e.1)
    (by rw [f2]; intro e he; obtain ⟨a, ha, rfl⟩ := List.mem_map.1 he; exact hpos a ha)
  rw [triErrorH, e1, e2, hx.2 ?_]
  · simp [hError]
  · rw [f2]
    intro r e he m hm i hi j hj
    obtain ⟨a, ha, rfl⟩ := List.mem_map.1 he
    have hr : GaussRule (d.getD (p + 2) + 1) r := hg _
    have hv : ![r.x i, r.x j] ∈ openSquare := by
      intro c
      fin_cases c
      · exact ⟨(hr.2.1 i (hr.1 ▸ hi)).1, (hr.2.1 i (hr.1 ▸ hi)).2.1⟩
      · exact ⟨(hr.2.1 j (hr.1 ▸ hj)).1, (hr.2.1 j (hr.1 ▸ hj)).2.1⟩
    obtain ⟨L, hL, hk⟩ := poly_fderiv P (mapping a.1.pts ![r.x i, r.x j])
    rw [values_inner]
    refine Eq.trans ?_ (hk (if m = 0 then 0 else 1))
    refine (grad_unique h (hpos a ha) (hT a ha) (w := a.1.w) (fun v _ => ?_) hv hL _).symm
    rw [hw a ha]
    exact (c97_reproduces h a.1.pts P hP v).symm

/-- **C99, norm of the gradient.**  The energy of the coboundary of an inner 0-form (`compute_Ln_norm_of_coboundary`) is the integral of the `n`-th powers of the
partial derivatives of the reconstructed function. -/
theorem c99_gradient (h : TriNodes p nodes) {gauss : Nat → Rule ℝ} (hg : ∀ d, GaussRule (d + 1) (gauss d))
    {n : Nat} (hn : 1 ≤ n) {d : Option Nat} (hd : n * p ≤ 2 * d.getD (p + 1)) (cores : List (List (FormElt ℝ × (Nat → Int))))
    (hpos : ∀ e ∈ cores.flatten, 0 < cross (e.1.pts 0) (e.1.pts 1) (e.1.pts 2)) (hT : ∀ e ∈ cores.flatten, ∀ r, e.2 r * e.2 r = 1)
    (g : FormElt ℝ → (Fin 2 → ℝ) → ℝ)
    (hd' : ∀ e ∈ cores.flatten, ∀ x ∈ insideTri e.1.pts, DifferentiableAt ℝ (g e.1) x)
    (hg' : ∀ e ∈ cores.flatten, ∀ v ∈ openSquare, g e.1 (mapping e.1.pts v) = recon0 nodes [v 0] [v 1] e.1.w 0) :
    lnEnergy gauss n .inner p nodes d (cores.map fun es => es.map fun e => gradElt p e.2 e.1) =
      some (cores.flatten.map fun e => ∫ x in insideTri e.1.pts,
        (fderiv ℝ (g e.1) x (Pi.single 0 1) ^ n + fderiv ℝ (g e.1) x (Pi.single 1 1) ^ n)).sum := by
  rw [lnEnergy, if_neg (by omega), List.map_flatten, List.sum_flatten, List.map_map]
  show some _ = _
  rw [List.map_map]
  refine congrArg some (congrArg List.sum (List.map_congr_left fun es hes => ?_))
  simp only [Function.comp_apply, List.map_map]
  refine congrArg List.sum (List.map_congr_left fun e he => ?_)
  have hm : e ∈ cores.flatten := List.mem_flatten.2 ⟨es, hes, he⟩
  rw [Function.comp_apply, element_energy_integral (e := gradElt p e.2 e.1) h (by decide) hg hd (hpos e hm)
    (fun x i => fderiv ℝ (g e.1) x (Pi.single (if i = 0 then 0 else 1) 1)) fun v hv i hi => ?_]
  · simp [Kind.comps, sum_range_succ, gradElt]
  · have hx : mapping e.1.pts v ∈ insideTri e.1.pts := by rw [← image_square]; exact ⟨v, hv, rfl⟩
    exact grad_unique h (hpos e hm) (hT e hm) (hg' e hm) hv (hd' e hm _ hx).hasFDerivAt _

/-- **C99, odd exponents.**  No absolute values are taken: for odd `n` the energy of a form that is not 0 can be negative, and its norm `nan`. -/
theorem c99_odd_fails {gauss : Nat → Rule ℝ} (hg : ∀ d, GaussRule (d + 1) (gauss d)) {pts : Fin 3 → ℝ × ℝ}
    (hpos : 0 < cross (pts 0) (pts 1) (pts 2)) {n : Nat} (hn : Odd n) (h1 : n ≠ 1) (T : Nat → Int) :
    ∃ x < 0, lnEnergy gauss n .zero 1 [-1, 1] none [[⟨pts, T, fun _ => -1⟩]] = some x ∧
      triNorm gauss n .zero 1 [-1, 1] none [[⟨pts, T, fun _ => -1⟩]] = .nan := by
  have h0 : n ≠ 0 := by rintro rfl; exact absurd hn (by decide)
  have e0 : ∀ x y : ℝ, recon0 ([-1, 1] : List ℝ) [x] [y] (fun _ => -1) 0 = -1 := by
    intro x y
    simp [recon0, einsum, basisS0, vstack, sumRows, kron, row0, rowsFrom, nodeBasis, List.range_succ, lagrangeAt, node]
    ring
  have e : elementEnergy n .zero 1 [-1, 1] (gauss 2) ⟨pts, T, fun _ => -1⟩ = -gridSum (gauss 2) fun x y => 1 * detAt pts x y := by
    rw [elementEnergy_grid, gridSum, gridSum, ← sum_neg_distrib]
    refine sum_congr rfl fun j _ => ?_
    rw [← sum_neg_distrib]
    refine sum_congr rfl fun i _ => ?_
    simp [Kind.comps, values, e0, hn.neg_one_pow]
  have hp := gridSum_pos (hg 2) hpos (N := fun _ _ => 1) (fun _ _ => zero_le_one) (by
    intro h
    have := h 0 (by rw [(hg 2).1]; norm_num)
    exact one_ne_zero this)
  refine ⟨_, neg_lt_zero.2 hp, ?_, ?_⟩
  · simpa [lnEnergy, h0] using e
  · have hl : lnEnergy gauss n .zero 1 [-1, 1] none [[⟨pts, T, fun _ => -1⟩]] = some (-gridSum (gauss 2) fun x y => 1 * detAt pts x y) := by
      simpa [lnEnergy, h0] using e
    simp only [triNorm, hl, npRoot, if_neg h0, if_neg h1, if_pos (neg_lt_zero.2 hp)]

end

/-! ## Examples -/

/-- One element with a given cochain. -/
def oneElt (w : Nat → ℝ) : FormElt ℝ := ⟨somePts, fun _ => 1, w⟩

theorem oneElt_pos (w : Nat → ℝ) : ∀ e ∈ [[oneElt w]].flatten, 0 < cross (e.pts 0) (e.pts 1) (e.pts 2) := by
  intro e he
  obtain rfl : e = oneElt w := by simpa using he
  exact somePts_pos

example (w : Nat → ℝ) : ∃ φ : (Fin 2 → ℝ) → Nat → ℝ, (∀ v ∈ openSquare, φ (mapping somePts v) 0 = values .inner 2 [-1, 0, 1] [v 0] [v 1] (oneElt w) 0 0) ∧
    lnEnergy triGauss 2 .inner 2 [-1, 0, 1] none [[oneElt w]] = some (∫ x in insideTri somePts, φ x 0 ^ 2 + φ x 1 ^ 2) := by
  obtain ⟨φ, hφ⟩ := field_exists somePts_pos fun v i => values .inner 2 [-1, 0, 1] [v 0] [v 1] (oneElt w) i 0
  refine ⟨φ, fun v hv => by rw [hφ v hv], ?_⟩
  rw [c99_energy triNodes2 (by decide) triGauss_ok (by omega) (by decide) _ (oneElt_pos w) (fun _ => φ) fun e he v hv i _ => ?_]
  · simp [Kind.comps, sum_range_succ, oneElt]
  · obtain rfl : e = oneElt w := by simpa using he
    exact congrFun (hφ v hv) i

example : ∃ x, lnEnergy triGauss 2 .two 2 [-1, 0, 1] none [[oneElt fun _ => 1]] = some x ∧ 0 < x := by
  obtain ⟨x, h1, h2, -, h3, -⟩ := c99_definite triNodes2 .two triGauss_ok (n := 2) (by decide) (by omega) (d := none) (by decide)
    [[oneElt fun _ => 1]] (by simp [oneElt]) (oneElt_pos _)
  refine ⟨x, h1, lt_of_le_of_ne h2 fun h => ?_⟩
  have := h3.1 h.symm (oneElt fun _ => 1) (by simp) 0 (by decide)
  simp [oneElt] at this

example (w u e : Nat → ℝ) : ∃ ω : (Fin 2 → ℝ) → ℝ, ∃ υ ε : (Fin 2 → ℝ) → Fin 2 → ℝ,
    (∀ v ∈ openSquare, υ (mapping somePts v) = reconInner 1 [-1, 1] (fun _ => 1) somePts [v 0] [v 1] u 0) ∧
    bilinear 10 3 (twoM1 7 (triple [-1, 0, 1] [-1, 1] [-1, 0, 1] .inner .outer (fun _ => 1) (fun _ => 1) somePts (tripleRule triGauss 2 1 2)) w) e u =
      ∫ x in insideTri somePts, dotProduct ![-ω x * υ x 1, ω x * υ x 0] (ε x) := by
  obtain ⟨ω, hω⟩ := field_exists somePts_pos fun v => recon0 [-1, 0, 1] [v 0] [v 1] w 0
  obtain ⟨υ, hυ⟩ := field_exists somePts_pos fun v => reconOne .inner 1 [-1, 1] (fun _ => 1) somePts [v 0] [v 1] u 0
  obtain ⟨ε, hε⟩ := field_exists somePts_pos fun v => reconOne .outer 2 [-1, 0, 1] (fun _ => 1) somePts [v 0] [v 1] e 0
  exact ⟨ω, υ, ε, hυ, (c99_triple triNodes2 triNodes1 triNodes2 .inner .outer _ _ somePts_pos triGauss_ok w u e ω υ ε hω hυ hε).1⟩

/-- Forms of degrees 1 and 2. -/
example (a b : Nat → ℝ) : ∃ φ ψ : (Fin 2 → ℝ) → Fin 2 → ℝ,
    (∀ v ∈ openSquare, ψ (mapping somePts v) = reconInner 2 [-1, 0, 1] (fun _ => 1) somePts [v 0] [v 1] b 0) ∧
    bilinear 3 10 (opOne triGauss 1 .inner .inner [-1, 1] [-1, 0, 1] (fun _ => 1) (fun _ => 1) somePts) a b = ∫ x in insideTri somePts, dotProduct (φ x) (ψ x) ∧
    bilinear 3 10 (opOne triGauss 1 .inner .inner [-1, 1] [-1, 0, 1] (fun _ => 1) (fun _ => 1) somePts) a b =
      bilinear 10 3 (opOne triGauss 2 .inner .inner [-1, 0, 1] [-1, 1] (fun _ => 1) (fun _ => 1) somePts) b a := by
  obtain ⟨φ, hφ⟩ := field_exists somePts_pos fun v => reconOne .inner 1 [-1, 1] (fun _ => 1) somePts [v 0] [v 1] a 0
  obtain ⟨ψ, hψ⟩ := field_exists somePts_pos fun v => reconOne .inner 2 [-1, 0, 1] (fun _ => 1) somePts [v 0] [v 1] b 0
  exact ⟨φ, ψ, hψ, (c99_inner_partial triNodes1 triNodes2 (by omega) somePts_pos triGauss_ok a b).2 .inner _ _ φ ψ hφ hψ,
    (c99_exchange triNodes1 triNodes2 (by omega) (by omega) somePts_pos triGauss_ok a b).2 .inner _ _⟩

example : tripleReads stripPts [1, 3] (fun _ => [2])
    (fun e => triple [-1, 1] [-1, 1] [-1, 0, 1] .inner .inner (transition (oneEdgeDofs 1 .inner) [2]) (transition (oneEdgeDofs 2 .inner) [2])
      (castPts (stripPts e)) (tripleRule triGauss 1 1 2)) [3, 1, 3] =
    some ([3, 1, 3].map fun e => triple [-1, 1] [-1, 1] [-1, 0, 1] .inner .inner (transition (oneEdgeDofs 1 .inner) [2])
      (transition (oneEdgeDofs 2 .inner) [2]) (castPts (stripPts e)) (tripleRule triGauss 1 1 2)) := by
  refine c99_triple_cache_partial (pW := 1) (pU := 1) (pE := 2) triGauss .inner stripPts (fun _ => [2]) [1, 3] ?_ [3, 1, 3] (by simp)
  have e13 : stripPts 3 = fun k => stripPts 1 k + (1, 0) := by decide +kernel
  have e31 : stripPts 1 = fun k => stripPts 3 k + (-1, 0) := by decide +kernel
  have e0 : ∀ i, stripPts i = fun k => stripPts i k + 0 := fun i => by simp
  intro i hi j hj
  simp only [List.mem_cons, List.not_mem_nil, or_false] at hi hj
  rcases hi with rfl | rfl <;> rcases hj with rfl | rfl
  · exact .inl ⟨0, e0 1⟩
  · first | exact .inl ⟨_, e13⟩ | exact .inl ⟨_, e31⟩
  · first | exact .inl ⟨_, e13⟩ | exact .inl ⟨_, e31⟩
  · exact .inl ⟨0, e0 3⟩

/-- The function `x y + 3 x`, its discretization and its gradient. -/
noncomputable def someFun : MvPolynomial (Fin 2) ℝ := MvPolynomial.X 0 * MvPolynomial.X 1 + MvPolynomial.C 3 * MvPolynomial.X 0

theorem someFun_degree : someFun.totalDegree ≤ 2 :=
  (MvPolynomial.totalDegree_add _ _).trans (max_le ((MvPolynomial.totalDegree_mul _ _).trans (by simp))
    ((MvPolynomial.totalDegree_mul _ _).trans (by simp)))

example : triErrorH triGauss 2 [-1, 0, 1] none (fun _ z => z 0 * z 1 + 3 * z 0) (fun m z => if m = 0 then z 1 + 3 else z 0)
    [[(oneElt fun r => ((discretize0 2 (node [-1, 0, 1]) somePts fun z => z 0 * z 1 + 3 * z 0)[r]?).getD 0, fun r => if r = 1 then -1 else 1)]] =
      .val 0 := by
  have f1 : (fun (_ : Nat) (z : Fin 2 → ℝ) => z 0 * z 1 + 3 * z 0) = fun _ z => MvPolynomial.eval z someFun := by
    funext _ z; simp [someFun]
  have f2 : (fun (m : Nat) (z : Fin 2 → ℝ) => if m = 0 then z 1 + 3 else z 0) = gradFun someFun := by
    funext m z
    by_cases h : m = 0 <;> simp [gradFun, someFun, h, MvPolynomial.pderiv_X, Derivation.leibniz]
  rw [f1, f2]
  refine c99_H triNodes2 triGauss_ok none someFun someFun_degree _ (by simpa [oneElt] using somePts_pos) ?_ ?_
  · intro e he r
    simp only [List.flatten_cons, List.flatten_nil, List.append_nil, List.mem_singleton] at he
    rw [he]
    show (if r = 1 then (-1 : Int) else 1) * (if r = 1 then -1 else 1) = 1
    split_ifs <;> rfl
  · intro e he
    simp only [List.flatten_cons, List.flatten_nil, List.append_nil, List.mem_singleton] at he
    rw [he]
    simp [oneElt, someFun]

example (w : Nat → ℝ) : ∃ g : (Fin 2 → ℝ) → ℝ, (∀ v ∈ openSquare, g (mapping somePts v) = recon0 [-1, 0, 1] [v 0] [v 1] w 0) ∧
    lnEnergy triGauss 2 .inner 2 [-1, 0, 1] none [[gradElt 2 (fun _ => 1) (oneElt w)]] =
      some (∫ x in insideTri somePts, (fderiv ℝ g x (Pi.single 0 1) ^ 2 + fderiv ℝ g x (Pi.single 1 1) ^ 2)) := by
  obtain ⟨g, h1, h2⟩ := c97_grad triNodes2 somePts_pos (fun _ => 1) (fun _ => rfl) w
  refine ⟨g, fun v hv => h1 v (hv 1).1, ?_⟩
  have := c99_gradient triNodes2 triGauss_ok (n := 2) (by omega) (d := none) (by decide) [[(oneElt w, fun _ => 1)]]
    (by simpa [oneElt] using somePts_pos) (by simp) (fun _ => g) (by
      intro e he x hx
      simp only [List.flatten_cons, List.flatten_nil, List.append_nil, List.mem_singleton] at he
      rw [he, ← image_square] at hx
      obtain ⟨v, hv, rfl⟩ := hx
      exact (h2 v (hv 1).1).choose_spec.1.differentiableAt) (by
      intro e he v hv
      simp only [List.flatten_cons, List.flatten_nil, List.append_nil, List.mem_singleton] at he
      rw [he]
      exact h1 v (hv 1).1)
  simpa [oneElt] using this

example : ∃ x < 0, lnEnergy triGauss 3 .zero 1 [-1, 1] none [[⟨somePts, fun _ => 1, fun _ => -1⟩]] = some x ∧
    triNorm triGauss 3 .zero 1 [-1, 1] none [[⟨somePts, fun _ => 1, fun _ => -1⟩]] = .nan :=
  c99_odd_fails triGauss_ok somePts_pos (by decide) (by omega) _

end Mifem.Props
