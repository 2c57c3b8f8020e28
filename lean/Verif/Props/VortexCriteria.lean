import Verif.Props.Vortex
import Mathlib.Algebra.Polynomial.Roots

/-!
# C95: components, gradients and the criteria
-/

namespace Mifem.Props
open Mifem.Vortex Mifem.Basis Finset Polynomial

/-! ## Projection to three 0-forms -/

/-- Interpolation at the nodes gives back polynomials of the degree of the space. -/
theorem Poly3.interp {nx ny nz : List ℝ} (hx : accepted nx = true) (hy : accepted ny = true) (hz : accepted nz = true)
    {F : ℝ → ℝ → ℝ → ℝ} (hF : Poly3 (nx.length - 1) (ny.length - 1) (nz.length - 1) F) (x y z : ℝ) :
    Three.recon0 nx ny nz [x] [y] [z] (onGrid F nx ny nz) 0 = F x y z := by
  have ax := accepted_two hx; have ay := accepted_two hy; have az := accepted_two hz
  have e : ∀ v, Three.recon0 nx ny nz [x] [y] [z] v 0 = ∑ k ∈ range nz.length, ∑ j ∈ range ny.length, ∑ i ∈ range nx.length,
      (nodeBasis nz [z]).e k 0 * (nodeBasis ny [y]).e j 0 * (nodeBasis nx [x]).e i 0 * v (fIdx3 nx.length ny.length i j k) := fun v =>
    three_recon _ _ _ rfl rfl v
  have g : ∀ (F : ℝ → ℝ → ℝ → ℝ), ∀ k ∈ range nz.length, ∀ j ∈ range ny.length, ∀ i ∈ range nx.length,
      onGrid F nx ny nz (fIdx3 nx.length ny.length i j k) = F (nx.getD i 0) (ny.getD j 0) (nz.getD k 0) := by
    intro F k _ j hj i hi
    obtain ⟨h1, h2, h3⟩ := fIdx3_parts (k := k) (mem_range.1 hi) (mem_range.1 hj)
    simp only [onGrid, Three.meshgrid, h1, h2, h3]
  have e' : ∀ F, Three.recon0 nx ny nz [x] [y] [z] (onGrid F nx ny nz) 0 = ∑ k ∈ range nz.length, ∑ j ∈ range ny.length,
      ∑ i ∈ range nx.length, (nodeBasis nz [z]).e k 0 * (nodeBasis ny [y]).e j 0 * (nodeBasis nx [x]).e i 0 *
        F (nx.getD i 0) (ny.getD j 0) (nz.getD k 0) := by
    intro F
    rw [e]
    exact Finset.sum_congr rfl fun k hk => Finset.sum_congr rfl fun j hj => Finset.sum_congr rfl fun i hi => by rw [g F k hk j hj i hi]
  rw [e']
  induction hF with
  | prod f g h hf hg hh =>
    have lt : ∀ {f : ℝ[X]} {n : List ℝ}, f.natDegree ≤ n.length - 1 → 2 ≤ n.length → f.degree < n.length := fun h h2 =>
      lt_of_le_of_lt degree_le_natDegree (by exact_mod_cast (by omega))
    have a := c48_reproduces nx hx f (lt hf ax) [x] 0
    have b := c48_reproduces ny hy g (lt hg ay) [y] 0
    have c := c48_reproduces nz hz h (lt hh az) [z] 0
    change ∑ i ∈ range nx.length, f.eval (nx.getD i 0) * (nodeBasis nx [x]).e i 0 = f.eval x at a
    change ∑ i ∈ range ny.length, g.eval (ny.getD i 0) * (nodeBasis ny [y]).e i 0 = g.eval y at b
    change ∑ i ∈ range nz.length, h.eval (nz.getD i 0) * (nodeBasis nz [z]).e i 0 = h.eval z at c
    beta_reduce
    rw [← a, ← b, ← c]
    have : ∀ k j i, (nodeBasis nz [z]).e k 0 * (nodeBasis ny [y]).e j 0 * (nodeBasis nx [x]).e i 0 *
        (f.eval (nx.getD i 0) * g.eval (ny.getD j 0) * h.eval (nz.getD k 0))
        = h.eval (nz.getD k 0) * (nodeBasis nz [z]).e k 0 * (g.eval (ny.getD j 0) * (nodeBasis ny [y]).e j 0 *
          (f.eval (nx.getD i 0) * (nodeBasis nx [x]).e i 0)) := fun k j i => by ring
    simp only [this, ← Finset.mul_sum, ← Finset.sum_mul]
    ring
  | add _ _ a b => simp only [mul_add, Finset.sum_add_distrib, a, b]
  | smul c _ a =>
    beta_reduce
    rw [← a, Finset.mul_sum]
    simp only [Finset.mul_sum]
    exact Finset.sum_congr rfl fun k _ => Finset.sum_congr rfl fun j _ => Finset.sum_congr rfl fun i _ => by ring

section comp
variable {nx ny nz : List ℝ} (hx : accepted nx = true) (hy : accepted ny = true) (hz : accepted nz = true)

include hx hy hz in
/-- At the nodes of the space a 0-form has the values of its cochain. -/
theorem recon0_nodes (w : Nat → ℝ) {m : Nat} (hm : m < nz.length * ny.length * nx.length) :
    Three.recon0 nx ny nz nx ny nz w m = w m := by
  have ax := accepted_two hx; have ay := accepted_two hy; have az := accepted_two hz
  obtain ⟨i0, j0, k0, hi0, hj0, hk0, rfl⟩ : ∃ i j k, i < nx.length ∧ j < ny.length ∧ k < nz.length ∧ m = fIdx3 nx.length ny.length i j k := by
    refine ⟨m % nx.length, m / nx.length % ny.length, m / nx.length / ny.length, Nat.mod_lt _ (by omega), Nat.mod_lt _ (by omega), ?_, ?_⟩
    · rw [Nat.div_div_eq_div_mul, Nat.div_lt_iff_lt_mul (Nat.mul_pos (by omega) (by omega))]
      rwa [Nat.mul_comm nx.length, ← Nat.mul_assoc]
    · rw [fIdx3, Nat.mod_add_div, Nat.mod_add_div]
  rw [(c51_meshgrid nx ny nz nx ny nz w _).1]
  obtain ⟨h1, h2, h3⟩ := fIdx3_parts (k := k0) hi0 hj0
  simp only [Three.meshgrid, h1, h2, h3]
  have e := three_recon (nodeBasis nz [nz.getD k0 0]) (nodeBasis ny [ny.getD j0 0]) (nodeBasis nx [nx.getD i0 0]) rfl rfl w
  refine e.trans ?_
  have d : ∀ {n : List ℝ} (hn : accepted n = true) {i j : Nat}, i < n.length → j < n.length →
      (nodeBasis n [n.getD j 0]).e i 0 = if i = j then 1 else 0 := fun hn i j hi hj => by
    have := c48_kronecker _ hn i j hi hj
    simpa [nodeBasis] using this
  change ∑ k ∈ range nz.length, ∑ j ∈ range ny.length, ∑ i ∈ range nx.length, _ = _
  rw [Finset.sum_eq_single k0, Finset.sum_eq_single j0, Finset.sum_eq_single i0]
  · rw [d hx hi0 hi0, d hy hj0 hj0, d hz hk0 hk0]; simp; rfl
  · intro i hi h; rw [d hx (mem_range.1 hi) hi0, if_neg h]; ring
  · intro h; exact absurd (mem_range.2 hi0) h
  · intro j hj h
    refine Finset.sum_eq_zero fun i _ => ?_
    rw [d hy (mem_range.1 hj) hj0, if_neg h]; ring
  · intro h; exact absurd (mem_range.2 hj0) h
  · intro k hk h
    refine Finset.sum_eq_zero fun j _ => Finset.sum_eq_zero fun i _ => ?_
    rw [d hz (mem_range.1 hk) hk0, if_neg h]; ring
  · intro h; exact absurd (mem_range.2 hk0) h

variable (orth : Bool) (delta : Fin 3 → ℝ)

include hx hy hz in
/-- **C95, components.**  The three 0-forms have the values of the components at the nodes, whatever the element, and on affine
elements at every point.  Missing: the calls themselves, which always raise (DESIGN). -/
theorem c95_components_partial (b : Nat → ℝ) (i : Fin 3) :
    (∀ A, ∀ m < nz.length * ny.length * nx.length,
      let J := fun m => Metric.Three.jacobianMatrix orth (onGrid A nx ny nz m) delta
      Three.recon0 nx ny nz nx ny nz (components1 orth A delta nx ny nz b i) m = Metric.Three.reconstruct1 orth J nx ny nz nx ny nz b m i ∧
      Three.recon0 nx ny nz nx ny nz (components2 orth A delta nx ny nz b i) m = Metric.Three.reconstruct2 orth J nx ny nz nx ny nz b m i) ∧
    ∀ A₀ : Metric.M3 ℝ, let J := fun _ : Nat => Metric.Three.jacobianMatrix orth A₀ delta
      Matrix.det (Matrix.of (J 0)) ≠ 0 → ∀ x y z,
      Three.recon0 nx ny nz [x] [y] [z] (components1 orth (fun _ _ _ => A₀) delta nx ny nz b i) 0 =
        Metric.Three.reconstruct1 orth J nx ny nz [x] [y] [z] b 0 i ∧
      Three.recon0 nx ny nz [x] [y] [z] (components2 orth (fun _ _ _ => A₀) delta nx ny nz b i) 0 =
        Metric.Three.reconstruct2 orth J nx ny nz [x] [y] [z] b 0 i := by
  refine ⟨fun A m hm => ⟨recon0_nodes hx hy hz _ hm, recon0_nodes hx hy hz _ hm⟩, fun A₀ => ?_⟩
  intro J hdet x y z
  constructor
  · have hd := Metric.three_diag_inv (Metric.three_diag_jac orth A₀ delta)
    have hF : Poly3 (nx.length - 1) (ny.length - 1) (nz.length - 1)
        (fun x y z => Metric.Three.reconstruct1 orth J nx ny nz [x] [y] [z] b 0 i) := by
      obtain ⟨p0, p1, p2⟩ := value1_poly nx ny nz hx hy hz b
      have e : (fun x y z => Metric.Three.reconstruct1 orth J nx ny nz [x] [y] [z] b 0 i) = fun x y z =>
          Metric.Three.inverse (J 0) 0 i * (Three.recon1 nx ny nz [x] [y] [z] b 0).1 + Metric.Three.inverse (J 0) 1 i *
          (Three.recon1 nx ny nz [x] [y] [z] b 0).2.1 + Metric.Three.inverse (J 0) 2 i * (Three.recon1 nx ny nz [x] [y] [z] b 0).2.2 := by
        funext x y z
        unfold Metric.Three.reconstruct1
        rw [Metric.value1_eq hd]
        ring
      rw [e]
      exact p0.lin p1 p2 _ _ _
    rw [← hF.interp hx hy hz x y z]
    congr 1
    funext m
    unfold components1 onGrid Metric.Three.reconstruct1
    rw [(c51_meshgrid nx ny nz nx ny nz b m).2.1]
  · have hd := Metric.three_diag_inv (Metric.three_diag_jac orth A₀ delta)
    have hJ1 : Metric.Three.jacobian (J 0) ≠ 0 := by rw [Metric.three_det]; exact hdet
    have hF : Poly3 (nx.length - 1) (ny.length - 1) (nz.length - 1)
        (fun x y z => Metric.Three.reconstruct2 orth J nx ny nz [x] [y] [z] b 0 i) := by
      obtain ⟨p0, p1, p2⟩ := value2_poly nx ny nz hx hy hz b
      have e : (fun x y z => Metric.Three.reconstruct2 orth J nx ny nz [x] [y] [z] b 0 i) = fun x y z =>
          ((Metric.Three.jacobian (J 0))⁻¹ * J 0 i 0) * (Three.recon2 nx ny nz [x] [y] [z] b 0).1 +
          ((Metric.Three.jacobian (J 0))⁻¹ * J 0 i 1) * (Three.recon2 nx ny nz [x] [y] [z] b 0).2.1 +
          ((Metric.Three.jacobian (J 0))⁻¹ * J 0 i 2) * (Three.recon2 nx ny nz [x] [y] [z] b 0).2.2 := by
        funext x y z
        unfold Metric.Three.reconstruct2
        rw [Metric.value2_eq hd, Metric.value2_piola _ hJ1]
        ring
      rw [e]
      exact p0.lin p1 p2 _ _ _
    rw [← hF.interp hx hy hz x y z]
    congr 1
    funext m
    unfold components2 onGrid Metric.Three.reconstruct2
    rw [(c51_meshgrid nx ny nz nx ny nz b m).2.2.1]

end comp

/-! ## The gradient tensor -/

section grad
variable {nx ny nz : List ℝ} (hx : accepted nx = true) (hy : accepted ny = true) (hz : accepted nz = true) (orth : Bool)
  (delta : Fin 3 → ℝ)

include hx hy hz in
/-- The tensor applied to the tangent vectors gives the derivatives of the 0-forms along the reference coordinates. -/
theorem gradTensor_deriv (A : ℝ → ℝ → ℝ → Metric.M3 ℝ) (U : Fin 3 → Nat → ℝ) (i : Fin 3) (x y z : ℝ)
    (hJ : Matrix.det (Matrix.of (Metric.Three.jacobianMatrix orth (A x y z) delta)) ≠ 0) :
    let J := Metric.Three.jacobianMatrix orth (A x y z) delta
    let G := gradTensor orth A delta nx ny nz U [x] [y] [z] 0
    HasDerivAt (fun t => Three.recon0 nx ny nz [t] [y] [z] (U i) 0) (∑ k, G i k * J k 0) x ∧
    HasDerivAt (fun t => Three.recon0 nx ny nz [x] [t] [z] (U i) 0) (∑ k, G i k * J k 1) y ∧
    HasDerivAt (fun t => Three.recon0 nx ny nz [x] [y] [t] (U i) 0) (∑ k, G i k * J k 2) z := by
  intro J G
  have g := c51_grad hx hy hz (U i) x y z
  have hJ1 : Metric.Three.jacobian J ≠ 0 := by rw [Metric.three_det]; exact hJ
  let u := Three.recon1 nx ny nz [x] [y] [z] (applyM (Mifem.Three.nb0 (nx.length - 1) (ny.length - 1) (nz.length - 1))
    (Mifem.Three.grad (nx.length - 1) (ny.length - 1) (nz.length - 1)) (U i)) 0
  have e : ∀ a, ∑ k, G i k * J k a = (![u.1, u.2.1, u.2.2] : Fin 3 → ℝ) a := by
    intro a
    have h := c54_line_3d orth (A x y z) delta hJ1 ![u.1, u.2.1, u.2.2] a
    rw [← h]
    have hm : Three.meshgrid [x] [y] [z] 0 = (x, y, z) := by simp [Three.meshgrid]
    simp only [G, gradTensor, Metric.Three.reconstruct1, onGrid, hm]
    rfl
  rw [e 0, e 1, e 2]
  exact g

include hx hy hz in
/-- **C95, gradient.**  On affine elements, the tensor of a 1-form or 2-form is the gradient of its components: applied to the tangent
vectors it gives the derivatives of the values along the reference coordinates.  Missing: the calls themselves. -/
theorem c95_gradient_partial (A₀ : Metric.M3 ℝ) (b : Nat → ℝ) (i : Fin 3) (x y z : ℝ)
    (hdet : Matrix.det (Matrix.of (Metric.Three.jacobianMatrix orth A₀ delta)) ≠ 0) :
    let J := Metric.Three.jacobianMatrix orth A₀ delta
    let G1 := gradTensor orth (fun _ _ _ => A₀) delta nx ny nz (components1 orth (fun _ _ _ => A₀) delta nx ny nz b) [x] [y] [z] 0
    let G2 := gradTensor orth (fun _ _ _ => A₀) delta nx ny nz (components2 orth (fun _ _ _ => A₀) delta nx ny nz b) [x] [y] [z] 0
    let u1 := fun x y z => Metric.Three.reconstruct1 orth (fun _ => J) nx ny nz [x] [y] [z] b 0 i
    let u2 := fun x y z => Metric.Three.reconstruct2 orth (fun _ => J) nx ny nz [x] [y] [z] b 0 i
    (HasDerivAt (fun t => u1 t y z) (∑ k, G1 i k * J k 0) x ∧ HasDerivAt (fun t => u1 x t z) (∑ k, G1 i k * J k 1) y ∧
      HasDerivAt (fun t => u1 x y t) (∑ k, G1 i k * J k 2) z) ∧
    (HasDerivAt (fun t => u2 t y z) (∑ k, G2 i k * J k 0) x ∧ HasDerivAt (fun t => u2 x t z) (∑ k, G2 i k * J k 1) y ∧
      HasDerivAt (fun t => u2 x y t) (∑ k, G2 i k * J k 2) z) := by
  intro J G1 G2 u1 u2
  have hc := fun x y z => (c95_components_partial hx hy hz orth delta b i).2 A₀ hdet x y z
  have h1 := gradTensor_deriv hx hy hz orth delta (fun _ _ _ => A₀) (components1 orth (fun _ _ _ => A₀) delta nx ny nz b) i x y z hdet
  have h2 := gradTensor_deriv hx hy hz orth delta (fun _ _ _ => A₀) (components2 orth (fun _ _ _ => A₀) delta nx ny nz b) i x y z hdet
  simp only [fun x y z => (hc x y z).1] at h1
  simp only [fun x y z => (hc x y z).2] at h2
  exact ⟨h1, h2⟩

end grad

/-! ## The criteria -/

/-- Jeong and Hussain: `S² + Ω²` with the symmetric and the antisymmetric part of the gradient, as a product of matrices. -/
noncomputable def strainRotation (G : Metric.M3 ℝ) : Metric.M3 ℝ :=
  let S := (1 / 2 : ℝ) • (Matrix.of G + (Matrix.of G).transpose)
  let W := (1 / 2 : ℝ) • (Matrix.of G - (Matrix.of G).transpose)
  fun i j => (S * S + W * W) i j

theorem strainRotation_apply (G : Metric.M3 ℝ) (i j : Fin 3) : strainRotation G i j =
    ∑ k, ((G i k + G k i) / 2 * ((G k j + G j k) / 2)) + ∑ k, ((G i k - G k i) / 2 * ((G k j - G j k) / 2)) := by
  simp only [strainRotation, Matrix.add_apply, Matrix.mul_apply, Matrix.smul_apply, Matrix.sub_apply, Matrix.transpose_apply, smul_eq_mul,
    Matrix.of_apply]
  congr 1 <;> exact Finset.sum_congr rfl fun k _ => by ring

/-- `Q = (‖Ω‖² - ‖S‖²) / 2`. -/
noncomputable def trueQ (G : Metric.M3 ℝ) : ℝ :=
  let S := (1 / 2 : ℝ) • (Matrix.of G + (Matrix.of G).transpose)
  let W := (1 / 2 : ℝ) • (Matrix.of G - (Matrix.of G).transpose)
  (∑ i, ∑ j, W i j ^ 2 - ∑ i, ∑ j, S i j ^ 2) / 2

theorem eig_sum {A : Metric.M3 ℝ} {e : Fin 3 → ℝ} (h : Eig A e) : e 0 + e 1 + e 2 = A 0 0 + A 1 1 + A 2 2 := by
  have ht := Matrix.trace_eq_neg_charpoly_coeff (Matrix.of A)
  rw [h] at ht
  have : ((X - C (e 0)) * (X - C (e 1)) * (X - C (e 2)) : ℝ[X]) =
      X ^ 3 - C (e 0 + e 1 + e 2) * X ^ 2 + C (e 0 * e 1 + e 0 * e 2 + e 1 * e 2) * X - C (e 0 * e 1 * e 2) := by
    simp only [C_add, C_mul]; ring
  rw [this] at ht
  have h2 : ((C (e 0 + e 1 + e 2) * X ^ 2 : ℝ[X])).coeff 2 = e 0 + e 1 + e 2 := by rw [coeff_C_mul, coeff_X_pow]; simp
  have h3 : ((C (e 0 * e 1 + e 0 * e 2 + e 1 * e 2) * X : ℝ[X])).coeff 2 = 0 := by rw [coeff_C_mul, coeff_X]; simp
  have h4 : ((C (e 0 * e 1 * e 2) : ℝ[X])).coeff 2 = 0 := by rw [coeff_C]; simp
  rw [show Fintype.card (Fin 3) - 1 = 2 from rfl, coeff_sub, coeff_add, coeff_sub, h2, h3, h4, coeff_X_pow, Matrix.trace,
    Fin.sum_univ_three] at ht
  simp at ht
  linarith

/-- **C95, parts.**  The two parts of the gradient are what they should be. -/
theorem c95_parts (G : Metric.M3 ℝ) (i j : Fin 3) :
    symPart G i j = (G i j + G j i) / 2 ∧ antiPart G i j = (G i j - G j i) / 2 ∧ symPart G i j + antiPart G i j = G i j := by
  fin_cases i <;> fin_cases j <;> simp [symPart, antiPart] <;> (try refine ⟨?_, ?_, ?_⟩) <;> ring

/-- The eigenvalues exist: the array is symmetric. -/
theorem c95_eig_exists (G : Metric.M3 ℝ) : ∃ e, Eig (so G) e := by
  have hs : (Matrix.of (so G)).IsHermitian := by
    refine Matrix.IsHermitian.ext fun i j => ?_
    have h1 := c95_parts G i j
    have h2 := c95_parts G j i
    simp only [Matrix.of_apply, so, star_trivial]
    rw [h1.1, h1.2.1, h2.1, h2.2.1]
    ring
  refine ⟨hs.eigenvalues, ?_⟩
  have := hs.charpoly_eq
  rw [Fin.prod_univ_three] at this
  exact this

theorem trueQ_eq (G : Metric.M3 ℝ) : trueQ G =
    -(G 0 0 ^ 2 + G 1 1 ^ 2 + G 2 2 ^ 2) / 2 - (G 0 1 * G 1 0 + G 0 2 * G 2 0 + G 1 2 * G 2 1) := by
  simp [trueQ, Fin.sum_univ_three]
  ring

/-- **C95, the computed `Q`.**  It only depends on the diagonal of the gradient, and is never positive: no vortex is ever found. -/
theorem c95_never (G : Metric.M3 ℝ) (e : Fin 3 → ℝ) (h : Eig (so G) e) :
    Q e = -(G 0 0 ^ 2 + G 1 1 ^ 2 + G 2 2 ^ 2) / 2 ∧ Q e ≤ 0 := by
  have hs := eig_sum h
  have hq : Q e = -(G 0 0 ^ 2 + G 1 1 ^ 2 + G 2 2 ^ 2) / 2 := by
    rw [Q, hs]
    simp [so, symPart, antiPart]
    ring
  refine ⟨hq, ?_⟩
  rw [hq]
  nlinarith [sq_nonneg (G 0 0), sq_nonneg (G 1 1), sq_nonneg (G 2 2)]

/-- **C95, when the computed `Q` is right.** -/
theorem c95_q_partial (G : Metric.M3 ℝ) (e : Fin 3 → ℝ) (h : Eig (so G) e) :
    Q e = trueQ G ↔ G 0 1 * G 1 0 + G 0 2 * G 2 0 + G 1 2 * G 2 1 = 0 := by
  rw [(c95_never G e h).1, trueQ_eq]
  constructor <;> intro h <;> linarith

/-- The second eigenvalue does not depend on the order in which they are given. -/
theorem lambda2_unique {A B : Metric.M3 ℝ} (hAB : (Matrix.of A).charpoly = (Matrix.of B).charpoly) {e f : Fin 3 → ℝ} (he : Eig A e)
    (hf : Eig B f) : lambda2 e = lambda2 f := by
  have hr : ∀ g : Fin 3 → ℝ, ((X - C (g 0)) * (X - C (g 1)) * (X - C (g 2)) : ℝ[X]).roots = ↑[g 0, g 1, g 2] := by
    intro g
    have e : ((X - C (g 0)) * (X - C (g 1)) * (X - C (g 2)) : ℝ[X]) = (Multiset.map (fun a => X - C a) ↑[g 0, g 1, g 2]).prod := by
      simp [mul_assoc]
    rw [e, roots_multiset_prod_X_sub_C]
  have hp : [e 0, e 1, e 2].Perm [f 0, f 1, f 2] := by
    rw [← Multiset.coe_eq_coe, ← hr e, ← hr f, ← he.symm.trans (hAB.trans hf)]
  rw [lambda2, lambda2, List.Perm.eq_of_sortedLE List.sortedLE_insertionSort List.sortedLE_insertionSort
    ((List.perm_insertionSort _ _).trans (hp.trans (List.perm_insertionSort _ _).symm))]

/-- **C95, when the computed `lambda_2` is right** (one case): gradients with a diagonal matrix. -/
theorem c95_lambda2_partial (G : Metric.M3 ℝ) (hG : ∀ i j, i ≠ j → G i j = 0) (e f : Fin 3 → ℝ) (he : Eig (so G) e)
    (hf : Eig (strainRotation G) f) : lambda2 e = lambda2 f := by
  refine lambda2_unique ?_ he hf
  congr 1
  have h01 := hG 0 1 (by decide); have h02 := hG 0 2 (by decide); have h12 := hG 1 2 (by decide)
  have h10 := hG 1 0 (by decide); have h20 := hG 2 0 (by decide); have h21 := hG 2 1 (by decide)
  ext i j
  rw [Matrix.of_apply, Matrix.of_apply, strainRotation_apply, so, (c95_parts G i j).1, (c95_parts G i j).2.1]
  fin_cases i <;> fin_cases j <;> simp [Fin.sum_univ_three, h01, h02, h12, h10, h20, h21] <;> ring

/-- The gradient of a rigid rotation about the third axis. -/
def rotation : Metric.M3 ℝ := ![![0, -1, 0], ![1, 0, 0], ![0, 0, 0]]

theorem rotation_values : rotation 0 0 = 0 ∧ rotation 0 1 = -1 ∧ rotation 0 2 = 0 ∧ rotation 1 0 = 1 ∧ rotation 1 1 = 0 ∧
    rotation 1 2 = 0 ∧ rotation 2 0 = 0 ∧ rotation 2 1 = 0 ∧ rotation 2 2 = 0 := ⟨rfl, rfl, rfl, rfl, rfl, rfl, rfl, rfl, rfl⟩

/-- **C95, the criteria fail.**  A rigid rotation has `Q = 1` and `lambda_2 = -1`; the code gives zero for both. -/
theorem c95_rotation :
    trueQ rotation = 1 ∧ (∀ f, Eig (strainRotation rotation) f → lambda2 f = -1) ∧
    ∀ e, Eig (so rotation) e → Q e = 0 ∧ lambda2 e = 0 := by
  have hs : ∀ a b c : ℝ, a ≤ b → b ≤ c → lambda2 ![a, b, c] = b := by
    intro a b c h1 h2
    have : ([a, b, c] : List ℝ).insertionSort (· ≤ ·) = [a, b, c] := List.Pairwise.insertionSort_eq (by simp [h1, h2, h1.trans h2])
    simp [lambda2, this]
  refine ⟨?_, fun f hf => ?_, fun e he => ⟨?_, ?_⟩⟩
  · rw [trueQ_eq]; simp [rotation]
  · rw [← hs (-1) (-1) 0 le_rfl (by norm_num)]
    refine lambda2_unique rfl hf ?_
    have hm : Matrix.of (strainRotation rotation) = !![-1, 0, 0; 0, -1, 0; 0, 0, 0] := by
      ext i j
      rw [Matrix.of_apply, strainRotation_apply]
      fin_cases i <;> fin_cases j <;> norm_num [Fin.sum_univ_three] <;> (try simp only [Fin.reduceFinMk]) <;> norm_num [rotation_values]
    rw [Eig, hm, Matrix.charpoly, Matrix.det_fin_three]
    simp
  · rw [(c95_never _ e he).1]; simp [rotation]
  · rw [← hs (-1) 0 1 (by norm_num) (by norm_num)]
    refine lambda2_unique rfl he ?_
    have hm : Matrix.of (so rotation) = !![0, 1, 0; 1, 0, 0; 0, 0, 0] := by
      ext i j
      rw [Matrix.of_apply, so, (c95_parts _ i j).1, (c95_parts _ i j).2.1]
      fin_cases i <;> fin_cases j <;> norm_num <;> (try simp only [Fin.reduceFinMk]) <;> norm_num [rotation_values]
    rw [Eig, hm, Matrix.charpoly, Matrix.det_fin_three]
    simp
    ring

/-! ## Concrete cases -/

/-- Uniform nodes are accepted for every degree. -/
noncomputable def uniformNodes (p : Nat) : List ℝ := (List.range (p + 1)).map fun i : Nat => -1 + 2 * (i : ℝ) / p

theorem uniformNodes_good : GoodNodes uniformNodes := by
  intro p hp
  have hp0 : (0 : ℝ) < p := by exact_mod_cast hp
  have hl : (uniformNodes p).length = p + 1 := by simp [uniformNodes]
  refine ⟨?_, hl⟩
  have hn : ∀ i, i < p + 1 → node (uniformNodes p) i = -1 + 2 * (i : ℝ) / p := by
    intro i hi
    rw [node, List.getD_eq_getElem _ _ (by omega)]
    simp [uniformNodes]
  simp only [accepted, Bool.and_eq_true, List.all_eq_true, List.mem_range, decide_eq_true_eq]
  refine ⟨⟨fun i hi => ?_, ?_⟩, ?_⟩
  · rw [hn i (by omega), hn (i + 1) (by omega)]
    have : 2 * (i : ℝ) / p < 2 * ((i + 1 : ℕ) : ℝ) / p := by
      rw [div_lt_div_iff_of_pos_right hp0]; push_cast; linarith
    linarith
  · rw [List.getLast?_eq_getElem?, hl]
    simp only [uniformNodes, List.getElem?_map, Nat.add_sub_cancel]
    rw [List.getElem?_range (by omega)]
    simp only [Option.map_some, Option.some.injEq]
    field_simp
    norm_num
  · simp [uniformNodes, List.range_succ_eq_map]

/-- Unit cubes. -/
def unitCube : Metric.M3 ℝ := ![![1, 0, 0], ![0, 1, 0], ![0, 0, 1]]

theorem unitCube_det (o : Bool) : 0 < Matrix.det (Matrix.of (Metric.Three.jacobianMatrix o unitCube fun _ => 1)) := by
  have : Matrix.of (Metric.Three.jacobianMatrix o unitCube fun _ => (1 : ℝ)) = (1 / 2 : ℝ) • (1 : Matrix (Fin 3) (Fin 3) ℝ) := by
    ext i j
    cases o <;> fin_cases i <;> fin_cases j <;> simp [Metric.Three.jacobianMatrix, unitCube]
  rw [this]
  simp

example : ∃ gauss : Nat → Disc.Rule ℝ, ∀ (b : Nat → ℝ) (x y z : ℝ),
    Metric.Three.reconstruct2 false (fun _ => Metric.Three.jacobianMatrix false unitCube fun _ => 1) (newNodes uniformNodes [-1, 0, 1])
      (newNodes uniformNodes [-1, 0, 1]) (newNodes uniformNodes [-1, 0, 1]) [x] [y] [z]
      (standard2form gauss uniformNodes false (fun _ _ _ => unitCube) (fun _ => 1) [-1, 0, 1] [-1, 0, 1] [-1, 0, 1] b) 0
    = Metric.Three.reconstruct1 false (fun _ => Metric.Three.jacobianMatrix false unitCube fun _ => 1) [-1, 0, 1] [-1, 0, 1] [-1, 0, 1]
      [x] [y] [z] b 0 := by
  choose g hg using c70_gauss_exists
  exact ⟨fun p => g (p + 1), fun b x y z => c95_exact (fun p => hg (p + 1)) uniformNodes_good (unitCube_det false) accepted_real
    accepted_real accepted_real b x y z⟩

/-- Such rules exist (`c70_gauss_exists`). -/
noncomputable def someGauss (p : Nat) : Disc.Rule ℝ := (c70_gauss_exists (p + 1)).choose

example (b v : Nat → ℝ) := c95_moments (gauss := someGauss) (fun p => (c70_gauss_exists (p + 1)).choose_spec) uniformNodes_good
  (orth := true) (A := fun _ _ _ => unitCube) (delta := fun _ => 1) (fun _ _ _ => unitCube_det true) accepted_real accepted_real
  accepted_real b v

example := c95_components_partial accepted_real accepted_real accepted_real true (fun _ => 1) (fun i => (i : ℝ)) 1
example := c95_gradient_partial accepted_real accepted_real accepted_real true (fun _ => 1) unitCube (fun i => (i : ℝ)) 1 (1/2) 0 (1/3)
  (unitCube_det true).ne'

/-- A shear flow: the computed `Q` is right, although the gradient is not diagonal. -/
example : ∃ e, Eig (so ![![0, 1, 0], ![0, 0, 0], ![0, 0, 0]]) e ∧ Q e = trueQ ![![0, 1, 0], ![0, 0, 0], ![0, 0, 0]] := by
  obtain ⟨e, he⟩ := c95_eig_exists ![![0, 1, 0], ![0, 0, 0], ![0, 0, 0]]
  exact ⟨e, he, (c95_q_partial _ e he).2 (by simp)⟩

end Mifem.Props
