import Verif.Model.Fields
import Verif.Props.Mass
import Mathlib.Tactic.FinCases
import Mathlib.Tactic.LinearCombination

/-!
# C100: a vector field tested with the basis functions of a form
-/

namespace Mifem.Props
open Mifem.Fields Mifem.Metric Mifem.Basis Mifem.Cross Finset

namespace Fld100

section
variable {K : Type*} [Field K]

theorem weigh_eq (g : Arr K) (c : Nat → K) (i : Nat) : weigh g c i = ∑ m ∈ range g.cols, c m * g.e i m := range_map_sum _ _

theorem weigh_pair (g : Arr K) (c : Nat → K) (w : Nat → K) :
    ∑ i ∈ range g.rows, weigh g c i * w i = ∑ m ∈ range g.cols, c m * einsum g w m := by
  simp only [weigh_eq, einsum_eq, Finset.sum_mul, Finset.mul_sum]
  rw [Finset.sum_comm]
  exact Finset.sum_congr rfl fun m _ => Finset.sum_congr rfl fun i _ => by ring

theorem concat_pair (g : Fin 3 → Arr K) (c : Fin 3 → Nat → K) (w : Nat → K) (n : Nat) (hn : ∀ a, (g a).cols = n) :
    ∑ i ∈ range ((g 0).rows + (g 1).rows + (g 2).rows),
        concat3 (g 0).rows (g 1).rows (fun a => weigh (g a) (c a)) i * w i
      = ∑ m ∈ range n, (c 0 m * einsum (g 0) w m + c 1 m * einsum (g 1) (slice w (g 0).rows) m
          + c 2 m * einsum (g 2) (slice w ((g 0).rows + (g 1).rows)) m) := by
  rw [Finset.sum_range_add, Finset.sum_range_add, Finset.sum_add_distrib, Finset.sum_add_distrib]
  have p := fun a (u : Nat → K) => weigh_pair (g a) (c a) u
  simp only [hn] at p
  rw [← p 0, ← p 1, ← p 2]
  congr 1
  · congr 1
    · refine Finset.sum_congr rfl fun i hi => ?_
      rw [concat3, if_pos (mem_range.1 hi)]
    · refine Finset.sum_congr rfl fun i hi => ?_
      have := mem_range.1 hi
      rw [concat3, if_neg (by omega), if_pos (by omega), Nat.add_sub_cancel_left]; rfl
  · refine Finset.sum_congr rfl fun i hi => ?_
    rw [concat3, if_neg (by omega), if_neg (by omega), Nat.add_sub_cancel_left]; rfl

theorem cofactors_eq (J : M3 K) (h : Three.jacobian J ≠ 0) (a x : Fin 3) :
    cofactors false J a x = Three.jacobian J * Three.inverse J a x := by
  have e : ∀ y : K, Three.jacobian J * ((Three.jacobian J)⁻¹ * y) = y := fun y => mul_inv_cancel_left₀ h y
  have e' : ∀ y : K, Three.jacobian J * (1 / Three.jacobian J * y) = y := fun y => by rw [one_div]; exact e y
  fin_cases a <;> fin_cases x <;> exact (e' _).symm

theorem cofactors_orth (J : M3 K) (hd : DiagIf3 true J) (a x : Fin 3) : cofactors true J a x = cofactors false J a x := by
  have e01 := hd rfl 0 1 (by decide); have e02 := hd rfl 0 2 (by decide); have e10 := hd rfl 1 0 (by decide)
  have e12 := hd rfl 1 2 (by decide); have e20 := hd rfl 2 0 (by decide); have e21 := hd rfl 2 1 (by decide)
  fin_cases a <;> fin_cases x <;> simp [cofactors, e01, e02, e10, e12, e20, e21]

/-- The integrand of `with1` for component `a`. -/
theorem with1_coef (orth : Bool) (J : M3 K) (hd : DiagIf3 orth J) (h : Three.jacobian J ≠ 0) (f : Fin 3 → K) (a : Fin 3) :
    (if orth then f a * cofactors orth J a a
      else f 0 * cofactors orth J a 0 + f 1 * cofactors orth J a 1 + f 2 * cofactors orth J a 2)
      = Three.jacobian J * (f 0 * Three.inverse J a 0 + f 1 * Three.inverse J a 1 + f 2 * Three.inverse J a 2) := by
  cases orth with
  | false =>
    simp only [Bool.false_eq_true, if_false, cofactors_eq J h]
    ring
  | true =>
    have z := three_diag_inv hd rfl
    simp only [if_true, cofactors_orth J hd, cofactors_eq J h]
    fin_cases a
    · have e1 := z 0 1 (by decide); have e2 := z 0 2 (by decide)
      simp only [Fin.zero_eta, e1, e2]; ring
    · have e1 := z 1 0 (by decide); have e2 := z 1 2 (by decide)
      simp only [Fin.mk_one, e1, e2]; ring
    · have e1 := z 2 0 (by decide); have e2 := z 2 1 (by decide)
      simp only [Fin.reduceFinMk, e1, e2]; ring

/-- The integrand of `with2` for component `a`. -/
theorem with2_coef (orth : Bool) (J : M3 K) (hd : DiagIf3 orth J) (f : Fin 3 → K) (a : Fin 3) :
    (if orth then f a * J a a else f 0 * J 0 a + f 1 * J 1 a + f 2 * J 2 a) = f 0 * J 0 a + f 1 * J 1 a + f 2 * J 2 a := by
  cases orth with
  | false => rfl
  | true =>
    have e01 := hd rfl 0 1 (by decide); have e02 := hd rfl 0 2 (by decide); have e10 := hd rfl 1 0 (by decide)
    have e12 := hd rfl 1 2 (by decide); have e20 := hd rfl 2 0 (by decide); have e21 := hd rfl 2 1 (by decide)
    fin_cases a <;> simp [e01, e02, e10, e12, e20, e21]

/-- **C100 (1-forms).** The vector of a field `f` tested with the 1-forms of an element: paired with any cochain it is the
quadrature of the dot product of `f` with the reconstruction of that cochain. -/
theorem c100_test_1form (orth : Bool) (A : Nat → M3 K) (delta : Fin 3 → K) (q : Nat → K) (nx ny nz xs ys zs : List K)
    (hx : nx ≠ []) (hy : ny ≠ []) (hz : nz ≠ []) (f : Nat → Fin 3 → K) (w : Nat → K)
    (hJ : ∀ m, Matrix.det (Matrix.of (Three.jacobianMatrix orth (A m) delta)) ≠ 0) :
    let J := fun m => Three.jacobianMatrix orth (A m) delta
    ∑ i ∈ range (Mifem.Three.nb1 (nx.length - 1) (ny.length - 1) (nz.length - 1)),
        with1 orth (fun m => cofactors orth (J m)) q f (Three.basis1 nx ny nz xs ys zs) i * w i
      = quad3 (zs.length * ys.length * xs.length) q J fun m =>
          dotProduct (f m) (Three.reconstruct1 orth J nx ny nz xs ys zs w m) := by
  intro J
  obtain ⟨r0, r1, r2⟩ := rows3_1 hx hy hz xs ys zs
  rw [Mifem.Three.nb1, ← r0, ← r1, ← r2, with1, concat_pair _ _ _ _ (cols3_1 nx ny nz xs ys zs)]
  refine Finset.sum_congr rfl fun m _ => ?_
  have hd : DiagIf3 orth (J m) := three_diag_jac orth (A m) delta
  have hj : Three.jacobian (J m) ≠ 0 := by rw [three_det]; exact hJ m
  simp only [with1_coef orth (J m) hd hj, Three.reconstruct1, recon1_eq hx hy hz, dotProduct, Fin.sum_univ_three,
    value1_eq (three_diag_inv hd), ← three_det]
  ring

/-- **C100 (2-forms).** -/
theorem c100_test_2form (orth : Bool) (A : Nat → M3 K) (delta : Fin 3 → K) (q : Nat → K) (nx ny nz xs ys zs : List K)
    (hx : nx ≠ []) (hy : ny ≠ []) (hz : nz ≠ []) (f : Nat → Fin 3 → K) (w : Nat → K)
    (hJ : ∀ m, Matrix.det (Matrix.of (Three.jacobianMatrix orth (A m) delta)) ≠ 0) :
    let J := fun m => Three.jacobianMatrix orth (A m) delta
    ∑ i ∈ range (Mifem.Three.nb2 (nx.length - 1) (ny.length - 1) (nz.length - 1)),
        with2 orth J q f (Three.basis2 nx ny nz xs ys zs) i * w i
      = quad3 (zs.length * ys.length * xs.length) q J fun m =>
          dotProduct (f m) (Three.reconstruct2 orth J nx ny nz xs ys zs w m) := by
  intro J
  obtain ⟨r0, r1, r2⟩ := rows3_2 hx hy hz xs ys zs
  rw [Mifem.Three.nb2, ← r0, ← r1, ← r2, with2, concat_pair _ _ _ _ (cols3_2 nx ny nz xs ys zs)]
  refine Finset.sum_congr rfl fun m _ => ?_
  have hd : DiagIf3 orth (J m) := three_diag_jac orth (A m) delta
  have hj : Three.jacobian (J m) ≠ 0 := by rw [three_det]; exact hJ m
  have hr := mul_inv_cancel₀ hj
  simp only [with2_coef orth (J m) hd, Three.reconstruct2, recon2_eq hx hy hz, dotProduct, Fin.sum_univ_three,
    value2_eq (three_diag_inv hd), value2_piola _ hj, ← three_det]
  obtain ⟨r, hr'⟩ : ∃ r, r = (Three.jacobian (J m))⁻¹ := ⟨_, rfl⟩
  rw [← hr'] at hr ⊢
  generalize einsum (Three.basis2 nx ny nz xs ys zs 0) w m = u0
  generalize einsum (Three.basis2 nx ny nz xs ys zs 1) (slice w _) m = u1
  generalize einsum (Three.basis2 nx ny nz xs ys zs 2) (slice w _) m = u2
  linear_combination (-(q m) * (f m 0 * (J m 0 0 * u0 + J m 0 1 * u1 + J m 0 2 * u2)
    + f m 1 * (J m 1 0 * u0 + J m 1 1 * u1 + J m 1 2 * u2) + f m 2 * (J m 2 0 * u0 + J m 2 1 * u1 + J m 2 2 * u2))) * hr

theorem unit_pair (v : Nat → K) {n k : Nat} (hk : k < n) : ∑ i ∈ range n, v i * (if i = k then 1 else 0) = v k := by
  simp [hk]

theorem unit_row (M : Nat → Nat → K) (b : Nat → K) (n : Nat) {k r : Nat} (hk : k < r) :
    ∑ i ∈ range r, ∑ j ∈ range n, (if i = k then 1 else 0) * M i j * b j = ∑ j ∈ range n, M k j * b j := by
  rw [Finset.sum_eq_single k]
  · simp
  · intro i _ hi; simp [hi]
  · intro h; exact absurd (mem_range.2 hk) h

/-- A field that is a 1-form with cochain `b` is tested with the 1-forms by multiplying the mass matrix with `b`. -/
theorem c100_test_mass_1form (orth same : Bool) (A : Nat → M3 K) (delta : Fin 3 → K) (q : Nat → K)
    (nx ny nz xs ys zs : List K) (hx : nx ≠ []) (hy : ny ≠ []) (hz : nz ≠ []) (b : Nat → K)
    (hJ : ∀ m, Matrix.det (Matrix.of (Three.jacobianMatrix orth (A m) delta)) ≠ 0) (k : Nat)
    (hk : k < Mifem.Three.nb1 (nx.length - 1) (ny.length - 1) (nz.length - 1)) :
    let J := fun m => Three.jacobianMatrix orth (A m) delta
    let B := Three.basis1 nx ny nz xs ys zs
    with1 orth (fun m => cofactors orth (J m)) q (Three.reconstruct1 orth J nx ny nz xs ys zs b) B k
      = ∑ j ∈ range (Mifem.Three.nb1 (nx.length - 1) (ny.length - 1) (nz.length - 1)),
          Three.inner1 orth same J q B B k j * b j := by
  intro J B
  have h1 := c100_test_1form orth A delta q nx ny nz xs ys zs hx hy hz (Three.reconstruct1 orth J nx ny nz xs ys zs b)
    (fun i => if i = k then 1 else 0) hJ
  have h2 := c56_1form_3d orth same A delta q nx ny nz nx ny nz xs ys zs hx hy hz hx hy hz (fun _ => ⟨rfl, rfl, rfl⟩)
    (fun i => if i = k then 1 else 0) b
  simp only at h1 h2
  rw [unit_pair _ hk] at h1
  rw [unit_row _ _ _ hk] at h2
  refine h1.trans (Eq.trans ?_ h2.symm)
  unfold quad3
  exact Finset.sum_congr rfl fun m _ => congrArg _ (dotProduct_comm _ _)

/-- The same for 2-forms. -/
theorem c100_test_mass_2form (orth same : Bool) (A : Nat → M3 K) (delta : Fin 3 → K) (q : Nat → K)
    (nx ny nz xs ys zs : List K) (hx : nx ≠ []) (hy : ny ≠ []) (hz : nz ≠ []) (b : Nat → K)
    (hJ : ∀ m, Matrix.det (Matrix.of (Three.jacobianMatrix orth (A m) delta)) ≠ 0) (k : Nat)
    (hk : k < Mifem.Three.nb2 (nx.length - 1) (ny.length - 1) (nz.length - 1)) :
    let J := fun m => Three.jacobianMatrix orth (A m) delta
    let B := Three.basis2 nx ny nz xs ys zs
    with2 orth J q (Three.reconstruct2 orth J nx ny nz xs ys zs b) B k
      = ∑ j ∈ range (Mifem.Three.nb2 (nx.length - 1) (ny.length - 1) (nz.length - 1)),
          Three.inner2 orth same J q B B k j * b j := by
  intro J B
  have h1 := c100_test_2form orth A delta q nx ny nz xs ys zs hx hy hz (Three.reconstruct2 orth J nx ny nz xs ys zs b)
    (fun i => if i = k then 1 else 0) hJ
  have h2 := c56_2form_3d orth same A delta q nx ny nz nx ny nz xs ys zs hx hy hz hx hy hz (fun _ => ⟨rfl, rfl, rfl⟩)
    (fun i => if i = k then 1 else 0) b
  simp only at h1 h2
  rw [unit_pair _ hk] at h1
  rw [unit_row _ _ _ hk] at h2
  refine h1.trans (Eq.trans ?_ h2.symm)
  unfold quad3
  exact Finset.sum_congr rfl fun m _ => congrArg _ (dotProduct_comm _ _)

variable {M : Type} [DecidableEq M]

theorem withAll_eq (orth : M → Bool) (q : Nat → K) (g : Fin 3 → Arr K) (es : List (M × (Nat → M3 K) × (Nat → Fin 3 → K)))
    (cache : List (M × (Nat → M3 K)))
    (hc : ∀ c ∈ cache, ∀ e ∈ es, c.1 = e.1 → c.2 = fun m => cofactors (orth e.1) (e.2.1 m))
    (he : ∀ e ∈ es, ∀ e' ∈ es, e.1 = e'.1 → e.2.1 = e'.2.1) :
    withAll orth q g cache es = es.map fun e => with1 (orth e.1) (fun m => cofactors (orth e.1) (e.2.1 m)) q e.2.2 g := by
  induction es generalizing cache with
  | nil => rfl
  | cons e es ih =>
    obtain ⟨k, J, f⟩ := e
    have he' : ∀ e ∈ es, ∀ e' ∈ es, e.1 = e'.1 → e.2.1 = e'.2.1 := fun a ha b hb =>
      he a (List.mem_cons_of_mem _ ha) b (List.mem_cons_of_mem _ hb)
    rw [withAll, List.map_cons]
    unfold withCache
    split
    · rename_i c hf
      have hm := List.mem_of_find?_eq_some hf
      have hk : c.1 = k := by simpa using List.find?_some hf
      have e1 := hc c hm (k, J, f) List.mem_cons_self hk
      rw [e1]
      exact congrArg _ (ih cache (fun c hc' e he'' => hc c hc' e (List.mem_cons_of_mem _ he'')) he')
    · refine congrArg _ (ih _ (fun c hc' e he'' h => ?_) he')
      rcases List.mem_cons.1 hc' with rfl | hc'
      · have h' : k = e.1 := h
        have := he (k, J, f) List.mem_cons_self e (List.mem_cons_of_mem _ he'') h
        have this' : J = e.2.1 := this
        rw [this', h']
      · exact hc c hc' e (List.mem_cons_of_mem _ he'') h

/-- The cache of the cofactors does not change the vectors, if elements with the same mark have the same Jacobian matrices. -/
theorem c100_test_cache (orth : M → Bool) (q : Nat → K) (g : Fin 3 → Arr K)
    (es : List (M × (Nat → M3 K) × (Nat → Fin 3 → K))) (he : ∀ e ∈ es, ∀ e' ∈ es, e.1 = e'.1 → e.2.1 = e'.2.1) :
    withAll orth q g [] es
      = es.map fun e => with1 (orth e.1) (fun m => cofactors (orth e.1) (e.2.1 m)) q e.2.2 g :=
  withAll_eq orth q g es [] (fun _ h => absurd h List.not_mem_nil) he

end

/-- No standard form is accepted: their class names begin with `_3dCSCG_`. -/
theorem c100_test_refused_fails (ft : FType) (k : Nat) : testSpace ft (Three.className k) = none := by
  have e : ∀ s : String, Three.className k = s → ∃ t, s = "_3dCSCG_" ++ t := fun s h => ⟨toString k ++ "Form", by
    rw [← h]; simp only [Three.className, String.append_assoc]; rfl⟩
  have n : ∀ s : String, s.length < 8 → Three.className k ≠ s := fun s hs h => by
    obtain ⟨t, rfl⟩ := e s h
    rw [String.length_append] at hs
    have : ("_3dCSCG_" : String).length = 8 := by decide
    omega
  unfold testSpace
  split
  · rw [if_neg (n _ (by decide)), if_neg (n _ (by decide))]
  · rfl

/-- Two trapezoidal nodes in each direction, and an element that is sheared: the hypotheses hold. -/
example : (([-1, 1] : List ℚ) ≠ []) ∧
    ∀ _ : Nat, Matrix.det (Matrix.of (Three.jacobianMatrix false ![![1, 1, 0], ![0, 1, 0], ![0, 0, (1 : ℚ)]] ![1, 1, 2])) ≠ 0 := by
  refine ⟨by simp, fun _ => ?_⟩
  rw [← three_det]
  simp [Three.jacobian, Three.jacobianMatrix]

end Fld100
end Mifem.Props
