import Verif.Model.Discretize
import Verif.Lemmas.Incidence
import Verif.Props.TriCommute
import Mathlib.Algebra.MvPolynomial.Monad
import Mathlib.Algebra.MvPolynomial.PDeriv
import Mathlib.Algebra.MvPolynomial.Degrees

/-! # Lemmas about the discretization of polynomial fields -/

namespace Mifem.Disc
open Polynomial
open Mifem.Props (ExactQuad quad_same quad_deriv nodeP derivative_nodeP natDegree_nodeP)

section
variable {F : Type*} [Field F] [LinearOrder F] [IsStrictOrderedRing F]

/-- The rule integrates `t ^ k` over `[-1, 1]` exactly for `k ≤ d`. -/
def Exact (r : Rule F) (d : Nat) : Prop :=
  ∀ k ≤ d, ∑ q ∈ Finset.range r.n, r.w q * r.x q ^ k = (1 - (-1) ^ (k + 1)) / ((k : F) + 1)

/-- The rule as a list. -/
def Rule.toQuad (r : Rule F) : Mifem.Tri.Quad F := (List.range r.n).map fun q => (r.x q, r.w q)

omit [LinearOrder F] [IsStrictOrderedRing F] in
theorem toQuad_sum (r : Rule F) (g : F × F → F) :
    (r.toQuad.map g).sum = ∑ q ∈ Finset.range r.n, g (r.x q, r.w q) := by
  rw [Rule.toQuad, List.map_map]
  induction r.n with
  | zero => simp
  | succ n ih => rw [List.range_succ, List.map_append, List.sum_append, ih, Finset.sum_range_succ]; simp

omit [LinearOrder F] [IsStrictOrderedRing F] in
theorem exact_toQuad {r : Rule F} {d : Nat} (h : Exact r d) : ExactQuad r.toQuad d := by
  intro k hk
  rw [toQuad_sum]
  exact h k hk

variable {σ : Type*} [Fintype σ] [DecidableEq σ]

/-- The line through `v` in direction `dir`, over cell `i`. -/
noncomputable def lineP (x : Nat → F) (i : Nat) (dir : σ) (v : σ → F) (c : σ) : F[X] :=
  if c = dir then nodeP x i else C (v c)

omit [LinearOrder F] [IsStrictOrderedRing F] [Fintype σ] in
theorem eval_lineP (x : Nat → F) (i : Nat) (dir : σ) (v : σ → F) (G : MvPolynomial σ F) (t : F) :
    (MvPolynomial.aeval (lineP x i dir v) G).eval t =
      MvPolynomial.eval (Function.update v dir ((t + 1) * (x (i + 1) - x i) / 2 + x i)) G := by
  induction G using MvPolynomial.induction_on with
  | C a => simp
  | add p q hp hq => simp [hp, hq]
  | mul_X p c hp =>
    rw [map_mul, eval_mul, hp, map_mul, MvPolynomial.aeval_X, MvPolynomial.eval_X]
    congr 1
    unfold lineP
    by_cases h : c = dir
    · subst h
      simp only [if_true, Function.update_self, nodeP, eval_add, eval_mul, eval_C, eval_X, eval_one]
      ring
    · simp [h]

omit [LinearOrder F] [IsStrictOrderedRing F] [Fintype σ] in
theorem deriv_lineP (x : Nat → F) (i : Nat) (dir : σ) (v : σ → F) (G : MvPolynomial σ F) :
    derivative (MvPolynomial.aeval (lineP x i dir v) G) =
      MvPolynomial.aeval (lineP x i dir v) (MvPolynomial.pderiv dir G) * C (1 / 2 * (x (i + 1) - x i)) := by
  induction G using MvPolynomial.induction_on with
  | C a => simp
  | add p q hp hq => simp only [map_add, hp, hq, add_mul]
  | mul_X p c hp =>
    rw [map_mul, derivative_mul, hp, Derivation.leibniz, map_add, smul_eq_mul, smul_eq_mul, map_mul (MvPolynomial.aeval _),
      map_mul (MvPolynomial.aeval _), MvPolynomial.aeval_X, MvPolynomial.pderiv_X]
    by_cases h : c = dir
    · subst h
      rw [Pi.single_eq_same, map_one, show derivative (lineP x i c v c) = C (1 / 2 * (x (i + 1) - x i)) by
        rw [lineP, if_pos rfl, derivative_nodeP]]
      ring
    · rw [Pi.single_eq_of_ne (fun h' => h h'), map_zero, show derivative (lineP x i dir v c) = 0 by
        rw [lineP, if_neg h, derivative_C]]
      ring

omit [LinearOrder F] [IsStrictOrderedRing F] [Fintype σ] in
theorem natDegree_lineP (x : Nat → F) (i : Nat) (dir : σ) (v : σ → F) (G : MvPolynomial σ F) :
    (MvPolynomial.aeval (lineP x i dir v) G).natDegree ≤ G.degreeOf dir := by
  rw [MvPolynomial.aeval_def, MvPolynomial.eval₂_eq]
  refine natDegree_sum_le_of_forall_le _ _ fun m hm => ?_
  have hb : m dir ≤ G.degreeOf dir := MvPolynomial.monomial_le_degreeOf dir hm
  refine le_trans ?_ hb
  refine natDegree_mul_le.trans ?_
  rw [show (algebraMap F F[X]) (MvPolynomial.coeff m G) = C (MvPolynomial.coeff m G) from rfl, natDegree_C, zero_add]
  refine (natDegree_prod_le _ _).trans ?_
  have : ∀ c ∈ m.support, (lineP x i dir v c ^ m c).natDegree ≤ if c = dir then m c else 0 := by
    intro c _
    refine natDegree_pow_le.trans ?_
    unfold lineP
    by_cases h : c = dir
    · rw [if_pos h, if_pos h]
      calc m c * (nodeP x i).natDegree ≤ m c * 1 := Nat.mul_le_mul_left _ (natDegree_nodeP x i)
        _ = m c := Nat.mul_one _
    · rw [if_neg h, if_neg h, natDegree_C, Nat.mul_zero]
  refine (Finset.sum_le_sum this).trans ?_
  rw [Finset.sum_ite_eq' m.support dir]
  split_ifs
  · exact le_refl _
  · exact Nat.zero_le _

/-- The quadrature of `G` over a cell of a line. -/
noncomputable def lineInt (r : Rule F) (x : Nat → F) (i : Nat) (dir : σ) (v : σ → F) (G : MvPolynomial σ F) : F :=
  ∑ q ∈ Finset.range r.n, r.w q * ((x (i + 1) - x i) * (1 / 2)) * MvPolynomial.eval (Function.update v dir (inCell x r q i)) G

omit [LinearOrder F] [IsStrictOrderedRing F] [Fintype σ] in
theorem lineInt_eq (r : Rule F) (x : Nat → F) (i : Nat) (dir : σ) (v : σ → F) (G : MvPolynomial σ F) :
    lineInt r x i dir v G = (x (i + 1) - x i) * (1 / 2) *
      (r.toQuad.map fun t => t.2 * (MvPolynomial.aeval (lineP x i dir v) G).eval t.1).sum := by
  rw [toQuad_sum, lineInt, Finset.mul_sum]
  refine Finset.sum_congr rfl fun q _ => ?_
  dsimp only
  rw [eval_lineP, inCell]
  ring

/-- The fundamental theorem of calculus on a line. -/
theorem lineInt_pderiv {r : Rule F} {d : Nat} (hr : Exact r d) (x : Nat → F) (i : Nat) (dir : σ) (v : σ → F)
    (G : MvPolynomial σ F) (hG : G.degreeOf dir ≤ d + 1) :
    lineInt r x i dir v (MvPolynomial.pderiv dir G) =
      MvPolynomial.eval (Function.update v dir (x (i + 1))) G - MvPolynomial.eval (Function.update v dir (x i)) G := by
  have h := quad_deriv (exact_toQuad hr) _ ((natDegree_lineP x i dir v G).trans hG)
  rw [eval_lineP, eval_lineP] at h
  rw [lineInt_eq, show ((1 : F) + 1) * (x (i + 1) - x i) / 2 + x i = x (i + 1) by ring,
    show (-(1 : F) + 1) * (x (i + 1) - x i) / 2 + x i = x i by ring] at *
  rw [← h, ← List.sum_map_mul_left]
  congr 1
  apply List.map_congr_left
  intro t _
  rw [deriv_lineP, eval_mul, eval_C]
  ring

/-- Two exact rules give the same value. -/
theorem lineInt_same {r r' : Rule F} {d : Nat} (hr : Exact r d) (hr' : Exact r' d) (x : Nat → F) (i : Nat) (dir : σ)
    (v : σ → F) (G : MvPolynomial σ F) (hG : G.degreeOf dir ≤ d) : lineInt r x i dir v G = lineInt r' x i dir v G := by
  rw [lineInt_eq, lineInt_eq, quad_same (exact_toQuad hr) (exact_toQuad hr') _ ((natDegree_lineP x i dir v G).trans hG)]

omit [LinearOrder F] [IsStrictOrderedRing F] [Fintype σ] in
theorem lineInt_add (r : Rule F) (x : Nat → F) (i : Nat) (dir : σ) (v : σ → F) (G H : MvPolynomial σ F) :
    lineInt r x i dir v (G + H) = lineInt r x i dir v G + lineInt r x i dir v H := by
  simp only [lineInt, map_add, mul_add, Finset.sum_add_distrib]

omit [LinearOrder F] [IsStrictOrderedRing F] [Fintype σ] in
theorem lineInt_sub (r : Rule F) (x : Nat → F) (i : Nat) (dir : σ) (v : σ → F) (G H : MvPolynomial σ F) :
    lineInt r x i dir v (G - H) = lineInt r x i dir v G - lineInt r x i dir v H := by
  simp only [lineInt, map_sub, mul_sub, Finset.sum_sub_distrib]

/-- The quadrature over a cell of a plane. -/
noncomputable def areaInt (r r' : Rule F) (x x' : Nat → F) (i i' : Nat) (a b : σ) (v : σ → F) (G : MvPolynomial σ F) : F :=
  ∑ q ∈ Finset.range r.n, r.w q * ((x (i + 1) - x i) * (1 / 2)) * lineInt r' x' i' b (Function.update v a (inCell x r q i)) G

omit [LinearOrder F] [IsStrictOrderedRing F] [Fintype σ] in
theorem areaInt_add (r r' : Rule F) (x x' : Nat → F) (i i' : Nat) (a b : σ) (v : σ → F) (G H : MvPolynomial σ F) :
    areaInt r r' x x' i i' a b v (G + H) = areaInt r r' x x' i i' a b v G + areaInt r r' x x' i i' a b v H := by
  simp only [areaInt, lineInt_add, mul_add, Finset.sum_add_distrib]

omit [LinearOrder F] [IsStrictOrderedRing F] [Fintype σ] in
theorem areaInt_sub (r r' : Rule F) (x x' : Nat → F) (i i' : Nat) (a b : σ) (v : σ → F) (G H : MvPolynomial σ F) :
    areaInt r r' x x' i i' a b v (G - H) = areaInt r r' x x' i i' a b v G - areaInt r r' x x' i i' a b v H := by
  simp only [areaInt, lineInt_sub, mul_sub, Finset.sum_sub_distrib]

omit [LinearOrder F] [IsStrictOrderedRing F] [Fintype σ] in
/-- The order of the directions does not matter. -/
theorem areaInt_swap (r r' : Rule F) (x x' : Nat → F) (i i' : Nat) {a b : σ} (hab : a ≠ b) (v : σ → F) (G : MvPolynomial σ F) :
    areaInt r r' x x' i i' a b v G = areaInt r' r x' x i' i b a v G := by
  simp only [areaInt, lineInt, Finset.mul_sum]
  refine Eq.trans Finset.sum_comm ?_
  refine Finset.sum_congr rfl fun q _ => Finset.sum_congr rfl fun s _ => ?_
  rw [Function.update_comm hab]
  ring

/-- A derivative in the second direction leaves the integral over the two opposite sides. -/
theorem areaInt_pderiv_snd {r r' : Rule F} {d : Nat} (hr' : Exact r' d) (x x' : Nat → F) (i i' : Nat) {a b : σ} (hab : a ≠ b)
    (v : σ → F) (G : MvPolynomial σ F) (hG : G.degreeOf b ≤ d + 1) :
    areaInt r r' x x' i i' a b v (MvPolynomial.pderiv b G) =
      lineInt r x i a (Function.update v b (x' (i' + 1))) G - lineInt r x i a (Function.update v b (x' i')) G := by
  simp only [areaInt, lineInt_pderiv hr' x' i' b _ G hG]
  simp only [lineInt, mul_sub, Finset.sum_sub_distrib]
  simp only [Function.update_comm hab]

/-- A derivative in the first direction. -/
theorem areaInt_pderiv_fst {r r' : Rule F} {d : Nat} (hr : Exact r d) (x x' : Nat → F) (i i' : Nat) {a b : σ} (hab : a ≠ b)
    (v : σ → F) (G : MvPolynomial σ F) (hG : G.degreeOf a ≤ d + 1) :
    areaInt r r' x x' i i' a b v (MvPolynomial.pderiv a G) =
      lineInt r' x' i' b (Function.update v a (x (i + 1))) G - lineInt r' x' i' b (Function.update v a (x i)) G := by
  rw [areaInt_swap r r' x x' i i' hab, areaInt_pderiv_snd hr x' x i' i hab.symm v G hG]

/-- Two exact pairs of rules give the same value. -/
theorem areaInt_same {r r' s s' : Rule F} {d : Nat} (hr : Exact r d) (hr' : Exact r' d) (hs : Exact s d) (hs' : Exact s' d)
    (x x' : Nat → F) (i i' : Nat) {a b : σ} (hab : a ≠ b) (v : σ → F) (G : MvPolynomial σ F) (ha : G.degreeOf a ≤ d)
    (hb : G.degreeOf b ≤ d) : areaInt r r' x x' i i' a b v G = areaInt s s' x x' i i' a b v G := by
  have h1 : areaInt r r' x x' i i' a b v G = areaInt r s' x x' i i' a b v G := by
    simp only [areaInt]
    refine Finset.sum_congr rfl fun q _ => ?_
    rw [lineInt_same hr' hs' x' i' b _ G hb]
  have h2 : areaInt s' r x' x i' i b a v G = areaInt s' s x' x i' i b a v G := by
    simp only [areaInt]
    refine Finset.sum_congr rfl fun q _ => ?_
    rw [lineInt_same hr hs x i a _ G ha]
  rw [h1, areaInt_swap r s' x x' i i' hab, h2, areaInt_swap s' s x' x i' i hab.symm]

/-! ## Pull-backs -/

/-- The chain rule. -/
theorem pderiv_bind (Φ : σ → MvPolynomial σ F) (b : σ) (P : MvPolynomial σ F) :
    MvPolynomial.pderiv b (MvPolynomial.bind₁ Φ P) =
      ∑ a, MvPolynomial.bind₁ Φ (MvPolynomial.pderiv a P) * MvPolynomial.pderiv b (Φ a) := by
  induction P using MvPolynomial.induction_on with
  | C c => simp
  | add p q hp hq => simp only [map_add, hp, hq, add_mul, Finset.sum_add_distrib]
  | mul_X p c hp =>
    simp only [map_mul, MvPolynomial.bind₁_X_right, Derivation.leibniz, smul_eq_mul, hp, MvPolynomial.pderiv_X, map_add, add_mul,
      Finset.sum_add_distrib, Finset.mul_sum]
    congr 1
    · rw [Finset.sum_eq_single c]
      · rw [Pi.single_eq_same, map_one]; ring
      · intro a _ ha
        rw [Pi.single_eq_of_ne (fun h => ha h.symm), map_zero]; ring
      · simp
    · refine Finset.sum_congr rfl fun a _ => ?_
      ring

omit [LinearOrder F] [IsStrictOrderedRing F] [Fintype σ] in
/-- Second derivatives commute. -/
theorem pderiv_comm (a b : σ) (P : MvPolynomial σ F) :
    MvPolynomial.pderiv a (MvPolynomial.pderiv b P) = MvPolynomial.pderiv b (MvPolynomial.pderiv a P) := by
  induction P using MvPolynomial.induction_on with
  | C c => simp
  | add p q hp hq => simp only [map_add, hp, hq]
  | mul_X p c hp =>
    simp only [Derivation.leibniz, smul_eq_mul, map_add, hp, MvPolynomial.pderiv_X]
    have : ∀ e f : σ, MvPolynomial.pderiv e (Pi.single (M := fun _ => MvPolynomial σ F) f 1 c) = 0 := by
      intro e f
      by_cases h : c = f
      · subst h; simp
      · rw [Pi.single_eq_of_ne h, map_zero]
    rw [this, this]
    ring

end

/-! ## Arrays -/

theorem written_loop3 {α : Type*} {I J K : Nat} {m : Nat → Nat → Nat → Nat} {g : Nat → Nat → Nat → α} {i j k : Nat}
    (hi : i < I) (hj : j < J) (hk : k < K)
    (hinj : ∀ i' j' k', i' < I → j' < J → k' < K → m i' j' k' = m i j k → i' = i ∧ j' = j ∧ k' = k) :
    written (loop3 I J K fun i j k => (m i j k, g i j k)) (m i j k) = some (g i j k) := by
  have : (loop3 I J K fun i j k => (m i j k, g i j k)).filter (fun w => w.1 = m i j k) = [(m i j k, g i j k)] := by
    unfold loop3
    rw [List.filter_flatMap, flatMap_unique _ _ k List.nodup_range (by simpa using hk)]
    · rw [List.filter_flatMap, flatMap_unique _ _ j List.nodup_range (by simpa using hj)]
      · rw [List.map_eq_flatMap, List.filter_flatMap,
          flatMap_unique _ _ i List.nodup_range (by simpa using hi)]
        · simp
        · intro b hb hne
          simp only [List.mem_range] at hb
          simp only [List.filter_eq_nil_iff, List.mem_singleton, decide_eq_true_eq]
          rintro _ rfl h
          exact hne (hinj b j k hb hj hk h).1
      · intro b hb hne
        simp only [List.mem_range] at hb
        simp only [List.filter_eq_nil_iff, List.mem_map, List.mem_range, decide_eq_true_eq]
        rintro _ ⟨a, ha, rfl⟩ h
        exact hne (hinj a b k ha hb hk h).2.1
    · intro b hb hne
      simp only [List.mem_range] at hb
      simp only [List.filter_eq_nil_iff, List.mem_flatMap, List.mem_map, List.mem_range, decide_eq_true_eq]
      rintro _ ⟨c, hc, a, ha, rfl⟩ h
      exact hne (hinj a c b ha hc hb h).2.2
  rw [written, this]
  rfl

theorem written_loop2 {α : Type*} {I J : Nat} {m : Nat → Nat → Nat} {g : Nat → Nat → α} {i j : Nat}
    (hi : i < I) (hj : j < J) (hinj : ∀ i' j', i' < I → j' < J → m i' j' = m i j → i' = i ∧ j' = j) :
    written (loop2 I J fun i j => (m i j, g i j)) (m i j) = some (g i j) := by
  have h := written_loop3 (K := 1) (m := fun i j _ => m i j) (g := fun i j _ => g i j) hi hj Nat.zero_lt_one
    (fun i' j' k' a b c e => ⟨(hinj i' j' a b e).1, (hinj i' j' a b e).2, by omega⟩)
  have e : loop3 I J 1 (fun i j _ => (m i j, g i j)) = loop2 I J fun i j => (m i j, g i j) := by
    simp [loop3, loop2, List.range_succ]
  rw [e] at h
  exact h

end Mifem.Disc
