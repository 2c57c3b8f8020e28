import Verif.Lemmas.Discretize
import Verif.Lemmas.Incidence2D

/-! # C52: in 2D discretization commutes with the derivatives -/

namespace Mifem.Props
open Mifem.Disc

section
variable {F : Type*} [Field F] [LinearOrder F] [IsStrictOrderedRing F]

/-- The mapping of the element is polynomial, the matrix holds its derivatives, and elements marked as orthogonal have
a diagonal matrix. -/
structure PolyEl2 (e : Disc.Two.El F) (Φ : Fin 2 → MvPolynomial (Fin 2) F) : Prop where
  map : ∀ v c, e.map v c = MvPolynomial.eval v (Φ c)
  J : ∀ v a b, e.J v a b = MvPolynomial.eval v (MvPolynomial.pderiv b (Φ a))
  orth : e.orth = true → ∀ v, e.J v 0 1 = 0 ∧ e.J v 1 0 = 0

section arrays
variable (p0 p1 : Nat) (x0 x1 : Nat → F) (r0 r1 : Rule F) (e : Disc.Two.El F)

/-- Spec: the component of the pulled-back field along reference direction `b`. -/
def tangent2 (f : (Fin 2 → F) → Fin 2 → F) (b : Fin 2) (v : Fin 2 → F) : F :=
  e.J v 0 b * f (e.map v) 0 + e.J v 1 b * f (e.map v) 1

/-- Spec: the flux density across a line of constant `v 0` (`b = 0`) or `v 1` (`b = 1`). -/
def normal2 (f : (Fin 2 → F) → Fin 2 → F) : Fin 2 → (Fin 2 → F) → F :=
  ![fun v => e.J v 1 1 * f (e.map v) 0 - e.J v 0 1 * f (e.map v) 1,
    fun v => e.J v 0 0 * f (e.map v) 1 - e.J v 1 0 * f (e.map v) 0]

/-- Spec: the quadrature of `g` over an edge in the first direction. -/
def edgeX (x : Nat → F) (r : Rule F) (g : (Fin 2 → F) → F) (i : Nat) (y : F) : F :=
  ∑ q ∈ Finset.range r.n, r.w q * ((x (i + 1) - x i) * (1 / 2)) * g ![inCell x r q i, y]

/-- Spec: the quadrature of `g` over an edge in the second direction. -/
def edgeY (x : Nat → F) (r : Rule F) (g : (Fin 2 → F) → F) (y : F) (j : Nat) : F :=
  ∑ q ∈ Finset.range r.n, r.w q * ((x (j + 1) - x j) * (1 / 2)) * g ![y, inCell x r q j]

omit [LinearOrder F] [IsStrictOrderedRing F] in
theorem cellNodes_eq (x : Nat → F) (r : Rule F) {q i : Nat} (hq : q < r.n) :
    Disc.Two.cellNodes x r (q + r.n * i) = inCell x r q i := by
  have h1 : (q + r.n * i) / r.n = i := fIdx2_div hq
  have h2 : (q + r.n * i) % r.n = q := fIdx2_mod hq
  rw [Disc.Two.cellNodes, h1, h2, inCell]
  ring

omit [LinearOrder F] [IsStrictOrderedRing F] in
theorem nodeX_eq {q i j : Nat} (hq : q < r0.n) (hi : i < p0) :
    Disc.Two.nodeX p0 x0 x1 r0 q (fIdx2 p0 i j) = ![inCell x0 r0 q i, x1 j] := by
  rw [Disc.Two.nodeX, fIdx2_div hi, tile]
  have : (q + r0.n * fIdx2 p0 i j) % (r0.n * p0) = q + r0.n * i := by
    have e : q + r0.n * fIdx2 p0 i j = q + r0.n * i + (r0.n * p0) * j := by simp only [fIdx2]; ring
    rw [e, Nat.add_mul_mod_self_left, Nat.mod_eq_of_lt]
    exact fIdx2_lt hq hi
  rw [this, cellNodes_eq x0 r0 hq]

omit [LinearOrder F] [IsStrictOrderedRing F] in
theorem nodeY_eq {q i j : Nat} (hq : q < r1.n) (hi : i < p0 + 1) :
    Disc.Two.nodeY p0 x0 x1 r1 q (fIdx2 (p0 + 1) i j) = ![x0 i, inCell x1 r1 q j] := by
  rw [Disc.Two.nodeY, tile, rep, fIdx2_div hi, fIdx2_mod hi, cellNodes_eq x1 r1 hq]

variable {e} (he : e.orth = true → ∀ v, e.J v 0 1 = 0 ∧ e.J v 1 0 = 0)
include he

omit [LinearOrder F] [IsStrictOrderedRing F] in
theorem innerX_eq (f : (Fin 2 → F) → Fin 2 → F) {i j : Nat} (hi : i < p0) :
    Disc.Two.innerX p0 x0 x1 r0 e f (fIdx2 p0 i j) = edgeX x0 r0 (tangent2 e f 0) i (x1 j) := by
  rw [Disc.Two.innerX, edgeX]
  refine Finset.sum_congr rfl fun q hq => ?_
  rw [nodeX_eq p0 x0 x1 r0 (by simpa using hq) hi, Disc.Two.sizeX, tile, fIdx2_mod hi]
  dsimp only [tangent2]
  by_cases h : e.orth = true
  · rw [if_pos h, (he h _).2]; ring
  · rw [if_neg h]; ring

omit [LinearOrder F] [IsStrictOrderedRing F] in
theorem innerY_eq (f : (Fin 2 → F) → Fin 2 → F) {i j : Nat} (hi : i < p0 + 1) :
    Disc.Two.innerY p0 x0 x1 r1 e f (fIdx2 (p0 + 1) i j) = edgeY x1 r1 (tangent2 e f 1) (x0 i) j := by
  rw [Disc.Two.innerY, edgeY]
  refine Finset.sum_congr rfl fun q hq => ?_
  rw [nodeY_eq p0 x0 x1 r1 (by simpa using hq) hi, Disc.Two.sizeY, rep, fIdx2_div hi]
  dsimp only [tangent2]
  by_cases h : e.orth = true
  · rw [if_pos h, (he h _).1]; ring
  · rw [if_neg h]; ring

omit [LinearOrder F] [IsStrictOrderedRing F] in
theorem outerX_eq (f : (Fin 2 → F) → Fin 2 → F) {i j : Nat} (hi : i < p0) :
    Disc.Two.outerX p0 x0 x1 r0 e f (fIdx2 p0 i j) = edgeX x0 r0 (normal2 e f 1) i (x1 j) := by
  rw [Disc.Two.outerX, edgeX]
  refine Finset.sum_congr rfl fun q hq => ?_
  rw [nodeX_eq p0 x0 x1 r0 (by simpa using hq) hi, Disc.Two.sizeX, tile, fIdx2_mod hi]
  dsimp only [normal2, Matrix.cons_val_one, Matrix.cons_val_zero]
  by_cases h : e.orth = true
  · rw [if_pos h, (he h _).2]; ring
  · rw [if_neg h]; ring

omit [LinearOrder F] [IsStrictOrderedRing F] in
theorem outerY_eq (f : (Fin 2 → F) → Fin 2 → F) {i j : Nat} (hi : i < p0 + 1) :
    Disc.Two.outerY p0 x0 x1 r1 e f (fIdx2 (p0 + 1) i j) = edgeY x1 r1 (normal2 e f 0) (x0 i) j := by
  rw [Disc.Two.outerY, edgeY]
  refine Finset.sum_congr rfl fun q hq => ?_
  rw [nodeY_eq p0 x0 x1 r1 (by simpa using hq) hi, Disc.Two.sizeY, rep, fIdx2_div hi]
  dsimp only [normal2, Matrix.cons_val_one, Matrix.cons_val_zero]
  by_cases h : e.orth = true
  · rw [if_pos h, (he h _).1]; ring
  · rw [if_neg h]; ring

omit [LinearOrder F] [IsStrictOrderedRing F] in
theorem discInner_c0 (f : (Fin 2 → F) → Fin 2 → F) {i j : Nat} (hi : i < p0) (hj : j < p1 + 1) :
    (Disc.Two.discInner p0 p1 x0 x1 r0 r1 e f)[Mifem.Two.lnI1c0 p0 p1 i j]? = some (edgeX x0 r0 (tangent2 e f 0) i (x1 j)) := by
  have h : Mifem.Two.lnI1c0 p0 p1 i j < Mifem.Two.nbI1c0 p0 p1 := Mifem.Two.lnI1c0_lt hi hj
  rw [Disc.Two.discInner, List.getElem?_append_left (by simpa using h), List.getElem?_map, List.getElem?_range h, Option.map_some]
  exact congrArg some (innerX_eq p0 x0 x1 r0 he f hi)

omit [LinearOrder F] [IsStrictOrderedRing F] in
theorem discInner_c1 (f : (Fin 2 → F) → Fin 2 → F) {i j : Nat} (hi : i < p0 + 1) (hj : j < p1) :
    (Disc.Two.discInner p0 p1 x0 x1 r0 r1 e f)[Mifem.Two.lnI1c1 p0 p1 i j]? = some (edgeY x1 r1 (tangent2 e f 1) (x0 i) j) := by
  have h : fIdx2 (p0 + 1) i j < Mifem.Two.nbI1c1 p0 p1 := fIdx2_lt hi hj
  rw [Disc.Two.discInner, List.getElem?_append_right (by simp [Mifem.Two.lnI1c1]), Mifem.Two.lnI1c1, List.length_map, List.length_range,
    Nat.add_sub_cancel, List.getElem?_map, List.getElem?_range h, Option.map_some]
  exact congrArg some (innerY_eq p0 x0 x1 r1 he f hi)

omit [LinearOrder F] [IsStrictOrderedRing F] in
theorem discOuter_c0 (f : (Fin 2 → F) → Fin 2 → F) {i j : Nat} (hi : i < p0 + 1) (hj : j < p1) :
    (Disc.Two.discOuter p0 p1 x0 x1 r0 r1 e f)[Mifem.Two.lnO1c0 p0 p1 i j]? = some (edgeY x1 r1 (normal2 e f 0) (x0 i) j) := by
  have h : Mifem.Two.lnO1c0 p0 p1 i j < Mifem.Two.nbO1c0 p0 p1 := Mifem.Two.lnO1c0_lt hi hj
  rw [Disc.Two.discOuter, List.getElem?_append_left (by simpa using h), List.getElem?_map, List.getElem?_range h, Option.map_some]
  exact congrArg some (outerY_eq p0 x0 x1 r1 he f hi)

omit [LinearOrder F] [IsStrictOrderedRing F] in
theorem discOuter_c1 (f : (Fin 2 → F) → Fin 2 → F) {i j : Nat} (hi : i < p0) (hj : j < p1 + 1) :
    (Disc.Two.discOuter p0 p1 x0 x1 r0 r1 e f)[Mifem.Two.lnO1c1 p0 p1 i j]? = some (edgeX x0 r0 (normal2 e f 1) i (x1 j)) := by
  have h : fIdx2 p0 i j < Mifem.Two.nbO1c1 p0 p1 := fIdx2_lt hi hj
  rw [Disc.Two.discOuter, List.getElem?_append_right (by simp [Mifem.Two.lnO1c1]), Mifem.Two.lnO1c1, List.length_map, List.length_range,
    Nat.add_sub_cancel, List.getElem?_map, List.getElem?_range h, Option.map_some]
  exact congrArg some (outerX_eq p0 x0 x1 r0 he f hi)

omit he

omit [LinearOrder F] [IsStrictOrderedRing F] in
theorem disc0_at2 (f : (Fin 2 → F) → F) {i j : Nat} (hi : i < p0 + 1) (hj : j < p1 + 1) :
    (Disc.Two.disc0 p0 p1 x0 x1 e f)[Mifem.Two.ln0 p0 p1 i j]? = some (f (e.map ![x0 i, x1 j])) := by
  have h : Mifem.Two.ln0 p0 p1 i j < Mifem.Two.nb0 p0 p1 := fIdx2_lt hi hj
  rw [Disc.Two.disc0, List.getElem?_map, List.getElem?_range h, Option.map_some, Mifem.Two.ln0, fIdx2_mod hi, fIdx2_div hi]

theorem disc2_at2 (f : (Fin 2 → F) → F) {i j : Nat} (hi : i < p0) (hj : j < p1) :
    (Disc.Two.disc2 p0 p1 x0 x1 r0 r1 e f)[Mifem.Two.ln2 p0 p1 i j]? = some (
      ∑ s ∈ Finset.range r0.n, ∑ t ∈ Finset.range r1.n, r0.w s * ((x0 (i + 1) - x0 i) * (1 / 2)) *
        (r1.w t * ((x1 (j + 1) - x1 j) * (1 / 2)) * (f (e.map ![inCell x0 r0 s i, inCell x1 r1 t j]) *
          e.det ![inCell x0 r0 s i, inCell x1 r1 t j]))) := by
  have h : Mifem.Two.ln2 p0 p1 i j < Mifem.Two.nb2 p0 p1 := fIdx2_lt hi hj
  have hc : Mifem.Two.ln2 p0 p1 i j = i + j * p0 := by simp only [Mifem.Two.ln2, fIdx2]; ring
  rw [Disc.Two.disc2, List.getElem?_map, List.getElem?_range h, Option.map_some, Disc.Two.cells2, hc,
    written_loop2 (m := fun i j => i + j * p0) (g := fun i j => ((i, j), (x0 (i + 1) - x0 i) * (x1 (j + 1) - x1 j) * (1 / 4))) hi hj]
  · dsimp only
    congr 1
    refine Finset.sum_congr rfl fun s _ => Finset.sum_congr rfl fun t _ => ?_
    ring
  · intro i' j' hi' _ hh
    refine fIdx2_inj (a := p0) hi hi' ?_
    simp only [fIdx2, Nat.mul_comm p0]
    exact hh
end arrays

/-! ## Polynomial fields -/

theorem upd2_0 (a b t : F) : Function.update ![a, b] 0 t = ![t, b] := by
  funext c; fin_cases c <;> simp

theorem upd2_1 (a b t : F) : Function.update ![a, b] 1 t = ![a, t] := by
  funext c; fin_cases c <;> simp

section poly
variable (Φ : Fin 2 → MvPolynomial (Fin 2) F) (P : MvPolynomial (Fin 2) F) (U : Fin 2 → MvPolynomial (Fin 2) F)

/-- The pulled-back function, tangential components and flux densities as polynomials of the reference coordinates. -/
noncomputable def pull2 : MvPolynomial (Fin 2) F := MvPolynomial.bind₁ Φ P
@[inherit_doc pull2] noncomputable def pullT2 (b : Fin 2) : MvPolynomial (Fin 2) F :=
  MvPolynomial.pderiv b (Φ 0) * MvPolynomial.bind₁ Φ (U 0) + MvPolynomial.pderiv b (Φ 1) * MvPolynomial.bind₁ Φ (U 1)
@[inherit_doc pull2] noncomputable def pullN2 : Fin 2 → MvPolynomial (Fin 2) F :=
  ![MvPolynomial.pderiv 1 (Φ 1) * MvPolynomial.bind₁ Φ (U 0) - MvPolynomial.pderiv 1 (Φ 0) * MvPolynomial.bind₁ Φ (U 1),
    MvPolynomial.pderiv 0 (Φ 0) * MvPolynomial.bind₁ Φ (U 1) - MvPolynomial.pderiv 0 (Φ 1) * MvPolynomial.bind₁ Φ (U 0)]

theorem pull2_grad (b : Fin 2) : MvPolynomial.pderiv b (pull2 Φ P) =
    pullT2 Φ ![MvPolynomial.pderiv 0 P, MvPolynomial.pderiv 1 P] b := by
  rw [pull2, pderiv_bind, Fin.sum_univ_two, pullT2]
  simp only [Matrix.cons_val_zero, Matrix.cons_val_one]
  ring

/-- Pull-back commutes with rot. -/
theorem pull2_rot : MvPolynomial.pderiv 0 (pullT2 Φ U 1) - MvPolynomial.pderiv 1 (pullT2 Φ U 0) =
    MvPolynomial.bind₁ Φ (MvPolynomial.pderiv 0 (U 1) - MvPolynomial.pderiv 1 (U 0)) *
      (MvPolynomial.pderiv 0 (Φ 0) * MvPolynomial.pderiv 1 (Φ 1) - MvPolynomial.pderiv 1 (Φ 0) * MvPolynomial.pderiv 0 (Φ 1)) := by
  simp only [pullT2, map_add, map_sub, Derivation.leibniz, smul_eq_mul, pderiv_bind, Fin.sum_univ_two,
    pderiv_comm (0 : Fin 2) 1]
  ring

/-- Pull-back commutes with the divergence. -/
theorem pull2_div : MvPolynomial.pderiv 0 (pullN2 Φ U 0) + MvPolynomial.pderiv 1 (pullN2 Φ U 1) =
    MvPolynomial.bind₁ Φ (MvPolynomial.pderiv 0 (U 0) + MvPolynomial.pderiv 1 (U 1)) *
      (MvPolynomial.pderiv 0 (Φ 0) * MvPolynomial.pderiv 1 (Φ 1) - MvPolynomial.pderiv 1 (Φ 0) * MvPolynomial.pderiv 0 (Φ 1)) := by
  simp only [pullN2, Matrix.cons_val_zero, Matrix.cons_val_one, map_add, map_sub, Derivation.leibniz, smul_eq_mul,
    pderiv_bind, Fin.sum_univ_two, pderiv_comm (0 : Fin 2) 1]
  ring

variable {Φ} {e : Disc.Two.El F} (he : PolyEl2 e Φ)
include he

omit [LinearOrder F] [IsStrictOrderedRing F] in
theorem eval_pull2 (v : Fin 2 → F) : MvPolynomial.eval (e.map v) P = MvPolynomial.eval v (pull2 Φ P) := by
  rw [pull2]
  induction P using MvPolynomial.induction_on with
  | C a => simp
  | add p q hp hq => simp only [map_add, hp, hq]
  | mul_X p c hp => simp only [map_mul, hp, MvPolynomial.eval_X, MvPolynomial.bind₁_X_right, he.map]

omit [LinearOrder F] [IsStrictOrderedRing F] in
theorem tangent2_eq (b : Fin 2) (v : Fin 2 → F) : tangent2 e (fieldP U) b v = MvPolynomial.eval v (pullT2 Φ U b) := by
  simp only [tangent2, fieldP, he.J, eval_pull2 _ he, pull2, pullT2, map_add, map_mul]

omit [LinearOrder F] [IsStrictOrderedRing F] in
theorem normal2_eq (b : Fin 2) (v : Fin 2 → F) : normal2 e (fieldP U) b v = MvPolynomial.eval v (pullN2 Φ U b) := by
  fin_cases b <;> simp [normal2, fieldP, he.J, eval_pull2 _ he, pull2, pullN2]

omit [LinearOrder F] [IsStrictOrderedRing F] in
theorem det2_eq (v : Fin 2 → F) : e.det v = MvPolynomial.eval v
    (MvPolynomial.pderiv 0 (Φ 0) * MvPolynomial.pderiv 1 (Φ 1) - MvPolynomial.pderiv 1 (Φ 0) * MvPolynomial.pderiv 0 (Φ 1)) := by
  simp only [Disc.Two.El.det, he.J, map_sub, map_mul]

omit he in
theorem edgeX_poly (x : Nat → F) (r : Rule F) {g : (Fin 2 → F) → F} {G : MvPolynomial (Fin 2) F}
    (h : ∀ v, g v = MvPolynomial.eval v G) (i : Nat) (a y : F) : edgeX x r g i y = lineInt r x i 0 ![a, y] G := by
  simp only [edgeX, lineInt, h, upd2_0]

omit he in
theorem edgeY_poly (x : Nat → F) (r : Rule F) {g : (Fin 2 → F) → F} {G : MvPolynomial (Fin 2) F}
    (h : ∀ v, g v = MvPolynomial.eval v G) (j : Nat) (a y : F) : edgeY x r g y j = lineInt r x j 1 ![y, a] G := by
  simp only [edgeY, lineInt, h, upd2_1]

omit he in
theorem cell2_poly (x0 x1 : Nat → F) (r0 r1 : Rule F) {g : (Fin 2 → F) → F} {G : MvPolynomial (Fin 2) F}
    (h : ∀ v, g v = MvPolynomial.eval v G) (i j : Nat) (a b : F) :
    (∑ s ∈ Finset.range r0.n, ∑ t ∈ Finset.range r1.n, r0.w s * ((x0 (i + 1) - x0 i) * (1 / 2)) *
        (r1.w t * ((x1 (j + 1) - x1 j) * (1 / 2)) * g ![inCell x0 r0 s i, inCell x1 r1 t j])) =
      areaInt r0 r1 x0 x1 i j 0 1 ![a, b] G := by
  simp only [areaInt, lineInt, Finset.mul_sum, h, upd2_0, upd2_1]

variable (p0 p1 : Nat) (x0 x1 : Nat → F)

/-- C52: the discretized gradient of a function is the gradient (incidence matrix) of the discretized function. -/
theorem c52_grad (r0 r1 : Rule F) (d : Nat) (h0 : Exact r0 d) (h1 : Exact r1 d) (hP : ∀ c, (pull2 Φ P).degreeOf c ≤ d + 1)
    (r : Nat) (hr : r < Mifem.Two.nbI1 p0 p1) :
    (Disc.Two.discInner p0 p1 x0 x1 r0 r1 e (gradP P))[r]? = some (applyM (Mifem.Two.nb0 p0 p1) (Mifem.Two.gradInner p0 p1)
      (fun k => ((Disc.Two.disc0 p0 p1 x0 x1 e fun z => MvPolynomial.eval z P)[k]?).getD 0) r) := by
  have hU : gradP P = fieldP ![MvPolynomial.pderiv 0 P, MvPolynomial.pderiv 1 P] := by
    funext z c; fin_cases c <;> simp [gradP, fieldP]
  have tan : ∀ b v, tangent2 e (gradP P) b v = MvPolynomial.eval v (MvPolynomial.pderiv b (pull2 Φ P)) := by
    intro b v
    rw [hU, tangent2_eq _ he, pull2_grad]
  rcases Mifem.Two.lnI1_cases hr with ⟨i, j, hi, hj, rfl⟩ | ⟨i, j, hi, hj, rfl⟩
  · rw [discInner_c0 p0 p1 x0 x1 r0 r1 he.orth _ hi hj, Mifem.Two.gradInner_c0 _ hi hj, disc0_at2 _ _ _ _ _ (by omega) hj,
      disc0_at2 _ _ _ _ _ (by omega) hj, edgeX_poly x0 r0 (tan 0) i 0, lineInt_pderiv h0 _ _ _ _ _ (hP 0), upd2_0, upd2_0]
    simp only [Option.getD_some, eval_pull2 _ he]
  · rw [discInner_c1 p0 p1 x0 x1 r0 r1 he.orth _ hi hj, Mifem.Two.gradInner_c1 _ hi hj, disc0_at2 _ _ _ _ _ hi (by omega),
      disc0_at2 _ _ _ _ _ hi (by omega), edgeY_poly x1 r1 (tan 1) j 0, lineInt_pderiv h1 _ _ _ _ _ (hP 1), upd2_1, upd2_1]
    simp only [Option.getD_some, eval_pull2 _ he]

/-- C52: the same for the curl of a scalar and outer forms. -/
theorem c52_curl (r0 r1 : Rule F) (d : Nat) (h0 : Exact r0 d) (h1 : Exact r1 d) (hP : ∀ c, (pull2 Φ P).degreeOf c ≤ d + 1)
    (r : Nat) (hr : r < Mifem.Two.nbO1 p0 p1) :
    (Disc.Two.discOuter p0 p1 x0 x1 r0 r1 e (curlP P))[r]? = some (applyM (Mifem.Two.nb0 p0 p1) (Mifem.Two.curlOuter p0 p1)
      (fun k => ((Disc.Two.disc0 p0 p1 x0 x1 e fun z => MvPolynomial.eval z P)[k]?).getD 0) r) := by
  have n0 : ∀ v, normal2 e (curlP P) 0 v = MvPolynomial.eval v (MvPolynomial.pderiv 1 (pull2 Φ P)) := by
    intro v
    rw [pull2_grad, ← tangent2_eq _ he]
    simp [normal2, curlP, tangent2, fieldP]
    ring
  have n1 : ∀ v, normal2 e (curlP P) 1 v = MvPolynomial.eval v (MvPolynomial.pderiv 0 (-pull2 Φ P)) := by
    intro v
    rw [map_neg, map_neg, pull2_grad, ← tangent2_eq _ he]
    simp [normal2, curlP, tangent2, fieldP]
    ring
  have hN : (-pull2 Φ P).degreeOf 0 ≤ d + 1 := by rw [MvPolynomial.degreeOf_neg]; exact hP 0
  rcases Mifem.Two.lnO1_cases hr with ⟨i, j, hi, hj, rfl⟩ | ⟨i, j, hi, hj, rfl⟩
  · rw [discOuter_c0 p0 p1 x0 x1 r0 r1 he.orth _ hi hj, Mifem.Two.curlOuter_c0 _ hi hj, disc0_at2 _ _ _ _ _ hi (by omega),
      disc0_at2 _ _ _ _ _ hi (by omega), edgeY_poly x1 r1 n0 j 0, lineInt_pderiv h1 _ _ _ _ _ (hP 1), upd2_1, upd2_1]
    simp only [Option.getD_some, eval_pull2 _ he]
  · rw [discOuter_c1 p0 p1 x0 x1 r0 r1 he.orth _ hi hj, Mifem.Two.curlOuter_c1 _ hi hj, disc0_at2 _ _ _ _ _ (by omega) hj,
      disc0_at2 _ _ _ _ _ (by omega) hj, edgeX_poly x0 r0 n1 i 0, lineInt_pderiv h0 _ _ _ _ _ hN, upd2_0, upd2_0]
    simp only [Option.getD_some, eval_pull2 _ he, map_neg]
    congr 1
    ring

/-- C52: the discretized rot of a field is the rot (incidence matrix) of the discretized field.  The rules of the 2-form
(`r0'`, `r1'`) need not be those of the 1-form. -/
theorem c52_rot (r0 r1 r0' r1' : Rule F) (d : Nat) (h0 : Exact r0 d) (h1 : Exact r1 d) (h0' : Exact r0' d) (h1' : Exact r1' d)
    (hU : ∀ b c, (pullT2 Φ U b).degreeOf c ≤ d) (r : Nat) (hr : r < Mifem.Two.nb2 p0 p1) :
    (Disc.Two.disc2 p0 p1 x0 x1 r0' r1' e (rotP U))[r]? = some (applyM (Mifem.Two.nbI1 p0 p1) (Mifem.Two.rotInner p0 p1)
      (fun k => ((Disc.Two.discInner p0 p1 x0 x1 r0 r1 e (fieldP U))[k]?).getD 0) r) := by
  obtain ⟨i, j, hi, hj, rfl⟩ := Mifem.Two.ln2_cases hr
  rw [disc2_at2 _ _ _ _ _ _ _ hi hj, Mifem.Two.rotInner_row _ hi hj,
    discInner_c0 _ _ _ _ _ _ he.orth _ hi (by omega), discInner_c0 _ _ _ _ _ _ he.orth _ hi (by omega),
    discInner_c1 _ _ _ _ _ _ he.orth _ (by omega) hj, discInner_c1 _ _ _ _ _ _ he.orth _ (by omega) hj]
  have hg : ∀ v, rotP U (e.map v) * e.det v = MvPolynomial.eval v
      (MvPolynomial.pderiv 0 (pullT2 Φ U 1) - MvPolynomial.pderiv 1 (pullT2 Φ U 0)) := by
    intro v
    rw [pull2_rot, map_mul, ← det2_eq he, ← pull2, ← eval_pull2 _ he, map_sub]
    rfl
  rw [cell2_poly x0 x1 r0' r1' (g := fun v => rotP U (e.map v) * e.det v) hg i j 0 0, areaInt_sub,
    areaInt_pderiv_fst h0' x0 x1 i j (by decide) _ _ ((hU 1 0).trans (by omega)),
    areaInt_pderiv_snd h1' x0 x1 i j (by decide) _ _ ((hU 0 1).trans (by omega))]
  simp only [upd2_0, upd2_1, Option.getD_some, edgeX_poly x0 r0 (tangent2_eq U he 0) i 0, edgeY_poly x1 r1 (tangent2_eq U he 1) j 0,
    lineInt_same h0' h0 x0 i 0 _ _ (hU 0 0), lineInt_same h1' h1 x1 j 1 _ _ (hU 1 1)]
  congr 1
  ring

/-- C52: the same for the divergence and outer forms. -/
theorem c52_div (r0 r1 r0' r1' : Rule F) (d : Nat) (h0 : Exact r0 d) (h1 : Exact r1 d) (h0' : Exact r0' d) (h1' : Exact r1' d)
    (hU : ∀ b c, (pullN2 Φ U b).degreeOf c ≤ d) (r : Nat) (hr : r < Mifem.Two.nb2 p0 p1) :
    (Disc.Two.disc2 p0 p1 x0 x1 r0' r1' e (divP U))[r]? = some (applyM (Mifem.Two.nbO1 p0 p1) (Mifem.Two.divOuter p0 p1)
      (fun k => ((Disc.Two.discOuter p0 p1 x0 x1 r0 r1 e (fieldP U))[k]?).getD 0) r) := by
  obtain ⟨i, j, hi, hj, rfl⟩ := Mifem.Two.ln2_cases hr
  rw [disc2_at2 _ _ _ _ _ _ _ hi hj, Mifem.Two.divOuter_row _ hi hj,
    discOuter_c0 _ _ _ _ _ _ he.orth _ (by omega) hj, discOuter_c0 _ _ _ _ _ _ he.orth _ (by omega) hj,
    discOuter_c1 _ _ _ _ _ _ he.orth _ hi (by omega), discOuter_c1 _ _ _ _ _ _ he.orth _ hi (by omega)]
  have hg : ∀ v, divP U (e.map v) * e.det v = MvPolynomial.eval v
      (MvPolynomial.pderiv 0 (pullN2 Φ U 0) + MvPolynomial.pderiv 1 (pullN2 Φ U 1)) := by
    intro v
    rw [pull2_div, map_mul, ← det2_eq he, ← pull2, ← eval_pull2 _ he, map_add]
    rfl
  rw [cell2_poly x0 x1 r0' r1' (g := fun v => divP U (e.map v) * e.det v) hg i j 0 0, areaInt_add,
    areaInt_pderiv_fst h0' x0 x1 i j (by decide) _ _ ((hU 0 0).trans (by omega)),
    areaInt_pderiv_snd h1' x0 x1 i j (by decide) _ _ ((hU 1 1).trans (by omega))]
  simp only [upd2_0, upd2_1, Option.getD_some, edgeX_poly x0 r0 (normal2_eq U he 1) i 0, edgeY_poly x1 r1 (normal2_eq U he 0) j 0,
    lineInt_same h0' h0 x0 i 0 _ _ (hU 1 0), lineInt_same h1' h1 x1 j 1 _ _ (hU 0 1)]
  congr 1
  ring

end poly
end
/-! ## A curved element -/

/-- Simpson's rule as arrays of nodes and weights. -/
def simpsonR : Rule ℚ := ⟨3, fun q => (q : ℚ) - 1, fun q => if q = 1 then 4 / 3 else 1 / 3⟩

theorem simpsonR_exact : Exact simpsonR 3 := by
  intro k hk
  have : k = 0 ∨ k = 1 ∨ k = 2 ∨ k = 3 := by omega
  rcases this with rfl | rfl | rfl | rfl <;> simp [simpsonR, Finset.sum_range_succ] <;> norm_num

/-- The mapping `(ξ, η) ↦ (ξ + ξ η / 2, η)`. -/
noncomputable def bentΦ : Fin 2 → MvPolynomial (Fin 2) ℚ :=
  ![MvPolynomial.X 0 + MvPolynomial.C (1 / 2) * (MvPolynomial.X 0 * MvPolynomial.X 1), MvPolynomial.X 1]

/-- Its element. -/
def bent : Disc.Two.El ℚ where
  map v := ![v 0 + 1 / 2 * (v 0 * v 1), v 1]
  J v := ![![1 + 1 / 2 * v 1, 1 / 2 * v 0], ![0, 1]]
  orth := false

theorem bent_poly : PolyEl2 bent bentΦ where
  map v c := by fin_cases c <;> simp [bent, bentΦ]
  J v a b := by
    fin_cases a <;> fin_cases b <;> simp [bent, bentΦ, MvPolynomial.pderiv_X, Pi.single_apply]
  orth h := by simp [bent] at h

theorem bent_degree : ∀ c, (pull2 bentΦ (MvPolynomial.X 0 * MvPolynomial.X 1)).degreeOf c ≤ 3 + 1 := by
  intro c
  have h : ∀ a, MvPolynomial.degreeOf c (MvPolynomial.X (R := ℚ) (a : Fin 2)) ≤ 1 := by
    intro a
    rw [MvPolynomial.degreeOf_X]
    split_ifs <;> omega
  have e : pull2 bentΦ (MvPolynomial.X 0 * MvPolynomial.X 1) =
      (MvPolynomial.X 0 + MvPolynomial.C (1 / 2) * (MvPolynomial.X 0 * MvPolynomial.X 1)) * MvPolynomial.X 1 := by
    simp [pull2, bentΦ]
  rw [e]
  have m := MvPolynomial.degreeOf_mul_le c (MvPolynomial.X (R := ℚ) 0) (MvPolynomial.X 1)
  have m' := (MvPolynomial.degreeOf_C_mul_le (MvPolynomial.X (R := ℚ) 0 * MvPolynomial.X 1) c (1 / 2)).trans m
  refine (MvPolynomial.degreeOf_mul_le _ _ _).trans ?_
  have ad := MvPolynomial.degreeOf_add_le c (MvPolynomial.X (R := ℚ) 0) (MvPolynomial.C (1 / 2) * (MvPolynomial.X 0 * MvPolynomial.X 1))
  have h0 := h 0
  have h1 := h 1
  have : max (MvPolynomial.degreeOf c (MvPolynomial.X (R := ℚ) 0))
      (MvPolynomial.degreeOf c (MvPolynomial.C (1 / 2 : ℚ) * (MvPolynomial.X 0 * MvPolynomial.X 1))) ≤ 2 := max_le (by omega) (by omega)
  omega

/-- C52: the gradient of `x y` on the curved element, for polynomial degrees 2 and 3. -/
example (r : Nat) (hr : r < Mifem.Two.nbI1 2 3) :
    (Disc.Two.discInner 2 3 (fun i => (i : ℚ) - 1) (fun j => 2 / 3 * (j : ℚ) - 1) simpsonR simpsonR bent
      (gradP (MvPolynomial.X 0 * MvPolynomial.X 1)))[r]? = some (applyM (Mifem.Two.nb0 2 3) (Mifem.Two.gradInner 2 3)
      (fun k => ((Disc.Two.disc0 2 3 (fun i => (i : ℚ) - 1) (fun j => 2 / 3 * (j : ℚ) - 1) bent
        fun z => MvPolynomial.eval z (MvPolynomial.X 0 * MvPolynomial.X 1))[k]?).getD 0) r) :=
  c52_grad _ bent_poly 2 3 _ _ simpsonR simpsonR 3 simpsonR_exact simpsonR_exact bent_degree r hr

/-- Values: the tangential and normal integrals of a field on the curved element. -/
example : Disc.Two.discInner 1 1 (fun i => 2 * (i : ℚ) - 1) (fun j => 2 * (j : ℚ) - 1) simpsonR simpsonR bent
    (fun z => ![z 1, z 0]) = [-1, 3, -2, 2] ∧
    Disc.Two.discOuter 1 1 (fun i => 2 * (i : ℚ) - 1) (fun j => 2 * (j : ℚ) - 1) simpsonR simpsonR bent
    (fun z => ![z 0, 1]) = [-1, 1, 1, 3] := by
  decide +kernel

end Mifem.Props
