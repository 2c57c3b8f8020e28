import Verif.Lemmas.Discretize
import Verif.Lemmas.Incidence3D
import Verif.Props.Discretize2D

/-! # C67: in 3D discretization commutes with the derivatives -/

namespace Mifem.Props
open Mifem.Disc

section
variable {F : Type*} [Field F] [LinearOrder F] [IsStrictOrderedRing F]

/-- Elements marked as orthogonal have a diagonal matrix. -/
def OrthOK3 (e : Disc.Three.El F) : Prop := e.orth = true → ∀ v a b, a ≠ b → e.J v a b = 0

/-- The mapping of the element is polynomial, the matrix holds its derivatives, and elements marked as orthogonal have
a diagonal matrix. -/
structure PolyEl3 (e : Disc.Three.El F) (Φ : Fin 3 → MvPolynomial (Fin 3) F) : Prop where
  map : ∀ v c, e.map v c = MvPolynomial.eval v (Φ c)
  J : ∀ v a b, e.J v a b = MvPolynomial.eval v (MvPolynomial.pderiv b (Φ a))
  orth : OrthOK3 e

section arrays
variable (p0 p1 p2 : Nat) (x0 x1 x2 : Nat → F) (r0 r1 r2 : Rule F) (e : Disc.Three.El F)

/-- Spec: the component of the pulled-back field along reference direction `b`. -/
def tangent3 (f : (Fin 3 → F) → Fin 3 → F) (b : Fin 3) (v : Fin 3 → F) : F :=
  e.J v 0 b * f (e.map v) 0 + e.J v 1 b * f (e.map v) 1 + e.J v 2 b * f (e.map v) 2

/-- Spec: the flux density across a surface of constant `v b`: the determinant with column `b` replaced by the field. -/
def normal3 (f : (Fin 3 → F) → Fin 3 → F) : Fin 3 → (Fin 3 → F) → F :=
  let det (A B C : Fin 3 → F) := A 0 * (B 1 * C 2 - B 2 * C 1) - A 1 * (B 0 * C 2 - B 2 * C 0) + A 2 * (B 0 * C 1 - B 1 * C 0)
  let col v (b : Fin 3) := fun a => e.J v a b
  ![fun v => det (f (e.map v)) (col v 1) (col v 2), fun v => det (col v 0) (f (e.map v)) (col v 2),
    fun v => det (col v 0) (col v 1) (f (e.map v))]

/-- Spec: the quadrature of `g` over a curve in reference space that runs over cell `i` of `x`. -/
def edge3 (x : Nat → F) (r : Rule F) (i : Nat) (g : F → F) : F :=
  ∑ q ∈ Finset.range r.n, r.w q * ((x (i + 1) - x i) * (1 / 2)) * g (inCell x r q i)

/-- Spec: the quadrature of `g` over a cell of a surface. -/
def face3 (x y : Nat → F) (r s : Rule F) (i j : Nat) (g : F → F → F) : F := edge3 x r i fun a => edge3 y s j (g a)

omit [LinearOrder F] [IsStrictOrderedRing F] in
theorem fIdx3_mod_pair {a b i j k : Nat} (hi : i < a) (hj : j < b) : fIdx3 a b i j k % (a * b) = fIdx2 a i j := by
  have e : fIdx3 a b i j k = fIdx2 a i j + (a * b) * k := by simp only [fIdx3, fIdx2]; ring
  rw [e, Nat.add_mul_mod_self_left, Nat.mod_eq_of_lt (fIdx2_lt hi hj)]

omit [LinearOrder F] [IsStrictOrderedRing F] in
theorem fIdx3_div_pair {a b i j k : Nat} (hi : i < a) (hj : j < b) : fIdx3 a b i j k / (a * b) = k := by
  rw [← Nat.div_div_eq_div_mul, fIdx3_eq, fIdx2_div hi, fIdx2_div hj]

omit [LinearOrder F] [IsStrictOrderedRing F] in
theorem fIdx3_mod {a b i j k : Nat} (hi : i < a) : fIdx3 a b i j k % a = i := by
  rw [fIdx3_eq, fIdx2_mod hi]

omit [LinearOrder F] [IsStrictOrderedRing F] in
theorem nodeX3_eq {q i j k : Nat} (hq : q < r0.n) (hi : i < p0) (hj : j < p1 + 1) :
    Disc.Three.nodeX p0 p1 x0 x1 x2 r0 q (fIdx3 p0 (p1 + 1) i j k) = ![inCell x0 r0 q i, x1 j, x2 k] := by
  rw [Disc.Three.nodeX]
  have h : (q + r0.n * fIdx2 p0 i j) / (r0.n * p0) = j := by
    rw [← Nat.div_div_eq_div_mul, show (q + r0.n * fIdx2 p0 i j) / r0.n = fIdx2 p0 i j from fIdx2_div hq, fIdx2_div hi]
  simp only [tile, rep, reshapeF, fIdx3_mod hi, fIdx3_mod_pair hi hj, fIdx3_div_pair hi hj, h, inCell]

omit [LinearOrder F] [IsStrictOrderedRing F] in
theorem nodeY3_eq {q i j k : Nat} (hi : i < p0 + 1) (hj : j < p1) :
    Disc.Three.nodeY p0 p1 x0 x1 x2 r1 q (fIdx3 (p0 + 1) p1 i j k) = ![x0 i, inCell x1 r1 q j, x2 k] := by
  rw [Disc.Three.nodeY]
  simp only [tile, rep, Nat.mul_comm p1 (p0 + 1), fIdx3_mod hi, fIdx3_mod_pair hi hj, fIdx3_div_pair hi hj, fIdx2_div hi, inCell]

omit [LinearOrder F] [IsStrictOrderedRing F] in
theorem nodeZ3_eq {q i j k : Nat} (hi : i < p0 + 1) (hj : j < p1 + 1) :
    Disc.Three.nodeZ p0 p1 x0 x1 x2 r2 q (fIdx3 (p0 + 1) (p1 + 1) i j k) = ![x0 i, x1 j, inCell x2 r2 q k] := by
  rw [Disc.Three.nodeZ]
  have h : fIdx3 (p0 + 1) (p1 + 1) i j k / (p1 + 1) / (p0 + 1) = k := by
    rw [Nat.div_div_eq_div_mul, Nat.mul_comm (p1 + 1), fIdx3_div_pair hi hj]
  simp only [tile, rep, h, Nat.mul_comm (p1 + 1) (p0 + 1), fIdx3_mod hi, fIdx3_mod_pair hi hj, fIdx3_div_pair hi hj, fIdx2_div hi, inCell]

omit [LinearOrder F] [IsStrictOrderedRing F] in
theorem normal3_at0 (f : (Fin 3 → F) → Fin 3 → F) (v : Fin 3 → F) : normal3 e f 0 v =
    f (e.map v) 0 * (e.J v 1 1 * e.J v 2 2 - e.J v 2 1 * e.J v 1 2) - f (e.map v) 1 * (e.J v 0 1 * e.J v 2 2 - e.J v 2 1 * e.J v 0 2) +
      f (e.map v) 2 * (e.J v 0 1 * e.J v 1 2 - e.J v 1 1 * e.J v 0 2) := rfl

omit [LinearOrder F] [IsStrictOrderedRing F] in
theorem normal3_at1 (f : (Fin 3 → F) → Fin 3 → F) (v : Fin 3 → F) : normal3 e f 1 v =
    e.J v 0 0 * (f (e.map v) 1 * e.J v 2 2 - f (e.map v) 2 * e.J v 1 2) - e.J v 1 0 * (f (e.map v) 0 * e.J v 2 2 - f (e.map v) 2 * e.J v 0 2) +
      e.J v 2 0 * (f (e.map v) 0 * e.J v 1 2 - f (e.map v) 1 * e.J v 0 2) := rfl

omit [LinearOrder F] [IsStrictOrderedRing F] in
theorem normal3_at2 (f : (Fin 3 → F) → Fin 3 → F) (v : Fin 3 → F) : normal3 e f 2 v =
    e.J v 0 0 * (e.J v 1 1 * f (e.map v) 2 - e.J v 2 1 * f (e.map v) 1) - e.J v 1 0 * (e.J v 0 1 * f (e.map v) 2 - e.J v 2 1 * f (e.map v) 0) +
      e.J v 2 0 * (e.J v 0 1 * f (e.map v) 1 - e.J v 1 1 * f (e.map v) 0) := rfl

variable {e} (he : OrthOK3 e)
include he

omit [LinearOrder F] [IsStrictOrderedRing F] in
theorem disc1_c0 (f : (Fin 3 → F) → Fin 3 → F) {i j k : Nat} (hi : i < p0) (hj : j < p1 + 1) (hk : k < p2 + 1) :
    (Disc.Three.disc1 p0 p1 p2 x0 x1 x2 r0 r1 r2 e f)[Mifem.Three.ln1c0 p0 p1 p2 i j k]? =
      some (edge3 x0 r0 i fun s => tangent3 e f 0 ![s, x1 j, x2 k]) := by
  have h : Mifem.Three.ln1c0 p0 p1 p2 i j k < Mifem.Three.nb1c0 p0 p1 p2 := fIdx3_lt hi hj hk
  rw [Disc.Three.disc1, List.append_assoc, List.getElem?_append_left (by simpa using h), List.getElem?_map, List.getElem?_range h,
    Option.map_some, Disc.Three.oneX, edge3]
  congr 1
  refine Finset.sum_congr rfl fun q hq => ?_
  rw [Mifem.Three.ln1c0, nodeX3_eq p0 p1 x0 x1 x2 r0 (by simpa using hq) hi hj, Disc.Three.sizeX, tile, fIdx3_mod hi]
  dsimp only [tangent3]
  by_cases h : e.orth = true
  · rw [if_pos h, he h _ 1 0 (by decide), he h _ 2 0 (by decide)]; ring
  · rw [if_neg h]; ring

omit [LinearOrder F] [IsStrictOrderedRing F] in
theorem disc1_c1 (f : (Fin 3 → F) → Fin 3 → F) {i j k : Nat} (hi : i < p0 + 1) (hj : j < p1) (hk : k < p2 + 1) :
    (Disc.Three.disc1 p0 p1 p2 x0 x1 x2 r0 r1 r2 e f)[Mifem.Three.ln1c1 p0 p1 p2 i j k]? =
      some (edge3 x1 r1 j fun s => tangent3 e f 1 ![x0 i, s, x2 k]) := by
  have h : fIdx3 (p0 + 1) p1 i j k < Mifem.Three.nb1c1 p0 p1 p2 := fIdx3_lt hi hj hk
  rw [Disc.Three.disc1, List.append_assoc, List.getElem?_append_right (by simp [Mifem.Three.ln1c1]), Mifem.Three.ln1c1, List.length_map,
    List.length_range, Nat.add_sub_cancel, List.getElem?_append_left (by simpa using h), List.getElem?_map, List.getElem?_range h,
    Option.map_some, Disc.Three.oneY, edge3]
  congr 1
  refine Finset.sum_congr rfl fun q _ => ?_
  rw [nodeY3_eq p0 p1 x0 x1 x2 r1 hi hj, Disc.Three.sizeY, tile, rep, Nat.mul_comm p1, fIdx3_mod_pair hi hj, fIdx2_div hi]
  dsimp only [tangent3]
  by_cases h : e.orth = true
  · rw [if_pos h, he h _ 0 1 (by decide), he h _ 2 1 (by decide)]; ring
  · rw [if_neg h]; ring

omit [LinearOrder F] [IsStrictOrderedRing F] in
theorem disc1_c2 (f : (Fin 3 → F) → Fin 3 → F) {i j k : Nat} (hi : i < p0 + 1) (hj : j < p1 + 1) (hk : k < p2) :
    (Disc.Three.disc1 p0 p1 p2 x0 x1 x2 r0 r1 r2 e f)[Mifem.Three.ln1c2 p0 p1 p2 i j k]? =
      some (edge3 x2 r2 k fun s => tangent3 e f 2 ![x0 i, x1 j, s]) := by
  have h : fIdx3 (p0 + 1) (p1 + 1) i j k < Mifem.Three.nb1c2 p0 p1 p2 := fIdx3_lt hi hj hk
  rw [Disc.Three.disc1, List.getElem?_append_right (by simp [Mifem.Three.ln1c2]), Mifem.Three.ln1c2]
  simp only [List.length_append, List.length_map, List.length_range, Nat.add_sub_cancel]
  rw [List.getElem?_map, List.getElem?_range h, Option.map_some, Disc.Three.oneZ, edge3]
  congr 1
  refine Finset.sum_congr rfl fun q _ => ?_
  rw [nodeZ3_eq p0 p1 x0 x1 x2 r2 hi hj, Disc.Three.sizeZ, rep, rep, Nat.div_div_eq_div_mul, Nat.mul_comm (p1 + 1), fIdx3_div_pair hi hj]
  dsimp only [tangent3]
  by_cases h : e.orth = true
  · rw [if_pos h, he h _ 0 2 (by decide), he h _ 1 2 (by decide)]; ring
  · rw [if_neg h]; ring

theorem disc2_c0 (f : (Fin 3 → F) → Fin 3 → F) {i j k : Nat} (hi : i < p0 + 1) (hj : j < p1) (hk : k < p2) :
    (Disc.Three.disc2 p0 p1 p2 x0 x1 x2 r0 r1 r2 e f)[Mifem.Three.ln2c0 p0 p1 p2 i j k]? =
      some (face3 x1 x2 r1 r2 j k fun s t => normal3 e f 0 ![x0 i, s, t]) := by
  have h : Mifem.Three.ln2c0 p0 p1 p2 i j k < Mifem.Three.nb2c0 p0 p1 p2 := fIdx3_lt hi hj hk
  have hc : ∀ i j k, i + j * (p0 + 1) + k * (p0 + 1) * p1 = fIdx3 (p0 + 1) p1 i j k := by
    intro i j k; simp only [fIdx3]; ring
  have hw : written (Disc.Three.facesX p0 p1 p2 x1 x2) (fIdx3 (p0 + 1) p1 i j k) =
      some ((i, j, k), (x2 (k + 1) - x2 k) * (x1 (j + 1) - x1 j)) := by
    rw [Disc.Three.facesX, ← hc]
    refine written_loop3 (m := fun i j k => i + j * (p0 + 1) + k * (p0 + 1) * p1) hi hj hk ?_
    intro i' j' k' hi' hj' _ hh
    rw [hc, hc] at hh
    exact fIdx3_inj hi hi' hj hj' hh
  rw [Disc.Three.disc2, List.append_assoc, List.getElem?_append_left (by simpa using h), List.getElem?_map, List.getElem?_range h,
    Option.map_some, Disc.Three.twoX, Mifem.Three.ln2c0, hw]
  dsimp only [face3, edge3]
  congr 1
  simp only [Finset.mul_sum]
  refine Finset.sum_congr rfl fun s _ => Finset.sum_congr rfl fun t _ => ?_
  simp only [normal3_at0, normal3_at1, normal3_at2]
  by_cases h : e.orth = true
  · simp only [if_pos h, he h _ 0 1 (by decide), he h _ 0 2 (by decide), he h _ 2 1 (by decide), he h _ 1 2 (by decide)]; ring
  · simp only [if_neg h]; ring

theorem disc2_c1 (f : (Fin 3 → F) → Fin 3 → F) {i j k : Nat} (hi : i < p0) (hj : j < p1 + 1) (hk : k < p2) :
    (Disc.Three.disc2 p0 p1 p2 x0 x1 x2 r0 r1 r2 e f)[Mifem.Three.ln2c1 p0 p1 p2 i j k]? =
      some (face3 x0 x2 r0 r2 i k fun s t => normal3 e f 1 ![s, x1 j, t]) := by
  have h : fIdx3 p0 (p1 + 1) i j k < Mifem.Three.nb2c1 p0 p1 p2 := fIdx3_lt hi hj hk
  have hc : ∀ i j k, i + j * p0 + k * (p1 + 1) * p0 = fIdx3 p0 (p1 + 1) i j k := by
    intro i j k; simp only [fIdx3]; ring
  have hw : written (Disc.Three.facesY p0 p1 p2 x0 x2) (fIdx3 p0 (p1 + 1) i j k) =
      some ((i, j, k), (x2 (k + 1) - x2 k) * (x0 (i + 1) - x0 i)) := by
    rw [Disc.Three.facesY, ← hc]
    refine written_loop3 (m := fun i j k => i + j * p0 + k * (p1 + 1) * p0) hi hj hk ?_
    intro i' j' k' hi' hj' _ hh
    rw [hc, hc] at hh
    exact fIdx3_inj hi hi' hj hj' hh
  rw [Disc.Three.disc2, List.append_assoc, List.getElem?_append_right (by simp [Mifem.Three.ln2c1]), Mifem.Three.ln2c1, List.length_map,
    List.length_range, Nat.add_sub_cancel, List.getElem?_append_left (by simpa using h), List.getElem?_map, List.getElem?_range h,
    Option.map_some, Disc.Three.twoY, hw]
  dsimp only [face3, edge3]
  congr 1
  simp only [Finset.mul_sum]
  refine Finset.sum_congr rfl fun s _ => Finset.sum_congr rfl fun t _ => ?_
  simp only [normal3_at0, normal3_at1, normal3_at2]
  by_cases h : e.orth = true
  · simp only [if_pos h, he h _ 1 0 (by decide), he h _ 0 2 (by decide), he h _ 2 0 (by decide), he h _ 1 2 (by decide)]; ring
  · simp only [if_neg h]; ring

theorem disc2_c2 (f : (Fin 3 → F) → Fin 3 → F) {i j k : Nat} (hi : i < p0) (hj : j < p1) (hk : k < p2 + 1) :
    (Disc.Three.disc2 p0 p1 p2 x0 x1 x2 r0 r1 r2 e f)[Mifem.Three.ln2c2 p0 p1 p2 i j k]? =
      some (face3 x0 x1 r0 r1 i j fun s t => normal3 e f 2 ![s, t, x2 k]) := by
  have h : fIdx3 p0 p1 i j k < Mifem.Three.nb2c2 p0 p1 p2 := fIdx3_lt hi hj hk
  have hc : ∀ i j k, i + j * p0 + k * p1 * p0 = fIdx3 p0 p1 i j k := by
    intro i j k; simp only [fIdx3]; ring
  have hw : written (Disc.Three.facesZ p0 p1 p2 x0 x1) (fIdx3 p0 p1 i j k) =
      some ((i, j, k), (x1 (j + 1) - x1 j) * (x0 (i + 1) - x0 i)) := by
    rw [Disc.Three.facesZ, ← hc]
    refine written_loop3 (m := fun i j k => i + j * p0 + k * p1 * p0) hi hj hk ?_
    intro i' j' k' hi' hj' _ hh
    rw [hc, hc] at hh
    exact fIdx3_inj hi hi' hj hj' hh
  rw [Disc.Three.disc2, List.getElem?_append_right (by simp [Mifem.Three.ln2c2]), Mifem.Three.ln2c2]
  simp only [List.length_append, List.length_map, List.length_range, Nat.add_sub_cancel]
  rw [List.getElem?_map, List.getElem?_range h, Option.map_some, Disc.Three.twoZ, hw]
  dsimp only [face3, edge3]
  congr 1
  simp only [Finset.mul_sum]
  refine Finset.sum_congr rfl fun s _ => Finset.sum_congr rfl fun t _ => ?_
  simp only [normal3_at0, normal3_at1, normal3_at2]
  by_cases h : e.orth = true
  · simp only [if_pos h, he h _ 1 0 (by decide), he h _ 0 1 (by decide), he h _ 2 0 (by decide), he h _ 2 1 (by decide)]; ring
  · simp only [if_neg h]; ring

omit he

omit [LinearOrder F] [IsStrictOrderedRing F] in
theorem disc0_at3 (f : (Fin 3 → F) → F) {i j k : Nat} (hi : i < p0 + 1) (hj : j < p1 + 1) (hk : k < p2 + 1) :
    (Disc.Three.disc0 p0 p1 p2 x0 x1 x2 e f)[Mifem.Three.ln0 p0 p1 p2 i j k]? = some (f (e.map ![x0 i, x1 j, x2 k])) := by
  have h : Mifem.Three.ln0 p0 p1 p2 i j k < Mifem.Three.nb0 p0 p1 p2 := fIdx3_lt hi hj hk
  rw [Disc.Three.disc0, List.getElem?_map, List.getElem?_range h, Option.map_some, Mifem.Three.ln0, fIdx3_eq, fIdx2_mod hi, fIdx2_div hi,
    fIdx2_mod hj, fIdx2_div hj]

theorem disc3_at3 (f : (Fin 3 → F) → F) {i j k : Nat} (hi : i < p0) (hj : j < p1) (hk : k < p2) :
    (Disc.Three.disc3 p0 p1 p2 x0 x1 x2 r0 r1 r2 e f)[Mifem.Three.ln3 p0 p1 p2 i j k]? = some (
      edge3 x0 r0 i fun a => face3 x1 x2 r1 r2 j k fun b c => f (e.map ![a, b, c]) * e.det ![a, b, c]) := by
  have h : Mifem.Three.ln3 p0 p1 p2 i j k < Mifem.Three.nb3 p0 p1 p2 := fIdx3_lt hi hj hk
  have hc : ∀ i j k, i + j * p0 + k * p0 * p1 = fIdx3 p0 p1 i j k := by
    intro i j k; simp only [fIdx3]; ring
  have hw : written (Disc.Three.cells3 p0 p1 p2 x0 x1 x2) (fIdx3 p0 p1 i j k) =
      some ((i, j, k), (x0 (i + 1) - x0 i) * (x1 (j + 1) - x1 j) * (x2 (k + 1) - x2 k) * (1 / 8)) := by
    rw [Disc.Three.cells3, ← hc]
    refine written_loop3 (m := fun i j k => i + j * p0 + k * p0 * p1) hi hj hk ?_
    intro i' j' k' hi' hj' _ hh
    rw [hc, hc] at hh
    exact fIdx3_inj hi hi' hj hj' hh
  rw [Disc.Three.disc3, List.getElem?_map, List.getElem?_range h, Option.map_some, Mifem.Three.ln3, hw]
  dsimp only [face3, edge3]
  congr 1
  simp only [Finset.mul_sum]
  refine Finset.sum_congr rfl fun s _ => Finset.sum_congr rfl fun t _ => Finset.sum_congr rfl fun z _ => ?_
  ring
end arrays

/-! ## Polynomial fields -/

theorem upd3_0 (a b c t : F) : Function.update ![a, b, c] 0 t = ![t, b, c] := by
  funext c; fin_cases c <;> simp

theorem upd3_1 (a b c t : F) : Function.update ![a, b, c] 1 t = ![a, t, c] := by
  funext c; fin_cases c <;> simp

theorem upd3_2 (a b c t : F) : Function.update ![a, b, c] 2 t = ![a, b, t] := by
  funext c; fin_cases c <;> simp

/-- A polynomial vector field, and the derivatives of polynomial fields. -/
noncomputable def fieldP3 (P : Fin 3 → MvPolynomial (Fin 3) F) (z : Fin 3 → F) : Fin 3 → F := fun c => MvPolynomial.eval z (P c)
@[inherit_doc fieldP3] noncomputable def gradP3 (P : MvPolynomial (Fin 3) F) : Fin 3 → MvPolynomial (Fin 3) F :=
  fun c => MvPolynomial.pderiv c P
@[inherit_doc fieldP3] noncomputable def curlP3 (U : Fin 3 → MvPolynomial (Fin 3) F) : Fin 3 → MvPolynomial (Fin 3) F :=
  ![MvPolynomial.pderiv 1 (U 2) - MvPolynomial.pderiv 2 (U 1), MvPolynomial.pderiv 2 (U 0) - MvPolynomial.pderiv 0 (U 2),
    MvPolynomial.pderiv 0 (U 1) - MvPolynomial.pderiv 1 (U 0)]
@[inherit_doc fieldP3] noncomputable def divP3 (U : Fin 3 → MvPolynomial (Fin 3) F) : MvPolynomial (Fin 3) F :=
  MvPolynomial.pderiv 0 (U 0) + MvPolynomial.pderiv 1 (U 1) + MvPolynomial.pderiv 2 (U 2)

section poly
variable (Φ : Fin 3 → MvPolynomial (Fin 3) F) (P : MvPolynomial (Fin 3) F) (U : Fin 3 → MvPolynomial (Fin 3) F)

/-- The pulled-back function, tangential components, flux densities and determinant as polynomials of the reference
coordinates. -/
noncomputable def pull3 : MvPolynomial (Fin 3) F := MvPolynomial.bind₁ Φ P
@[inherit_doc pull3] noncomputable def pullT3 (b : Fin 3) : MvPolynomial (Fin 3) F :=
  MvPolynomial.pderiv b (Φ 0) * MvPolynomial.bind₁ Φ (U 0) + MvPolynomial.pderiv b (Φ 1) * MvPolynomial.bind₁ Φ (U 1) +
    MvPolynomial.pderiv b (Φ 2) * MvPolynomial.bind₁ Φ (U 2)
@[inherit_doc pull3] noncomputable def pullN3 : Fin 3 → MvPolynomial (Fin 3) F :=
  let det (A B C : Fin 3 → MvPolynomial (Fin 3) F) :=
    A 0 * (B 1 * C 2 - B 2 * C 1) - A 1 * (B 0 * C 2 - B 2 * C 0) + A 2 * (B 0 * C 1 - B 1 * C 0)
  let col (b : Fin 3) := fun a => MvPolynomial.pderiv b (Φ a)
  let u := fun a => MvPolynomial.bind₁ Φ (U a)
  ![det u (col 1) (col 2), det (col 0) u (col 2), det (col 0) (col 1) u]
@[inherit_doc pull3] noncomputable def pullDet3 : MvPolynomial (Fin 3) F :=
  let J a b := MvPolynomial.pderiv b (Φ a)
  J 0 0 * J 1 1 * J 2 2 + J 0 1 * J 1 2 * J 2 0 + J 0 2 * J 1 0 * J 2 1 - J 0 0 * J 1 2 * J 2 1 - J 0 1 * J 1 0 * J 2 2 - J 0 2 * J 1 1 * J 2 0

theorem pullN3_at0 : pullN3 Φ U 0 = (MvPolynomial.bind₁ Φ) (U 0) * (MvPolynomial.pderiv 1 (Φ 1) * MvPolynomial.pderiv 2 (Φ 2) -
      MvPolynomial.pderiv 1 (Φ 2) * MvPolynomial.pderiv 2 (Φ 1)) -
    (MvPolynomial.bind₁ Φ) (U 1) * (MvPolynomial.pderiv 1 (Φ 0) * MvPolynomial.pderiv 2 (Φ 2) - MvPolynomial.pderiv 1 (Φ 2) * MvPolynomial.pderiv 2 (Φ 0)) +
    (MvPolynomial.bind₁ Φ) (U 2) * (MvPolynomial.pderiv 1 (Φ 0) * MvPolynomial.pderiv 2 (Φ 1) - MvPolynomial.pderiv 1 (Φ 1) * MvPolynomial.pderiv 2 (Φ 0)) := rfl

theorem pullN3_at1 : pullN3 Φ U 1 =
    MvPolynomial.pderiv 0 (Φ 0) * ((MvPolynomial.bind₁ Φ) (U 1) * MvPolynomial.pderiv 2 (Φ 2) - (MvPolynomial.bind₁ Φ) (U 2) * MvPolynomial.pderiv 2 (Φ 1)) -
    MvPolynomial.pderiv 0 (Φ 1) * ((MvPolynomial.bind₁ Φ) (U 0) * MvPolynomial.pderiv 2 (Φ 2) - (MvPolynomial.bind₁ Φ) (U 2) * MvPolynomial.pderiv 2 (Φ 0)) +
    MvPolynomial.pderiv 0 (Φ 2) * ((MvPolynomial.bind₁ Φ) (U 0) * MvPolynomial.pderiv 2 (Φ 1) - (MvPolynomial.bind₁ Φ) (U 1) * MvPolynomial.pderiv 2 (Φ 0)) := rfl

theorem pullN3_at2 : pullN3 Φ U 2 =
    MvPolynomial.pderiv 0 (Φ 0) * (MvPolynomial.pderiv 1 (Φ 1) * (MvPolynomial.bind₁ Φ) (U 2) - MvPolynomial.pderiv 1 (Φ 2) * (MvPolynomial.bind₁ Φ) (U 1)) -
    MvPolynomial.pderiv 0 (Φ 1) * (MvPolynomial.pderiv 1 (Φ 0) * (MvPolynomial.bind₁ Φ) (U 2) - MvPolynomial.pderiv 1 (Φ 2) * (MvPolynomial.bind₁ Φ) (U 0)) +
    MvPolynomial.pderiv 0 (Φ 2) * (MvPolynomial.pderiv 1 (Φ 0) * (MvPolynomial.bind₁ Φ) (U 1) - MvPolynomial.pderiv 1 (Φ 1) * (MvPolynomial.bind₁ Φ) (U 0)) := rfl

theorem curlP3_at : curlP3 U 0 = MvPolynomial.pderiv 1 (U 2) - MvPolynomial.pderiv 2 (U 1) ∧
    curlP3 U 1 = MvPolynomial.pderiv 2 (U 0) - MvPolynomial.pderiv 0 (U 2) ∧
    curlP3 U 2 = MvPolynomial.pderiv 0 (U 1) - MvPolynomial.pderiv 1 (U 0) := ⟨rfl, rfl, rfl⟩

theorem pull3_grad (b : Fin 3) : MvPolynomial.pderiv b (pull3 Φ P) = pullT3 Φ (gradP3 P) b := by
  rw [pull3, pderiv_bind, Fin.sum_univ_three, pullT3]
  simp only [gradP3]
  ring

/-- Pull-back commutes with the curl. -/
theorem pull3_curl :
    MvPolynomial.pderiv 1 (pullT3 Φ U 2) - MvPolynomial.pderiv 2 (pullT3 Φ U 1) = pullN3 Φ (curlP3 U) 0 ∧
    MvPolynomial.pderiv 2 (pullT3 Φ U 0) - MvPolynomial.pderiv 0 (pullT3 Φ U 2) = pullN3 Φ (curlP3 U) 1 ∧
    MvPolynomial.pderiv 0 (pullT3 Φ U 1) - MvPolynomial.pderiv 1 (pullT3 Φ U 0) = pullN3 Φ (curlP3 U) 2 := by
  refine ⟨?_, ?_, ?_⟩ <;>
  · simp only [pullT3, pullN3_at0, pullN3_at1, pullN3_at2, (curlP3_at U).1, (curlP3_at U).2.1, (curlP3_at U).2.2, map_add, map_sub,
      Derivation.leibniz, smul_eq_mul, pderiv_bind, Fin.sum_univ_three, pderiv_comm (0 : Fin 3) 1, pderiv_comm (0 : Fin 3) 2,
      pderiv_comm (1 : Fin 3) 2]
    ring

/-- Pull-back commutes with the divergence. -/
theorem pull3_div : MvPolynomial.pderiv 0 (pullN3 Φ U 0) + MvPolynomial.pderiv 1 (pullN3 Φ U 1) + MvPolynomial.pderiv 2 (pullN3 Φ U 2) =
    pull3 Φ (divP3 U) * pullDet3 Φ := by
  simp only [pull3, pullDet3, pullN3_at0, pullN3_at1, pullN3_at2, divP3, map_add, map_sub,
      Derivation.leibniz, smul_eq_mul, pderiv_bind, Fin.sum_univ_three, pderiv_comm (0 : Fin 3) 1, pderiv_comm (0 : Fin 3) 2,
      pderiv_comm (1 : Fin 3) 2]
  ring

variable {Φ} {e : Disc.Three.El F} (he : PolyEl3 e Φ)
include he

omit [LinearOrder F] [IsStrictOrderedRing F] in
theorem eval_pull3 (v : Fin 3 → F) : MvPolynomial.eval (e.map v) P = MvPolynomial.eval v (pull3 Φ P) := by
  rw [pull3]
  induction P using MvPolynomial.induction_on with
  | C a => simp
  | add p q hp hq => simp only [map_add, hp, hq]
  | mul_X p c hp => simp only [map_mul, hp, MvPolynomial.eval_X, MvPolynomial.bind₁_X_right, he.map]

omit [LinearOrder F] [IsStrictOrderedRing F] in
theorem tangent3_eq (b : Fin 3) (v : Fin 3 → F) : tangent3 e (fieldP3 U) b v = MvPolynomial.eval v (pullT3 Φ U b) := by
  simp only [tangent3, fieldP3, he.J, eval_pull3 _ he, pull3, pullT3, map_add, map_mul]

omit [LinearOrder F] [IsStrictOrderedRing F] in
theorem normal3_eq (b : Fin 3) (v : Fin 3 → F) : normal3 e (fieldP3 U) b v = MvPolynomial.eval v (pullN3 Φ U b) := by
  fin_cases b <;> simp [normal3, fieldP3, he.J, eval_pull3 _ he, pull3, pullN3]

omit [LinearOrder F] [IsStrictOrderedRing F] in
theorem det3_eq (v : Fin 3 → F) : e.det v = MvPolynomial.eval v (pullDet3 Φ) := by
  simp only [Disc.Three.El.det, pullDet3, he.J, map_sub, map_add, map_mul]

omit he

theorem edge3_0 (x : Nat → F) (r : Rule F) (i : Nat) (a b c : F) (G : MvPolynomial (Fin 3) F) :
    edge3 x r i (fun s => MvPolynomial.eval ![s, b, c] G) = lineInt r x i 0 ![a, b, c] G := by
  simp only [edge3, lineInt, upd3_0]

theorem edge3_1 (x : Nat → F) (r : Rule F) (i : Nat) (a b c : F) (G : MvPolynomial (Fin 3) F) :
    edge3 x r i (fun s => MvPolynomial.eval ![a, s, c] G) = lineInt r x i 1 ![a, b, c] G := by
  simp only [edge3, lineInt, upd3_1]

theorem edge3_2 (x : Nat → F) (r : Rule F) (i : Nat) (a b c : F) (G : MvPolynomial (Fin 3) F) :
    edge3 x r i (fun s => MvPolynomial.eval ![a, b, s] G) = lineInt r x i 2 ![a, b, c] G := by
  simp only [edge3, lineInt, upd3_2]

theorem face3_12 (x y : Nat → F) (r s : Rule F) (i j : Nat) (a b c : F) (G : MvPolynomial (Fin 3) F) :
    face3 x y r s i j (fun t u => MvPolynomial.eval ![a, t, u] G) = areaInt r s x y i j 1 2 ![a, b, c] G := by
  simp only [face3, edge3, areaInt, lineInt, upd3_1, upd3_2]

theorem face3_02 (x y : Nat → F) (r s : Rule F) (i j : Nat) (a b c : F) (G : MvPolynomial (Fin 3) F) :
    face3 x y r s i j (fun t u => MvPolynomial.eval ![t, b, u] G) = areaInt r s x y i j 0 2 ![a, b, c] G := by
  simp only [face3, edge3, areaInt, lineInt, upd3_0, upd3_2]

theorem face3_01 (x y : Nat → F) (r s : Rule F) (i j : Nat) (a b c : F) (G : MvPolynomial (Fin 3) F) :
    face3 x y r s i j (fun t u => MvPolynomial.eval ![t, u, c] G) = areaInt r s x y i j 0 1 ![a, b, c] G := by
  simp only [face3, edge3, areaInt, lineInt, upd3_0, upd3_1]

theorem edge3_sub (x : Nat → F) (r : Rule F) (i : Nat) (g h : F → F) :
    edge3 x r i (fun s => g s - h s) = edge3 x r i g - edge3 x r i h := by
  simp only [edge3, mul_sub, Finset.sum_sub_distrib]

theorem edge3_add (x : Nat → F) (r : Rule F) (i : Nat) (g h : F → F) :
    edge3 x r i (fun s => g s + h s) = edge3 x r i g + edge3 x r i h := by
  simp only [edge3, mul_add, Finset.sum_add_distrib]

theorem face3_add (x y : Nat → F) (r s : Rule F) (i j : Nat) (g h : F → F → F) :
    face3 x y r s i j (fun a b => g a b + h a b) = face3 x y r s i j g + face3 x y r s i j h := by
  simp only [face3, edge3_add]

theorem edge3_swap (x y : Nat → F) (r s : Rule F) (i j : Nat) (g : F → F → F) :
    (edge3 x r i fun a => edge3 y s j fun b => g a b) = edge3 y s j fun b => edge3 x r i fun a => g a b := by
  simp only [edge3, Finset.mul_sum]
  refine Eq.trans Finset.sum_comm ?_
  refine Finset.sum_congr rfl fun q _ => Finset.sum_congr rfl fun t _ => ?_
  ring

/-- The divergence theorem on a cell, one direction at a time. -/
theorem vol_pderiv0 {r0 r1 r2 : Rule F} {d : Nat} (h0 : Exact r0 d) (x0 x1 x2 : Nat → F) (i j k : Nat) (G : MvPolynomial (Fin 3) F)
    (hG : G.degreeOf 0 ≤ d + 1) :
    (edge3 x0 r0 i fun a => face3 x1 x2 r1 r2 j k fun b c => MvPolynomial.eval ![a, b, c] (MvPolynomial.pderiv 0 G)) =
      (face3 x1 x2 r1 r2 j k fun b c => MvPolynomial.eval ![x0 (i + 1), b, c] G) -
        face3 x1 x2 r1 r2 j k fun b c => MvPolynomial.eval ![x0 i, b, c] G := by
  have hl : ∀ b c, (edge3 x0 r0 i fun a => MvPolynomial.eval ![a, b, c] (MvPolynomial.pderiv 0 G)) =
      MvPolynomial.eval ![x0 (i + 1), b, c] G - MvPolynomial.eval ![x0 i, b, c] G := by
    intro b c
    rw [edge3_0 x0 r0 i 0, lineInt_pderiv h0 _ _ _ _ _ hG, upd3_0, upd3_0]
  simp only [face3]
  rw [edge3_swap]
  simp only [edge3_swap x0 x2 r0 r2, hl, edge3_sub]

theorem vol_pderiv1 {r0 r1 r2 : Rule F} {d : Nat} (h1 : Exact r1 d) (x0 x1 x2 : Nat → F) (i j k : Nat) (G : MvPolynomial (Fin 3) F)
    (hG : G.degreeOf 1 ≤ d + 1) :
    (edge3 x0 r0 i fun a => face3 x1 x2 r1 r2 j k fun b c => MvPolynomial.eval ![a, b, c] (MvPolynomial.pderiv 1 G)) =
      (face3 x0 x2 r0 r2 i k fun a c => MvPolynomial.eval ![a, x1 (j + 1), c] G) -
        face3 x0 x2 r0 r2 i k fun a c => MvPolynomial.eval ![a, x1 j, c] G := by
  have hl : ∀ a c, (edge3 x1 r1 j fun b => MvPolynomial.eval ![a, b, c] (MvPolynomial.pderiv 1 G)) =
      MvPolynomial.eval ![a, x1 (j + 1), c] G - MvPolynomial.eval ![a, x1 j, c] G := by
    intro a c
    rw [edge3_1 x1 r1 j a 0 c, lineInt_pderiv h1 _ _ _ _ _ hG, upd3_1, upd3_1]
  simp only [face3]
  simp only [edge3_swap x1 x2 r1 r2, hl, edge3_sub]

theorem vol_pderiv2 {r0 r1 r2 : Rule F} {d : Nat} (h2 : Exact r2 d) (x0 x1 x2 : Nat → F) (i j k : Nat) (G : MvPolynomial (Fin 3) F)
    (hG : G.degreeOf 2 ≤ d + 1) :
    (edge3 x0 r0 i fun a => face3 x1 x2 r1 r2 j k fun b c => MvPolynomial.eval ![a, b, c] (MvPolynomial.pderiv 2 G)) =
      (face3 x0 x1 r0 r1 i j fun a b => MvPolynomial.eval ![a, b, x2 (k + 1)] G) -
        face3 x0 x1 r0 r1 i j fun a b => MvPolynomial.eval ![a, b, x2 k] G := by
  have hl : ∀ a b, (edge3 x2 r2 k fun c => MvPolynomial.eval ![a, b, c] (MvPolynomial.pderiv 2 G)) =
      MvPolynomial.eval ![a, b, x2 (k + 1)] G - MvPolynomial.eval ![a, b, x2 k] G := by
    intro a b
    rw [edge3_2 x2 r2 k a b 0, lineInt_pderiv h2 _ _ _ _ _ hG, upd3_2, upd3_2]
  simp only [face3, hl, edge3_sub]

include he
variable (p0 p1 p2 : Nat) (x0 x1 x2 : Nat → F)

/-- C67: the discretized gradient of a function is the gradient (incidence matrix) of the discretized function. -/
theorem c67_grad (r0 r1 r2 : Rule F) (d : Nat) (h0 : Exact r0 d) (h1 : Exact r1 d) (h2 : Exact r2 d)
    (hP : ∀ c, (pull3 Φ P).degreeOf c ≤ d + 1) (r : Nat) (hr : r < Mifem.Three.nb1 p0 p1 p2) :
    (Disc.Three.disc1 p0 p1 p2 x0 x1 x2 r0 r1 r2 e (fieldP3 (gradP3 P)))[r]? =
      some (applyM (Mifem.Three.nb0 p0 p1 p2) (Mifem.Three.grad p0 p1 p2)
        (fun k => ((Disc.Three.disc0 p0 p1 p2 x0 x1 x2 e fun z => MvPolynomial.eval z P)[k]?).getD 0) r) := by
  have tan : ∀ b v, tangent3 e (fieldP3 (gradP3 P)) b v = MvPolynomial.eval v (MvPolynomial.pderiv b (pull3 Φ P)) := by
    intro b v
    rw [tangent3_eq _ he, pull3_grad]
  rcases Mifem.Three.ln1_cases hr with ⟨i, j, k, hi, hj, hk, rfl⟩ | ⟨i, j, k, hi, hj, hk, rfl⟩ | ⟨i, j, k, hi, hj, hk, rfl⟩
  · rw [disc1_c0 _ _ _ _ _ _ _ _ _ he.orth _ hi hj hk, Mifem.Three.grad_c0 _ hi hj hk, disc0_at3 _ _ _ _ _ _ _ (by omega) hj hk,
      disc0_at3 _ _ _ _ _ _ _ (by omega) hj hk]
    simp only [tan]
    rw [edge3_0 x0 r0 i 0, lineInt_pderiv h0 _ _ _ _ _ (hP 0), upd3_0, upd3_0]
    simp only [Option.getD_some, eval_pull3 _ he]
  · rw [disc1_c1 _ _ _ _ _ _ _ _ _ he.orth _ hi hj hk, Mifem.Three.grad_c1 _ hi hj hk, disc0_at3 _ _ _ _ _ _ _ hi (by omega) hk,
      disc0_at3 _ _ _ _ _ _ _ hi (by omega) hk]
    simp only [tan]
    rw [edge3_1 x1 r1 j _ 0 _, lineInt_pderiv h1 _ _ _ _ _ (hP 1), upd3_1, upd3_1]
    simp only [Option.getD_some, eval_pull3 _ he]
  · rw [disc1_c2 _ _ _ _ _ _ _ _ _ he.orth _ hi hj hk, Mifem.Three.grad_c2 _ hi hj hk, disc0_at3 _ _ _ _ _ _ _ hi hj (by omega),
      disc0_at3 _ _ _ _ _ _ _ hi hj (by omega)]
    simp only [tan]
    rw [edge3_2 x2 r2 k _ _ 0, lineInt_pderiv h2 _ _ _ _ _ (hP 2), upd3_2, upd3_2]
    simp only [Option.getD_some, eval_pull3 _ he]

/-- C67: the discretized curl of a field is the curl (incidence matrix) of the discretized field.  The rules of the 2-form
(`r0'`, ...) need not be those of the 1-form. -/
theorem c67_curl (r0 r1 r2 r0' r1' r2' : Rule F) (d : Nat) (h0 : Exact r0 d) (h1 : Exact r1 d) (h2 : Exact r2 d)
    (h0' : Exact r0' d) (h1' : Exact r1' d) (h2' : Exact r2' d) (hU : ∀ b c, (pullT3 Φ U b).degreeOf c ≤ d)
    (r : Nat) (hr : r < Mifem.Three.nb2 p0 p1 p2) :
    (Disc.Three.disc2 p0 p1 p2 x0 x1 x2 r0' r1' r2' e (fieldP3 (curlP3 U)))[r]? =
      some (applyM (Mifem.Three.nb1 p0 p1 p2) (Mifem.Three.curl p0 p1 p2)
        (fun k => ((Disc.Three.disc1 p0 p1 p2 x0 x1 x2 r0 r1 r2 e (fieldP3 U))[k]?).getD 0) r) := by
  obtain ⟨c0, c1, c2⟩ := pull3_curl Φ U
  have hU1 : ∀ b c, (pullT3 Φ U b).degreeOf c ≤ d + 1 := fun b c => (hU b c).trans (by omega)
  rcases Mifem.Three.ln2_cases hr with ⟨i, j, k, hi, hj, hk, rfl⟩ | ⟨i, j, k, hi, hj, hk, rfl⟩ | ⟨i, j, k, hi, hj, hk, rfl⟩
  · rw [disc2_c0 _ _ _ _ _ _ _ _ _ he.orth _ hi hj hk, Mifem.Three.curl_c0 _ hi hj hk,
      disc1_c1 _ _ _ _ _ _ _ _ _ he.orth _ hi hj (by omega), disc1_c1 _ _ _ _ _ _ _ _ _ he.orth _ hi hj (by omega),
      disc1_c2 _ _ _ _ _ _ _ _ _ he.orth _ hi (by omega) hk, disc1_c2 _ _ _ _ _ _ _ _ _ he.orth _ hi (by omega) hk]
    simp only [normal3_eq _ he, tangent3_eq _ he, ← c0]
    rw [face3_12 x1 x2 r1' r2' j k _ 0 0, areaInt_sub, areaInt_pderiv_fst h1' x1 x2 j k (by decide) _ _ (hU1 2 1),
      areaInt_pderiv_snd h2' x1 x2 j k (by decide) _ _ (hU1 1 2)]
    simp only [upd3_1, upd3_2, Option.getD_some, edge3_1 x1 r1 j _ 0 _, edge3_2 x2 r2 k _ _ 0,
      lineInt_same h1' h1 x1 j 1 _ _ (hU 1 1), lineInt_same h2' h2 x2 k 2 _ _ (hU 2 2)]
    congr 1
    ring
  · rw [disc2_c1 _ _ _ _ _ _ _ _ _ he.orth _ hi hj hk, Mifem.Three.curl_c1 _ hi hj hk,
      disc1_c0 _ _ _ _ _ _ _ _ _ he.orth _ hi hj (by omega), disc1_c0 _ _ _ _ _ _ _ _ _ he.orth _ hi hj (by omega),
      disc1_c2 _ _ _ _ _ _ _ _ _ he.orth _ (by omega) hj hk, disc1_c2 _ _ _ _ _ _ _ _ _ he.orth _ (by omega) hj hk]
    simp only [normal3_eq _ he, tangent3_eq _ he, ← c1]
    rw [face3_02 x0 x2 r0' r2' i k 0 _ 0, areaInt_sub, areaInt_pderiv_fst h0' x0 x2 i k (by decide) _ _ (hU1 2 0),
      areaInt_pderiv_snd h2' x0 x2 i k (by decide) _ _ (hU1 0 2)]
    simp only [upd3_0, upd3_2, Option.getD_some, edge3_0 x0 r0 i 0 _ _, edge3_2 x2 r2 k _ _ 0,
      lineInt_same h0' h0 x0 i 0 _ _ (hU 0 0), lineInt_same h2' h2 x2 k 2 _ _ (hU 2 2)]
    congr 1
    ring
  · rw [disc2_c2 _ _ _ _ _ _ _ _ _ he.orth _ hi hj hk, Mifem.Three.curl_c2 _ hi hj hk,
      disc1_c0 _ _ _ _ _ _ _ _ _ he.orth _ hi (by omega) hk, disc1_c0 _ _ _ _ _ _ _ _ _ he.orth _ hi (by omega) hk,
      disc1_c1 _ _ _ _ _ _ _ _ _ he.orth _ (by omega) hj hk, disc1_c1 _ _ _ _ _ _ _ _ _ he.orth _ (by omega) hj hk]
    simp only [normal3_eq _ he, tangent3_eq _ he, ← c2]
    rw [face3_01 x0 x1 r0' r1' i j 0 0 _, areaInt_sub, areaInt_pderiv_fst h0' x0 x1 i j (by decide) _ _ (hU1 1 0),
      areaInt_pderiv_snd h1' x0 x1 i j (by decide) _ _ (hU1 0 1)]
    simp only [upd3_0, upd3_1, Option.getD_some, edge3_0 x0 r0 i 0 _ _, edge3_1 x1 r1 j _ 0 _,
      lineInt_same h0' h0 x0 i 0 _ _ (hU 0 0), lineInt_same h1' h1 x1 j 1 _ _ (hU 1 1)]
    congr 1
    ring

/-- C67: the discretized divergence of a field is the divergence (incidence matrix) of the discretized field. -/
theorem c67_div (r0 r1 r2 r0' r1' r2' : Rule F) (d : Nat) (h0 : Exact r0 d) (h1 : Exact r1 d) (h2 : Exact r2 d)
    (h0' : Exact r0' d) (h1' : Exact r1' d) (h2' : Exact r2' d) (hU : ∀ b c, (pullN3 Φ U b).degreeOf c ≤ d)
    (r : Nat) (hr : r < Mifem.Three.nb3 p0 p1 p2) :
    (Disc.Three.disc3 p0 p1 p2 x0 x1 x2 r0' r1' r2' e (fun z => MvPolynomial.eval z (divP3 U)))[r]? =
      some (applyM (Mifem.Three.nb2 p0 p1 p2) (Mifem.Three.div p0 p1 p2)
        (fun k => ((Disc.Three.disc2 p0 p1 p2 x0 x1 x2 r0 r1 r2 e (fieldP3 U))[k]?).getD 0) r) := by
  have hU1 : ∀ b c, (pullN3 Φ U b).degreeOf c ≤ d + 1 := fun b c => (hU b c).trans (by omega)
  obtain ⟨i, j, k, hi, hj, hk, rfl⟩ := Mifem.Three.ln3_cases hr
  rw [disc3_at3 _ _ _ _ _ _ _ _ _ _ hi hj hk, Mifem.Three.div_row _ hi hj hk,
    disc2_c0 _ _ _ _ _ _ _ _ _ he.orth _ (by omega) hj hk, disc2_c0 _ _ _ _ _ _ _ _ _ he.orth _ (by omega) hj hk,
    disc2_c1 _ _ _ _ _ _ _ _ _ he.orth _ hi (by omega) hk, disc2_c1 _ _ _ _ _ _ _ _ _ he.orth _ hi (by omega) hk,
    disc2_c2 _ _ _ _ _ _ _ _ _ he.orth _ hi hj (by omega), disc2_c2 _ _ _ _ _ _ _ _ _ he.orth _ hi hj (by omega)]
  simp only [normal3_eq _ he, eval_pull3 _ he, det3_eq he, ← map_mul, ← pull3_div Φ U, map_add]
  simp only [face3_add, edge3_add]
  rw [vol_pderiv0 h0' x0 x1 x2 i j k _ (hU1 0 0), vol_pderiv1 h1' x0 x1 x2 i j k _ (hU1 1 1), vol_pderiv2 h2' x0 x1 x2 i j k _ (hU1 2 2)]
  simp only [Option.getD_some, face3_12 x1 x2 _ _ j k _ 0 0, face3_02 x0 x2 _ _ i k 0 _ 0, face3_01 x0 x1 _ _ i j 0 0 _,
    areaInt_same h1' h2' h1 h2 x1 x2 j k (show (1 : Fin 3) ≠ 2 by decide) _ _ (hU 0 1) (hU 0 2),
    areaInt_same h0' h2' h0 h2 x0 x2 i k (show (0 : Fin 3) ≠ 2 by decide) _ _ (hU 1 0) (hU 1 2),
    areaInt_same h0' h1' h0 h1 x0 x1 i j (show (0 : Fin 3) ≠ 1 by decide) _ _ (hU 2 0) (hU 2 1)]
  congr 1
  ring

end poly
end
/-! ## A curved element -/

/-- The mapping `(ξ, η, ζ) ↦ (ξ + ξ η / 2, η, ζ + η ξ)`. -/
noncomputable def bentΦ3 : Fin 3 → MvPolynomial (Fin 3) ℚ :=
  ![MvPolynomial.X 0 + MvPolynomial.C (1 / 2) * (MvPolynomial.X 0 * MvPolynomial.X 1), MvPolynomial.X 1,
    MvPolynomial.X 2 + MvPolynomial.X 1 * MvPolynomial.X 0]

/-- Its element. -/
def bent3 : Disc.Three.El ℚ where
  map v := ![v 0 + 1 / 2 * (v 0 * v 1), v 1, v 2 + v 1 * v 0]
  J v := ![![1 + 1 / 2 * v 1, 1 / 2 * v 0, 0], ![0, 1, 0], ![v 1, v 0, 1]]
  orth := false

theorem bent3_poly : PolyEl3 bent3 bentΦ3 where
  map v c := by fin_cases c <;> simp [bent3, bentΦ3]
  J v a b := by
    fin_cases a <;> fin_cases b <;> simp [bent3, bentΦ3, MvPolynomial.pderiv_X, Pi.single_apply]
  orth h := by simp [bent3] at h

section degree
variable {c : Fin 3} {P Q : MvPolynomial (Fin 3) ℚ} {n m : Nat}
theorem deg_add (hP : P.degreeOf c ≤ n) (hQ : Q.degreeOf c ≤ n) : (P + Q).degreeOf c ≤ n :=
  (MvPolynomial.degreeOf_add_le _ _ _).trans (max_le hP hQ)
theorem deg_mul (hP : P.degreeOf c ≤ n) (hQ : Q.degreeOf c ≤ m) : (P * Q).degreeOf c ≤ n + m :=
  (MvPolynomial.degreeOf_mul_le _ _ _).trans (add_le_add hP hQ)
theorem deg_X (a : Fin 3) : (MvPolynomial.X (R := ℚ) a).degreeOf c ≤ 1 := by
  rw [MvPolynomial.degreeOf_X]; split_ifs <;> omega
theorem deg_C (a : ℚ) : (MvPolynomial.C (σ := Fin 3) a).degreeOf c ≤ n := by simp
end degree

/-- A field. -/
noncomputable def turnU : Fin 3 → MvPolynomial (Fin 3) ℚ := ![MvPolynomial.X 1, MvPolynomial.X 2, MvPolynomial.X 0]

theorem bent3_degree : ∀ b c, (pullT3 bentΦ3 turnU b).degreeOf c ≤ 3 := by
  intro b c
  fin_cases b
  · have e : pullT3 bentΦ3 turnU 0 = (MvPolynomial.C 1 + MvPolynomial.C (1 / 2) * MvPolynomial.X 1) * MvPolynomial.X 1 +
        MvPolynomial.X 1 * (MvPolynomial.X 0 + MvPolynomial.C (1 / 2) * (MvPolynomial.X 0 * MvPolynomial.X 1)) := by
      simp [pullT3, bentΦ3, turnU, MvPolynomial.pderiv_X, Pi.single_apply]
    refine (congrArg (MvPolynomial.degreeOf c) e).le.trans ?_
    refine deg_add (deg_mul (n := 1) (m := 2) (deg_add (deg_C _) (deg_mul (n := 0) (deg_C _) (deg_X _))) ((deg_X _).trans (by omega)))
      (deg_mul (n := 1) (m := 2) (deg_X _) (deg_add ((deg_X _).trans (by omega)) (deg_mul (n := 0) (m := 2) (deg_C _) (deg_mul (deg_X _) (deg_X _)))))
  · have e : pullT3 bentΦ3 turnU 1 = MvPolynomial.C (1 / 2) * MvPolynomial.X 0 * MvPolynomial.X 1 +
        (MvPolynomial.X 2 + MvPolynomial.X 1 * MvPolynomial.X 0) +
        MvPolynomial.X 0 * (MvPolynomial.X 0 + MvPolynomial.C (1 / 2) * (MvPolynomial.X 0 * MvPolynomial.X 1)) := by
      simp [pullT3, bentΦ3, turnU, MvPolynomial.pderiv_X, Pi.single_apply]
    refine (congrArg (MvPolynomial.degreeOf c) e).le.trans ?_
    refine deg_add (deg_add (deg_mul (n := 1) (m := 2) (deg_mul (n := 0) (deg_C _) (deg_X _)) ((deg_X _).trans (by omega)))
      (deg_add ((deg_X _).trans (by omega)) ((deg_mul (deg_X _) (deg_X _)).trans (by omega))))
      (deg_mul (n := 1) (m := 2) (deg_X _) (deg_add ((deg_X _).trans (by omega)) (deg_mul (n := 0) (m := 2) (deg_C _) (deg_mul (deg_X _) (deg_X _)))))
  · have e : pullT3 bentΦ3 turnU 2 = MvPolynomial.X 0 + MvPolynomial.C (1 / 2) * (MvPolynomial.X 0 * MvPolynomial.X 1) := by
      simp [pullT3, bentΦ3, turnU, MvPolynomial.pderiv_X, Pi.single_apply]
    refine (congrArg (MvPolynomial.degreeOf c) e).le.trans ?_
    exact deg_add ((deg_X _).trans (by omega)) (deg_mul (n := 0) (m := 3) (deg_C _) ((deg_mul (deg_X _) (deg_X _)).trans (by omega)))

/-- C67: the curl of `(y, z, x)` on the curved element, for polynomial degrees 1, 2 and 3. -/
example (r : Nat) (hr : r < Mifem.Three.nb2 1 2 3) :
    (Disc.Three.disc2 1 2 3 (fun i => 2 * (i : ℚ) - 1) (fun i => (i : ℚ) - 1) (fun j => 2 / 3 * (j : ℚ) - 1) simpsonR simpsonR simpsonR bent3
      (fieldP3 (curlP3 turnU)))[r]? = some (applyM (Mifem.Three.nb1 1 2 3) (Mifem.Three.curl 1 2 3)
      (fun k => ((Disc.Three.disc1 1 2 3 (fun i => 2 * (i : ℚ) - 1) (fun i => (i : ℚ) - 1) (fun j => 2 / 3 * (j : ℚ) - 1)
        simpsonR simpsonR simpsonR bent3 (fieldP3 turnU))[k]?).getD 0) r) :=
  c67_curl _ bent3_poly 1 2 3 _ _ _ _ _ _ _ _ _ 3 simpsonR_exact simpsonR_exact simpsonR_exact simpsonR_exact simpsonR_exact simpsonR_exact
    bent3_degree r hr

/-- Values: the line integrals and fluxes of `(y, z, x)` on the curved element. -/
example : Disc.Three.disc1 1 1 1 (fun i => 2 * (i : ℚ) - 1) (fun j => 2 * (j : ℚ) - 1) (fun j => 2 * (j : ℚ) - 1) simpsonR simpsonR simpsonR bent3
    (fun z => ![z 1, z 2, z 0]) = [-1, 3, -1, 3, 0, 0, 4, 4, -1, 1, -3, 3] ∧
    Disc.Three.disc2 1 1 1 (fun i => 2 * (i : ℚ) - 1) (fun j => 2 * (j : ℚ) - 1) (fun j => 2 * (j : ℚ) - 1) simpsonR simpsonR simpsonR bent3
    (fun z => ![z 1, z 2, z 0]) = [0, 0, 0, 0, -4 / 3, -4 / 3] ∧
    Disc.Three.disc3 1 1 1 (fun i => 2 * (i : ℚ) - 1) (fun j => 2 * (j : ℚ) - 1) (fun j => 2 * (j : ℚ) - 1) simpsonR simpsonR simpsonR bent3
    (fun z => z 0 * z 0 + z 2) = [10 / 3] := by
  decide +kernel

end Mifem.Props
