import Verif.Model.TraceDisc
import Verif.Props.SharedDofs
import Verif.Props.Trace

/-! # C84: discretizing a field on trace elements gives the trace of the discretized form -/

namespace Mifem.Props
open Mifem.Disc Mifem.TraceDisc

theorem fullEp_eq (s : Three.Side) (a b : ℝ) : fullEp s a b = onSide3 s a b := by cases s <;> rfl

/-- A value for each pair, the first index running fastest. -/
theorem loop2_zipIdx {α β : Type*} (I J : Nat) (body : Nat → Nat → α) (G : α × Nat → β) :
    (loop2 I J body).zipIdx.map G = (List.range J).flatMap fun j => (List.range I).map fun i => G (body i j, fIdx2 I i j) := by
  have hlen : ∀ J, (loop2 I J body).length = I * J := by
    intro J
    simp [loop2, List.length_flatMap, Nat.mul_comm]
  induction J with
  | zero => simp [loop2]
  | succ J ih =>
    have h1 : loop2 I (J + 1) body = loop2 I J body ++ (List.range I).map fun i => body i J := by
      simp [loop2, List.range_succ]
    rw [h1, List.zipIdx_append, List.map_append, ih, List.range_succ, List.flatMap_append]
    congr 1
    simp only [List.flatMap_cons, List.flatMap_nil, List.append_nil, hlen]
    apply List.ext_getElem
    · simp
    · intro n h2 h3
      simp only [List.length_map, List.length_range] at h3
      simp [fIdx2, Nat.add_comm]

theorem gridF_eq {α : Type*} (m n : Nat) (u v : Nat → ℝ) (f : ℝ → ℝ → α) :
    gridF m n u v f = (List.range n).flatMap fun j => (List.range m).map fun i => f (u i) (v j) := by
  rw [gridF]
  induction n with
  | zero => simp
  | succ n ih =>
    rw [Nat.mul_succ, List.range_add, List.map_append, ih, List.range_succ, List.flatMap_append]
    congr 1
    simp only [List.flatMap_cons, List.flatMap_nil, List.append_nil, List.map_map]
    refine List.map_congr_left fun i hi => ?_
    have hi := List.mem_range.mp hi
    have e1 : (m * n + i) % m = i := by rw [Nat.mul_add_mod, Nat.mod_eq_of_lt hi]
    have e2 : (m * n + i) / m = n := by
      rw [Nat.mul_add_div (by omega), Nat.div_eq_of_lt hi, Nat.add_zero]
    simp only [Function.comp_apply, e1, e2]

theorem ravelF_some {α : Type*} {a b : Nat} {d : Nat → Nat → Nat} {x : Nat → Option α} {y : Nat → Nat → α}
    (h : ∀ i j, i < a → j < b → x (d i j) = some (y i j)) :
    (ravelF a b d).map x = ((List.range b).flatMap fun j => (List.range a).map fun i => y i j).map some := by
  rw [ravelF, List.map_flatMap, List.map_flatMap]
  refine List.flatMap_congr fun j hj => ?_
  rw [List.map_map, List.map_map]
  refine List.map_congr_left fun i hi => ?_
  exact h i j (List.mem_range.mp hi) (List.mem_range.mp hj)

theorem qnode_eq (x : Nat → ℝ) (r : Rule ℝ) (j q : Nat) : qnode x r j q = inCell x r q j := by
  rw [qnode, inCell]; ring

section
variable (p0 p1 p2 : Nat) (x0 x1 x2 : Nat → ℝ) (r0 r1 r2 : Rule ℝ) (e : Disc.Three.El ℝ) (s : Three.Side)

/-- C84 (0-forms): the values on the trace element are those of the dofs of the side of the discretized 0-form. -/
theorem c84_0 (hx0 : NodesOK p0 x0) (hx1 : NodesOK p1 x1) (hx2 : NodesOK p2 x2) (f : (Fin 3 → ℝ) → ℝ) :
    (Three.dofs0 p0 p1 p2 s).map (fun d => (Disc.Three.disc0 p0 p1 p2 x0 x1 x2 e f)[d]?) =
      (te0 s p0 p1 p2 x0 x1 x2 (onTe e s f)).map some := by
  cases s <;> simp only [Three.dofs0, te0, gridF_eq] <;> refine ravelF_some fun i j hi hj => ?_ <;>
    rw [disc0_at3 _ _ _ _ _ _ _ (by omega) (by omega) (by omega)] <;>
    simp only [hx0.first, hx0.last, hx1.first, hx1.last, hx2.first, hx2.last, onTe, TraceDisc.map, fullEp]

/-- The lines in the first direction. -/
theorem lineInts_A (w : ℝ → ℝ → Fin 3 → ℝ) (col : Fin 2) (pa pb : Nat) (xa xb : Nat → ℝ) (ra : Rule ℝ) :
    lineInts e s w col ra (rowsA pa pb xa xb ra) (tile pa fun j => lens xa j * (1 / 2)) =
      (List.range (pb + 1)).flatMap fun k => (List.range pa).map fun j =>
        edge3 xa ra j fun a => jac e s a (xb k) 0 col * w a (xb k) 0 + jac e s a (xb k) 1 col * w a (xb k) 1 +
          jac e s a (xb k) 2 col * w a (xb k) 2 := by
  rw [lineInts, rowsA, loop2_zipIdx]
  refine List.flatMap_congr fun k _ => List.map_congr_left fun j hj => ?_
  have hj := List.mem_range.mp hj
  rw [edge3]
  refine Finset.sum_congr rfl fun q _ => ?_
  simp only [tile, fIdx2_mod hj, qnode_eq, lens]
  ring

/-- The lines in the second direction. -/
theorem lineInts_B (w : ℝ → ℝ → Fin 3 → ℝ) (col : Fin 2) (pa pb : Nat) (xa xb : Nat → ℝ) (rb : Rule ℝ) :
    lineInts e s w col rb (rowsB pa pb xa xb rb) (rep (pa + 1) fun k => lens xb k * (1 / 2)) =
      (List.range pb).flatMap fun k => (List.range (pa + 1)).map fun j =>
        edge3 xb rb k fun b => jac e s (xa j) b 0 col * w (xa j) b 0 + jac e s (xa j) b 1 col * w (xa j) b 1 +
          jac e s (xa j) b 2 col * w (xa j) b 2 := by
  rw [lineInts, rowsB, loop2_zipIdx]
  refine List.flatMap_congr fun k _ => List.map_congr_left fun j hj => ?_
  have hj := List.mem_range.mp hj
  rw [edge3]
  refine Finset.sum_congr rfl fun q _ => ?_
  simp only [rep, fIdx2_div hj, qnode_eq, lens]
  ring

/-- C84 (1-forms): the line integrals. -/
theorem c84_1 (hx0 : NodesOK p0 x0) (hx1 : NodesOK p1 x1) (hx2 : NodesOK p2 x2) (he : OrthOK3 e) (f : (Fin 3 → ℝ) → Fin 3 → ℝ) :
    (Three.dofs1 p0 p1 p2 s).map (fun d => (Disc.Three.disc1 p0 p1 p2 x0 x1 x2 r0 r1 r2 e f)[d]?) =
      (te1 e s p0 p1 p2 x0 x1 x2 r0 r1 r2 (onTe e s f)).map some := by
  cases s <;> simp only [Three.dofs1, te1, lineInts_A, lineInts_B, List.map_append] <;> refine congrArg₂ (· ++ ·) ?_ ?_ <;>
    refine ravelF_some fun i j hi hj => ?_ <;>
    first
    | rw [disc1_c0 _ _ _ _ _ _ _ _ _ he _ (by omega) (by omega) (by omega)]
      simp only [hx1.first, hx1.last, hx2.first, hx2.last, onTe, TraceDisc.map, fullEp, jac, tangent3, Matrix.cons_val_zero, Matrix.cons_val_one]
    | rw [disc1_c1 _ _ _ _ _ _ _ _ _ he _ (by omega) (by omega) (by omega)]
      simp only [hx0.first, hx0.last, hx2.first, hx2.last, onTe, TraceDisc.map, fullEp, jac, tangent3, Matrix.cons_val_zero, Matrix.cons_val_one]
    | rw [disc1_c2 _ _ _ _ _ _ _ _ _ he _ (by omega) (by omega) (by omega)]
      simp only [hx0.first, hx0.last, hx1.first, hx1.last, onTe, TraceDisc.map, fullEp, jac, tangent3, Matrix.cons_val_zero, Matrix.cons_val_one]

/-- The normal before scaling: the cross product of the tangents. -/
abbrev crossJ (a b : ℝ) : Fin 3 → ℝ := crossV (fun c => jac e s a b c 0) (fun c => jac e s a b c 1)

/-- The metric is the square of the length of the normal (Lagrange). -/
theorem metric_eq (a b : ℝ) : metric e s a b = crossJ e s a b 0 ^ 2 + crossJ e s a b 1 ^ 2 + crossJ e s a b 2 ^ 2 := by
  simp only [metric, gram, crossJ, crossV, Matrix.cons_val_zero, Matrix.cons_val_one, Matrix.cons_val]
  ring

/-- Scaling back. -/
theorem unitNormal_scaled (a b : ℝ) (c : Fin 3) : unitNormal e s a b c * Real.sqrt (metric e s a b) = crossJ e s a b c := by
  rw [metric_eq, unitNormal]
  dsimp only
  set n := crossJ e s a b
  by_cases h : Real.sqrt (n 0 ^ 2 + n 1 ^ 2 + n 2 ^ 2) = 0
  · have h' : n 0 ^ 2 + n 1 ^ 2 + n 2 ^ 2 = 0 := (Real.sqrt_eq_zero (by positivity)).mp h
    have h0 : n 0 = 0 := by nlinarith [sq_nonneg (n 0), sq_nonneg (n 1), sq_nonneg (n 2)]
    have h1 : n 1 = 0 := by nlinarith [sq_nonneg (n 0), sq_nonneg (n 1), sq_nonneg (n 2)]
    have h2 : n 2 = 0 := by nlinarith [sq_nonneg (n 0), sq_nonneg (n 1), sq_nonneg (n 2)]
    rw [h, mul_zero]
    fin_cases c
    · exact h0.symm
    · exact h1.symm
    · exact h2.symm
  · exact div_mul_cancel₀ _ h

/-- Spec: the flux density of a vector through the side. -/
def fluxDensity (w : ℝ → ℝ → Fin 3 → ℝ) (a b : ℝ) : ℝ := dotV (w a b) (crossJ e s a b)

theorem flux_scaled (w : ℝ → ℝ → Fin 3 → ℝ) (a b : ℝ) :
    fluxOf e s w a b * Real.sqrt (metric e s a b) = fluxDensity e s w a b := by
  rw [fluxOf, fluxDensity, dotV, dotV, ← unitNormal_scaled, ← unitNormal_scaled, ← unitNormal_scaled]
  ring

theorem faceInts_eq (pa pb : Nat) (xa xb : Nat → ℝ) (ra rb : Rule ℝ) (g : ℝ → ℝ → ℝ) :
    faceInts e s pa pb xa xb ra rb g = (List.range pb).flatMap fun k => (List.range pa).map fun j =>
      face3 xa xb ra rb j k fun a b => g a b * Real.sqrt (metric e s a b) := by
  rw [faceInts, loop2_zipIdx]
  refine List.flatMap_congr fun k _ => List.map_congr_left fun j hj => ?_
  have hj := List.mem_range.mp hj
  simp only [face3, edge3, Finset.mul_sum]
  refine Finset.sum_congr rfl fun q _ => Finset.sum_congr rfl fun t _ => ?_
  simp only [kron1, fIdx2_mod hj, fIdx2_div hj, qnode_eq, lens]
  ring

theorem fluxDensity_eq (f : (Fin 3 → ℝ) → Fin 3 → ℝ) (a b : ℝ) :
    fluxDensity e s (onTe e s f) a b = normal3 e f (across3 s) (onSide3 s a b) := by
  rw [← fullEp_eq]
  cases s <;> simp only [fluxDensity, crossJ, crossV, dotV, jac, onTe, TraceDisc.map, across3, normal3_at0, normal3_at1, normal3_at2,
    Matrix.cons_val_zero, Matrix.cons_val_one, Matrix.cons_val] <;> ring

/-- C84 (2-forms): the fluxes. -/
theorem c84_2 (hx0 : NodesOK p0 x0) (hx1 : NodesOK p1 x1) (hx2 : NodesOK p2 x2) (he : OrthOK3 e) (f : (Fin 3 → ℝ) → Fin 3 → ℝ) :
    (Three.dofs2 p0 p1 p2 s).map (fun d => (Disc.Three.disc2 p0 p1 p2 x0 x1 x2 r0 r1 r2 e f)[d]?) =
      (te2v e s p0 p1 p2 x0 x1 x2 r0 r1 r2 (onTe e s f)).map some := by
  cases s <;> simp only [Three.dofs2, te2v, te2, faceInts_eq, flux_scaled, fluxDensity_eq, onSide3, across3] <;>
    refine ravelF_some fun i j hi hj => ?_ <;>
    first
    | rw [disc2_c0 _ _ _ _ _ _ _ _ _ he _ (by omega) (by omega) (by omega)]
      simp only [hx0.first, hx0.last]
    | rw [disc2_c1 _ _ _ _ _ _ _ _ _ he _ (by omega) (by omega) (by omega)]
      simp only [hx1.first, hx1.last]
    | rw [disc2_c2 _ _ _ _ _ _ _ _ _ he _ (by omega) (by omega) (by omega)]
      simp only [hx2.first, hx2.last]
end
end Mifem.Props
