import Verif.Props.Sides
import Mathlib.Algebra.BigOperators.Intervals

/-!
# C43: trace matrices pick the dofs on the sides, with a sign

`(T x)` listed row by row is: for every side in order, sign times the values of `x` on the dofs of that side.
The outward orientation is specified by Gauss' theorem: the sum of the cell divergences is the sum of the boundary
contributions. That holds in 3D and fails in 2D (signs on `U`, `D` are reversed).
-/

namespace Mifem.Props
open Mifem Finset

variable {R : Type*} [Ring R]

/-- sign of the outward orientation: `-` on N, W, B and `+` on S, E, F (doc string of `TraceMatrix`). -/
def outward3 : Three.Side → ℤ
  | .N => -1 | .S => 1 | .W => -1 | .E => 1 | .B => -1 | .F => 1

/-- the same in 2D: `-` on U, L, `+` on D, R (doc string of `TraceMatrix`). -/
def outward2 : Two.Side → ℤ
  | .U => -1 | .D => 1 | .L => -1 | .R => 1

theorem dofs0_lt (p0 p1 p2 : Nat) (s : Three.Side) : ∀ d ∈ Three.dofs0 p0 p1 p2 s, d < Three.nb0 p0 p1 p2 := by
  intro d hd
  cases s <;> simp only [Three.dofs0, mem_ravelF] at hd <;> obtain ⟨i, j, hi, hj, rfl⟩ := hd <;>
    exact (Three.ln0_bd (by omega) (by omega) (by omega)).2

theorem dofs1_lt (p0 p1 p2 : Nat) (s : Three.Side) : ∀ d ∈ Three.dofs1 p0 p1 p2 s, d < Three.nb1 p0 p1 p2 := by
  intro d hd
  cases s <;> simp only [Three.dofs1, List.mem_append, mem_ravelF] at hd <;>
    rcases hd with ⟨i, j, hi, hj, rfl⟩ | ⟨i, j, hi, hj, rfl⟩ <;>
    first
    | (have := Three.ln1c0_bd (p0 := p0) (p1 := p1) (p2 := p2) (i := i) (j := j) (k := 0) (by omega) (by omega) (by omega)
       unfold Three.nb1; omega)
    | (have := Three.ln1c0_bd (p0 := p0) (p1 := p1) (p2 := p2) (i := i) (j := j) (k := p2) (by omega) (by omega) (by omega)
       unfold Three.nb1; omega)
    | (have := Three.ln1c0_bd (p0 := p0) (p1 := p1) (p2 := p2) (i := i) (j := 0) (k := j) (by omega) (by omega) (by omega)
       unfold Three.nb1; omega)
    | (have := Three.ln1c0_bd (p0 := p0) (p1 := p1) (p2 := p2) (i := i) (j := p1) (k := j) (by omega) (by omega) (by omega)
       unfold Three.nb1; omega)
    | (have := Three.ln1c1_bd (p0 := p0) (p1 := p1) (p2 := p2) (i := 0) (j := i) (k := j) (by omega) (by omega) (by omega)
       unfold Three.nb1; omega)
    | (have := Three.ln1c1_bd (p0 := p0) (p1 := p1) (p2 := p2) (i := p0) (j := i) (k := j) (by omega) (by omega) (by omega)
       unfold Three.nb1; omega)
    | (have := Three.ln1c1_bd (p0 := p0) (p1 := p1) (p2 := p2) (i := i) (j := j) (k := 0) (by omega) (by omega) (by omega)
       unfold Three.nb1; omega)
    | (have := Three.ln1c1_bd (p0 := p0) (p1 := p1) (p2 := p2) (i := i) (j := j) (k := p2) (by omega) (by omega) (by omega)
       unfold Three.nb1; omega)
    | exact (Three.ln1c2_bd (by omega) (by omega) (by omega)).2

theorem dofs2_lt (p0 p1 p2 : Nat) (s : Three.Side) : ∀ d ∈ Three.dofs2 p0 p1 p2 s, d < Three.nb2 p0 p1 p2 := by
  intro d hd
  cases s <;> simp only [Three.dofs2, mem_ravelF] at hd <;> obtain ⟨i, j, hi, hj, rfl⟩ := hd
  · have := Three.ln2c0_bd (p0 := p0) (i := 0) (by omega) hi hj; unfold Three.nb2; omega
  · have := Three.ln2c0_bd (p0 := p0) (i := p0) (by omega) hi hj; unfold Three.nb2; omega
  · have := Three.ln2c1_bd (p1 := p1) (j := 0) hi (by omega) hj; unfold Three.nb2; omega
  · have := Three.ln2c1_bd (p1 := p1) (j := p1) hi (by omega) hj; unfold Three.nb2; omega
  · exact (Three.ln2c2_bd hi hj (by omega)).2
  · exact (Three.ln2c2_bd hi hj (by omega)).2

theorem dofsO1_lt (p0 p1 : Nat) (s : Two.Side) : ∀ d ∈ Two.dofsO1 p0 p1 s, d < Two.nbO1 p0 p1 := by
  intro d hd
  cases s <;> simp only [Two.dofsO1, List.mem_map, List.mem_range] at hd <;> obtain ⟨i, hi, rfl⟩ := hd
  · exact Two.lnO1c0_lt' (by omega) hi
  · exact Two.lnO1c0_lt' (by omega) hi
  · exact (Two.lnO1c1_lt hi (by omega)).2
  · exact (Two.lnO1c1_lt hi (by omega)).2

/-- the six sides in the documented order. -/
def sides3 : List Three.Side := [.N, .S, .W, .E, .B, .F]
/-- the four sides in the documented order. -/
def sides2 : List Two.Side := [.U, .D, .L, .R]

/-- 3D, 0-trace: rows of the trace matrix applied to any local cochain, side by side with the outward sign. -/
theorem c43_3d_trace0 (p0 p1 p2 : Nat) (x : Nat → R) :
    (List.range (Three.nbT0 p0 p1 p2)).map (applyM (Three.nb0 p0 p1 p2) (Three.trace0 p0 p1 p2) x)
      = sides3.flatMap (fun s => (Three.dofs0 p0 p1 p2 s).map (fun d => (outward3 s : R) * x d)) := by
  unfold Three.trace0
  rw [applyM_trace _ _ _ (dofs0_lt p0 p1 p2) x]
  · simp [Three.sideSigns, sides3, outward3]
  · simp [Three.sideSigns, Three.dofs0, ravelF_length, Three.nbT0]; ring

/-- 3D, 1-trace. -/
theorem c43_3d_trace1 (p0 p1 p2 : Nat) (x : Nat → R) :
    (List.range (Three.nbT1 p0 p1 p2)).map (applyM (Three.nb1 p0 p1 p2) (Three.trace1 p0 p1 p2) x)
      = sides3.flatMap (fun s => (Three.dofs1 p0 p1 p2 s).map (fun d => (outward3 s : R) * x d)) := by
  unfold Three.trace1
  rw [applyM_trace _ _ _ (dofs1_lt p0 p1 p2) x]
  · simp [Three.sideSigns, sides3, outward3]
  · simp [Three.sideSigns, Three.dofs1, ravelF_length, Three.nbT1]; ring

/-- 3D, 2-trace. -/
theorem c43_3d_trace2 (p0 p1 p2 : Nat) (x : Nat → R) :
    (List.range (Three.nbT2 p0 p1 p2)).map (applyM (Three.nb2 p0 p1 p2) (Three.trace2 p0 p1 p2) x)
      = sides3.flatMap (fun s => (Three.dofs2 p0 p1 p2 s).map (fun d => (outward3 s : R) * x d)) := by
  unfold Three.trace2
  rw [applyM_trace _ _ _ (dofs2_lt p0 p1 p2) x]
  · simp [Three.sideSigns, sides3, outward3]
  · simp [Three.sideSigns, Three.dofs2, ravelF_length, Three.nbT2]; ring

/-- the per-side matrices (`'N': Nn, 'S': Ns, ...`): row `k` of the block of the `i`-th side is sign times the `k`-th
dof of that side. -/
theorem block_of_trace {σ : Type} {dofs : σ → List Nat} {signs : List (σ × Int)} {N n : Nat} {E : Nat → Nat → Int}
    {x : Nat → R} (hN : (signs.map (fun sv => (dofs sv.1).length)).sum = N)
    (h : (List.range N).map (applyM n E x) = signs.flatMap (fun sv => (dofs sv.1).map (fun d => (sv.2 : R) * x d)))
    (i : Nat) (hi : i < signs.length) (k : Nat) (hk : k < (dofs signs[i].1).length) :
    applyM n E x (blockStart dofs signs i + k) = (signs[i].2 : R) * x ((dofs signs[i].1)[k]) := by
  have hsplit : signs = signs.take i ++ signs[i] :: signs.drop (i+1) := by simp
  have e1 : ((signs.take i).flatMap (fun sv => (dofs sv.1).map (fun d => (sv.2 : R) * x d))).length
      = blockStart dofs signs i := by
    simp [List.length_flatMap, blockStart]
  have hlt : blockStart dofs signs i + k < N := by
    rw [← hN]
    conv_rhs => rw [hsplit]
    rw [List.map_append, List.sum_append, List.map_cons, List.sum_cons]
    unfold blockStart; omega
  have h2 := congrArg (fun l => l[blockStart dofs signs i + k]?) h
  simp only [List.getElem?_map, List.getElem?_range hlt, Option.map_some] at h2
  have h3 : (signs.flatMap (fun sv => (dofs sv.1).map (fun d => (sv.2 : R) * x d)))[blockStart dofs signs i + k]?
      = some ((signs[i].2 : R) * x ((dofs signs[i].1)[k])) := by
    have hs : signs.flatMap (fun sv => (dofs sv.1).map (fun d => (sv.2 : R) * x d))
        = (signs.take i).flatMap (fun sv => (dofs sv.1).map (fun d => (sv.2 : R) * x d)) ++
          ((dofs signs[i].1).map (fun d => (signs[i].2 : R) * x d) ++
          (signs.drop (i+1)).flatMap (fun sv => (dofs sv.1).map (fun d => (sv.2 : R) * x d))) := by
      conv_lhs => rw [hsplit]
      rw [List.flatMap_append, List.flatMap_cons]
    rw [hs, List.getElem?_append_right (by omega), e1, Nat.add_sub_cancel_left,
      List.getElem?_append_left (by simpa using hk)]
    simp [hk]
  rw [h3] at h2
  exact Option.some.inj h2

/-- Cancellation across a shared side, 3D: element A has side `S` glued to side `N` of element B (likewise `E`-`W`,
`F`-`B`), the cochains agree on it; then every row of A's block and the corresponding row of B's block add to zero. -/
theorem c43_3d_cancel (p0 p1 p2 : Nat) (xA xB : Nat → R) (i : Nat) (hi : i < 3)
    (h : (Three.dofs2 p0 p1 p2 (Three.sideSigns[2*i+1]'(by simp [Three.sideSigns]; omega)).1).map xA
      = (Three.dofs2 p0 p1 p2 (Three.sideSigns[2*i]'(by simp [Three.sideSigns]; omega)).1).map xB)
    (k : Nat) (hk : k < (Three.dofs2 p0 p1 p2 (Three.sideSigns[2*i]'(by simp [Three.sideSigns]; omega)).1).length) :
    applyM (Three.nb2 p0 p1 p2) (Three.trace2 p0 p1 p2) xA
        (blockStart (Three.dofs2 p0 p1 p2) Three.sideSigns (2*i+1) + k)
      + applyM (Three.nb2 p0 p1 p2) (Three.trace2 p0 p1 p2) xB
        (blockStart (Three.dofs2 p0 p1 p2) Three.sideSigns (2*i) + k) = 0 := by
  have hN : (Three.sideSigns.map (fun sv => (Three.dofs2 p0 p1 p2 sv.1).length)).sum = Three.nbT2 p0 p1 p2 := by
    simp [Three.sideSigns, Three.dofs2, ravelF_length, Three.nbT2]; ring
  have hT := fun x : Nat → R => applyM_trace (Three.dofs2 p0 p1 p2) Three.sideSigns hN (dofs2_lt p0 p1 p2) x
  have hlen := congrArg List.length h
  simp only [List.length_map] at hlen
  rw [show Three.trace2 p0 p1 p2 = matOf (traceAux (Three.dofs2 p0 p1 p2) 0 Three.sideSigns) from rfl,
    block_of_trace hN (hT xA) (2*i+1) (by simp [Three.sideSigns]; omega) k (by omega),
    block_of_trace hN (hT xB) (2*i) (by simp [Three.sideSigns]; omega) k hk]
  have e : xA ((Three.dofs2 p0 p1 p2 (Three.sideSigns[2*i+1]'(by simp [Three.sideSigns]; omega)).1)[k]'(by omega))
      = xB ((Three.dofs2 p0 p1 p2 (Three.sideSigns[2*i]'(by simp [Three.sideSigns]; omega)).1)[k]'hk) := by
    have := congrArg (fun l => l[k]?) h
    simp only [List.getElem?_map] at this
    rw [List.getElem?_eq_getElem (by omega), List.getElem?_eq_getElem hk] at this
    simpa using this
  rw [e]
  have : i = 0 ∨ i = 1 ∨ i = 2 := by omega
  rcases this with rfl | rfl | rfl <;> simp [Three.sideSigns]

theorem sum_fIdx2 {M : Type*} [AddCommMonoid M] (a b : Nat) (F : Nat → M) :
    ∑ r ∈ range (a * b), F r = ∑ j ∈ range b, ∑ i ∈ range a, F (fIdx2 a i j) := by
  induction b with
  | zero => simp
  | succ b ih =>
    rw [Nat.mul_succ, Finset.sum_range_add, ih, Finset.sum_range_succ]
    congr 1
    refine Finset.sum_congr rfl fun i _ => ?_
    unfold fIdx2; rw [Nat.add_comm]

theorem sum_fIdx3 {M : Type*} [AddCommMonoid M] (a b c : Nat) (F : Nat → M) :
    ∑ r ∈ range (a * b * c), F r = ∑ k ∈ range c, ∑ j ∈ range b, ∑ i ∈ range a, F (fIdx3 a b i j k) := by
  rw [Nat.mul_assoc, sum_fIdx2, sum_fIdx2]; rfl

/-- **Gauss in 3D**: the sum of the discrete divergences over the cells of an element is the sum of the entries of the
2-trace: the signs of the trace matrix are the outward orientation. -/
theorem c43_3d_gauss (p0 p1 p2 : Nat) (w : Nat → R) :
    ∑ r ∈ range (Three.nb3 p0 p1 p2), applyM (Three.nb2 p0 p1 p2) (Three.div p0 p1 p2) w r
      = ∑ s ∈ range (Three.nbT2 p0 p1 p2), applyM (Three.nb2 p0 p1 p2) (Three.trace2 p0 p1 p2) w s := by
  rw [← sum_map_range (Three.nbT2 p0 p1 p2), c43_3d_trace2]
  unfold Three.nb3
  rw [sum_fIdx3]
  have hd : ∀ k ∈ range p2, ∀ j ∈ range p1, ∀ i ∈ range p0,
      applyM (Three.nb2 p0 p1 p2) (Three.div p0 p1 p2) w (fIdx3 p0 p1 i j k)
      = (w (Three.ln2c0 p0 p1 p2 (i+1) j k) - w (Three.ln2c0 p0 p1 p2 i j k))
      + (w (Three.ln2c1 p0 p1 p2 i (j+1) k) - w (Three.ln2c1 p0 p1 p2 i j k))
      + (w (Three.ln2c2 p0 p1 p2 i j (k+1)) - w (Three.ln2c2 p0 p1 p2 i j k)) := by
    intro k hk j hj i hi
    simp only [Finset.mem_range] at hi hj hk
    have := Three.div_row (p0 := p0) (p1 := p1) (p2 := p2) w hi hj hk
    unfold Three.ln3 at this
    rw [this]; abel
  rw [Finset.sum_congr rfl fun k hk => Finset.sum_congr rfl fun j hj => Finset.sum_congr rfl fun i hi => hd k hk j hj i hi]
  simp only [Finset.sum_add_distrib]
  have e0 : ∑ k ∈ range p2, ∑ j ∈ range p1, ∑ i ∈ range p0,
      (w (Three.ln2c0 p0 p1 p2 (i+1) j k) - w (Three.ln2c0 p0 p1 p2 i j k))
      = ∑ k ∈ range p2, ∑ j ∈ range p1, (w (Three.ln2c0 p0 p1 p2 p0 j k) - w (Three.ln2c0 p0 p1 p2 0 j k)) := by
    refine Finset.sum_congr rfl fun k _ => Finset.sum_congr rfl fun j _ => ?_
    exact Finset.sum_range_sub (fun i => w (Three.ln2c0 p0 p1 p2 i j k)) p0
  have e1 : ∑ k ∈ range p2, ∑ j ∈ range p1, ∑ i ∈ range p0,
      (w (Three.ln2c1 p0 p1 p2 i (j+1) k) - w (Three.ln2c1 p0 p1 p2 i j k))
      = ∑ k ∈ range p2, ∑ i ∈ range p0, (w (Three.ln2c1 p0 p1 p2 i p1 k) - w (Three.ln2c1 p0 p1 p2 i 0 k)) := by
    refine Finset.sum_congr rfl fun k _ => ?_
    rw [Finset.sum_comm]
    refine Finset.sum_congr rfl fun i _ => ?_
    exact Finset.sum_range_sub (fun j => w (Three.ln2c1 p0 p1 p2 i j k)) p1
  have e2 : ∑ k ∈ range p2, ∑ j ∈ range p1, ∑ i ∈ range p0,
      (w (Three.ln2c2 p0 p1 p2 i j (k+1)) - w (Three.ln2c2 p0 p1 p2 i j k))
      = ∑ j ∈ range p1, ∑ i ∈ range p0, (w (Three.ln2c2 p0 p1 p2 i j p2) - w (Three.ln2c2 p0 p1 p2 i j 0)) := by
    rw [Finset.sum_comm]
    refine Finset.sum_congr rfl fun j _ => ?_
    rw [Finset.sum_comm]
    refine Finset.sum_congr rfl fun i _ => ?_
    exact Finset.sum_range_sub (fun k => w (Three.ln2c2 p0 p1 p2 i j k)) p2
  rw [e0, e1, e2]
  simp only [sides3, List.flatMap_cons, List.flatMap_nil, List.append_nil, List.sum_append, Three.dofs2, sum_ravelF,
    outward3]
  simp only [Finset.sum_sub_distrib, Int.cast_neg, Int.cast_one, one_mul, neg_mul, Finset.sum_neg_distrib]
  abel

/-! ### 2D -/

/-- 2D outer 1-trace: what the matrix selects. The signs are `+ - - +` on `U D L R`. Partial: the claim of C43 wants
`outward2`, i.e. `- + - +` (see `c43_2d_not_outward`); the selection of the dofs is as claimed. -/
theorem c43_2d_trace_partial (p0 p1 : Nat) (x : Nat → R) :
    (List.range (Two.nbT1 p0 p1)).map (applyM (Two.nbO1 p0 p1) (Two.traceOuter p0 p1) x)
      = (Two.dofsO1 p0 p1 .U).map x ++ (Two.dofsO1 p0 p1 .D).map (fun d => - x d)
        ++ (Two.dofsO1 p0 p1 .L).map (fun d => - x d) ++ (Two.dofsO1 p0 p1 .R).map x := by
  unfold Two.traceOuter
  rw [applyM_trace _ _ _ (dofsO1_lt p0 p1) x]
  · simp [Two.outerSigns]
  · simp [Two.outerSigns, Two.dofsO1, Two.nbT1]; omega

/-- The two contributions across a shared 2D side cancel (sides `D`-`U` and `R`-`L`), whatever the orientation. -/
theorem c43_2d_cancel (p0 p1 : Nat) (xA xB : Nat → R) (i : Nat) (hi : i < 2)
    (h : (Two.dofsO1 p0 p1 (Two.outerSigns[2*i+1]'(by simp [Two.outerSigns]; omega)).1).map xA
      = (Two.dofsO1 p0 p1 (Two.outerSigns[2*i]'(by simp [Two.outerSigns]; omega)).1).map xB)
    (k : Nat) (hk : k < (Two.dofsO1 p0 p1 (Two.outerSigns[2*i]'(by simp [Two.outerSigns]; omega)).1).length) :
    applyM (Two.nbO1 p0 p1) (Two.traceOuter p0 p1) xA (blockStart (Two.dofsO1 p0 p1) Two.outerSigns (2*i+1) + k)
      + applyM (Two.nbO1 p0 p1) (Two.traceOuter p0 p1) xB (blockStart (Two.dofsO1 p0 p1) Two.outerSigns (2*i) + k) = 0 := by
  have hN : (Two.outerSigns.map (fun sv => (Two.dofsO1 p0 p1 sv.1).length)).sum = Two.nbT1 p0 p1 := by
    simp [Two.outerSigns, Two.dofsO1, Two.nbT1]; omega
  have hT := fun x : Nat → R => applyM_trace (Two.dofsO1 p0 p1) Two.outerSigns hN (dofsO1_lt p0 p1) x
  have hlen := congrArg List.length h
  simp only [List.length_map] at hlen
  rw [show Two.traceOuter p0 p1 = matOf (traceAux (Two.dofsO1 p0 p1) 0 Two.outerSigns) from rfl,
    block_of_trace hN (hT xA) (2*i+1) (by simp [Two.outerSigns]; omega) k (by omega),
    block_of_trace hN (hT xB) (2*i) (by simp [Two.outerSigns]; omega) k hk]
  have e : xA ((Two.dofsO1 p0 p1 (Two.outerSigns[2*i+1]'(by simp [Two.outerSigns]; omega)).1)[k]'(by omega))
      = xB ((Two.dofsO1 p0 p1 (Two.outerSigns[2*i]'(by simp [Two.outerSigns]; omega)).1)[k]'hk) := by
    have := congrArg (fun l => l[k]?) h
    simp only [List.getElem?_map] at this
    rw [List.getElem?_eq_getElem (by omega), List.getElem?_eq_getElem hk] at this
    simpa using this
  rw [e]
  have : i = 0 ∨ i = 1 := by omega
  rcases this with rfl | rfl <;> simp [Two.outerSigns]

/-- The 2D trace matrix is **not** outward oriented: Gauss' theorem fails for it already for degree 1. -/
theorem c43_2d_not_outward :
    ¬ ∀ (p0 p1 : Nat) (u : Nat → ℤ),
      ∑ r ∈ range (Two.nb2 p0 p1), applyM (Two.nbO1 p0 p1) (Two.divOuter p0 p1) u r
        = ∑ s ∈ range (Two.nbT1 p0 p1), applyM (Two.nbO1 p0 p1) (Two.traceOuter p0 p1) u s := by
  intro h
  have := h 1 1 (fun d => if d = 0 then 1 else 0)
  revert this
  decide

example : Two.traceOuter 1 1 0 0 = 1 ∧ Two.divOuter 1 1 0 0 = -1 ∧ Three.trace2 1 2 1 0 0 = -1 := by decide

end Mifem.Props
