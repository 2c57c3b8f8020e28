import Verif.Model.Schur
import Mathlib.LinearAlgebra.Matrix.Notation
import Mathlib.Algebra.BigOperators.Ring.Finset
import Mathlib.Algebra.BigOperators.Group.Finset.Sigma
import Mathlib.Algebra.Field.Rat
import Mathlib.Algebra.BigOperators.Fin
import Mathlib.Tactic.NormNum
import Mathlib.Tactic.FinCases
import Mathlib.Tactic.Abel

/-!
# C32: the Schur complement reduction is equivalent to the full system
-/

namespace Mifem.Props
open Mifem.Schur Matrix

variable {F : Type} [Field F] {E : Nat} {p q : Fin E → Nat} {n : Nat}

/-! ## Specification: the full system -/

/-- the full local matrix. -/
def localA (S : Blocks F p q) (e : Fin E) : Matrix (Fin (p e) ⊕ Fin (q e)) (Fin (p e) ⊕ Fin (q e)) F :=
  Matrix.fromBlocks (S.M e) (S.B e) (S.C e) (S.D e)

/-- the full local right hand side. -/
def localb (S : Blocks F p q) (e : Fin E) : Fin (p e) ⊕ Fin (q e) → F := Sum.elim (S.g e) (S.h e)

/-- numbering of all dofs: those of the eliminated blocks are not shared by elements. -/
def fullGM (G : (e : Fin E) → Fin (q e) → Fin n) (e : Fin E) : Fin (p e) ⊕ Fin (q e) → ((e : Fin E) × Fin (p e)) ⊕ Fin n
  | .inl a => .inl ⟨e, a⟩
  | .inr a => .inr (G e a)

/-- `X` (a vector of the values of all global dofs) solves the assembled full system. -/
def SolvesFull (S : Blocks F p q) (row col : (e : Fin E) → Fin (q e) → Fin n) (X : ((e : Fin E) × Fin (p e)) ⊕ Fin n → F) : Prop :=
  ∀ I, ∑ e, ∑ a, (if fullGM row e a = I then ∑ b, localA S e a b * X (fullGM col e b) else 0) =
    ∑ e, ∑ a, if fullGM row e a = I then localb S e a else 0

/-! ## Theorems -/

theorem assembled_mulVec (row col : (e : Fin E) → Fin (q e) → Fin n) (A : (e : Fin E) → Matrix (Fin (q e)) (Fin (q e)) F) (y : Fin n → F)
    (i : Fin n) : (assembleM row col A).mulVec y i =
      ∑ e, ∑ a, if row e a = i then (A e).mulVec (fun b => y (col e b)) a else 0 := by
  unfold assembleM Matrix.mulVec dotProduct
  simp only [Finset.sum_mul]
  rw [Finset.sum_comm]
  apply Finset.sum_congr rfl
  intro e _
  rw [Finset.sum_comm]
  apply Finset.sum_congr rfl
  intro a _
  rw [Finset.sum_comm]
  by_cases h : row e a = i
  · simp [h]
  · simp [h]

theorem full_inl (S : Blocks F p q) (row : (e : Fin E) → Fin (q e) → Fin n) (v : (e : Fin E) → Fin (p e) ⊕ Fin (q e) → F) (e : Fin E)
    (a : Fin (p e)) : (∑ e', ∑ b, if fullGM row e' b = Sum.inl ⟨e, a⟩ then v e' b else 0) = v e (.inl a) := by
  rw [Finset.sum_eq_single e]
  · rw [Fintype.sum_sum_type]
    simp only [fullGM, Sum.inl.injEq, Sigma.mk.injEq, heq_eq_eq, true_and, reduceCtorEq, if_false, Finset.sum_const_zero, add_zero]
    rw [Finset.sum_ite_eq' Finset.univ a]
    simp
  · intro e' _ hne
    apply Finset.sum_eq_zero
    intro b _
    rw [if_neg]
    cases b with
    | inl b =>
      simp only [fullGM, Sum.inl.injEq, Sigma.mk.injEq, not_and]
      intro h
      exact absurd h hne
    | inr b => simp [fullGM]
  · intro h
    exact absurd (Finset.mem_univ e) h

theorem full_inr (row : (e : Fin E) → Fin (q e) → Fin n) (v : (e : Fin E) → Fin (p e) ⊕ Fin (q e) → F) (i : Fin n) :
    (∑ e, ∑ b, if fullGM row e b = Sum.inr i then v e b else 0) = ∑ e, ∑ b, if row e b = i then v e (.inr b) else 0 := by
  apply Finset.sum_congr rfl
  intro e _
  rw [Fintype.sum_sum_type]
  simp [fullGM]

/-- **C32 (partial).** If rows and columns of the remaining blocks are numbered alike, and the element-wise inverse is right,
then for every solution y of the reduced system the vectors returned by the solver are, element by element, the restriction of a
solution of the full system; and every solution of the full system is obtained in this way. Missing: differently numbered rows
and columns (`c32_counterexample`). -/
theorem c32_schur_partial (S : Blocks F p q) (hl : ∀ e, S.invM e * S.M e = 1) (hr : ∀ e, S.M e * S.invM e = 1)
    (G : (e : Fin E) → Fin (q e) → Fin n) (X : ((e : Fin E) × Fin (p e)) ⊕ Fin n → F) :
    SolvesFull S G G X ↔
      (reducedA S G G).mulVec (fun i => X (.inr i)) = reducedb S G G ∧
        ∀ e a, result S G G (fun i => X (.inr i)) e a = X (fullGM G e a) := by
  -- the equations of the first blocks
  have hloc : ∀ e, (fun a => ∑ b, localA S e a b * X (fullGM G e b)) =
      Sum.elim ((S.M e).mulVec (fun a => X (.inl ⟨e, a⟩)) + (S.B e).mulVec (fun a => X (.inr (G e a))))
        ((S.C e).mulVec (fun a => X (.inl ⟨e, a⟩)) + (S.D e).mulVec (fun a => X (.inr (G e a)))) := by
    intro e
    funext a
    rw [Fintype.sum_sum_type]
    cases a with
    | inl a => rfl
    | inr a => rfl
  have h1 : ∀ e a, (∑ b, localA S e (.inl a) b * X (fullGM G e b)) =
      ((S.M e).mulVec (fun a => X (.inl ⟨e, a⟩)) + (S.B e).mulVec (fun a => X (.inr (G e a)))) a :=
    fun e a => congrFun (hloc e) (.inl a)
  have h2 : ∀ e a, (∑ b, localA S e (.inr a) b * X (fullGM G e b)) =
      ((S.C e).mulVec (fun a => X (.inl ⟨e, a⟩)) + (S.D e).mulVec (fun a => X (.inr (G e a)))) a :=
    fun e a => congrFun (hloc e) (.inr a)
  -- back substitution
  have hback : ∀ e, ((S.M e).mulVec (fun a => X (.inl ⟨e, a⟩)) + (S.B e).mulVec (fun a => X (.inr (G e a))) = S.g e) ↔
      (S.invM e).mulVec (S.g e - (S.B e).mulVec (fun a => X (.inr (G e a)))) = fun a => X (.inl ⟨e, a⟩) := by
    intro e
    constructor
    · intro h
      rw [← h, add_sub_cancel_right, Matrix.mulVec_mulVec, hl, Matrix.one_mulVec]
    · intro h
      rw [← h, Matrix.mulVec_mulVec, hr, Matrix.one_mulVec, sub_add_cancel]
  -- the reduced equations, given the back substitution
  have hred : (∀ e, (S.invM e).mulVec (S.g e - (S.B e).mulVec (fun a => X (.inr (G e a)))) = fun a => X (.inl ⟨e, a⟩)) → ∀ e,
      (S.C e).mulVec (fun a => X (.inl ⟨e, a⟩)) + (S.D e).mulVec (fun a => X (.inr (G e a))) - S.h e =
        (rA S e).mulVec (fun a => X (.inr (G e a))) - rb S e := by
    intro h e
    rw [← h e]
    unfold rA rb
    rw [Matrix.sub_mulVec, Matrix.mulVec_sub, Matrix.mulVec_sub, Matrix.mulVec_mulVec, Matrix.mulVec_mulVec, Matrix.mulVec_mulVec,
      Matrix.mul_assoc]
    abel
  have hiff : (∀ e, (S.invM e).mulVec (S.g e - (S.B e).mulVec (fun a => X (.inr (G e a)))) = fun a => X (.inl ⟨e, a⟩)) →
      ((∀ i, (∑ e, ∑ a, if G e a = i then ((S.C e).mulVec (fun a => X (.inl ⟨e, a⟩)) + (S.D e).mulVec (fun a => X (.inr (G e a)))) a else 0) =
        ∑ e, ∑ a, if G e a = i then S.h e a else 0) ↔ (reducedA S G G).mulVec (fun i => X (.inr i)) = reducedb S G G) := by
    intro h
    rw [funext_iff]
    apply forall_congr'
    intro i
    unfold reducedA reducedb
    rw [assembled_mulVec]
    unfold assembleV
    rw [← sub_eq_zero, ← Finset.sum_sub_distrib, ← sub_eq_zero (a := ∑ e, ∑ a, if G e a = i then (rA S e).mulVec _ a else 0),
      ← Finset.sum_sub_distrib]
    simp only [← Finset.sum_sub_distrib]
    have : ∀ e a, ((if G e a = i then ((S.C e).mulVec (fun a => X (.inl ⟨e, a⟩)) + (S.D e).mulVec (fun a => X (.inr (G e a)))) a else 0) -
        if G e a = i then S.h e a else 0) =
        ((if G e a = i then (rA S e).mulVec (fun a => X (.inr (G e a))) a else 0) - if G e a = i then rb S e a else 0) := by
      intro e a
      by_cases hc : G e a = i
      · simp only [if_pos hc]
        exact congrFun (hred h e) a
      · simp only [if_neg hc]
    simp only [this]
  have hres : (∀ e a, result S G G (fun i => X (.inr i)) e a = X (fullGM G e a)) ↔
      ∀ e, (S.invM e).mulVec (S.g e - (S.B e).mulVec (fun a => X (.inr (G e a)))) = fun a => X (.inl ⟨e, a⟩) := by
    constructor
    · intro h e
      funext a
      exact h e (.inl a)
    · intro h e a
      cases a with
      | inl a => exact congrFun (h e) a
      | inr a => rfl
  have hfull : SolvesFull S G G X ↔
      (∀ e, (S.M e).mulVec (fun a => X (.inl ⟨e, a⟩)) + (S.B e).mulVec (fun a => X (.inr (G e a))) = S.g e) ∧
      (∀ i, (∑ e, ∑ a, if G e a = i then ((S.C e).mulVec (fun a => X (.inl ⟨e, a⟩)) + (S.D e).mulVec (fun a => X (.inr (G e a)))) a else 0) =
        ∑ e, ∑ a, if G e a = i then S.h e a else 0) := by
    unfold SolvesFull
    constructor
    · intro h
      constructor
      · intro e
        funext a
        have := h (.inl ⟨e, a⟩)
        rw [full_inl S G (fun e a => ∑ b, localA S e a b * X (fullGM G e b)), full_inl S G (fun e a => localb S e a)] at this
        rw [← h1 e a, this]
        rfl
      · intro i
        have := h (.inr i)
        rw [full_inr G (fun e a => ∑ b, localA S e a b * X (fullGM G e b)), full_inr G (fun e a => localb S e a)] at this
        simp only [h2] at this
        exact this
    · rintro ⟨ha, hb⟩ I
      cases I with
      | inl a =>
        obtain ⟨e, a⟩ := a
        rw [full_inl S G (fun e a => ∑ b, localA S e a b * X (fullGM G e b)), full_inl S G (fun e a => localb S e a), h1, ha]
        rfl
      | inr i =>
        rw [full_inr G (fun e a => ∑ b, localA S e a b * X (fullGM G e b)), full_inr G (fun e a => localb S e a)]
        simp only [h2]
        exact hb i
  rw [hfull, hres]
  constructor
  · rintro ⟨ha, hb⟩
    have hx := fun e => (hback e).mp (ha e)
    exact ⟨(hiff hx).mp hb, hx⟩
  · rintro ⟨hy, hx⟩
    exact ⟨fun e => (hback e).mpr (hx e), (hiff hx).mpr hy⟩

/-- one element, M = (2), B = (1, 0), C = (1, 0)ᵀ, D = diag(1, 2), g = (2), h = (2, 4). -/
def exampleBlocks : Blocks ℚ (fun _ : Fin 1 => 1) (fun _ => 2) where
  M _ := !![2]
  invM _ := !![1 / 2]
  B _ := !![1, 0]
  C _ := !![1; 0]
  D _ := !![1, 0; 0, 2]
  g _ := ![2]
  h _ := ![2, 4]

example : (∀ e, exampleBlocks.invM e * exampleBlocks.M e = 1) ∧ (∀ e, exampleBlocks.M e * exampleBlocks.invM e = 1) := by
  constructor <;> intro e <;> ext i j <;> fin_cases i <;> fin_cases j <;> simp [exampleBlocks]

/-- **C32 is false of the code** if the rows are numbered differently from the columns: the right hand side is assembled with the
numbering of the columns. Here the rows are numbered (1, 0) and the columns (0, 1); y = (8, 1/2) solves the system that
is solved, but with it the second global equation (first local row) is not met. -/
theorem c32_counterexample :
    let row : (e : Fin 1) → Fin 2 → Fin 2 := fun _ => ![1, 0]
    let col : (e : Fin 1) → Fin 2 → Fin 2 := fun _ => ![0, 1]
    let y : Fin 2 → ℚ := ![8, 1 / 2]
    (reducedA exampleBlocks row col).mulVec y = reducedb exampleBlocks row col ∧
      ¬ SolvesFull exampleBlocks row col
        (Sum.elim (fun a => result exampleBlocks row col y a.1 (.inl a.2)) y) := by
  intro row col y
  constructor
  · funext i
    rw [reducedA, assembled_mulVec, reducedb]
    unfold assembleV
    fin_cases i <;>
      simp [row, col, y, rA, rb, exampleBlocks, Fin.sum_univ_two, Matrix.mulVec, dotProduct, Matrix.mul_apply, Matrix.vecMul] <;> norm_num
  · intro h
    have := h (.inr 1)
    rw [full_inr row, full_inr row] at this
    simp [row, col, y, localA, localb, result, fullGM, exampleBlocks, Fin.sum_univ_two, Fintype.sum_sum_type, Matrix.mulVec, dotProduct] at this
    norm_num at this

end Mifem.Props
