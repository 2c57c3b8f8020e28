import Mathlib.Data.Matrix.Mul
import Mathlib.Data.Matrix.Block

/-!
# Schur complement reduction

Model of `/repo/tools/miLinearAlgebra/solvers/Schur/rank2/helpers/scipy_sparse_linalg_direct.py` (the function
`___scipy_sparse_linalg_direct___`). The element-wise matrices are given per element `e`; element `e` has `p e` dofs in the
eliminated blocks and `q e` in the others. The direct solver is not modelled: a solution of the reduced system is an argument.
-/

namespace Mifem.Schur

variable {F : Type} [Field F] {E : Nat} {p q : Fin E → Nat}

/-- the element-wise blocks; `invM e` is `M.inv[e]`. -/
structure Blocks (F : Type) {E : Nat} (p q : Fin E → Nat) where
  M : (e : Fin E) → Matrix (Fin (p e)) (Fin (p e)) F
  invM : (e : Fin E) → Matrix (Fin (p e)) (Fin (p e)) F
  B : (e : Fin E) → Matrix (Fin (p e)) (Fin (q e)) F
  C : (e : Fin E) → Matrix (Fin (q e)) (Fin (p e)) F
  D : (e : Fin E) → Matrix (Fin (q e)) (Fin (q e)) F
  g : (e : Fin E) → Fin (p e) → F
  h : (e : Fin E) → Fin (q e) → F

/-- line 38: `rA = D - C @ inv_M @ B`. -/
def rA (S : Blocks F p q) (e : Fin E) : Matrix (Fin (q e)) (Fin (q e)) F := S.D e - S.C e * S.invM e * S.B e

/-- line 39: `rb = h - C @ inv_M @ g`. -/
def rb (S : Blocks F p q) (e : Fin E) : Fin (q e) → F := S.h e - (S.C e * S.invM e).mulVec (S.g e)

/-- `.assembled` of a matrix with gathering matrices `row`, `col` (see C16). -/
def assembleM {I : Type} [DecidableEq I] {r c : Fin E → Type} [∀ e, Fintype (r e)] [∀ e, Fintype (c e)]
    (row : (e : Fin E) → r e → I) (col : (e : Fin E) → c e → I) (A : (e : Fin E) → Matrix (r e) (c e) F) : Matrix I I F :=
  fun i j => ∑ e, ∑ a, ∑ b, if row e a = i ∧ col e b = j then A e a b else 0

/-- `.assembled` of a vector. -/
def assembleV {I : Type} [DecidableEq I] {r : Fin E → Type} [∀ e, Fintype (r e)]
    (row : (e : Fin E) → r e → I) (v : (e : Fin E) → r e → F) : I → F :=
  fun i => ∑ e, ∑ a, if row e a = i then v e a else 0

/-- lines 41-47: the reduced system. Note that the right hand side is assembled with the gathering matrix of the
columns. -/
def reducedA {n : Nat} (S : Blocks F p q) (row col : (e : Fin E) → Fin (q e) → Fin n) : Matrix (Fin n) (Fin n) F :=
  assembleM row col (rA S)

def reducedb {n : Nat} (S : Blocks F p q) (_row col : (e : Fin E) → Fin (q e) → Fin n) : Fin n → F := assembleV col (rb S)

/-- lines 55-66: the local vectors `X[e]`, given the solution of the reduced system. -/
def result {n : Nat} (S : Blocks F p q) (_row col : (e : Fin E) → Fin (q e) → Fin n) (y : Fin n → F) (e : Fin E) :
    Fin (p e) ⊕ Fin (q e) → F :=
  let Li := fun a => y (col e a)
  Sum.elim ((S.invM e).mulVec (S.g e - (S.B e).mulVec Li)) Li

end Mifem.Schur
