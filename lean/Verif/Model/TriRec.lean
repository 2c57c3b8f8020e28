import Verif.Model.TriForms
import Verif.Model.Metric

/-!
# Basis functions and reconstruction on triangular meshes

Python sources (in `/repo/objects/miUsGrid/triangular`):
* `space/evaluation.py` lines 70-144 (basis functions), `space/num_basis_components.py` lines 22-30
* `forms/standard/base/do.py` lines 25-57 (`evaluate_basis_at_meshgrid`), 60-124 (`make_reconstruction_matrix_on_grid`)
* `forms/standard/base/cochain/main.py` lines 21-38
* `forms/standard/_0/base/reconstruct/main.py` lines 22-81, `_1/outer/reconstruct/main.py` lines 23-95,
  `_1/inner/reconstruct/main.py` lines 23-92, `_2/base/reconstruct/main.py` lines 22-95
* `mesh/elements/element/coordinate_transformation/main.py` lines 103-125

The dictionaries over the elements are functions; the keyword `vectorized` (not implemented) and the checks of the grid are
left out.  The inverse of the Jacobian matrix is that of `Metric.Two` (the same formulas); the caches are a separate subject.
-/

namespace Mifem.Tri

open Mifem.Basis

variable {K : Type*} [Field K]

/-- `A[s:, :]`. -/
def rowsFrom (s : Nat) (A : Arr K) : Arr K := ⟨A.rows - s, A.cols, fun r c => A.e (s + r) c⟩

/-- `A[0, :]`, to which `np.kron` adds a leading axis. -/
def row0 (A : Arr K) : Arr K := ⟨1, A.cols, fun _ c => A.e 0 c⟩

/-- `np.sum(A, axis=0)[np.newaxis, :]`. -/
def sumRows (A : Arr K) : Arr K := ⟨1, A.cols, fun _ c => ((List.range A.rows).map fun r => A.e r c).sum⟩

/-- `np.vstack((A, B))`. -/
def vstack (A B : Arr K) : Arr K := ⟨A.rows + B.rows, A.cols, fun r c => if r < A.rows then A.e r c else B.e (r - A.rows) c⟩

/-- evaluation.py 80-88. -/
def basisS0 (nodes xs ys : List K) : Arr K :=
  vstack (sumRows (kron (row0 (nodeBasis nodes ys)) (nodeBasis nodes xs)))
    (kron (rowsFrom 1 (nodeBasis nodes ys)) (nodeBasis nodes xs))

/-- evaluation.py 107 and 124. -/
def basisDy (nodes xs ys : List K) : Arr K := kron (edgeBasis nodes ys) (nodeBasis nodes xs)

/-- evaluation.py 108 and 125. -/
def basisDx (nodes xs ys : List K) : Arr K := kron (rowsFrom 1 (nodeBasis nodes ys)) (edgeBasis nodes xs)

/-- evaluation.py 138-144. -/
def basisS2 (nodes xs ys : List K) : Arr K := kron (edgeBasis nodes ys) (edgeBasis nodes xs)

/-- base/do.py 34-57: `tM[e] @ vstack(basis)`, split again; `T` is the diagonal of `tM[e]`. -/
def withTransition (T : Nat → Int) (b : Arr K × Arr K) : Arr K × Arr K :=
  let B := vstack b.1 b.2
  let D : Arr K := ⟨B.rows, B.cols, fun r c => (T r : K) * B.e r c⟩
  (⟨b.1.rows, D.cols, D.e⟩, rowsFrom b.1.rows D)

/-- evaluation.py 97-112 (`(basis_dy, basis_dx)`) and base/do.py. -/
def basisOuter (nodes : List K) (T : Nat → Int) (xs ys : List K) : Arr K × Arr K :=
  withTransition T (basisDy nodes xs ys, basisDx nodes xs ys)

/-- evaluation.py 115-129 (`(basis_dx, basis_dy)`) and base/do.py. -/
def basisInner (nodes : List K) (T : Nat → Int) (xs ys : List K) : Arr K × Arr K :=
  withTransition T (basisDx nodes xs ys, basisDy nodes xs ys)

/-- `element.coordinate_transformation.inverse_Jacobian_matrix` at the `c`-th point of the grid. -/
def inverseAt (pts : Fin 3 → K × K) (xs ys : List K) (c : Nat) : Metric.M2 K :=
  Metric.Two.inverse (jacobianMatrix pts ![(Basis.Two.meshgrid xs ys c).1, (Basis.Two.meshgrid xs ys c).2])

/-- _0/base/reconstruct/main.py 61. -/
def recon0 (nodes xs ys : List K) (w : Nat → K) (c : Nat) : K := einsum (basisS0 nodes xs ys) w c

/-- _1/inner/reconstruct/main.py 61-70; num_basis_components.py 30: `u` has `p ** 2` entries. -/
def reconInner (p : Nat) (nodes : List K) (T : Nat → Int) (pts : Fin 3 → K × K) (xs ys : List K) (w : Nat → K) (c : Nat) : Fin 2 → K :=
  let b := basisInner nodes T xs ys
  let u := einsum b.1 w c
  let v := einsum b.2 (slice w (p ^ 2)) c
  let iJ := inverseAt pts xs ys c
  ![u * iJ 0 0 + v * iJ 1 0, u * iJ 0 1 + v * iJ 1 1]

/-- _1/outer/reconstruct/main.py 61-72; num_basis_components.py 25: `u` has `p * (p + 1)` entries. -/
def reconOuter (p : Nat) (nodes : List K) (T : Nat → Int) (pts : Fin 3 → K × K) (xs ys : List K) (w : Nat → K) (c : Nat) : Fin 2 → K :=
  let b := basisOuter nodes T xs ys
  let u := einsum b.1 w c
  let v := einsum b.2 (slice w (p * (p + 1))) c
  let iJ := inverseAt pts xs ys c
  ![u * iJ 1 1 - v * iJ 0 1, -u * iJ 1 0 + v * iJ 0 0]

/-- _2/base/reconstruct/main.py 69-74. -/
def recon2 (nodes : List K) (pts : Fin 3 → K × K) (xs ys : List K) (w : Nat → K) (c : Nat) : K :=
  einsum ⟨(basisS2 nodes xs ys).rows, (basisS2 nodes xs ys).cols,
    fun r c => (basisS2 nodes xs ys).e r c * Metric.Two.inverseJacobian (inverseAt pts xs ys c)⟩ w c

/-! ## Reconstruction matrices -/

/-- `RM[i] @ x`, entry `c`. -/
def applyRM (A : Arr K) (x : Nat → K) (c : Nat) : K := ((List.range A.cols).map fun i => A.e c i * x i).sum

/-- `np.einsum('ji, j -> ji', b.T, f)`. -/
def scaledT (b : Arr K) (f : Nat → K) : Arr K := ⟨b.cols, b.rows, fun c r => b.e r c * f c⟩

/-- `np.hstack((A, B))`. -/
def hstack (A B : Arr K) : Arr K := ⟨A.rows, A.cols + B.cols, fun r c => if c < A.cols then A.e r c else B.e r (c - A.cols)⟩

/-- base/do.py 86-88. -/
def rm0 (nodes xs ys : List K) : Arr K :=
  let b := basisS0 nodes xs ys
  ⟨b.cols, b.rows, fun c r => b.e r c⟩

/-- base/do.py 90-101. -/
def rmInner (nodes : List K) (T : Nat → Int) (pts : Fin 3 → K × K) (xs ys : List K) : Arr K × Arr K :=
  let b := basisInner nodes T xs ys
  let iJ := inverseAt pts xs ys
  (hstack (scaledT b.1 fun c => iJ c 0 0) (scaledT b.2 fun c => iJ c 1 0),
    hstack (scaledT b.1 fun c => iJ c 0 1) (scaledT b.2 fun c => iJ c 1 1))

/-- base/do.py 103-113. -/
def rmOuter (nodes : List K) (T : Nat → Int) (pts : Fin 3 → K × K) (xs ys : List K) : Arr K × Arr K :=
  let b := basisOuter nodes T xs ys
  let iJ := inverseAt pts xs ys
  (hstack (scaledT b.1 fun c => iJ c 1 1) (scaledT b.2 fun c => -iJ c 0 1),
    hstack (scaledT b.1 fun c => -iJ c 1 0) (scaledT b.2 fun c => iJ c 0 0))

/-- base/do.py 115-119. -/
def rm2 (nodes : List K) (pts : Fin 3 → K × K) (xs ys : List K) : Arr K :=
  scaledT (basisS2 nodes xs ys) fun c => Metric.Two.inverseJacobian (inverseAt pts xs ys c)

end Mifem.Tri
