import Verif.Model.Incidence
import Mathlib.Algebra.Field.Defs
import Mathlib.Algebra.Order.Field.Basic
import Mathlib.Data.List.Range

/-!
# One-dimensional basis polynomials and their tensor products

Python sources:
* `/repo/objects/CSCG/base/spaces/_1d_basis/polynomials.py` lines 58-67 (checks on the nodes), 96-112 (node
  basis), 114-128 (edge basis), 146-191 (derivatives)
* `/repo/objects/CSCG/_2d/spaces/base/do.py` lines 59-105 (2D tensor products)
* `/repo/objects/CSCG/_3d/spaces/base/do.py` lines 112-183 (3D tensor products)
* `/repo/objects/CSCG/_3d/forms/standard/_0s/reconstruct.py` line 102, `_1s/reconstruct.py` lines 79-87,
  `_2s/reconstruct.py` lines 82-84 and `_3d/forms/standard/base/cochain/main.py` lines 40-59
  (reconstruction in the reference element)

The arithmetic is exact arithmetic in a field instead of floating point.  A two-dimensional numpy array is a
function of its two indices together with the two sizes.
-/

namespace Mifem.Basis

/-- A two-dimensional numpy array. -/
structure Arr (K : Type*) where
  rows : Nat
  cols : Nat
  e : Nat → Nat → K

section
variable {K : Type*} [Field K]

/-- `nodes[i]`. -/
def node (nodes : List K) (i : Nat) : K := nodes.getD i 0

/-- polynomials.py 60-61: `np.all(np.diff(nodes) > 0) and np.max(nodes) == 1 and np.min(nodes) == -1`.
For increasing nodes the maximum is the last and the minimum the first one. -/
def accepted [LinearOrder K] (nodes : List K) : Bool :=
  (List.range (nodes.length - 1)).all (fun i => decide (node nodes i < node nodes (i + 1))) &&
    decide (nodes.getLast? = some 1) && decide (nodes.head? = some (-1))

/-- polynomials.py 102-108: row `i` of the node basis at one point `x`,
`for j in range(p): if i != j: basis[i, :] *= (x - nodes[j]) / (nodes[i] - nodes[j])`. -/
def lagrangeAt (nodes : List K) (i : Nat) (x : K) : K :=
  (List.range nodes.length).foldl
    (fun b j => if i ≠ j then b * ((x - node nodes j) / (node nodes i - node nodes j)) else b) 1

/-- polynomials.py 96-112 (`node_basis`, without its cache): shape `(p+1, size(x))`. -/
def nodeBasis (nodes xs : List K) : Arr K :=
  ⟨nodes.length, xs.length, fun i c => lagrangeAt nodes i (xs.getD c 0)⟩

/-- polynomials.py 172-174: differences of the nodes with ones on the diagonal. -/
def xiXj (nodes : List K) (k j : Nat) : K := if k = j then 1 else node nodes k - node nodes j

/-- polynomials.py 176: `c_i = np.prod(xi_xj, axis=1)`. -/
def cI (nodes : List K) (k : Nat) : K := ((List.range nodes.length).map (xiXj nodes k)).prod

/-- polynomials.py 178-182: `c_i_div_cj / xi_xj` with zeros on the diagonal. -/
def offDiag (nodes : List K) (k j : Nat) : K :=
  if k = j then 0 else (cI nodes k / cI nodes j) / xiXj nodes k j

/-- polynomials.py 147-185 (`__derivative_poly_nodes__`): the diagonal is minus the sum of the row. -/
def derivNodes (nodes : List K) (k j : Nat) : K :=
  if k = j then -((List.range nodes.length).map (offDiag nodes k)).sum else offDiag nodes k j

/-- polynomials.py 187-191 (`_derivative_poly_`): `transpose(nodal_derivative) @ polynomials`, row `j` at one
point. -/
def derivAt (nodes : List K) (j : Nat) (x : K) : K :=
  ((List.range nodes.length).map fun k => derivNodes nodes k j * lagrangeAt nodes k x).sum

/-- polynomials.py 122-125: `for j in range(i + 1): edge_poly[i] -= derivatives_poly[j, :]`. -/
def edgeAt (nodes : List K) (i : Nat) (x : K) : K :=
  (List.range (i + 1)).foldl (fun b j => b - derivAt nodes j x) 0

/-- polynomials.py 114-128 (`edge_basis`, without its cache): shape `(p, size(x))`. -/
def edgeBasis (nodes xs : List K) : Arr K :=
  ⟨nodes.length - 1, xs.length, fun i c => edgeAt nodes i (xs.getD c 0)⟩

/-- `np.kron(A, B)`. -/
def kron (A B : Arr K) : Arr K :=
  ⟨A.rows * B.rows, A.cols * B.cols,
    fun r c => A.e (r / B.rows) (c / B.cols) * B.e (r % B.rows) (c % B.cols)⟩

/-- `np.einsum('ij, i -> j', basis, cochain)`: entry `c`. -/
def einsum (A : Arr K) (w : Nat → K) (c : Nat) : K := ((List.range A.rows).map fun i => A.e i c * w i).sum

/-- `a[s:]`. -/
def slice (w : Nat → K) (s : Nat) : Nat → K := fun i => w (s + i)

/-! ## 2D (`_2d/spaces/base/do.py` 59-90) -/
namespace Two

/-- lines 60-64, the basis of the (inner or outer) 0-form. -/
def basis0 (nx ny xs ys : List K) : Arr K := kron (nodeBasis ny ys) (nodeBasis nx xs)
/-- lines 67-74 (`bf_edge_dxi`). -/
def basisDxi (nx ny xs ys : List K) : Arr K := kron (nodeBasis ny ys) (edgeBasis nx xs)
/-- lines 67-74 (`bf_edge_det`). -/
def basisDet (nx ny xs ys : List K) : Arr K := kron (edgeBasis ny ys) (nodeBasis nx xs)
/-- lines 86-90. -/
def basis2 (nx ny xs ys : List K) : Arr K := kron (edgeBasis ny ys) (edgeBasis nx xs)

/-- lines 101-104: `np.meshgrid(*domain, indexing='ij')` with `ravel('F')`. -/
def meshgrid (xs ys : List K) (c : Nat) : K × K := (xs.getD (c % xs.length) 0, ys.getD (c / xs.length) 0)

/-- Reconstruction of a 0-form in the reference element. -/
def recon0 (nx ny xs ys : List K) (w : Nat → K) (c : Nat) : K := einsum (basis0 nx ny xs ys) w c

/-- Reconstruction of an inner 1-form: basis `(bf_edge_dxi, bf_edge_det)`, the cochain split after
`basis_components[0]` entries. -/
def reconInner1 (nx ny xs ys : List K) (w : Nat → K) (c : Nat) : K × K :=
  (einsum (basisDxi nx ny xs ys) w c,
   einsum (basisDet nx ny xs ys) (slice w (Mifem.Two.nbI1c0 (nx.length - 1) (ny.length - 1))) c)

/-- Reconstruction of an outer 1-form: basis `(bf_edge_det, bf_edge_dxi)`. -/
def reconOuter1 (nx ny xs ys : List K) (w : Nat → K) (c : Nat) : K × K :=
  (einsum (basisDet nx ny xs ys) w c,
   einsum (basisDxi nx ny xs ys) (slice w (Mifem.Two.nbO1c0 (nx.length - 1) (ny.length - 1))) c)

/-- Reconstruction of a 2-form. -/
def recon2 (nx ny xs ys : List K) (w : Nat → K) (c : Nat) : K := einsum (basis2 nx ny xs ys) w c

end Two

/-! ## 3D (`_3d/spaces/base/do.py` 115-165) -/
namespace Three

/-- `np.kron(np.kron(si, et), xi)`. -/
def kron3 (si et xi : Arr K) : Arr K := kron (kron si et) xi

/-- lines 177-183. -/
def meshgrid (xs ys zs : List K) (c : Nat) : K × K × K :=
  (xs.getD (c % xs.length) 0, ys.getD (c / xs.length % ys.length) 0, zs.getD (c / xs.length / ys.length) 0)

/-- lines 115-121 and `_0s/reconstruct.py` 102. -/
def recon0 (nx ny nz xs ys zs : List K) (w : Nat → K) (c : Nat) : K :=
  einsum (kron3 (nodeBasis nz zs) (nodeBasis ny ys) (nodeBasis nx xs)) w c

/-- lines 123-139 and `_1s/reconstruct.py` 79-87; the axes `x`, `y`, `z` of the cochain as in
`cochain/main.py` 50-56. -/
def recon1 (nx ny nz xs ys zs : List K) (w : Nat → K) (c : Nat) : K × K × K :=
  let p0 := nx.length - 1; let p1 := ny.length - 1; let p2 := nz.length - 1
  (einsum (kron3 (nodeBasis nz zs) (nodeBasis ny ys) (edgeBasis nx xs)) w c,
   einsum (kron3 (nodeBasis nz zs) (edgeBasis ny ys) (nodeBasis nx xs))
     (slice w (Mifem.Three.nb1c0 p0 p1 p2)) c,
   einsum (kron3 (edgeBasis nz zs) (nodeBasis ny ys) (nodeBasis nx xs))
     (slice w (Mifem.Three.nb1 p0 p1 p2 - Mifem.Three.nb1c2 p0 p1 p2)) c)

/-- lines 141-157 and `_2s/reconstruct.py` 82-84. -/
def recon2 (nx ny nz xs ys zs : List K) (w : Nat → K) (c : Nat) : K × K × K :=
  let p0 := nx.length - 1; let p1 := ny.length - 1; let p2 := nz.length - 1
  (einsum (kron3 (edgeBasis nz zs) (edgeBasis ny ys) (nodeBasis nx xs)) w c,
   einsum (kron3 (edgeBasis nz zs) (nodeBasis ny ys) (edgeBasis nx xs))
     (slice w (Mifem.Three.nb2c0 p0 p1 p2)) c,
   einsum (kron3 (nodeBasis nz zs) (edgeBasis ny ys) (edgeBasis nx xs))
     (slice w (Mifem.Three.nb2 p0 p1 p2 - Mifem.Three.nb2c2 p0 p1 p2)) c)

/-- lines 159-165. -/
def recon3 (nx ny nz xs ys zs : List K) (w : Nat → K) (c : Nat) : K :=
  einsum (kron3 (edgeBasis nz zs) (edgeBasis ny ys) (edgeBasis nx xs)) w c

end Three
end
end Mifem.Basis
