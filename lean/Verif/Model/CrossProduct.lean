import Verif.Model.Metric

/-!
# Cross-product matrices `(w × u, e)`

Python sources, below `/repo/objects/CSCG`:
* `_3d/forms/standard/_1s/special/helpers/cross_product_1__ip_1.py` lines 31-116,
  `cross_product_2__ip_2.py` lines 28-123, `curl1_cross_product_1__ip_2.py` lines 20-112
* `_3d/forms/standard/_2s/special/helpers/cross_product_2__ip_2.py` lines 20-102, `cross_product_2__ip_2_2M0.py`
  lines 26-105, `cross_product_2__ip_1.py` lines 32-123, `cross_product_1__ip_2.py` lines 18-107,
  `inner_curl_cross_2f2f.py` lines 23-151
* `_2d/forms/standard/_0_form/outer/special/helpers/cross_product_1_i_1.py` lines 15-105,
  `cross_product_1_i_1_2M0.py` lines 18-109, `_2_form/inner/special/helpers/cross_product_1_i_1.py` lines 12-100

One mesh element is modelled; the sharing of a tensor between elements with the same metric mark is the subject of
C58.  The arithmetic is exact.  An array with three axes is a function of three indices.
-/

namespace Mifem.Cross
open Mifem.Basis Mifem.Metric

section
variable {K : Type*} [Field K]

/-- The degree of a form of vectors in 3D. -/
inductive Deg where
  | one
  | two
  deriving DecidableEq

/-- The 1D nodes of the space of a form. -/
structure Nodes3 (K : Type*) where
  x : List K
  y : List K
  z : List K

/-- The local number of dofs of a 1-form or a 2-form. -/
def numBasis (k : Deg) (N : Nodes3 K) : Nat :=
  match k with
  | .one => Mifem.Three.nb1 (N.x.length - 1) (N.y.length - 1) (N.z.length - 1)
  | .two => Mifem.Three.nb2 (N.x.length - 1) (N.y.length - 1) (N.z.length - 1)

/-- `f.do.make_reconstruction_matrix_on_grid(*quad_nodes)[i]` of a 1-form (`_1s/inheriting/private.py` 30-103) or a
2-form (`_2s/inheriting/private.py` 30-122).  `J` is the Jacobian matrix of the element as a function of the point;
the points are those of `evaluate_basis_at_meshgrid` (`_3d/spaces/base/do.py` 177-183: raveled with order 'F'). -/
def rm3 (orth : Bool) (J : K × K × K → M3 K) (k : Deg) (N : Nodes3 K) (xs ys zs : List K) : Fin 3 → Arr K :=
  let iJ := fun m => Three.inverse (J (Basis.Three.meshgrid xs ys zs m))
  match k with
  | .one => Three.reconMatrix1 orth iJ (Three.basis1 N.x N.y N.z xs ys zs)
  | .two => Three.reconMatrix2 orth iJ (Three.basis2 N.x N.y N.z xs ys zs)

/-- `xi, et, sg = np.meshgrid(*quad_nodes, indexing='ij')` followed by `ravel()`, order 'C'
(`cross_product_1__ip_1.py` 56-59 and the same lines of the other helpers). -/
def ravelC (xs ys zs : List K) (c : Nat) : K × K × K :=
  (xs.getD (c / zs.length / ys.length) 0, ys.getD (c / zs.length % ys.length) 0, zs.getD (c % zs.length) 0)

/-- `np.meshgrid` followed by `ravel('F')` (`curl1_cross_product_1__ip_2.py` 54-57). -/
def ravelF (xs ys zs : List K) (c : Nat) : K × K × K :=
  (xs.getD (c % xs.length) 0, ys.getD (c / xs.length % ys.length) 0, zs.getD (c / xs.length / ys.length) 0)

/-- `np.einsum('li, lj, lk, l -> ijk', w, u, e, q)`. -/
def tri (n : Nat) (w u e : Arr K) (q : Nat → K) (i j k : Nat) : K :=
  ((List.range n).map fun l => w.e l i * u.e l j * e.e l k * q l).sum

/-- `Aa + Bb + Cc` (`cross_product_1__ip_1.py` 77-83 and 95-102; the same lines in all 3D helpers). -/
def tensor3 (n : Nat) (W U E : Fin 3 → Arr K) (q : Nat → K) (i j k : Nat) : K :=
  let Aa := tri n (W 1) (U 2) (E 0) q i j k - tri n (W 2) (U 1) (E 0) q i j k
  let Bb := tri n (W 2) (U 0) (E 1) q i j k - tri n (W 0) (U 2) (E 1) q i j k
  let Cc := tri n (W 0) (U 1) (E 2) q i j k - tri n (W 1) (U 0) (E 2) q i j k
  Aa + Bb + Cc

/-- `CP_IP_3dM[i]` of a 3D helper: `pts` is the order in which the determinant of the Jacobian matrix is evaluated,
`q` are the weights `quad_weights_1d`, and `quad_weights_1d * dJi` the factor of all terms. -/
def cp3 (pts : List K → List K → List K → Nat → K × K × K) (kw ku ke : Deg) (orth : Bool) (J : K × K × K → M3 K)
    (Nw Nu Ne : Nodes3 K) (xs ys zs : List K) (q : Nat → K) : Nat → Nat → Nat → K :=
  tensor3 (zs.length * ys.length * xs.length) (rm3 orth J kw Nw xs ys zs) (rm3 orth J ku Nu xs ys zs)
    (rm3 orth J ke Ne xs ys zs) (fun m => q m * Three.jacobian (J (pts xs ys zs m)))

/-- `_1s/.../cross_product_1__ip_1.py` 31-110: (1-form × 1-form, 1-form); `ravel()` in lines 57-59. -/
def cross_1_1_1 (orth : Bool) (J : K × K × K → M3 K) := cp3 ravelC .one .one .one orth J
/-- `_1s/.../cross_product_2__ip_2.py` 28-103: (1-form × 2-form, 2-form). -/
def cross_1_2_2 (orth : Bool) (J : K × K × K → M3 K) := cp3 ravelC .one .two .two orth J
/-- `_2s/.../cross_product_2__ip_2.py` 20-92 and `cross_product_2__ip_2_2M0.py` 26-101: (2-form × 2-form, 2-form). -/
def cross_2_2_2 (orth : Bool) (J : K × K × K → M3 K) := cp3 ravelC .two .two .two orth J
/-- `_2s/.../cross_product_2__ip_1.py` 32-113: (2-form × 2-form, 1-form), without the global cache. -/
def cross_2_2_1 (orth : Bool) (J : K × K × K → M3 K) := cp3 ravelC .two .two .one orth J
/-- `_2s/.../cross_product_1__ip_2.py` 18-92: (2-form × 1-form, 2-form). -/
def cross_2_1_2 (orth : Bool) (J : K × K × K → M3 K) := cp3 ravelC .two .one .two orth J
/-- `_1s/.../curl1_cross_product_1__ip_2.py` 20-105: (2-form × 1-form, 2-form); `ravel('F')` in lines 55-57. -/
def cross_curl1 (orth : Bool) (J : K × K × K → M3 K) := cp3 ravelF .two .one .two orth J

/-- `np.einsum('ijk, i -> kj', T, w)` (`__call__` of the helpers, output '2-M-1'): rows `e`, columns `u`. -/
def m21 (nw : Nat) (T : Nat → Nat → Nat → K) (w : Nat → K) (k j : Nat) : K :=
  ((List.range nw).map fun i => T i j k * w i).sum

/-- `np.einsum('ijk, j -> ki', T, u)` (`_2_M_0_` of all helpers but `cross_product_1__ip_1`, output '2-M-0'): rows
`e`, columns `w`. -/
def m20 (nu : Nat) (T : Nat → Nat → Nat → K) (u : Nat → K) (k i : Nat) : K :=
  ((List.range nu).map fun j => T i j k * u j).sum

/-- `np.einsum('ijk, i -> ki', T, u)` (`cross_product_1__ip_1.py` 116, output '2-M-0'): the index `j` is summed
without a factor.  numpy refuses a vector whose length is not that of the first axis. -/
def m20_1_1_1 (nw nu : Nat) (T : Nat → Nat → Nat → K) (u : Nat → K) : Option (Nat → Nat → K) :=
  if nw = nu then some fun k i => ((List.range nu).map fun j => T i j k * u i).sum else none

/-- `np.einsum('ijk, i, j -> k', T, E21 @ u, u)` (`curl1_cross_product_1__ip_2.py` 109-112).  `E i j` is the
incidence matrix. -/
def curl1Vector (nw nu : Nat) (T : Nat → Nat → Nat → K) (E : Nat → Nat → K) (u : Nat → K) (k : Nat) : K :=
  ((List.range nw).map fun i => ((List.range nu).map fun j =>
    T i j k * ((List.range nu).map fun c => E i c * u c).sum * u j).sum).sum

/-- `inner_curl_cross_2f2f.py` 84-90: `invM` (1-form of the new space), `cpm` the tensor of (u × B, 1-form), `E` the
incidence matrix, `M` the inner product of the 2-form of the new space (columns) and `b` (rows). -/
def innerCurl (n1 n2 : Nat) (M E invM : Nat → Nat → K) (cpm : Nat → Nat → Nat → K) (m n k : Nat) : K :=
  let f1 := fun i m n => ((List.range n1).map fun j => invM i j * cpm m n j).sum
  let f2 := fun j m n => ((List.range n1).map fun i => E j i * f1 i m n).sum
  ((List.range n2).map fun j => M k j * f2 j m n).sum

/-! ## 2D -/

/-- The 1D nodes of the space of a form. -/
structure Nodes2 (K : Type*) where
  x : List K
  y : List K

/-- The orientation of a 1-form. -/
inductive Side where
  | inner
  | outer
  deriving DecidableEq

/-- The local number of dofs of a 1-form. -/
def numBasis1 (s : Side) (N : Nodes2 K) : Nat :=
  match s with
  | .inner => Mifem.Two.nbI1 (N.x.length - 1) (N.y.length - 1)
  | .outer => Mifem.Two.nbO1 (N.x.length - 1) (N.y.length - 1)

/-- `_2d/.../_1_form/inner/main.py` 77-125 and `outer/main.py` 81-129. -/
def rm2 (orth : Bool) (J : K × K → M2 K) (s : Side) (N : Nodes2 K) (xs ys : List K) : Fin 2 → Arr K :=
  let iJ := fun m => Two.inverse (J (Basis.Two.meshgrid xs ys m))
  match s with
  | .inner => Two.reconMatrixInner1 orth iJ (Two.basisInner1 N.x N.y xs ys)
  | .outer => Two.reconMatrixOuter1 orth iJ (Two.basisOuter1 N.x N.y xs ys)

/-- `_2d/.../_0_form/base/main.py` 47-72: `basis[0].T`. -/
def rm2_0 (N : Nodes2 K) (xs ys : List K) : Arr K := scaleT (Basis.Two.basis0 N.x N.y xs ys) fun _ => 1

/-- `_2d/.../_2_form/base/main.py` 47-88. -/
def rm2_2 (J : K × K → M2 K) (N : Nodes2 K) (xs ys : List K) : Arr K :=
  scaleT (Basis.Two.basis2 N.x N.y xs ys) fun m =>
    Two.inverseJacobian (Two.inverse (J (Basis.Two.meshgrid xs ys m)))

/-- `np.meshgrid` followed by `ravel('F')` (`cross_product_1_i_1.py` 56-58). -/
def ravelF2 (xs ys : List K) (c : Nat) : K × K := (xs.getD (c % xs.length) 0, ys.getD (c / xs.length) 0)

/-- `_0_form/.../cross_product_1_i_1.py` 75-79 and 90-94 (the same lines in the other 2D helpers). -/
def tensor2 (n : Nat) (W : Arr K) (U E : Fin 2 → Arr K) (q : Nat → K) (i j k : Nat) : K :=
  -tri n W (U 1) (E 0) q i j k + tri n W (U 0) (E 1) q i j k

/-- `CP_IP_3dM[i]` of a 2D helper; `W` is the reconstruction matrix of the scalar `w`. -/
def cp2 (su se : Side) (orth : Bool) (J : K × K → M2 K) (W : Arr K) (Nu Ne : Nodes2 K) (xs ys : List K)
    (q : Nat → K) : Nat → Nat → Nat → K :=
  tensor2 (ys.length * xs.length) W (rm2 orth J su Nu xs ys) (rm2 orth J se Ne xs ys)
    (fun m => q m * Two.jacobian (J (ravelF2 xs ys m)))

/-- `_0_form/outer/special/helpers/cross_product_1_i_1.py` 15-100 and `cross_product_1_i_1_2M0.py` 18-104. -/
def cross2_0 (su se : Side) (orth : Bool) (J : K × K → M2 K) (Nw Nu Ne : Nodes2 K) (xs ys : List K) (q : Nat → K) :=
  cp2 su se orth J (rm2_0 Nw xs ys) Nu Ne xs ys q

/-- `_2_form/inner/special/helpers/cross_product_1_i_1.py` 12-95. -/
def cross2_2 (su se : Side) (orth : Bool) (J : K × K → M2 K) (Nw Nu Ne : Nodes2 K) (xs ys : List K) (q : Nat → K) :=
  cp2 su se orth J (rm2_2 J Nw xs ys) Nu Ne xs ys q

end
end Mifem.Cross
