import Verif.Model.Basis
import Mathlib.Algebra.Field.Defs
import Mathlib.Data.Fin.VecNotation

/-!
# Metric terms of mesh elements, reconstruction in physical space, mass matrices, wedge products

Python sources:
* `/repo/objects/CSCG/_3d/mesh/elements/element/coordinate_transformation.py` lines 61-79 (Jacobian matrix),
  136-184 (Jacobian, inverse), 186-226 (metric matrices)
* `/repo/objects/CSCG/_2d/mesh/elements/element/coordinate_transformation/main.py` lines 60-77, 105-182
* `/repo/objects/CSCG/_3d/forms/standard/_{1,2,3}s/reconstruct.py`, `_2d/forms/standard/...` (values)
* `/repo/objects/CSCG/_3d/forms/standard/_{0,1,2,3}s/inheriting/private.py` (inner product, wedge product,
  reconstruction matrices)
* `/repo/objects/CSCG/_2d/forms/standard/_{0,1,2}_form/*/main.py` (the same in 2D)

All metric terms are given at the points of a mesh grid: an index `m` of the point is carried where the arrays
have a last axis.  The arithmetic is exact.
-/

namespace Mifem.Metric
open Mifem.Basis

section
variable {K : Type*} [Field K]

/-- A 3 x 3 array at one point. -/
abbrev M3 (K : Type*) := Fin 3 → Fin 3 → K
/-- A 2 x 2 array at one point. -/
abbrev M2 (K : Type*) := Fin 2 → Fin 2 → K

/-! ## 3D -/
namespace Three

/-- coordinate_transformation.py 41-44 (`mapping`): `region` is the mapping of the region, `origin` and `delta` the
corner and the sizes of the element in the unit cube of the region. -/
def elementMap (region : (Fin 3 → K) → (Fin 3 → K)) (origin delta : Fin 3 → K) (xi : Fin 3 → K) : Fin 3 → K :=
  region fun j => (xi j + 1) * (1 / 2) * delta j + origin j

/-- coordinate_transformation.py 61-79 (`Jacobian_matrix`): `orth` is `mark[:4] == 'Orth'`; then only the three
diagonal entries of the Jacobian matrix of the region are used and the other six are zero. -/
def jacobianMatrix (orth : Bool) (xyzRst : M3 K) (delta : Fin 3 → K) : M3 K := fun j l =>
  if orth then (if j = l then xyzRst j j * (delta j / 2) else 0) else xyzRst j l * (delta l / 2)

/-- lines 136-142 (`Jacobian`). -/
def jacobian (J : M3 K) : K :=
  J 0 0 * J 1 1 * J 2 2 + J 0 1 * J 1 2 * J 2 0 + J 0 2 * J 1 0 * J 2 1 - J 0 0 * J 1 2 * J 2 1
    - J 0 1 * J 1 0 * J 2 2 - J 0 2 * J 1 1 * J 2 0

/-- lines 144-153 (`metric`). -/
def metric (J : M3 K) : K := jacobian J ^ 2

/-- lines 155-176 (`inverse_Jacobian_matrix`). -/
def inverse (J : M3 K) : M3 K :=
  let r := 1 / (J 0 0 * J 1 1 * J 2 2 + J 0 1 * J 1 2 * J 2 0 + J 0 2 * J 1 0 * J 2 1 - J 0 0 * J 1 2 * J 2 1
    - J 0 1 * J 1 0 * J 2 2 - J 0 2 * J 1 1 * J 2 0)
  ![![r * (J 1 1 * J 2 2 - J 1 2 * J 2 1), r * (J 2 1 * J 0 2 - J 2 2 * J 0 1), r * (J 0 1 * J 1 2 - J 0 2 * J 1 1)],
    ![r * (J 1 2 * J 2 0 - J 1 0 * J 2 2), r * (J 2 2 * J 0 0 - J 2 0 * J 0 2), r * (J 0 2 * J 1 0 - J 0 0 * J 1 2)],
    ![r * (J 1 0 * J 2 1 - J 1 1 * J 2 0), r * (J 2 0 * J 0 1 - J 2 1 * J 0 0), r * (J 0 0 * J 1 1 - J 0 1 * J 1 0)]]

/-- lines 178-184 (`inverse_Jacobian`). -/
def inverseJacobian (iJ : M3 K) : K :=
  iJ 0 0 * iJ 1 1 * iJ 2 2 + iJ 0 1 * iJ 1 2 * iJ 2 0 + iJ 0 2 * iJ 1 0 * iJ 2 1
    - iJ 0 0 * iJ 1 2 * iJ 2 1 - iJ 0 1 * iJ 1 0 * iJ 2 2 - iJ 0 2 * iJ 1 1 * iJ 2 0

/-- lines 186-206 (`metric_matrix`): the upper triangle is computed (first term, then `+=` for the others) and
copied to the lower one. -/
def metricMatrix (J : M3 K) : M3 K := fun a b =>
  let i := min a b; let j := max a b
  J 0 i * J 0 j + J 1 i * J 1 j + J 2 i * J 2 j

/-- lines 208-226 (`inverse_metric_matrix`). -/
def inverseMetricMatrix (iJ : M3 K) : M3 K := fun a b =>
  let i := min a b; let j := max a b
  iJ i 0 * iJ j 0 + iJ i 1 * iJ j 1 + iJ i 2 * iJ j 2

/-- `_1s/reconstruct.py` 88-97: value of a 1-form with components `u`, `v`, `w` in the reference element. -/
def value1 (orth : Bool) (iJ : M3 K) (u v w : K) : Fin 3 → K :=
  if orth then ![u * iJ 0 0, v * iJ 1 1, w * iJ 2 2]
  else fun j => u * iJ 0 j + v * iJ 1 j + w * iJ 2 j

/-- `_2s/reconstruct.py` 99-127: value of a 2-form. -/
def value2 (orth : Bool) (iJ : M3 K) (u v w : K) : Fin 3 → K :=
  if orth then ![u * (iJ 1 1 * iJ 2 2), v * (iJ 2 2 * iJ 0 0), w * (iJ 0 0 * iJ 1 1)]
  else
    ![u * (iJ 1 1 * iJ 2 2 - iJ 1 2 * iJ 2 1) + v * (iJ 2 1 * iJ 0 2 - iJ 2 2 * iJ 0 1)
        + w * (iJ 0 1 * iJ 1 2 - iJ 0 2 * iJ 1 1),
      u * (iJ 1 2 * iJ 2 0 - iJ 1 0 * iJ 2 2) + v * (iJ 2 2 * iJ 0 0 - iJ 2 0 * iJ 0 2)
        + w * (iJ 0 2 * iJ 1 0 - iJ 0 0 * iJ 1 2),
      u * (iJ 1 0 * iJ 2 1 - iJ 1 1 * iJ 2 0) + v * (iJ 2 0 * iJ 0 1 - iJ 2 1 * iJ 0 0)
        + w * (iJ 0 0 * iJ 1 1 - iJ 0 1 * iJ 1 0)]

/-- `_3s/reconstruct.py` 116-121: `einsum('ij, i -> j', basis[0] * det_iJ, cochain)` at point `m`. -/
def value3 (detiJ : Nat → K) (B : Arr K) (w : Nat → K) (m : Nat) : K :=
  ((List.range B.rows).map fun i => B.e i m * detiJ m * w i).sum

end Three

/-! ## 2D -/
namespace Two

/-- lines 45-48 (`mapping`). -/
def elementMap (region : (Fin 2 → K) → (Fin 2 → K)) (origin delta : Fin 2 → K) (xi : Fin 2 → K) : Fin 2 → K :=
  region fun j => (xi j + 1) * (1 / 2) * delta j + origin j

/-- lines 60-77 (`Jacobian_matrix`). -/
def jacobianMatrix (orth : Bool) (xyRs : M2 K) (delta : Fin 2 → K) : M2 K := fun j l =>
  if orth then (if j = l then xyRs j j * (delta j / 2) else 0) else xyRs j l * (delta l / 2)

/-- lines 105-109. -/
def jacobian (J : M2 K) : K := J 0 0 * J 1 1 - J 0 1 * J 1 0

/-- lines 111-120. -/
def metric (J : M2 K) : K := jacobian J ^ 2

/-- lines 122-134. -/
def inverse (J : M2 K) : M2 K :=
  let r := 1 / (J 0 0 * J 1 1 - J 0 1 * J 1 0)
  ![![r * J 1 1, -(r * J 0 1)], ![-(r * J 1 0), r * J 0 0]]

/-- lines 136-140. -/
def inverseJacobian (iJ : M2 K) : K := iJ 0 0 * iJ 1 1 - iJ 0 1 * iJ 1 0

/-- lines 142-162. -/
def metricMatrix (J : M2 K) : M2 K := fun a b =>
  let i := min a b; let j := max a b
  J 0 i * J 0 j + J 1 i * J 1 j

/-- lines 164-182. -/
def inverseMetricMatrix (iJ : M2 K) : M2 K := fun a b =>
  let i := min a b; let j := max a b
  iJ i 0 * iJ j 0 + iJ i 1 * iJ j 1

/-- `_1_form/inner/reconstruct.py` 108-116. -/
def valueInner1 (orth : Bool) (iJ : M2 K) (u v : K) : Fin 2 → K :=
  if orth then ![u * iJ 0 0, v * iJ 1 1] else fun j => u * iJ 0 j + v * iJ 1 j

/-- `_1_form/outer/reconstruct.py` 126-134. -/
def valueOuter1 (orth : Bool) (iJ : M2 K) (u v : K) : Fin 2 → K :=
  if orth then ![u * iJ 1 1, v * iJ 0 0] else ![u * iJ 1 1 - v * iJ 0 1, -u * iJ 1 0 + v * iJ 0 0]

/-- `_2_form/base/reconstruct.py` 97-102. -/
def value2 (detiJ : Nat → K) (B : Arr K) (w : Nat → K) (m : Nat) : K :=
  ((List.range B.rows).map fun i => B.e i m * detiJ m * w i).sum

end Two

/-! ## Inner products -/

/-- `np.einsum('m, im, jm -> ij', q, bfO, bfS)`: the sum over the points of the mesh grid. -/
def gram (q : Nat → K) (O S : Arr K) (i j : Nat) : K :=
  ((List.range S.cols).map fun m => q m * O.e i m * S.e j m).sum

/-- `scipy.sparse.bmat` of 3 x 3 blocks: the rows and columns are cut at the sizes of the blocks. -/
def bmat3 (r0 r1 : Nat) (c0 c1 : Nat) (B : Fin 3 → Fin 3 → Nat → Nat → K) (i j : Nat) : K :=
  let bi : Fin 3 := if i < r0 then 0 else if i < r0 + r1 then 1 else 2
  let bj : Fin 3 := if j < c0 then 0 else if j < c0 + c1 then 1 else 2
  let i' := if i < r0 then i else if i < r0 + r1 then i - r0 else i - (r0 + r1)
  let j' := if j < c0 then j else if j < c0 + c1 then j - c0 else j - (c0 + c1)
  B bi bj i' j'

/-- `scipy.sparse.bmat` of 2 x 2 blocks. -/
def bmat2 (r0 : Nat) (c0 : Nat) (B : Fin 2 → Fin 2 → Nat → Nat → K) (i j : Nat) : K :=
  let bi : Fin 2 := if i < r0 then 0 else 1
  let bj : Fin 2 := if j < c0 then 0 else 1
  B bi bj (if i < r0 then i else i - r0) (if j < c0 then j else j - c0)

/-- `_0s/inheriting/private.py` 48-54 and `_2d/.../_0_form/base/main.py` 74-80: inner product of 0-forms. -/
def inner0 (detJ q : Nat → K) (O S : Arr K) (i j : Nat) : K :=
  ((List.range S.cols).map fun m => O.e i m * S.e j m * (detJ m * q m)).sum

/-- `_3s/inheriting/private.py` 63-72 and `_2d/.../_2_form/base/main.py` 90-102: inner product of forms of the
highest degree. -/
def innerTop (detJ q : Nat → K) (O S : Arr K) (i j : Nat) : K :=
  ((List.range S.cols).map fun m => O.e i m * S.e j m * ((detJ m)⁻¹ * q m)).sum

/-- `einsum('ji, j -> ji', b.T, f)`. -/
def scaleT (b : Arr K) (f : Nat → K) : Arr K := ⟨b.cols, b.rows, fun j i => b.e i j * f j⟩

/-- `A @ x` of a matrix and a vector. -/
def mulVec (A : Arr K) (x : Nat → K) (r : Nat) : K := ((List.range A.cols).map fun c => A.e r c * x c).sum

namespace Three

/-- `_3d/spaces/base/do.py` 123-139: the three arrays of basis functions of a 1-form. -/
def basis1 (nx ny nz xs ys zs : List K) : Fin 3 → Arr K :=
  ![Basis.Three.kron3 (nodeBasis nz zs) (nodeBasis ny ys) (edgeBasis nx xs),
    Basis.Three.kron3 (nodeBasis nz zs) (edgeBasis ny ys) (nodeBasis nx xs),
    Basis.Three.kron3 (edgeBasis nz zs) (nodeBasis ny ys) (nodeBasis nx xs)]

/-- `_3d/spaces/base/do.py` 141-157: the three arrays of basis functions of a 2-form. -/
def basis2 (nx ny nz xs ys zs : List K) : Fin 3 → Arr K :=
  ![Basis.Three.kron3 (edgeBasis nz zs) (edgeBasis ny ys) (nodeBasis nx xs),
    Basis.Three.kron3 (edgeBasis nz zs) (nodeBasis ny ys) (edgeBasis nx xs),
    Basis.Three.kron3 (nodeBasis nz zs) (edgeBasis ny ys) (edgeBasis nx xs)]

/-- `_3d/spaces/base/do.py` 115-121. -/
def basis0 (nx ny nz xs ys zs : List K) : Arr K :=
  Basis.Three.kron3 (nodeBasis nz zs) (nodeBasis ny ys) (nodeBasis nx xs)

/-- `_3d/spaces/base/do.py` 159-165. -/
def basis3 (nx ny nz xs ys zs : List K) : Arr K :=
  Basis.Three.kron3 (edgeBasis nz zs) (edgeBasis ny ys) (edgeBasis nx xs)

/-- `_1s/reconstruct.py` 79-97: the values of a 1-form in physical space; `J m` is the Jacobian matrix of the
element at point `m` of the mesh grid. -/
def reconstruct1 (orth : Bool) (J : Nat → M3 K) (nx ny nz xs ys zs : List K) (w : Nat → K) (m : Nat) : Fin 3 → K :=
  let u := Basis.Three.recon1 nx ny nz xs ys zs w m
  value1 orth (inverse (J m)) u.1 u.2.1 u.2.2

/-- `_2s/reconstruct.py` 82-127. -/
def reconstruct2 (orth : Bool) (J : Nat → M3 K) (nx ny nz xs ys zs : List K) (w : Nat → K) (m : Nat) : Fin 3 → K :=
  let u := Basis.Three.recon2 nx ny nz xs ys zs w m
  value2 orth (inverse (J m)) u.1 u.2.1 u.2.2

/-- `_3s/reconstruct.py` 111-123. -/
def reconstruct3 (J : Nat → M3 K) (nx ny nz xs ys zs : List K) (w : Nat → K) (m : Nat) : K :=
  value3 (fun m => inverseJacobian (inverse (J m))) (basis3 nx ny nz xs ys zs) w m

/-- `_1s/inheriting/private.py` 107-149 (`___PRIVATE_operator_inner___` of a 1-form).  `same` is `other is self`:
then the lower blocks are the transposed upper ones.  `J m` is the Jacobian matrix at point `m`. -/
def inner1 (orth same : Bool) (J : Nat → M3 K) (q : Nat → K) (O S : Fin 3 → Arr K) (i j : Nat) : K :=
  let sg := fun m => jacobian (J m)
  let g := fun m => inverseMetricMatrix (inverse (J m))
  let M := fun a b : Fin 3 => gram (fun m => q m * (sg m * g m a b)) (O a) (S b)
  bmat3 (O 0).rows (O 1).rows (S 0).rows (S 1).rows (fun a b i j =>
    if a = b then M a b i j
    else if orth then 0
    else if a < b then M a b i j
    else if same then M b a j i
    else M a b i j) i j

/-- `_2s/inheriting/private.py` 127-179 (inner product of a 2-form). -/
def inner2 (orth same : Bool) (J : Nat → M3 K) (q : Nat → K) (O S : Fin 3 → Arr K) (i j : Nat) : K :=
  let sg := fun m => jacobian (J m)
  let g := fun m => inverseMetricMatrix (inverse (J m))
  let M := fun (a b : Fin 3) (c : Nat → K) => gram (fun m => q m * sg m * c m) (O a) (S b)
  let g01 := fun m => g m 1 2 * g m 2 0 - g m 1 0 * g m 2 2
  let g02 := fun m => g m 1 0 * g m 2 1 - g m 1 1 * g m 2 0
  let g12 := fun m => g m 2 0 * g m 0 1 - g m 2 1 * g m 0 0
  let off := fun a b : Fin 3 =>
    if a + b = 1 then g01 else if a + b = 2 then g02 else g12
  bmat3 (O 0).rows (O 1).rows (S 0).rows (S 1).rows (fun a b i j =>
    if orth then
      (if a = b then M a b
        (if a = 0 then fun m => g m 1 1 * g m 2 2 else if a = 1 then fun m => g m 2 2 * g m 0 0
          else fun m => g m 0 0 * g m 1 1) i j
      else 0)
    else if a = b then M a b
        (if a = 0 then fun m => g m 1 1 * g m 2 2 - g m 1 2 * g m 2 1
          else if a = 1 then fun m => g m 2 2 * g m 0 0 - g m 2 0 * g m 0 2
          else fun m => g m 0 0 * g m 1 1 - g m 0 1 * g m 1 0) i j
    else if a < b then M a b (off a b) i j
    else if same then M b a (off b a) j i
    else M a b (off a b) i j) i j

/-- `_1s/inheriting/private.py` 241-268: wedge product of a 1-form (self) and a 2-form. -/
def wedge12 (q : Nat → K) (O S : Fin 3 → Arr K) (i j : Nat) : K :=
  bmat3 (O 0).rows (O 1).rows (S 0).rows (S 1).rows
    (fun a b i j => if a = b then gram q (O a) (S b) i j else 0) i j

/-- `_3s/inheriting/private.py` 74-84: wedge product of a 3-form (self) and a 0-form. -/
def wedge30 (q : Nat → K) (O S : Arr K) (i j : Nat) : K :=
  ((List.range S.cols).map fun m => O.e i m * S.e j m * q m).sum

/-- Which wedge products are accepted (`k` and `cls` are the degree and the class name of `other`): 1-form:
`_1s/inheriting/private.py` 243, 3-form: `_3s/inheriting/private.py` 76; 0- and 2-forms have no
`___PRIVATE_operator_wedge___` (`base/operators/main.py` 37 raises). -/
def wedgeAccepted (self k : Nat) (cls : String) : Bool :=
  if self = 1 then self + k == 3 else if self = 3 then cls == "_0Form" else false

/-- The class names of the standard forms: `class _3dCSCG_0Form` (`_0s/main.py` 24) and so on. -/
def className (k : Nat) : String := s!"_3dCSCG_{k}Form"

/-- `np.hstack((A, B, C))` of three arrays. -/
def hstack3 (A B C : Arr K) : Arr K :=
  ⟨A.rows, A.cols + B.cols + C.cols, fun r c =>
    if c < A.cols then A.e r c else if c < A.cols + B.cols then B.e r (c - A.cols)
    else C.e r (c - (A.cols + B.cols))⟩

/-- `_1s/inheriting/private.py` 58-103: the three reconstruction matrices of a 1-form in one element. -/
def reconMatrix1 (orth : Bool) (iJ : Nat → M3 K) (b : Fin 3 → Arr K) (k : Fin 3) : Arr K :=
  let blk := fun a : Fin 3 =>
    if k ≠ a ∧ orth = true then scaleT (b a) (fun _ => 0) else scaleT (b a) (fun m => iJ m a k)
  hstack3 (blk 0) (blk 1) (blk 2)

/-- `_2s/inheriting/private.py` 58-122: the three reconstruction matrices of a 2-form.  On the diagonal the full
cofactor is used for orthogonal elements also (lines 66-68). -/
def reconMatrix2 (orth : Bool) (iJ : Nat → M3 K) (b : Fin 3 → Arr K) (k : Fin 3) : Arr K :=
  let cof : Fin 3 → Fin 3 → Nat → K :=
    ![![fun m => iJ m 1 1 * iJ m 2 2 - iJ m 1 2 * iJ m 2 1, fun m => iJ m 2 1 * iJ m 0 2 - iJ m 2 2 * iJ m 0 1,
        fun m => iJ m 0 1 * iJ m 1 2 - iJ m 0 2 * iJ m 1 1],
      ![fun m => iJ m 1 2 * iJ m 2 0 - iJ m 1 0 * iJ m 2 2, fun m => iJ m 2 2 * iJ m 0 0 - iJ m 2 0 * iJ m 0 2,
        fun m => iJ m 0 2 * iJ m 1 0 - iJ m 0 0 * iJ m 1 2],
      ![fun m => iJ m 1 0 * iJ m 2 1 - iJ m 1 1 * iJ m 2 0, fun m => iJ m 2 0 * iJ m 0 1 - iJ m 2 1 * iJ m 0 0,
        fun m => iJ m 0 0 * iJ m 1 1 - iJ m 0 1 * iJ m 1 0]]
  let blk := fun a : Fin 3 =>
    if k ≠ a ∧ orth = true then scaleT (b a) (fun _ => 0) else scaleT (b a) (cof k a)
  hstack3 (blk 0) (blk 1) (blk 2)

end Three

namespace Two

/-- `_2d/spaces/base/do.py` 67-74: the arrays of basis functions of an inner 1-form. -/
def basisInner1 (nx ny xs ys : List K) : Fin 2 → Arr K :=
  ![Basis.Two.basisDxi nx ny xs ys, Basis.Two.basisDet nx ny xs ys]

/-- `_2d/spaces/base/do.py` 76-83: the arrays of basis functions of an outer 1-form. -/
def basisOuter1 (nx ny xs ys : List K) : Fin 2 → Arr K :=
  ![Basis.Two.basisDet nx ny xs ys, Basis.Two.basisDxi nx ny xs ys]

/-- `_1_form/inner/reconstruct.py` 99-122: the values of an inner 1-form in physical space. -/
def reconstructInner1 (orth : Bool) (J : Nat → M2 K) (nx ny xs ys : List K) (w : Nat → K) (m : Nat) : Fin 2 → K :=
  let u := Basis.Two.reconInner1 nx ny xs ys w m
  valueInner1 orth (inverse (J m)) u.1 u.2

/-- `_1_form/outer/reconstruct.py` 110-140. -/
def reconstructOuter1 (orth : Bool) (J : Nat → M2 K) (nx ny xs ys : List K) (w : Nat → K) (m : Nat) : Fin 2 → K :=
  let u := Basis.Two.reconOuter1 nx ny xs ys w m
  valueOuter1 orth (inverse (J m)) u.1 u.2

/-- `_2_form/base/reconstruct.py` 94-102. -/
def reconstruct2 (J : Nat → M2 K) (nx ny xs ys : List K) (w : Nat → K) (m : Nat) : K :=
  value2 (fun m => inverseJacobian (inverse (J m))) (Basis.Two.basis2 nx ny xs ys) w m

/-- `_2d/.../_1_form/inner/main.py` 127-155. -/
def innerInner1 (orth same : Bool) (J : Nat → M2 K) (q : Nat → K) (O S : Fin 2 → Arr K) (i j : Nat) : K :=
  let sg := fun m => jacobian (J m)
  let g := fun m => inverseMetricMatrix (inverse (J m))
  let M := fun a b : Fin 2 => gram (fun m => q m * (sg m * g m a b)) (O a) (S b)
  bmat2 (O 0).rows (S 0).rows (fun a b i j =>
    if a = b then M a b i j
    else if orth then 0
    else if a < b then M a b i j
    else if same then M b a j i
    else M a b i j) i j

/-- `_2d/.../_1_form/outer/main.py` 131-158. -/
def innerOuter1 (orth same : Bool) (J : Nat → M2 K) (q : Nat → K) (O S : Fin 2 → Arr K) (i j : Nat) : K :=
  let sg := fun m => jacobian (J m)
  let g := fun m => inverseMetricMatrix (inverse (J m))
  let M := fun (a b : Fin 2) (c : Nat → K) => gram (fun m => q m * c m) (O a) (S b)
  bmat2 (O 0).rows (S 0).rows (fun a b i j =>
    if a = b then M a b (if a = 0 then fun m => sg m * g m 1 1 else fun m => sg m * g m 0 0) i j
    else if orth then 0
    else if a < b then M a b (fun m => -sg m * g m 1 0) i j
    else if same then M b a (fun m => -sg m * g m 1 0) j i
    else M a b (fun m => -sg m * g m 0 1) i j) i j

/-- `_2d/.../_1_form/inner/main.py` 157-175 and `_1_form/outer/main.py` 160-181. -/
def wedge11 (q : Nat → K) (O S : Fin 2 → Arr K) (i j : Nat) : K :=
  bmat2 (O 0).rows (S 0).rows (fun a b i j =>
    if a = b then ((List.range (S a).cols).map fun m => (O a).e i m * ((S b).e j m * q m)).sum else 0) i j

/-- `_2d/.../_0_form/base/main.py` 82-95 and `_2_form/base/main.py` 104-114: wedge product of a 0-form and a
2-form. -/
def wedge02 (q : Nat → K) (O S : Arr K) (i j : Nat) : K :=
  ((List.range S.cols).map fun m => O.e i m * S.e j m * q m).sum

/-- Which wedge products are accepted: `_0_form/base/main.py` 84, `_1_form/inner/main.py` 159,
`_1_form/outer/main.py` 162, `_2_form/base/main.py` 106.  The orientation is not looked at. -/
def wedgeAccepted (self k : Nat) : Bool :=
  if self = 0 then self + k == 2 else if self = 1 then k == 1 else k == 0

/-- Which inner products are accepted: `_2d/forms/standard/base/operators/helpers/inner.py` 10.  The orientation is
not looked at. -/
def innerAccepted (self k : Nat) : Bool := self == k

/-- `np.hstack((A, B))`. -/
def hstack2 (A B : Arr K) : Arr K :=
  ⟨A.rows, A.cols + B.cols, fun r c => if c < A.cols then A.e r c else B.e r (c - A.cols)⟩

/-- `_2d/.../_1_form/inner/main.py` 77-125: the two reconstruction matrices of an inner 1-form. -/
def reconMatrixInner1 (orth : Bool) (iJ : Nat → M2 K) (b : Fin 2 → Arr K) (k : Fin 2) : Arr K :=
  let blk := fun a : Fin 2 =>
    if k ≠ a ∧ orth = true then scaleT (b a) (fun _ => 0) else scaleT (b a) (fun m => iJ m a k)
  hstack2 (blk 0) (blk 1)

/-- `_2d/.../_1_form/outer/main.py` 81-129. -/
def reconMatrixOuter1 (orth : Bool) (iJ : Nat → M2 K) (b : Fin 2 → Arr K) (k : Fin 2) : Arr K :=
  let cof : Fin 2 → Fin 2 → Nat → K :=
    ![![fun m => iJ m 1 1, fun m => -iJ m 0 1], ![fun m => -iJ m 1 0, fun m => iJ m 0 0]]
  let blk := fun a : Fin 2 =>
    if k ≠ a ∧ orth = true then scaleT (b a) (fun _ => 0) else scaleT (b a) (cof k a)
  hstack2 (blk 0) (blk 1)

end Two
end
end Mifem.Metric
