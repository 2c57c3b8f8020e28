import Verif.Model.DualForm
import Verif.Model.Metric
import Verif.Model.Quadrature
import Verif.Lemmas.Incidence
import Mathlib.LinearAlgebra.Matrix.Charpoly.Basic
import Mathlib.Data.List.Sort

/-!
# Projections of 1-forms and 2-forms, criteria for vortices (3D)

Python sources (in `/repo/objects/CSCG/_3d/forms/standard`):
* `_1s/project/to.py` lines 14-45 (`standard_2form`), 47-93 (`vector_of_3_standard_0forms`)
* `_2s/project/to.py` lines 12-52 (the same for 2-forms)
* `base/matrices/helpers/mass.py` lines 12-63 (the quadrature of mass matrices),
  `_1s/inheriting/private.py` lines 241-268 (the quadrature of wedge products)
* `_1s/special/vortex_detection.py` lines 16-61 (gradient), 63-129 (`S` and `Omega`), 131-196 (`Q` and `lambda_2`),
  `_2s/special/vortex_detection.py` (the same for 2-forms)

All of it works element by element; one element and, for the criteria, one point are modelled.  Numbers are real (no rounding).
`gauss p` is `Quadrature(p, 'Gauss').quad` in one direction (C70), `lobatto p` the nodes of `_1dPolynomial(p)`.
-/

namespace Mifem.Vortex
open Mifem.Basis Mifem.Metric Mifem.Disc Mifem.Quadrature

/-- The nodes of a rule as a list (`quad_nodes[i]`). -/
def rpts {K : Type*} (r : Rule K) : List K := (List.range r.n).map r.x

/-- `[f(x, y, z) for points of np.meshgrid(xs, ys, zs, indexing='ij')]`, raveled with 'F'. -/
def onGrid {K : Type*} [Field K] {β : Type*} (f : K → K → K → β) (xs ys zs : List K) (m : Nat) : β :=
  let P := Basis.Three.meshgrid xs ys zs m
  f P.1 P.2.1 P.2.2

/-! ## Projection of a 1-form to a 2-form -/

/-- The degrees of the quadrature of mass matrices in one direction (mass.py 17-20, 27-30 and 42-62): `P` is the degree of the
space, `orth` is `mark[:4] == 'Orth'`. -/
def massDegree (orth : Bool) (P : Nat) : Nat := if orth then P else P + 1

/-- The degree of the quadrature of wedge products in one direction (private.py 246-248). -/
def wedgeDegree (p P : Nat) : Nat := max p P

/-- `M2[i]` of the 2-form of `standard_2form` (to.py 35): `A` is the Jacobian matrix of the region as a function of the point of the
reference element, `delta` the sizes of the element in the region, `ox`, `oy`, `oz` the nodes of the space of the 2-form. -/
noncomputable def mass2 (gauss : Nat → Rule ℝ) (orth : Bool) (A : ℝ → ℝ → ℝ → M3 ℝ) (delta : Fin 3 → ℝ) (ox oy oz : List ℝ) :
    Nat → Nat → ℝ :=
  let rx := gauss (massDegree orth (ox.length - 1))
  let ry := gauss (massDegree orth (oy.length - 1))
  let rz := gauss (massDegree orth (oz.length - 1))
  let b := Metric.Three.basis2 ox oy oz (rpts rx) (rpts ry) (rpts rz)
  Metric.Three.inner2 orth true (fun m => Metric.Three.jacobianMatrix orth (onGrid A (rpts rx) (rpts ry) (rpts rz) m) delta)
    (ravelWeight [rx, ry, rz]) b b

/-- `W21[i]` (to.py 34), `nx`, `ny`, `nz` the nodes of the space of the 1-form. -/
noncomputable def wedge21 (gauss : Nat → Rule ℝ) (nx ny nz ox oy oz : List ℝ) : Nat → Nat → ℝ :=
  let rx := gauss (wedgeDegree (nx.length - 1) (ox.length - 1))
  let ry := gauss (wedgeDegree (ny.length - 1) (oy.length - 1))
  let rz := gauss (wedgeDegree (nz.length - 1) (oz.length - 1))
  Metric.Three.wedge12 (ravelWeight [rx, ry, rz]) (Metric.Three.basis2 ox oy oz (rpts rx) (rpts ry) (rpts rz))
    (Metric.Three.basis1 nx ny nz (rpts rx) (rpts ry) (rpts rz))

/-- The nodes of the new space in one direction (to.py 19-24: the degree is one higher). -/
def newNodes (lobatto : Nat → List ℝ) (n : List ℝ) : List ℝ := lobatto (n.length - 1 + 1)

/-- to.py 39-41: the local cochain of the projected form, `invM2[i] @ W21[i] @ lc1[i]`. -/
noncomputable def standard2form (gauss : Nat → Rule ℝ) (lobatto : Nat → List ℝ) (orth : Bool) (A : ℝ → ℝ → ℝ → M3 ℝ)
    (delta : Fin 3 → ℝ) (nx ny nz : List ℝ) (b : Nat → ℝ) : Nat → ℝ :=
  let ox := newNodes lobatto nx; let oy := newNodes lobatto ny; let oz := newNodes lobatto nz
  let n2 := Mifem.Three.nb2 (ox.length - 1) (oy.length - 1) (oz.length - 1)
  let n1 := Mifem.Three.nb1 (nx.length - 1) (ny.length - 1) (nz.length - 1)
  let iM := DualForm.inv n2 (mass2 gauss orth A delta ox oy oz)
  let W := wedge21 gauss nx ny nz ox oy oz
  DualForm.mul n1 (fun r c => DualForm.mul n2 iM (fun k => W k c) r) b

/-! ## Projection to three 0-forms -/

/-- `_1s/project/to.py` 78-91: the local cochain of the 0-form of component `i` is the list of values of the component at the nodes
of the space.  (The call itself raises, see DESIGN.) -/
noncomputable def components1 (orth : Bool) (A : ℝ → ℝ → ℝ → M3 ℝ) (delta : Fin 3 → ℝ) (nx ny nz : List ℝ) (b : Nat → ℝ) (i : Fin 3)
    (m : Nat) : ℝ :=
  Metric.Three.reconstruct1 orth (fun m => Metric.Three.jacobianMatrix orth (onGrid A nx ny nz m) delta) nx ny nz nx ny nz b m i

/-- `_2s/project/to.py` 37-50: the same for 2-forms. -/
noncomputable def components2 (orth : Bool) (A : ℝ → ℝ → ℝ → M3 ℝ) (delta : Fin 3 → ℝ) (nx ny nz : List ℝ) (b : Nat → ℝ) (i : Fin 3)
    (m : Nat) : ℝ :=
  Metric.Three.reconstruct2 orth (fun m => Metric.Three.jacobianMatrix orth (onGrid A nx ny nz m) delta) nx ny nz nx ny nz b m i

/-- vortex_detection.py 41-61: entry `(i, k)` of the gradient tensor at point `m` of the grid: component `k` of the reconstructed
coboundary of the 0-form `U i`. -/
noncomputable def gradTensor (orth : Bool) (A : ℝ → ℝ → ℝ → M3 ℝ) (delta : Fin 3 → ℝ) (nx ny nz : List ℝ) (U : Fin 3 → Nat → ℝ)
    (xs ys zs : List ℝ) (m : Nat) : M3 ℝ := fun i k =>
  let p0 := nx.length - 1; let p1 := ny.length - 1; let p2 := nz.length - 1
  Metric.Three.reconstruct1 orth (fun m => Metric.Three.jacobianMatrix orth (onGrid A xs ys zs m) delta) nx ny nz xs ys zs
    (applyM (Mifem.Three.nb0 p0 p1 p2) (Mifem.Three.grad p0 p1 p2) (U i)) m k

/-! ## Criteria for vortices -/

/-- vortex_detection.py 104-116: the symmetric part. -/
noncomputable def symPart (u : M3 ℝ) : M3 ℝ :=
  let s01 := 0.5 * (u 0 1 + u 1 0)
  let s02 := 0.5 * (u 0 2 + u 2 0)
  let s12 := 0.5 * (u 1 2 + u 2 1)
  ![![u 0 0, s01, s02], ![s01, u 1 1, s12], ![s02, s12, u 2 2]]

/-- lines 118-127: the antisymmetric part. -/
noncomputable def antiPart (u : M3 ℝ) : M3 ℝ :=
  let o01 := 0.5 * (u 0 1 - u 1 0)
  let o02 := 0.5 * (u 0 2 - u 2 0)
  let o12 := 0.5 * (u 1 2 - u 2 1)
  ![![0, o01, o02], ![-o01, 0, o12], ![-o02, -o12, 0]]

/-- lines 169-190: the array whose eigenvalues are taken. -/
noncomputable def so (u : M3 ℝ) : M3 ℝ := fun i j => symPart u i j ^ 2 + antiPart u i j ^ 2

/-- What `np.linalg.eig` promises about the three eigenvalues of a real symmetric matrix: they are the roots of the characteristic
polynomial, as often as they occur, in any order (line 192). -/
def Eig (A : M3 ℝ) (e : Fin 3 → ℝ) : Prop :=
  (Matrix.of A).charpoly = (Polynomial.X - Polynomial.C (e 0)) * (Polynomial.X - Polynomial.C (e 1)) *
    (Polynomial.X - Polynomial.C (e 2))

/-- line 193: `- 0.5 * np.sum(eigen_values, axis=1)`. -/
noncomputable def Q (e : Fin 3 → ℝ) : ℝ := -0.5 * (e 0 + e 1 + e 2)

/-- lines 194-195: the second of the sorted eigenvalues. -/
noncomputable def lambda2 (e : Fin 3 → ℝ) : ℝ := ([e 0, e 1, e 2].insertionSort (· ≤ ·)).getD 1 0

end Mifem.Vortex
