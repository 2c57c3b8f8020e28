import Verif.Model.Incidence
import Mathlib.Algebra.Field.Basic
import Mathlib.Algebra.BigOperators.Group.Finset.Basic
import Mathlib.Data.Fin.VecNotation

/-!
# Discretization (reduction) of fields on one element

Python sources (below /repo/objects/CSCG):
* `_2d/forms/standard/_0_form/base/discretize/scalar/standard.py` lines 22-43
* `_2d/forms/standard/_1_form/base/main.py` lines 56-78 (`___PRIVATE_discretize_preparation___`)
* `_2d/forms/standard/_1_form/{inner,outer}/discretize/vector/standard.py` lines 62-116
* `_2d/forms/standard/_2_form/base/discretize/scalar/standard.py` lines 28-73
* `_3d/forms/standard/_0s/discretize/scalar/standard.py` lines 21-40
* `_3d/forms/standard/_1s/discretize/vector/standard.py` lines 61-210
* `_3d/forms/standard/_2s/discretize/vector/standard.py` lines 29-227
* `_3d/forms/standard/_3s/discretize/scalar/standard.py` lines 21-71

Numbers are elements of a field (no rounding).  The Jacobian arrays that are kept for elements with the same metric mark
(`JXC`, ...) are left out: they hold the values of an element with the same mark, see C58.  So are the caches of the
quadrature nodes, which depend on `quad_degree` only.
-/

namespace Mifem.Disc

/-- `np.tile(f, k)[m]` for an array of length `n`. -/
def tile {α : Type*} (n : Nat) (f : Nat → α) (m : Nat) : α := f (m % n)

/-- `np.repeat(f, n)[m]`. -/
def rep {α : Type*} (n : Nat) (f : Nat → α) (m : Nat) : α := f (m / n)

/-- `A.reshape((r', c'), order='F')[q, m]` for an array `A` with `r` rows: the entry with the same place in column order. -/
def reshapeF {α : Type*} (r r' : Nat) (A : Nat → Nat → α) (q m : Nat) : α := A ((q + r' * m) % r) ((q + r' * m) / r)

/-- State of an array after the assignments `a[m] = v` in order. -/
def written {α : Type*} (ws : List (Nat × α)) (m : Nat) : Option α :=
  ((ws.filter fun w => w.1 = m).getLast?).map Prod.snd

/-- `for j in range(J): for i in range(I): ...`, one assignment in each turn. -/
def loop2 {α : Type*} (I J : Nat) (body : Nat → Nat → α) : List α :=
  (List.range J).flatMap fun j => (List.range I).map fun i => body i j

/-- `for k in range(K): for j in range(J): for i in range(I): ...`. -/
def loop3 {α : Type*} (I J K : Nat) (body : Nat → Nat → Nat → α) : List α :=
  (List.range K).flatMap fun k => (List.range J).flatMap fun j => (List.range I).map fun i => body i j k

/-- One direction of `Quadrature(p).quad`: `n` nodes `x` and weights `w`. -/
structure Rule (K : Type*) where
  n : Nat
  x : Nat → K
  w : Nat → K

variable {K : Type*} [Field K]

/-- `(quad_nodes + 1) * (nodes[i+1] - nodes[i]) / 2 + nodes[i]`. -/
def inCell (x : Nat → K) (r : Rule K) (q i : Nat) : K := (r.x q + 1) * (x (i + 1) - x i) / 2 + x i

/-! ## 2D -/
namespace Two

/-- An element: `coordinate_transformation.mapping`, `.Jacobian_matrix`, and whether the mark starts with 'Orth'. -/
structure El (K : Type*) where
  map : (Fin 2 → K) → Fin 2 → K
  J : (Fin 2 → K) → Fin 2 → Fin 2 → K
  orth : Bool

/-- `coordinate_transformation.Jacobian`: the determinant. -/
def El.det (e : El K) (v : Fin 2 → K) : K := e.J v 0 0 * e.J v 1 1 - e.J v 0 1 * e.J v 1 0

variable (p0 p1 : Nat) (x0 x1 : Nat → K) (r0 r1 : Rule K) (e : El K)

/-- _0_form, standard.py: `meshgrid(..., indexing='ij')` and `ravel('F')`, then `FUNC(*mapping(*nodes))`. -/
def disc0 (f : (Fin 2 → K) → K) : List K :=
  (List.range (Mifem.Two.nb0 p0 p1)).map fun m => f (e.map ![x0 (m % (p0 + 1)), x1 (m / (p0 + 1))])

/-- main.py 61-62: `cell_nodes[i]`, an array of shape `(quad, p)` that is made flat in column order. -/
def cellNodes (x : Nat → K) (r : Rule K) (a : Nat) : K :=
  1 / 2 * (x (a / r.n + 1) - x (a / r.n)) * (r.x (a % r.n) + 1) + x (a / r.n)

/-- main.py 64-70, `d_='x'`: the node `[q, m]`. -/
def nodeX (q m : Nat) : Fin 2 → K := ![tile (r0.n * p0) (cellNodes x0 r0) (q + r0.n * m), x1 (m / p0)]

/-- main.py 69. -/
def sizeX (m : Nat) : K := tile p0 (fun i => x0 (i + 1) - x0 i) m

/-- main.py 71-76, `d_='y'`. -/
def nodeY (q m : Nat) : Fin 2 → K := ![tile (p0 + 1) x0 m, rep (p0 + 1) (fun j => cellNodes x1 r1 (q + r1.n * j)) m]

/-- main.py 75. -/
def sizeY (m : Nat) : K := rep (p0 + 1) (fun j => x1 (j + 1) - x1 j) m

/-- inner standard.py 67-85: `local_dx[m]`. -/
def innerX (f : (Fin 2 → K) → Fin 2 → K) (m : Nat) : K :=
  ∑ q ∈ Finset.range r0.n, (
    let v := nodeX p0 x0 x1 r0 q m
    let J := e.J v
    let u := f (e.map v)
    if e.orth then J 0 0 * u 0 else J 0 0 * u 0 + J 1 0 * u 1) * r0.w q * (sizeX p0 x0 m * (1 / 2))

/-- inner standard.py 87-105: `local_dy[m]`. -/
def innerY (f : (Fin 2 → K) → Fin 2 → K) (m : Nat) : K :=
  ∑ q ∈ Finset.range r1.n, (
    let v := nodeY p0 x0 x1 r1 q m
    let J := e.J v
    let u := f (e.map v)
    if e.orth then J 1 1 * u 1 else J 0 1 * u 0 + J 1 1 * u 1) * r1.w q * (sizeY p0 x1 m * (1 / 2))

/-- inner standard.py 112-114: `np.hstack((local_dx, local_dy))`. -/
def discInner (f : (Fin 2 → K) → Fin 2 → K) : List K :=
  (List.range (Mifem.Two.nbI1c0 p0 p1)).map (innerX p0 x0 x1 r0 e f) ++
    (List.range (Mifem.Two.nbI1c1 p0 p1)).map (innerY p0 x0 x1 r1 e f)

/-- outer standard.py 69-87. -/
def outerX (f : (Fin 2 → K) → Fin 2 → K) (m : Nat) : K :=
  ∑ q ∈ Finset.range r0.n, (
    let v := nodeX p0 x0 x1 r0 q m
    let J := e.J v
    let u := f (e.map v)
    if e.orth then J 0 0 * u 1 else J 0 0 * u 1 - J 1 0 * u 0) * r0.w q * (sizeX p0 x0 m * (1 / 2))

/-- outer standard.py 89-107. -/
def outerY (f : (Fin 2 → K) → Fin 2 → K) (m : Nat) : K :=
  ∑ q ∈ Finset.range r1.n, (
    let v := nodeY p0 x0 x1 r1 q m
    let J := e.J v
    let u := f (e.map v)
    if e.orth then J 1 1 * u 0 else -(J 0 1) * u 1 + J 1 1 * u 0) * r1.w q * (sizeY p0 x1 m * (1 / 2))

/-- outer standard.py 114-116: `np.hstack((local_dy, local_dx))`. -/
def discOuter (f : (Fin 2 → K) → Fin 2 → K) : List K :=
  (List.range (Mifem.Two.nbO1c0 p0 p1)).map (outerY p0 x0 x1 r1 e f) ++
    (List.range (Mifem.Two.nbO1c1 p0 p1)).map (outerX p0 x0 x1 r0 e f)

/-- _2_form standard.py 36-44: the cell and its volume, stored at `m = i + j*p[0]`. -/
def cells2 : List (Nat × (Nat × Nat) × K) :=
  loop2 p0 p1 fun i j => (i + j * p0, (i, j), (x0 (i + 1) - x0 i) * (x1 (j + 1) - x1 j) * (1 / 4))

/-- _2_form standard.py 57-73. -/
def disc2 (f : (Fin 2 → K) → K) : List K :=
  (List.range (Mifem.Two.nb2 p0 p1)).map fun m => match written (cells2 p0 p1 x0 x1) m with
    | none => 0
    | some (c, vol) => ∑ s ∈ Finset.range r0.n, ∑ t ∈ Finset.range r1.n,
        let v := ![inCell x0 r0 s c.1, inCell x1 r1 t c.2]
        f (e.map v) * e.det v * r0.w s * r1.w t * vol

end Two

/-! ## 3D -/
namespace Three

/-- An element. -/
structure El (K : Type*) where
  map : (Fin 3 → K) → Fin 3 → K
  J : (Fin 3 → K) → Fin 3 → Fin 3 → K
  orth : Bool

/-- `coordinate_transformation.Jacobian` (the expression of Metric). -/
def El.det (e : El K) (v : Fin 3 → K) : K :=
  e.J v 0 0 * e.J v 1 1 * e.J v 2 2 + e.J v 0 1 * e.J v 1 2 * e.J v 2 0 + e.J v 0 2 * e.J v 1 0 * e.J v 2 1
  - e.J v 0 0 * e.J v 1 2 * e.J v 2 1 - e.J v 0 1 * e.J v 1 0 * e.J v 2 2 - e.J v 0 2 * e.J v 1 1 * e.J v 2 0

variable (p0 p1 p2 : Nat) (x0 x1 x2 : Nat → K) (r0 r1 r2 : Rule K) (e : El K)

/-- _0s standard.py: `meshgrid(..., indexing='ij')` and `ravel('F')`. -/
def disc0 (f : (Fin 3 → K) → K) : List K :=
  (List.range (Mifem.Three.nb0 p0 p1 p2)).map fun m =>
    f (e.map ![x0 (m % (p0 + 1)), x1 (m / (p0 + 1) % (p1 + 1)), x2 (m / (p0 + 1) / (p1 + 1))])

/-- _1s standard.py 167-184, `d_='x'`: the node `[q, m]`.  `eta`: the array with rows `sbn1`, `Q * p0` rows, is reshaped to
`Q` rows. -/
def nodeX (q m : Nat) : Fin 3 → K :=
  ![(r0.x q + 1) * tile p0 (fun i => x0 (i + 1) - x0 i) m / 2 + tile p0 x0 m,
    tile (p0 * (p1 + 1)) (reshapeF (r0.n * p0) r0.n (fun _ j => x1 j) q) m,
    rep (p0 * (p1 + 1)) x2 m]

/-- _1s standard.py 168-171. -/
def sizeX (m : Nat) : K := tile p0 (fun i => x0 (i + 1) - x0 i) m

/-- _1s standard.py 185-196, `d_='y'`. -/
def nodeY (q m : Nat) : Fin 3 → K :=
  ![tile (p0 + 1) x0 m,
    (r1.x q + 1) * tile (p1 * (p0 + 1)) (rep (p0 + 1) fun j => x1 (j + 1) - x1 j) m / 2 + tile (p1 * (p0 + 1)) (rep (p0 + 1) x1) m,
    rep (p1 * (p0 + 1)) x2 m]

/-- _1s standard.py 186-187. -/
def sizeY (m : Nat) : K := tile (p1 * (p0 + 1)) (rep (p0 + 1) fun j => x1 (j + 1) - x1 j) m

/-- _1s standard.py 197-208, `d_='z'`. -/
def nodeZ (q m : Nat) : Fin 3 → K :=
  ![tile (p0 + 1) x0 m, tile ((p1 + 1) * (p0 + 1)) (rep (p0 + 1) x1) m,
    (r2.x q + 1) * rep (p1 + 1) (rep (p0 + 1) fun k => x2 (k + 1) - x2 k) m / 2 + rep ((p0 + 1) * (p1 + 1)) x2 m]

/-- _1s standard.py 198-199. -/
def sizeZ (m : Nat) : K := rep (p1 + 1) (rep (p0 + 1) fun k => x2 (k + 1) - x2 k) m

/-- _1s standard.py 78-99: `local_dx[m]`. -/
def oneX (f : (Fin 3 → K) → Fin 3 → K) (m : Nat) : K :=
  ∑ q ∈ Finset.range r0.n, (
    let v := nodeX p0 p1 x0 x1 x2 r0 q m
    let J := e.J v
    let u := f (e.map v)
    if e.orth then J 0 0 * u 0 else J 0 0 * u 0 + J 1 0 * u 1 + J 2 0 * u 2) * r0.w q * (sizeX p0 x0 m * (1 / 2))

/-- _1s standard.py 101-122. -/
def oneY (f : (Fin 3 → K) → Fin 3 → K) (m : Nat) : K :=
  ∑ q ∈ Finset.range r1.n, (
    let v := nodeY p0 p1 x0 x1 x2 r1 q m
    let J := e.J v
    let u := f (e.map v)
    if e.orth then J 1 1 * u 1 else J 0 1 * u 0 + J 1 1 * u 1 + J 2 1 * u 2) * r1.w q * (sizeY p0 p1 x1 m * (1 / 2))

/-- _1s standard.py 124-145. -/
def oneZ (f : (Fin 3 → K) → Fin 3 → K) (m : Nat) : K :=
  ∑ q ∈ Finset.range r2.n, (
    let v := nodeZ p0 p1 x0 x1 x2 r2 q m
    let J := e.J v
    let u := f (e.map v)
    if e.orth then J 2 2 * u 2 else J 0 2 * u 0 + J 1 2 * u 1 + J 2 2 * u 2) * r2.w q * (sizeZ p0 p1 x2 m * (1 / 2))

/-- _1s standard.py 151-153: `np.hstack((local_dx, local_dy, local_dz))`. -/
def disc1 (f : (Fin 3 → K) → Fin 3 → K) : List K :=
  (List.range (Mifem.Three.nb1c0 p0 p1 p2)).map (oneX p0 p1 x0 x1 x2 r0 e f) ++
    (List.range (Mifem.Three.nb1c1 p0 p1 p2)).map (oneY p0 p1 x0 x1 x2 r1 e f) ++
    (List.range (Mifem.Three.nb1c2 p0 p1 p2)).map (oneZ p0 p1 x0 x1 x2 r2 e f)

/-- _2s standard.py 39-51: the face and its area, stored at `m`. -/
def facesX : List (Nat × (Nat × Nat × Nat) × K) :=
  loop3 (p0 + 1) p1 p2 fun i j k => (i + j * (p0 + 1) + k * (p0 + 1) * p1, (i, j, k), (x2 (k + 1) - x2 k) * (x1 (j + 1) - x1 j))

/-- _2s standard.py 59-71. -/
def facesY : List (Nat × (Nat × Nat × Nat) × K) :=
  loop3 p0 (p1 + 1) p2 fun i j k => (i + j * p0 + k * (p1 + 1) * p0, (i, j, k), (x2 (k + 1) - x2 k) * (x0 (i + 1) - x0 i))

/-- _2s standard.py 79-91. -/
def facesZ : List (Nat × (Nat × Nat × Nat) × K) :=
  loop3 p0 p1 (p2 + 1) fun i j k => (i + j * p0 + k * p1 * p0, (i, j, k), (x1 (j + 1) - x1 j) * (x0 (i + 1) - x0 i))

/-- _2s standard.py 124-140, 180-189, 222-227. -/
def twoX (f : (Fin 3 → K) → Fin 3 → K) (m : Nat) : K := match written (facesX p0 p1 p2 x1 x2) m with
  | none => 0
  | some (c, area) => ∑ s ∈ Finset.range r1.n, ∑ t ∈ Finset.range r2.n, (
      let v := ![x0 c.1, inCell x1 r1 s c.2.1, inCell x2 r2 t c.2.2]
      let J := e.J v
      let u := f (e.map v)
      if e.orth then J 1 1 * J 2 2 * u 0
      else (J 1 1 * J 2 2 - J 1 2 * J 2 1) * u 0 + (J 2 1 * J 0 2 - J 2 2 * J 0 1) * u 1 + (J 0 1 * J 1 2 - J 0 2 * J 1 1) * u 2)
      * (r1.w s * r2.w t) * (area * (1 / 4))

/-- _2s standard.py 142-158, 190-199, 222-227. -/
def twoY (f : (Fin 3 → K) → Fin 3 → K) (m : Nat) : K := match written (facesY p0 p1 p2 x0 x2) m with
  | none => 0
  | some (c, area) => ∑ s ∈ Finset.range r0.n, ∑ t ∈ Finset.range r2.n, (
      let v := ![inCell x0 r0 s c.1, x1 c.2.1, inCell x2 r2 t c.2.2]
      let J := e.J v
      let u := f (e.map v)
      if e.orth then J 0 0 * J 2 2 * u 1
      else (J 1 2 * J 2 0 - J 1 0 * J 2 2) * u 0 + (J 2 2 * J 0 0 - J 2 0 * J 0 2) * u 1 + (J 0 2 * J 1 0 - J 0 0 * J 1 2) * u 2)
      * (r0.w s * r2.w t) * (area * (1 / 4))

/-- _2s standard.py 160-176, 200-209, 222-227. -/
def twoZ (f : (Fin 3 → K) → Fin 3 → K) (m : Nat) : K := match written (facesZ p0 p1 p2 x0 x1) m with
  | none => 0
  | some (c, area) => ∑ s ∈ Finset.range r0.n, ∑ t ∈ Finset.range r1.n, (
      let v := ![inCell x0 r0 s c.1, inCell x1 r1 t c.2.1, x2 c.2.2]
      let J := e.J v
      let u := f (e.map v)
      if e.orth then J 1 1 * J 0 0 * u 2
      else (J 1 0 * J 2 1 - J 1 1 * J 2 0) * u 0 + (J 2 0 * J 0 1 - J 2 1 * J 0 0) * u 1 + (J 0 0 * J 1 1 - J 0 1 * J 1 0) * u 2)
      * (r0.w s * r1.w t) * (area * (1 / 4))

/-- _2s standard.py 214-216: `np.hstack((local_dydz, local_dzdx, local_dxdy))`. -/
def disc2 (f : (Fin 3 → K) → Fin 3 → K) : List K :=
  (List.range (Mifem.Three.nb2c0 p0 p1 p2)).map (twoX p0 p1 p2 x0 x1 x2 r1 r2 e f) ++
    (List.range (Mifem.Three.nb2c1 p0 p1 p2)).map (twoY p0 p1 p2 x0 x1 x2 r0 r2 e f) ++
    (List.range (Mifem.Three.nb2c2 p0 p1 p2)).map (twoZ p0 p1 p2 x0 x1 x2 r0 r1 e f)

/-- _3s standard.py 32-50. -/
def cells3 : List (Nat × (Nat × Nat × Nat) × K) :=
  loop3 p0 p1 p2 fun i j k => (i + j * p0 + k * p0 * p1, (i, j, k),
    (x0 (i + 1) - x0 i) * (x1 (j + 1) - x1 j) * (x2 (k + 1) - x2 k) * (1 / 8))

/-- _3s standard.py 54-71. -/
def disc3 (f : (Fin 3 → K) → K) : List K :=
  (List.range (Mifem.Three.nb3 p0 p1 p2)).map fun m => match written (cells3 p0 p1 p2 x0 x1 x2) m with
    | none => 0
    | some (c, vol) => ∑ s ∈ Finset.range r0.n, ∑ t ∈ Finset.range r1.n, ∑ z ∈ Finset.range r2.n,
        let v := ![inCell x0 r0 s c.1, inCell x1 r1 t c.2.1, inCell x2 r2 z c.2.2]
        f (e.map v) * e.det v * r0.w s * r1.w t * r2.w z * vol

end Three
end Mifem.Disc
