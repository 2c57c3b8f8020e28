import Mathlib.Analysis.SpecialFunctions.Trigonometric.Basic
import Mathlib.Analysis.SpecialFunctions.Trigonometric.Inverse
import Verif.Model.Metric

/-!
# Mappings of regions

Python sources:
* `/repo/objects/CSCG/_2d/mesh/domain/regions/region/edge_geometries/{straight,aacw,acw,customized}.py`
* `/repo/components/functions/_2dSpace/angle.py` lines 6-25
* `/repo/objects/CSCG/_2d/mesh/domain/regions/region/main.py` lines 83-140 (corners and edges)
* `/repo/objects/CSCG/_2d/mesh/domain/regions/region/interpolations/{crazy.py,transfinite/main.py,transfinite/mapping.py}`
* `/repo/objects/CSCG/_3d/mesh/domain/regions/region/side_geometries/{plane,customized}.py`
* `/repo/objects/CSCG/_3d/mesh/domain/regions/region/interpolations/{crazy,orthogonal,transfinite}.py`

All functions act on one point; the arithmetic is exact, `np.sin`, `np.cos`, `np.arccos`, `np.sqrt`, `np.pi` are the
real functions.
-/

namespace Mifem.Region
open Mifem.Metric

section
variable {K : Type*} [Field K]

/-! ## Edges in 2D -/

/-- What an edge geometry offers: `X`, `Y`, `Xo`, `Yo` (`edge_geometries/base.py` 31-46). -/
structure Edge (K : Type*) where
  X : K → K
  Y : K → K
  Xo : K → K
  Yo : K → K

/-- straight.py 16-26. -/
def straight (c1 c2 : K × K) : Edge K where
  X o := c1.1 + o * (c2.1 - c1.1)
  Xo _ := c2.1 - c1.1
  Y o := c1.2 + o * (c2.2 - c1.2)
  Yo _ := c2.2 - c1.2

/-! ## Transfinite interpolation in 2D -/
namespace Two

/-- The four corners `UL, DL, UR, DR` (main.py 83-96) and the geometries of the four edges. -/
structure Edges (K : Type*) where
  U : Edge K
  D : Edge K
  L : Edge K
  R : Edge K

/-- transfinite/mapping.py 47-62 for one coordinate; `c` selects `X` or `Y` of an edge.  `gamma` is
`(L, D, R, U)` (transfinite/main.py 22-24). -/
def mapC (c : Edge K → K → K) (E : Edges K) (r s : K) : K :=
  let x0 := c E.L 0; let x1 := c E.L 1; let x30 := c E.R 0; let x31 := c E.R 1
  (1 - r) * c E.U s + r * c E.D s + (1 - s) * c E.L r + s * c E.R r
    - (1 - r) * ((1 - s) * x0 + s * x30) - r * ((1 - s) * x1 + s * x31)

/-- transfinite/mapping.py 88-97 and 111-120: derivative with respect to `r` (`dc` selects `Xo` or `Yo`). -/
def mapCr (c dc : Edge K → K → K) (E : Edges K) (r s : K) : K :=
  -c E.U s + c E.D s + (1 - s) * dc E.L r + s * dc E.R r
    + ((1 - s) * c E.L 0 + s * c E.R 0) - ((1 - s) * c E.L 1 + s * c E.R 1)

/-- transfinite/mapping.py 99-108 and 122-130: derivative with respect to `s`. -/
def mapCs (c dc : Edge K → K → K) (E : Edges K) (r s : K) : K :=
  (1 - r) * dc E.U s + r * dc E.D s - c E.L r + c E.R r
    - (1 - r) * (-c E.L 0 + c E.R 0) - r * (-c E.L 1 + c E.R 1)

/-- transfinite/main.py 27-30. -/
def transfinite (E : Edges K) (v : Fin 2 → K) : Fin 2 → K :=
  ![mapC Edge.X E (v 0) (v 1), mapC Edge.Y E (v 0) (v 1)]

/-- transfinite/main.py 42-46. -/
def transfiniteJ (E : Edges K) (v : Fin 2 → K) : M2 K :=
  ![![mapCr Edge.X Edge.Xo E (v 0) (v 1), mapCs Edge.X Edge.Xo E (v 0) (v 1)],
    ![mapCr Edge.Y Edge.Yo E (v 0) (v 1), mapCs Edge.Y Edge.Yo E (v 0) (v 1)]]

end Two

/-! ## Sides and transfinite interpolation in 3D -/

/-- What a side geometry offers for one coordinate: the function of `(p, q)` and its two partial derivatives
(`side_geometries/customized.py` 22-55). -/
structure Side (K : Type*) where
  f : K → K → K
  fp : K → K → K
  fq : K → K → K

/-- plane.py 23-48 for one coordinate: `d0 .. d3` are the coordinates of the four corners of the side. -/
def plane (d0 d1 d2 d3 : K) : Side K :=
  let d := d0; let b := d1 - d; let c := d2 - d; let a := d3 - b - c - d
  { f := fun p q => a * p * q + b * p + c * q + d
    fp := fun p q => a * q + b + 0 * p
    fq := fun p q => a * p + c + 0 * q }

namespace Three

/-- One coordinate of the six sides. -/
structure Sides (K : Type*) where
  N : Side K
  S : Side K
  W : Side K
  E : Side K
  B : Side K
  F : Side K

/-- `_3d/.../region/main.py` 122-144: the sides of a region with plane sides; `c i` is the coordinate of corner `i`
(NWB, SWB, NEB, SEB, NWF, SWF, NEF, SEF). -/
def planes (c : Fin 8 → K) : Sides K where
  N := plane (c 0) (c 2) (c 4) (c 6)
  S := plane (c 1) (c 3) (c 5) (c 7)
  W := plane (c 0) (c 1) (c 4) (c 5)
  E := plane (c 2) (c 3) (c 6) (c 7)
  B := plane (c 0) (c 1) (c 2) (c 3)
  F := plane (c 4) (c 5) (c 6) (c 7)

/-- transfinite.py 110-162 (`mapping`) for one coordinate, with lines 975-1293 for the sides, edges and corners. -/
def mapC (G : Sides K) (r s t : K) : K :=
  let x1 := (1 - r) * G.N.f s t + r * G.S.f s t
  let x2 := (1 - s) * G.W.f r t + s * G.E.f r t
  let x3 := (1 - t) * G.B.f r s + t * G.F.f r s
  let x12 := (1 - r) * (1 - s) * G.N.f 0 t + (1 - r) * s * G.N.f 1 t + r * (1 - s) * G.S.f 0 t + r * s * G.S.f 1 t
  let x13 := (1 - r) * (1 - t) * G.N.f s 0 + (1 - r) * t * G.N.f s 1 + r * (1 - t) * G.S.f s 0 + r * t * G.S.f s 1
  let x23 := (1 - s) * (1 - t) * G.W.f r 0 + (1 - s) * t * G.W.f r 1 + s * (1 - t) * G.E.f r 0 + s * t * G.E.f r 1
  let x123 := (1 - r) * (1 - s) * (1 - t) * G.N.f 0 0 + (1 - r) * (1 - s) * t * G.N.f 0 1
    + (1 - r) * s * (1 - t) * G.N.f 1 0 + (1 - r) * s * t * G.N.f 1 1
    + r * (1 - s) * (1 - t) * G.S.f 0 0 + r * (1 - s) * t * G.S.f 0 1
    + r * s * (1 - t) * G.S.f 1 0 + r * s * t * G.S.f 1 1
  x1 + x2 + x3 - x12 - x13 - x23 + x123

/-- transfinite.py 385-401: derivative with respect to `r`. -/
def mapCr (G : Sides K) (r s t : K) : K :=
  let x1 := -1 * G.N.f s t + 1 * G.S.f s t
  let x2 := (1 - s) * G.W.fp r t + s * G.E.fp r t
  let x3 := (1 - t) * G.B.fp r s + t * G.F.fp r s
  let x12 := -s * G.N.f 1 t - (1 - s) * G.N.f 0 t + (1 - s) * G.S.f 0 t + s * G.S.f 1 t
  let x13 := -t * G.N.f s 1 - (1 - t) * G.N.f s 0 + (1 - t) * G.S.f s 0 + t * G.S.f s 1
  let x23 := (1 - s) * (1 - t) * G.W.fp r 0 + (1 - s) * t * G.W.fp r 1 + s * (1 - t) * G.E.fp r 0 + s * t * G.E.fp r 1
  let x123 := -((1 - s) * (1 - t) * G.N.f 0 0) - (1 - s) * t * G.N.f 0 1 - s * (1 - t) * G.N.f 1 0
    - s * t * G.N.f 1 1 + (1 - s) * (1 - t) * G.S.f 0 0 + (1 - s) * t * G.S.f 0 1 + s * (1 - t) * G.S.f 1 0
    + s * t * G.S.f 1 1
  x1 + x2 + x3 - x12 - x13 - x23 + x123

/-- transfinite.py 403-419: derivative with respect to `s`. -/
def mapCs (G : Sides K) (r s t : K) : K :=
  let x1 := (1 - r) * G.N.fp s t + r * G.S.fp s t
  let x2 := -1 * G.W.f r t + 1 * G.E.f r t
  let x3 := (1 - t) * G.B.fq r s + t * G.F.fq r s
  let x12 := -(1 - r) * G.N.f 0 t + (1 - r) * G.N.f 1 t - r * G.S.f 0 t + r * G.S.f 1 t
  let x13 := (1 - r) * (1 - t) * G.N.fp s 0 + (1 - r) * t * G.N.fp s 1 + r * (1 - t) * G.S.fp s 0 + r * t * G.S.fp s 1
  let x23 := -t * G.W.f r 1 - (1 - t) * G.W.f r 0 + (1 - t) * G.E.f r 0 + t * G.E.f r 1
  let x123 := -((1 - r) * (1 - t) * G.N.f 0 0) - (1 - r) * t * G.N.f 0 1 + (1 - r) * (1 - t) * G.N.f 1 0
    + (1 - r) * t * G.N.f 1 1 - r * (1 - t) * G.S.f 0 0 - r * t * G.S.f 0 1 + r * (1 - t) * G.S.f 1 0
    + r * t * G.S.f 1 1
  x1 + x2 + x3 - x12 - x13 - x23 + x123

/-- transfinite.py 421-437: derivative with respect to `t`. -/
def mapCt (G : Sides K) (r s t : K) : K :=
  let x1 := (1 - r) * G.N.fq s t + r * G.S.fq s t
  let x2 := (1 - s) * G.W.fq r t + s * G.E.fq r t
  let x3 := -1 * G.B.f r s + 1 * G.F.f r s
  let x12 := (1 - r) * (1 - s) * G.N.fq 0 t + (1 - r) * s * G.N.fq 1 t + r * (1 - s) * G.S.fq 0 t + r * s * G.S.fq 1 t
  let x13 := -(1 - r) * G.N.f s 0 + (1 - r) * G.N.f s 1 - r * G.S.f s 0 + r * G.S.f s 1
  let x23 := -(1 - s) * G.W.f r 0 + (1 - s) * G.W.f r 1 - s * G.E.f r 0 + s * G.E.f r 1
  let x123 := -((1 - r) * (1 - s) * G.N.f 0 0) + (1 - r) * (1 - s) * G.N.f 0 1 - (1 - r) * s * G.N.f 1 0
    + (1 - r) * s * G.N.f 1 1 - r * (1 - s) * G.S.f 0 0 + r * (1 - s) * G.S.f 0 1 - r * s * G.S.f 1 0
    + r * s * G.S.f 1 1
  x1 + x2 + x3 - x12 - x13 - x23 + x123

/-- `mapping` of all three coordinates (`G i` are the sides of coordinate `i`). -/
def transfinite (G : Fin 3 → Sides K) (v : Fin 3 → K) : Fin 3 → K := fun i => mapC (G i) (v 0) (v 1) (v 2)

/-- `Jacobian_matrix`. -/
def transfiniteJ (G : Fin 3 → Sides K) (v : Fin 3 → K) : M3 K := fun i =>
  ![mapCr (G i) (v 0) (v 1) (v 2), mapCs (G i) (v 0) (v 1) (v 2), mapCt (G i) (v 0) (v 1) (v 2)]

/-- orthogonal.py 20-24: the bounds from the corner coordinates (`cc i x` is coordinate `x` of corner `i`). -/
def bounds (cc : Fin 8 → Fin 3 → K) : Fin 3 → K × K :=
  ![(cc 0 0, cc 1 0), (cc 0 1, cc 2 1), (cc 0 2, cc 4 2)]

/-- orthogonal.py 31-41. -/
def orthogonal (b : Fin 3 → K × K) (v : Fin 3 → K) : Fin 3 → K := fun i => ((b i).2 - (b i).1) * v i + (b i).1

/-- orthogonal.py 64-86. -/
def orthogonalJ (b : Fin 3 → K × K) (_v : Fin 3 → K) : M3 K :=
  ![![(b 0).2 - (b 0).1, 0, 0], ![0, (b 1).2 - (b 1).1, 0], ![0, 0, (b 2).2 - (b 2).1]]

end Three
end

/-! ## Arcs -/

/-- angle.py 6-25; `np.hypot(1, 0)` is 1. -/
noncomputable def angle (origin pt : ℝ × ℝ) : ℝ :=
  let x2 := pt.1 - origin.1
  let y2 := pt.2 - origin.2
  let len2 := Real.sqrt (x2 ^ 2 + y2 ^ 2)
  if y2 < 0 then 2 * Real.pi - Real.arccos ((1 * x2 + 0 * y2) / (1 * len2))
  else Real.arccos ((1 * x2 + 0 * y2) / (1 * len2))

/-- The curve of aacw.py 25-42 and acw.py 26-41. -/
noncomputable def arc (xc yc r t0 t1 : ℝ) : Edge ℝ where
  X o := xc + r * Real.cos (o * (t1 - t0) + t0)
  Xo o := -r * Real.sin (o * (t1 - t0) + t0) * (t1 - t0)
  Y o := yc + r * Real.sin (o * (t1 - t0) + t0)
  Yo o := r * Real.cos (o * (t1 - t0) + t0) * (t1 - t0)

/-- `self.r` (aacw.py 17, acw.py 18). -/
noncomputable def radius (c1 ctr : ℝ × ℝ) : ℝ := Real.sqrt ((c1.1 - ctr.1) ^ 2 + (c1.2 - ctr.2) ^ 2)

/-- aacw.py 9-23; the assertion of equal radii is a hypothesis of the theorems (exact instead of `10e-13`). -/
noncomputable def aacwEnd (c1 c2 ctr : ℝ × ℝ) : ℝ :=
  if angle ctr c2 < angle ctr c1 then angle ctr c2 + 2 * Real.pi else angle ctr c2
/-- aacw.py 16-42. -/
noncomputable def aacw (c1 c2 ctr : ℝ × ℝ) : Edge ℝ :=
  arc ctr.1 ctr.2 (radius c1 ctr) (angle ctr c1) (aacwEnd c1 c2 ctr)

/-- acw.py 9-24. -/
noncomputable def acwEnd (c1 c2 ctr : ℝ × ℝ) : ℝ :=
  if angle ctr c2 > angle ctr c1 then angle ctr c2 - 2 * Real.pi else angle ctr c2
/-- acw.py 17-41. -/
noncomputable def acw (c1 c2 ctr : ℝ × ℝ) : Edge ℝ :=
  arc ctr.1 ctr.2 (radius c1 ctr) (angle ctr c1) (acwEnd c1 c2 ctr)

/-- The types of edges (allocator.py 33-37, without `free`, which the transfinite interpolation refuses). -/
inductive EdgeType where
  | straight
  | aacw (ctr : ℝ × ℝ)
  | acw (ctr : ℝ × ℝ)
  | customized (X Y Xo Yo : ℝ → ℝ)

/-- `EdgeGeometryDispatcher(et)(cc)`. -/
noncomputable def EdgeType.geometry (c1 c2 : ℝ × ℝ) : EdgeType → Edge ℝ
  | .straight => Region.straight c1 c2
  | .aacw ctr => Region.aacw c1 c2 ctr
  | .acw ctr => Region.acw c1 c2 ctr
  | .customized X Y Xo Yo => ⟨X, Y, Xo, Yo⟩

/-- main.py 117-135 with `_edge_corner_local_numbering_` (inheriting/topology.py 53-61): the geometries of the four
edges; `cc` are the corners UL, DL, UR, DR, `et` the types of U, D, L, R. -/
noncomputable def Two.ofCorners (cc : Fin 4 → ℝ × ℝ) (et : Fin 4 → EdgeType) : Two.Edges ℝ where
  U := (et 0).geometry (cc 0) (cc 2)
  D := (et 1).geometry (cc 1) (cc 3)
  L := (et 2).geometry (cc 0) (cc 1)
  R := (et 3).geometry (cc 2) (cc 3)

/-! ## The crazy mappings -/

/-- `_2d/.../crazy.py` 23-30. -/
noncomputable def Two.crazy (b : Fin 2 → ℝ × ℝ) (c : ℝ) (v : Fin 2 → ℝ) : Fin 2 → ℝ := fun i =>
  ((b i).2 - (b i).1) * (v i + 0.5 * c * Real.sin (2 * Real.pi * v 0) * Real.sin (2 * Real.pi * v 1)) + (b i).1

/-- `_2d/.../crazy.py` 46-56. -/
noncomputable def Two.crazyJ (b : Fin 2 → ℝ × ℝ) (c : ℝ) (v : Fin 2 → ℝ) : M2 ℝ :=
  let l := fun i => (b i).2 - (b i).1
  let sr := Real.sin (2 * Real.pi * v 0); let cr := Real.cos (2 * Real.pi * v 0)
  let ss := Real.sin (2 * Real.pi * v 1); let cs := Real.cos (2 * Real.pi * v 1)
  ![![l 0 + l 0 * 2 * Real.pi * 0.5 * c * cr * ss, l 0 * 2 * Real.pi * 0.5 * c * sr * cs],
    ![l 1 * 2 * Real.pi * 0.5 * c * cr * ss, l 1 + l 1 * 2 * Real.pi * 0.5 * c * sr * cs]]

/-- `_3d/.../crazy.py` 31-47. -/
noncomputable def Three.crazy (b : Fin 3 → ℝ × ℝ) (c : ℝ) (v : Fin 3 → ℝ) : Fin 3 → ℝ := fun i =>
  if c = 0 then ((b i).2 - (b i).1) * v i + (b i).1
  else ((b i).2 - (b i).1) * (v i + 0.5 * c * Real.sin (2 * Real.pi * v 0) * Real.sin (2 * Real.pi * v 1)
    * Real.sin (2 * Real.pi * v 2)) + (b i).1

/-- `_3d/.../crazy.py` 80-126. -/
noncomputable def Three.crazyJ (b : Fin 3 → ℝ × ℝ) (c : ℝ) (v : Fin 3 → ℝ) : M3 ℝ :=
  let l := fun i => (b i).2 - (b i).1
  let sr := Real.sin (2 * Real.pi * v 0); let cr := Real.cos (2 * Real.pi * v 0)
  let ss := Real.sin (2 * Real.pi * v 1); let cs := Real.cos (2 * Real.pi * v 1)
  let st := Real.sin (2 * Real.pi * v 2); let ct := Real.cos (2 * Real.pi * v 2)
  if c = 0 then ![![l 0, 0, 0], ![0, l 1, 0], ![0, 0, l 2]]
  else
  ![![l 0 + l 0 * 2 * Real.pi * 0.5 * c * cr * ss * st, l 0 * 2 * Real.pi * 0.5 * c * sr * cs * st,
      l 0 * 2 * Real.pi * 0.5 * c * sr * ss * ct],
    ![l 1 * 2 * Real.pi * 0.5 * c * cr * ss * st, l 1 + l 1 * 2 * Real.pi * 0.5 * c * sr * cs * st,
      l 1 * 2 * Real.pi * 0.5 * c * sr * ss * ct],
    ![l 2 * 2 * Real.pi * 0.5 * c * cr * ss * st, l 2 * 2 * Real.pi * 0.5 * c * sr * cs * st,
      l 2 + l 2 * 2 * Real.pi * 0.5 * c * sr * ss * ct]]

end Mifem.Region
