import Verif.Model.TraceRec

/-!
# Integrals over the boundary of the mesh

Python sources (below /repo/objects/CSCG):
* `_3d/forms/standard/_1s/boundary_integration/helpers/V_helper.py` lines 18-69 (points, weights, matrices), 71-128
* `_2d/forms/standard/_0_form/outer/boundary_integrate/helpers/ipS_helper.py` lines 16-59, 61-104
* `base/forms/base/BC/interpret/helpers/boundary_integration.py` lines 17-63, 80-160

Numbers are real.  The functions of the fields are taken at the current time.  The constant Jacobians of the trace elements
(`none`: there is none) are arguments; see Model/TraceMark.  Quadrature rules have at least two points (degree at least 1), so
arrays of different lengths cannot be multiplied.
-/

namespace Mifem.BoundaryInt
open Mifem.Basis Mifem.Metric Mifem.TraceRec Mifem.TraceDisc

/-! ## 1-forms in 3D -/
section
open Mifem.Three

/-- V_helper.py 38-43 (`Qn`, ..., `Qf`): the three arrays of points of a side. -/
def arrays (xs ys zs : List ℝ) : Side → Fin 3 → List ℝ
  | .N => ![[-1], ys, zs]
  | .S => ![[1], ys, zs]
  | .W => ![xs, [-1], zs]
  | .E => ![xs, [1], zs]
  | .B => ![xs, ys, [-1]]
  | .F => ![xs, ys, [1]]

variable (nx ny nz xs ys zs : List ℝ) (q : Side → Nat → ℝ) (e : Disc.Three.El ℝ)

/-- V_helper.py 49-54: the reconstruction matrices on the points of a side. -/
noncomputable def matrices (s : Side) (k : Fin 3) : Arr ℝ :=
  let Q := arrays xs ys zs s
  Metric.Three.reconMatrix1 e.orth (fun m => Metric.Three.inverse (e.J (grid xs ys zs s m)))
    (Metric.Three.basis1 nx ny nz (Q 0) (Q 1) (Q 2)) k

/-- V_helper.py 92-119: one side on the boundary.  The functions are evaluated at the points of the *reference* element. -/
noncomputable def sideVec1 (s : Side) (V : (Fin 3 → ℝ) → Fin 3 → ℝ) (cJ : Option ℝ) : Option (Nat → ℝ) :=
  cJ.map fun j b =>
    let GM := matrices nx ny nz xs ys zs e s
    ((List.range (GM 0).rows).map fun w =>
      (V (grid xs ys zs s w) 0 * (GM 0).e w b + V (grid xs ys zs s w) 1 * (GM 1).e w b + V (grid xs ys zs s w) 2 * (GM 2).e w b)
        * (q s w * j)).sum

/-- `'nswebf'`. -/
def sides6 : List Side := [.N, .S, .W, .E, .B, .F]

/-- V_helper.py 71-128: the vector of an element; `bn s` is the name of the boundary on side `s`, if there is one, `V` the functions
of the boundaries. -/
noncomputable def vec1 (bn : Side → Option Nat) (V : Nat → (Fin 3 → ℝ) → Fin 3 → ℝ) (cJ : Side → Option ℝ) : Option (Nat → ℝ) :=
  if sides6.all (fun s => (bn s).isNone) then some fun _ => 0 else
  sides6.foldlM (fun acc s =>
    match bn s with
    | none => some acc
    | some n => (sideVec1 nx ny nz xs ys zs q e s (V n) (cJ s)).map fun v i => acc i + v i) fun _ => 0
end

/-! ## 0-forms in 2D -/
section
open Mifem.Two

variable (nx ny xs ys wx wy : List ℝ)

/-- ipS_helper.py 40-43 (`Qu`, `Qd`, `Ql`, `Qr`). -/
def arrays2 : Side → Fin 2 → List ℝ
  | .U => ![[-1], ys]
  | .D => ![[1], ys]
  | .L => ![xs, [-1]]
  | .R => ![xs, [1]]

/-- ipS_helper.py 51-54: `np.meshgrid`, `ravel('F')`. -/
def grid1 : Side → Nat → Fin 2 → ℝ
  | .U, m => ![-1, ys.getD m 0]
  | .D, m => ![1, ys.getD m 0]
  | .L, m => ![xs.getD m 0, -1]
  | .R, m => ![xs.getD m 0, 1]

/-- ipS_helper.py 44-45: the weights of the sides. -/
def weights2 : Side → List ℝ
  | .U | .D => wx
  | .L | .R => wy

/-- ipS_helper.py 80-99: one side on the boundary; `none` for an exception. -/
noncomputable def sideVec0 (s : Side) (f : (Fin 2 → ℝ) → ℝ) (cJ : Option ℝ) : Option (Nat → ℝ) :=
  let Q := arrays2 xs ys s
  let B := Basis.Two.basis0 nx ny (Q 0) (Q 1)
  let W := weights2 wx wy s
  if W.length = B.cols then
    cJ.map fun j b => ((List.range B.cols).map fun w => f (grid1 xs ys s w) * B.e b w * (W.getD w 0 * j)).sum
  else none

/-- `'udlr'`. -/
def sides4 : List Side := [.U, .D, .L, .R]

/-- ipS_helper.py 61-104. -/
noncomputable def vec0 (bn : Side → Option Nat) (f : Nat → (Fin 2 → ℝ) → ℝ) (cJ : Side → Option ℝ) : Option (Nat → ℝ) :=
  if sides4.all (fun s => (bn s).isNone) then some fun _ => 0 else
  sides4.foldlM (fun acc s =>
    match bn s with
    | none => some acc
    | some n => (sideVec0 nx ny xs ys wx wy s (f n) (cJ s)).map fun v i => acc i + v i) fun _ => 0
end

/-! ## Local traces in 3D -/
section
open Mifem.Three

variable (nx ny nz xs ys zs : List ℝ) (e : Disc.Three.El ℝ) (s : Side) (q : Nat → ℝ)

/-- The point of a trace element with two coordinates (`mesh/trace/elements/main.py` 343-367, `element/coordinate_transformation/main.py` 84-88). -/
def twoCoord : Side → ℝ × ℝ → Fin 3 → ℝ
  | .N, (a, b) => ![-1, a, b]
  | .S, (a, b) => ![1, a, b]
  | .W, (a, b) => ![a, -1, b]
  | .E, (a, b) => ![a, 1, b]
  | .B, (a, b) => ![a, b, -1]
  | .F, (a, b) => ![a, b, 1]

/-- boundary_integration.py 118-142: one side; `b` are the basis functions of the side. -/
noncomputable def ltSideVec (b : Arr ℝ) (f : (Fin 3 → ℝ) → ℝ) (cJ : Option ℝ) : Option (Nat → ℝ) :=
  cJ.map fun j i => ((List.range b.cols).map fun m =>
    b.e i m * (f (e.map (twoCoord s (grid2 xs ys zs s m))) * q m * j)).sum

end

end Mifem.BoundaryInt
