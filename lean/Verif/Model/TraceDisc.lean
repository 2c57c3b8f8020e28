import Verif.Model.Discretize
import Verif.Model.Sides
import Mathlib.Analysis.Real.Sqrt

/-!
# Discretization of fields directly on trace elements (3D)

Python sources (below /repo/objects/CSCG/_3d):
* `mesh/trace/elements/main.py` lines 284-342 (`___generate_full_ep___`)
* `mesh/trace/elements/element/coordinate_transformation/main.py` lines 24-168, 170-259
* `forms/trace/_0tr/discretize/scalar/standard.py` lines 26-59, `.../vector/standard/flux.py` lines 26-64
* `forms/trace/_1tr/discretize/vector/standard/T_para.py` lines 27-240
* `forms/trace/_1tr/discretize/vector/trace_element_wise.py` lines 36-383
* `forms/trace/_2tr/discretize/scalar/standard.py`, `boundary_wise.py` (26-132), `.../vector/standard.py` (39-150),
  `.../vector/boundary_wise.py` (94-141)
* `fields/vector/components/helpers/{norm,T_para,T_perp}.py` lines 20-66, `fields/vector/helpers/flux.py` lines 17-45

Numbers are real (no rounding); `x / 0` is `0` here and `nan` in numpy (the normal of a collapsed side).  The caches of
quadrature nodes are left out (they depend on `quad_degree` only), and so is the assertion on evaluation points of periodic
trace elements, which is met since element and side are passed.  A trace element is looked at from its characteristic
element `e` and side `s`.
-/

namespace Mifem.TraceDisc
open Mifem.Disc Mifem.Three

/-- elements/main.py 330-335: the points of the element for two coordinates on the side. -/
def fullEp : Side → ℝ → ℝ → Fin 3 → ℝ
  | .N, a, b => ![-1, a, b]
  | .S, a, b => ![1, a, b]
  | .W, a, b => ![a, -1, b]
  | .E, a, b => ![a, 1, b]
  | .B, a, b => ![a, b, -1]
  | .F, a, b => ![a, b, 1]

/-- elements/main.py 309-316: which two of `xi, et, sg` are taken when three one-dimensional arrays are given. -/
def pick : Side → (Fin 3 → ℝ) → ℝ × ℝ
  | .N, v | .S, v => (v 1, v 2)
  | .W, v | .E, v => (v 0, v 2)
  | .B, v | .F, v => (v 0, v 1)

variable (e : Disc.Three.El ℝ) (s : Side)

/-- coordinate_transformation/main.py 85-88: `mapping`. -/
def map (a b : ℝ) : Fin 3 → ℝ := e.map (fullEp s a b)

/-- coordinate_transformation/main.py 98-114: `Jacobian_matrix`, three rows and two columns. -/
def jac (a b : ℝ) (c : Fin 3) : Fin 2 → ℝ :=
  let J := e.J (fullEp s a b) c
  match s with
  | .N | .S => ![J 1, J 2]
  | .W | .E => ![J 2, J 0]
  | .B | .F => ![J 0, J 1]

/-- coordinate_transformation/main.py 136-147: `metric_matrix`. -/
def gram (a b : ℝ) (i j : Fin 2) : ℝ :=
  jac e s a b 0 i * jac e s a b 0 j + jac e s a b 1 i * jac e s a b 1 j + jac e s a b 2 i * jac e s a b 2 j

/-- coordinate_transformation/main.py 164-168: `metric`. -/
def metric (a b : ℝ) : ℝ := gram e s a b 0 0 * gram e s a b 1 1 - gram e s a b 0 1 * gram e s a b 1 0

/-- `vec(a) x vec(b)` of coordinate_transformation/main.py 252-256, T_para.py 46-52, T_perp.py 46-48. -/
def crossV (u v : Fin 3 → ℝ) : Fin 3 → ℝ :=
  ![u 1 * v 2 - u 2 * v 1, u 2 * v 0 - u 0 * v 2, u 0 * v 1 - u 1 * v 0]

/-- `w[0]*n[0] + w[1]*n[1] + w[2]*n[2]`. -/
def dotV (u v : Fin 3 → ℝ) : ℝ := u 0 * v 0 + u 1 * v 1 + u 2 * v 2

/-- coordinate_transformation/main.py 251-259: `unit_normal_vector`. -/
noncomputable def unitNormal (a b : ℝ) : Fin 3 → ℝ :=
  let n := crossV (fun c => jac e s a b c 0) (fun c => jac e s a b c 1)
  fun c => n c / Real.sqrt (n 0 ^ 2 + n 1 ^ 2 + n 2 ^ 2)

/-- coordinate_transformation/main.py 197-237: `___PRIVATE_outward_unit_normal_vector___` of the characteristic element. -/
noncomputable def outwardNormal (a b : ℝ) : Fin 3 → ℝ :=
  match s with
  | .N | .W | .B => fun c => - unitNormal e s a b c
  | _ => unitNormal e s a b

/-! ## Components of a vector on the trace element; `w a b` is its value at the point `(a, b)` of the side -/

/-- flux.py 36-42. -/
noncomputable def fluxOf (w : ℝ → ℝ → Fin 3 → ℝ) (a b : ℝ) : ℝ := dotV (w a b) (unitNormal e s a b)

/-- norm.py 38-41. -/
noncomputable def normOf (w : ℝ → ℝ → Fin 3 → ℝ) (a b : ℝ) : Fin 3 → ℝ :=
  let n := unitNormal e s a b
  ![dotV (w a b) n * n 0, dotV (w a b) n * n 1, dotV (w a b) n * n 2]

/-- T_para.py 41-54. -/
noncomputable def tParaOf (w : ℝ → ℝ → Fin 3 → ℝ) (a b : ℝ) : Fin 3 → ℝ :=
  let n := unitNormal e s a b
  crossV n (crossV (w a b) n)

/-- T_perp.py 41-63. -/
noncomputable def tPerpOf (w : ℝ → ℝ → Fin 3 → ℝ) (a b : ℝ) : Fin 3 → ℝ := crossV (w a b) (unitNormal e s a b)

/-- A field on the whole space, at the points of the side: `FUNC(*mapping(...))`. -/
def onTe {α : Type _} (f : (Fin 3 → ℝ) → α) (a b : ℝ) : α := f (map e s a b)

variable (p0 p1 p2 : Nat) (x0 x1 x2 : Nat → ℝ) (r0 r1 r2 : Rule ℝ)

/-- T_para.py 36-39: `qnodes[i][j, q]`. -/
noncomputable def qnode (x : Nat → ℝ) (r : Rule ℝ) (j q : Nat) : ℝ := (r.x q + 1) / 2 * (x (j + 1) - x j) + x j

/-- `lens[i]`. -/
def lens (x : Nat → ℝ) (j : Nat) : ℝ := x (j + 1) - x j

/-! ## 0-forms on trace elements -/

/-- `f(*np.meshgrid(u, v, indexing='ij')).ravel('F')` for arrays of lengths `m` and `n`. -/
def gridF {α : Type _} (m n : Nat) (u v : Nat → ℝ) (f : ℝ → ℝ → α) : List α :=
  (List.range (m * n)).map fun t => f (u (t % m)) (v (t / m))

/-- _0tr scalar/standard.py 27-30, 46-55; flux.py 27-30, 43-60 (with `g` the flux). -/
def te0 (g : ℝ → ℝ → ℝ) : List ℝ :=
  match s with
  | .N | .S => gridF (p1 + 1) (p2 + 1) x1 x2 g
  | .W | .E => gridF (p0 + 1) (p2 + 1) x0 x2 g
  | .B | .F => gridF (p0 + 1) (p1 + 1) x0 x1 g

/-! ## 1-forms on trace elements -/

/-- `np.einsum('jk, k, j -> j', A, B, C)` with `A = J[0]*u + J[1]*v + J[2]*w` at the points `rows[j][k]`, column `col` of
the Jacobian (T_para.py 154-163 and the five other blocks). -/
def lineInts (w : ℝ → ℝ → Fin 3 → ℝ) (col : Fin 2) (r : Rule ℝ) (rows : List (Nat → ℝ × ℝ)) (C : Nat → ℝ) : List ℝ :=
  rows.zipIdx.map fun row => ∑ q ∈ Finset.range r.n,
    let J := jac e s (row.1 q).1 (row.1 q).2
    let u := w (row.1 q).1 (row.1 q).2
    (J 0 col * u 0 + J 1 col * u 1 + J 2 col * u 2) * r.w q * C row.2

/-- T_para.py 41-48, 62-68, 82-88: the points of the lines in the first direction. -/
noncomputable def rowsA (pa pb : Nat) (xa xb : Nat → ℝ) (ra : Rule ℝ) : List (Nat → ℝ × ℝ) :=
  loop2 pa (pb + 1) fun j k => fun q => (qnode xa ra j q, xb k)

/-- T_para.py 52-58, 72-78, 91-97: the points of the lines in the second direction. -/
noncomputable def rowsB (pa pb : Nat) (xa xb : Nat → ℝ) (rb : Rule ℝ) : List (Nat → ℝ × ℝ) :=
  loop2 (pa + 1) pb fun j k => fun q => (xa j, qnode xb rb k q)

/-- T_para.py 145-233 (`w` the values of the function at the mapped points), trace_element_wise.py 257-376 (`w` the function
of this trace element): the two parts, concatenated.  Lengths: lines 49, 59, 69, 79, 89, 98. -/
noncomputable def te1 (w : ℝ → ℝ → Fin 3 → ℝ) : List ℝ :=
  match s with
  | .N | .S =>
    lineInts e s w 0 r1 (rowsA p1 p2 x1 x2 r1) (tile p1 fun j => lens x1 j * (1 / 2)) ++
      lineInts e s w 1 r2 (rowsB p1 p2 x1 x2 r2) (rep (p1 + 1) fun k => lens x2 k * (1 / 2))
  | .W | .E =>
    lineInts e s w 1 r0 (rowsA p0 p2 x0 x2 r0) (tile p0 fun j => lens x0 j * (1 / 2)) ++
      lineInts e s w 0 r2 (rowsB p0 p2 x0 x2 r2) (rep (p0 + 1) fun k => lens x2 k * (1 / 2))
  | .B | .F =>
    lineInts e s w 0 r0 (rowsA p0 p1 x0 x1 r0) (tile p0 fun j => lens x0 j * (1 / 2)) ++
      lineInts e s w 1 r1 (rowsB p0 p1 x0 x1 r1) (rep (p0 + 1) fun k => lens x1 k * (1 / 2))

/-! ## 2-forms on trace elements -/

/-- `np.kron(v, u)[m]` for arrays, `u` of length `n`. -/
def kron1 (n : Nat) (v u : Nat → ℝ) (m : Nat) : ℝ := v (m / n) * u (m % n)

/-- vector/standard.py 55-60 and 120-148: the cells of a side with their areas, and
`np.einsum('mij, i, j, m -> m', f * sqrt_g, qw0, qw1, area)`. -/
noncomputable def faceInts (pa pb : Nat) (xa xb : Nat → ℝ) (ra rb : Rule ℝ) (g : ℝ → ℝ → ℝ) : List ℝ :=
  (loop2 pa pb fun j k => (j, k)).zipIdx.map fun c => ∑ i ∈ Finset.range ra.n, ∑ j ∈ Finset.range rb.n,
    let a := qnode xa ra c.1.1 i
    let b := qnode xb rb c.1.2 j
    g a b * Real.sqrt (metric e s a b) * ra.w i * rb.w j * (kron1 pa (lens xb) (lens xa) c.2 * (1 / 4))

/-- scalar/standard.py 106-135 with the values `g` of the function. -/
noncomputable def te2 (g : ℝ → ℝ → ℝ) : List ℝ :=
  match s with
  | .N | .S => faceInts e s p1 p2 x1 x2 r1 r2 g
  | .W | .E => faceInts e s p0 p2 x0 x2 r0 r2 g
  | .B | .F => faceInts e s p0 p1 x0 x1 r0 r1 g

/-- vector/standard.py 143-148: `f = f0 * ouv[0] + f1 * ouv[1] + f2 * ouv[2]`. -/
noncomputable def te2v (w : ℝ → ℝ → Fin 3 → ℝ) : List ℝ := te2 e s p0 p1 p2 x0 x1 x2 r0 r1 r2 (fluxOf e s w)

/-! ## Boundary-wise fields -/

/-- scalar/boundary_wise.py 95-135, vector/boundary_wise.py 99-144: `FUNC` gives a function for some boundaries, `range bn`
the local trace elements of a boundary, `ch i` the characteristic element and side, `val` the integrals above.  `none` is
the failing assertion. -/
def boundaryWise {φ B : Type _} (FUNC : List (B × φ)) (range : B → List Nat) (val : Nat → φ → List ℝ) :
    Option (List (Nat × List ℝ)) :=
  (FUNC.flatMap fun bf => (range bf.1).map fun i => (i, bf.2)).foldlM (init := [])
    fun d t => if t.1 ∈ d.map Prod.fst then none else some (d ++ [(t.1, val t.1 t.2)])

end Mifem.TraceDisc
