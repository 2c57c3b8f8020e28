import Verif.Model.Tri

/-!
# Data of VTK files of triangular meshes

Python sources (in `/repo/objects/miUsGrid/triangular`):
* `mesh/miscellaneous/main.py` lines 30-189 (`quadratic_triangle_data`), 192-208, 211-416 (`triangle_and_quad_data`)
* `fields/scalar/export/vtk/main.py` lines 29-93, `fields/vector/export/vtk/main.py` lines 29-98,
  `forms/standard/_0/base/export/vtk/main.py` lines 31-165, `_1/outer`, `_1/inner`, `_2/base/export/vtk/main.py` (the same)

The numbering loops are those of `Tri.number` (the steps of lines 244-349 are the steps of `form0 p`, those of lines 60-158 the same
without the inner dofs).  Everything runs on the master core, after the dictionaries of all cores have been merged.  An entry `-1` of
`numbering_c` is `none`.  The caches are left out.
-/

namespace Mifem.Tri

/-- main.py 60-158: the steps of `quadratic_triangle_data`, `p = 2` without the node inside the element. -/
def formQ : Form where
  edgeLen := 1
  innerLen := fun _ => 0
  slots := [.vertex 0, .edge 1, .edge 0, .vertex 2, .edge 2, .vertex 1]

/-! ## Triangles and quadrilaterals -/

/-- lines 374-375: the triangles at the singular vertex. -/
def vtkTriangles {α : Type*} (p : Nat) (ne : Nat → Nat → α) : List (List α) :=
  (List.range p).map fun i => [ne 0 0, ne (i + 1) 1, ne i 1]

/-- lines 381-392: the quadrilaterals. -/
def vtkQuads {α : Type*} (p : Nat) (ne : Nat → Nat → α) : List (List α) :=
  (List.range (p - 1)).flatMap fun k => (List.range p).map fun i =>
    let j := k + 1
    [ne i j, ne (i + 1) j, ne (i + 1) (j + 1), ne i (j + 1)]

/-- lines 355, 373-398, 405: `CONNECTIONS.ravel('C')` for the elements `0, …, n - 1`. -/
def vtkConnections {α : Type*} (p n : Nat) (ne : Nat → Nat → Nat → α) : List α :=
  (List.range n).flatMap fun e => (vtkTriangles p (ne e)).flatten ++ (vtkQuads p (ne e)).flatten

/-- The loop over the cells (lines 361-396): `ct` grows by the number of corners and is stored. -/
def vtkCount : List Nat → Nat → List Nat
  | [], _ => []
  | s :: ss, ct => (ct + s) :: vtkCount ss (ct + s)

/-- lines 356, 361-396 (`offsets`): `p` times 3 and `p (p - 1)` times 4 in every element. -/
def vtkOffsets (p n : Nat) : List Nat :=
  vtkCount ((List.range n).flatMap fun _ => List.replicate p 3 ++ List.replicate (p * (p - 1)) 4) 0

/-- line 402. -/
def vtkTypes (p n : Nat) : List Nat := (List.range n).flatMap fun _ => List.replicate p 5 ++ List.replicate (p * (p - 1)) 9

/-- line 358. -/
def vtkIndices (p : Nat) : List Nat := (p / 2) :: List.range' (p + 1) ((p + 1) ^ 2 - (p + 1))

/-- `A.ravel('F')[indices]` for an array with `p + 1` rows and columns (line 399; main.py of the exports). -/
def take {α : Type*} (p : Nat) (ind : List Nat) (arr : Nat → Nat → α) : List (Option α) :=
  ind.map fun k => (ravelF (p + 1) (p + 1) arr)[k]?

/-- line 399. -/
def vtkGathering (p : Nat) (ne : Nat → Nat → Option Nat) : List (Option Nat) := (take p (vtkIndices p) ne).map Option.join

/-! ## Quadratic triangles -/

/-- lines 161-171. -/
def quadraticRow {α : Type*} (ne : Nat → Nat → α) : List (Option α) := take 2 [0, 8, 6, 5, 7, 3] ne

/-- lines 164, 169. -/
def quadraticGathering (ne : Nat → Nat → Option Nat) : List (Option Nat) := (take 2 [1, 3, 5, 6, 7, 8] ne).map Option.join

/-- line 173: `np.linspace(6, 6 * n, n, dtype=int)`. -/
def quadraticOffsets (n : Nat) : List Nat := (List.range n).map fun k => 6 * (k + 1)

/-! ## Export -/

section
variable {V : Type*}

/-- `x[indices] = values`, one entry after another; `none` if there is no such index. -/
def assign (N : Nat) : List (Option Nat × Option V) → (Nat → V) → Option (Nat → V)
  | [], x => some x
  | (some k, some v) :: r, x => if k < N then assign N r (Function.update x k v) else none
  | _ :: _, _ => none

/-- scalar/export/vtk/main.py 69-80: arrays of length `num_data + 1`, filled element by element in the order of the merged
dictionaries (`es`). -/
def scatter (N : Nat) (gath : Nat → List (Option Nat)) (vals : Nat → List (Option V)) : List Nat → (Nat → V) → Option (Nat → V)
  | [], x => some x
  | e :: es, x => (assign N ((gath e).zip (vals e)) x).bind (scatter N gath vals es)

/-- scalar/export/vtk/main.py 47-80: `N` is `np.max(connections) + 1`, `val e i j` the value at node `(i, j)` of element `e`. -/
def vtkExport (p n : Nat) (zero : V) (ne : Nat → Nat → Nat → Option Nat) (val : Nat → Nat → Nat → V) (es : List Nat) :
    Option (Nat → V) :=
  match ((vtkConnections p n ne).mapM id).bind List.max? with
  | none => none
  | some m => scatter (m + 1) (fun e => vtkGathering p (ne e)) (fun e => take p (vtkIndices p) (val e)) es fun _ => zero

/-- _0/base/export/vtk/main.py 51-82: the same with quadratic triangles. -/
def quadraticExport (n : Nat) (zero : V) (ne : Nat → Nat → Nat → Option Nat) (val : Nat → Nat → Nat → V) (es : List Nat) :
    Option (Nat → V) :=
  match (((List.range n).flatMap fun e => (quadraticRow (ne e)).map Option.join).mapM id).bind List.max? with
  | none => none
  | some m => scatter (m + 1) (fun e => quadraticGathering (ne e)) (fun e => take 2 [1, 3, 5, 6, 7, 8] (val e)) es fun _ => zero

end

/-- `np.linspace(a, 1, p + 1)`, entry `i` (scalar/export/vtk/main.py 50, vector/export/vtk/main.py 51-52). -/
def linspace {K : Type*} [Field K] (a : K) (p i : Nat) : K := a + (i : K) * ((1 - a) / (p : K))

end Mifem.Tri
