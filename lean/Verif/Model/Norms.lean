import Verif.Model.Metric
import Mathlib.Analysis.SpecialFunctions.Pow.Real

/-!
# Model of error norms, energies and metric statistics

Source: `objects/CSCG/_2d/forms/standard/base/error.py`, `.../base/do.py`, the same files in `_3d` and
`objects/miUsGrid/triangular/forms/standard/base/error.py`, `objects/CSCG/_2d/fields`, `_3d/fields`.

A core holds a list of elements.  Floating point numbers are real numbers; the root of a negative number is
numpy's `nan`.
-/

namespace Mifem.Norms

open Mifem.Metric

/-- What a call returns. -/
inductive Out where
  | raise
  | nan
  | val (x : ℝ)

/-- `x ** (1 / n)` for a numpy float: `nan` for a negative base and an exponent that is no integer, and
`ZeroDivisionError` for `n = 0`. -/
noncomputable def npRoot (x : ℝ) (n : ℕ) : Out :=
  if n = 0 then .raise else if n = 1 then .val x else if x < 0 then .nan else .val (x ^ (1 / (n : ℝ)))

/-- The values of a form or field in one element at the quadrature points: `v m q` is component `m` at point
`q`, `f` the exact values at the same points, `detJ` the Jacobian determinant. -/
structure Elt where
  v : ℕ → ℕ → ℝ
  f : ℕ → ℕ → ℝ
  detJ : ℕ → ℝ

/-- One element's contribution (`_2d/.../error.py` 85–90, `_3d/.../error.py` 151–157, triangular 49–54):
`c` components, `N` points, weights `w`. -/
def elementError (n c N : ℕ) (w : ℕ → ℝ) (e : Elt) : ℝ :=
  ((List.range N).map fun q =>
    ((List.range c).map fun m => (e.v m q - e.f m q) ^ n).sum * e.detJ q * w q).sum

/-- Sum in the core, gathered and summed in the master core (`_2d/.../error.py` 92–96). -/
def gatheredSum (g : Elt → ℝ) (cores : List (List Elt)) : ℝ :=
  (cores.map fun es => (es.map g).sum).sum

/-- `error.L` of 2D forms (`_2d/.../error.py` 12–101) and of forms on triangles, which have no `upon`
(`triangular/.../error.py` 23–65).  With `upon=True` the master core asks for the attribute `func` of the
form (line 63), which forms do not have (`objects/base/form/base.py`, `objects/CSCG/base/forms/base/main.py`,
`objects/CSCG/base/forms/standard/main.py`). -/
noncomputable def errorL2d (n c N : ℕ) (w : ℕ → ℝ) (upon : Bool) (cores : List (List Elt)) : Out :=
  if upon then .raise else npRoot (gatheredSum (elementError n c N w) cores) n

/-- `error.L` of 3D forms for an integer `n` (`_3d/.../error.py` 17–172): in addition `n > 0` and the result
`>= 0` are asserted (lines 65, 170). -/
noncomputable def errorL3d (n c N : ℕ) (w : ℕ → ℝ) (upon : Bool) (cores : List (List Elt)) : Out :=
  if n = 0 then .raise
  else if upon then .raise
  else match npRoot (gatheredSum (elementError n c N w) cores) n with
    | .val x => if 0 ≤ x then .val x else .raise
    | _ => .raise

/-- `np.max(np.abs(v - f))` over the points; the sample has at least one point. -/
def maxAbs (N : ℕ) (v f : ℕ → ℝ) : ℝ :=
  ((List.range N).map fun q => |v q - f q|).foldl max 0

/-- The largest error of one core (`_3d/.../error.py` 123–132; trace forms: `forms/trace/base/error.py`
67–78; edge forms: `forms/edge/base/error.py` 62–70), starting from -1. -/
noncomputable def coreInf (c N : ℕ) (es : List Elt) : ℝ :=
  es.foldl (fun a e =>
    let b := ((List.range c).map fun m => maxAbs N (e.v m) (e.f m)).foldl max 0
    if a < b then b else a) (-1)

/-- `error.L('infinity')`: the maximum over the cores (`_3d/.../error.py` 134–141). -/
noncomputable def errorInf (c N : ℕ) (cores : List (List Elt)) : ℝ := (cores.map (coreInf c N)).foldl max (-1)

/-- `error.L('infinity')` of 3D standard forms: line 170 asserts that it is not negative. -/
noncomputable def errorInf3d (c N : ℕ) (upon : Bool) (cores : List (List Elt)) : Out :=
  if upon then .raise else if 0 ≤ errorInf c N cores then .val (errorInf c N cores) else .raise

/-- The number of sample points in one direction (`_3d/.../error.py` 47–58): `d` is
`density_per_element ** (1/3)`. -/
noncomputable def sampleNum (d : ℝ) : ℕ :=
  let d := if d < 1 then 3 else d
  if Int.fract d ≥ 1 / 2 then ⌊d⌋₊ + 1 else ⌊d⌋₊

/-- The sample points: midpoints of a uniform grid of `k` cells (`_3d/.../error.py` 57–58). -/
noncomputable def samplePoints (k : ℕ) : List ℝ :=
  let nodes : ℕ → ℝ := fun i => -1 + 2 * i / k
  (List.range k).map fun i => (nodes i + nodes (i + 1)) / 2

/-- `(L2 ** 2 + dL2 ** 2) ** 0.5`, the last line of `error.H` (`_2d/.../error.py` 120, `_3d/.../error.py` 192,
triangular 98). -/
noncomputable def hError : Out → Out → Out
  | .val a, .val b => .val ((a ^ 2 + b ^ 2) ^ (1 / 2 : ℝ))
  | .raise, _ => .raise
  | _, .raise => .raise
  | _, _ => .nan

/-! ## Energies -/

/-- `compute_Ln_energy` without vectorization (`_3d/.../do.py` 105–114, `_2d/.../do.py` 103–122). -/
def energy (n c N : ℕ) (w : ℕ → ℝ) (cores : List (List Elt)) : ℝ :=
  gatheredSum (fun e => ((List.range N).map fun q =>
    ((List.range c).map fun m => e.v m q ^ n).sum * e.detJ q * w q).sum) cores

/-- `compute_Ln_norm` (`_3d/.../do.py` 118–126, `_2d/.../do.py` 159–167). -/
noncomputable def norm (n c N : ℕ) (w : ℕ → ℝ) (cores : List (List Elt)) : Out :=
  npRoot (energy n c N w cores) n

/-- `compute_Ln_diff_from` (`_3d/.../do.py` 141–175): the values of the other form are `f`. -/
noncomputable def diffFrom (n c N : ℕ) (w : ℕ → ℝ) (cores : List (List Elt)) : Out :=
  npRoot (gatheredSum (elementError n c N w) cores) n

/-- `compute_Ln_norm` of scalar and vector fields (`_2d/fields/scalar/do/main.py` 52–86,
`_3d/fields/scalar/do/main.py` 24–64, `_3d/fields/vector/do/main.py` 40–84, `_2d/fields/vector/do/main.py`
28–69): `dim` components are read, the field has `c`.  Reading a component that is not there raises
`IndexError`. -/
noncomputable def fieldNorm (dim n c N : ℕ) (w : ℕ → ℝ) (cores : List (List Elt)) : Out :=
  if c < dim ∧ ∃ es ∈ cores, es ≠ [] then .raise else norm n dim N w cores

/-- The 2D vector field reads three components (`_2d/fields/vector/do/main.py` 49) and has two
(`_2d/fields/vector/do/reconstruct/mesh_element/standard.py` 36–46). -/
noncomputable def vectorFieldNorm2d (n N : ℕ) (w : ℕ → ℝ) (cores : List (List Elt)) : Out :=
  fieldNorm 3 n 2 N w cores

/-- A local matrix. -/
structure Mat where
  rows : ℕ
  cols : ℕ
  e : ℕ → ℕ → ℝ

/-- `a @ M @ b` for one-dimensional arrays `a`, `b`: the shapes have to match. -/
def bilin (a : List ℝ) (M : Mat) (b : List ℝ) : Option ℝ :=
  if a.length = M.rows ∧ b.length = M.cols then
    some ((List.range M.rows).map fun i =>
      ((List.range M.cols).map fun j => a.getD i 0 * M.e i j * b.getD j 0).sum).sum
  else none

/-- An element with its matrix `M[i]` and the local cochains of the two forms. -/
structure PairElt where
  M : Mat
  self : List ℝ
  other : List ℝ

/-- Sum of values that may raise. -/
def sumOpt : List (Option ℝ) → Option ℝ
  | [] => some 0
  | none :: _ => none
  | some x :: l => (sumOpt l).map (x + ·)

/-- `compute_L2_energy_with` in one core (`_3d/.../do.py` 30–45 with `swap = false`, `_2d/.../do.py` 140–155
with `swap = true`): for a homogeneous core the matrix of the first element is used for all of them. -/
def coreEnergy (swap homogeneous : Bool) : List PairElt → Option ℝ
  | [] => some 0
  | e :: es =>
    sumOpt ((e :: es).map fun x =>
      let M := if homogeneous then e.M else x.M
      if swap then bilin x.other M x.self else bilin x.self M x.other)

/-- `COMM.allreduce(LOCAL, op=MPI.SUM)`; `flags` says which cores are homogeneous. -/
def energyWith (swap : Bool) (cores : List (Bool × List PairElt)) : Option ℝ :=
  sumOpt (cores.map fun c => coreEnergy swap c.1 c.2)

/-! ## Vectorized reconstruction in 2D -/

variable {K : Type} [Field K]

/-- `np.einsum('ij, ki -> kj', basis, A)`. -/
def einsumKJ (B : Basis.Arr K) (A : ℕ → ℕ → K) (k j : ℕ) : K :=
  ((List.range B.rows).map fun i => B.e i j * A k i).sum

/-- `vectorized.inverse_Jacobian_matrix`, `Jacobian`, `inverse_Jacobian`
(`_2d/mesh/elements/coordinate_transformation/vectorized.py` 54–72, 74–102, 104–122): the array of the first
element if the core is homogeneous, else one for each element.  `X k` is the array of the `k`-th local
element. -/
def vectorized {α : Type} (homogeneous : Bool) (X : ℕ → α) (k : ℕ) : α := if homogeneous then X 0 else X k

/-- Inner 1-forms (`_1_form/inner/reconstruct.py` 53–79); `iJ k` is the inverse Jacobian matrix of element `k`
at the points. -/
def vecInner1 (homogeneous allOrth : Bool) (iJ : ℕ → ℕ → M2 K) (B0 B1 : Basis.Arr K) (A : ℕ → ℕ → K)
    (k j : ℕ) : K × K :=
  let u := einsumKJ B0 A k j
  let v := einsumKJ B1 (fun k i => A k (B0.rows + i)) k j
  let iJ := vectorized homogeneous iJ k j
  if allOrth then (u * iJ 0 0, v * iJ 1 1)
  else (u * iJ 0 0 + v * iJ 1 0, u * iJ 0 1 + v * iJ 1 1)

/-- Outer 1-forms (`_1_form/outer/reconstruct.py` 57–99). -/
def vecOuter1 (homogeneous allOrth : Bool) (iJ : ℕ → ℕ → M2 K) (B0 B1 : Basis.Arr K) (A : ℕ → ℕ → K)
    (k j : ℕ) : K × K :=
  let u := einsumKJ B0 A k j
  let v := einsumKJ B1 (fun k i => A k (B0.rows + i)) k j
  let iJ := vectorized homogeneous iJ k j
  if allOrth then (u * iJ 1 1, v * iJ 0 0)
  else (u * iJ 1 1 - v * iJ 0 1, -(u * iJ 1 0) + v * iJ 0 0)

/-- 2-forms (`_2_form/base/reconstruct.py` 60–66) and 3-forms in 3D (`_3d/.../_3s/reconstruct.py` 78–88). -/
def vecTop (homogeneous : Bool) (diJ : ℕ → ℕ → K) (B : Basis.Arr K) (A : ℕ → ℕ → K) (k j : ℕ) : K :=
  ((List.range B.rows).map fun i => B.e i j * A k i * vectorized homogeneous diJ k j).sum

/-! ## Statistics of the metric marks -/

/-- `___PRIVATE_parse_elements_type_wrt_metric___` (`_2d/mesh/elements/main.py` 30–50,
`_3d/mesh/elements/main.py` 34–54): the marks seen so far, and how often a mark was seen if more than once. -/
structure Parsed (α : Type) where
  counter : List α
  mem : List (α × ℕ)

/-- `d[k] += 1`, or `d[k] = 2` if there is no such key. -/
def bump {α : Type} [DecidableEq α] (a : α) : List (α × ℕ) → List (α × ℕ)
  | [] => [(a, 2)]
  | (b, n) :: l => if b = a then (b, n + 1) :: l else (b, n) :: bump a l

@[inherit_doc Parsed] def parse {α : Type} [DecidableEq α] (marks : List α) : Parsed α :=
  marks.foldl (fun s a =>
    if a ∈ s.counter then { s with mem := bump a s.mem } else { s with counter := s.counter ++ [a] }) ⟨[], []⟩

/-- 'amount of types wrt metric' (`_2d/mesh/elements/main.py` 61–64, `_3d/mesh/elements/main.py` 78–81) -/
def amount {α : Type} [DecidableEq α] (marks : List α) : ℤ :=
  (marks.length : ℤ) - ((parse marks).mem.map fun p => (p.2 : ℤ) - 1).sum

/-- 'similarity according to types wrt metric' (`_2d/mesh/elements/main.py` 65–71) for more than one element. -/
def similarity {α : Type} [DecidableEq α] (marks : List α) : ℚ :=
  ((marks.length : ℚ) - amount marks) / (marks.length - 1)

/-- `whether.homogeneous_according_to_types_wrt_metric` (`_2d/mesh/elements/whether.py` 23–33,
`_3d/mesh/elements/whether.py` 26–35) -/
def homogeneous {α : Type} [DecidableEq α] (marks : List α) : Bool :=
  if marks.length ≤ 1 then true else decide (similarity marks = 1)

end Mifem.Norms
