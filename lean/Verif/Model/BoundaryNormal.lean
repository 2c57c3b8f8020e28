import Mathlib.Analysis.SpecialFunctions.Trigonometric.Inverse
import Verif.Model.TraceDisc

/-!
# The constant outward normal of a boundary, and components of boundary-wise vectors

Python sources (below /repo/objects/CSCG/_3d unless noted):
* `mesh/boundaries/boundary/coordinate_transformation/constant.py` lines 23-152
* `mesh/trace/elements/element/coordinate_transformation/constant.py` lines 23-58
* `/repo/components/functions/_3dSpace/angle.py` lines 6-29
* `fields/vector/components/helpers/{T_para,T_perp}_BoundaryWise.py`, `fields/vector/components/main.py` lines 107-134, 177-204

Numbers are real.  The trace elements of a boundary are given core by core, each by its element and side; the element sides of
the boundary (constant.py 87, 97) are the same list.
-/

namespace Mifem.BoundaryNormal
open Mifem.TraceDisc Mifem.Three

/-- A trace element on the boundary. -/
structure Face where
  e : Disc.Three.El ℝ
  s : Side

/-- element constant.py 37-56: the constant normal vector of a trace element, if it is orthogonal. -/
noncomputable def Face.constant (f : Face) : Option (Fin 3 → ℝ) := if f.e.orth then some (unitNormal f.e f.s 0 0) else none

/-- constant.py 89-95: the first and the second point (`CheckDict`). -/
noncomputable def probe : Side → (Fin 3 → ℝ) × (Fin 3 → ℝ)
  | .N => (![-3 / 4, 0, 0], ![-1, 0, 0])
  | .S => (![3 / 4, 0, 0], ![1, 0, 0])
  | .W => (![0, -3 / 4, 0], ![0, -1, 0])
  | .E => (![0, 3 / 4, 0], ![0, 1, 0])
  | .B => (![0, 0, -3 / 4], ![0, 0, -1])
  | .F => (![0, 0, 3 / 4], ![0, 0, 1])

/-- constant.py 97-109: the vector that points outwards. -/
noncomputable def Face.out (f : Face) : Fin 3 → ℝ := fun c => f.e.map (probe f.s).2 c - f.e.map (probe f.s).1 c

/-- angle.py 16-29. -/
noncomputable def angle (u v : Fin 3 → ℝ) : ℝ :=
  let x := dotV u v / (Real.sqrt (dotV u u) * Real.sqrt (dotV v v))
  Real.arccos (if x > 1 then 1 else if x < -1 then -1 else x)

open Classical in
/-- constant.py 34-57: the loop over the trace elements of one core; `cV` is the vector found so far. -/
noncomputable def coreVector (cV : Option (Fin 3 → ℝ)) : List Face → Option (Fin 3 → ℝ)
  | [] => cV
  | f :: L =>
    match f.constant with
    | none => none
    | some v =>
      match cV with
      | none => coreVector (some v) L
      | some c => if c = v then coreVector cV L else none

/-- constant.py 59-78: the first vector that is not `None`. -/
def firstVector (l : List (Option (Fin 3 → ℝ))) : Option (Fin 3 → ℝ) := (l.find? Option.isSome).join

open Classical in
/-- constant.py 111-118: `oppo` and `same` of one core. -/
noncomputable def coreCheck (v : Fin 3 → ℝ) (L : List Face) : Option Bool × Option Bool :=
  if 0 < L.length then
    (some (L.all fun f => decide (angle f.out v > Real.pi / 2)), some (L.all fun f => decide (angle f.out v < Real.pi / 2)))
  else (none, none)

/-- constant.py 120-147: turn the vector, keep it, or give it up.  (If the list of cores has no face at all, both are true and an
assertion fails; then there is no vector either, so this does not happen.) -/
noncomputable def orient (C : List (List Face)) (v : Fin 3 → ℝ) : Option (Fin 3 → ℝ) :=
  let oppo := C.all fun L => (coreCheck v L).1 != some false
  let same := C.all fun L => (coreCheck v L).2 != some false
  if oppo = false ∧ same = false then none
  else if oppo then some fun c => -v c
  else some v

/-- constant.py 23-152. -/
noncomputable def outward (C : List (List Face)) : Option (Fin 3 → ℝ) :=
  match firstVector (C.map (coreVector none)) with
  | none => none
  | some v => orient C v

/-- T_para_BoundaryWise.py 21-58: `n` is the constant normal. -/
def tParaBW (n w : Fin 3 → ℝ) : Fin 3 → ℝ :=
  let x := ![w 1 * n 2 - w 2 * n 1, w 2 * n 0 - w 0 * n 2, w 0 * n 1 - w 1 * n 0]
  ![n 1 * x 2 - n 2 * x 1, n 2 * x 0 - n 0 * x 2, n 0 * x 1 - n 1 * x 0]

/-- T_perp_BoundaryWise.py 22-47. -/
def tPerpBW (n w : Fin 3 → ℝ) : Fin 3 → ℝ := ![w 1 * n 2 - w 2 * n 1, w 2 * n 0 - w 0 * n 2, w 0 * n 1 - w 1 * n 0]

end Mifem.BoundaryNormal
