import Verif.Model.Region
import Verif.Model.Domain

/-!
# Two-dimensional domains with a circular hole

Python sources, under `/repo/objects/CSCG/_2d/mesh/domain/inputs/`:
* `cic.py` lines 9-83 (`CylinderInChannel`)
* `chp1.py` lines 9-67 (`CircleHolePlate1`)
* `chp2.py` lines 8-74 (`CircleHolePlate2`)
* `base.py` lines 128-166, 200-223 (the setters; the names used here pass their checks)

Numbers are real numbers.  Regions are the values of a type of names, in the order of the dictionary of the corners; edges are
numbered 0..3 for `U`, `D`, `L`, `R`.  Types of parameters (`isinstance`) are not modelled.
-/

namespace Mifem.Plates
open Mifem.Region

/-- What a domain input sets (base.py 13-31). -/
structure Input (ν : Type) where
  /-- the keys of `region_corner_coordinates` in order -/
  names : List ν
  /-- `region_corner_coordinates`: UL, DL, UR, DR -/
  corners : ν → Fin 4 → ℝ × ℝ
  /-- `region_edge_types`; edges that are not mentioned are straight -/
  edgeTypes : ν → Fin 4 → EdgeType
  /-- `boundary_region_edges` -/
  boundaries : List (String × List (ν × Fin 4))

variable {ν : Type}

/-- The geometry of an edge of a region. -/
noncomputable def Input.edge (d : Input ν) (x : ν × Fin 4) : Edge ℝ :=
  let e := Two.ofCorners (d.corners x.1) (d.edgeTypes x.1)
  match x.2 with
  | 0 => e.U
  | 1 => e.D
  | 2 => e.L
  | 3 => e.R

/-- The edges listed for the boundary with the given name. -/
def Input.boundary (d : Input ν) (b : String) : List (ν × Fin 4) := ((d.boundaries.find? fun x => x.1 = b).map Prod.snd).getD []

/-- The arguments of the computation of the region map. -/
def Input.regions (d : Input ν) : List (ν × List (ℝ × ℝ)) := d.names.map fun n => (n, List.ofFn (d.corners n))

/-- The arguments of the computation of the region map. -/
def Input.listing (d : Input ν) : List (List (ν × ℕ)) := d.boundaries.map fun b => b.2.map fun x => (x.1, x.2.val)

/-- The regions of `cic.py`. -/
inductive Cic where
  | Ru | Rr | Rd | Rl | Ri | Ro
deriving DecidableEq

open Classical in
/-- cic.py 11-83.  The checks of `li` and `lo` (51, 52) look at `r`. -/
noncomputable def cic (h r li lo : ℝ) : Option (Input Cic) :=
  if ¬ (h > 0 ∧ r > 0 ∧ r > 0 ∧ r > 0 ∧ r < h / 2) then none else
  let s := r / Real.sqrt 2
  some {
    names := [.Ru, .Rr, .Rd, .Rl, .Ri, .Ro]
    corners := fun
      | .Ru => ![(-s, s), (s, s), (-h / 2, h / 2), (h / 2, h / 2)]
      | .Rr => ![(s, s), (s, -s), (h / 2, h / 2), (h / 2, -h / 2)]
      | .Rd => ![(s, -s), (-s, -s), (h / 2, -h / 2), (-h / 2, -h / 2)]
      | .Rl => ![(-s, -s), (-s, s), (-h / 2, -h / 2), (-h / 2, h / 2)]
      | .Ri => ![(-h / 2, -h / 2), (-h / 2, h / 2), (-h / 2 - li, -h / 2), (-h / 2 - li, h / 2)]
      | .Ro => ![(h / 2, h / 2), (h / 2, -h / 2), (h / 2 + lo, h / 2), (h / 2 + lo, -h / 2)]
    edgeTypes := fun
      | .Ru => ![.straight, .straight, .acw (0, 0), .straight]
      | .Rl => ![.straight, .straight, .acw (0, 0), .straight]
      | .Rd => ![.straight, .straight, .acw (0, 0), .straight]
      | .Rr => ![.straight, .straight, .acw (0, 0), .straight]
      | _ => fun _ => .straight
    boundaries := [("Upper", [(.Ri, 1), (.Ru, 3), (.Ro, 0)]), ("Down", [(.Ri, 0), (.Rd, 3), (.Ro, 1)]), ("Left", [(.Ri, 3)]),
      ("Right", [(.Ro, 3)]), ("Internal", [(.Ru, 2), (.Rl, 2), (.Rd, 2), (.Rr, 2)])] }

/-- The regions of `chp1.py`. -/
inductive Chp1 where
  | Ru | Rr | Rd | Rl
deriving DecidableEq

open Classical in
/-- chp1.py 11-67, with `hy` given (40-41: `hy` is `hx` otherwise).  For `r < 0` the square root is `nan`, here 0. -/
noncomputable def chp1 (hx hy r : ℝ) : Option (Input Chp1) :=
  if ¬ (hx > 0 ∧ hy > 0) then none else
  if ¬ r < min hx hy then none else
  let s := 0.5 * Real.sqrt r
  some {
    names := [.Ru, .Rr, .Rd, .Rl]
    corners := fun
      | .Ru => ![(-s, s), (s, s), (-hx / 2, hy / 2), (hx / 2, hy / 2)]
      | .Rr => ![(s, s), (s, -s), (hx / 2, hy / 2), (hx / 2, -hy / 2)]
      | .Rd => ![(s, -s), (-s, -s), (hx / 2, -hy / 2), (-hx / 2, -hy / 2)]
      | .Rl => ![(-s, -s), (-s, s), (-hx / 2, -hy / 2), (-hx / 2, hy / 2)]
    edgeTypes := fun _ => ![.straight, .straight, .acw (0, 0), .straight]
    boundaries := [("Upper", [(.Ru, 3)]), ("Down", [(.Rd, 3)]), ("Left", [(.Rl, 3)]), ("Right", [(.Rr, 3)]),
      ("Internal", [(.Ru, 2), (.Rl, 2), (.Rd, 2), (.Rr, 2)])] }

/-- The regions of `chp2.py`. -/
inductive Chp2 where
  | UL | L | DL | U | D | UR | R | DR
deriving DecidableEq

open Classical in
/-- chp2.py 10-74, with `hy` given (45: `hy` is `hx` otherwise). -/
noncomputable def chp2 (hx hy r : ℝ) : Option (Input Chp2) :=
  if ¬ (hx > 0 ∧ hy > 0) then none else
  if ¬ r < min hx hy then none else
  let s := Real.sqrt 2 * r / 2
  some {
    names := [.UL, .L, .DL, .U, .D, .UR, .R, .DR]
    corners := fun
      | .UL => ![(-hx / 2, -hy / 2), (-s, -hy / 2), (-hx / 2, -s), (-s, -s)]
      | .L => ![(-s, -hy / 2), (s, -hy / 2), (-s, -s), (s, -s)]
      | .DL => ![(s, -hy / 2), (hx / 2, -hy / 2), (s, -s), (hx / 2, -s)]
      | .U => ![(-hx / 2, -s), (-s, -s), (-hx / 2, s), (-s, s)]
      | .D => ![(s, -s), (hx / 2, -s), (s, s), (hx / 2, s)]
      | .UR => ![(-hx / 2, s), (-s, s), (-hx / 2, hy / 2), (-s, hy / 2)]
      | .R => ![(-s, s), (s, s), (-s, hy / 2), (s, hy / 2)]
      | .DR => ![(s, s), (hx / 2, s), (s, hy / 2), (hx / 2, hy / 2)]
    edgeTypes := fun
      | .L => ![.straight, .straight, .straight, .aacw (0, 0)]
      | .U => ![.straight, .acw (0, 0), .straight, .straight]
      | .D => ![.aacw (0, 0), .straight, .straight, .straight]
      | .R => ![.straight, .straight, .acw (0, 0), .straight]
      | _ => fun _ => .straight
    boundaries := [("Upper", [(.UL, 0), (.U, 0), (.UR, 0)]), ("Down", [(.DL, 1), (.D, 1), (.DR, 1)]),
      ("Left", [(.UL, 2), (.L, 2), (.DL, 2)]), ("Right", [(.UR, 3), (.R, 3), (.DR, 3)]),
      ("Internal", [(.L, 3), (.U, 1), (.D, 0), (.R, 2)])] }

end Mifem.Plates
