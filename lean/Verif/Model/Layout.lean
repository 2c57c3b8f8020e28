import Verif.Model.Mesh
import Verif.Model.Discretize
import Verif.Model.Metric
import Mathlib.Algebra.Order.Field.Basic

/-!
# Element layouts: how a region is cut into elements

Model of `/repo/objects/CSCG/base/mesh/base.py` l.18-75 (`___PRIVATE_BASE_analyze_element_layout___`),
`/repo/objects/CSCG/_2d/mesh/main.py` l.88-132 and `/repo/objects/CSCG/_3d/mesh/main.py` l.141-196
(`___PRIVATE_parse_element_layout_each_region___`), `/repo/objects/CSCG/_2d/mesh/do/find.py` l.60-66 and
`/repo/objects/CSCG/_3d/mesh/do/find.py` l.43-49 (origin and size of an element).

Simplifications: exact arithmetic; the Lobatto nodes are a parameter; strings other than 'Lobatto:X' and objects of other
classes (which raise) are left out.
-/

namespace Mifem.Layout
variable {K : Type*}

/-- one entry of an element layout: an `int`, a 1d list / tuple / array, or the string 'Lobatto:X'. -/
inductive Entry (K : Type*)
  | int (n : Int)
  | sizes (l : List K)
  | lobatto (degree : Nat)

/-- what is given as `element_layout`. -/
inductive Input (K : Type*)
  | none
  | int (n : Int)
  | list (l : List (Entry K))

/-- `spacing[1:] - spacing[:-1]` (base.py l.63). -/
def diffs [Sub K] (l : List K) : List K := List.zipWith (fun a b => b - a) l l.tail

/-- base.py l.18-75; `lob d` are the nodes `Quadrature(d, category='Lobatto').quad[0]`. -/
def analyze [Sub K] (lob : Nat → List K) (ndim : Nat) : Input K → Option (List (Entry K))
  | .none => some (List.replicate ndim (.int 1))
  | .int i => if 1 ≤ i then some (List.replicate ndim (.int i)) else .none
  | .list l =>
    if l.length = ndim then
      some (l.map fun e => match e with
        | .lobatto d => .sizes (diffs (lob d))
        | e => e)
    else .none

/-- `_element_layout_[i]`, `_element_ratio_[i]`, `_element_spacing_[i]`. -/
structure Parsed (K : Type*) where
  n : Nat
  ratio : List K
  spacing : List K
deriving DecidableEq

/-- 2D main.py l.121-127: zeros, the last entry is 1, entries `1 .. n-1` are partial sums of the ratios. -/
def spacingOf [Field K] (n : Nat) (ratio : List K) : List K :=
  (List.range (n + 1)).map fun j => if 1 ≤ j ∧ j < n then (ratio.take j).sum else if j = n then 1 else 0

/-- 2D main.py l.96-127 for one direction; `none` for a failing `assert` (or `np.min` of an empty array). -/
def parse1 [Field K] [LinearOrder K] : Entry K → Option (Parsed K)
  | .int n =>
    if 0 < n then
      let ratio := List.replicate n.toNat (1 / (n.toNat : K) * 1)
      some ⟨n.toNat, ratio, spacingOf n.toNat ratio⟩
    else .none
  | .sizes l =>
    if l ≠ [] ∧ ∀ x ∈ l, 0 < x then
      let ratio := l.map fun x => x / l.sum
      some ⟨l.length, ratio, spacingOf l.length ratio⟩
    else .none
  | .lobatto _ => .none

/-- 2D main.py l.88-132. -/
def parse [Field K] [LinearOrder K] (lob : Nat → List K) (ndim : Nat) (inp : Input K) : Option (List (Parsed K)) :=
  (analyze lob ndim inp).bind fun l => l.mapM parse1

/-- find.py (2D l.60-66; 3D l.43-49): origin of the element with local indices `i` in the reference region. -/
def origin [Field K] {d : Nat} (L : Fin d → Parsed K) (i : List Nat) (j : Fin d) : K := (L j).spacing.getD (i.getD j 0) 0

/-- its size. -/
def delta [Field K] {d : Nat} (L : Fin d → Parsed K) (i : List Nat) (j : Fin d) : K := (L j).ratio.getD (i.getD j 0) 0

/-- a region: its mapping from the unit square / cube, the Jacobian matrix of the mapping, and whether its type metric
makes the marks of the elements start with 'Orth'. -/
structure Geo (d : Nat) (K : Type*) where
  map : (Fin d → K) → Fin d → K
  J : (Fin d → K) → Fin d → Fin d → K
  orth : Bool

/-- The element with local indices `i` of a region
(`/repo/objects/CSCG/_2d/mesh/elements/element/coordinate_transformation/main.py` l.45-77). -/
def cut2 [Field K] (R : Geo 2 K) (L : Fin 2 → Parsed K) (i : List Nat) : Disc.Two.El K where
  map := Metric.Two.elementMap R.map (origin L i) (delta L i)
  J := fun v => Metric.Two.jacobianMatrix R.orth (R.J fun j => (v j + 1) * (1 / 2) * delta L i j + origin L i j) (delta L i)
  orth := R.orth

/-- The same in 3D (`/repo/objects/CSCG/_3d/mesh/elements/element/coordinate_transformation.py` l.41-79). -/
def cut3 [Field K] (R : Geo 3 K) (L : Fin 3 → Parsed K) (i : List Nat) : Disc.Three.El K where
  map := Metric.Three.elementMap R.map (origin L i) (delta L i)
  J := fun v => Metric.Three.jacobianMatrix R.orth (R.J fun j => (v j + 1) * (1 / 2) * delta L i j + origin L i j) (delta L i)
  orth := R.orth

/-- Element number `k` of a mesh (2D main.py l.611-642, find.py l.68-72): regions `R`, layouts `L`. Numbers that no element
has raise in the code; here they give the first element of region 0. -/
def element2 [Field K] (M : List Mesh.EArr) (R : Nat → Geo 2 K) (L : Nat → Fin 2 → Parsed K) (k : Nat) : Disc.Two.El K :=
  match Mesh.find M k with
  | some (r, i) => cut2 (R r) (L r) i
  | none => cut2 (R 0) (L 0) []

/-- The same in 3D. -/
def element3 [Field K] (M : List Mesh.EArr) (R : Nat → Geo 3 K) (L : Nat → Fin 3 → Parsed K) (k : Nat) : Disc.Three.El K :=
  match Mesh.find M k with
  | some (r, i) => cut3 (R r) (L r) i
  | none => cut3 (R 0) (L 0) []

end Mifem.Layout
