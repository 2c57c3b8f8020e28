import Mathlib.Analysis.SpecialFunctions.Trigonometric.Deriv
import Mathlib.Data.List.GetD
import Verif.Model.Plates

/-!
# Functions given in pieces

Python sources:
* `/repo/components/miscellaneous/generalized_piecewise_function.py` lines 16-133 (`genpiecewise`)
* `/repo/objects/CSCG/_2d/exactSolutions/Euler/shear_layer_rollup.py` lines 48-60
* `/repo/objects/CSCG/_2d/exactSolutions/incompressibleNavierStokes/flow_round_cylinder.py` lines 55-73

Arrays are lists: broadcast (110, 116) and raveled (`np.extract` and `np.place` ravel).  `cast` is the conversion to the
common type of the arguments (122, and inside `np.place`): nothing for floating point numbers, truncation for integers.  An
exception is `none`.  `args` and `kw` (128, 129) are part of the functions.
-/

namespace Mifem.Piecewise

variable {K : Type}

/-- An entry of `funclist`: a number or a function of the arrays of arguments (a scalar returned by it is a list with one entry). -/
inductive Piece (K : Type) where
  | const (c : K)
  | call (f : List (List K) → List K)

/-- `np.extract(cond, arr)` (128). -/
def extract : List Bool → List K → List K
  | true :: m, x :: l => x :: extract m l
  | false :: m, _ :: l => extract m l
  | _, _ => []

/-- The loop of `np.place`: the values are repeated when there are not enough. -/
def fill [Zero K] (vals : List K) : ℕ → List K → List Bool → List K
  | c, _ :: l, true :: m => vals.getD (c % vals.length) 0 :: fill vals (c + 1) l m
  | c, x :: l, false :: m => x :: fill vals c l m
  | _, l, _ => l

/-- `np.place(out, cond, vals)` (129, 131). -/
def place [Zero K] (out : List K) (mask : List Bool) (vals : List K) : Option (List K) :=
  if vals.isEmpty then (if mask.any id then none else some out) else some (fill vals 0 out mask)

/-- 127-131. -/
def Piece.values (arrays : List (List K)) (mask : List Bool) : Piece K → List K
  | .const c => [c]
  | .call f => f (arrays.map (extract mask))

/-- 126-131. -/
def loop [Zero K] (cast : K → K) (arrays : List (List K)) : List (List Bool × Piece K) → List K → Option (List K)
  | [], out => some out
  | (m, p) :: l, out => (place out m ((p.values arrays m).map cast)).bind (loop cast arrays l)

/-- 114: where all conditions are false. -/
def others (conds : List (List Bool)) : List Bool :=
  (List.range (conds.getD 0 []).length).map fun k => !conds.any fun c => c.getD k false

/-- `genpiecewise` (102-133).  Without conditions (where the shape at 120 is that of a single number) it is `none` here. -/
def piecewise [Zero K] (cast : K → K) (arrays : List (List K)) (conds : List (List Bool)) (funcs : List (Piece K)) (fillvalue : K) :
    Option (List K) :=
  if conds.length + 1 ≠ funcs.length ∧ conds.length ≠ funcs.length then none
  else if conds.isEmpty then none
  else
    let conds' := if conds.length + 1 = funcs.length then conds ++ [others conds] else conds
    loop cast arrays (conds'.zip funcs) (List.replicate (conds.getD 0 []).length (cast fillvalue))

/-! ## Uses -/

/-- shear_layer_rollup.py 49-50: `tanh((y - pi / 2) / self.delta)`, of arrays. -/
noncomputable def uLow (δ : ℝ) : Piece ℝ := .call fun a => (a.getD 2 []).map fun y => Real.tanh ((y - Real.pi / 2) / δ)

/-- shear_layer_rollup.py 53-54. -/
noncomputable def uUp (δ : ℝ) : Piece ℝ := .call fun a => (a.getD 2 []).map fun y => Real.tanh ((3 * Real.pi / 2 - y) / δ)

open Classical in
/-- shear_layer_rollup.py 56-57; `t` is one number. -/
noncomputable def shearU (δ t : ℝ) (xs ys : List ℝ) : Option (List ℝ) :=
  piecewise id [ys.map fun _ => t, xs, ys] [ys.map fun y => decide (y ≤ Real.pi), ys.map fun y => decide (y > Real.pi)]
    [uLow δ, uUp δ] 0

open Classical in
/-- flow_round_cylinder.py 55-65: the first component of `velocity_bc`. -/
noncomputable def inletU (vel r li t : ℝ) (xs ys : List ℝ) : Option (List ℝ) :=
  piecewise id [xs.map fun _ => t, xs, ys] [xs.map fun x => decide (x < -(r + li)), xs.map fun x => decide (x ≥ -(r + li))]
    [.call fun a => (a.getD 1 []).map fun x => 0 * x + vel, .call fun a => (a.getD 1 []).map fun x => 0 * x] 0

end Mifem.Piecewise
