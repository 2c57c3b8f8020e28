import Verif.Model.ExactSolution
import Mathlib.Algebra.Order.Field.Basic
import Mathlib.Algebra.Order.AbsoluteValue.Basic
import Mathlib.Order.Lattice

/-!
# Model of the comparison of a given derivative with the numerical one

Source: `components/numerical`.  The numerical derivative itself is `ES.central`.  Floating point
numbers are elements of an ordered field; a quotient by zero (`inf` or `nan` in numpy) is `none`.
-/

namespace Mifem.ND

variable {K : Type} [Field K] [LinearOrder K]

/-- `np.max` of an array: `none` for the `ValueError` of an empty one. -/
def npMax : List K → Option K
  | [] => none
  | a :: l => some (l.foldl max a)

/-- `np.max` of an array that may contain `inf` or `nan`: the maximum is then one of these, and no
comparison `< tolerance` succeeds. -/
def npMaxNan (l : List (Option K)) : Option (Option K) :=
  if l.isEmpty then none else if l.all Option.isSome then some (npMax (l.filterMap id)) else some none

/-- `a / b` in numpy, without a value for `b = 0`. -/
def npDiv (a b : K) : Option K := if b = 0 then none else some (a / b)

/-- `np.abs(func - self)` (components/numerical/_1dSpace/derivative.py, 74) -/
def absErrors (func self : List K) : List K := List.zipWith (fun f s => |f - s|) func self

/-- `np.abs((func - self) / den)` (derivative.py, 77) -/
def relErrors (func self den : List K) : List (Option K) :=
  List.zipWith (fun d b => (npDiv d b).map fun q => |q|) (List.zipWith (fun f s => f - s) func self) den

/-- `check_derivative`, `check_partial_t`, `check_partial_x`, `check_partial_y`
(components/numerical/_1dSpace/derivative.py, 67–81; timePlus3dSpace/partial_derivative.py, 109–146;
_3dSpace/partial_derivative.py, 105–127; _2dSpace/partial_derivative.py, 102–124): with
`den = self`.  `check_partial_z` (timePlus3dSpace/partial_derivative.py, 148–159;
_3dSpace/partial_derivative.py, 129–139): with `den = func`.  `none`: numpy raises because the arrays
are empty. -/
def checkPartial (tol : K) (func self den : List K) : Option Bool :=
  match npMax (absErrors func self) with
  | none => none
  | some a =>
    if a < tol then some true
    else match npMaxNan (relErrors func self den) with
      | none => none
      | some none => some false
      | some (some r) => some (decide (r < tol))

/-- The numerical derivative at the nodes (`scipy_derivative`, derivative.py, 62–65). -/
noncomputable def scipyDerivative (h : ℝ) (f : ℝ → ℝ) (nodes : List ℝ) : List ℝ :=
  nodes.map fun a => ES.central h f a

/-- `check_derivative` of a function for a given derivative `g`. -/
noncomputable def checkDerivative (h tol : ℝ) (f g : ℝ → ℝ) (nodes : List ℝ) : Option Bool :=
  checkPartial tol (nodes.map g) (scipyDerivative h f nodes) (scipyDerivative h f nodes)

end Mifem.ND
