import Verif.Model.TraceRec
import Mathlib.LinearAlgebra.Matrix.NonsingularInverse

/-!
# Algebraic dual forms (3D): cochains and the dual coboundary

Python sources (in `/repo/objects/CSCG`):
* `_3d/ADF/standard/base/main.py` lines 34-55, `_3d/ADF/standard/base/cochain/main.py` lines 23-129,
  `_3d/ADF/standard/base/cochain/local.py` lines 7-28, `_3d/ADF/standard/base/coboundary.py` lines 17-119
* `_3d/ADF/trace/base/main.py` lines 50-101, `_3d/ADF/trace/base/cochain/main.py` lines 23-111,
  `_3d/ADF/trace/base/cochain/local.py`, `_3d/ADF/trace/base/coboundary.py` lines 15-30
* `base/ADF/base/main.py` lines 122-139 (mass matrix and its inverse, made once)
* `base/forms/standard/cochain/main.py` lines 250-268, `base/forms/trace/cochain/main.py` lines 210-236 (the prime cochain)

Numbers are real (no rounding).  A vector of `n` values is a function of the index that is read below `n` only; the lengths of
the arrays are left out.  `MM.inv` (element-wise `scipy.sparse.linalg.inv`) is the inverse matrix of Mathlib.
-/

namespace Mifem.DualForm
open Three

/-- a dictionary of local vectors, in the order of its keys. -/
abbrev Local := List (Nat × (Nat → ℝ))

/-- `M @ v`, `M` with `n` columns. -/
noncomputable def mul (n : Nat) (M : Nat → Nat → ℝ) (v : Nat → ℝ) (r : Nat) : ℝ := ((List.range n).map fun j => M r j * v j).sum

/-- the matrix of size `n`. -/
def sq (n : Nat) (M : Nat → Nat → ℝ) : Matrix (Fin n) (Fin n) ℝ := fun i j => M i j

/-- `inverse_mass_matrix[i]` (`_3d/ADF/standard/base/main.py` 53-54, `_3d/ADF/trace/base/main.py` 99). -/
noncomputable def inv (n : Nat) (M : Nat → Nat → ℝ) (r c : Nat) : ℝ :=
  if h : r < n ∧ c < n then (sq n M)⁻¹ ⟨r, h.1⟩ ⟨c, h.2⟩ else 0

/-- the setter of `cochain.local` (standard/base/cochain/main.py 37-46; trace/base/cochain/main.py 37-48): the local cochains of
the prime form, `none` for a failing assertion.  `els` are the elements of the core. -/
noncomputable def setLocal (n : Nat) (els : List Nat) (M : Nat → Nat → Nat → ℝ) (l : Local) : Option Local :=
  if l.length = els.length then
    els.mapM fun i => (l.lookup i).map fun v => (i, mul n (inv n (M i)) v)
  else none

/-- `cochain.local[i]` (standard/base/cochain/local.py 13-15; trace/base/cochain/local.py 13-15), from the local cochains of the
prime form; `none` for a missing key. -/
noncomputable def getLocal (n : Nat) (M : Nat → Nat → Nat → ℝ) (prime : Local) (i : Nat) : Option (Nat → ℝ) :=
  (prime.lookup i).map (mul n (M i))

/-- the setter of `cochain.globe` with a `LocallyFullVector` (standard/base/cochain/main.py 119-126, trace/base/cochain/main.py
101-108): `V[idx]` with the gathering vectors `gv` of the elements. -/
noncomputable def setGlobe (n : Nat) (els : List Nat) (M : Nat → Nat → Nat → ℝ) (gv : Nat → Nat → Nat) (V : Nat → ℝ) :
    Option Local :=
  setLocal n els M (els.map fun i => (i, fun a => V (gv i a)))

/-! ## The dual coboundary -/

/-- `num.basis` of the standard forms. -/
def nb (p0 p1 p2 : Nat) : Nat → Nat
  | 0 => nb0 p0 p1 p2
  | 1 => nb1 p0 p1 p2
  | 2 => nb2 p0 p1 p2
  | _ => nb3 p0 p1 p2

/-- `num.basis` of the trace forms. -/
def nbT (p0 p1 p2 : Nat) : Nat → Nat
  | 0 => nbT0 p0 p1 p2
  | 1 => nbT1 p0 p1 p2
  | _ => nbT2 p0 p1 p2

/-- `coboundary.incidence_matrix` of a dual form (coboundary.py 99-119). -/
def incidence (p0 p1 p2 : Nat) : Nat → Option (Nat → Nat → Int)
  | 3 => some (Three.div p0 p1 p2)
  | 2 => some (curl p0 p1 p2)
  | 1 => some (grad p0 p1 p2)
  | _ => none

/-- `coboundary.trace_matrix` of a dual trace form (trace/base/coboundary.py 15-30). -/
def traceMatrix (p0 p1 p2 : Nat) : Nat → Option (Nat → Nat → Int)
  | 2 => some (trace2 p0 p1 p2)
  | 1 => some (trace1 p0 p1 p2)
  | 0 => some (trace0 p0 p1 p2)
  | _ => none

/-- coboundary.py 37-68: degree of the dual trace form, signs of `E_T` and `T_T`, degree of the result. -/
def rule : Nat → Option (Nat × Int × Int × Nat)
  | 3 => some (2, -1, 1, 2)
  | 2 => some (1, 1, -1, 1)
  | 1 => some (0, -1, 1, 0)
  | _ => none

/-- coboundary.py 93-95 in one element: `E[i] @ DFC[i] + T[i] @ DTC[i]` with the transposed matrices; `a` and `b` are the signs,
`m` and `m'` the numbers of values of the two vectors. -/
noncomputable def nextAt (m m' : Nat) (E T : Nat → Nat → Int) (a b : Int) (f t : Nat → ℝ) (r : Nat) : ℝ :=
  mul m (fun r c => ((a * E c r : Int) : ℝ)) f r + mul m' (fun r c => ((b * T c r : Int) : ℝ)) t r

/-- a dual form or dual trace form: whether it is one of the dual trace classes, degree, mesh and space (compared by number), and
`cochain.local`. -/
structure Dual where
  isTrace : Bool
  k : Nat
  mesh : Nat
  space : Nat
  loc : Nat → Option (Nat → ℝ)

/-- `df.coboundary(dt)` (coboundary.py 17-97): degree of the new dual form and the local vectors given to its `cochain.local`;
`none` for an exception. -/
noncomputable def coboundary (p0 p1 p2 : Nat) (els : List Nat) (df dt : Dual) : Option (Nat × Local) :=
  if df.k = 1 ∨ df.k = 2 ∨ df.k = 3 then
    if dt.isTrace = true ∧ df.mesh = dt.mesh ∧ df.space = dt.space then do
      let E ← incidence p0 p1 p2 df.k
      let T ← traceMatrix p0 p1 p2 dt.k
      let r ← rule df.k
      if dt.k = r.1 then
        let l ← els.mapM fun i => do
          let f ← df.loc i
          let t ← dt.loc i
          pure (i, nextAt (nb p0 p1 p2 df.k) (nbT p0 p1 p2 dt.k) E T r.2.1 r.2.2.1 f t)
        pure (r.2.2.2, l)
      else none
    else none
  else none

end Mifem.DualForm
