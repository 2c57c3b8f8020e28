import Mathlib.Algebra.BigOperators.Group.List.Basic
import Mathlib.Algebra.Ring.Defs

/-!
# Multi-dimensional matrices and nonlinear systems

Python sources, below `/repo/tools`:
* `elementwiseCache/dataStructures/objects/multiDimMatrix/main.py`, `whether.py`, `do/main.py`, `do/helpers/*.py`,
  `helpers/*.py`
* `miLinearAlgebra/nonlinearSystem/main.py`, `nonliner_terms.py`, `do.py`,
  `solve/NewtonRaphson/regular.py` lines 112-180

Simplifications: the arithmetic is exact; an element-wise cached object is a function of the element, so the keys of
the caches (C05) are left out; forms are compared by identity, here `Form.id`; sparse matrices and vectors are
functions of their indices.  An exception is `none`.  The loop around one linearised step is in `Model/Stop`.
-/

namespace Mifem.NLS

/-- A form: its identity and its local number of dofs (`num.basis`). -/
structure Form where
  id : Nat
  nb : Nat
  deriving DecidableEq

/-- `cochain.local`, or an `EWC_ColumnVector`: element and local index. -/
abbrev Vec (K : Type) := Nat → Nat → K
/-- An `EWC_SparseMatrix`: element, row and column. -/
abbrev Mat (K : Type) := Nat → Nat → Nat → K

/-- `MultiDimMatrix` (multiDimMatrix/main.py 22-58): the forms of the axes, and for each element an array indexed by
tuples; the array of an element has the shape given by the local numbers of dofs. -/
structure MDM (K : Type) where
  cor : List Form
  data : Nat → List Nat → K

def MDM.ndim {K : Type} (M : MDM K) : Nat := M.cor.length
def MDM.shape {K : Type} (M : MDM K) : List Nat := M.cor.map Form.nb

section
variable {K : Type} [CommRing K]

/-- All index tuples of an array. -/
def tuples : List Nat → List (List Nat)
  | [] => [[]]
  | n :: s => (List.range n).flatMap fun a => (tuples s).map (a :: ·)

/-- `np.einsum('ab...,<letters of ops>-><letters of keep>', T, *ops)` with all letters of the first operand different:
the sum over all index tuples whose kept entries are `out`.  `ops` pairs axes with vectors. -/
def einsum (shape : List Nat) (T : List Nat → K) (ops : List (Nat × (Nat → K))) (keep out : List Nat) : K :=
  (((tuples shape).filter fun t => keep.map (fun i => t.getD i 0) = out).map fun t =>
    T t * (ops.map fun p => p.2 (t.getD p.1 0)).prod).sum

/-- `do.eliminate(dim, form)` (do/main.py 35-56, helpers/eliminate_helper.py 14-33); `c` is the cochain of the form.
`_indices[dim]` raises for a `dim` out of range. -/
def eliminate (M : MDM K) (dim : Nat) (c : Vec K) : Option (MDM K) :=
  if dim < M.ndim then
    some { cor := M.cor.eraseIdx dim
           data := fun e idx =>
             einsum M.shape (M.data e) [(dim, c e)] ((List.range M.ndim).filter (· ≠ dim)) idx }
  else none

/-- `do.sparse_matrix(transpose)` (do/main.py 58-83, helpers/sparse_matrix_helper.py 19-24). -/
def sparseMatrix (M : MDM K) (transpose : Bool) : Option (Mat K) :=
  if M.ndim = 2 then some fun e r c => if transpose then M.data e [c, r] else M.data e [r, c] else none

/-- whether.py 18-35: no form twice in the correspondence. -/
def inhomogeneous (M : MDM K) : Bool :=
  (List.range M.ndim).all fun i => (List.range M.ndim).all fun j =>
    decide (i ≠ j) → decide (M.cor[i]? ≠ M.cor[j]?)

/-- `do.derivative_contribution_to(test_variable, unknown_variable_pair, *known_pairs)` (do/main.py 85-145).
`some none` is the result `None`. -/
def derivativeContribution (M : MDM K) (test unk : Form) (known : List (Form × Vec K)) : Option (Option (Mat K)) :=
  if test ∉ M.cor then none
  else if unk ∉ M.cor then some none
  else
    let known := known.filter fun p => p.1 ∈ M.cor
    if M.ndim = 3 then
      if inhomogeneous M then
        match known with
        | [(f, c)] =>
          match eliminate M (M.cor.idxOf f) c with
          | none => none
          | some M2 =>
            if M2.cor = [test, unk] then (sparseMatrix M2 false).map some
            else if M2.cor = [unk, test] then (sparseMatrix M2 true).map some
            else none
        | _ => none
      else none
    else none

/-- `d[i] = v` for a Python dictionary, in the order of insertion. -/
def dictSet (d : List (Nat × Vec K)) (i : Nat) (v : Vec K) : List (Nat × Vec K) :=
  if i ∈ d.map Prod.fst then d.map fun p => if p.1 = i then (i, v) else p else d ++ [(i, v)]

/-- `eliminated_dimensions` (do/main.py 162-167). -/
def eliminatedDims (M : MDM K) (known : List (Form × Vec K)) : List (Nat × Vec K) :=
  known.foldl (fun d p => if p.1 ∈ M.cor then dictSet d (M.cor.idxOf p.1) p.2 else d) []

/-- The result of `do.evaluate`: a number or an `EWC_ColumnVector`. -/
inductive Value (K : Type) where
  | number (x : K)
  | vector (v : Vec K)

/-- `do.evaluate(known_pairs)` (do/main.py 147-214, helpers/evaluate_remaining_1.py 14-42).  `elements` are the
elements of all ranks: lines 195-202 add up the numbers of the ranks. -/
def evaluate (M : MDM K) (elements : List Nat) (known : List (Form × Vec K)) : Option (Value K) :=
  let d := eliminatedDims M known
  let ops := fun e => d.map fun p => (p.1, p.2 e)
  if M.ndim - d.length = 0 then
    some (.number (elements.map fun e => einsum M.shape (M.data e) (ops e) [] []).sum)
  else if M.ndim - d.length = 1 then
    match (List.range M.ndim).find? fun i => i ∉ d.map Prod.fst with
    | some rm => some (.vector fun e k => einsum M.shape (M.data e) (ops e) [rm] [k])
    | none => none
  else none

/-- `do.reduce_to_vector(v)` (do/main.py 216-233, helpers/reduce_to_vector_helper.py 13-41); `own f` is the cochain
the form `f` has when the vector is read. -/
def reduceToVector (M : MDM K) (own : Form → Vec K) (v : Form) : Option (Vec K) :=
  if 2 ≤ M.ndim ∧ v ∈ M.cor then
    let rm := M.cor.idxOf v
    some fun e k => einsum M.shape (M.data e)
      ((M.cor.zipIdx.filter fun p => p.2 ≠ rm).map fun p => (p.2, own p.1 e)) [rm] [k]
  else none

/-- `-MDM` (multiDimMatrix/main.py 152-156, helpers/__neg__.py). -/
def neg (M : MDM K) : MDM K := { M with data := fun e t => -M.data e t }

/-- `a * MDM` and `MDM * a` (multiDimMatrix/main.py 158-168, helpers/__mul__.py). -/
def smul (a : K) (M : MDM K) : MDM K := { M with data := fun e t => a * M.data e t }

/-! ## Nonlinear systems -/

/-- An entry of the right hand side (nonlinearSystem/main.py 193-206): `None`, the number 0, or a vector. -/
inductive Rhs (K : Type) where
  | none
  | zero
  | vector (v : Vec K)

/-- `NonLinearSystem` (nonlinearSystem/main.py 24-46).  A block 0 of `A` has been replaced by `None` (111-112); the
terms of a row are a list, empty for 0 and `None`. -/
structure System (K : Type) where
  test : List Form
  unknown : List Form
  A : List (List (Option (Mat K)))
  terms : List (List (MDM K))
  b : List (Rhs K)

/-- The assertions of the constructor (main.py 59-60, 98-117, 138-172). -/
def System.accepted (S : System K) : Bool :=
  S.test.all (fun tv => tv ∉ S.unknown) && decide (S.A.length = S.test.length) &&
  S.A.all (fun r => decide (r.length = S.unknown.length)) &&
  decide (S.terms.length = S.test.length) &&
  (S.test.zip S.terms).all fun p => p.2.all fun M =>
    inhomogeneous M && decide (p.1 ∈ M.cor) && M.cor.all fun f => decide (f = p.1) || decide (f ∈ S.unknown)

/-- `x[0] + x[1] + ...` for matrices. -/
def sumMats (l : List (Mat K)) : Mat K := fun e r c => (l.map fun M => M e r c).sum

/-- One block of the left hand side of the linearised system (regular.py 126-180): the linear block, then the
derivatives of all terms of the row.  `x` are the shadows `itmV`, one for each unknown. -/
def lhsBlock (S : System K) (x : Form → Vec K) (i j : Nat) : Option (Option (Mat K)) := do
  let row ← S.A[i]?
  let Aij ← row[j]?
  let tv ← S.test[i]?
  let uv ← S.unknown[j]?
  let terms ← S.terms[i]?
  let known := (S.unknown.filter (· ≠ uv)).map fun f => (f, x f)
  let cs ← terms.mapM fun M => derivativeContribution M tv uv known
  let all := Aij.toList ++ cs.filterMap id
  pure (if all.isEmpty then none else some (sumMats all))

/-- `Aij @ form` (sparseMatrix/main.py 538-540, helpers/vecmul.py): the local product. -/
def matVec (A : Mat K) (n : Nat) (x : Vec K) : Vec K := fun e r => ((List.range n).map fun c => A e r c * x e c).sum

/-- What is in the list `f[i]` of evaluate_f: an `EWC_ColumnVector` or the number 0. -/
def sumVecs (l : List (Option (Vec K))) : Option (Vec K) :=
  if l.isEmpty then none
  else (l.mapM id).map fun vs => fun e r => (vs.map fun v => v e r).sum

/-- What `nfi` of `___PRIVATE_evaluate___` must hold (nonliner_terms.py 90-97). -/
def asVector : Option (Value K) → Option (Vec K)
  | some (.vector v) => some v
  | _ => none

/-- `f[i].append(-v[i])` (do.py 51-52). -/
def Rhs.parts : Rhs K → List (Option (Vec K))
  | .none => []
  | .zero => [Option.none]
  | .vector v => [some fun e r => -v e r]

/-- `do.evaluate_f(unknown_variables)` for one row (nonlinearSystem/do.py 30-66, nonliner_terms.py 74-101).  A right
hand side 0 leaves a number 0 in the list: `EWC_ColumnVector.__add__` refuses it (columnVector/main.py 369),
`___PRIVATE_sum___` calls its `_KG_`, and if it is alone `concatenate` refuses it (concatenate/main.py 19-26), so all
lead to an exception in the solver. -/
def evaluateRow (S : System K) (elements : List Nat) (x : Form → Vec K) (i : Nat) : Option (Vec K) := do
  let row ← S.A[i]?
  let terms ← S.terms[i]?
  let bi ← S.b[i]?
  let pairs := S.unknown.map fun f => (f, x f)
  let lin := (row.zip S.unknown).filterMap fun p => p.1.map fun A => matVec A p.2.nb (x p.2)
  let non ← terms.mapM fun M => asVector (evaluate M elements pairs)
  sumVecs (lin.map some ++ non.map some ++ bi.parts)

/-- regular.py 183 with `neg=True` (do.py 67-69). -/
def negRow (S : System K) (elements : List Nat) (x : Form → Vec K) (i : Nat) : Option (Vec K) :=
  (evaluateRow S elements x i).map fun v => fun e r => -v e r

end
end Mifem.NLS
