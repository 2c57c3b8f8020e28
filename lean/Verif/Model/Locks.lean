import Mathlib.Data.Nat.Notation
import Mathlib.Algebra.Group.Defs

/-!
# Locks of assembled matrices

Python sources (`/repo/tools/elementwiseCache/dataStructures/objects/sparseMatrix/`):
* `do.py` lines 14-38 (locks), `assembler.py` lines 33-60, 71-181 (assembling), `customize.py` lines 23-25 (`clear`), 120-121 (and the same
  two lines in each other method that adds customizations), `main.py` lines 263-330 (setter of the gathering matrices), 446-451 (`__getitem__`)

One core.  A local matrix is the list of its stored entries (row, column, number) in the order of `data`; a customization is a function of
the local matrices.  A global matrix is a function of row and column.  `none` is an exception.
-/

namespace Mifem.Locks

/-- A local matrix and its element. -/
structure Loc (K : Type) where
  e : ℕ
  entries : List (ℕ × ℕ × K)

/-- An `EWC_SparseMatrix` with its assembler, its customizations and its locks: do.py 9-11, assembler.py 14-18, customize.py 20. -/
structure St (K : Type) where
  base : List (Loc K)
  custom : List (List (Loc K) → List (Loc K))
  GI : ℕ → ℕ → ℕ
  GJ : ℕ → ℕ → ℕ
  locker : Bool
  sparsity : Bool
  amc : Option (ℕ → ℕ → K)
  cache : Option (List ℕ × List ℕ)

variable {K : Type}

/-- A new matrix. -/
def new (base : List (Loc K)) (GI GJ : ℕ → ℕ → ℕ) : St K := ⟨base, [], GI, GJ, false, false, none, none⟩

/-- main.py 446-451: the local matrices, with customizations in the order they were added. -/
def locals (s : St K) : List (Loc K) := s.custom.foldl (fun l f => f l) s.base

/-- assembler.py 107-118, 151-162: the numbers of rows of the entries of one element. -/
def rowsOf (GI : ℕ → ℕ → ℕ) (l : Loc K) : List ℕ := l.entries.map fun t => GI l.e t.1

/-- The numbers of columns. -/
def colsOf (GJ : ℕ → ℕ → ℕ) (l : Loc K) : List ℕ := l.entries.map fun t => GJ l.e t.2.1

/-- `Mi.data`. -/
def dataOf (l : Loc K) : List K := l.entries.map fun t => t.2.2

/-- `SPA_MATRIX((DAT, (ROW, COL)))`: entries at the same place are added; lists of different lengths raise. -/
def coo [AddCommMonoid K] (R C : List ℕ) (D : List K) : Option (ℕ → ℕ → K) :=
  if R.length = D.length ∧ C.length = D.length then
    some fun r c => (((R.zip (C.zip D)).filter fun t => t.1 = r ∧ t.2.1 = c).map fun t => t.2.2).sum
  else none

/-- assembler.py 94-136 (`lim` is `1e7`). -/
def fresh [AddCommMonoid K] (lim : ℕ) (GI GJ : ℕ → ℕ → ℕ) :
    (ℕ → ℕ → K) → List ℕ → List ℕ → List K → List (Loc K) → Option (ℕ → ℕ → K)
  | A, R, C, D, [] => (coo R C D).map fun B r c => A r c + B r c
  | A, R, C, D, l :: ls =>
    let R := R ++ rowsOf GI l
    let C := C ++ colsOf GJ l
    let D := D ++ dataOf l
    if lim < D.length then (coo R C D).bind fun B => fresh lim GI GJ (fun r c => A r c + B r c) [] [] [] ls
    else fresh lim GI GJ A R C D ls

/-- assembler.py 71-181. -/
def routine [AddCommMonoid K] (lim : ℕ) (s : St K) : Option (St K × (ℕ → ℕ → K)) :=
  if s.sparsity = false then (fresh lim s.GI s.GJ (fun _ _ => 0) [] [] [] (locals s)).map fun A => (s, A)
  else
    match s.cache with
    | none =>
      let R := (locals s).flatMap (rowsOf s.GI)
      let C := (locals s).flatMap (colsOf s.GJ)
      (coo R C ((locals s).flatMap dataOf)).map fun A => ({ s with cache := some (R, C) }, A)
    | some (R, C) => (coo R C ((locals s).flatMap dataOf)).map fun A => (s, A)

/-- assembler.py 33-60: `assembled`. -/
def assemble [AddCommMonoid K] (lim : ℕ) (s : St K) : Option (St K × (ℕ → ℕ → K)) :=
  match s.amc with
  | some A => some (s, A)
  | none => (routine lim s).map fun p => (if p.1.locker then { p.1 with amc := some p.2 } else p.1, p.2)

/-- What can be done with a matrix. -/
inductive Op (K : Type)
  | lock
  | unlock
  | lockSparsity
  | unlockSparsity
  | customize (f : List (Loc K) → List (Loc K))
  | clear
  /-- The forms the local matrices are made from change. -/
  | change (base : List (Loc K))
  | gather (GI GJ : ℕ → ℕ → ℕ)
  | assembled

/-- do.py 14-38, customize.py 23-25, 120-141, main.py 263-330, assembler.py 33-60. -/
def step [AddCommMonoid K] (lim : ℕ) (s : St K) : Op K → Option (St K)
  | .lock => some { s with locker := true }
  | .unlock => some { s with locker := false, amc := none }
  | .lockSparsity => some { s with sparsity := true }
  | .unlockSparsity => some { s with sparsity := false, cache := none }
  | .customize f => if s.locker then none else if s.sparsity then none else some { s with custom := s.custom ++ [f] }
  | .clear => some { s with custom := [] }
  | .change b => some { s with base := b }
  | .gather GI GJ => some { s with GI := GI, GJ := GJ }
  | .assembled => (assemble lim s).map (·.1)

end Mifem.Locks
