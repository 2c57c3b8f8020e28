import Mathlib.Data.Nat.Notation

/-!
# Check of hybrid pairings of 2-forms

Python source: `/repo/objects/CSCG/_3d/forms/standard/base/dofs/do/helpers/_2f_hybrid_pairing_check_.py` lines 36-72 (in the master core, with the
assembled matrices and the assembled vector).

A row of a sparse matrix is the list of its stored entries (column, number).  The numbers are integers here (the rows have 1 and -1).
`false` is a failed assertion or an exception.
-/

namespace Mifem.PairCheck

/-- `Ta`, `Da`, `ba`. -/
structure Sys where
  T : ℕ → List (ℕ × Int)
  D : ℕ → List (ℕ × Int)
  b : ℕ → Int

/-- 51-72: the rows that are left, and the sets `NB_dofs` and `DB_dofs` (43-49) as lists without repetition. -/
def check (s : Sys) : List ℕ → List ℕ → List ℕ → Bool
  | [], NB, DB => DB.isEmpty && NB.isEmpty
  | i :: is, NB, DB =>
    match s.T i with
    | [p, q] => (s.D i).isEmpty && s.b i == 0 && p.2 + q.2 == 0 && check s is NB DB
    | [p] => p.2 == 1 && s.b i != 0 && NB.contains p.1 && check s is (NB.erase p.1) DB
    | [] => s.D i == [(i, 1)] && s.b i != 0 && DB.contains i && check s is NB (DB.erase i)
    | _ => false

/-- 36-72 for `n` rows. -/
def accepts (s : Sys) (n : ℕ) (NB DB : List ℕ) : Bool := check s (List.range n) NB DB

end Mifem.PairCheck
