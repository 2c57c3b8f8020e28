import Mathlib.Algebra.Order.Field.Rat
import Mathlib.Algebra.Order.Group.Abs

/-!
# Simplification of matrices

Python source: `/repo/components/miscellaneous/matrix_simplify.py` lines 5-47 (`rsmat`).

Entries are rational numbers (floats in the code); a matrix is a function of the row and the column; rows from the number of rows `R` on mean nothing.
`τ` is `1e-10` in the code.
-/

namespace Mifem.Simplify

abbrev Mat := ℕ → ℕ → ℚ

/-- 23-27: row `r + s` is put at `r`, the rows from `r` on move down by one. -/
def rotate (r s : ℕ) (M : Mat) : Mat :=
  fun i => if i = r then M (r + s) else if r < i ∧ i ≤ r + s then M (i - 1) else M i

/-- 19-27: the loop runs over the column as it was before (`old`: a view of the array to which the name was bound), and moves rows of the current
matrix. -/
def pull (τ : ℚ) (n r : ℕ) (old : Mat) (k : ℕ) (M : Mat) : Mat :=
  (List.range k).foldl (fun M s => if τ < |old (r + s) n| then rotate r s M else M) M

/-- 29-33 and 41-44: row `r` is divided by its entry in column `n`, and subtracted from the others. -/
def eliminate (r n : ℕ) (M : Mat) : Mat :=
  fun i c => if i = r then M r c / M r n else M i c - M i n * (M r c / M r n)

/-- 19-38: one column. -/
def column (τ : ℚ) (R : ℕ) (st : ℕ × Mat) (n : ℕ) : ℕ × Mat :=
  let M1 := pull τ n st.1 st.2 (R - st.1) st.2
  let M2 := if τ < |M1 st.1 n| then eliminate st.1 n M1 else M1
  (if |M2 st.1 n| < τ then st.1 else st.1 + 1, M2)

/-- 17-38: the first `k` columns. -/
def columns (τ : ℚ) (R k : ℕ) (M : Mat) : ℕ × Mat := (List.range k).foldl (column τ R) (0, M)

/-- 39-45: the last row. -/
def last (τ : ℚ) (R C : ℕ) (M : Mat) : Mat :=
  match (List.range C).find? (fun m => decide (τ < |M (R - 1) m|)) with
  | some m => eliminate (R - 1) m M
  | none => M

/-- 5-47. -/
def rsmat (τ : ℚ) (R C : ℕ) (M : Mat) : Mat :=
  if R = 1 then
    if M 0 0 ≠ 0 then fun i c => M i c / M 0 0 else M
  else last τ R C (columns τ R (min R C) M).2

end Mifem.Simplify
