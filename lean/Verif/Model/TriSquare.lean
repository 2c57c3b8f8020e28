import Mathlib.Algebra.Order.Field.Rat

/-!
# Triangular meshes of squares

Python source: `/repo/objects/miUsGrid/triangular/mesh/instances/realtime/square.py` lines 18-82 (`square`); the same statements are in
`/repo/objects/miUsGrid/triangular/mesh/instances/samples/structured_square.py` lines 34-60 (`Generating_Structured_Square_Mesh`, without boundaries).

Coordinates are rational numbers (floats in the code).
-/

namespace Mifem.TriSquare

/-- `np.linspace(-d/2, d/2, K+1)[k]`. -/
def lin (K : ℕ) (d : ℚ) (k : ℕ) : ℚ := -d / 2 + k * (d / K)

/-- 32: `np.tile`. -/
def xs (K : ℕ) (d : ℚ) (n : ℕ) : ℚ := lin K d (n % (K + 1))

/-- 33: `np.repeat`. -/
def ys (K : ℕ) (d : ℚ) (n : ℕ) : ℚ := lin K d (n / (K + 1))

/-- 35: `points_matrix[i, j]`. -/
def pt (K i j : ℕ) : ℕ := i + j * (K + 1)

/-- 39-54: the rows of `CON` in the order they are written, with their numbers. -/
def writes (K : ℕ) : List (ℕ × (ℕ × ℕ × ℕ)) :=
  (List.range K).flatMap fun j => (List.range K).flatMap fun i =>
    [((i + j * K) * 2, (pt K i (j + 1), pt K i j, pt K (i + 1) (j + 1))),
     ((i + j * K) * 2 + 1, (pt K (i + 1) j, pt K (i + 1) (j + 1), pt K i j))]

/-- 67-80: the four boundaries. -/
def upper (d x _y : ℚ) : Prop := x = -d / 2
def down (d x _y : ℚ) : Prop := x = d / 2
def left (d _x y : ℚ) : Prop := y = -d / 2
def right (d _x y : ℚ) : Prop := y = d / 2

end Mifem.TriSquare
