import Mathlib.Algebra.Order.Field.Rat

/-!
# Places of dofs of 1-edge-forms

Python source: `/repo/objects/CSCG/_3d/forms/edge/_1eg/special.py` lines 43-148 (`generate_plot_data_for_dof`: the edge and the index on the edge of a
dof of an element, and the reference coordinates of the points that are drawn).

`none` is an exception.
-/

namespace Mifem.EdgePlot

/-- 44-55, 60-71, 76-87: four edges of one direction. -/
def four (index p : ℕ) (a b c d : Char × Char) : (Char × Char) × ℕ :=
  if index < p then (a, index)
  else if index < 2 * p then (b, index - p)
  else if index < 3 * p then (c, index - 2 * p)
  else (d, index - 3 * p)

/-- 43-89. -/
def decode (px py pz index : ℕ) : Option ((Char × Char) × ℕ) :=
  if index < 4 * px then some (four index px ('W', 'B') ('E', 'B') ('W', 'F') ('E', 'F'))
  else
    let index := index - 4 * px
    if index < 4 * py then some (four index py ('N', 'B') ('S', 'B') ('N', 'F') ('S', 'F'))
    else
      let index := index - 4 * py
      if index < 4 * pz then some (four index pz ('N', 'W') ('S', 'W') ('N', 'E') ('S', 'E'))
      else none

/-- 96-148: the direction whose nodes are used, and the point with the coordinate `N` along the edge. -/
def place (edge : Char × Char) (N : ℚ) : Option (ℕ × ℚ × ℚ × ℚ) :=
  if edge = ('W', 'B') then some (0, N, -1, -1)
  else if edge = ('E', 'B') then some (0, N, 1, -1)
  else if edge = ('W', 'F') then some (0, N, -1, 1)
  else if edge = ('E', 'F') then some (0, N, 1, 1)
  else if edge = ('N', 'B') then some (1, -1, N, -1)
  else if edge = ('S', 'B') then some (1, 1, N, -1)
  else if edge = ('N', 'F') then some (1, -1, N, 1)
  else if edge = ('S', 'F') then some (1, 1, N, 1)
  else if edge = ('N', 'W') then some (2, -1, -1, N)
  else if edge = ('S', 'W') then some (2, 1, -1, N)
  else if edge = ('N', 'E') then some (2, -1, 1, N)
  else if edge = ('S', 'E') then some (2, 1, 1, N)
  else none

end Mifem.EdgePlot
