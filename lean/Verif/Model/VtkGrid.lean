import Mathlib.Data.Nat.Notation
import Mathlib.Algebra.Notation.Defs
import Mathlib.Data.Rat.Defs

/-!
# Export of CSCG objects to VTK

Python sources (`/repo/objects/CSCG/tools/`):
* `gridToVTK.py` lines 71-86 (names of variables), 89-134 (one file for each region)
* `unstructuredGridToVTK.py` lines 53-86 (discrete fields of the objects), 103-285 (2-D), 302-495 (3-D)

Arrays of a region are functions of the region's name and the indices.  The numbering `gv` of the nodes is that of the lowest-order
0-form on the mesh of the grid (C05, C19).  `none` is an exception.
-/

namespace Mifem.VtkGrid

/-! ### Files of regions -/

/-- gridToVTK.py 89-134 on one core: the name of the file, the coordinates and the values; `xyz` is what the variable is bound to. -/
def files {C V : Type} (coords : String → C) (values : String → V) : Option C → ℕ → List String → Option (List (String × C × V))
  | _, _, [] => some []
  | xyz, i, rn :: l =>
    let xyz := if i = 0 then some (coords rn) else xyz
    match xyz with
    | none => none
    | some c => (files coords values (some c) (i + 1) l).map fun r => ("region_" ++ (rn.drop 2).toString, c, values rn) :: r

/-- gridToVTK.py 17-134 on one core. -/
def gridFiles {C V : Type} (coords : String → C) (values : String → V) (regions : List String) : Option (List (String × C × V)) :=
  files coords values none 0 regions

/-! ### One file for all regions -/

/-- unstructuredGridToVTK.py 65-78 with the coordinates of the discrete fields of the objects (compared exactly here and not to eight
decimals): `del _xyz` needs the variable, which is bound for the second object. -/
def collect {C : Type} [DecidableEq C] (coords : List C) : Option C :=
  match coords with
  | [] => none
  | c :: l =>
    if l.all fun d => d = c then
      let bound : Option C := l.getLast?
      match bound with
      | none => none
      | some _ => some c
    else none

/-- 105-117, 129-137: a cell of the mesh of the grid, with its region and its indices there. -/
structure Cell where
  e : ℕ
  rn : String
  idx : List ℕ

/-- 205-206 (2-D), 408-410 (3-D): steps from the indices of the cell to its corners. -/
def steps2 : List (List ℕ) := [[0, 0], [1, 0], [0, 1], [1, 1]]

/-- 408-410. -/
def steps3 : List (List ℕ) :=
  [[0, 0, 0], [1, 0, 0], [0, 1, 0], [1, 1, 0], [0, 0, 1], [1, 0, 1], [0, 1, 1], [1, 1, 1]]

/-- `x[I_seq, J_seq]` of the region of a cell. -/
def corner {K : Type} (steps : List (List ℕ)) (arr : String → List ℕ → K) (c : Cell) : List K :=
  steps.map fun s => arr c.rn (List.zipWith (· + ·) c.idx s)

/-- `X[0, gv] = …` (208-214): entries are set one after the other; an entry that is not there is zero. -/
def assign {K : Type} : (ℕ → K) → List ℕ → List K → (ℕ → K)
  | row, n :: ns, v :: vs => assign (fun k => if k = n then v else row k) ns vs
  | row, _, _ => row

/-- 180, 198-214: the row of a core. -/
def rowOf {K : Type} [Zero K] (steps : List (List ℕ)) (gv : ℕ → List ℕ) (arr : String → List ℕ → K) (cells : List Cell) : ℕ → K :=
  cells.foldl (fun row c => assign row (gv c.e) (corner steps arr c)) fun _ => 0

/-- 234-258: the rows of the cores put together; sparse rows have the entries that are not zero. -/
def merged {K : Type} [Zero K] [DecidableEq K] (rows : List (ℕ → K)) : ℕ → K :=
  rows.foldl (fun acc row n => if row n ≠ 0 then row n else acc n) fun _ => 0

/-- An array over all nodes in the file. -/
def nodal {K : Type} [Zero K] [DecidableEq K] (steps : List (List ℕ)) (gv : ℕ → List ℕ) (arr : String → List ℕ → K)
    (cores : List (List Cell)) : ℕ → K :=
  merged (cores.map (rowOf steps gv arr))

/-- 191-196: `swift_matrix` in 2-D. -/
def swift2 : List (List ℕ) := [[1, 0, 0, 0], [0, 1, 0, 0], [0, 0, 0, 1], [0, 0, 1, 0]]

/-- 390-399: `swift_matrix` in 3-D. -/
def swift3 : List (List ℕ) :=
  [[1, 0, 0, 0, 0, 0, 0, 0], [0, 1, 0, 0, 0, 0, 0, 0], [0, 0, 0, 1, 0, 0, 0, 0], [0, 0, 1, 0, 0, 0, 0, 0],
   [0, 0, 0, 0, 1, 0, 0, 0], [0, 0, 0, 0, 0, 1, 0, 0], [0, 0, 0, 0, 0, 0, 0, 1], [0, 0, 0, 0, 0, 0, 1, 0]]

/-- `swift_matrix @ gv`. -/
def mulVec (m : List (List ℕ)) (v : List ℕ) : List ℕ := m.map fun row => (List.zipWith (· * ·) row v).sum

/-- 216-221, 421-426: a row of `CONN`. -/
def connRow (swift : List (List ℕ)) (orth : ℕ → Bool) (gv : ℕ → List ℕ) (e : ℕ) : List ℕ :=
  if orth e then gv e else mulVec swift (gv e)

/-- 188, 198-221, 261: entry `k` of cell `e` in the sum of the matrices of the cores. -/
def conn (swift : List (List ℕ)) (orth : ℕ → Bool) (gv : ℕ → List ℕ) (cores : List (List Cell)) (e k : ℕ) : ℕ :=
  (cores.map fun cells => if cells.any fun c => c.e == e then (connRow swift orth gv e).getD k 0 else 0).sum

/-- 189, 218, 221, 265: the type of cell `e`; `t` for orthogonal cells, else `t'`. -/
def cellType (t t' : ℕ) (orth : ℕ → Bool) (cores : List (List Cell)) (e : ℕ) : ℕ :=
  (cores.map fun cells => if cells.any fun c => c.e == e then (if orth e then t else t') else 0).sum

/-- 262, 474: entry `i` of `np.linspace(m, m * n, n)` (in exact numbers). -/
def offset (m n i : ℕ) : ℚ :=
  if n = 1 then m else (m : ℚ) + i * (((m * n : ℕ) - (m : ℚ)) / ((n : ℚ) - 1))

/-! ### Names of variables -/

/-- unstructuredGridToVTK.py 152-156, gridToVTK.py 80-84: the loop from counter `j` with the name `name`; `none` when it has not ended after
`fuel` rounds. -/
def fresh (used : List (List Char)) (old : List Char) : ℕ → ℕ → List Char → Option (List Char)
  | 0, _, _ => none
  | fuel + 1, j, name => if name ∈ used then fresh used old fuel (j + 1) (old ++ '_' :: Nat.toDigits 10 (j + 1)) else some name

/-- 143-158, gridToVTK.py 71-86: names of the variables from those of the objects. -/
def names (used : List (List Char)) : List (List Char) → Option (List (List Char))
  | [] => some used
  | a :: l =>
    match fresh used a (used.length + 2) 0 a with
    | none => none
    | some n => names (used ++ [n]) l

end Mifem.VtkGrid
