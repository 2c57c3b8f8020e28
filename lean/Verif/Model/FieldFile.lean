import Mathlib.Data.Nat.Notation
import Mathlib.Algebra.Notation.Defs

/-!
# Files of reconstructed fields

Python sources (`/repo/objects/CSCG/_3d/`):
* `mesh/do/main.py` lines 23-62 (`regionwsie_stack`)
* `forms/standard/base/export/field.py` lines 41-50 (regions), 58-92 (data of all cores), 94-146 (text files)
* `forms/standard/_0s/reconstruct.py` lines 41-64 (elements in the regions; the same for other forms)

A three-dimensional array is a function of three indices with its shape.  `none` is an exception.
-/

namespace Mifem.FieldFile

/-- Indices in an array. -/
abbrev Ix := ℕ × ℕ × ℕ

/-- main.py 58: `_sd_[Rn][i*I:(i+1)*I, j*J:(j+1)*J, k*K:(k+1)*K] = block`. -/
def setBlock {K : Type} (sh b : Ix) (block : Ix → K) (A : Ix → K) : Ix → K := fun p =>
  if b.1 * sh.1 ≤ p.1 ∧ p.1 < (b.1 + 1) * sh.1 ∧ b.2.1 * sh.2.1 ≤ p.2.1 ∧ p.2.1 < (b.2.1 + 1) * sh.2.1 ∧
      b.2.2 * sh.2.2 ≤ p.2.2 ∧ p.2.2 < (b.2.2 + 1) * sh.2.2 then
    block (p.1 - b.1 * sh.1, p.2.1 - b.2.1 * sh.2.1, p.2.2 - b.2.2 * sh.2.2)
  else A p

/-- main.py 55-57: the elements of a region in the order of the loops. -/
def blocks (lay : Ix) : List Ix :=
  (List.range lay.2.2).flatMap fun k => (List.range lay.2.1).flatMap fun j => (List.range lay.1).map fun i => (i, j, k)

/-- main.py 53-59: one array of one region; `sh` is the shape of the data of an element, `num` the numbering of the elements. -/
def stack {K : Type} [Zero K] (sh lay : Ix) (num : Ix → ℕ) (nda : ℕ → Ix → K) : Ix → K :=
  (blocks lay).foldl (fun A b => setBlock sh b (nda (num b)) A) fun _ => 0

/-- `ravel(order='F')` of indices: the first index is the fastest. -/
def ravelF (sh : Ix) : List Ix :=
  (List.range (sh.1 * sh.2.1 * sh.2.2)).map fun m => (m % sh.1, m / sh.1 % sh.2.1, m / sh.1 / sh.2.1)

/-- field.py 127-146: the lines of a text file for a scalar; each array is flattened by itself. -/
def lines {K : Type} (sh : Ix) (X Y Z V : Ix → K) : List (K × K × K × K) :=
  ((ravelF sh).map X).zip (((ravelF sh).map Y).zip (((ravelF sh).map Z).zip ((ravelF sh).map V)))

/-- field.py 94-146 for one region. -/
def file {K : Type} [Zero K] (sh lay : Ix) (num : Ix → ℕ) (x y z v : ℕ → Ix → K) : List (K × K × K × K) :=
  lines (sh.1 * lay.1, sh.2.1 * lay.2.1, sh.2.2 * lay.2.2) (stack sh lay num x) (stack sh lay num y) (stack sh lay num z) (stack sh lay num v)

/-! ### Data of all cores -/

/-- reconstruct.py 48-64: data of the elements of a core that are in the regions. -/
def reconstructed {D : Type} (inRegions : ℕ → Bool) (data : ℕ → D) (core : List ℕ) : List (ℕ × D) :=
  (core.filter inRegions).map fun e => (e, data e)

/-- field.py 69-73: the master goes through all its elements. -/
def ownData {D : Type} (xyz : List (ℕ × D)) : List ℕ → (ℕ → Option D) → Option (ℕ → Option D)
  | [], X => some X
  | j :: js, X =>
    match xyz.lookup j with
    | none => none
    | some d => ownData xyz js fun k => if k = j then some d else X k

/-- field.py 79-85: the data of another core. -/
def otherData {D : Type} (xyz : List (ℕ × D)) (X : ℕ → Option D) : ℕ → Option D :=
  xyz.foldl (fun X p k => if k = p.1 then some p.2 else X k) X

/-- field.py 58-92 and main.py 45-46: the data of all elements (`total` of them); something that is left out raises. -/
def collect {D : Type} (total : ℕ) (inRegions : ℕ → Bool) (data : ℕ → D) (master : List ℕ) (slaves : List (List ℕ)) : Option (List D) :=
  (ownData (reconstructed inRegions data master) master fun _ => none).bind fun X =>
    (List.range total).mapM (slaves.foldl (fun X c => otherData (reconstructed inRegions data c) X) X)

end Mifem.FieldFile
