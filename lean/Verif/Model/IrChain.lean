import Mathlib.Data.Nat.Notation

/-!
# Chains of irregular gathering matrices

Python sources (`/repo/tools/elementwiseCache/gathering/irregular/`):
* `ir_chain_matrix/main.py` lines 20-87 (making), 109-122 (`__getitem__`), 137-155 (`__eq__`), 165-186 (`local_ranges`)
* `ir_chain_matrix/do/find.py` lines 26-172
* `ir_matrix/main.py` lines 8-125

One core; the global number of dofs of a matrix is a field (it is found over all cores, ir_matrix/main.py 73-84).  Names of cells are
strings.  `none` is an exception.  The method is 'silly' (the only one there is).
-/

namespace Mifem.IrChain

/-- ir_matrix/main.py 8-23: a dictionary of vectors, which may have different lengths. -/
structure GM where
  rows : List (String × List ℕ)
  num : ℕ
deriving DecidableEq

/-- ir_chain_matrix/main.py 48-81: `___NUM___` and `_GMs_`. -/
structure Chain where
  given : ℕ
  parts : List GM
deriving DecidableEq

/-- What may be in the list. -/
inductive Arg
  | gm (g : GM)
  | chain (c : Chain)

/-- main.py 41-44. -/
def Arg.parts : Arg → List GM
  | .gm g => [g]
  | .chain c => c.parts

/-- main.py 67-69. -/
def sameCells (g h : GM) : Bool := h.rows.length == g.rows.length && g.rows.all fun p => (h.rows.lookup p.1).isSome

/-- main.py 30-81 with a list. -/
def make (l : List Arg) : Option Chain :=
  if l.length = 0 then none
  else
    let given := l.length
    if given = 1 then some ⟨given, l.flatMap Arg.parts⟩
    else
      match l.flatMap Arg.parts with
      | [] => none
      | g :: gs => if gs.all (sameCells g) then some ⟨given, g :: gs⟩ else none

/-- main.py 27-31 with one object: the second name in line 27 has a comma in it, so a chain is not put into a list. -/
def makeOne : Arg → Option Chain
  | .gm g => make [.gm g]
  | .chain _ => none

/-- main.py 71-77: `To_Be_Added`; `a` is what was added last. -/
def offsets : ℕ → List GM → List ℕ
  | _, [] => []
  | a, g :: gs => a :: offsets (a + g.num) gs

/-- main.py 78: `global_num_dofs`. -/
def total (c : Chain) : ℕ :=
  match (offsets 0 c.parts).getLast?, c.parts.getLast? with
  | some a, some g => a + g.num
  | _, _ => 0

/-- main.py 119-120. -/
def joined (parts : List GM) (offs : List ℕ) (e : String) : Option (List ℕ) :=
  match parts, offs with
  | g :: gs, o :: os => do
    let v ← g.rows.lookup e
    let w ← joined gs os e
    return v.map (· + o) ++ w
  | _, _ => some []

/-- main.py 109-122: `self[e]`. -/
def vector (c : Chain) (e : String) : Option (List ℕ) :=
  if c.given = 1 then c.parts.head?.bind fun g => g.rows.lookup e
  else joined c.parts (offsets 0 c.parts) e

/-- main.py 137-152 (one core; two different objects; two matrices are equal here if their dictionaries are the same list); `none`: the index is out of range. -/
def equal (c d : Chain) : Option Bool :=
  if d.given ≠ c.given then some false
  else
    let rec go : List GM → List GM → Option Bool
      | [], _ => some true
      | g :: gs, h :: hs => if g = h then go gs hs else some false
      | _ :: _, [] => none
    go c.parts d.parts

/-- ir_matrix/main.py 107-125 for a core with cells. -/
def range (g : GM) : Option (ℕ × ℕ) :=
  if g.rows.any fun p => p.2.isEmpty then none
  else do
    let lo ← (g.rows.flatMap (·.2)).min?
    let hi ← (g.rows.flatMap (·.2)).max?
    return (lo, hi + 1)

/-- main.py 165-184. -/
def ranges : List GM → List ℕ → Option (List (ℕ × ℕ))
  | g :: gs, o :: os => do
    let p ← range g
    let l ← ranges gs os
    return (p.1 + o, p.2 + o) :: l
  | _, _ => some []

/-- find.py 77-103: the search in the ranges; `prev` is the end of the range before (none: the first range).  Outer `none`: the
assertion in 103 fails; inner: `None` is returned. -/
def search (m : ℕ) : Option ℕ → ℕ → List (ℕ × ℕ) → Option (Option ℕ)
  | _, _, [] => none
  | none, i, (lo, hi) :: l =>
    if m < lo then some none else if lo ≤ m ∧ m < hi then some (some i) else search m (some hi) (i + 1) l
  | some p, i, (lo, hi) :: l =>
    if p ≤ m ∧ m < lo then some none
    else if lo ≤ m ∧ m < hi then some (some i)
    else if l.isEmpty ∧ m ≥ hi then some none
    else search m (some hi) (i + 1) l

/-- find.py 69-103. -/
def locate (m : ℕ) (l : List (ℕ × ℕ)) : Option (Option ℕ) :=
  match l with
  | [(lo, hi)] => if lo ≤ m ∧ m < hi then some (some 0) else some none
  | l => search m none 0 l

/-- find.py 26-129: `elements_contain_dof_numbered(m)` with `N = None`; the cells and the number of the matrix. -/
def find (c : Chain) (m : Int) : Option (Option (List String × ℕ)) :=
  if ¬ (-(total c : Int) ≤ m ∧ m < total c) then none
  else
    let m := (if m < 0 then m + total c else m).toNat
    match c.parts with
    | [] => none
    | g :: _ =>
      if g.rows.isEmpty then some none
      else do
        let lrs ← ranges c.parts (offsets 0 c.parts)
        match ← locate m lrs with
        | none => return none
        | some w =>
          let h ← c.parts[w]?
          let o ← (offsets 0 c.parts)[w]?
          let es := (h.rows.filter fun p => p.2.contains (m - o)).map (·.1)
          if es.isEmpty then return none else return some (es, w)

/-- find.py 135-172: `elements_and_local_indices_of_dof(m)`; `argwhere(…)[0, 0]` of nothing is an exception. -/
def indices (c : Chain) (m : Int) : Option (Option (List String × List ℕ)) := do
  match ← find c m with
  | none => return none
  | some (es, _) =>
    let m := (if m < 0 then m + total c else m).toNat
    let is ← es.mapM fun e => do
      let v ← vector c e
      if v.contains m then some (v.idxOf m) else none
    return some (es, is)

end Mifem.IrChain
