import Mathlib.Data.List.Basic
import Mathlib.Data.Int.Notation
import Mathlib.Data.Nat.Notation

/-!
# The decorator that checks the types of arguments

Python source: `/repo/components/decorators/accepts.py` lines 10-198 (`accepts`)

The requirements are as after reading the strings: `'shape=(4,x,...)'` is the list of its entries (127-149), `'ndim=2'` the
number (167-168).  Classes are elements of a type `C`; `name` gives their names.  An exception is `false` or `none`.
-/

namespace Mifem.Accepts

/-- An argument: its class, the classes of which it is an instance, its value if it is an `int`, and `np.shape` of it if it has
one (numbers have shape `[]`). -/
structure Val (C : Type) where
  cls : C
  mro : List C
  int : Option ℤ
  shape : Option (List ℕ)

/-- An entry of a shape requirement (135-149); `bad` is anything else. -/
inductive Dim where
  | dots
  | x
  | num (n : ℤ)
  | bad
deriving DecidableEq

/-- An entry of a tuple or list of requirements. -/
inductive Item (C : Type) where
  | cls (c : C)
  | name (s : String)
  | nothing
  | shape (ds : List Dim)
  | ndim (n : ℤ)
deriving DecidableEq

/-- A requirement: `None`, a string, a class, a tuple or list. -/
inductive Req (C : Type) where
  | nothing
  | str (s : String)
  | cls (c : C)
  | many (l : List (Item C))

/-- 84-85, 98-99. -/
def sparseNames : List String :=
  ["csc_matrix", "csr_matrix", "coo_matrix", "lil_matrix", "dok_matrix", "dia_matrix", "bsr_matrix"]

variable {C : Type} [DecidableEq C] (name : C → String)

/-- 97-101: the tuple with the names of the sparse matrices. -/
def extend (l : List (Item C)) : List (Item C) :=
  if Item.name "sparse_matrix" ∈ l then l ++ sparseNames.map .name else l

/-- 102-104: no key that is not allowed among several. -/
def severalOk (l : List (Item C)) : Bool :=
  l.all fun i => decide (i ≠ .name "natural_number") && decide (i ≠ .name "positive_int") && decide (i ≠ .name "negative_int")

/-- 135-149: `'...'` only at the end, the others readable. -/
def dimsRead : List Dim → Bool
  | [] => true
  | .dots :: l => l.isEmpty && dimsRead l
  | .bad :: _ => false
  | _ :: l => dimsRead l

/-- 151-162, from position `j`. -/
def dimsMatch (shape : List ℕ) : ℕ → List Dim → Bool
  | _, [] => true
  | _, .dots :: _ => true
  | j, .num n :: l => decide (j < shape.length) && decide ((shape.getD j 0 : ℤ) = n) && dimsMatch shape (j + 1) l
  | j, _ :: l => dimsMatch shape (j + 1) l

/-- 120-162: a shape requirement. -/
def shapeOk (a : Val C) (ds : List Dim) : Bool :=
  match a.shape with
  | none => false
  | some s => !s.isEmpty && dimsRead ds && dimsMatch s 0 ds

/-- 117-177: the loop over the entries; after a shape it ends (164). -/
def itemsOk (a : Val C) : List (Item C) → Bool
  | [] => true
  | .shape ds :: _ => shapeOk a ds
  | .ndim n :: l => (match a.shape with
    | none => false
    | some s => decide ((s.length : ℤ) = n)) && itemsOk a l
  | _ :: l => itemsOk a l

/-- `isinstance(a, t)` for a tuple (180): entry after entry; `none` is the `TypeError` for an entry that is no class. -/
def isInstance (a : Val C) : List (Item C) → Option Bool
  | [] => some false
  | .cls c :: l => if c ∈ a.mro then some true else isInstance a l
  | _ :: _ => none

/-- 179-192 for a tuple: after a `TypeError` the name of the class is looked for (185). -/
def typeOk (a : Val C) (l : List (Item C)) : Bool :=
  match isInstance a l with
  | some b => b
  | none => decide (Item.name (name a.cls) ∈ l)

/-- 77-193: argument `i` with value `a`. -/
def check (i : ℕ) (a : Val C) : Req C → Bool
  | .nothing => true
  | .cls c => decide (c ∈ a.mro)
  | .str s =>
    if s = "sparse_matrix" then decide (name a.cls ∈ sparseNames)
    else if s = "natural_number" then (match a.int with | some n => decide (n ≥ 0) | none => false)
    else if s = "positive_int" then (match a.int with | some n => decide (n > 0) | none => false)
    else if s = "negative_int" then (match a.int with | some n => decide (n < 0) | none => false)
    else if s = "" ∨ (s = "self" ∧ i = 0) then true
    else decide (name a.cls = s)
  | .many l => severalOk (extend l) && itemsOk a (extend l) && typeOk name a (extend l)

/-- 76: the loop over arguments and requirements. -/
def checkAll (i : ℕ) : List (Val C) → List (Req C) → Bool
  | a :: as, t :: ts => check name i a t && checkAll (i + 1) as ts
  | _, _ => true

/-- `accepts(*types)(f)` (74-198) called with arguments and keyword arguments. -/
def accepts {R K : Type} (types : List (Req C)) (f : List (Val C) → K → R) (args : List (Val C)) (kw : K) : Option R :=
  if checkAll name 0 args types then some (f args kw) else none

end Mifem.Accepts
