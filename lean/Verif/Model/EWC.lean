import Mathlib.Data.List.Basic
import Mathlib.Data.List.Infix

/-!
# Element-wise cached (EWC) matrices and vectors

Model of `tools/elementwiseCache/dataStructures/objects/sparseMatrix/main.py`,
`.../columnVector/main.py`, their `helpers/`, and the key generators of
`.../operators/bmat` and `.../operators/concatenate`.

The value type `β` (a scipy sparse matrix) is abstract: operations are functions on it.  All objects
of one program live in a *heap*, a list of nodes; an operation refers to its operands by index, so
one object may be an operand of several others, as in Python.  Reading an element changes the
caches of the object and of its operands; the whole mutable state is threaded explicitly.
-/

namespace Mifem.EWC

/-- Cache keys are Python strings. -/
abbrev Key := List Char

/-- `'>CT<'` — sparseMatrix/main.py 198, columnVector/main.py 174. -/
def CT : Key := ['>', 'C', 'T', '<']

/-- `'>NC<'` — sparseMatrix/main.py 199, columnVector/main.py 175. -/
def NC : Key := ['>', 'N', 'C', '<']

/-- Python's `p in ck` for strings. -/
def isIn (p ck : Key) : Bool := decide (p <:+: ck)

/-- `(ck + ck).find(ck, 1, -1)` (sparseMatrix/main.py 419): the smallest position `t` with
`1 ≤ t` and `t + len(ck) ≤ 2 len(ck) - 1` at which `ck` occurs in `ck + ck`; `none` for `-1`. -/
def findRot (ck : Key) : Option Nat :=
  (List.range' 1 (ck.length - 1)).find? (fun t => ((ck ++ ck).drop t).take ck.length == ck)

/-- The caching state of one EWC object: sparseMatrix/main.py 197–206, columnVector/main.py
172–181 (`___IS_NC___`, `___IS_CT___`, `___CHECK_repeat_CT___`, `___repeat_CK___`,
`____CT_DG____`, `_cache_`). -/
structure Cache (β : Type) where
  isNC : Bool := false
  isCT : Bool := false
  check : Bool := true
  rep : Key := []
  ct : Option β := none
  cache : List (Key × β) := []

/-- The state of the key generator of a `bmat`/`concatenate` object:
operators/bmat/sparse_matrix/helpers/KG.py 8–10, operators/concatenate/column_vector/helpers/KG.py
8–10. -/
structure KGState where
  check : Bool := true
  isCT : Bool := false
  isNC : Bool := false

/-- The mutable state of a program using EWC objects; functions are indexed by the object.
`cust n e` is what the customizations of object `n` do to the output for element `e`
(customize.py 41–108 of the matrix, 94–118 of the vector: the list of customizations, executed in
order, is represented by the composed function). -/
structure St (β : Type) where
  c : Nat → Cache β
  k : Nat → KGState
  cust : Nat → Nat → β → β

/-- All objects freshly constructed. -/
def St.init {β : Type} : St β := ⟨fun _ => {}, fun _ => {}, fun _ _ b => b⟩

/-- Replace the caching state of object `n`. -/
def St.setC {β : Type} (s : St β) (n : Nat) (c : Cache β) : St β :=
  { s with c := fun m => if m = n then c else s.c m }

/-- An EWC object.
* `leaf dg kg`: constructed by the user from a data generator and a key generator.
* `op f args keyArgs`: result of an arithmetic operation; its data generator reads `args` and
  applies `f`, its key generator concatenates the keys of `keyArgs`.
* `bmat f args`: result of `bmat` or `concatenate` (DG.py 12–20 / 11–15, KG.py 19–57 / 15–49). -/
inductive Node (β : Type) where
  | leaf (dg : Nat → β) (kg : Nat → Key)
  | op (f : List β → β) (args keyArgs : List Nat)
  | bmat (f : List β → β) (args : List Nat)

/-- The objects of a program. -/
abbrev Heap (β : Type) := List (Node β)

/-- Operation on one value, extended to lists so that it can be the `f` of a node. -/
def lift1 {β : Type} [Inhabited β] (g : β → β) : List β → β
  | [a] => g a
  | _ => default

/-- Operation on two values, extended to lists. -/
def lift2 {β : Type} [Inhabited β] (g : β → β → β) : List β → β
  | [a, b] => g a b
  | _ => default

/-- `'>CT<'` for every element — sparseMatrix/main.py 229–230, columnVector/main.py 199–201. -/
def ctLeaf {β : Type} (v : β) : Node β := .leaf (fun _ => v) (fun _ => CT)

/-- `'>NC<'` for every element — sparseMatrix/main.py 246–247, columnVector/main.py 203–205; also a
dictionary of data without key generator, sparseMatrix/main.py 96–107. -/
def ncLeaf {β : Type} (dg : Nat → β) : Node β := .leaf dg (fun _ => NC)

/-- `c * A`, `A / c`, `-A`, `A.T`, `A.inv`, and for vectors `-v`, `c * v`: the data generator reads
the operand, the key generator is that of the operand (sparseMatrix/main.py 472–520, 546–567;
columnVector/main.py 374–399; helpers/mul.py, truediv.py, neg.py, transpose.py, inv.py). -/
def unary {β : Type} [Inhabited β] (g : β → β) (a : Nat) : Node β := .op (lift1 g) [a] [a]

/-- `A + B`, `A - B`, `A @ B`, `A @ v` for an EWC matrix `A` (sparseMatrix/main.py 500–541 with
helpers/add.py, sub.py, matmul.py, vecmul.py): the keys of both operands are concatenated. -/
def matBin {β : Type} [Inhabited β] (g : β → β → β) (a b : Nat) : Node β :=
  .op (lift2 g) [a, b] [a, b]

/-- `v1 + v2` and `v1 - v2` for EWC column vectors (columnVector/main.py 360–372 with
helpers/add.py 11–17, helpers/sub.py 11–17): the key is that of `v1`, *twice*. -/
def vecBin {β : Type} [Inhabited β] (g : β → β → β) (a b : Nat) : Node β :=
  .op (lift2 g) [a, b] [a, a]

/-- `___PRIVATE_sum___` (sparseMatrix/helpers/Psum.py, columnVector/helpers/___PRIVATE_sum___.py). -/
def psum {β : Type} (sum : List β → β) (args : List Nat) : Node β := .op sum args args

/-- Concatenate the keys of several objects, `key_out += vb._KG_(item)`. -/
def keyAll (key : Nat → (Nat → KGState) → Option (Key × (Nat → KGState))) :
    List Nat → (Nat → KGState) → Option (Key × (Nat → KGState))
  | [], k => some ([], k)
  | a :: as, k =>
    match key a k with
    | none => none
    | some (x, k1) =>
      match keyAll key as k1 with
      | none => none
      | some (y, k2) => some (x ++ y, k2)

/-- `repeated` of a `bmat`/`concatenate` key generator (KG.py 32–36 / 27–31). -/
def repeatedOf (key : Key) : Key :=
  match findRot key with
  | some t => key.take t
  | none => []

/-- First call of a `bmat`/`concatenate` key generator: which flags are set from the concatenated
key (bmat/sparse_matrix/helpers/KG.py 22–43; concatenate/column_vector/helpers/KG.py 17–37). -/
def bmatFlags (key : Key) : KGState :=
  if isIn NC key then ⟨false, false, true⟩
  else if repeatedOf key = CT then ⟨false, true, false⟩
  else ⟨false, false, false⟩

/-- The first part of the `bmat`/`concatenate` key generator (KG.py 21–45 / 17–37): the check done
once, at the first call. -/
def bmatCheck (key : Nat → (Nat → KGState) → Option (Key × (Nat → KGState))) (n : Nat)
    (args : List Nat) (k : Nat → KGState) : Option (Nat → KGState) :=
  if (k n).check then
    match keyAll key args k with
    | none => none
    | some (x, k1) => some (fun m => if m = n then bmatFlags x else k1 m)
  else some k

/-- `_KG_(i)` of object `n`.  `fuel` bounds the depth of the expression; `none` = an exception
(no such object). -/
def keyF {β : Type} (h : Heap β) : Nat → Nat → Nat → (Nat → KGState) →
    Option (Key × (Nat → KGState))
  | 0, _, _, _ => none
  | fuel + 1, n, i, k =>
    match h[n]? with
    | none => none
    | some (.leaf _ kg) => some (kg i, k)
    | some (.op _ _ keyArgs) => keyAll (fun a k => keyF h fuel a i k) keyArgs k
    | some (.bmat _ args) =>
      match bmatCheck (fun a k => keyF h fuel a i k) n args k with
      | none => none
      | some k1 =>
        if (k1 n).isCT then some (CT, k1)
        else if (k1 n).isNC then some (NC, k1)
        else keyAll (fun a k => keyF h fuel a i k) args k1

/-- Read several objects one after the other. -/
def readAll {β : Type} (read : Nat → St β → Option (β × St β)) :
    List Nat → St β → Option (List β × St β)
  | [], s => some ([], s)
  | a :: as, s =>
    match read a s with
    | none => none
    | some (v, s1) =>
      match readAll read as s1 with
      | none => none
      | some (vs, s2) => some (v :: vs, s2)

/-- The data generator of an object, applied to element `i`: user data, or read the operands and
combine them (sparseMatrix/helpers/*.py `__DG_call__`, bmat and concatenate helpers/DG.py). -/
def dgOf {β : Type} (read : Nat → St β → Option (β × St β)) (nd : Node β) (i : Nat) (s : St β) :
    Option (β × St β) :=
  match nd with
  | .leaf dg _ => some (dg i, s)
  | .op f args _ => (readAll read args s).map (fun p => (f p.1, p.2))
  | .bmat f args => (readAll read args s).map (fun p => (f p.1, p.2))

/-- The check done at the first access only: `___repeat_CK___` (sparseMatrix/main.py 415–422,
columnVector/main.py 303–310). -/
def repCheck {β : Type} (c : Cache β) (ck : Key) : Cache β :=
  if c.check then
    { c with
      check := false
      rep := if isIn CT ck then
          (match findRot ck with | some t => ck.take t | none => c.rep)
        else c.rep }
  else c

/-- `___getitem_pre_customizing___` (sparseMatrix/main.py 404–448; columnVector/main.py 294–329),
after the membership assertion.  `kg` and `dg` are the key generator and the data generator,
already applied to the element. -/
def preGet {β : Type} (n : Nat) (kg : (Nat → KGState) → Option (Key × (Nat → KGState)))
    (dg : St β → Option (β × St β)) (s : St β) : Option (β × St β) :=
  if (s.c n).isNC then dg s
  else if (s.c n).isCT then (s.c n).ct.map (fun v => (v, s))
  else
    match kg s.k with
    | none => none
    | some (ck, k1) =>
      let c1 := repCheck (s.c n) ck
      let s1 : St β := { s with k := k1 }.setC n c1
      if ck = CT ∨ c1.rep = CT then
        match c1.ct with
        | some _ => none
        | none =>
          match dg s1 with
          | none => none
          | some (v, s2) => some (v, s2.setC n { s2.c n with ct := some v, isCT := true })
      else if isIn NC ck then
        match dg s1 with
        | none => none
        | some (v, s2) => some (v, s2.setC n { s2.c n with isNC := true })
      else
        match c1.cache.lookup ck with
        | some v => some (v, s1)
        | none =>
          match dg s1 with
          | none => none
          | some (v, s2) => some (v, s2.setC n { s2.c n with cache := (ck, v) :: (s2.c n).cache })

/-- `__getitem__` (sparseMatrix/main.py 450–455; columnVector/main.py 283–336): assertion that the
element exists, the cached value, then the customizations. -/
def getF {β : Type} (h : Heap β) (E : List Nat) : Nat → Nat → Nat → St β → Option (β × St β)
  | 0, _, _, _ => none
  | fuel + 1, n, i, s =>
    if i ∈ E then
      match h[n]? with
      | none => none
      | some nd =>
        match preGet n (fun k => keyF h (fuel + 1) n i k)
            (dgOf (fun a s => getF h E fuel a i s) nd i) s with
        | none => none
        | some (v, s1) => some (s1.cust n i v, s1)
    else none

/-- `A[i]` for object `n`: operands are older than the objects built from them, so the depth of the
expression is at most `n + 1`. -/
def get {β : Type} (h : Heap β) (E : List Nat) (n i : Nat) (s : St β) : Option (β × St β) :=
  getF h E (n + 1) n i s

/-- What a user program does with its objects after building them: read an element, or add a
customization to the output of one element of one object. -/
inductive Event (β : Type) where
  | read (n i : Nat)
  | customize (n e : Nat) (g : β → β)

/-- Append a customization (`self._customizations_[e].append(...)`, customize.py 141). -/
def St.customize {β : Type} (s : St β) (n e : Nat) (g : β → β) : St β :=
  { s with cust := fun m j b => if m = n ∧ j = e then g (s.cust m j b) else s.cust m j b }

/-- Run a history; the list of values read, `none` if some read raised. -/
def run {β : Type} (h : Heap β) (E : List Nat) : List (Event β) → St β → Option (List β)
  | [], _ => some []
  | .read n i :: es, s =>
    match get h E n i s with
    | none => none
    | some (v, s1) => (run h E es s1).map (v :: ·)
  | .customize n e g :: es, s => run h E es (s.customize n e g)

end Mifem.EWC
