import Mathlib.Data.List.Basic
import Mathlib.Logic.Function.Basic

/-!
# Interpreting boundary conditions

Model of `/repo/objects/CSCG/base/forms/base/BC/main.py` (`boundaries` l.28-64), `.../BC/interpret/local.py`
(`___Pr_parse_dofs___` l.33-61 with the module-level cache l.10-13) and
`.../BC/interpret/helpers/boundary_cochain.py` (l.13-103).

Every assignment to `boundaries` makes a new list of element parts. An object is known by its address: `id`. The list
made by an earlier assignment is released when the new one is bound, after which its address can be used again.
-/

namespace Mifem.BC

/-- a part of an element on the boundary, `'12N'`: element and side. -/
abbrev Part (S : Type) := Nat × S

variable {S : Type}

/-- `self._dofs_[element].extend(dofs)` in a dict, after making an empty list if there is none (l.52-54). -/
def extend (d : List (Nat × List Nat)) (e : Nat) (x : List Nat) : List (Nat × List Nat) :=
  if d.any fun p => p.1 == e then d.map fun p => if p.1 == e then (p.1, p.2 ++ x) else p else d ++ [(e, x)]

/-- l.41-54: the local dofs on the element parts; `on` is `local_dofs_on_element_side` of the form. -/
def parse (on : S → List Nat) (iep : List (Part S)) : List (Nat × List Nat) :=
  iep.foldl (fun d p => extend d p.1 (on p.2)) []

/-- a form, as far as the boundary condition needs it: the element parts of a boundary (of its mesh, on this core) and the local
dofs on a side. -/
structure Form (S B : Type) where
  range : B → List (Part S)
  on : S → List Nat

/-- the state: the list of element parts of every form with its address, and the cache of local.py: an address and the dofs. -/
structure State (S : Type) where
  iep : Nat → Option (Nat × List (Part S))
  cache : Option (Nat × List (Nat × List Nat))

/-- the module after being imported. -/
def start : State S := ⟨fun _ => none, none⟩

/-- what is done with the forms: setting boundaries (the new list gets the address `a`), interpreting, and dropping a form. -/
inductive Op (B : Type)
  | set (i : Nat) (bns : List B) (a : Nat)
  | interpret (i : Nat)
  | drop (i : Nat)

variable {B : Type}

/-- l.33-61, l.41-46: with no boundaries set there is nothing to iterate over (`TypeError`). -/
def interpret (forms : Nat → Form S B) (s : State S) (i : Nat) : Option (List (Nat × List Nat)) × State S :=
  match s.iep i with
  | none => (none, s)
  | some (a, l) =>
    match s.cache with
    | some (b, d) => if a = b then (some d, s) else (some (parse (forms i).on l), { s with cache := some (a, parse (forms i).on l) })
    | none => (some (parse (forms i).on l), { s with cache := some (a, parse (forms i).on l) })

/-- one operation; the result of an interpretation. -/
def step (forms : Nat → Form S B) (s : State S) : Op B → Option (List (Nat × List Nat)) × State S
  | .set i bns a => (none, { s with iep := Function.update s.iep i (some (a, bns.flatMap (forms i).range)) })
  | .interpret i => interpret forms s i
  | .drop i => (none, { s with iep := Function.update s.iep i none })

/-- the addresses of lists in use. -/
def live (s : State S) (a : Nat) : Prop := ∃ i l, s.iep i = some (a, l)

/-- the addresses are those of an allocator: a new object is not put where one is in use. -/
def Valid (forms : Nat → Form S B) : State S → List (Op B) → Prop
  | _, [] => True
  | s, op :: ops => (∀ i bns a, op = .set i bns a → ¬ live s a) ∧ Valid forms (step forms s op).2 ops

def runAll (forms : Nat → Form S B) (s : State S) (ops : List (Op B)) : State S := ops.foldl (fun s op => (step forms s op).2) s

/-! ## boundary cochains -/

variable {V : Type}

/-- numpy `a[idx] = vals`. -/
def assign (a : List V) (idx : List Nat) (vals : List V) : List V := (idx.zip vals).foldl (fun a p => a.set p.1 p.2) a

/-- boundary_cochain.py l.38-61: one element part. -/
def bcStep (zero : V) (basis : Nat) (on : S → List Nat) (lc : Nat → S → Option (List V)) (d : Nat → Option (List V)) (p : Part S) : Option (Nat → Option (List V)) :=
  (lc p.1 p.2).map fun v => Function.update d p.1 (some (assign ((d p.1).getD (List.replicate basis zero)) (on p.2) v))

/-- boundary_cochain.py l.29-64: the arrays of the elements; `lc` is the local cochain of `discretize(target='BC')`. A missing
element raises `AssertionError`. -/
def boundaryCochain (zero : V) (basis : Nat) (on : S → List Nat) (lc : Nat → S → Option (List V)) (iep : List (Part S)) : Option (Nat → Option (List V)) :=
  iep.foldlM (bcStep zero basis on lc) (fun _ => none)

/-- the cache l.72-86: it is renewed unless the identities of `CF` and `boundaries` and the time are those of the last use. -/
structure Cached (κ R : Type) where
  key : κ
  value : R

def useCache {κ C R : Type} [DecidableEq κ] (make : C → R) (s : Option (Cached κ R)) (k : κ) (c : C) : R × Option (Cached κ R) :=
  match s with
  | some s => if s.key = k then (s.value, some s) else (make c, some ⟨k, make c⟩)
  | none => (make c, some ⟨k, make c⟩)

/-- a sequence of uses, each with the present identities and the present objects. -/
def uses {κ C R : Type} [DecidableEq κ] (make : C → R) : Option (Cached κ R) → List (κ × C) → List R
  | _, [] => []
  | s, (k, c) :: l => (useCache make s k c).1 :: uses make (useCache make s k c).2 l

end Mifem.BC
