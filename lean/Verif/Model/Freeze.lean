import Mathlib.Data.List.Basic

/-!
# Frozen objects

Model of `/repo/components/freeze/base.py` (`FrozenOnly`, l.6-38), of `FrozenClass.standard_properties`
(`/repo/components/freeze/main.py` l.10-33) and of the attributes of `StandardProperties`
(`/repo/components/freeze/standard_properties.py` l.7-90).

An object is its instance dictionary; a class is what its names are bound to. `dir(self)` is the set of names of both.
Simplification: a property with a setter is one that stores its value in another attribute of the same object.
-/

namespace Mifem.Freeze

/-- what a class binds a name to. -/
inductive Bind
  | plain          -- a class attribute or a method
  | readOnly       -- a property without setter
  | stores (k : String) -- a property whose setter does `self.<k> = value` and whose getter returns `self.<k>`
deriving DecidableEq

/-- a class: the names it (and its bases) define, and the check made before freezing (`___PreFrozenChecker___`). -/
structure Cls (V : Type) where
  names : List (String × Bind)
  check : List (String × V) → Bool := fun _ => true

variable {V : Type}

abbrev Obj (V : Type) := List (String × V)

def Obj.get (o : Obj V) (k : String) : Option V := List.lookup k o

/-- `object.__setattr__` for an instance attribute. -/
def Obj.put (o : Obj V) (k : String) (v : V) : Obj V :=
  if o.any fun x => x.1 == k then o.map fun x => if x.1 == k then (k, v) else x else o ++ [(k, v)]

/-- the name of the flag. -/
def flag : String := "___ISFROZEN___"

/-- `key in dir(self)`. -/
def inDir (c : Cls V) (o : Obj V) (k : String) : Bool := (o.any fun x => x.1 == k) || c.names.any fun x => x.1 == k

/-- truth value of a stored flag, and the values `True` and `False`. -/
class Flags (V : Type) where
  truth : V → Bool
  yes : V
  no : V
  truth_yes : truth yes = true
  truth_no : truth no = false

variable [Flags V]

/-- `___isfrozen___` (l.31-38); the first use of the property stores `False`. -/
def isFrozen (o : Obj V) : Bool × Obj V :=
  match o.get flag with
  | some v => (Flags.truth v, o)
  | none => (false, o.put flag Flags.no)

/-- outcome of an operation on an object: the object afterwards, and whether an exception was raised. -/
structure Res (V : Type) where
  obj : Obj V
  raised : Bool

/-- the part of `__setattr__` after the check; a property without setter raises `AttributeError`. -/
def rawSet (c : Cls V) (o : Obj V) (k : String) (v : V) (rec : Obj V → String → V → Res V) : Res V :=
  match c.names.lookup k with
  | some .readOnly => ⟨o, true⟩
  | some (.stores k') => rec o k' v
  | _ => ⟨o.put k v, false⟩

/-- `__setattr__` (l.8-12) of an attribute that no setter is in front of. -/
def setPlain (c : Cls V) (o : Obj V) (k : String) (v : V) : Res V :=
  let s := isFrozen o
  if s.1 && !inDir c s.2 k then ⟨s.2, true⟩ else ⟨s.2.put k v, false⟩

/-- `obj.<k> = v`. -/
def setattr (c : Cls V) (o : Obj V) (k : String) (v : V) : Res V :=
  let s := isFrozen o
  if s.1 && !inDir c s.2 k then ⟨s.2, true⟩ else rawSet c s.2 k v (setPlain c)

/-- `obj.<k>`; `none` is `AttributeError`. Class attributes are not looked at. -/
def getattr (c : Cls V) (o : Obj V) (k : String) : Option V :=
  match c.names.lookup k with
  | some (.stores k') => o.get k'
  | _ => o.get k

/-- `_freeze_self_` (l.14-20). -/
def freeze (c : Cls V) (o : Obj V) : Res V := if c.check o then setPlain c o flag Flags.yes else ⟨o, true⟩

/-- `_melt_self_` (l.22-24). -/
def melt (c : Cls V) (o : Obj V) : Res V := setPlain c o flag Flags.no

/-- what is done to an object. -/
inductive Op (V : Type)
  | set (k : String) (v : V)
  | freeze
  | melt

def apply (c : Cls V) (o : Obj V) : Op V → Res V
  | .set k v => setattr c o k v
  | .freeze => freeze c o
  | .melt => melt c o

/-- a sequence of operations, exceptions being caught one by one. -/
def applyAll (c : Cls V) (o : Obj V) (ops : List (Op V)) : Obj V := ops.foldl (fun o op => (apply c o op).obj) o

/-- `FrozenClass.standard_properties` (main.py l.25-33): on a frozen object, melt, store, freeze. -/
def standardProperties (c : Cls V) (o : Obj V) (sp : V) : Res V :=
  if (o.get "___sp___").isSome then ⟨o, false⟩
  else
    let s := isFrozen o
    if s.1 then freeze c (setPlain c (melt c s.2).obj "___sp___" sp).obj else setPlain c s.2 "___sp___" sp

/-- the class `StandardProperties` (its `FrozenOnly` part included). -/
def spClass : Cls V where
  names := [("name", .stores "___name___"), ("signature", .stores "___signature___"), ("mark", .stores "___mark___"), ("stamp", .stores "___stamp___"),
    ("parameters", .readOnly), ("statistic", .readOnly), ("tags", .readOnly), ("___PRIVATE_add_tag___", .plain), ("_freeze_self_", .plain), ("_melt_self_", .plain),
    ("_frozen_", .readOnly), ("___isfrozen___", .readOnly)]

/-- `StandardProperties(obj)` (l.8-14). -/
def newSP (none_ tags obj : V) : Obj V :=
  (freeze spClass [("___mark___", none_), ("___name___", none_), ("___stamp___", none_), ("___tags___", tags), ("___obj___", obj)]).obj

end Mifem.Freeze
