import Mathlib.Logic.Function.Basic
import Mathlib.Data.List.Basic

/-!
# Model of caches that are keyed by identity

Source: `components/decorators/memoize/memoize_1.py`, `memoize_5.py`, `objects/CSCG/base/forms/base/BC/main.py`,
`.../BC/interpret/local.py`, `.../BC/interpret/helpers/boundary_cochain.py`, `boundary_integration.py`,
`objects/miUsGrid/base/form/base/BC/interpret/local.py`, `objects/CSCG/_3d/forms/standard/_2s/special/helpers/`
`cross_product_2__ip_1.py`, `inner_curl_cross_2f2f.py`, `objects/base/fields/base.py` and the fields' `main.py`.

Objects live at addresses; `id` is the address.  The allocator may use the address of an object again once the
object is gone, and only then.
-/

namespace Mifem.Caches

/-- Live objects. -/
abbrev Heap (α : Type) := ℕ → Option α

/-- The value stored for a key, as in `cache[key]`. -/
def find {κ γ : Type} [DecidableEq κ] : List (κ × γ) → κ → Option γ
  | [], _ => none
  | (k, v) :: l, key => if k = key then some v else find l key

/-! ## `memoize1` and the dictionaries of the cross-product helpers -/

/-- What a program does with the objects: make one (at an address the allocator picks), drop the last reference to
one, or call the memoized function for some of them. -/
inductive Cmd (α β : Type) where
  | new (a : ℕ) (x : α)
  | drop (a : ℕ)
  | call (as : List ℕ) (b : β)

/-- The objects and the dictionary of the module; the keys are addresses and further arguments. -/
structure Memo (α β γ : Type) where
  heap : Heap α
  cache : List ((List ℕ × β) × γ)

/-- Nothing there. -/
def Memo.init {α β γ : Type} : Memo α β γ := ⟨fun _ => none, []⟩

/-- The contents of objects that are all alive. -/
def contents {α : Type} (h : Heap α) : List ℕ → Option (List α)
  | [] => some []
  | a :: as => match h a with
    | none => none
    | some x => (contents h as).map (x :: ·)

/-- One step.  `memoize1` (`memoize_1.py` 15–26): the key is `str(args) + str(kwargs)`, which for `self` contains its
address; the dictionary belongs to the function.  The cross-product helpers (`cross_product_2__ip_1.py` 42–107,
`inner_curl_cross_2f2f.py` 30–100) have `single = true`: only the latest entry is kept, and the key is made of `id()`s.
`pins` says that the stored values refer to the objects (as the value caches of `quad_2d.py` and the `Edge`s of
`regions/region/edges/main.py` do, but not the numbers of `side_geometries/plane.py` 23–37 nor the arrays of
`_3d/spaces/base/do.py` 185–194); then such an object stays alive when it is dropped. -/
def Memo.step {α β γ : Type} [DecidableEq β] (pins single : Bool) (f : List α → β → γ) (s : Memo α β γ) :
    Cmd α β → Memo α β γ × Option γ
  | .new a x => match s.heap a with
    | some _ => (s, none)
    | none => ({ s with heap := Function.update s.heap a (some x) }, none)
  | .drop a =>
    if pins = true ∧ ∃ e ∈ s.cache, a ∈ e.1.1 then (s, none)
    else ({ s with heap := Function.update s.heap a none }, none)
  | .call as b => match contents s.heap as with
    | none => (s, none)
    | some xs => match find s.cache (as, b) with
      | some v => (s, some v)
      | none =>
        let e := ((as, b), f xs b)
        ({ s with cache := if single then [e] else e :: s.cache }, some (f xs b))

/-- A whole program. -/
def Memo.exec {α β γ : Type} [DecidableEq β] (pins single : Bool) (f : List α → β → γ) (s : Memo α β γ)
    (cs : List (Cmd α β)) : Memo α β γ :=
  cs.foldl (fun s c => (s.step pins single f c).1) s

/-- The key of the cross-product helpers: `"{}{}{}{}".format(id(u), id(B), id(j), quad_degree)`, the decimal digits
without separators. -/
def crossKey (u B j : ℕ) (q : List Char) : List Char :=
  Nat.toDigits 10 u ++ Nat.toDigits 10 B ++ Nat.toDigits 10 j ++ q

/-! ## `memoize5` -/

/-- What a call gives. -/
inductive Res (γ : Type) where
  | raise
  | val (v : γ)
  deriving DecidableEq

/-- An object with its own dictionary, which is made by the first call (`memoize_5.py` 31–42; `memoize2` is the
same). -/
structure Obj (α β γ : Type) where
  content : α
  frozen : Bool
  cache : Option (List (β × γ))

@[inherit_doc Cmd] inductive Cmd5 (α β : Type) where
  | new (a : ℕ) (x : α)
  | drop (a : ℕ)
  | freeze (a : ℕ)
  | call (a : ℕ) (b : β)

/-- A call of the method for one object: setting the new attribute for the dictionary raises `FrozenError` if the
object is frozen (`components/freeze/base.py` 8–12). -/
def Obj.call {α β γ : Type} [DecidableEq β] (f : α → β → γ) (o : Obj α β γ) (b : β) : Obj α β γ × Res γ :=
  match o.cache with
  | none => if o.frozen then (o, .raise) else ({ o with cache := some [(b, f o.content b)] }, .val (f o.content b))
  | some c => match find c b with
    | some v => (o, .val v)
    | none => ({ o with cache := some ((b, f o.content b) :: c) }, .val (f o.content b))

/-- One step. -/
def step5 {α β γ : Type} [DecidableEq β] (f : α → β → γ) (h : Heap (Obj α β γ)) :
    Cmd5 α β → Heap (Obj α β γ) × Option (Res γ)
  | .new a x => match h a with
    | some _ => (h, none)
    | none => (Function.update h a (some ⟨x, false, none⟩), none)
  | .drop a => (Function.update h a none, none)
  | .freeze a => match h a with
    | none => (h, none)
    | some o => (Function.update h a (some { o with frozen := true }), none)
  | .call a b => match h a with
    | none => (h, none)
    | some o => (Function.update h a (some (o.call f b).1), some (o.call f b).2)

/-- A whole program. -/
def exec5 {α β γ : Type} [DecidableEq β] (f : α → β → γ) (h : Heap (Obj α β γ)) (cs : List (Cmd5 α β)) :
    Heap (Obj α β γ) :=
  cs.foldl (fun h c => (step5 f h c).1) h

/-! ## Boundary conditions: `BC.interpret.local` -/

/-- A side (or edge) of an element, as in `_involved_element_parts_`. -/
abbrev Part := ℕ × Char

/-- `d[e].extend(dofs)`, with `d[e] = list()` before if there is no such key (`local.py` 52–54). -/
def extend (e : ℕ) (ds : List ℕ) : List (ℕ × List ℕ) → List (ℕ × List ℕ)
  | [] => [(e, ds)]
  | (e', l) :: r => if e' = e then (e', l ++ ds) :: r else (e', l) :: extend e ds r

/-- `___Pr_parse_dofs___` without its cache (`local.py` 41–54; triangles: `miUsGrid/.../local.py` 43–56); `side` gives
the local dofs of the form on a side. -/
def parseDofs (side : Char → List ℕ) (parts : List Part) : List (ℕ × List ℕ) :=
  parts.foldl (fun d p => extend p.1 (side p.2) d) []

/-- The lists of element parts that are alive, the list each form refers to, and the cache of the module. -/
structure BCState where
  heap : Heap (List Part)
  bc : ℕ → Option ℕ
  slot : Option (ℕ × List (ℕ × List ℕ))

/-- A new program. -/
def BCState.init : BCState := ⟨fun _ => none, fun _ => none, none⟩

/-- Assigning to `BC.boundaries` of a form (with the parts of those boundaries, and the address at which the new list
is made), deleting a form, reading `BC.interpret.local.dofs`. -/
inductive BCCmd where
  | set (form addr : ℕ) (parts : List Part)
  | del (form : ℕ)
  | interpret (form : ℕ)

/-- Drop the list a form refers to. -/
def release (h : Heap (List Part)) : Option ℕ → Heap (List Part)
  | none => h
  | some a => Function.update h a none

/-- One step; `side form` gives the local dofs of that form on a side.  The new list is made (`BC/main.py` 63) before the
old one is released.  Interpreting before boundaries are set raises (`for e_p in None`). -/
def BCState.step (side : ℕ → Char → List ℕ) (s : BCState) : BCCmd → BCState × Option (Res (List (ℕ × List ℕ)))
  | .set form addr parts => match s.heap addr with
    | some _ => (s, none)
    | none => ({ s with heap := Function.update (release s.heap (s.bc form)) addr (some parts),
                        bc := Function.update s.bc form (some addr) }, none)
  | .del form => ({ s with heap := release s.heap (s.bc form), bc := Function.update s.bc form none }, none)
  | .interpret form => match s.bc form with
    | none => (s, some .raise)
    | some a =>
      let d := parseDofs (side form) ((s.heap a).getD [])
      match s.slot with
      | none => ({ s with slot := some (a, d) }, some (.val d))
      | some (i, d') => if i = a then (s, some (.val d')) else ({ s with slot := some (a, d) }, some (.val d))

/-- A whole program. -/
def BCState.exec (side : ℕ → Char → List ℕ) (s : BCState) (cs : List BCCmd) : BCState :=
  cs.foldl (fun s c => (s.step side c).1) s

/-! ## Boundary conditions: `BC.interpret.boundary_cochain` -/

/-- The user's lists of boundary names and continuous functions that are alive; what `BC` refers to; the element parts
parsed when boundaries were assigned; the cached cochain with the `id`s and the time it stands for. -/
structure RT (ν φ τ γ : Type) where
  lists : Heap ν
  funs : Heap φ
  time : τ
  boundaries : Option ℕ
  parsed : Option ν
  CF : Option ℕ
  slot : Option ((ℕ × ℕ × τ) × γ)

/-- What a user does; `mutate` changes a list in place. -/
inductive RTCmd (ν φ τ : Type) where
  | newList (a : ℕ) (x : ν)
  | newFun (a : ℕ) (x : φ)
  | mutate (a : ℕ) (x : ν)
  | setTime (t : τ)
  | setBoundaries (a : ℕ)
  | setCF (a : ℕ)
  | dropList (a : ℕ)
  | call

/-- One step (`boundary_cochain.py` 27–113, `BC/main.py` 16–65).  `f` makes the cochain from boundaries, function and
time.  The list that `BC.boundaries` refers to stays alive. `boundary_integration.py` 65–78 tests the boundaries only, as
it caches no values of the function. -/
def RT.step {ν φ τ γ : Type} [DecidableEq τ] (f : ν → φ → τ → γ) (s : RT ν φ τ γ) :
    RTCmd ν φ τ → RT ν φ τ γ × Option (Res γ)
  | .newList a x => match s.lists a with
    | some _ => (s, none)
    | none => ({ s with lists := Function.update s.lists a (some x) }, none)
  | .newFun a x => match s.funs a with
    | some _ => (s, none)
    | none => ({ s with funs := Function.update s.funs a (some x) }, none)
  | .mutate a x => match s.lists a with
    | none => (s, none)
    | some _ => ({ s with lists := Function.update s.lists a (some x) }, none)
  | .setTime t => ({ s with time := t }, none)
  | .setBoundaries a => match s.lists a with
    | none => (s, none)
    | some x => ({ s with boundaries := some a, parsed := some x }, none)
  | .setCF a => match s.funs a with
    | none => (s, none)
    | some _ => ({ s with CF := some a }, none)
  | .dropList a => if s.boundaries = some a then (s, none)
    else ({ s with lists := Function.update s.lists a none }, none)
  | .call => match s.boundaries, s.parsed, s.CF with
    | some a, some x, some c => match s.funs c with
      | none => (s, some .raise)
      | some g =>
        let v := f x g s.time
        match s.slot with
        | none => ({ s with slot := some ((a, c, s.time), v) }, some (.val v))
        | some (k, v') => if k = (a, c, s.time) then (s, some (.val v'))
          else ({ s with slot := some ((a, c, s.time), v) }, some (.val v))
    | _, _, _ => (s, some .raise)

/-- A whole program. -/
def RT.exec {ν φ τ γ : Type} [DecidableEq τ] (f : ν → φ → τ → γ) (s : RT ν φ τ γ) (cs : List (RTCmd ν φ τ)) :
    RT ν φ τ γ :=
  cs.foldl (fun s c => (s.step f c).1) s

/-- A form without boundary conditions. -/
def RT.init {ν φ τ γ : Type} (t : τ) : RT ν φ τ γ := ⟨fun _ => none, fun _ => none, t, none, none, none, none⟩

/-! ## Fields -/

/-- `valid_time` (`objects/base/fields/base.py` 141–161). -/
inductive ValidTime (τ : Type) where
  | always
  | firstInstant
  | only (t : τ)

/-- A field: `func` is what the private list (`shared = false`: standard fields, boundary-wise scalar fields) or the user's
dictionary (`shared = true`: boundary-wise vector fields, trace-element-wise fields) holds at present, `prev` the stored
result.  The list or dictionary is never replaced, so its `id` in the key of the cache does not change. -/
structure Field (φ τ : Type) where
  func : φ
  shared : Bool
  validTime : ValidTime τ
  currentTime : Option τ
  prev : Option (τ × φ)

/-- `___PRIVATE_check_ct_in_vt___` (`base.py` 163–183). -/
def timeOk {φ τ : Type} [DecidableEq τ] (s : Field φ τ) (t : τ) : Bool :=
  match s.validTime with
  | .always => true
  | .firstInstant => match s.currentTime with
    | none => true
    | some c => decide (t = c)
  | .only v => decide (t = v)

/-- The setter of `current_time` (`base.py` 124–128). -/
def setTime {φ τ : Type} [DecidableEq τ] (s : Field φ τ) (t : τ) : Option (Field φ τ) :=
  if timeOk s t then some { s with currentTime := some t } else none

/-- What a user does with a field. -/
inductive FCmd (φ τ : Type) where
  | setTime (t : τ)
  | evaluate (t : Option τ)
  | change (g : φ)

/-- `time is None`: the current time; else set it. -/
def Field.atTime {φ τ : Type} [DecidableEq τ] (s : Field φ τ) : Option τ → Option (Field φ τ)
  | none => some s
  | some t => Caches.setTime s t

/-- `do.evaluate_func_at_time` (`_3d/fields/scalar/main.py` 126–164, `_3d/fields/vector/main.py` 144–189,
`_2d/fields/vector/main.py` 134–166): the functions with the time put in.  Setting an invalid time raises and changes
nothing. -/
def Field.step {φ τ : Type} [DecidableEq τ] (s : Field φ τ) : FCmd φ τ → Field φ τ × Option (Res (τ × φ))
  | .setTime t => match Caches.setTime s t with
    | none => (s, some .raise)
    | some s' => (s', none)
  | .change g => if s.shared then ({ s with func := g }, none) else (s, none)
  | .evaluate t => match s.atTime t with
    | none => (s, some .raise)
    | some s1 => match s1.currentTime with
      | none => (s, some .raise)
      | some t => match s1.prev with
        | none => ({ s1 with prev := some (t, s1.func) }, some (.val (t, s1.func)))
        | some (t', g) => if t' = t then (s1, some (.val (t', g)))
          else ({ s1 with prev := some (t, s1.func) }, some (.val (t, s1.func)))

/-- A whole program. -/
def Field.exec {φ τ : Type} [DecidableEq τ] (s : Field φ τ) (cs : List (FCmd φ τ)) : Field φ τ :=
  cs.foldl (fun s c => (s.step c).1) s

/-- A new field. -/
def Field.init {φ τ : Type} (g : φ) (shared : Bool) (v : ValidTime τ) : Field φ τ := ⟨g, shared, v, none, none⟩

end Mifem.Caches
