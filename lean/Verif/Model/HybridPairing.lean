import Verif.Model.Sides
import Verif.Model.Hybrid
import Verif.Model.TraceNum

/-!
# Pairing a hybrid form with its dual trace form, with boundary conditions

Python sources:
* `/repo/objects/CSCG/_3d/forms/standard/_2s/special/main.py` lines 116-165 (`hybrid_pairing`); the same statements in
  `_1s/special/main.py` lines 109-158 and `_0s/special/main.py` lines 29-78 before the singularity is overcome
* `/repo/tools/elementwiseCache/dataStructures/objects/sparseMatrix/adjust.py` lines 14-184
* `/repo/tools/elementwiseCache/dataStructures/objects/columnVector/adjust.py` lines 10-65
* `/repo/objects/CSCG/base/forms/base/BC/interpret/local.py` lines 33-122,
  `/repo/objects/CSCG/base/ADF/base/BC/interpret/local.py` lines 26-89 (the conditions, element by element)
* `/repo/objects/CSCG/_3d/forms/trace/base/numbering/do/find.py` lines 19-128 (rows of a side)

Not modelled: the cache of the dofs of `BC/interpret/local.py` (see `Verif.Model.BC`), several cores (each core does this with
its own elements), the sparse formats, and numpy's broadcasting of an index list of one entry against a longer one (here: no
result; in this function the two lists always have the same length).
-/

namespace Mifem.HybridPair
open Three

variable {K : Type _} {α : Type _}

/-- a dictionary: element number to list. -/
abbrev Dict (α : Type _) := List (Nat × List α)

/-- local.py 52-54, 88-95 (dual 40-42, 80-86): `if e not in d: d[e] = list()`, `d[e].extend(x)`. -/
def extend (d : Dict α) (e : Nat) (x : List α) : Dict α :=
  if d.any fun p => p.1 == e then d.map fun p => if p.1 == e then (p.1, p.2 ++ x) else p else d ++ [(e, x)]

/-- local.py 41-54 (dual 29-42): the loop over the element parts on the boundaries. -/
def collect (f : Nat → Side → List α) (parts : List (Nat × Side)) : Dict α :=
  parts.foldl (fun d p => extend d p.1 (f p.1 p.2)) []

/-- local.py 81-95, dual 77-86: the loop when something looked up may be missing (`KeyError`, `assert`). -/
def collectSome (f : Nat → Side → Option (List α)) (parts : List (Nat × Side)) : Option (Dict α) :=
  if parts.all fun p => (f p.1 p.2).isSome then some (collect (fun e s => (f e s).getD []) parts) else none

/-- adjust.py 35-53: `SMe[ROW, :] = 0` in the elements of the dictionary, the other elements as they were. -/
def clearRows [Zero K] (d : Dict Nat) (M : Nat → Nat → Nat → K) : Nat → Nat → Nat → K := fun e r c =>
  match d.lookup e with
  | none => M e r c
  | some rows => if r ∈ rows then 0 else M e r c

/-- adjust.py 151-172 (93-112 with the same dictionary twice): `SMe[ROW, :] = 0; SMe[ROW, COL] = 1`. No result when an element
has no columns (`assert`), or the two lists cannot be paired. -/
def identifyRows [Zero K] [One K] (dr dc : Dict Nat) (M : Nat → Nat → Nat → K) : Option (Nat → Nat → Nat → K) :=
  if dr.all fun p => (match dc.lookup p.1 with | none => false | some cols => cols.length == p.2.length) then
    some fun e r c =>
      match dr.lookup e with
      | none => M e r c
      | some rows =>
        if (r, c) ∈ rows.zip ((dc.lookup e).getD []) then 1 else if r ∈ rows then 0 else M e r c
  else none

/-- `v[ROW, 0] = values`: one after the other. -/
def assign (v : Nat → K) (l : List (Nat × K)) : Nat → K :=
  l.foldl (fun v p r => if r = p.1 then p.2 else v r) v

/-- columnVector/adjust.py 34-56. No result when the two dictionaries have different lengths or an element is missing. -/
def setEntries (dr : Dict Nat) (dv : Dict K) (b : Nat → Nat → K) : Option (Nat → Nat → K) :=
  if dr.length == dv.length &&
      dr.all fun p => (match dv.lookup p.1 with | none => false | some vals => vals.length == p.2.length) then
    some fun e r =>
      match dr.lookup e with
      | none => b e r
      | some rows => assign (b e) (rows.zip ((dv.lookup e).getD [])) r
  else none

/-- what `discretize(target='BC')` of the form gives: a full cochain in each element, or values on some sides. -/
inductive FormBC (K : Type _)
  /-- 'locally full local cochain' -/
  | full (c : Nat → Nat → K)
  /-- 'mesh-element-side-wise local cochain' -/
  | sides (c : Nat → Side → Option (List K))

/-- local.py 59-95: the values of the form on the element parts. `dofs` is the dictionary of the dofs. -/
def formValues (f : FormBC K) (dofs : Dict Nat) (parts : List (Nat × Side)) : Option (Dict K) :=
  match f with
  | .full c => some (dofs.map fun p => (p.1, p.2.map (c p.1)))
  | .sides c => collectSome c parts

/-- dual local.py 83-86: `MM_TEW[TE] @ prime_cc_TEW`. -/
def dualValues [Add K] [Mul K] [Zero K] (mm : Nat → Nat → Nat → K) (te : Nat) (x : List K) : List K :=
  (List.range x.length).map fun i => ((List.range x.length).map fun j => mm te i j * x.getD j 0).sum

/-- number of rows of a side. -/
def sideSize (nNS nWE nBF : Nat) : Side → Nat
  | .N | .S => nNS
  | .W | .E => nWE
  | .B | .F => nBF

/-- trace find.py 48-66, 78-96, 108-128: the local dofs of the trace form on a side. -/
def rowsOn (nNS nWE nBF : Nat) (s : Side) : List Nat := List.range' (Hybrid.offset nNS nWE nBF s) (sideSize nNS nWE nBF s)

/-- `side_index`, dual local.py 73. -/
def sideIndex : Side → Nat
  | .N => 0 | .S => 1 | .W => 2 | .E => 3 | .B => 4 | .F => 5

/-- the mesh, as far as the boundaries are concerned: names, the element sides of a boundary, and `trace.elements.map`. -/
structure Mesh where
  names : List String
  range : String → List (Nat × Side)
  map : Nat → List Nat

/-- `TEM[element][index]`. -/
def Mesh.te (m : Mesh) (e : Nat) (s : Side) : Nat := (m.map e).getD (sideIndex s) 0

/-- _2s/special/main.py 116-165 (`_1s` 109-158, `_0s` 29-78). `dofs`: dofs of the form on a side; `T0`: the trace matrix; `mm`:
mass matrices of the trace elements; `neu`, `dir`: `sf.BC.boundaries`, `adt.BC.boundaries`; `f`: what the function of the form
gives; `x`: what the function of the dual trace form gives, for each trace element where it does. -/
def hybridPairing [Add K] [Mul K] [Zero K] [One K] (m : Mesh) (nNS nWE nBF : Nat) (dofs : Side → List Nat)
    (T0 : Nat → Nat → K) (mm : Nat → Nat → Nat → K) (neu dir : List String) (f : FormBC K) (x : Nat → Option (List K)) :
    Option ((Nat → Nat → Nat → K) × (Nat → Nat → Nat → K) × (Nat → Nat → K)) :=
  -- 143-147
  if dir.any (fun b => neu.contains b) then none
  else if !((neu ++ dir).all (fun b => m.names.contains b) && m.names.all (fun b => (neu ++ dir).contains b)) then none
  else
    let rows := fun (_ : Nat) s => rowsOn nNS nWE nBF s
    let dual := fun e s => (x (m.te e s)).map (dualValues mm (m.te e s))
    -- 150-155: the conditions of the dual form on the Neumann boundaries are worked out too
    let pN := neu.flatMap m.range
    let colN := collect (fun _ s => dofs s) pN
    match formValues f colN pN, collectSome dual pN with
    | some vN, some _ =>
      let rowN := collect rows pN
      match identifyRows rowN colN (fun _ => T0), setEntries rowN vN (fun _ _ => 0) with
      | some T1, some b1 =>
        -- 158-162
        let pD := dir.flatMap m.range
        match collectSome dual pD with
        | some vD =>
          let rowD := collect rows pD
          match identifyRows rowD rowD (fun _ _ _ => (0 : K)), setEntries rowD vD b1 with
          | some D, some b2 => some (clearRows rowD T1, D, b2)
          | _, _ => none
        | none => none
      | _, _ => none
    | _, _ => none

end Mifem.HybridPair
