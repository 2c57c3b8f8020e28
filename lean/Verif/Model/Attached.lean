import Verif.Model.EdgeEl

/-!
# Which edge, trace and node elements are attached to each other (3-D meshes)

Python sources (`/repo/objects/CSCG/_3d/mesh/`):
* `node/elements/do/find/main.py` lines 80-179 (`edge_elements_attached_to_element`, `trace_elements_attached_to_element`)
* `edge/elements/do/find/main.py` lines 40-87 (`trace_elements_attached_to_element`)
* `trace/elements/do/find.py` lines 28-77 (`edge_elements_surrounding_element`), 109-148 (`node_elements_of_element`),
  150-198 (`mesh_element_shared_by_elements`)
* `domain/regions/region/inheriting/topology.py` lines 83-94, 112-124
* `trace/elements/main.py` lines 200-263, `trace/elements/element/main.py` lines 105-123 (positions of trace elements)

The maps `nmap`, `emap`, `tmap` give for a mesh element its 8 node, 12 edge and 6 trace elements.  `cores` are the mesh elements of
the cores, in order.  A Python set is a list without duplicates.  An exception is `none`.  The result is that of all cores (it is
made from what `allgather` gives to all).
-/

namespace Mifem.Attached
open Mifem.EdgeEl (occurrences)

/-- `'NSWEBF'`. -/
inductive Side | N | S | W | E | B | F
deriving DecidableEq

/-- `'NSWEBF'` (find/main.py 161, trace find.py 130). -/
def sideNames : List Side := [.N, .S, .W, .E, .B, .F]

/-- node/elements/main.py 177: `ind_2_loc`. -/
def cornerNames : List (Side × Side × Side) :=
  [(.N, .W, .B), (.S, .W, .B), (.N, .E, .B), (.S, .E, .B), (.N, .W, .F), (.S, .W, .F), (.N, .E, .F), (.S, .E, .F)]

/-- node find/main.py 110-111, edge/elements/main.py 312. -/
def edgeNames : List (Side × Side) :=
  [(.W, .B), (.E, .B), (.W, .F), (.E, .F), (.N, .B), (.S, .B), (.N, .F), (.S, .F), (.N, .W), (.S, .W), (.N, .E), (.S, .E)]

/-- `positions` of element `i` of a kind: all mesh elements with the names of the places (node/elements/main.py 175-190 and the
like; C82 has the groups of 8 and the names of boundaries, which are passed over here). -/
def positions {α : Type _} (names : List α) (map : Nat → List Nat) (N i : Nat) : List (Nat × α) :=
  ((occurrences names map N).filter fun x => x.1 == i).map (·.2)

/-- `i in self._elements_` on a core (node/elements/main.py 196-203): it is in the map of a mesh element of the core. -/
def isLocal (map : Nat → List Nat) (core : List Nat) (i : Nat) : Bool := core.any fun e => (map e).contains i

/-- `set.update`. -/
def update (s l : List Nat) : List Nat := l.foldl (fun s x => if s.contains x then s else s ++ [x]) s

/-- node find/main.py 95-123, 149-170: what a core finds; `None` if the node is not there. -/
def nodeFind (names : List (Side × Side × Side)) (nmap : Nat → List Nat) (N i : Nat) (pick : Nat → Side × Side × Side → List Nat)
    (core : List Nat) : Option (List Nat) :=
  if isLocal nmap core i then
    some ((positions names nmap N i).foldl (fun s p => if core.contains p.1 then update s (pick p.1 p.2) else s) [])
  else none

/-- node find/main.py 125-132, 172-179: `___.update(EE)` of what all cores found; `none`: the exception for `None`. -/
def merge : List (Option (List Nat)) → Option (List Nat)
  | l => l.foldl (fun s x => match s, x with
    | some s, some l => some (update s l)
    | _, _ => none) (some [])

/-- node find/main.py 103-116: the three edges at a corner. -/
def edgesAt (emap : Nat → List Nat) (e : Nat) (c : Side × Side × Side) : List Nat :=
  [(c.1, c.2.1), (c.1, c.2.2), (c.2.1, c.2.2)].map fun d => (emap e).getD (edgeNames.idxOf d) 0

/-- node find/main.py 157-163: the three sides at a corner. -/
def tracesAt (tmap : Nat → List Nat) (e : Nat) (c : Side × Side × Side) : List Nat :=
  [c.1, c.2.1, c.2.2].map fun s => (tmap e).getD (sideNames.idxOf s) 0

/-- node find/main.py 80-132. -/
def nodeEdges (nmap emap : Nat → List Nat) (N : Nat) (cores : List (List Nat)) (i : Nat) : Option (List Nat) :=
  merge (cores.map (nodeFind cornerNames nmap N i (edgesAt emap)))

/-- node find/main.py 134-179. -/
def nodeTraces (nmap tmap : Nat → List Nat) (N : Nat) (cores : List (List Nat)) (i : Nat) : Option (List Nat) :=
  merge (cores.map (nodeFind cornerNames nmap N i (tracesAt tmap)))

/-- edge find/main.py 51-75: what a core finds. -/
def edgeFind (emap tmap : Nat → List Nat) (N i : Nat) (core : List Nat) : Option (List Nat) :=
  if isLocal emap core i then
    some ((positions edgeNames emap N i).flatMap fun p => if core.contains p.1 then
      [p.2.1, p.2.2].map fun s => (tmap p.1).getD (sideNames.idxOf s) 0 else [])
  else none

/-- edge find/main.py 40-87; here `None` is passed over (81). -/
def edgeTraces (emap tmap : Nat → List Nat) (N : Nat) (cores : List (List Nat)) (i : Nat) : Option (List Nat) :=
  let s := (cores.map (edgeFind emap tmap N i)).foldl (fun s x => match x with
    | some l => update s l
    | none => s) []
  if 2 ≤ s.length ∧ s.length ≤ 5 then some s else none

/-- topology.py 119-124. -/
def sideEdges : List (List Nat) :=
  [[4, 6, 8, 10], [5, 7, 9, 11], [0, 2, 8, 9], [1, 3, 10, 11], [0, 1, 4, 5], [2, 3, 6, 7]]

/-- topology.py 89-94. -/
def sideCorners : List (List Nat) :=
  [[0, 2, 4, 6], [1, 3, 5, 7], [0, 1, 4, 5], [2, 3, 6, 7], [0, 1, 2, 3], [4, 5, 6, 7]]

/-- `CHARACTERISTIC_element` and the index of `CHARACTERISTIC_side` of trace element `i` on a core: the place at which it was made
there, the first one in the order of the loops (trace/elements/main.py 215-261). -/
def charac (tmap : Nat → List Nat) (core : List Nat) (i : Nat) : Option (Nat × Nat) :=
  (core.find? fun e => (tmap e).contains i).map fun e => (e, (tmap e).idxOf i)

/-- The first that is not `None` (trace find.py 51-54, 72-75). -/
def firstSome {α : Type _} (l : List (Option α)) : Option α := l.findSome? id

/-- trace find.py 28-77. -/
def traceEdges (emap tmap : Nat → List Nat) (cores : List (List Nat)) (i : Nat) : Option (List Nat) :=
  match firstSome (cores.map fun core => charac tmap core i) with
  | none => none
  | some (e, s) => firstSome (cores.map fun core =>
      if core.contains e then some ((sideEdges.getD s []).map fun d => (emap e).getD d 0) else none)

/-- trace find.py 121-135: the nodes a core finds. -/
def traceNodesOn (nmap tmap : Nat → List Nat) (i : Nat) (core : List Nat) : Option (List Nat) :=
  (charac tmap core i).map fun p => (sideCorners.getD p.2 []).map fun c => (nmap p.1).getD c 0

/-- trace find.py 138-148: all that are there are the same; `none`: the assertion fails; `some none`: `None`. -/
def allSame : List (Option (List Nat)) → Option (List Nat) → Option (Option (List Nat))
  | [], ne => some ne
  | none :: l, ne => allSame l ne
  | some x :: l, none => allSame l (some x)
  | some x :: l, some y => if y = x then allSame l (some y) else none

/-- trace find.py 109-148. -/
def traceNodes (nmap tmap : Nat → List Nat) (cores : List (List Nat)) (i : Nat) : Option (Option (List Nat)) :=
  allSame (cores.map (traceNodesOn nmap tmap i)) none

/-- trace find.py 165-172: the mesh elements at a trace element, the one at the characteristic position first; the other position
is not the name of a boundary. -/
def meshOn (tmap : Nat → List Nat) (N i : Nat) (core : List Nat) : Option (List Nat) :=
  (charac tmap core i).map fun p => p.1 :: ((positions [0, 1, 2, 3, 4, 5] tmap N i).erase p).map (·.1)

/-- trace find.py 150-198; the loops over `None` (an exception) and a list without an entry are `none`. -/
def sharedMesh (tmap : Nat → List Nat) (N : Nat) (cores : List (List Nat)) (i j : Nat) : Option (Option Nat) :=
  match firstSome (cores.map (meshOn tmap N i)), firstSome (cores.map (meshOn tmap N j)) with
  | some a, some b => some (a.find? fun e => b.contains e)
  | _, _ => none

end Mifem.Attached
