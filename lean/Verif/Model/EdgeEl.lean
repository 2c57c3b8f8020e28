/-!
# Edge and node elements: where they are, on which boundaries, and what is around them

Python sources (`/repo/objects/CSCG/_3d/mesh/`):
* `edge/elements/main.py` lines 216-281 and 296-435; `node/elements/main.py` lines 161-301 (the same code with three
  letters and 8 instead of 4)
* `edge/elements/do/find/helpers/internal_surrounding.py` lines 8-96
* `edge/elements/do/find/helpers/boundary_surrounding.py` lines 8-141

A position such as `'12WB'` is the pair of the mesh element and the name of the corner edge (of any type `α`); the names
of boundaries, which the code appends to the same list, are kept in a list of their own.
-/

namespace Mifem.EdgeEl

/-! ## positions -/

/-- edge/elements/main.py 314-316 (node/elements/main.py 179-181): `for i in range(N)`, `for ind, edge in
enumerate(MAP[i])`: all (edge, position) in the order of the loops. -/
def occurrences {α : Type _} (names : List α) (map : Nat → List Nat) (N : Nat) : List (Nat × (Nat × α)) :=
  (List.range N).flatMap fun i => ((map i).zip names).map fun x => (x.1, (i, x.2))

/-- 317-323 (182-188): append to `LOC_DICT[edge]`; a list that reached `full` entries goes to `LOC_DICT_FULL` and is
deleted. A missing key of `LOC_DICT` is the empty list. -/
def locStep {P : Type _} (full : Nat) (D : (Nat → List P) × (Nat → Option (List P))) (x : Nat × P) :
    (Nat → List P) × (Nat → Option (List P)) :=
  let l := D.1 x.1 ++ [x.2]
  if l.length = full then
    (fun e => if e = x.1 then [] else D.1 e, fun e => if e = x.1 then some l else D.2 e)
  else (fun e => if e = x.1 then l else D.1 e, D.2)

/-- 310-325 (175-190), with `LOC_DICT_FULL.update(LOC_DICT)` at the end. -/
def locations {P : Type _} (full : Nat) (occ : List (Nat × P)) : Nat → Option (List P) :=
  let D := occ.foldl (locStep full) (fun _ => [], fun _ => none)
  fun e => if D.1 e = [] then D.2 e else some (D.1 e)

/-- 413-423 (278-288): `shared_by_elements`. -/
def sharedBy {α : Type _} (ps : List (Nat × α)) : List Nat :=
  ps.foldl (fun s p => if s.contains p.1 then s else s ++ [p.1]) []

/-! ## boundaries -/

/-- `if b not in l: l.append(b)`. -/
def addNew (l : List String) (b : String) : List String := if l.contains b then l else l ++ [b]

/-- 358-370 (223-235): the boundaries a core finds for an edge: positions in its own mesh elements, both sides of the
corner edge (all three for a node). `side m f` is the entry `f` of the element map of `m` if it is a string. -/
def ownBnds {α : Type _} (faces : α → List Nat) (side : Nat → Nat → Option String) (core : List Nat)
    (ps : List (Nat × α)) : List String :=
  ps.foldl (fun l p => if core.contains p.1 then
    (faces p.2).foldl (fun l f => match side p.1 f with
      | some b => addNew l b
      | none => l) l else l) []

/-- 372-403 (237-269): what core `i` has in the end: its own ones, then those that the other cores send back, core by
core (a core sends back what core `i` did not have). -/
def allBnds {α : Type _} (faces : α → List Nat) (side : Nat → Nat → Option String) (cores : List (List Nat)) (i : Nat)
    (ps : List (Nat × α)) : List String :=
  let own := ownBnds faces side (cores.getD i []) ps
  (List.range cores.length).foldl (fun l r =>
    if r = i then l
    else ((ownBnds faces side (cores.getD r []) ps).filter fun b => !own.contains b).foldl addNew l) own

/-! ## amounts numbered before -/

/-- the three directions of edge elements. -/
inductive Dir | NS | WE | BF
deriving DecidableEq, Repr

/-- 239-248: one more of a direction. -/
def bump : Dir → Nat × Nat × Nat → Nat × Nat × Nat
  | .NS, (a, b, c) => (a + 1, b, c)
  | .WE, (a, b, c) => (a, b + 1, c)
  | .BF, (a, b, c) => (a, b, c + 1)

/-- 234-256: one edge element `i`; `none`: `POOL[i]` missing or an assertion fails. -/
def poolStep (dirs : List Dir) (pool : Nat → Option (Nat × Nat × Nat)) (i : Nat) :
    Option ((Nat → Option (Nat × Nat × Nat)) × (Nat × Nat × Nat)) :=
  let pool := if i = 0 then fun k => if k = 0 then some (0, 0, 0) else pool k else pool
  match pool i, dirs[i]? with
  | some v, some d =>
    let v' := bump d v
    match pool (i + 1) with
    | some w => if v' = w then some (pool, v) else none
    | none =>
      if i + 1 = dirs.length then
        if v'.1 + v'.2.1 + v'.2.2 = dirs.length then some (pool, v) else none
      else some (fun k => if k = i + 1 then some v' else pool k, v)
  | _, _ => none

/-- 231-256: the edge elements of a core, in order. -/
def poolCore (dirs : List Dir) : (Nat → Option (Nat × Nat × Nat)) → List Nat →
    Option ((Nat → Option (Nat × Nat × Nat)) × List (Nat × (Nat × Nat × Nat)))
  | pool, [] => some (pool, [])
  | pool, i :: rest =>
    match poolStep dirs pool i with
    | none => none
    | some (pool', v) =>
      match poolCore dirs pool' rest with
      | none => none
      | some (pool'', l) => some (pool'', (i, v) :: l)

/-- 263-275: the checks on the result. -/
def amountsOk (dirs : List Dir) (l : List (Nat × (Nat × Nat × Nat))) : Bool :=
  l.all fun x => x.2.1 + x.2.2.1 + x.2.2.2 == x.1 &&
    match l.find? (fun y => y.1 + 1 == x.1) with
    | none => true
    | some y => match dirs[x.1 - 1]? with
      | none => false
      | some d => x.2 == bump d y.2

/-- 216-281: the cores one after the other, each gets the pool of the one before. -/
def amounts (dirs : List Dir) : (Nat → Option (Nat × Nat × Nat)) → List (List Nat) →
    Option (List (List (Nat × (Nat × Nat × Nat))))
  | _, [] => some []
  | pool, idx :: rest =>
    match poolCore dirs pool idx with
    | none => none
    | some (pool', l) =>
      if amountsOk dirs l then
        match amounts dirs pool' rest with
        | none => none
        | some ls => some (l :: ls)
      else none

/-! ## the sequence of elements and sides around an edge -/

/-- `itertools.combinations(l, 2)`. -/
def combs : List Nat → List (Nat × Nat)
  | [] => []
  | x :: l => l.map (fun y => (x, y)) ++ combs l

/-- assignment to a dictionary, in the order of insertion. -/
def dset (d : List (Nat × (Nat × Nat))) (k : Nat) (v : Nat × Nat) : List (Nat × (Nat × Nat)) :=
  if d.any (fun x => x.1 == k) then d.map (fun x => if x.1 = k then (k, v) else x) else d ++ [(k, v)]

/-- internal_surrounding.py 46-68 and boundary_surrounding.py 78-86: the dictionary of links: for every pair, what lies
between them (`link`, `none` if nothing). -/
def links (link : Nat → Nat → Option Nat) (l : List Nat) : List (Nat × (Nat × Nat)) :=
  (combs l).foldl (fun d c => match link c.1 c.2 with
    | none => d
    | some k => dset d k c) []

/-- internal_surrounding.py 49-65: the side between two mesh elements. `T` are their common trace elements, `ees t` the
edge elements around a trace element; if neither of two contains the edge, the loop ends with the last one. Outer
`none`: raises. -/
def between (ees : Nat → List Nat) (i : Nat) (T : List Nat) : Option (Option Nat) :=
  match T with
  | [] => some none
  | [t] => some (some t)
  | [t, t'] => if (ees t).contains i then some (some t) else some (some t')
  | _ => none

/-- does the link touch `a`? (`start_point in Ts[te]`) -/
def touches (a : Nat) (x : Nat × (Nat × Nat)) : Bool := a == x.2.1 || a == x.2.2

/-- internal_surrounding.py 72-91 and boundary_surrounding.py 99-111: follow the links. In the internal case a missing
link ends in a failed assertion, in the boundary case in an endless loop; both are `none`. The result lists link and
next point. `n` bounds the number of rounds (there are as many as links). -/
def walk : Nat → Nat → List (Nat × (Nat × Nat)) → Option (List (Nat × Nat))
  | _, _, [] => some []
  | 0, _, _ :: _ => none
  | n + 1, a, Ts =>
    match Ts.find? (touches a) with
    | none => none
    | some x =>
      let b := if a = x.2.1 then x.2.2 else x.2.1
      match walk n b (Ts.erase x) with
      | none => none
      | some l => some ((x.1, b) :: l)

/-- internal_surrounding.py 44-93: first element, then side, element, side, element, ... back to the first one.
`elems` is sorted. -/
def internalSeq (link : Nat → Nat → Option Nat) (elems : List Nat) : Option (Nat × List (Nat × Nat)) :=
  match elems with
  | [] => none
  | a :: _ =>
    let Ts := links link elems
    match walk Ts.length a Ts with
    | none => none
    | some l => if ((l.getLast?).map (·.2)).getD a = a then some (a, l) else none

/-- boundary_surrounding.py 88-96: the trace elements that appear once in the list of all pairs. -/
def ends (PA : List Nat) : Option (Nat × Nat) :=
  if PA.all fun t => PA.count t ≤ 2 then
    match PA.filter fun t => PA.count t = 1 with
    | [a, b] => some (a, b)
    | _ => none
  else none

/-- boundary_surrounding.py 81-87: `PA`, the members of all pairs that share a mesh element. -/
def pairSides (link : Nat → Nat → Option Nat) (l : List (Nat × Nat)) : List Nat :=
  l.flatMap fun c => match link c.1 c.2 with
    | none => []
    | some _ => [c.1, c.2]

/-- boundary_surrounding.py 75-113 (more than one mesh element): from one side on the boundary to the other. -/
def boundarySeq (link : Nat → Nat → Option Nat) (tes : List Nat) : Option (Nat × List (Nat × Nat)) :=
  let Ts := links link tes
  match ends (pairSides link (combs tes)) with
  | none => none
  | some (a, b) =>
    match walk Ts.length a Ts with
    | none => none
    | some l => if ((l.getLast?).map (·.2)).getD a = b then some (a, l) else none

end Mifem.EdgeEl
