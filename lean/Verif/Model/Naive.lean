import Mathlib.Data.List.Basic

/-!
# The naive numbering of non-hybrid standard forms

Model of `/repo/objects/CSCG/_2d/forms/standard/base/numbering/Naive.py` (`_0Form_Inner_no_parameters` l.110-236,
`_1Form_Inner_no_parameters` l.241-382, `_1Form_Outer_no_parameters` l.384-523) and
`/repo/objects/CSCG/_3d/forms/standard/base/numbering/Naive.py` (`_2Form_no_parameters` l.106-249, `_1Form_no_parameters`
l.252-424, `_0Form_no_parameters` l.426-543). All of these functions are the same loop; they differ in the arrays of one
element (`Layout` below) only.

Simplifications: the numbers of one element are one function on its places ("slots") instead of one array per component; the
messages between the master and the other ranks are replaced by their contents.
-/

namespace Mifem.Naive

/-! ## Dictionaries -/

/-- a Python dictionary with integer keys. -/
abbrev Dict (V : Type) := List (Nat × V)

def Dict.get {V : Type} (d : Dict V) (k : Nat) : Option V := List.lookup k d

/-- `d[k] = v`; the order of the keys is irrelevant here. -/
def Dict.set {V : Type} (d : Dict V) (k : Nat) (v : V) : Dict V := (k, v) :: d.filter fun x => x.1 != k

/-- `del d[k]` (of a key that is present). -/
def Dict.del {V : Type} (d : Dict V) (k : Nat) : Dict V := d.filter fun x => x.1 != k

/-! ## The places of one element -/

/-- what the loop has to know about the arrays of one element. -/
structure Layout (σ : Type) where
  /-- all places, in the order of `arr[arr == -1] = ...` (C order), component by component. -/
  slots : List σ
  /-- all places, in the order of `arange(..).reshape(.., order='F')`, component by component. -/
  first : List σ
  /-- `sides j`: for side number `j` of the element map, the pairs (place on this side, place on the opposite side of the
  other element that receives its number). -/
  sides : Nat → List (σ × σ)

/-- the numbers of one element; `none` is `-1`. -/
abbrev Arr (σ : Type) := σ → Option Nat

variable {σ : Type} [DecidableEq σ]

/-- `arr[notNumberedPlaces] = np.arange(currentNumber, currentNumber + howMany); currentNumber += howMany`
(2D l.170-177). -/
def fill : List σ → Arr σ → Nat → Arr σ × Nat
  | [], a, c => (a, c)
  | s :: ss, a, c =>
    match a s with
    | some _ => fill ss a c
    | none => fill ss (fun x => if x = s then some c else a x) (c + 1)

/-- `___PRIVATE_for_0Form_pass_element_side_numbering_from_to___` (2D l.212-236, 3D l.527-543) and the versions for
the other forms (2D l.357-382, l.500-523; 3D l.233-249 and l.380-424): `data = cache[from][side]; cache[to][other side] = data`. -/
def pass (pairs : List (σ × σ)) (source target : Arr σ) : Arr σ :=
  pairs.foldl (fun t q => fun x => if x = q.2 then source q.1 else t x) target

/-- 2D l.179-190: the loop over the sides of element `k`, from side number `j`. -/
def passAll (L : Layout σ) (k : Nat) (a : Arr σ) : Nat → List (Option Nat) → Dict (Arr σ) → Dict (Arr σ)
  | _, [], d => d
  | j, none :: es, d => passAll L k a (j + 1) es d
  | j, some o :: es, d =>
    if o > k then passAll L k a (j + 1) es (d.set o (pass (L.sides j) a ((d.get o).getD fun _ => none)))
    else passAll L k a (j + 1) es d

/-- 2D l.164-190: what is done for element `k`; `none` when an exception is raised (`AssertionError` if element 0 is not
the first one, `KeyError` if nothing has been passed to element `k`). -/
def step (L : Layout σ) (emap : Nat → List (Option Nat)) (s : Dict (Arr σ) × Nat) (k : Nat) : Option (Dict (Arr σ) × Nat) :=
  if k = 0 then
    if s.1.isEmpty then
      let r := fill L.first (fun _ => none) s.2
      some (passAll L k r.1 0 (emap k) (s.1.set k r.1), r.2)
    else none
  else
    match s.1.get k with
    | none => none
    | some a =>
      let r := fill L.slots a s.2
      some (passAll L k r.1 0 (emap k) (s.1.set k r.1), r.2)

def steps (L : Layout σ) (emap : Nat → List (Option Nat)) : Dict (Arr σ) × Nat → List Nat → Option (Dict (Arr σ) × Nat)
  | s, [] => some s
  | s, k :: ks => (step L emap s k).bind fun s' => steps L emap s' ks

/-- `toBeSentAway` (2D l.191-193). -/
def collect (d : Dict (Arr σ)) : List Nat → Option (List (Nat × Arr σ))
  | [] => some []
  | k :: ks => (d.get k).bind fun a => (collect d ks).map fun r => (k, a) :: r

/-- 2D l.157-199: the loop over the ranks; the numbers of the elements are sent to their rank and deleted. -/
def run (L : Layout σ) (emap : Nat → List (Option Nat)) :
    Dict (Arr σ) × Nat → List (List Nat) → Option (List (List (Nat × Arr σ)))
  | _, [] => some []
  | s, els :: rest =>
    (steps L emap s els).bind fun s' =>
      (collect s'.1 els).bind fun out =>
        (run L emap (els.foldl Dict.del s'.1, s'.2) rest).map fun r => out :: r

/-- the numbering: what every rank receives. -/
def naive (L : Layout σ) (emap : Nat → List (Option Nat)) (ranks : List (List Nat)) : Option (List (List (Nat × Arr σ))) :=
  run L emap ([], 0) ranks

/-! ## The arrays of the forms -/

/-- the places of an array of the given shape in C order (last index fastest). -/
def cOrder : List Nat → List (List Nat)
  | [] => [[]]
  | n :: ns => (List.range n).flatMap fun i => (cOrder ns).map fun l => i :: l

/-- the places of an array of the given shape in F order (first index fastest). -/
def fOrder : List Nat → List (List Nat)
  | [] => [[]]
  | n :: ns => (fOrder ns).flatMap fun l => (List.range n).map fun i => i :: l

/-- shape of the array of a component: `p + 1` places in the directions in which its dofs sit at the nodes, `p` in the
others. -/
def shape (p : List Nat) (nodal : List Bool) : List Nat := List.zipWith (fun n b => if b then n + 1 else n) p nodal

/-- all places of an element. -/
def places (order : List Nat → List (List Nat)) (p : List Nat) (comps : List (List Bool)) : List (Nat × List Nat) :=
  (comps.zipIdx).flatMap fun c => (order (shape p c.1)).map fun a => (c.2, a)

/-- the slices of side `j`: direction `j / 2`, index `0` if `j` is even and index `-1` (i.e. `p`) if it is odd, of the
components with nodes in that direction. -/
def sidePairs (p : List Nat) (comps : List (List Bool)) (j : Nat) : List (Nat × List Nat × Nat × List Nat) :=
  let d := j / 2
  let own := if j % 2 = 0 then 0 else p.getD d 0
  let other := if j % 2 = 0 then p.getD d 0 else 0
  ((places cOrder p comps).filter fun x => (comps.getD x.1 []).getD d false && x.2.getD d 0 == own).map
    fun x => (x.1, x.2, x.1, x.2.set d other)

/-- the layout of a form with the given components. -/
def formLayout (p : List Nat) (comps : List (List Bool)) : Layout (Nat × List Nat) where
  slots := places cOrder p comps
  first := places fOrder p comps
  sides := fun j => (sidePairs p comps j).map fun q => ((q.1, q.2.1), (q.2.2.1, q.2.2.2))

/-- 2D 0-forms: `np.ones((p[0]+1, p[1]+1))` (2D l.152, 167, 186). -/
def comps2d0 : List (List Bool) := [[true, true]]

/-- 2D inner 1-forms: shapes `(p[0], p[1]+1)` and `(p[0]+1, p[1])` (2D l.297-302). -/
def comps2d1i : List (List Bool) := [[false, true], [true, false]]

/-- 2D outer 1-forms: shapes `(p[0]+1, p[1])` and `(p[0], p[1]+1)` (2D l.440-445). -/
def comps2d1o : List (List Bool) := [[true, false], [false, true]]

/-- 3D 0-forms (3D l.469, 484). -/
def comps3d0 : List (List Bool) := [[true, true, true]]

/-- 3D 1-forms (3D l.310-318). -/
def comps3d1 : List (List Bool) := [[false, true, true], [true, false, true], [true, true, false]]

/-- 3D 2-forms (3D l.163-171). -/
def comps3d2 : List (List Bool) := [[true, false, false], [false, true, false], [false, false, true]]

end Mifem.Naive
