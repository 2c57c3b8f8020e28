import Verif.Model.Mesh

/-!
# Distribution of the elements to the cores

Model of `/repo/objects/CSCG/base/mesh/base.py` (`___PRIVATE_BASE_parse_element_distribution_method___` l.163-467) and of
`/repo/objects/CSCG/_3d/mesh/main.py` (`___PRIVATE_optimize_element_distribution___` l.649-823).

Simplifications: `disDict` is the list of its values for the cores `0, 1, ...`; the products with the load factors 0.75 and
0.9, rounded down, are parameters `f`, `g` (any functions that do not increase); the core 0 is the master and core 1 the
secretary (`/repo/root/config/main.py` l.45-56); the regions are numbered and `es` is the list of their numbers of elements.
-/

namespace Mifem.Dist
open Mifem.Mesh

/-- `[num // parts + (1 if x < num % parts else 0) for x in range(parts)]`. -/
def split (num parts : Nat) : List Nat := (List.range parts).map fun x => num / parts + if x < num % parts then 1 else 0

/-- EDM None (l.200-237). -/
def distNone (f g : Nat → Nat) (n size : Nat) : List Nat :=
  if size = 1 then [n]
  else if size = 2 then [n / 2, n - n / 2]
  else
    let m := n / size
    let m := if m = 1 then m else if m ≤ 5 ∧ 2 < m then 2 else f m
    let s := (n - m) / (size - 1)
    let s := if 7 ≤ s then g s else s
    m :: s :: split (n - m - s) (size - 2)

/-- EDM 'chaotic' (l.239-272); `ws` are the random numbers; the last core takes the rest. `share w` is
`int(numOfTotalElements * (w / SUM))`, computed with floating point numbers. -/
def distChaotic (share : Nat → Nat) (n : Nat) (ws : List Nat) : List Nat :=
  let d := ws.map share
  d.dropLast ++ [n - d.dropLast.sum]

/-- `break_list_into_parts` (`/repo/components/miscellaneous/break_list.py` l.3-20), also the effect of the `pop`s at l.299. -/
def chunks {α : Type} : List Nat → List α → List (List α)
  | [], _ => []
  | k :: ks, l => l.take k :: chunks ks (l.drop k)

/-- EDM 'cores_no_more_than_regions' (l.274-311). -/
def distRegions (size : Nat) (es : List Nat) : List Nat :=
  let nrs := es.length
  if nrs % size = 0 then (chunks (List.replicate size (nrs / size)) es).map List.sum
  else (chunks (split nrs size).reverse es).map List.sum

/-- EDM 'SWV0' (l.313-363): the cores of the regions and the numbers of elements before the loads are changed. -/
def swvCores (size nrs : Nat) : List (List Nat) :=
  if nrs = 1 ∨ size % nrs = 0 then chunks (List.replicate nrs (size / nrs)) (List.range size)
  else chunks (split size nrs) (List.range size)

def swvFirst (size : Nat) (es : List Nat) : List Nat :=
  let nrs := es.length
  if nrs = 1 ∨ size % nrs = 0 then es.flatMap fun e => split e (size / nrs)
  else (List.zipWith (fun e c => (split e c).reverse) es (split size nrs)).flatten

/-- `for i, SLA in enumerate(slaves): disDict[SLA] += _[i]`. -/
def addTo : List Nat → List Nat → List Nat → List Nat
  | c :: cs, x :: xs, dis => addTo cs xs (dis.set c (dis.getD c 0 + x))
  | _, _, dis => dis

/-- l.377-399, l.419-441: core `c` gives a part of its elements to the cores `others`. -/
def give (f : Nat → Nat) (c : Nat) (others : List Nat) (dis : List Nat) : List Nat :=
  let m := dis.getD c 0
  if m ≤ 2 then dis
  else
    let keep := if m = 3 then 2 else f m
    (addTo others (split (m - keep) others.length) dis).set c keep

/-- l.366-402. -/
def lightMaster (f : Nat → Nat) (regions : List (List Nat)) (dis : List Nat) : List Nat :=
  regions.foldl (fun d cores => if 0 ∈ cores ∧ cores.length ≠ 1 then give f 0 (cores.filter fun c => c != 0) d else d) dis

/-- l.404-442. -/
def lightSecretary (g : Nat → Nat) (regions : List (List Nat)) (dis : List Nat) : List Nat :=
  regions.foldl (fun d cores =>
    if 1 ∈ cores ∧ cores.length ≠ 1 ∧ ¬ (cores.length = 2 ∧ 0 ∈ cores) then give g 1 (cores.filter fun c => c != 0 && c != 1) d else d) dis

/-- EDM 'SWV0' (l.313-449). -/
def distSWV0 (f g : Nat → Nat) (size : Nat) (es : List Nat) : List Nat :=
  let regions := swvCores size es.length
  lightSecretary g regions (lightMaster f regions (swvFirst size es))

/-- l.459-467: `_element_distribution_`. -/
def ranges : Nat → List Nat → List (List Nat)
  | _, [] => []
  | before, d :: ds => List.range' before d :: ranges (before + d) ds

/-! ## The optimisation in 3D -/

/-- l.757-763, 785-793: new numbers of layers when core `c` keeps `keep` of them; `skip` is not changed; the others take the
last entry of `D` each (`DIS_D.pop()`); `none` is `IndexError`. -/
def adjust (c keep : Nat) (skip : Nat → Bool) : List Nat → List Nat → List Nat → Option (List Nat)
  | x :: xs, L :: Ls, D =>
    if x = c then (adjust c keep skip xs Ls D).map fun r => keep :: r
    else if skip x then (adjust c keep skip xs Ls D).map fun r => L :: r
    else
      match D.getLast? with
      | none => none
      | some y => (adjust c keep skip xs Ls D.dropLast).map fun r => (L + y) :: r
  | _, _, _ => some []

/-- l.735-763 (`c` master), l.765-793 (`c` secretary). -/
def lighten (f : Nat → Nat) (c : Nat) (skip : Nat → Bool) (cores Ls : List Nat) : Option (List Nat) :=
  if c ∈ cores then
    let L := Ls.getD (cores.idxOf c) 0
    let keep := if L ≤ 2 then L else f L
    let oc := cores.filter fun x => x != c && !skip x
    if L - keep = 0 ∨ oc = [] then some Ls
    else adjust c keep skip cores Ls (split (L - keep) oc.length)
  else some Ls

/-- l.726-797: one block of `B` elements in `layers` layers for the given cores; `none` if the assertion fails. -/
def blockDist (f g : Nat → Nat) (layers B : Nat) (cores : List Nat) : Option (List Nat) :=
  let Ls := (split layers cores.length).reverse
  if B / layers * layers = B then
    (lighten f 0 (fun _ => false) cores Ls).bind fun Ls =>
      (lighten g 1 (fun x => x == 0) cores Ls).map fun Ls => Ls.map fun L => L * (B / layers)
  else none

/-- l.693-797: one region; `para` is `___SWV0_para___[rn]` (number of layers, elements of the blocks), `old` the numbers of
elements of its cores so far. -/
def regionDist (f g : Nat → Nat) (cores : List Nat) (para : Option (Nat × List Nat)) (old : List Nat) : Option (List Nat) :=
  match para with
  | none => some old
  | some (layers, blocks) =>
    if blocks.length < 2 ∨ cores.length < blocks.length ∨ layers = 1 then some old
    else if cores.length = blocks.length then some blocks
    else
      let d1 := split cores.length blocks.length
      if d1.any fun k => decide (layers < k) then some old
      else ((List.zip blocks (chunks d1 cores)).mapM fun x => blockDist f g layers x.1 x.2).map List.flatten

/-- l.667-813: all regions. `dis` is cut into the parts of the regions. -/
def optimize (f g : Nat → Nat) (regions : List (List Nat)) (paras : List (Option (Nat × List Nat))) (dis : List Nat) : Option (List Nat) :=
  ((List.zip regions (List.zip paras (chunks (regions.map List.length) dis))).mapM
    fun x => regionDist f g x.1 x.2.1 x.2.2).map List.flatten

/-- `___SWV0_para___[rn][1:]` (3D l.359-383, 428-462): the elements of the blocks in the order of the loops. -/
def blockSizes (A0 A1 A2 X Y : Nat) : List Nat :=
  (List.range (A1 / Y)).flatMap fun n => (List.range (A0 / X)).map fun m => width A0 X m * width A1 Y n * A2

/-- `___SWV0_para___.get(rn)` for a region numbered with the given scheme. -/
def para (sch : Scheme) (layout : List Nat) : Option (Nat × List Nat) :=
  match sch, sort layout with
  | .blocks cne X Y, [A0, A1, A2] =>
    let raise := decide (4 < cne) && decide (2 ≤ A0) && decide (2 ≤ A1)
    some (A2, blockSizes A0 A1 A2 (blockSize raise X A0) (blockSize raise Y A1))
  | _, _ => none

/-- the final distribution of a 3D mesh with EDM 'SWV0' (l.90-94). -/
def dist3D (f g : Nat → Nat) (size : Nat) (regs : List (Scheme × List Nat)) : Option (List Nat) :=
  optimize f g (swvCores size regs.length) (regs.map fun x => para x.1 x.2) (distSWV0 f g size (regs.map fun x => x.2.prod))

end Mifem.Dist
