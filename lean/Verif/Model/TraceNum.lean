import Verif.Model.Hybrid
import Verif.Model.Assemblers
import Verif.Model.Gathering

/-!
# Numbering of trace and edge forms, and where a dof is

Python sources (`/repo/objects/CSCG/`):
* `_3d/forms/trace/base/numbering/Naive.py` lines 41-216 (hybrid) and 218-363 (non-hybrid)
* `_3d/forms/edge/base/numbering/Naive.py` lines 40-80 and 98-137
* `_3d/forms/localTrace/base/numbering/Naive.py` lines 36-48
* `_2d/forms/trace/base/numbering/Naive.py` lines 39-77
* `_3d/mesh/trace/elements/main.py` lines 46-102
* `_3d/spaces/base/local_gathering.py` lines 20-119, `_3d/spaces/base/internal_local_dofs.py` lines 20-54
* `_3d/spaces/base/local_numbering.py` lines 148-188
* `_3d/forms/trace/base/dofs/main.py` lines 42-62 and `_3d/forms/trace/base/dofs/dof/main.py` lines 137-220
-/

namespace Mifem.TraceNum
open Three

/-! ## hybrid: one block of numbers per trace (edge) element -/

/-- trace Naive.py 65-71 (edge Naive.py 118-122): `range(start_num, start_num + num_basis_onside[..])` with
`start_num = am_NS * NBO[0] + am_WE * NBO[1] + am_BF * NBO[2]`; `dirs` are the directions of all trace (edge) elements. -/
def block (nNS nWE nBF : Nat) (dirs : List Hybrid.Dir) (i : Nat) : List Nat :=
  List.range' (Hybrid.before nNS nWE nBF dirs i) (Hybrid.dp nNS nWE nBF (dirs.getD i .NS))

/-- trace Naive.py 73-78 (edge Naive.py 124-129): the chained ranges of the six sides (twelve edges) of element `m`. -/
def hybridVec (nNS nWE nBF : Nat) (dirs : List Hybrid.Dir) (map : Nat → List Nat) (m : Nat) : List Nat :=
  (map m).flatMap (block nNS nWE nBF dirs)

/-- trace Naive.py 54, 70: `local_num_dofs`, summed over the trace elements of the core. -/
def localNum (nNS nWE nBF : Nat) (dirs : List Hybrid.Dir) (own : List Nat) : Nat :=
  own.foldl (fun n i => n + Hybrid.dp nNS nWE nBF (dirs.getD i .NS)) 0

/-- directions of 2D trace elements. -/
inductive Dir2 | UD | LR
deriving DecidableEq, Repr

/-- 2D trace Naive.py 55-64. -/
def block2 (nUD nLR : Nat) (dirs : List Dir2) (i : Nat) : List Nat :=
  List.range' ((dirs.take i).count .UD * nUD + (dirs.take i).count .LR * nLR)
    (match dirs.getD i .UD with | .UD => nUD | .LR => nLR)

/-- 2D trace Naive.py 66-71. -/
def hybridVec2 (nUD nLR : Nat) (dirs : List Dir2) (map : Nat → List Nat) (m : Nat) : List Nat :=
  (map m).flatMap (block2 nUD nLR dirs)

/-- 2D trace Naive.py 52, 77: `local_num_dofs = 0` is never changed. -/
def localNum2 (_nUD _nLR : Nat) (_dirs : List Dir2) (_own : List Nat) : Nat := 0

/-- localTrace Naive.py 36-48: every mesh element has numbers of its own. -/
def localTraceVec (nb m : Nat) : List Nat := List.range' (m * nb) nb

/-! ### the amounts numbered before a trace element -/

/-- 3D mesh/trace/elements/main.py 70-77: one more of a direction. -/
def bump : Hybrid.Dir → Nat × Nat × Nat → Nat × Nat × Nat
  | .NS, (a, b, c) => (a + 1, b, c)
  | .WE, (a, b, c) => (a, b + 1, c)
  | .BF, (a, b, c) => (a, b, c + 1)

abbrev Pool := Nat → Option (Nat × Nat × Nat)

/-- 64-93: trace element `i` on core `r`; `shared r i` is the other core that has it, if there is one. The entry is
deleted when no later core needs it. `none`: `POOL[i]` missing or an assertion fails. -/
def poolStep (dirs : List Hybrid.Dir) (shared : Nat → Nat → Option Nat) (r : Nat) (pool : Pool) (i : Nat) :
    Option (Pool × (Nat × Nat × Nat)) :=
  let pool : Pool := if i = 0 then fun k => if k = 0 then some (0, 0, 0) else pool k else pool
  match pool i, dirs[i]? with
  | some v, some d =>
    let v' := bump d v
    let next : Option Pool := match pool (i + 1) with
      | some w => if v' = w then some pool else none
      | none =>
        if i + 1 = dirs.length then
          if v'.1 + v'.2.1 + v'.2.2 = dirs.length then some pool else none
        else some (fun k => if k = i + 1 then some v' else pool k)
    match next with
    | none => none
    | some pool =>
      let keep := match shared r i with
        | none => false
        | some c => !(decide (c < r))
      some (if keep then pool else fun k => if k = i then none else pool k, v)
  | _, _ => none

/-- 64-93: the trace elements of a core, in order. -/
def poolCore (dirs : List Hybrid.Dir) (shared : Nat → Nat → Option Nat) (r : Nat) :
    Pool → List Nat → Option (Pool × List (Nat × (Nat × Nat × Nat)))
  | pool, [] => some (pool, [])
  | pool, i :: rest =>
    match poolStep dirs shared r pool i with
    | none => none
    | some (pool', v) =>
      match poolCore dirs shared r pool' rest with
      | none => none
      | some (pool'', l) => some (pool'', (i, v) :: l)

/-- 46-102: core after core, from core `r`; each gets the pool of the one before. -/
def amounts (dirs : List Hybrid.Dir) (shared : Nat → Nat → Option Nat) :
    Nat → Pool → List (List Nat) → Option (List (List (Nat × (Nat × Nat × Nat))))
  | _, _, [] => some []
  | r, pool, idx :: rest =>
    match poolCore dirs shared r pool idx with
    | none => none
    | some (pool', l) =>
      match amounts dirs shared (r + 1) pool' rest with
      | none => none
      | some ls => some (l :: ls)

/-! ## non-hybrid: places on the surface of an element -/

/-- a place of the arrays of a form: component and three indices. -/
abbrev Place := Nat × Nat × Nat × Nat

/-- `arr_c[is, js, ks]` in the order of `.ravel('F')` and of `reshape(.., order='F')`. -/
def slice (c : Nat) (is js ks : List Nat) : List Place :=
  ks.flatMap fun k => js.flatMap fun j => is.map fun i => (c, i, j, k)

/-- the indices `1:-1` of `p + 1`. -/
def inner (p : Nat) : List Nat := List.range' 1 (p - 1)

/-- local_gathering.py 24-34: the slices numbered for the 0-trace, in order. -/
def slices0 (px py pz : Nat) : List (List Place) :=
  [slice 0 [0] (List.range (py+1)) (List.range (pz+1)), slice 0 [px] (List.range (py+1)) (List.range (pz+1)),
   slice 0 (inner px) [0] (List.range (pz+1)), slice 0 (inner px) [py] (List.range (pz+1)),
   slice 0 (inner px) (inner py) [0], slice 0 (inner px) (inner py) [pz]]

/-- local_gathering.py 59-83: the 1-trace. -/
def slices1 (px py pz : Nat) : List (List Place) :=
  [slice 0 (List.range px) [0] (List.range (pz+1)), slice 0 (List.range px) [py] (List.range (pz+1)),
   slice 0 (List.range px) (inner py) [0], slice 0 (List.range px) (inner py) [pz],
   slice 1 [0] (List.range py) (List.range (pz+1)), slice 1 [px] (List.range py) (List.range (pz+1)),
   slice 1 (inner px) (List.range py) [0], slice 1 (inner px) (List.range py) [pz],
   slice 2 [0] (List.range (py+1)) (List.range pz), slice 2 [px] (List.range (py+1)) (List.range pz),
   slice 2 (inner px) [0] (List.range pz), slice 2 (inner px) [py] (List.range pz)]

/-- local_gathering.py 36-43: the slices of the sides (0-trace). -/
def side0 (px py pz : Nat) : Side → List Place
  | .N => slice 0 [0] (List.range (py+1)) (List.range (pz+1))
  | .S => slice 0 [px] (List.range (py+1)) (List.range (pz+1))
  | .W => slice 0 (List.range (px+1)) [0] (List.range (pz+1))
  | .E => slice 0 (List.range (px+1)) [py] (List.range (pz+1))
  | .B => slice 0 (List.range (px+1)) (List.range (py+1)) [0]
  | .F => slice 0 (List.range (px+1)) (List.range (py+1)) [pz]

/-- local_gathering.py 85-92: the slices of the sides (1-trace). -/
def side1 (px py pz : Nat) : Side → List Place
  | .N => slice 1 [0] (List.range py) (List.range (pz+1)) ++ slice 2 [0] (List.range (py+1)) (List.range pz)
  | .S => slice 1 [px] (List.range py) (List.range (pz+1)) ++ slice 2 [px] (List.range (py+1)) (List.range pz)
  | .W => slice 0 (List.range px) [0] (List.range (pz+1)) ++ slice 2 (List.range (px+1)) [0] (List.range pz)
  | .E => slice 0 (List.range px) [py] (List.range (pz+1)) ++ slice 2 (List.range (px+1)) [py] (List.range pz)
  | .B => slice 0 (List.range px) (List.range (py+1)) [0] ++ slice 1 (List.range (px+1)) (List.range py) [0]
  | .F => slice 0 (List.range px) (List.range (py+1)) [pz] ++ slice 1 (List.range (px+1)) (List.range py) [pz]

/-- `'NSWEBF'`. -/
def six : List Side := [.N, .S, .W, .E, .B, .F]

/-- one statement `arr[slice] = np.arange(cn, cn + len).reshape(.., order='F')` and `cn += len`; `none` is `-1`. -/
def writeSlice (s : (Place → Option Nat) × Nat) (l : List Place) : (Place → Option Nat) × Nat :=
  ((l.zipIdx s.2).foldl (fun a q => fun x => if x = q.1 then some q.2 else a x) s.1, s.2 + l.length)

/-- local_gathering.py 20-48 and 51-97: number the slices, then read the sides; `-1` in a side is an error. -/
def localGathering (slices : List (List Place)) (sides : Side → List Place) : Option (List (Side × List Nat)) :=
  let arr := (slices.foldl writeSlice (fun _ => none, 0)).1
  six.mapM fun s => ((sides s).mapM arr).map fun l => (s, l)

/-- local_gathering.py 100-119: the 2-trace, plain ranges. -/
def lg2 (px py pz : Nat) : List (Side × List Nat) :=
  [(.N, List.range' 0 (py*pz)), (.S, List.range' (py*pz) (py*pz)),
   (.W, List.range' (py*pz + py*pz) (px*pz)), (.E, List.range' (py*pz + py*pz + px*pz) (px*pz)),
   (.B, List.range' (py*pz + py*pz + px*pz + px*pz) (px*py)),
   (.F, List.range' (py*pz + py*pz + px*pz + px*pz + px*py) (px*py))]

/-- num_basis.py 65-71: `num.basis` of the non-hybrid 0-trace (integers). -/
def nbNon0 (px py pz : Nat) : Int :=
  (nbT0 px py pz : Int) - 8 * 2 - ((px : Int) - 1) * 4 - ((py : Int) - 1) * 4 - ((pz : Int) - 1) * 4
/-- num_basis.py 99-104: of the non-hybrid 1-trace. -/
def nbNon1 (px py pz : Nat) : Int := (nbT1 px py pz : Int) - px * 4 - py * 4 - pz * 4

/-- internal_local_dofs.py 20-24. -/
def internal0 (px py pz : Nat) : List Nat :=
  (slice 0 (inner px) (inner py) (inner pz)).map fun x => ln0 px py pz x.2.1 x.2.2.1 x.2.2.2

/-- internal_local_dofs.py 27-34. -/
def internal1 (px py pz : Nat) : List Nat :=
  ((slice 0 (List.range px) (inner py) (inner pz)).map fun x => ln1c0 px py pz x.2.1 x.2.2.1 x.2.2.2) ++
  ((slice 1 (inner px) (List.range py) (inner pz)).map fun x => ln1c1 px py pz x.2.1 x.2.2.1 x.2.2.2) ++
  ((slice 2 (inner px) (inner py) (List.range pz)).map fun x => ln1c2 px py pz x.2.1 x.2.2.1 x.2.2.2)

/-- internal_local_dofs.py 37-54; `np.concatenate([])` raises when all degrees are 1. -/
def internal2 (px py pz : Nat) : Option (List Nat) :=
  let a := if px = 1 then [] else
    [(slice 0 (inner px) (List.range py) (List.range pz)).map fun x => ln2c0 px py pz x.2.1 x.2.2.1 x.2.2.2]
  let b := if py = 1 then [] else
    [(slice 1 (List.range px) (inner py) (List.range pz)).map fun x => ln2c1 px py pz x.2.1 x.2.2.1 x.2.2.2]
  let c := if pz = 1 then [] else
    [(slice 2 (List.range px) (List.range py) (inner pz)).map fun x => ln2c2 px py pz x.2.1 x.2.2.1 x.2.2.2]
  if a ++ b ++ c = [] then none else some (a ++ b ++ c).flatten

/-! ### the new numbers -/

/-- `ReNumberingArray`, `CN` and `number2 + 1` (Naive.py 262-264). -/
structure Ren where
  arr : Nat → Int
  cn : Nat
  lim : Nat

/-- `arr[idx] = vals`, one after the other. -/
def setMany (arr : Nat → Int) (l : List (Nat × Int)) : Nat → Int :=
  l.foldl (fun a q => fun x => if x = q.1 then q.2 else a x) arr

/-- Naive.py 265-282 (and 288-305): one element with the gathering vector `gv` of the form. -/
def renStep (ild sld : List Nat) (s : Ren) (gv : List Nat) : Ren :=
  let arr := setMany s.arr (ild.map fun i => (gv.getD i 0, -1))
  let sg := (sld.map fun i => gv.getD i 0).filter fun d => decide (s.lim ≤ d)
  if sg = [] then ⟨arr, s.cn, s.lim⟩
  else ⟨setMany arr ((sg.zipIdx s.cn).map fun q => (q.1, (q.2 : Int))), s.cn + sg.length, sg.foldl max 0 + 1⟩

/-- Naive.py 261-307: the elements of all cores; the array is sent to a core after its elements are done. -/
def renumber (ild sld : List Nat) (ranks : List (List (List Nat))) : Ren × List (Nat → Int) :=
  ranks.foldl (fun s vs =>
    let s' := vs.foldl (renStep ild sld) s.1
    (s', s.2 ++ [s'.arr])) (⟨fun _ => 0, 0, 0⟩, [])

/-- Naive.py 312-318: core 0 uses the array in its final state, the others what they got. -/
def rankArr (R : Ren × List (Nat → Int)) (r : Nat) : Nat → Int :=
  if r = 0 then R.1.arr else R.2.getD r fun _ => 0

/-- Naive.py 334-339: the values for the sides of an element. -/
def sideVals (dofs : Side → List Nat) (arr : Nat → Int) (gv : List Nat) : List (Side × List Int) :=
  six.map fun s => (s, (dofs s).map fun i => arr (gv.getD i 0))

/-- Naive.py 253-258: the local dofs that are not internal. -/
def surface (nb : Nat) (ild : List Nat) : List Nat := (List.range nb).filter fun i => !ild.contains i

/-- Naive.py 218-363. `ranks` are the gathering vectors of the form, rank by rank; `gnd` is its number of dofs. `none`:
an assertion fails. Result: for every element its vector and the vectors of its six sides. -/
def nonHybrid (nb : Nat) (lg : List (Side × List Nat)) (dofs : Side → List Nat) (ild : List Nat) (gnd : Nat)
    (ranks : List (List (List Nat))) : Option (List (List (List Int × List (Side × List Int)))) :=
  let R := renumber ild (surface nb ild) ranks
  let target : Int := (gnd : Int) - (ranks.flatten.length : Int) * (ild.length : Int)
  if ((List.range gnd).map R.1.arr).max?.map (· + 1) = some target then
    match (ranks.zipIdx).mapM fun vr => vr.1.mapM fun gv =>
        (Assemblers.vecAssemble .replace lg (sideVals dofs (rankArr R vr.2) gv)).map fun w =>
          (w, sideVals dofs (rankArr R vr.2) gv) with
    | none => none
    | some out =>
      let all := out.flatten.flatMap fun x => x.2.flatMap Prod.snd
      let vecs := out.flatten.flatMap fun x => x.1
      if (-1 : Int) ∉ all ∧ all.min? = some 0 ∧ vecs.max?.map (· + 1) = some target ∧ all.max? = vecs.max? ∧
          (all.dedup.length : Int) = target then some out
      else none
  else none

/-! ## where a dof is -/

/-- trace/base/dofs/main.py 42-62 with tools/elementwiseCache/gathering/vector.py 105-113: the positions of dof `i` on a
core; a vector that has it more than once is an error. (The test of `local_range` only skips cores without the dof; it
is kept.) -/
def positions (rows : List (Nat × List Nat)) (i : Nat) : Option (List (Nat × Nat)) :=
  match Gath.localRange [rows] 0 with
  | some (some (a, b)) =>
    if a ≤ i ∧ i < b then
      (rows.filter fun x => x.2.contains i).mapM fun x => if x.2.count i = 1 then some (x.1, x.2.idxOf i) else none
    else some []
  | some none => some []
  | none => none

/-- dof/main.py 174-202: from the local number to the side and the number on the side. -/
def sideOf (nNS nWE nBF idx : Nat) : Option (Side × Nat) :=
  if idx < nNS then some (.N, idx)
  else if idx - nNS < nNS then some (.S, idx - nNS)
  else if idx - nNS - nNS < nWE then some (.W, idx - nNS - nNS)
  else if idx - nNS - nNS - nWE < nWE then some (.E, idx - nNS - nNS - nWE)
  else if idx - nNS - nNS - nWE - nWE < nBF then some (.B, idx - nNS - nNS - nWE - nWE)
  else if idx - nNS - nNS - nWE - nWE - nBF < nBF then some (.F, idx - nNS - nNS - nWE - nWE - nBF)
  else none

/-- local_numbering.py 148-157: shapes and offset of the arrays of a side (0-trace). -/
def arrays0 (px py pz : Nat) : Side → List (Nat × Nat × Nat)
  | .N | .S => [(py+1, pz+1, 0)]
  | .W | .E => [(px+1, pz+1, 0)]
  | .B | .F => [(px+1, py+1, 0)]
/-- local_numbering.py 160-176 (1-trace). -/
def arrays1 (px py pz : Nat) : Side → List (Nat × Nat × Nat)
  | .N | .S => [(py, pz+1, 0), (py+1, pz, py*(pz+1))]
  | .W | .E => [(px, pz+1, 0), (px+1, pz, px*(pz+1))]
  | .B | .F => [(px, py+1, 0), (px+1, py, px*(py+1))]
/-- local_numbering.py 179-188 (2-trace). -/
def arrays2 (px py pz : Nat) : Side → List (Nat × Nat × Nat)
  | .N | .S => [(py, pz, 0)]
  | .W | .E => [(px, pz, 0)]
  | .B | .F => [(px, py, 0)]

/-- `np.argwhere(ln == t)` for the array of shape `(a, b)` in `'F'` order with an offset. -/
def argwhere (x : Nat × Nat × Nat) (t : Nat) : List (Nat × Nat) :=
  (List.range x.1).flatMap fun i => (List.range x.2.1).filterMap fun j =>
    if fIdx2 x.1 i j + x.2.2 = t then some (i, j) else none

/-- dof/main.py 208-218: the first array that has the number exactly once (the last one otherwise). -/
def findComp (t : Nat) : Nat → List (Nat × Nat × Nat) → Option (Nat × (Nat × Nat))
  | _, [] => none
  | c, [x] => (argwhere x t).head?.map fun ij => (c, ij)
  | c, x :: y :: l => match argwhere x t with
    | [ij] => some (c, ij)
    | _ => findComp t (c + 1) (y :: l)

/-- dof/main.py 155-220 `trace_element_position` (the dof is on this core, first position `(m, idx)`): trace element,
number on it, component and indices. -/
def tePosition (nNS nWE nBF : Nat) (arrays : Side → List (Nat × Nat × Nat)) (tmap : Nat → List Nat) (pos : Nat × Nat) :
    Option (Nat × Nat × Nat × (Nat × Nat)) :=
  match sideOf nNS nWE nBF pos.2 with
  | none => none
  | some (s, t) =>
    match (tmap pos.1)[six.idxOf s]?, findComp t 0 (arrays s) with
    | some te, some cij => some (te, t, cij)
    | _, _ => none

end Mifem.TraceNum
