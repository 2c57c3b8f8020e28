import Verif.Model.Gathering
import Mathlib.Algebra.Field.Defs
import Mathlib.Logic.Function.Basic

/-!
# Global and local cochains

Model of `/repo/objects/CSCG/base/forms/standard/cochain/main.py` (`globe` l.117-151, its setter l.153-211, `local` l.239-268),
`/repo/objects/CSCG/base/forms/standard/cochain/dofwise.py` (l.14-54), the checks of `DistributedVector.__init__`
(`/repo/tools/miLinearAlgebra/dataStructures/vectors/distributed/main.py` l.68-80) and `whether.master_dominating`
(`.../distributed/whether.py` l.18-29).

All cores are modelled at once: a gathering matrix and a local cochain are lists with one part for each core; the master
is the first core. Numbers are elements of a field, i.e. rounding is ignored.
-/

namespace Mifem.Cochain
open Mifem.Gath

variable {K : Type} [Field K] [DecidableEq K]

/-- local cochains of one core: the dict element ↦ array. -/
abbrev Local (K : Type) := List (Nat × List K)

/-- a sparse column vector: the stored value at an index, if one is stored. -/
abbrev SpV (K : Type) := Nat → Option K

/-- scipy `lil[0, idx] = vals`: one assignment after the other. scipy does not store zeros here (`keep = false`); the other
possibility is modelled too. Arrays of different lengths raise `ValueError`. -/
def lilSet (keep : Bool) (v : SpV K) (idx : List Nat) (vals : List K) : Option (SpV K) :=
  if idx.length = vals.length then some ((idx.zip vals).foldl (fun v p => Function.update v p.1 (if p.2 = 0 && !keep then none else some p.2)) v) else none

/-- main.py l.120-124: the sparse vector of a core. A missing local cochain raises `KeyError`. -/
def coreGlobe (keep : Bool) (g : LocalGM) (l : Local K) : Option (SpV K) :=
  g.foldlM (fun v p => (l.lookup p.1).bind (lilSet keep v p.2)) (fun _ => none)

/-- number of cores storing something at `i` (`measure`). -/
def count (vs : List (SpV K)) (i : Nat) : Nat := (vs.filter fun v => (v i).isSome).length

/-- `np.sum(GLOBE).toarray()`. -/
def total (vs : List (SpV K)) (i : Nat) : K := (vs.map fun v => (v i).getD 0).sum

/-- `DistributedVector(globe)`: no index may be stored on two cores (distributed/main.py l.70-80). -/
def mkDistributed (n : Nat) (vs : List (SpV K)) : Option (List (SpV K)) :=
  if (List.range n).all fun i => decide (count vs i ≤ 1) then some vs else none

/-- l.135-144: the master divides the sum by the number of cores storing the entry; zeros of the resulting array are not stored. -/
def masterGlobe (n : Nat) (vs : List (SpV K)) : SpV K := fun i =>
  if i < n then
    let m := if count vs i = 0 then 1 else count vs i
    let x := total vs i / (m : K)
    if x = 0 then none else some x
  else none

/-- `f.cochain.globe` (l.117-151). `direct`: the form is hybrid or of the highest degree. -/
def globe (keep direct : Bool) (n : Nat) (gm : GM) (loc : List (Local K)) : Option (List (SpV K)) :=
  ((gm.zip loc).mapM fun p => coreGlobe keep p.1 p.2).bind fun vs =>
    if direct then mkDistributed n vs
    else
      match vs with
      | [] => none
      | v :: rest => mkDistributed n (masterGlobe n (v :: rest) :: rest.map fun _ => fun _ => none)

/-- distributed/whether.py l.18-29. -/
def masterDominating (n : Nat) (vs : List (SpV K)) : Bool := (vs.drop 1).all fun v => (List.range n).all fun i => (v i).isNone

/-- l.165-177: the array on the master. `mem` is what `np.empty` finds in memory. -/
def gathered (mem : Nat → K) (n : Nat) (vs : List (SpV K)) : Nat → K :=
  if masterDominating n vs then fun i => ((vs.headD fun _ => none) i).getD 0
  else vs.foldl (fun VV v i => (v i).getD (VV i)) mem

/-- l.186-190: what is sent to a core with the given range of dofs, as a function of the index. -/
def sent (VV : Nat → K) (lr : Nat × Nat) (i : Nat) : K := if lr.1 ≤ i ∧ i < lr.2 then VV i else 0

/-- `f.cochain.globe = v` for a distributed vector (l.160-201). -/
def setGlobe (mem : Nat → K) (n : Nat) (gm : GM) (vs : List (SpV K)) : Option (List (Local K)) :=
  (List.range gm.length).mapM fun r =>
    (localRange gm r).map fun lr =>
      match lr with
      | none => []
      | some lr => (gm.getD r []).map fun p => (p.1, p.2.map (sent (gathered mem n vs) lr))

/-- `f.cochain.globe = v` for a locally full vector (l.203-208). -/
def setLocallyFull (gm : GM) (V : Nat → K) : List (Local K) := gm.map fun g => g.map fun p => (p.1, p.2.map V)

/-- `elements_and_local_indices_of_dof` (gathering/regular/matrix/do/find.py l.11-30). `gv.index(i)` asserts that there is
just one such entry (vector.py l.105-113). -/
def findDof (g : LocalGM) (i : Nat) : Option (List (Nat × Nat)) :=
  (g.filter fun p => p.2.contains i).mapM fun p => if p.2.count i = 1 then some (p.1, p.2.idxOf i) else none

/-- the first value, if the others are close to it (`assert_almost_equal`); the inner `none` if there is no value. -/
def common (close : K → K → Bool) : List K → Option (Option K)
  | [] => some none
  | x :: xs => if xs.all fun y => close x y then some (some x) else none

/-- dofwise.py l.24-35 on one core. -/
def dofOnCore (close : K → K → Bool) (g : LocalGM) (l : Local K) (i : Nat) : Option (Option K) :=
  (findDof g i).bind fun ps => (ps.mapM fun p => (l.lookup p.1).bind fun v => v[p.2]?).bind (common close)

/-- `f.cochain.dofwise[i]` (l.14-54). -/
def dofwise (close : K → K → Bool) (n : Nat) (gm : GM) (loc : List (Local K)) (i : ℤ) : Option K :=
  if -(n : ℤ) ≤ i ∧ i < n then
    let j := (if i < 0 then i + n else i).toNat
    ((gm.zip loc).mapM fun p => dofOnCore close p.1 p.2 j).bind fun cs => (common close (cs.filterMap id)).bind id
  else none

end Mifem.Cochain
