/-!
# Gathering matrices and chains of them

Python sources:
* `/repo/tools/elementwiseCache/gathering/vector.py`
* `/repo/tools/elementwiseCache/gathering/regular/matrix/main.py`
* `/repo/tools/elementwiseCache/gathering/regular/chain_matrix/main.py`
* `/repo/tools/elementwiseCache/gathering/regular/chain_matrix/do/find.py`
* `/repo/tools/elementwiseCache/gathering/chain.py`

A gathering vector is the list of its dof numbers (`full_vector`). A local gathering matrix (on one core) is a Python
dict element ↦ gathering vector, modelled by the list of items in insertion order. A gathering matrix is the list of
its local parts, one for each rank. `none` stands for a raised exception.
-/

namespace Mifem.Gath

/-- items of the dict `_gvd_` on one core, regular/matrix/main.py 20-22. -/
abbrev LocalGM := List (Nat × List Nat)

/-- a gathering matrix: the local parts by rank. -/
abbrev GM := List LocalGM

/-- regular/matrix/main.py 68-70 `gm[i].full_vector` on core `r`; `none` is KeyError. -/
def getVec (g : GM) (r e : Nat) : Option (List Nat) := (g.getD r []).lookup e

/-- regular/matrix/main.py 72-75: the local elements in order. -/
def elements (g : GM) (r : Nat) : List Nat := (g.getD r []).map Prod.fst

/-- all dof vectors on all cores. -/
def allVecs (g : GM) : List (List Nat) := g.flatten.map Prod.snd

/-- vector.py 99-100, `np.max` (raises for an empty vector). -/
def vecMax : List Nat → Option Nat
  | [] => none
  | a :: l => some (l.foldl max a)

/-- vector.py 102-103, `np.min`. -/
def vecMin : List Nat → Option Nat
  | [] => none
  | a :: l => some (l.foldl min a)

/-- regular/matrix/main.py 114-127: maximum over all vectors on all cores, plus one; the list of maxima starts with -1
and the result is asserted non-negative before the 1 is added, so there must be at least one dof. -/
def globalNumDofs (g : GM) : Option Nat := do
  let ms ← (allVecs g).mapM vecMax
  let m ← vecMax ms
  return m + 1

/-- regular/matrix/main.py 148-167: `(min, max+1)` of the local dofs; `()` (here `none` inside) for no element. -/
def localRange (g : GM) (r : Nat) : Option (Option (Nat × Nat)) := do
  if (g.getD r []).isEmpty then return none
  let mi ← ((g.getD r []).map Prod.snd).mapM vecMin
  let ma ← ((g.getD r []).map Prod.snd).mapM vecMax
  let a ← vecMin mi
  let b ← vecMax ma
  return some (a, b + 1)

/-- chain_matrix/main.py 71-77: the loop over `GMs[:-1]` building `To_Be_Added`. -/
def toBeAdded (ns : List Nat) : List Nat :=
  ns.dropLast.foldl (fun acc n => acc ++ [acc.getLastD 0 + n]) [0]

/-- A constructed chain (`Chain_Gathering_Matrix` after `__init__`, chain_matrix/main.py 26-91). -/
structure Chain where
  meshType : String
  gms : List GM
  tba : List Nat
  total : Nat
  /-- `global_num_dofs` of the members, in order. -/
  ns : List Nat
deriving Repr

/-- an entry of the argument list `GMs`: a gathering matrix (with its mesh type) or an already built chain. -/
inductive Item
  | gm (meshType : String) (g : GM)
  | chain (c : Chain)

/-- line 43: `gm.mesh_type`. -/
def Item.meshType : Item → String
  | .gm m _ => m
  | .chain c => c.meshType

/-- lines 47-53: a chain in the argument list is replaced by its members. -/
def Item.members : Item → List GM
  | .gm _ g => [g]
  | .chain c => c.gms

/-- lines 60-69: the members have the same number of local elements and every element of the first is in the others,
on every core. -/
def sameElements (nRanks : Nat) (gms : List GM) : Bool :=
  match gms with
  | [] => true
  | g0 :: rest => rest.all fun g => (List.range nRanks).all fun r =>
      (elements g r).length == (elements g0 r).length && (elements g0 r).all fun e => (elements g r).contains e

/-- chain_matrix/main.py 26-91: construction (a list or tuple of items). `none`: an assertion failed. The special case
of lines 33-34 (a bare gathering matrix) is the one-element list; a bare chain is rejected there because the class name
in the tuple is misspelt (`'Chain_Gathering_Matrix,'`), and line 36 then fails. -/
def mkChain (nRanks : Nat) (items : List Item) : Option Chain := do
  match items with
  | [] => none
  | it0 :: _ =>
    if items.all (fun it => it.meshType == it0.meshType) then
      let gms := items.flatMap Item.members
      if sameElements nRanks gms then
        let ns ← gms.mapM globalNumDofs
        let tba := toBeAdded ns
        return { meshType := it0.meshType, gms := gms, tba := tba, total := tba.getLastD 0 + ns.getLastD 0, ns := ns }
      else none
    else none

/-- chain_matrix/main.py 211-223: `self[item]` for the method 'silly' on core `r`. -/
def Chain.get (c : Chain) (r e : Nat) : Option (List Nat) :=
  if c.gms.length = 1 then
    match c.gms with
    | g :: _ => getVec g r e
    | [] => none
  else do
    let vs ← c.gms.mapM (fun g => getVec g r e)
    return ((vs.zip c.tba).map (fun vt => vt.1.map (· + vt.2))).flatten

/-! ### sequent renumbering -/

/-- loop state of lines 96-125: the running number, the filters, the cache of the core. -/
structure Seq where
  cur : Nat
  filters : Nat → Nat
  cache : Nat → Nat → Nat

/-- `cache[j][0, fv] = np.arange(a, a+len(fv))`: assignments in order, the last one wins. -/
def assign (f : Nat → Nat) : List Nat → Nat → (Nat → Nat)
  | [], _ => f
  | d :: ds, a => assign (fun x => if x = d then a else f x) ds (a + 1)

/-- lines 112-119: one member `j` of one element. -/
def seqMember (s : Seq) (j : Nat) (fv : List Nat) : Seq :=
  let fr := fv.filter (fun d => s.filters j ≤ d)
  { cur := s.cur + fr.length
    filters := fun i => if i = j then s.filters j + fr.length else s.filters i
    cache := fun i => if i = j then assign (s.cache j) fr s.cur else s.cache i }

/-- lines 112-119: one element; `j` is the number of the first member of the list. -/
def seqElement (s : Seq) (j : Nat) : List (List Nat) → Seq
  | [] => s
  | fv :: rest => seqElement (seqMember s j fv) (j + 1) rest

/-- lines 98-119: the elements of one core, starting from a zero cache and the received number and filters. -/
def seqRank (cur : Nat) (filters : Nat → Nat) (rows : List (List (List Nat))) : Seq :=
  rows.foldl (fun s vs => seqElement s 0 vs) { cur := cur, filters := filters, cache := fun _ _ => 0 }

/-- lines 96-125: all cores in order, each handing number and filters to the next one; returns the caches. -/
def seqRanks (cur : Nat) (filters : Nat → Nat) : List (List (List (List Nat))) → List (Nat → Nat → Nat)
  | [] => []
  | rows :: rest =>
    let s := seqRank cur filters rows
    s.cache :: seqRanks s.cur s.filters rest

/-- lines 129-137: the master adds the caches of all cores. -/
def mergeCaches (caches : List (Nat → Nat → Nat)) : Nat → Nat → Nat :=
  fun j d => (caches.map (fun c => c j d)).sum

/-- the vectors of all members for the elements of core `r` (line 111: the order is that of the first member). -/
def Chain.rows (c : Chain) (r : Nat) : Option (List (List (List Nat))) :=
  (elements (c.gms.headD []) r).mapM (fun e => c.gms.mapM (fun g => getVec g r e))

/-- lines 94-169 and 225-231: `self[item]` on core `r` for the method 'sequent' (at least two members). Lines 145-169
send every core the entries of the dofs it has; entries it has not got are zero there. -/
def Chain.getSequent (c : Chain) (nRanks r e : Nat) : Option (List Nat) := do
  let rows ← (List.range nRanks).mapM c.rows
  let cache := mergeCaches (seqRanks 0 (fun _ => 0) rows)
  let vs ← c.gms.mapM (fun g => getVec g r e)
  let loc := fun j => ((c.gms.getD j []).getD r []).flatMap Prod.snd
  return (vs.zipIdx.map (fun vj => vj.1.map (fun d => if d ∈ loc vj.2 then cache vj.2 d else 0))).flatten

/-! ### find -/

/-- do/find.py 43-53: default maximum number of elements to search for. -/
def defaultN (meshType : String) (N : Option Nat) : Option Nat :=
  match N with
  | some n => some n
  | none => if meshType = "_2dCSCG" then some 4 else if meshType = "_3dCSCG" then some 8 else none

/-- do/find.py 74-100: the search for `where` in the local ranges (more than one member); `prev` is the upper end of
the range before. Outer `none`: the assertion of line 100 fails; inner `none`: the method returns None. -/
def searchWhere (m : Nat) : Option Nat → Nat → List (Nat × Nat) → Option (Option Nat)
  | _, _, [] => none
  | prev, i, (lo, hi) :: rest =>
    match prev with
    | none => if m < lo then some none else if lo ≤ m ∧ m < hi then some (some i)
        else searchWhere m (some hi) (i + 1) rest
    | some ph => if ph ≤ m ∧ m < lo then some none else if lo ≤ m ∧ m < hi then some (some i)
        else if rest.isEmpty ∧ hi ≤ m then some none
        else searchWhere m (some hi) (i + 1) rest

/-- do/find.py 62-100: with one member only its range is tested. -/
def findWhere (m : Nat) (lrs : List (Nat × Nat)) : Option (Option Nat) :=
  match lrs with
  | [(lo, hi)] => if lo ≤ m ∧ m < hi then some (some 0) else some none
  | _ => searchWhere m none 0 lrs

/-- do/find.py 106-121: collect elements having the dof, stop after `N`. -/
def collect (m : Nat) : Option Nat → LocalGM → List Nat
  | _, [] => []
  | N, (e, v) :: rest =>
    if m ∈ v then
      match N with
      | none => e :: collect m none rest
      | some 0 => e :: collect m (some 0) rest
      | some 1 => [e]
      | some (n + 2) => e :: collect m (some (n + 1)) rest
    else collect m N rest

/-- chain_matrix/main.py 277-298: local ranges of the members, shifted. -/
def Chain.localRanges (c : Chain) (r : Nat) : Option (List (Nat × Nat)) := do
  let lrs ← c.gms.mapM (fun g => localRange g r)
  let lrs ← lrs.mapM id
  return (lrs.zip c.tba).map (fun lt => (lt.1.1 + lt.2, lt.1.2 + lt.2))

/-- do/find.py 16-126, `elements_contain_dof_numbered(m, N)` on core `r` for the method 'silly'. The outer `none` is an
exception, the inner one the Python value `None`. -/
def Chain.elementsContain (c : Chain) (r : Nat) (m : Int) (N : Option Nat) : Option (Option (List Nat × Nat)) := do
  if ¬ (-(c.total : Int) ≤ m ∧ m < c.total) then none
  let m := (if m < 0 then m + c.total else m).toNat
  let N := defaultN c.meshType N
  if N = some 0 then none
  if (elements (c.gms.headD []) r).isEmpty then return none
  let lrs ← c.localRanges r
  let w ← findWhere m lrs
  match w with
  | none => return none
  | some w =>
    let es := collect (m - c.tba.getD w 0) N ((c.gms.getD w []).getD r [])
    if es.isEmpty then return none else return some (es, w)

/-- chain_matrix/main.py 177-181: `_LOCAL_To_Be_Added_`, prefix sums of the lengths of the vectors; `GV_LENs` is the
global number of local dofs of each member (the length of any of its vectors). -/
def Chain.localTBA (c : Chain) (r : Nat) : Option (List Nat) := do
  match elements (c.gms.headD []) r with
  | [] => none
  | e :: _ =>
    let vs ← c.gms.mapM (fun g => getVec g r e)
    return toBeAdded (vs.map List.length)

/-- do/find.py 132-172, `elements_and_local_indices_of_dof(m, N)` for 'silly'; the first position of the dof in the
vector, shifted. -/
def Chain.elementsAndIndices (c : Chain) (r : Nat) (m : Int) (N : Option Nat) :
    Option (Option (List Nat × List Nat)) := do
  let out ← c.elementsContain r m N
  match out with
  | none => return none
  | some (es, w) =>
    let m' := (if m < 0 then m + c.total else m).toNat - c.tba.getD w 0
    let ltba ← c.localTBA r
    let ids ← es.mapM (fun e => do
      let v ← getVec (c.gms.getD w []) r e
      if m' ∈ v then return v.idxOf m' + ltba.getD w 0 else none)
    return some (es, ids)

/-- do/find.py 174-187: the scan over all local elements (method 'sequent'); `get` is `self._CGM_[e]`. -/
def scanIndices (get : Nat → Option (List Nat)) (m : Nat) : List Nat → Option (List (Nat × Nat))
  | [] => some []
  | e :: es => do
    let v ← get e
    let rest ← scanIndices get m es
    if m ∈ v then return (e, v.idxOf m) :: rest else return rest

/-! ### the cache of chains -/

/-- chain.py 14: one entry of the two parallel lists 'key' and 'cache'. -/
abbrev CGMCache (α : Type) := List (List Char × α)

/-- chain.py 38: `''.join(stamps) + chain_method`. -/
def cgmKey (stamps : List (List Char)) (method : List Char) : List Char := stamps.flatten ++ method

/-- chain.py 36-64: a call; `build` constructs the chain (a new object) from the gathering matrices. Line 39-41: the
first entry with the key is returned; otherwise it is built and appended, and only the last three are kept. -/
def cgmCall {α γ : Type} (build : List γ → List Char → α) (cache : CGMCache α) (stamps : List (List Char))
    (gms : List γ) (method : List Char) : CGMCache α × α :=
  let key := cgmKey stamps method
  match cache.lookup key with
  | some c => (cache, c)
  | none =>
    let c := build gms method
    let cache' := cache ++ [(key, c)]
    (if cache'.length > 3 then cache'.drop (cache'.length - 3) else cache', c)

end Mifem.Gath
