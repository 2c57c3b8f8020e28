import Verif.Model.Gathering
import Verif.Model.Sides
import Mathlib.Algebra.Group.Defs
import Mathlib.Algebra.Ring.Defs
import Mathlib.Algebra.BigOperators.Group.List.Defs

/-!
# Assembly of element-wise matrices and vectors, customizations, linear systems

Python sources (below `/repo/tools/`):
* `elementwiseCache/dataStructures/objects/sparseMatrix/assembler.py`
* `elementwiseCache/dataStructures/objects/sparseMatrix/customize.py`
* `elementwiseCache/dataStructures/objects/columnVector/assembler.py`
* `elementwiseCache/dataStructures/objects/columnVector/customize.py`
* `miLinearAlgebra/linearSystem/customize.py`
* `/repo/objects/CSCG/base/forms/base/BC/interpret/local.py`

Numbers are elements of a ring (floating point rounding is not modelled). `none` stands for a raised exception. Every
quantity that exists on every core is indexed by the rank.
-/

namespace Mifem.Asm
open Mifem.Gath

variable {R : Type}

/-! ### local sparse matrices -/

/-- A scipy csr (`csr = true`) or csc matrix: slice `j` is the list of pairs (index, value) in
`indices[indptr[j]:indptr[j+1]]`, `data[indptr[j]:indptr[j+1]]`. -/
structure Sp (R : Type) where
  csr : Bool
  rows : Nat
  cols : Nat
  slices : List (List (Nat × R))

/-- the value scipy gives to the entry `(i, j)`: stored duplicates are added. -/
def Sp.entry [AddCommMonoid R] (m : Sp R) (i j : Nat) : R :=
  ((m.slices.getD (if m.csr then i else j) []).map fun p => if p.1 = (if m.csr then j else i) then p.2 else 0).sum

/-- sparseMatrix/assembler.py 103-119 for one element: the triples appended to ROW, COL, DAT. `gi`, `gj` are the
gathering vectors `GI[i]`, `GJ[i]`; indexing beyond their end is an IndexError (`GJ[i][j]` is evaluated also for an
empty slice). -/
def Sp.triples (gi gj : List Nat) (m : Sp R) : Option (List (Nat × Nat × R)) :=
  (m.slices.zipIdx.mapM fun sj : List (Nat × R) × Nat =>
    if m.csr then
      gi[sj.2]?.bind fun r => sj.1.mapM fun p => gj[p.1]?.map fun c => (r, c, p.2)
    else
      gj[sj.2]?.bind fun c => sj.1.mapM fun p => gi[p.1]?.map fun r => (r, c, p.2)).map List.flatten

/-- `SPA_MATRIX((DAT, (ROW, COL)), shape=(DEP, WID))`: an index outside the shape raises, duplicates are added. -/
def coo [AddCommMonoid R] (dep wid : Nat) (ts : List (Nat × Nat × R)) : Option (Nat → Nat → R) :=
  if ts.all (fun t => decide (t.1 < dep) && decide (t.2.1 < wid)) then
    some fun r c => (ts.map fun t => if t.1 = r ∧ t.2.1 = c then t.2.2 else 0).sum
  else none

/-- sum of two sparse matrices (`A += _`). -/
def addM [AddCommMonoid R] (A B : Nat → Nat → R) : Nat → Nat → R := fun r c => A r c + B r c

/-- one step of the loop of assembler.py 101-129; the state is `A` and the collected triples; `T` is the number `1e7` of
line 121. -/
def asmStep [AddCommMonoid R] (T dep wid : Nat) (s : (Nat → Nat → R) × List (Nat × Nat × R))
    (x : List Nat × List Nat × Sp R) : Option ((Nat → Nat → R) × List (Nat × Nat × R)) :=
  (x.2.2.triples x.1 x.2.1).bind fun ts =>
    if (s.2 ++ ts).length > T then (coo dep wid (s.2 ++ ts)).map fun B => (addM s.1 B, [])
    else some (s.1, s.2 ++ ts)

/-- assembler.py 94-136: the matrix of one core, no sparsity lock. The list has, for every local element in order, the
row and column gathering vector and the local matrix. -/
def asmRank [AddCommMonoid R] (T dep wid : Nat) (l : List (List Nat × List Nat × Sp R)) : Option (Nat → Nat → R) :=
  (l.foldlM (asmStep T dep wid) ((fun _ _ => 0), [])).bind fun s => (coo dep wid s.2).map fun B => addM s.1 B

/-- The value of the `GlobalMatrix`: the sum of the matrices of all cores. -/
def sumRanks [AddCommMonoid R] (Fs : List (Nat → Nat → R)) : Nat → Nat → R := fun r c => (Fs.map fun F => F r c).sum

/-- assembler.py 94-136 on all cores. -/
def asm [AddCommMonoid R] (T dep wid : Nat) (ls : List (List (List Nat × List Nat × Sp R))) :
    Option (Nat → Nat → R) := (ls.mapM (asmRank T dep wid)).map sumRanks

/-- assembler.py 145-165: the first assembly with locked sparsity on one core: triples of all elements. -/
def allTriples (l : List (List Nat × List Nat × Sp R)) : Option (List (Nat × Nat × R)) :=
  (l.mapM fun x : List Nat × List Nat × Sp R => x.2.2.triples x.1 x.2.1).map List.flatten

/-- lines 167-175: `DAT` of a later assembly: only the data are collected. -/
def allData (l : List (List Nat × List Nat × Sp R)) : List R := l.flatMap fun x => x.2.2.slices.flatten.map Prod.snd

/-- lines 138-181: assembly with locked sparsity; `cache` holds `ROW, COL` of the first assembly; the result and the new
cache. Different lengths of DAT and ROW raise an error. -/
def asmLocked [AddCommMonoid R] (dep wid : Nat) (cache : Option (List (Nat × Nat)))
    (l : List (List Nat × List Nat × Sp R)) : Option ((Nat → Nat → R) × List (Nat × Nat)) :=
  match cache with
  | none => (allTriples l).bind fun ts => (coo dep wid ts).map fun F => (F, ts.map fun t => (t.1, t.2.1))
  | some rc =>
    if (allData l).length = rc.length then
      (coo dep wid ((rc.zip (allData l)).map fun p => (p.1.1, p.1.2, p.2))).map fun F => (F, rc)
    else none

/-! ### customizations of matrices -/

/-- the customizations of sparseMatrix/customize.py 41-108. -/
inductive Cus (R : Type)
  | clr (i : Nat)
  | clrs (is : List Nat)
  | salv (i j : Nat) (v : R)
  | ilrs (is : List Nat)
  | ilrsac (is js : List Nat)

/-- the local rows and columns used by a customization are in the matrix (otherwise IndexError); the two lists of
`ilrsac` have the same length (numpy would otherwise raise, or broadcast a list of length one). -/
def Cus.ok (rows cols : Nat) : Cus R → Bool
  | .clr i => decide (i < rows)
  | .clrs is => is.all fun i => decide (i < rows)
  | .salv i j _ => decide (i < rows) && decide (j < cols)
  | .ilrs is => is.all fun i => decide (i < rows) && decide (i < cols)
  | .ilrsac is js => is.all (fun i => decide (i < rows)) && js.all (fun j => decide (j < cols)) &&
      decide (is.length = js.length)

/-- sparseMatrix/customize.py 60-102: effect on the entries of the (lil) matrix. -/
def Cus.apply [Zero R] [One R] (d : Nat → Nat → R) : Cus R → (Nat → Nat → R)
  | .clr i => fun a b => if a = i then 0 else d a b
  | .clrs is => fun a b => if a ∈ is then 0 else d a b
  | .salv i j v => fun a b => if a = i ∧ b = j then v else d a b
  | .ilrs is => fun a b => if a ∈ is then (if a = b then 1 else 0) else d a b
  | .ilrsac is js => fun a b => if a ∈ is then (if (a, b) ∈ is.zip js then 1 else 0) else d a b

/-- lines 58-103: the loop over the customizations of an element. -/
def cusAll [Zero R] [One R] (rows cols : Nat) (d : Nat → Nat → R) (l : List (Cus R)) : Option (Nat → Nat → R) :=
  l.foldlM (fun d c => if c.ok rows cols then some (c.apply d) else none) d

/-- `RETURN.tocsr()`, lines 105-106. All entries are stored here (scipy stores fewer; the values are the same). -/
def toCsr (rows cols : Nat) (d : Nat → Nat → R) : Sp R :=
  { csr := true, rows := rows, cols := cols
    slices := (List.range rows).map fun i => (List.range cols).map fun j => (j, d i j) }

/-- lines 41-108: the customized local matrix; `l` is empty when the element is not in the dict. -/
def execCus [AddCommMonoid R] [One R] (m : Sp R) (l : List (Cus R)) : Option (Sp R) :=
  if l.isEmpty then some m else (cusAll m.rows m.cols m.entry l).map (toCsr m.rows m.cols)

/-- the dict `___customizations___` on every core; the empty list stands for a missing key. -/
abbrev Custs (R : Type) := Nat → Nat → List (Cus R)

/-- What the assembler and the customizations use of a chained gathering matrix. -/
structure ChainGM where
  total : Nat
  get : Nat → Nat → Option (List Nat)
  find : Nat → Int → Option (Option (List Nat × List Nat))

/-- a chain with the method 'silly'. -/
def silly (c : Chain) : ChainGM :=
  { total := c.total, get := c.get, find := fun r m => c.elementsAndIndices r m none }

/-- a chain with the method 'sequent'; `find` is chain_matrix/do/find.py 144-153 and 174-187. -/
def sequent (nR : Nat) (c : Chain) : ChainGM :=
  { total := c.total
    get := c.getSequent nR
    find := fun r m =>
      if ¬ (-(c.total : Int) ≤ m ∧ m < c.total) then none
      else (scanIndices (c.getSequent nR r) (if m < 0 then m + c.total else m).toNat
        (elements (c.gms.headD []) r)).map fun out => if out.isEmpty then none else some out.unzip }

/-- An element-wise matrix: on every core the local matrices (before customization) in the order of the elements. -/
abbrev EWM (R : Type) := List (List (Nat × Sp R))

/-- what the assembler reads on core `k`: `GI[i]`, `GJ[i]` and the customized `self._MAT_[i]`. -/
def readRank [AddCommMonoid R] [One R] (GI GJ : ChainGM) (cu : Custs R) (k : Nat) (l : List (Nat × Sp R)) :
    Option (List (List Nat × List Nat × Sp R)) :=
  l.mapM fun x => (GI.get k x.1).bind fun gi => (GJ.get k x.1).bind fun gj =>
    (execCus x.2 (cu k x.1)).map fun m => (gi, gj, m)

/-- the assembled matrix of an element-wise matrix with customizations. -/
def assemble [AddCommMonoid R] [One R] (T : Nat) (GI GJ : ChainGM) (A : EWM R) (cu : Custs R) :
    Option (Nat → Nat → R) :=
  (A.zipIdx.mapM fun lk : List (Nat × Sp R) × Nat => readRank GI GJ cu lk.2 lk.1).bind fun ls => asm T GI.total GJ.total ls

/-- sparseMatrix/customize.py 110-141 `clear_global_row(r)` on `nR` cores. -/
def clearGlobalRow (GI : ChainGM) (nR : Nat) (r : Int) (cu : Custs R) : Option (Custs R) :=
  ((List.range nR).mapM fun k => GI.find k r).map fun out => fun k e =>
    cu k e ++ (match out.getD k none with
      | none => []
      | some (es, is) => ((es.zip is).filter fun p => p.1 == e).map fun p => Cus.clr p.2)

/-- lines 178-199: elements with both the row and the column dof on a core, with the local row and column. -/
def tbg (rO cO : Option (List Nat × List Nat)) : List (Nat × Nat × Nat) :=
  match rO, cO with
  | some (rE, rI), some (cE, cI) => (rE.zip rI).filterMap fun p =>
      ((cE.zip cI).find? fun q => q.1 == p.1).map fun q => (p.1, p.2, q.2)
  | _, _ => []

/-- lines 153-256 `set_assembled_M_ij_to(i, j, v)`; `pick` is the unspecified choice `list(set(...))[0]` of lines 209-214.
-/
def setEntry [Zero R] (pick : List Nat → Nat) (GI GJ : ChainGM) (nR : Nat) (i j : Int) (v : R) (cu : Custs R) :
    Option (Custs R) :=
  ((List.range nR).mapM fun k => GI.find k i).bind fun rO =>
  ((List.range nR).mapM fun k => GJ.find k j).bind fun cO =>
    let t := List.zipWith tbg rO cO
    let all := t.flatten.map fun q => q.1
    if all.isEmpty then none
    else
      let who := t.findIdx fun l => (l.map fun q => q.1).contains (pick all)
      some fun k e => cu k e ++ ((t.getD k []).filter fun q => q.1 == e).map fun q =>
        Cus.salv q.2.1 q.2.2 (if k = who ∧ e = pick all then v else 0)

/-- lines 258-272 `identify_global_row(r)`. -/
def identifyRow [Zero R] [One R] (pick : List Nat → Nat) (GI GJ : ChainGM) (nR : Nat) (r : Int) (cu : Custs R) :
    Option (Custs R) :=
  (clearGlobalRow GI nR r cu).bind fun cu' => setEntry pick GI GJ nR r r 1 cu'

/-! ### vectors -/

/-- a local csc vector: its length and the pairs (index, value) stored. -/
structure Sv (R : Type) where
  len : Nat
  items : List (Nat × R)

/-- the value of entry `i`. -/
def Sv.entry [AddCommMonoid R] (x : Sv R) (i : Nat) : R := (x.items.map fun p => if p.1 = i then p.2 else 0).sum

/-- columnVector/assembler.py 43-62 on one core: `csc_matrix((DAT, ROW, [0, len(ROW)]), shape=(DEP, 1))`. -/
def asmVecRank [AddCommMonoid R] (dep : Nat) (l : List (List Nat × Sv R)) : Option (Nat → R) :=
  ((l.mapM fun x : List Nat × Sv R => x.2.items.mapM fun p => x.1[p.1]?.map fun r => (r, p.2)).map List.flatten).bind fun ts =>
    if ts.all (fun t => decide (t.1 < dep)) then some fun r => (ts.map fun t => if t.1 = r then t.2 else 0).sum else none

/-- the value of the `GlobalVector`: the sum over the cores. -/
def asmVec [AddCommMonoid R] (dep : Nat) (ls : List (List (List Nat × Sv R))) : Option (Nat → R) :=
  (ls.mapM (asmVecRank dep)).map fun Fs => fun r => (Fs.map fun F => F r).sum

/-- the customizations of columnVector/customize.py 37-96. -/
inductive VCus (R : Type)
  | cletr (i : Nat)
  | slet (i : Nat) (v : R)
  | slest (is : List Nat) (vs : List R)

/-- lines 64-69, 74-79: replace the value of the first occurrence of the index or append. -/
def upd (l : List (Nat × R)) (i : Nat) (v : R) : List (Nat × R) :=
  match l with
  | [] => [(i, v)]
  | p :: l => if p.1 = i then (i, v) :: l else p :: upd l i v

/-- lines 49-94: one customization merged into indices and values. -/
def merge [Zero R] (l : List (Nat × R)) : VCus R → List (Nat × R)
  | .cletr i => upd l i 0
  | .slet i v => upd l i v
  | .slest is vs => (is.zip vs).foldl (fun l p => upd l p.1 p.2) l

/-- State on all cores: `___customizations___` (empty list: missing key) and `_customizations_to_be_applied_`. -/
structure VSt (R : Type) where
  pending : Nat → Nat → List (VCus R)
  applied : Nat → Nat → Option (List (Nat × R))

/-- lines 37-96 `___PRIVATE_sent_to_applying___` on all cores. -/
def VSt.flush [Zero R] (s : VSt R) : VSt R :=
  { pending := fun _ _ => []
    applied := fun k e => if (s.pending k e).isEmpty then s.applied k e
      else some ((s.pending k e).foldl merge ((s.applied k e).getD [])) }

/-- `RETURN[indices, 0] = values`, lines 110-116 (all entries are stored here). -/
def setItems [AddCommMonoid R] (x : Sv R) (l : List (Nat × R)) : Option (Sv R) :=
  if l.all (fun p => decide (p.1 < x.len)) then
    some { len := x.len, items := (List.range x.len).map fun i => (i, ((l.lookup i).getD (x.entry i))) }
  else none

/-- lines 98-119: the customized local vector of element `e` on core `k`. -/
def VSt.exec [AddCommMonoid R] (s : VSt R) (k e : Nat) (x : Sv R) : Option (Sv R) :=
  match s.flush.applied k e with
  | none => some x
  | some l => setItems x l

/-- An element-wise vector: the local vectors (before customization). -/
abbrev EWV (R : Type) := List (List (Nat × Sv R))

/-- what the vector assembler reads on core `k`. -/
def readVecRank [AddCommMonoid R] (GI : ChainGM) (s : VSt R) (k : Nat) (l : List (Nat × Sv R)) :
    Option (List (List Nat × Sv R)) :=
  l.mapM fun x => (GI.get k x.1).bind fun gi => (s.exec k x.1 x.2).map fun v => (gi, v)

/-- the assembled vector. -/
def assembleVec [AddCommMonoid R] (GI : ChainGM) (B : EWV R) (s : VSt R) : Option (Nat → R) :=
  (B.zipIdx.mapM fun lk : List (Nat × Sv R) × Nat => readVecRank GI s lk.2 lk.1).bind fun ls => asmVec GI.total ls

/-- append customizations. -/
def VSt.add (s : VSt R) (new : Nat → Nat → List (VCus R)) : VSt R :=
  { s with pending := fun k e => s.pending k e ++ new k e }

/-- columnVector/customize.py 352-427 `set_assembled_V_i_to(i, v)`; `the_element` is the smallest of all elements found
(lines 378-386). -/
def setVecEntry (GI : ChainGM) (nR : Nat) (i : Int) (v : R) (s : VSt R) : Option (VSt R) :=
  ((List.range nR).mapM fun k => GI.find k i).bind fun out =>
    let es := fun k => match out.getD k none with
      | none => []
      | some o => o.1
    match vecMin ((List.range nR).flatMap es) with
    | none => none
    | some e0 =>
      let who := (List.range nR).findIdx fun k => (es k).contains e0
      if (es who).head? = some e0 then
        some (s.add fun k e => match out.getD k none with
          | none => []
          | some (es, is) => ((es.zip is).filter fun p => p.1 == e).map fun p =>
              if k = who ∧ e = e0 then VCus.slet p.2 v else VCus.cletr p.2)
      else none

/-! ### linear systems -/

/-- linearSystem/customize.py 80-90 `set_unknown_to(r, v)`. -/
def setUnknown [Zero R] [One R] (pick : List Nat → Nat) (GI GJ : ChainGM) (nR : Nat) (r : Int) (v : R)
    (cu : Custs R) (s : VSt R) : Option (Custs R × VSt R) :=
  (identifyRow pick GI GJ nR r cu).bind fun cu' => (setVecEntry GI nR r v s).map fun s' => (cu', s')

/-- What is used of an interpreted boundary condition on every core: `local.dofs` (a dict) and `local.cochains`. -/
structure BC (R : Type) where
  dofs : Nat → List (Nat × List Nat)
  cochains : Nat → List (Nat × List R)

/-- interpret/local.py 42-54: collect the local dofs of the element sides `(element, side)` on the boundary. -/
def parseDofs {σ : Type} (sideDofs : σ → List Nat) (parts : List (Nat × σ)) : List (Nat × List Nat) :=
  parts.foldl (fun d es => match d.lookup es.1 with
    | none => d ++ [(es.1, sideDofs es.2)]
    | some _ => d.map fun p => if p.1 = es.1 then (p.1, p.2 ++ sideDofs es.2) else p) []

/-- interpret/local.py 64-74: 'locally full local cochain'; `full e` is the vector `local_cochain[e]`. -/
def parseCochains (full : Nat → List R) (dofs : List (Nat × List Nat)) : Option (List (Nat × List R)) :=
  dofs.mapM fun p => (p.2.mapM fun d => (full p.1)[d]?).map fun vs => (p.1, vs)

/-- sparseMatrix/customize.py 319-340 (`identify_global_rows_according_to`): `start` is the first local dof of block `i`.
-/
def identifyRowsBC (start : Nat) (bc : BC R) (cu : Custs R) : Custs R := fun k e =>
  cu k e ++ ((bc.dofs k).filter fun p => p.1 == e).map fun p => Cus.ilrs (p.2.map (· + start))

/-- sparseMatrix/customize.py 395-431 (`off_diagonally_identify_rows_according_to`): blocks `i`, `j`; the assertions of
lines 399 and 419 on all `nR` cores. -/
def offDiagRowsBC (startR startC nR : Nat) (row col : BC R) (cu : Custs R) : Option (Custs R) :=
  if (List.range nR).all (fun k => decide ((row.dofs k).length = (col.dofs k).length) &&
      (row.dofs k).all fun p => ((col.dofs k).lookup p.1).isSome) then
    some fun k e => cu k e ++ ((row.dofs k).filter fun p => p.1 == e).map fun p =>
      Cus.ilrsac (p.2.map (· + startR)) ((((col.dofs k).lookup p.1).getD []).map (· + startC))
  else none

/-- columnVector/customize.py 150-174 (`set_entries_according_to`): KeyError for a missing cochain, assertion of
line 169. -/
def setEntriesBC (start nR : Nat) (bc cochain : BC R) (s : VSt R) : Option (VSt R) :=
  if (List.range nR).all (fun k => (bc.dofs k).all fun p =>
      match (cochain.cochains k).lookup p.1 with
      | none => false
      | some vs => decide (p.2.length = vs.length)) then
    some (s.add fun k e => ((bc.dofs k).filter fun p => p.1 == e).map fun p =>
      VCus.slest (p.2.map (· + start)) (((cochain.cochains k).lookup p.1).getD []))
  else none

/-- linearSystem/customize.py 16-74 `apply_strong_BC(i, j, dof_itp, cochain_itp)`: `startR` is the first local dof of row
block `i`, `startC` that of column block `j`; `cochain` is only given when `i ≠ j`. -/
def applyStrongBC (i j startR startC nR : Nat) (dof : BC R) (cochain : Option (BC R)) (cu : Custs R) (s : VSt R) :
    Option (Custs R × VSt R) :=
  match cochain with
  | none => if i = j then (setEntriesBC startR nR dof dof s).map fun s' => (identifyRowsBC startR dof cu, s') else none
  | some co => if i = j then none else
      (offDiagRowsBC startR startC nR dof co cu).bind fun cu' =>
        (setEntriesBC startR nR dof co s).map fun s' => (cu', s')

end Mifem.Asm
