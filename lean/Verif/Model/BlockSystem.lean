import Verif.Model.Assembly

/-!
# Block matrices and block vectors of element-wise objects, and access to their blocks

Python sources (below `/repo/tools/elementwiseCache/`):
* `dataStructures/operators/bmat/main.py`, `dataStructures/operators/bmat/sparse_matrix/main.py`,
  `dataStructures/operators/bmat/sparse_matrix/helpers/DG.py`
* `dataStructures/operators/concatenate/main.py`, `dataStructures/operators/concatenate/column_vector/main.py`,
  `dataStructures/operators/concatenate/column_vector/helpers/DG.py`
* `dataStructures/objects/sparseMatrix/blocks/main.py`, `dataStructures/objects/columnVector/blocks/main.py`
* `gathering/regular/matrix/main.py`, `gathering/regular/chain_matrix/main.py` (`__eq__`)

The caches of the objects (the keys) are the subject of `Verif.Model.EWC`; here an object is the local matrix it returns
for every element of every core. An error raised for the matrix of some element when it is first used (after `bmat` has
returned) is modelled as an error of `bmat`. `none` stands for a raised exception (or for the Python value `None` where
said).
-/

namespace Mifem.BlockSys
open Mifem.Gath Mifem.Asm

variable {R : Type}

/-- an `EWC_SparseMatrix`: the local elements of every core (`elements`), the local matrices (before customizations),
`gathering_matrices` (`none`: not set) and the customizations. -/
structure Mat (R : Type) where
  els : List (List Nat)
  loc : Nat → Nat → Sp R
  gms : Option (Chain × Chain)
  cus : Custs R

/-- the local matrices in the form the assembler reads them. -/
def Mat.ewm (A : Mat R) : EWM R := A.els.zipIdx.map fun lk => lk.1.map fun e => (e, A.loc lk.2 e)

/-- `Bij.customize._customizations_ == dict()`, bmat/sparse_matrix/main.py 44. Customizations of elements that are not
local do not exist. -/
def Mat.plain (A : Mat R) : Bool := A.els.zipIdx.all fun lk => lk.1.all fun e => (A.cus lk.2 e).isEmpty

/-- gathering/regular/matrix/main.py 85-101 `__eq__` on `nR` cores. A key missing in the other one (KeyError) is counted
as a difference; in `bmat` both end in an exception. -/
def gmEq (nR : Nat) (g g' : GM) : Bool := (List.range nR).all fun r =>
  decide ((g.getD r []).length = (g'.getD r []).length) && (elements g r).all fun e => decide (getVec g r e = getVec g' r e)

/-- gathering/regular/chain_matrix/main.py 249-267 `__eq__`. -/
def chainEq (nR : Nat) (c c' : Chain) : Bool :=
  decide (c'.gms.length = c.gms.length) && (c.gms.zip c'.gms).all fun p => gmEq nR p.1 p.2

/-- bmat/sparse_matrix/main.py 66-78 (80-92): the gathering matrix of one row (column) of blocks; `none` inside: Python
`None`. -/
def pickGM (nR : Nat) (l : List (Option Chain)) : Option (Option Chain) :=
  l.foldlM (fun acc x => match x, acc with
    | none, acc => some acc
    | some c, none => some (some c)
    | some c, some a => if chainEq nR a c then some (some a) else none) none

/-- scipy's `bmat`: the common number of rows (columns) of the blocks in a block row (column); different numbers raise a
ValueError; without any block it is 0 (some versions of scipy raise here). -/
def common : List Nat → Option Nat
  | [] => some 0
  | a :: l => if l.all (fun b => decide (b = a)) then some a else none

/-- the block and the index inside it of row (column) `a`, when the blocks have the sizes `hs`. -/
def locate : List Nat → Nat → Nat × Nat
  | [], a => (0, a)
  | h :: hs, a => if a < h then (0, a) else ((locate hs (a - h)).1 + 1, (locate hs (a - h)).2)

/-- entry `(i, j)` of a 2d list; `none` where there is nothing. -/
def at2 {α : Type} (bs : List (List (Option α))) (i j : Nat) : Option α := (bs.getD i []).getD j none

/-- bmat/sparse_matrix/helpers/DG.py 12-20: `spspa.bmat(output, format='csr')` for one element (all entries are stored
here; scipy stores fewer, the values are the same). -/
def bmatLoc [AddCommMonoid R] (J : Nat) (bs : List (List (Option (Sp R)))) : Option (Sp R) :=
  (bs.mapM fun row => common (row.filterMap fun m => m.map Sp.rows)).bind fun hs =>
  ((List.range J).mapM fun j => common (bs.filterMap fun row => (row.getD j none).map Sp.cols)).map fun ws =>
    toCsr hs.sum ws.sum fun a b =>
      match at2 bs (locate hs a).1 (locate ws b).1 with
      | none => 0
      | some m => m.entry (locate hs a).2 (locate ws b).2

/-- a function on elements whose values may be missing, as a total function; `none` if a value is missing for a local
element. -/
def allLoc {α : Type} [Inhabited α] (els : List (List Nat)) (f : Nat → Nat → Option α) : Option (Nat → Nat → α) :=
  if els.zipIdx.all (fun lk => lk.1.all fun e => (f lk.2 e).isSome) then some fun k e => (f k e).getD default else none

instance : Inhabited (Sp R) := ⟨⟨true, 0, 0, []⟩⟩

/-- bmat/main.py 6-36 and bmat/sparse_matrix/main.py 9-111 on `nR` cores. All items are `EWC_SparseMatrix` or None. -/
def bmat [AddCommMonoid R] (nR : Nat) (blocks : List (List (Option (Mat R)))) : Option (Mat R) := do
  match blocks with
  | [] => none
  | row0 :: _ =>
    let J := row0.length
    if !(blocks.all fun row => decide (row.length = J)) then none
    else
      match blocks.flatten.filterMap id with
      | [] => none
      | b0 :: bs =>
        if !((b0 :: bs).all fun b => b.plain && decide (b.els = b0.els)) then none
        else
          let loc ← allLoc b0.els fun k e => bmatLoc J (blocks.map fun row => row.map fun b => b.map fun m => m.loc k e)
          let rgm ← blocks.mapM fun row => pickGM nR (row.map fun b => b.bind fun m => m.gms.map Prod.fst)
          let cgm ← (List.range J).mapM fun j =>
            pickGM nR (blocks.map fun row => (row.getD j none).bind fun m => m.gms.map Prod.snd)
          match rgm.mapM id, cgm.mapM id with
          | some r, some c =>
            let R_CGM ← mkChain nR (r.map Item.chain)
            let C_CGM ← mkChain nR (c.map Item.chain)
            some { els := b0.els, loc := loc, gms := some (R_CGM, C_CGM), cus := fun _ _ => [] }
          | _, _ => some { els := b0.els, loc := loc, gms := none, cus := fun _ _ => [] }

/-- `global_shape[1]` of a regular gathering matrix (gathering/regular/matrix/main.py 26-46, 138-141): the number of local dofs,
which is checked to be the same in all elements. -/
def numLocal (g : GM) : Nat := ((allVecs g).headD []).length

/-- the zero matrices of blocks/main.py 29-32, `spa_mat.__class__(elements, (m, n))`, sparseMatrix/main.py 237-239. -/
def zeroMat (els : List (List Nat)) (m n : Nat) : Mat R :=
  { els := els, loc := fun _ _ => ⟨true, m, n, List.replicate m []⟩, gms := none, cus := fun _ _ => [] }

/-- objects/sparseMatrix/blocks/main.py 13-35: the blocks of the matrix `A` made by `bmat` from `blocks`, None replaced
by zero matrices. `GM0.GMs[i]` raises IndexError if there is no such member. -/
def blocksOf (A : Mat R) (blocks : List (List (Option (Mat R)))) : Option (List (List (Mat R))) :=
  A.gms.bind fun rc => blocks.zipIdx.mapM fun ri : List (Option (Mat R)) × Nat =>
    ri.1.zipIdx.mapM fun bj : Option (Mat R) × Nat => match bj.1 with
      | some b => some b
      | none => (rc.1.gms[ri.2]?).bind fun g => (rc.2.gms[bj.2]?).map fun g' => zeroMat A.els (numLocal g) (numLocal g')

/-- lines 41-48 with two slices: `A.blocks[i0:i1, j0:j1]`. -/
def slices [AddCommMonoid R] (nR : Nat) (bs : List (List (Mat R))) (i0 i1 j0 j1 : Nat) : Option (Mat R) :=
  bmat nR (((bs.take i1).drop i0).map fun row => ((row.take j1).drop j0).map some)

/-! ### vectors -/

/-- an `EWC_ColumnVector`; `cus` tells whether it is customized. -/
structure Vec (R : Type) where
  els : List (List Nat)
  loc : Nat → Nat → Sv R
  gm : Option Chain
  cus : Bool

/-- the local vectors in the form the assembler reads them. -/
def Vec.ewv (A : Vec R) : EWV R := A.els.zipIdx.map fun lk => lk.1.map fun e => (e, A.loc lk.2 e)

/-- concatenate/column_vector/helpers/DG.py 12-17: `spspa.vstack(output, format='csc')`. -/
def vstack : List (Sv R) → Sv R
  | [] => ⟨0, []⟩
  | x :: l => ⟨x.len + (vstack l).len, x.items ++ (vstack l).items.map fun p => (x.len + p.1, p.2)⟩

/-- concatenate/main.py 9-27 and concatenate/column_vector/main.py 9-47. -/
def concatenate (nR : Nat) (vs : List (Vec R)) : Option (Vec R) := do
  match vs with
  | [] => none
  | v0 :: _ =>
    if !(vs.all fun v => !v.cus && decide (v0.els = v.els)) then none
    else
      let loc := fun k e => vstack (vs.map fun v => v.loc k e)
      match vs.mapM Vec.gm with
      | some gs => (mkChain nR (gs.map Item.chain)).map fun c => { els := v0.els, loc := loc, gm := some c, cus := false }
      | none => some { els := v0.els, loc := loc, gm := none, cus := false }

/-- objects/columnVector/blocks/main.py 8-26 with a slice: `b.blocks[i0:i1]`. -/
def vslice (nR : Nat) (vs : List (Vec R)) (i0 i1 : Nat) : Option (Vec R) := concatenate nR ((vs.take i1).drop i0)

end Mifem.BlockSys
