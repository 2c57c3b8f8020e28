import Verif.Model.Sides

/-!
# Hybrid pairing of 0- and 1-forms: edge unknowns that remove the redundant constraints

Python sources (`/repo/objects/CSCG/_3d/`):
* `forms/standard/_0s/special/main.py` lines 29-85, 134-245, 247-329
* `forms/standard/_1s/special/main.py` lines 109-167, 169-243, 245-376
* `mesh/edge/elements/do/find/main.py` lines 114-130 and `mesh/edge/elements/do/find/helpers/SOS.py` lines 6-33
* `spaces/base/local_numbering.py` lines 70-145 (edge dofs), 147-177 and 190-366 (trace dofs on edges)
* `forms/standard/base/numbering/do/find.py` lines 119-199 (dofs on corner edges)
* `mesh/edge/elements/main.py` lines 216-281 (amounts numbered before an edge element), 483-485 (sorted iteration)
-/

namespace Mifem.Hybrid
open Three

/-- the 12 corner edges of an element, in the order of mesh/edge/elements/main.py 312 (`ind_2_loc`). -/
inductive CEdge | WB | EB | WF | EF | NB | SB | NF | SF | NW | SW | NE | SE
deriving DecidableEq, Repr

@[inherit_doc CEdge] def all12 : List CEdge := [.WB, .EB, .WF, .EF, .NB, .SB, .NF, .SF, .NW, .SW, .NE, .SE]

/-- SOS.py 14: `position[-2]`, the first letter of the name: the side through which the replacement is made. -/
def CEdge.face : CEdge → Side
  | .WB => .W | .EB => .E | .WF => .W | .EF => .E | .NB => .N | .SB => .S
  | .NF => .N | .SF => .S | .NW => .N | .SW => .S | .NE => .N | .SE => .S

/-- SOS.py 19: `position[-1]`, the second letter: the edge of that side. -/
def CEdge.along : CEdge → Side
  | .WB => .B | .EB => .B | .WF => .F | .EF => .F | .NB => .B | .SB => .B
  | .NF => .F | .SF => .F | .NW => .W | .SW => .W | .NE => .E | .SE => .E

/-- `'NSWEBF'`, SOS.py 14 and _1s/special/main.py 328. -/
def nswebf : List Side := [.N, .S, .W, .E, .B, .F]

/-- what the three look-ups of `___PRIVATE_overcoming_hybrid_singularity___` return: the dofs of the form on a corner
edge, the dofs of the trace on an edge of a side (`none`: raises), the dofs of the edge form on a corner edge. -/
structure Tables where
  sf : CEdge → List Nat
  tf : Side → Side → Option (List Nat)
  ef : CEdge → List Nat

/-- do/find.py 131-164: dofs of the 0-form on a corner edge (`-1` is the last index). -/
def sf0 (p0 p1 p2 : Nat) : CEdge → List Nat
  | .WB => (List.range (p0+1)).map fun i => ln0 p0 p1 p2 i 0 0
  | .EB => (List.range (p0+1)).map fun i => ln0 p0 p1 p2 i p1 0
  | .WF => (List.range (p0+1)).map fun i => ln0 p0 p1 p2 i 0 p2
  | .EF => (List.range (p0+1)).map fun i => ln0 p0 p1 p2 i p1 p2
  | .NB => (List.range (p1+1)).map fun j => ln0 p0 p1 p2 0 j 0
  | .SB => (List.range (p1+1)).map fun j => ln0 p0 p1 p2 p0 j 0
  | .NF => (List.range (p1+1)).map fun j => ln0 p0 p1 p2 0 j p2
  | .SF => (List.range (p1+1)).map fun j => ln0 p0 p1 p2 p0 j p2
  | .NW => (List.range (p2+1)).map fun k => ln0 p0 p1 p2 0 0 k
  | .SW => (List.range (p2+1)).map fun k => ln0 p0 p1 p2 p0 0 k
  | .NE => (List.range (p2+1)).map fun k => ln0 p0 p1 p2 0 p1 k
  | .SE => (List.range (p2+1)).map fun k => ln0 p0 p1 p2 p0 p1 k

/-- do/find.py 166-199: dofs of the 1-form on a corner edge (only the component along the edge). -/
def sf1 (p0 p1 p2 : Nat) : CEdge → List Nat
  | .WB => (List.range p0).map fun i => ln1c0 p0 p1 p2 i 0 0
  | .EB => (List.range p0).map fun i => ln1c0 p0 p1 p2 i p1 0
  | .WF => (List.range p0).map fun i => ln1c0 p0 p1 p2 i 0 p2
  | .EF => (List.range p0).map fun i => ln1c0 p0 p1 p2 i p1 p2
  | .NB => (List.range p1).map fun j => ln1c1 p0 p1 p2 0 j 0
  | .SB => (List.range p1).map fun j => ln1c1 p0 p1 p2 p0 j 0
  | .NF => (List.range p1).map fun j => ln1c1 p0 p1 p2 0 j p2
  | .SF => (List.range p1).map fun j => ln1c1 p0 p1 p2 p0 j p2
  | .NW => (List.range p2).map fun k => ln1c2 p0 p1 p2 0 0 k
  | .SW => (List.range p2).map fun k => ln1c2 p0 p1 p2 p0 0 k
  | .NE => (List.range p2).map fun k => ln1c2 p0 p1 p2 0 p1 k
  | .SE => (List.range p2).map fun k => ln1c2 p0 p1 p2 p0 p1 k

/-- num_basis.py 76-78: numbers of dofs of the 0-trace on the sides `N`, `W`, `B`. -/
def nNS0 (_p0 p1 p2 : Nat) : Nat := (p1+1)*(p2+1)
@[inherit_doc nNS0] def nWE0 (p0 _p1 p2 : Nat) : Nat := (p0+1)*(p2+1)
@[inherit_doc nNS0] def nBF0 (p0 p1 _p2 : Nat) : Nat := (p0+1)*(p1+1)
/-- num_basis.py 110-115: numbers of dofs of the 1-trace on the sides `N`, `W`, `B`. -/
def nNS1 (_p0 p1 p2 : Nat) : Nat := p1*(p2+1) + (p1+1)*p2
@[inherit_doc nNS1] def nWE1 (p0 _p1 p2 : Nat) : Nat := p0*(p2+1) + (p0+1)*p2
@[inherit_doc nNS1] def nBF1 (p0 p1 _p2 : Nat) : Nat := p0*(p1+1) + (p0+1)*p1

/-- local_numbering.py 259-272 and 348-361: where the dofs of a side start. -/
def offset (nNS nWE nBF : Nat) : Side → Nat
  | .N => 0
  | .S => nNS
  | .W => nNS * 2
  | .E => nNS * 2 + nWE
  | .B => nNS * 2 + nWE * 2
  | .F => nNS * 2 + nWE * 2 + nBF

/-- `LN[0][0,:]` of an array of shape `(a, b)` numbered in `'F'` order (147-157): first index `i`. -/
def rowF (a b i : Nat) : List Nat := (List.range b).map fun j => fIdx2 a i j
/-- `LN[0][:,j]`. -/
def colF (a _b j : Nat) : List Nat := (List.range a).map fun i => fIdx2 a i j

/-- local_numbering.py 215-252: dofs of the 0-trace on edge `e` of side `f`, numbered within the side. -/
def tew0 (p0 p1 p2 : Nat) : Side → Side → Option (List Nat)
  | .N, .W | .S, .W => some (rowF (p1+1) (p2+1) 0)
  | .N, .E | .S, .E => some (rowF (p1+1) (p2+1) p1)
  | .N, .B | .S, .B => some (colF (p1+1) (p2+1) 0)
  | .N, .F | .S, .F => some (colF (p1+1) (p2+1) p2)
  | .W, .N | .E, .N => some (rowF (p0+1) (p2+1) 0)
  | .W, .S | .E, .S => some (rowF (p0+1) (p2+1) p0)
  | .W, .B | .E, .B => some (colF (p0+1) (p2+1) 0)
  | .W, .F | .E, .F => some (colF (p0+1) (p2+1) p2)
  | .B, .N | .F, .N => some (rowF (p0+1) (p1+1) 0)
  | .B, .S | .F, .S => some (rowF (p0+1) (p1+1) p0)
  | .B, .W | .F, .W => some (colF (p0+1) (p1+1) 0)
  | .B, .E | .F, .E => some (colF (p0+1) (p1+1) p1)
  | _, _ => none

/-- local_numbering.py 304-341: dofs of the 1-trace on edge `e` of side `f`, numbered within the side. The second
component of a side has the offset of the size of the first (160-177). -/
def tew1 (p0 p1 p2 : Nat) : Side → Side → Option (List Nat)
  | .N, .W | .S, .W => some ((rowF (p1+1) p2 0).map (· + p1*(p2+1)))
  | .N, .E | .S, .E => some ((rowF (p1+1) p2 p1).map (· + p1*(p2+1)))
  | .N, .B | .S, .B => some (colF p1 (p2+1) 0)
  | .N, .F | .S, .F => some (colF p1 (p2+1) p2)
  | .W, .N | .E, .N => some ((rowF (p0+1) p2 0).map (· + p0*(p2+1)))
  | .W, .S | .E, .S => some ((rowF (p0+1) p2 p0).map (· + p0*(p2+1)))
  | .W, .B | .E, .B => some (colF p0 (p2+1) 0)
  | .W, .F | .E, .F => some (colF p0 (p2+1) p2)
  | .B, .N | .F, .N => some ((rowF (p0+1) p1 0).map (· + p0*(p1+1)))
  | .B, .S | .F, .S => some ((rowF (p0+1) p1 p0).map (· + p0*(p1+1)))
  | .B, .W | .F, .W => some (colF p0 (p1+1) 0)
  | .B, .E | .F, .E => some (colF p0 (p1+1) p1)
  | _, _ => none

/-- local_numbering.py 190-277 (hybrid). -/
def tf0 (p0 p1 p2 : Nat) (f e : Side) : Option (List Nat) :=
  (tew0 p0 p1 p2 f e).map fun l => l.map (· + offset (nNS0 p0 p1 p2) (nWE0 p0 p1 p2) (nBF0 p0 p1 p2) f)

/-- local_numbering.py 279-366 (hybrid). -/
def tf1 (p0 p1 p2 : Nat) (f e : Side) : Option (List Nat) :=
  (tew1 p0 p1 p2 f e).map fun l => l.map (· + offset (nNS1 p0 p1 p2) (nWE1 p0 p1 p2) (nBF1 p0 p1 p2) f)

/-- local_numbering.py 79-104 and 116-141, with `x, y, z` the numbers of dofs per edge in the three directions. -/
def efAux (x y z : Nat) : CEdge → List Nat
  | .WB => List.range' 0 x
  | .EB => List.range' x x
  | .WF => List.range' (x*2) x
  | .EF => List.range' (x*3) x
  | .NB => List.range' (x*4) y
  | .SB => List.range' (x*4 + y) y
  | .NF => List.range' (x*4 + y*2) y
  | .SF => List.range' (x*4 + y*3) y
  | .NW => List.range' (x*4 + y*4) z
  | .SW => List.range' (x*4 + y*4 + z) z
  | .NE => List.range' (x*4 + y*4 + z*2) z
  | .SE => List.range' (x*4 + y*4 + z*3) z

/-- the tables of `_0s/special/main.py` (lines 186, 198, 210; `px += 1` in local_numbering.py 74-77). -/
def tables0 (p0 p1 p2 : Nat) : Tables := ⟨sf0 p0 p1 p2, tf0 p0 p1 p2, efAux (p0+1) (p1+1) (p2+1)⟩
/-- the tables of `_1s/special/main.py` (lines 319, 329, 341). -/
def tables1 (p0 p1 p2 : Nat) : Tables := ⟨sf1 p0 p1 p2, tf1 p0 p1 p2, efAux p0 p1 p2⟩

/-- assignments `M[r, c] = v`, one after the other. -/
def setEntries {K : Type _} (M : Nat → Nat → K) (l : List ((Nat × Nat) × K)) : Nat → Nat → K :=
  l.foldl (fun M x => fun r c => if (r, c) = x.1 then x.2 else M r c) M

/-- _1s/special/main.py 352-357 (_0s 221-226): `V = T[tf, sf]; T[tf, sf] = 0; C[tf, ef] = V`. -/
def moveEntries {K : Type _} [Zero K] (T C : Nat → Nat → K) (tf sf ef : List Nat) : (Nat → Nat → K) × (Nat → Nat → K) :=
  (setEntries T ((tf.zip sf).map fun rc => (rc, 0)),
   setEntries C ((tf.zip ef).zip ((tf.zip sf).map fun rc => T rc.1 rc.2)))

/-- an edge element: where it is (mesh element and corner edge, mesh/edge/elements/main.py 310-325) and the mesh
boundaries it is on. -/
structure EdgeElem where
  positions : List (Nat × CEdge)
  bnds : List String
deriving Repr

/-- one replacement: mesh element and the three lists of dofs. -/
structure Move where
  elem : Nat
  tf : List Nat
  sf : List Nat
  ef : List Nat
deriving Repr

/-- _1s/special/main.py 309-347 with SOS.py 8-19: the replacement for an edge element. `tmap m` are the six trace
elements of mesh element `m` in the order `NSWEBF`. The side is looked up again as the first side of `m` with that
trace element (324-328); the edge name is that of the first position in `m` (335-339). `none`: an exception. -/
def setting (tb : Tables) (tmap : Nat → List Nat) (e : EdgeElem) : Option Move :=
  match e.positions with
  | [] => none
  | (m, ce) :: _ =>
    match (tmap m)[nswebf.idxOf ce.face]? with
    | none => none
    | some te =>
      match nswebf[(tmap m).idxOf te]?, e.positions.find? (·.1 == m) with
      | some face, some pos =>
        match tb.tf face ce.along with
        | none => none
        | some tf =>
          if (tb.sf ce).length = tf.length ∧ tf.length = (tb.ef pos.2).length then
            some ⟨m, tf, tb.sf ce, tb.ef pos.2⟩
          else none
      | _, _ => none

/-- the replacement in the matrices of its element. -/
def move1 {K : Type _} [Zero K] (TC : (Nat → Nat → Nat → K) × (Nat → Nat → Nat → K)) (mv : Move) :
    (Nat → Nat → Nat → K) × (Nat → Nat → Nat → K) :=
  (fun m => if m = mv.elem then (moveEntries (TC.1 m) (TC.2 m) mv.tf mv.sf mv.ef).1 else TC.1 m,
   fun m => if m = mv.elem then (moveEntries (TC.1 m) (TC.2 m) mv.tf mv.sf mv.ef).2 else TC.2 m)

/-- _1s/special/main.py 288-301 (_0s 155-168): edge elements on a Dirichlet boundary are skipped. -/
def skipped (dir : List String) (e : EdgeElem) : Bool := e.bnds.any fun b => dir.contains b

/-- `___PRIVATE_overcoming_hybrid_singularity___` (_1s/special/main.py 245-376; _0s 134-245): all edge elements in the
order of their numbers. Each core works on the elements it holds; here all elements together. The settings do not
depend on the matrices, so they are computed first. -/
def overcome {K : Type _} [Zero K] (tb : Tables) (tmap : Nat → List Nat) (dir : List String) (edges : List EdgeElem)
    (T C : Nat → Nat → Nat → K) : Option ((Nat → Nat → Nat → K) × (Nat → Nat → Nat → K)) :=
  ((edges.filter fun e => !skipped dir e).mapM (setting tb tmap)).map fun ms => ms.foldl move1 (T, C)

/-! ## numbering of the edge unknowns -/

/-- _0s/special/main.py 303-306: positions with a non-zero count get consecutive numbers, the others stay 0. -/
def assign : Nat → List Nat → List Nat
  | _, [] => []
  | start, n :: rest => if n ≠ 0 then start :: assign (start + 1) rest else 0 :: assign start rest

/-- _0s/special/main.py 297-307: all edge elements in order. -/
def number0 : Nat → List (List Nat) → List (List Nat)
  | _, [] => []
  | start, N :: rest => assign start N :: number0 (start + (N.filter (· ≠ 0)).length) rest

/-- _0s/special/main.py 260-279: `np.diff(C.indptr)`, how many entries the columns of an element have; the columns of
its 12 edges follow each other. `nr` is the number of rows. -/
def colCount {K : Type _} [Zero K] [DecidableEq K] (nr : Nat) (C : Nat → Nat → K) (c : Nat) : Nat :=
  ((List.range nr).filter fun r => C r c ≠ 0).length

/-- _0s/special/main.py 256-292: the counts of an edge element, summed over the elements and places (`emap m` are the
12 edge elements of mesh element `m`). `ne` is the number of mesh elements, `ef` the columns of a corner edge (265-279:
consecutive blocks). The counts of cores are added. -/
def counts {K : Type _} [Zero K] [DecidableEq K] (nr ne : Nat) (ef : CEdge → List Nat) (emap : Nat → CEdge → Nat)
    (C : Nat → Nat → Nat → K) (edge len : Nat) : List Nat :=
  (List.range len).map fun d =>
    ((List.range ne).flatMap fun m =>
      (all12.filter fun ce => emap m ce == edge).map fun ce => colCount nr (C m) ((ef ce).getD d 0)).sum

/-- the three directions of edges. -/
inductive Dir | NS | WE | BF
deriving DecidableEq, Repr

/-- `D_p_D`, _1s/special/main.py 175. -/
def dp (px py pz : Nat) : Dir → Nat
  | .NS => px | .WE => py | .BF => pz

/-- mesh/edge/elements/main.py 216-281 and _1s/special/main.py 204-206: `nx*px + ny*py + nz*pz` with the amounts of
edge elements of the three directions numbered before `ee`. -/
def before (px py pz : Nat) (dirs : List Dir) (ee : Nat) : Nat :=
  (dirs.take ee).count .NS * px + (dirs.take ee).count .WE * py + (dirs.take ee).count .BF * pz

/-- _1s/special/main.py 208-217: the loop over `SKD` up to the first key that is not smaller than `ee`; these keys are
deleted. Result: what is added to `MINUS`, and the rest of `SKD` (a dictionary in the order of insertion). -/
def takeSkipped (ee : Nat) : List (Nat × Nat) → Nat × List (Nat × Nat)
  | [] => (0, [])
  | (sk, d) :: rest =>
    if sk < ee then let r := takeSkipped ee rest; (d + r.1, r.2) else (0, (sk, d) :: rest)

/-- _1s/special/main.py 195-229: numbers of the dofs on the edge elements of a core (`loc`, sorted by
mesh/edge/elements/main.py 483-485). `BEFORE - MINUS` is an integer. -/
def number1 (px py pz : Nat) (dirs : List Dir) : Int → List (Nat × Nat) → List Nat → List (Nat × List Int)
  | _, _, [] => []
  | minus, skd, ee :: rest =>
    match skd.find? (·.1 == ee) with
    | some kd => (ee, List.replicate kd.2 0) :: number1 px py pz dirs minus skd rest
    | none =>
      let r := takeSkipped ee skd
      let minus' := minus + r.1
      let start : Int := before px py pz dirs ee - minus'
      (ee, (List.range (dp px py pz (dirs.getD ee .NS))).map fun i : Nat => start + (i : Int)) ::
        number1 px py pz dirs minus' r.2 rest

/-- _1s/special/main.py 178-187: each core collects the skipped edge elements it holds (in order); the dictionaries are
merged core by core (`update`: a key that is there keeps its place). -/
def mergeSkipped (px py pz : Nat) (dirs : List Dir) (skip : List Nat) (cores : List (List Nat)) : List (Nat × Nat) :=
  cores.foldl (fun acc loc =>
    acc ++ ((skip.filter fun e => loc.contains e).filter fun e => !(acc.map (·.1)).contains e).map
      fun e => (e, dp px py pz (dirs.getD e .NS))) []

end Mifem.Hybrid
