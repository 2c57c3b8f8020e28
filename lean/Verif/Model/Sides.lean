import Verif.Model.Incidence

/-!
# Dofs on element sides, and trace matrices

Python sources:
* `/repo/objects/CSCG/_2d/forms/standard/base/numbering/do/find.py` lines 42-93
* `/repo/objects/CSCG/_3d/forms/standard/base/numbering/do/find.py` lines 62-121
* `/repo/objects/CSCG/_2d/spaces/base/trace_matrix.py` lines 94-134
* `/repo/objects/CSCG/_3d/spaces/base/trace_matrix.py` lines 43-162
* `/repo/objects/CSCG/_3d/spaces/base/local_numbering.py` lines 160-177 (numbering of the 1-trace on a side)
* `/repo/objects/CSCG/_2d/spaces/base/num_basis.py` lines 102-110, 3D lines 60-138 (numbers on sides)
-/

namespace Mifem

/-- `A.ravel('F')` of a 2D array of shape `(a, b)` with entries `f i j`. -/
def ravelF (a b : Nat) (f : Nat → Nat → Nat) : List Nat :=
  (List.range b).flatMap fun j => (List.range a).map fun i => f i j

/-- One statement `PU[cols, sln] = v` with `sln = arange(start, start + len(cols))`, already transposed (`T = PU.T`):
row `start + k`, column `cols[k]`. -/
def sideW (start : Nat) (cols : List Nat) (v : Int) : List Write :=
  (cols.zipIdx start).map fun ck => ⟨ck.2, ck.1, v⟩

/-- the writes of a trace matrix, given the columns (dofs of the form) for every side and the sides in the order of
`___generate_gathering_hybrid_element___` (2D trace_matrix.py 124-134, 3D 151-160), each with the sign written.
Rows of successive sides are consecutive. -/
def traceAux {σ : Type} (dofs : σ → List Nat) : Nat → List (σ × Int) → List Write
  | _, [] => []
  | start, (s, v) :: rest => sideW start (dofs s) v ++ traceAux dofs (start + (dofs s).length) rest

namespace Two

/-- edge names of a 2D element. -/
inductive Side | U | D | L | R
deriving DecidableEq, Repr

/-- do/find.py 42-60: local dofs of a 0-form on an edge. Index `-1` is the last one (`p`). -/
def dofs0 (p0 p1 : Nat) : Side → List Nat
  | .U => (List.range (p1 + 1)).map fun j => ln0 p0 p1 0 j
  | .D => (List.range (p1 + 1)).map fun j => ln0 p0 p1 p0 j
  | .L => (List.range (p0 + 1)).map fun i => ln0 p0 p1 i 0
  | .R => (List.range (p0 + 1)).map fun i => ln0 p0 p1 i p1

/-- do/find.py 62-77: inner 1-form. -/
def dofsI1 (p0 p1 : Nat) : Side → List Nat
  | .U => (List.range p1).map fun j => lnI1c1 p0 p1 0 j
  | .D => (List.range p1).map fun j => lnI1c1 p0 p1 p0 j
  | .L => (List.range p0).map fun i => lnI1c0 p0 p1 i 0
  | .R => (List.range p0).map fun i => lnI1c0 p0 p1 i p1

/-- do/find.py 79-94: outer 1-form. -/
def dofsO1 (p0 p1 : Nat) : Side → List Nat
  | .U => (List.range p1).map fun j => lnO1c0 p0 p1 0 j
  | .D => (List.range p1).map fun j => lnO1c0 p0 p1 p0 j
  | .L => (List.range p0).map fun i => lnO1c1 p0 p1 i 0
  | .R => (List.range p0).map fun i => lnO1c1 p0 p1 i p1

/-- num_basis.py 102-110: `2 * (p1 + p0)` trace dofs. -/
def nbT1 (p0 p1 : Nat) : Nat := 2 * (p1 + p0)

/-- trace_matrix.py 94-121 (`_2dCSCG_1Trace_Outer`), the only 2D trace matrix that can be evaluated: the other three
refer to `num_basis._0Trace_Inner`, `_0Trace_Onner`, `_1Trace_Inner`, which do not exist. Signs: lines 103-106. -/
def outerSigns : List (Side × Int) := [(.U, 1), (.D, -1), (.L, -1), (.R, 1)]

/-- the trace matrix of the outer 1-form. -/
def traceOuter (p0 p1 : Nat) : Nat → Nat → Int := matOf (traceAux (dofsO1 p0 p1) 0 outerSigns)

end Two

namespace Three

/-- side names of a 3D element. -/
inductive Side | N | S | W | E | B | F
deriving DecidableEq, Repr

/-- do/find.py 62-76: local dofs of a 0-form on a side. -/
def dofs0 (p0 p1 p2 : Nat) : Side → List Nat
  | .N => ravelF (p1+1) (p2+1) fun j k => ln0 p0 p1 p2 0 j k
  | .S => ravelF (p1+1) (p2+1) fun j k => ln0 p0 p1 p2 p0 j k
  | .W => ravelF (p0+1) (p2+1) fun i k => ln0 p0 p1 p2 i 0 k
  | .E => ravelF (p0+1) (p2+1) fun i k => ln0 p0 p1 p2 i p1 k
  | .B => ravelF (p0+1) (p1+1) fun i j => ln0 p0 p1 p2 i j 0
  | .F => ravelF (p0+1) (p1+1) fun i j => ln0 p0 p1 p2 i j p2

/-- do/find.py 78-105: 1-form. -/
def dofs1 (p0 p1 p2 : Nat) : Side → List Nat
  | .N => ravelF p1 (p2+1) (fun j k => ln1c1 p0 p1 p2 0 j k) ++ ravelF (p1+1) p2 (fun j k => ln1c2 p0 p1 p2 0 j k)
  | .S => ravelF p1 (p2+1) (fun j k => ln1c1 p0 p1 p2 p0 j k) ++ ravelF (p1+1) p2 (fun j k => ln1c2 p0 p1 p2 p0 j k)
  | .W => ravelF p0 (p2+1) (fun i k => ln1c0 p0 p1 p2 i 0 k) ++ ravelF (p0+1) p2 (fun i k => ln1c2 p0 p1 p2 i 0 k)
  | .E => ravelF p0 (p2+1) (fun i k => ln1c0 p0 p1 p2 i p1 k) ++ ravelF (p0+1) p2 (fun i k => ln1c2 p0 p1 p2 i p1 k)
  | .B => ravelF p0 (p1+1) (fun i j => ln1c0 p0 p1 p2 i j 0) ++ ravelF (p0+1) p1 (fun i j => ln1c1 p0 p1 p2 i j 0)
  | .F => ravelF p0 (p1+1) (fun i j => ln1c0 p0 p1 p2 i j p2) ++ ravelF (p0+1) p1 (fun i j => ln1c1 p0 p1 p2 i j p2)

/-- do/find.py 107-121: 2-form. -/
def dofs2 (p0 p1 p2 : Nat) : Side → List Nat
  | .N => ravelF p1 p2 fun j k => ln2c0 p0 p1 p2 0 j k
  | .S => ravelF p1 p2 fun j k => ln2c0 p0 p1 p2 p0 j k
  | .W => ravelF p0 p2 fun i k => ln2c1 p0 p1 p2 i 0 k
  | .E => ravelF p0 p2 fun i k => ln2c1 p0 p1 p2 i p1 k
  | .B => ravelF p0 p1 fun i j => ln2c2 p0 p1 p2 i j 0
  | .F => ravelF p0 p1 fun i j => ln2c2 p0 p1 p2 i j p2

/-- the sides in order, and the sign each trace matrix writes (the same for all three: lines 55-60, 86-109, 130-135).
For the 1-trace (trace_matrix.py 76-118) the block of a side is `N?[lnt[0].ravel('F'), lnf_a.ravel('F')] = v` followed
by `N?[lnt[1].ravel('F'), lnf_b.ravel('F')] = v`; `lnt[0].ravel('F')` is `0,1,2,...` and `lnt[1].ravel('F')` continues
it (local_numbering.py 160-177), so the block is `sideW` for the concatenated columns; `np.vstack` stacks the blocks. -/
def sideSigns : List (Side × Int) := [(.N, -1), (.S, 1), (.W, -1), (.E, 1), (.B, -1), (.F, 1)]

/-- trace_matrix.py 43-73: matrix of the 0-trace. -/
def trace0 (p0 p1 p2 : Nat) : Nat → Nat → Int := matOf (traceAux (dofs0 p0 p1 p2) 0 sideSigns)
/-- trace_matrix.py 76-118: matrix of the 1-trace. -/
def trace1 (p0 p1 p2 : Nat) : Nat → Nat → Int := matOf (traceAux (dofs1 p0 p1 p2) 0 sideSigns)
/-- trace_matrix.py 121-149: matrix of the 2-trace. -/
def trace2 (p0 p1 p2 : Nat) : Nat → Nat → Int := matOf (traceAux (dofs2 p0 p1 p2) 0 sideSigns)

/-- num_basis.py 60-64, 88-95, 125-127: numbers of trace dofs (hybrid). -/
def nbT0 (p0 p1 p2 : Nat) : Nat := 2 * ((p1+1)*(p2+1) + (p0+1)*(p2+1) + (p0+1)*(p1+1))
@[inherit_doc nbT0] def nbT1 (p0 p1 p2 : Nat) : Nat :=
  2 * (p1*(p2+1) + (p1+1)*p2 + p0*(p2+1) + (p0+1)*p2 + p0*(p1+1) + (p0+1)*p1)
@[inherit_doc nbT0] def nbT2 (p0 p1 p2 : Nat) : Nat := 2 * (p1*p2 + p0*p2 + p0*p1)

end Three
end Mifem

namespace Mifem

/-- the loop `m = 0; for i in range(6): N_[i] = N[m:m+nbt[..]]; m += nbt[..]` (3D trace_matrix.py 63-68, 138-143;
2D 108-113): first row of the `i`-th side block. -/
def blockStart {σ : Type} (dofs : σ → List Nat) (signs : List (σ × Int)) (i : Nat) : Nat :=
  ((signs.take i).map (fun sv => (dofs sv.1).length)).sum

end Mifem
