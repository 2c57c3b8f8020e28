import Mathlib.Algebra.BigOperators.Group.Finset.Basic
import Mathlib.Algebra.BigOperators.Fin
import Mathlib.Algebra.Field.Defs

/-!
# Krylov solvers

Model of
* `/repo/tools/miLinearAlgebra/solvers/regular/LGMRES/helpers/mpi_v0.py` (augmentation caches, and the cycle)
* `/repo/tools/miLinearAlgebra/solvers/regular/BiCGSTAB/helpers/mpi_v0.py`
* `/repo/tools/miLinearAlgebra/solvers/regular/GMRES/helpers/mpi_v0.py`, `mpi_v1.py` (one cycle)

Exact arithmetic. Preconditioners are not modelled (they replace A and f before the loop).
-/

namespace Mifem.Krylov

/-! ### LGMRES: the caches `ZZZ` and `AZ_cache` -/

/-- a Python dict with integer keys. -/
abbrev Dict (V : Type) := Nat → Option V

/-- `del D[i]`; `none` is KeyError. -/
def Dict.del {V : Type} (D : Dict V) (i : Nat) : Option (Dict V) :=
  if (D i).isSome then some fun j => if j = i then none else D j else none

/-- `D[i] = v`. -/
def Dict.set {V : Type} (D : Dict V) (i : Nat) (v : V) : Dict V := fun j => if j = i then some v else D j

/-- the state between two outer iterations; `upd` are the corrections that have been added to x0. -/
structure LG (V : Type) where
  Z : Dict V
  AZ : Dict V
  upd : List V

/-- mpi_v0.py 161-169: the product of A with the augmentation vector `index`. -/
def azStep {V : Type} (A : V → V) (K iter : Nat) (Z AZ : Dict V) (index : Nat) : Option (Dict V × V) :=
  (if (AZ index).isSome then some AZ
  else (if iter > K then AZ.del (iter - K - 1) else some AZ).bind fun AZ =>
    (Z index).map fun z => AZ.set index (A z)).bind fun AZ => (AZ index).map fun a => (AZ, a)

/-- the same for a list of indices. -/
def azLoop {V : Type} (A : V → V) (K iter : Nat) (Z : Dict V) : Dict V → List Nat → Option (Dict V × List V)
  | AZ, [] => some (AZ, [])
  | AZ, i :: l => (azStep A K iter Z AZ i).bind fun p => (azLoop A K iter Z p.1 l).map fun q => (q.1, p.2 :: q.2)

/-- mpi_v0.py 112-117: the number of augmentation vectors. -/
def augNum (K iter : Nat) : Nat := if iter < K then iter else K

/-- mpi_v0.py 112-117: the number of Krylov vectors (restart = M + K). -/
def mNum (M K iter : Nat) : Nat := if iter < K then M + K - iter else M

/-- mpi_v0.py 110-275: one outer iteration. `v` are the rows of Vm, `comb` is the combination with the coefficients `ym` of
the vectors `Ws`. Returns the new state, the products `Avj` for all `j`, and `Ws`.
`index = ITER + m - 1 - j` for `j = m, ..., restart - 1`. -/
def lgRound {V : Type} (A : V → V) (M K : Nat) (v : Nat → V) (comb : List V → V) (s : LG V) :
    Option (LG V × List V × List V) :=
  let iter := s.upd.length
  let k := augNum K iter
  let m := mNum M K iter
  (azLoop A K iter s.Z s.AZ ((List.range k).map fun l => iter + m - 1 - (m + l))).bind fun p =>
    ((List.range k).mapM fun l => s.Z (iter - l - 1)).bind fun DL =>
      let Ws := (List.range m).map v ++ DL
      let ym := comb Ws
      (if iter ≥ K ∧ K > 0 then s.Z.del (iter - K) else some s.Z).map fun Z =>
        (⟨Z.set iter ym, p.1, s.upd ++ [ym]⟩, (List.range m).map (fun j => A (v j)) ++ p.2, Ws)

/-- the state at the beginning (`x0` is counted from 0 corrections). -/
def LG.start (V : Type) : LG V := ⟨fun _ => none, fun _ => none, []⟩

/-- `n` outer iterations; `v` and `comb` may depend on the iteration in any way. -/
def lgRun {V : Type} (A : V → V) (M K : Nat) (v : Nat → Nat → V) (comb : Nat → List V → V) : Nat → Option (LG V)
  | 0 => some (LG.start V)
  | n + 1 => (lgRun A M K v comb n).bind fun s => (lgRound A M K (v n) (comb n) s).map fun r => r.1

/-! ### BiCGSTAB -/

/-- the variables on the master. Buffers that are written in place (`COMM.Reduce(..., r0)`) live in `heap`; the names `r0`
and `hr0` are bound to places of the heap. `v1` and `t` are also written in place, but only after their old values (and
the name `v0`) have been used, so they are values here. -/
structure Bi (K V : Type) where
  heap : Nat → V
  next : Nat
  r0 : Nat
  hr0 : Nat
  x : V
  p0 : V
  p1 : V
  v0 : V
  v1 : V
  s : V
  t : V
  rho0 : K
  rho1 : K
  alpha : K
  omega0 : K
  omega1 : K
  iter : Nat

def write {V : Type} (h : Nat → V) (i : Nat) (v : V) : Nat → V := fun j => if j = i then v else h j

variable {K V : Type}

/-- mpi_v0.py 66-86: variables before the loop; names that are not yet bound are 0. -/
def Bi.start [Zero K] [One K] [Zero V] (x : V) : Bi K V :=
  ⟨fun _ => 0, 1, 0, 0, x, 0, 0, 0, 0, 0, 0, 1, 0, 1, 1, 0, 0⟩

/-- mpi_v0.py 89-94, 108-117: the residual is summed into the buffer of `r0`; `hr0 = r0` in the first round; then, from the
second round on, `r0` is bound to a new array. -/
def biTop [Sub V] [SMul K V] (A : V → V) (f : V) (b : Bi K V) : Bi K V :=
  let b := { b with heap := write b.heap b.r0 (f - A b.x) }
  let b := if b.iter = 0 then { b with hr0 := b.r0 } else b
  let b := { b with iter := b.iter + 1 }
  if b.iter > 1 then
    { b with heap := write b.heap b.next (b.s - b.omega1 • b.t), r0 := b.next, next := b.next + 1,
             rho0 := b.rho1, omega0 := b.omega1, p0 := b.p1, v0 := b.v1 }
  else b

/-- mpi_v0.py 119-145. -/
def biBottom [Add V] [Sub V] [SMul K V] [Mul K] [Div K] (dot : V → V → K) (A : V → V) (b : Bi K V) : Bi K V :=
  let r0 := b.heap b.r0
  let hr0 := b.heap b.hr0
  let rho1 := dot hr0 r0
  let beta := (rho1 / b.rho0) * (b.alpha / b.omega0)
  let p1 := r0 + beta • (b.p0 - b.omega0 • b.v0)
  let v1 := A p1
  let alpha := rho1 / dot hr0 v1
  let s := r0 - alpha • v1
  let t := A s
  let omega1 := dot t s / dot t t
  { b with rho1 := rho1, p1 := p1, v1 := v1, alpha := alpha, s := s, t := t, omega1 := omega1, x := b.x + (alpha • p1 + omega1 • s) }

/-- the state after `n` rounds. -/
def biRun [Zero K] [One K] [Zero V] [Add V] [Sub V] [SMul K V] [Mul K] [Div K] (dot : V → V → K) (A : V → V) (f x : V) : Nat → Bi K V
  | 0 => Bi.start x
  | n + 1 => biBottom dot A (biTop A f (biRun dot A f x n))

/-! ### one GMRES cycle -/

section cycle
variable {F : Type} [Field F] {N : Nat}

/-- numpy `np.sum(u * v)`. -/
def dot (u v : Fin N → F) : F := ∑ i, u i * v i

/-- mpi_v1.py 49-52: the columns of core `rank`. -/
def localInd (size rank restart : Nat) : List Nat := (List.range restart).filter fun i => i % size = rank

/-- `A @ v` summed over the cores. -/
def applySum (parts : List ((Fin N → F) → Fin N → F)) (v : Fin N → F) : Fin N → F := fun i => (parts.map fun A => A v i).sum

/-- mpi_v1.py 143-163: `sum_Hij_vi` of one core (the indices are ascending, so `break` at the first large one leaves the
indices up to `j`). -/
def localSum (size restart : Nat) (V : Nat → Fin N → F) (j : Nat) (AVJ : Fin N → F) (rank : Nat) : Fin N → F :=
  fun x => (((localInd size rank restart).takeWhile fun i => i ≤ j).map fun i => dot AVJ (V i) * V i x).sum

/-- mpi_v1.py 165-168. -/
def hatV (size restart : Nat) (V : Nat → Fin N → F) (j : Nat) (AVJ : Fin N → F) : Fin N → F :=
  fun x => AVJ x - ((List.range size).map fun rank => localSum size restart V j AVJ rank x).sum

/-- mpi_v1.py 120-191: the vectors v_0, ..., v_j. `w j v` is the vector that A is applied to in step `j` (`v_j` itself for
GMRES; for LGMRES from `j = m` on an augmentation vector). -/
def basis (sqrt : F → F) (parts : List ((Fin N → F) → Fin N → F)) (size restart : Nat) (w : Nat → (Fin N → F) → Fin N → F)
    (v0 : Fin N → F) : Nat → List (Fin N → F)
  | 0 => [v0]
  | j + 1 =>
    let L := basis sqrt parts size restart w v0 j
    let hat := hatV size restart (fun i => L.getD i 0) j (applySum parts (w j (L.getD j 0)))
    L ++ [fun x => hat x / sqrt (dot hat hat)]

/-- mpi_v1.py 143-168: the entry (i, j) of `Hm` on one core. -/
def hmLocal (sqrt : F → F) (size restart : Nat) (V : Nat → Fin N → F) (AVJ : Fin N → F) (rank i j : Nat) : F :=
  if rank = 0 ∧ i = j + 1 then sqrt (dot (hatV size restart V j AVJ) (hatV size restart V j AVJ))
  else if i ∈ (localInd size rank restart).takeWhile fun i => i ≤ j then dot AVJ (V i) else 0

/-- mpi_v1.py 193: the sum over the cores. -/
def hm (sqrt : F → F) (size restart : Nat) (V : Nat → Fin N → F) (AVJ : Fin N → F) (i j : Nat) : F :=
  ((List.range size).map fun rank => hmLocal sqrt size restart V AVJ rank i j).sum

/-- mpi_v1.py 138-141: `AVJ` in step `j`. -/
def avj (sqrt : F → F) (parts : List ((Fin N → F) → Fin N → F)) (size restart : Nat) (w : Nat → (Fin N → F) → Fin N → F)
    (v0 : Fin N → F) (j : Nat) : Fin N → F :=
  applySum parts (w j ((basis sqrt parts size restart w v0 j).getD j 0))

/-- mpi_v1.py 143-168, 193: the matrix `HM`. -/
def HM (sqrt : F → F) (parts : List ((Fin N → F) → Fin N → F)) (size restart : Nat) (w : Nat → (Fin N → F) → Fin N → F)
    (v0 : Fin N → F) (i j : Nat) : F :=
  hm sqrt size restart (fun i => (basis sqrt parts size restart w v0 j).getD i 0) (avj sqrt parts size restart w v0 j) i j

/-- mpi_v1.py 202: `x0 += ym.T @ Vm` (for LGMRES the vectors `w j v_j` are combined). -/
def update (sqrt : F → F) (parts : List ((Fin N → F) → Fin N → F)) (size restart : Nat) (w : Nat → (Fin N → F) → Fin N → F)
    (v0 x0 : Fin N → F) (ym : Nat → F) : Fin N → F :=
  fun x => x0 x + ((List.range restart).map fun j =>
    ym j * w j ((basis sqrt parts size restart w v0 (restart - 1)).getD j 0) x).sum

/-- mpi_v1.py 195-200: `HMT @ HM @ ym = HMT[:, 0] * beta`, the equations that `np.linalg.solve` solves. -/
def NormalEq (restart : Nat) (H : Nat → Nat → F) (beta : F) (ym : Nat → F) : Prop :=
  ∀ c, c < restart → ∑ d ∈ Finset.range restart, (∑ i ∈ Finset.range (restart + 1), H i c * H i d) * ym d = H 0 c * beta

end cycle

end Mifem.Krylov
