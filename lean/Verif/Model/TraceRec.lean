import Verif.Model.TraceDisc
import Verif.Model.Metric

/-!
# Reconstruction and mass matrices on trace elements (3D)

Python sources (below /repo/objects/CSCG/_3d):
* `spaces/base/do.py` lines 196-267 (basis functions on the sides, grids of the sides)
* `mesh/trace/elements/main.py` lines 343-367 (three coordinates are used as they are),
  `mesh/trace/elements/element/coordinate_transformation/main.py` lines 91-168
* `forms/trace/_0tr/main.py` lines 111-188, `_1tr/main.py` lines 84-255, `_2tr/main.py` lines 88-192
* `forms/localTrace/_0ltf/main.py` lines 65-245, `_0ltf/reconstruct.py` lines 43-94, 187-213, `_2ltf/main.py` lines 64-250,
  `_2ltf/reconstruct.py` lines 43-104, 170-225
* `ADF/trace/base/main.py` lines 51-93
* `forms/trace/base/error.py` lines 30-92

Numbers are real (no rounding).  `x / 0` is `0` here.  A trace element is looked at from its characteristic element `e` and
side `s`; the cochain of a trace element is a function of the index, which is read below the number of basis functions only
(the assertions on the length of the cochain, `_1tr/main.py` 134, 141, 148, are left out).
-/

namespace Mifem.TraceRec
open Mifem.Basis Mifem.Metric Mifem.TraceDisc Mifem.Three

variable (nx ny nz xs ys zs : List ℝ)

/-- do.py 215-224: the points of the grid of a side, `meshgrid(...)` with one array of one point, `ravel('F')`. -/
def grid : Side → Nat → Fin 3 → ℝ
  | .N, m => ![-1, ys.getD (m % ys.length) 0, zs.getD (m / ys.length) 0]
  | .S, m => ![1, ys.getD (m % ys.length) 0, zs.getD (m / ys.length) 0]
  | .W, m => ![xs.getD (m % xs.length) 0, -1, zs.getD (m / xs.length) 0]
  | .E, m => ![xs.getD (m % xs.length) 0, 1, zs.getD (m / xs.length) 0]
  | .B, m => ![xs.getD (m % xs.length) 0, ys.getD (m / xs.length) 0, -1]
  | .F, m => ![xs.getD (m % xs.length) 0, ys.getD (m / xs.length) 0, 1]

/-- do.py 230-236, 260-265: the basis functions of a 0-trace. -/
noncomputable def tb0 : Side → Arr ℝ
  | .N | .S => kron (nodeBasis nz zs) (nodeBasis ny ys)
  | .W | .E => kron (nodeBasis nz zs) (nodeBasis nx xs)
  | .B | .F => kron (nodeBasis ny ys) (nodeBasis nx xs)

/-- do.py 237-246, 260-265: the two families of basis functions of a 1-trace. -/
noncomputable def tb1 : Side → Fin 2 → Arr ℝ
  | .N | .S => ![kron (nodeBasis nz zs) (edgeBasis ny ys), kron (edgeBasis nz zs) (nodeBasis ny ys)]
  | .W | .E => ![kron (nodeBasis nz zs) (edgeBasis nx xs), kron (edgeBasis nz zs) (nodeBasis nx xs)]
  | .B | .F => ![kron (nodeBasis ny ys) (edgeBasis nx xs), kron (edgeBasis ny ys) (nodeBasis nx xs)]

/-- do.py 247-253, 260-265: the basis functions of a 2-trace. -/
noncomputable def tb2 : Side → Arr ℝ
  | .N | .S => kron (edgeBasis nz zs) (edgeBasis ny ys)
  | .W | .E => kron (edgeBasis nz zs) (edgeBasis nx xs)
  | .B | .F => kron (edgeBasis ny ys) (edgeBasis nx xs)

/-- `qw['NS']`, `qw['WE']`, `qw['BF']` (`_1tr/main.py` 195-198, `_0tr/main.py` 152-155): `np.kron` of the weights. -/
def qw (wx wy wz : List ℝ) : Side → Nat → ℝ
  | .N, m | .S, m => wz.getD (m / wy.length) 0 * wy.getD (m % wy.length) 0
  | .W, m | .E, m => wz.getD (m / wx.length) 0 * wx.getD (m % wx.length) 0
  | .B, m | .F, m => wy.getD (m / wx.length) 0 * wx.getD (m % wx.length) 0

variable (e : Disc.Three.El ℝ) (s : Side)

/-- coordinate_transformation/main.py 98-114, for three coordinates. -/
def jacAt (x : Fin 3 → ℝ) (c : Fin 3) : Fin 2 → ℝ :=
  match s with
  | .N | .S => ![e.J x c 1, e.J x c 2]
  | .W | .E => ![e.J x c 2, e.J x c 0]
  | .B | .F => ![e.J x c 0, e.J x c 1]

/-- coordinate_transformation/main.py 136-147 (`metric_matrix`). -/
def gramAt (x : Fin 3 → ℝ) (i j : Fin 2) : ℝ :=
  jacAt e s x 0 i * jacAt e s x 0 j + jacAt e s x 1 i * jacAt e s x 1 j + jacAt e s x 2 i * jacAt e s x 2 j

/-- coordinate_transformation/main.py 164-168 (`metric`). -/
def metricAt (x : Fin 3 → ℝ) : ℝ := gramAt e s x 0 0 * gramAt e s x 1 1 - gramAt e s x 0 1 * gramAt e s x 1 0

/-- coordinate_transformation/main.py 116-134 (`inverse_Jacobian_matrix`): two rows of the inverse of the element. -/
noncomputable def iJAt (x : Fin 3 → ℝ) : Fin 2 → Fin 3 → ℝ :=
  let iJ := Metric.Three.inverse (e.J x)
  match s with
  | .N | .S => ![iJ 1, iJ 2]
  | .W | .E => ![iJ 2, iJ 0]
  | .B | .F => ![iJ 0, iJ 1]

/-- coordinate_transformation/main.py 150-160 (`inverse_metric_matrix`). -/
noncomputable def iGAt (x : Fin 3 → ℝ) (i j : Fin 2) : ℝ :=
  iJAt e s x i 0 * iJAt e s x j 0 + iJAt e s x i 1 * iJAt e s x j 1 + iJAt e s x i 2 * iJAt e s x j 2

/-! ## Reconstruction -/

/-- `_0tr/main.py` 123-126, `_0ltf/reconstruct.py` 74-86. -/
noncomputable def rec0 (c : Nat → ℝ) (m : Nat) : ℝ := einsum (tb0 nx ny nz xs ys zs s) c m

/-- `_1tr/main.py` 108-116: the number of dofs of the first family. -/
def num1 : Nat :=
  let px := nx.length - 1; let py := ny.length - 1; let pz := nz.length - 1
  match s with
  | .N | .S => py * (pz + 1)
  | .W | .E => px * (pz + 1)
  | .B | .F => px * (py + 1)

/-- `_1tr/main.py` 129-162: on the sides `W`, `E` the rows of the inverse are exchanged. -/
noncomputable def rec1 (c : Nat → ℝ) (m : Nat) : Fin 3 → ℝ :=
  let iJ := iJAt e s (grid xs ys zs s m)
  let v0 := einsum (tb1 nx ny nz xs ys zs s 0) c m
  let v1 := einsum (tb1 nx ny nz xs ys zs s 1) (slice c (num1 nx ny nz s)) m
  match s with
  | .W | .E => fun j => v0 * iJ 1 j + v1 * iJ 0 j
  | _ => fun j => v0 * iJ 0 j + v1 * iJ 1 j

/-- `_2ltf/reconstruct.py` 77-97: `np.einsum('i, j, ij -> j', c, 1/np.sqrt(g), b)` on side `s` of an element; the metric `g` is
that of the trace element, whose characteristic element and side are `e` and `t`, at the three coordinates of the grid of
side `s` (line 84). -/
noncomputable def ltRec2 (t : Side) (c : Nat → ℝ) (m : Nat) : ℝ :=
  ((List.range (tb2 nx ny nz xs ys zs s).rows).map fun i =>
    c i * (1 / Real.sqrt (metricAt e t (grid xs ys zs s m))) * (tb2 nx ny nz xs ys zs s).e i m).sum

/-- `_2tr/main.py` 118-131: the same for the characteristic side. -/
noncomputable def rec2 (c : Nat → ℝ) (m : Nat) : ℝ := ltRec2 nx ny nz xs ys zs e s s c m

/-- `reshape((jj, kk), order='F')` of a raveled array: entry `[j, k]` (`_1tr/main.py` 167-182). -/
def unravel {α : Type _} (s : Side) (v : Nat → α) (j k : Nat) : α :=
  match s with
  | .N | .S => v (fIdx2 ys.length j k)
  | _ => v (fIdx2 xs.length j k)

/-! ## Mass matrices of trace elements -/

/-- `np.einsum('im, jm, m -> ij', b, b', f)`. -/
def wsum (b b' : Arr ℝ) (f : Nat → ℝ) (i j : Nat) : ℝ := ((List.range b.cols).map fun m => b.e i m * b'.e j m * f m).sum

/-- `_0ltf/main.py` 198-217: the matrix of side `s` of an element, with the metric of the trace element (characteristic element
`e`, side `t`) at the three coordinates of the grid of side `s` (line 199). -/
noncomputable def ltMass0 (t : Side) (q : Nat → ℝ) (i j : Nat) : ℝ :=
  wsum (tb0 nx ny nz xs ys zs s) (tb0 nx ny nz xs ys zs s) (fun m => Real.sqrt (metricAt e t (grid xs ys zs s m)) * q m) i j

/-- `_0tr/main.py` 161-185. -/
noncomputable def mass0 (q : Nat → ℝ) (i j : Nat) : ℝ := ltMass0 nx ny nz xs ys zs e s s q i j

/-- `_2ltf/main.py` 197-224. -/
noncomputable def ltMass2 (t : Side) (q : Nat → ℝ) (i j : Nat) : ℝ :=
  wsum (tb2 nx ny nz xs ys zs s) (tb2 nx ny nz xs ys zs s) (fun m => (Real.sqrt (metricAt e t (grid xs ys zs s m)))⁻¹ * q m) i j

/-- `_2tr/main.py` 165-188. -/
noncomputable def mass2 (q : Nat → ℝ) (i j : Nat) : ℝ := ltMass2 nx ny nz xs ys zs e s s q i j

/-- `_1tr/main.py` 225-241: the entry of the inverse metric of a family of basis functions; exchanged on `W`, `E`. -/
def fam : Side → Fin 2 → Fin 2
  | .W | .E => fun a => 1 - a
  | _ => fun a => a

/-- `_1tr/main.py` 213-248.  `orth` is `mark[:5] == 'Orth.'`; then the mixed blocks are zero. -/
noncomputable def mass1 (orth : Bool) (q : Nat → ℝ) (i j : Nat) : ℝ :=
  let sg := fun m => Real.sqrt (metricAt e s (grid xs ys zs s m))
  let iG := fun m => iGAt e s (grid xs ys zs s m)
  let b := tb1 nx ny nz xs ys zs s
  let M := fun a a' : Fin 2 => wsum (b a) (b a') fun m => sg m * iG m (fam s a) (fam s a') * q m
  let M01 := fun i j => if orth then 0 else M 0 1 i j
  bmat2 (b 0).rows (b 0).rows (fun a a' i j =>
    if a = a' then M a a' i j else if a = 0 then M01 i j else M01 j i) i j

/-! ## Mass matrices of local traces, and of dual traces -/

/-- `rdi_sides` of `_0ltf/reconstruct.py` 190-201: the transposed basis functions. -/
noncomputable def recMat0 : Arr ℝ :=
  ⟨(tb0 nx ny nz xs ys zs s).cols, (tb0 nx ny nz xs ys zs s).rows, fun v i => (tb0 nx ny nz xs ys zs s).e i v⟩

/-- `_2ltf/reconstruct.py` 190-206. -/
noncomputable def recMat2 (t : Side) : Arr ℝ :=
  ⟨(tb2 nx ny nz xs ys zs s).cols, (tb2 nx ny nz xs ys zs s).rows, fun v i =>
    1 / Real.sqrt (metricAt e t (grid xs ys zs s v)) * (tb2 nx ny nz xs ys zs s).e i v⟩

/-- `_0ltf/main.py` 75-83, `_2ltf/main.py` 73-81: `np.meshgrid(quad_nodes[a], quad_nodes[b], indexing='ij')`, `ravel('F')`. -/
def grid2 : Side → Nat → ℝ × ℝ
  | .N, m | .S, m => (ys.getD (m % ys.length) 0, zs.getD (m / ys.length) 0)
  | .W, m | .E, m => (xs.getD (m % xs.length) 0, zs.getD (m / xs.length) 0)
  | .B, m | .F, m => (xs.getD (m % xs.length) 0, ys.getD (m / xs.length) 0)

/-- `np.einsum('vi, vj, v, v -> ij', R, R, np.sqrt(g), QW)` (`_0ltf/main.py` 114-134, `_2ltf/main.py` 111-132).  Here the metric
of the trace element (characteristic element `e`, side `t`) is evaluated at two coordinates. -/
noncomputable def brutal (t : Side) (R : Arr ℝ) (q : Nat → ℝ) (i j : Nat) : ℝ :=
  ((List.range R.rows).map fun v => R.e v i * R.e v j *
    Real.sqrt (metric e t (grid2 xs ys zs s v).1 (grid2 xs ys zs s v).2) * q v).sum

/-- `bmat` of six blocks on the diagonal (`_0ltf/main.py` 222-233, `ADF/trace/base/main.py` 80-85): the sizes of the blocks and
their entries. -/
def diag6 : List (Nat × (Nat → Nat → ℝ)) → Nat → Nat → ℝ
  | [], _, _ => 0
  | (n, M) :: L, i, j => if i < n ∧ j < n then M i j else if n ≤ i ∧ n ≤ j then diag6 L (i - n) (j - n) else 0

/-- `local_cache` (`_1tr/main.py` 202-253, `ADF/trace/base/main.py` 63-90): the objects one after the other, each with its mark
(`none` for marks that are not strings) and the value that would be computed for it. -/
def cached {κ α : Type _} [DecidableEq κ] : List (Option κ × α) → List (κ × α) → List α
  | [], _ => []
  | (none, v) :: L, d => v :: cached L d
  | (some k, v) :: L, d =>
    match d.lookup k with
    | some v' => v' :: cached L d
    | none => v :: cached L ((k, v) :: d)

/-! ## Maximum-norm error -/

/-- error.py 35: the number of components that are compared. -/
def comps (k : Nat) : Nat := if k = 0 then 1 else 2

/-- error.py 70-76: the error in one trace element, `none` for an index error; `v` and `f` hold the values of the components of
the reconstruction and of the function at the grid.  The maximum over the grid is taken with start value 0 (the values
are absolute). -/
noncomputable def errorAt (k : Nat) (v f : List (List ℝ)) : Option ℝ :=
  ((List.range (comps k)).mapM fun m => do
    let vm ← v[m]?
    let fm ← f[m]?
    pure ((List.zipWith (fun a b => |a - b|) vm fm).foldl max 0)).map fun l : List ℝ => l.foldl max 0

/-- error.py 67-78: the largest error of the trace elements of one core, starting from `-1`. -/
noncomputable def localError (k : Nat) (L : List (List (List ℝ) × List (List ℝ))) : Option ℝ :=
  L.foldlM (fun acc t => (errorAt k t.1 t.2).map fun x => if acc < x then x else acc) (-1)

/-- error.py 80-87: the maximum over the cores. -/
noncomputable def globalError (k : Nat) (cores : List (List (List (List ℝ) × List (List ℝ)))) : Option ℝ :=
  (cores.mapM (localError k)).map fun l => l.foldl max (-1)

end Mifem.TraceRec
