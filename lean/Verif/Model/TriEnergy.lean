import Verif.Model.TriMass
import Verif.Model.Norms

/-!
# Energies, errors, inner products and triple products on triangular meshes

Python sources (in `/repo/objects/miUsGrid/triangular`):
* `forms/standard/base/do.py` lines 128-217
* `forms/standard/base/error.py` lines 23-98
* `forms/standard/_0/base/operators/{main,helpers/inner}.py`, `forms/standard/_2/base/operators/{main,helpers/inner}.py`,
  `forms/standard/_1/{inner,outer}/operators/{main,helpers/inner}.py`
* `forms/standard/_0/base/do/main.py` lines 26-54, `forms/standard/_0/base/do/helpers/_0x1_ip_1.py`
* `space/evaluation.py` lines 26-46 (`quadrature`)

Numbers are exact.  The quadrature degree is the same in both directions; `gauss d` is the rule of degree `d`.
-/

namespace Mifem.Tri

open Mifem.Basis Mifem.Metric

/-- The standard forms: 0-forms, inner and outer 1-forms, 2-forms. -/
inductive Kind where
  | zero
  | inner
  | outer
  | two
deriving DecidableEq

/-- The number of components that are read (`do.py` 152 and 159, `error.py` 34). -/
def Kind.comps : Kind → Nat
  | .zero => 1
  | .inner => 2
  | .outer => 2
  | .two => 1

section
variable {K : Type*} [Field K]

/-- A form in one element: vertices, diagonal of the transition matrix and `cochain.local[i]`. -/
structure FormElt (K : Type*) where
  pts : Fin 3 → K × K
  T : Nat → Int
  w : Nat → K

/-- `f.reconstruct(xs, ys, ravel=True)[1][i][m]` at the point `c`. -/
def values (k : Kind) (p : Nat) (nodes : List K) (xs ys : List K) (e : FormElt K) (m c : Nat) : K :=
  match k with
  | .zero => recon0 nodes xs ys e.w c
  | .inner => reconInner p nodes e.T e.pts xs ys e.w c (if m = 0 then 0 else 1)
  | .outer => reconOuter p nodes e.T e.pts xs ys e.w c (if m = 0 then 0 else 1)
  | .two => recon2 nodes e.pts xs ys e.w c

/-- `do.py` 151-164, one element. -/
def elementEnergy (n : Nat) (k : Kind) (p : Nat) (nodes : List K) (r : Disc.Rule K) (e : FormElt K) : K :=
  let xs := Vortex.rpts r
  ((List.range (xs.length * xs.length)).map fun m =>
    ((List.range k.comps).map fun i => values k p nodes xs xs e i m ^ n).sum *
      Quadrature.ravelWeight [r, r] m * Metric.Two.jacobian (gridJ e.pts xs xs m)).sum

/-- `compute_Ln_energy` (`do.py` 128-168): `n` below 1 raises; `d` is the parameter `quad_degree`. -/
def lnEnergy (gauss : Nat → Disc.Rule K) (n : Nat) (k : Kind) (p : Nat) (nodes : List K) (d : Option Nat)
    (cores : List (List (FormElt K))) : Option K :=
  if n = 0 then none
  else
    let r := gauss (d.getD (p + 1))
    some (cores.map fun es => (es.map (elementEnergy n k p nodes r)).sum).sum

/-! ## `operators.inner`

`d` is the degree `self.space.p + 1`; the first basis is that of `self`, the second that of `other`.  Nothing is checked
about `other`. -/

/-- `_0/base/operators/main.py` 25-34, helpers/inner.py 29-39. -/
def opZero (gauss : Nat → Disc.Rule K) (p : Nat) (nodes nodesO : List K) (pts : Fin 3 → K × K) (i j : Nat) : K :=
  let r := gauss (p + 1)
  let xs := Vortex.rpts r
  let q := Quadrature.ravelWeight [r, r]
  let bf := basisS0 nodes xs xs
  let ofb := basisS0 nodesO xs xs
  ((List.range ofb.cols).map fun m => bf.e i m * ofb.e j m * (Metric.Two.jacobian (gridJ pts xs xs m) * q m)).sum

/-- `_2/base/operators/main.py` 25-34, helpers/inner.py 27-37. -/
def opTwo (gauss : Nat → Disc.Rule K) (p : Nat) (nodes nodesO : List K) (pts : Fin 3 → K × K) (i j : Nat) : K :=
  let r := gauss (p + 1)
  let xs := Vortex.rpts r
  let q := Quadrature.ravelWeight [r, r]
  let bf := basisS2 nodes xs xs
  let ofb := basisS2 nodesO xs xs
  ((List.range ofb.cols).map fun m => bf.e i m * ofb.e j m * ((Metric.Two.jacobian (gridJ pts xs xs m))⁻¹ * q m)).sum

/-- Orientation of a 1-form. -/
inductive Orient where
  | inner
  | outer
deriving DecidableEq

/-- `evaluate_basis_at_meshgrid` of a 1-form. -/
def basisOne (o : Orient) (nodes : List K) (T : Nat → Int) (xs ys : List K) : Arr K × Arr K :=
  match o with
  | .inner => basisInner nodes T xs ys
  | .outer => basisOuter nodes T xs ys

/-- `_1/inner/operators/main.py` 25-34 and helpers/inner.py 27-47; `_1/outer/operators/main.py` 25-34 and
helpers/inner.py 27-47: `o` is the orientation of `self`, `o'` that of `other`. -/
def opOne (gauss : Nat → Disc.Rule K) (p : Nat) (o o' : Orient) (nodes nodesO : List K) (T T' : Nat → Int)
    (pts : Fin 3 → K × K) (i j : Nat) : K :=
  let r := gauss (p + 1)
  let xs := Vortex.rpts r
  let q := Quadrature.ravelWeight [r, r]
  let bf := basisOne o nodes T xs xs
  let ofb := basisOne o' nodesO T' xs xs
  let sg := fun m => Metric.Two.jacobian (gridJ pts xs xs m)
  let g := fun m => Metric.Two.inverseMetricMatrix (Metric.Two.inverse (gridJ pts xs xs m))
  match o with
  | .inner =>
    let M00 := gram (fun m => q m * (sg m * g m 0 0)) bf.1 ofb.1
    let M11 := gram (fun m => q m * (sg m * g m 1 1)) bf.2 ofb.2
    let M01 := gram (fun m => q m * (sg m * g m 0 1)) bf.1 ofb.2
    let M10 := gram (fun m => q m * (sg m * g m 1 0)) bf.2 ofb.1
    bmat2 bf.1.rows ofb.1.rows ![![M00, M01], ![M10, M11]] i j
  | .outer =>
    let M00 := gram (fun m => q m * (sg m * g m 1 1)) bf.1 ofb.1
    let M11 := gram (fun m => q m * (sg m * g m 0 0)) bf.2 ofb.2
    let M01 := gram (fun m => q m * (-sg m * g m 1 0)) bf.1 ofb.2
    let M10 := gram (fun m => q m * (-sg m * g m 0 1)) bf.2 ofb.1
    bmat2 bf.1.rows ofb.1.rows ![![M00, M01], ![M10, M11]] i j

/-- `a @ M @ b` with `n` rows and `m` columns. -/
def bilinear (n m : Nat) (M : Nat → Nat → K) (a b : Nat → K) : K :=
  ((List.range n).map fun i => ((List.range m).map fun j => a i * M i j * b j).sum).sum

/-- `compute_L2_energy_with` (`do.py` 181-202) for given matrices: `M e` is a matrix of `n` rows and `m` columns. -/
def energyWith {ι : Type*} (n m : Nat) (M : ι → Nat → Nat → K) (a b : ι → Nat → K) (cores : List (List ι)) : K :=
  (cores.map fun es => if es.length = 0 then 0 else (es.map fun e => bilinear n m (M e) (a e) (b e)).sum).sum

/-! ## Triple products -/

/-- The reconstruction matrices of a 1-form. -/
def rmOne (o : Orient) (nodes : List K) (T : Nat → Int) (pts : Fin 3 → K × K) (xs ys : List K) : Arr K × Arr K :=
  match o with
  | .inner => rmInner nodes T pts xs ys
  | .outer => rmOuter nodes T pts xs ys

/-- _0x1_ip_1.py 82-95: `CP_IP_3dM_i_[i, j, k]`. -/
def triple (nodesW nodesU nodesE : List K) (oU oE : Orient) (TU TE : Nat → Int) (pts : Fin 3 → K × K) (r : Disc.Rule K)
    (i j k : Nat) : K :=
  let xs := Vortex.rpts r
  let w := rm0 nodesW xs xs
  let u := rmOne oU nodesU TU pts xs xs
  let a := rmOne oE nodesE TE pts xs xs
  let c := fun l => Quadrature.ravelWeight [r, r] l * Metric.Two.jacobian (gridJ pts xs xs l);
  -((List.range w.rows).map fun l => w.e l i * u.2.e l j * a.1.e l k * c l).sum +
    ((List.range w.rows).map fun l => w.e l i * u.1.e l j * a.2.e l k * c l).sum

/-- _0x1_ip_1.py 46-50: the rule of degree `2 * max`. -/
def tripleRule (gauss : Nat → Disc.Rule K) (pW pU pE : Nat) : Disc.Rule K := gauss (max pU (max pW pE) * 2)

/-- _0x1_ip_1.py 102-105: entry of the matrix in row `k`, column `i`; `n` is the number of dofs of `u1`. -/
def twoM0 (n : Nat) (M : Nat → Nat → Nat → K) (u : Nat → K) (k i : Nat) : K := ((List.range n).map fun j => M i j k * u j).sum

/-- _0x1_ip_1.py 107-110; `n` is the number of dofs of `w0`. -/
def twoM1 (n : Nat) (M : Nat → Nat → Nat → K) (w : Nat → K) (k j : Nat) : K := ((List.range n).map fun i => M i j k * w i).sum

end

/-! _0x1_ip_1.py 69-100: the tensors are kept under the key of `u1` (or always computed, without a key).  This is the
same procedure as `ctGet` without intermediate data. -/

/-- The tensors of the elements read in turn; `M e` is what is computed for element `e`, `ees` are the edges of the
transition of `u1`. -/
def tripleReads {β : Type} (pts : Nat → Fin 3 → ℚ × ℚ) (E : List Nat) (ees : Nat → List (Fin 3)) (M : Nat → β) (is : List Nat) :
    Option (List β) :=
  ctReads (γ := Unit) (oneKey pts E ees) M none is []

/-! ## Norms and errors -/

/-- The values at the quadrature points, and those of `f` at the same points (`error.py` 37-51). -/
noncomputable def errElt (k : Kind) (p : Nat) (nodes : List ℝ) (r : Disc.Rule ℝ) (f : Nat → (Fin 2 → ℝ) → ℝ) (e : FormElt ℝ) : Norms.Elt :=
  let xs := Vortex.rpts r
  ⟨values k p nodes xs xs e,
    fun m c => f m (mapping e.pts ![(Basis.Two.meshgrid xs xs c).1, (Basis.Two.meshgrid xs xs c).2]),
    fun c => Metric.Two.jacobian (gridJ e.pts xs xs c)⟩

/-- `compute_Ln_norm` (`do.py` 170-178). -/
noncomputable def triNorm (gauss : Nat → Disc.Rule ℝ) (n : Nat) (k : Kind) (p : Nat) (nodes : List ℝ) (d : Option Nat)
    (cores : List (List (FormElt ℝ))) : Norms.Out :=
  match lnEnergy gauss n k p nodes d cores with
  | none => .raise
  | some x => Norms.npRoot x n

/-- `error.L` (`error.py` 23-65): the default degree is `p + 2`. -/
noncomputable def triErrorL (gauss : Nat → Disc.Rule ℝ) (n : Nat) (k : Kind) (p : Nat) (nodes : List ℝ) (d : Option Nat)
    (f : Nat → (Fin 2 → ℝ) → ℝ) (cores : List (List (FormElt ℝ))) : Norms.Out :=
  let r := gauss (d.getD (p + 2))
  let xs := Vortex.rpts r
  Norms.errorL2d n k.comps (xs.length * xs.length) (Quadrature.ravelWeight [r, r]) false
    (cores.map fun es => es.map (errElt k p nodes r f))

/-- The coboundary of an inner 0-form in one element (C97); `T'` is the transition of the 1-form. -/
def gradElt {K : Type*} [Field K] (p : Nat) (T' : Nat → Int) (e : FormElt K) : FormElt K :=
  ⟨e.pts, T', coboundary0 (num0 p) (setAll (gradInner p)) T' e.w⟩

/-- `error.H` (`error.py` 67-98) of an inner 0-form with given `d_func`; `T' e` is the transition of the inner 1-forms in the
element. -/
noncomputable def triErrorH (gauss : Nat → Disc.Rule ℝ) (p : Nat) (nodes : List ℝ) (d : Option Nat) (f : Nat → (Fin 2 → ℝ) → ℝ)
    (df : Nat → (Fin 2 → ℝ) → ℝ) (cores : List (List (FormElt ℝ × (Nat → Int)))) : Norms.Out :=
  Norms.hError (triErrorL gauss 2 .zero p nodes d f (cores.map fun es => es.map Prod.fst))
    (triErrorL gauss 2 .inner p nodes d df (cores.map fun es => es.map fun e => gradElt p e.2 e.1))

end Mifem.Tri
