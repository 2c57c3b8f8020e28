import Verif.Model.TriRec
import Verif.Model.Marks
import Verif.Model.Quadrature
import Verif.Model.Vortex

/-!
# Mass matrices of forms on triangular meshes, and their caches

Python sources (in `/repo/objects/miUsGrid/triangular`):
* `forms/standard/_0/base/matrices/{main,helpers/inner}.py`, `forms/standard/_2/base/matrices/{main,helpers/inner}.py`,
  `forms/standard/_1/{inner,outer}/matrices/{main,helpers/inner}.py`
* `mesh/elements/element/main.py` lines 129-137 (`shape_indicator`), `mesh/elements/main.py` lines 105-154 (keys)
* `forms/standard/base/main.py` lines 49-68 (keys of 1-forms)
* `mesh/elements/coordinate_transformation/helpers/cache.py`

Numbers are exact (in the keys: rational).  `xs`, `ys` are the quadrature nodes and `q` the raveled weights
(`Quad.quad_ndim_ravel[-1]`, see `Quadrature.ravelWeight`); the sparse format of the matrices is left out.
-/

namespace Mifem.Tri

open Mifem.Basis Mifem.Metric

section
variable {K : Type*} [Field K]

/-- The Jacobian matrix at the `m`-th point of the raveled grid (helpers/inner.py 29; element/coordinate_transformation/main.py 75-80). -/
def gridJ (pts : Fin 3 → K × K) (xs ys : List K) (m : Nat) : M2 K :=
  jacobianMatrix pts ![(Basis.Two.meshgrid xs ys m).1, (Basis.Two.meshgrid xs ys m).2]

/-- _0/base/matrices/helpers/inner.py 26-36. -/
def mass0 (nodes : List K) (pts : Fin 3 → K × K) (xs ys : List K) (q : Nat → K) (i j : Nat) : K :=
  let bf := basisS0 nodes xs ys
  ((List.range bf.cols).map fun m => bf.e i m * bf.e j m * (Metric.Two.jacobian (gridJ pts xs ys m) * q m)).sum

/-- _2/base/matrices/helpers/inner.py 26-36. -/
def mass2 (nodes : List K) (pts : Fin 3 → K × K) (xs ys : List K) (q : Nat → K) (i j : Nat) : K :=
  let bf := basisS2 nodes xs ys
  ((List.range bf.cols).map fun m => bf.e i m * bf.e j m * ((Metric.Two.jacobian (gridJ pts xs ys m))⁻¹ * q m)).sum

/-- _1/inner/matrices/helpers/inner.py 26-46; `T` is the transition matrix of the element. -/
def massInner (nodes : List K) (T : Nat → Int) (pts : Fin 3 → K × K) (xs ys : List K) (q : Nat → K) (i j : Nat) : K :=
  let bf := basisInner nodes T xs ys
  let sg := fun m => Metric.Two.jacobian (gridJ pts xs ys m)
  let g := fun m => Metric.Two.inverseMetricMatrix (Metric.Two.inverse (gridJ pts xs ys m))
  let M00 := gram (fun m => q m * (sg m * g m 0 0)) bf.1 bf.1
  let M11 := gram (fun m => q m * (sg m * g m 1 1)) bf.2 bf.2
  let M01 := gram (fun m => q m * (sg m * g m 0 1)) bf.1 bf.2
  bmat2 bf.1.rows bf.1.rows ![![M00, M01], ![fun i j => M01 j i, M11]] i j

/-- _1/outer/matrices/helpers/inner.py 26-46. -/
def massOuter (nodes : List K) (T : Nat → Int) (pts : Fin 3 → K × K) (xs ys : List K) (q : Nat → K) (i j : Nat) : K :=
  let bf := basisOuter nodes T xs ys
  let sg := fun m => Metric.Two.jacobian (gridJ pts xs ys m)
  let g := fun m => Metric.Two.inverseMetricMatrix (Metric.Two.inverse (gridJ pts xs ys m))
  let M00 := gram (fun m => q m * (sg m * g m 1 1)) bf.1 bf.1
  let M11 := gram (fun m => q m * (sg m * g m 0 0)) bf.2 bf.2
  let M01 := gram (fun m => q m * (-sg m * g m 1 0)) bf.1 bf.2
  bmat2 bf.1.rows bf.1.rows ![![M00, M01], ![fun i j => M01 j i, M11]] i j

/-! `matrices/main.py` 29-39 of 0- and 2-forms, 29-38 of 1-forms: the quadrature is Gauss of degree `p + 1` (`gauss d` is the
rule of degree `d`) in both directions. -/

/-- 0-forms. -/
def massZero (gauss : Nat → Disc.Rule K) (p : Nat) (nodes : List K) (pts : Fin 3 → K × K) : Nat → Nat → K :=
  let r := gauss (p + 1)
  mass0 nodes pts (Vortex.rpts r) (Vortex.rpts r) (Quadrature.ravelWeight [r, r])

/-- Inner 1-forms. -/
def massOneInner (gauss : Nat → Disc.Rule K) (p : Nat) (nodes : List K) (T : Nat → Int) (pts : Fin 3 → K × K) :
    Nat → Nat → K :=
  let r := gauss (p + 1)
  massInner nodes T pts (Vortex.rpts r) (Vortex.rpts r) (Quadrature.ravelWeight [r, r])

/-- Outer 1-forms. -/
def massOneOuter (gauss : Nat → Disc.Rule K) (p : Nat) (nodes : List K) (T : Nat → Int) (pts : Fin 3 → K × K) :
    Nat → Nat → K :=
  let r := gauss (p + 1)
  massOuter nodes T pts (Vortex.rpts r) (Vortex.rpts r) (Quadrature.ravelWeight [r, r])

/-- 2-forms. -/
def massTwo (gauss : Nat → Disc.Rule K) (p : Nat) (nodes : List K) (pts : Fin 3 → K × K) : Nat → Nat → K :=
  let r := gauss (p + 1)
  mass2 nodes pts (Vortex.rpts r) (Vortex.rpts r) (Quadrature.ravelWeight [r, r])

end

/-! ## Keys -/

open Mifem.EWC (Key)

/-- Python's `'%.df' % x`; negative numbers that round to 0 keep their sign. -/
def fmtS (d : Nat) (x : ℚ) : Key := if x < 0 then '-' :: Marks.fmt d (-x) else Marks.fmt d x

/-- element/main.py 129-137. -/
def shapeKey (pts : Fin 3 → ℚ × ℚ) : Key :=
  [(pts 1).1 - (pts 0).1, (pts 2).1 - (pts 0).1, (pts 1).2 - (pts 0).2, (pts 2).2 - (pts 0).2].flatMap (fmtS 4)

/-- elements/main.py 105-128; `es` are the local elements. -/
def similarity (pts : Nat → Fin 3 → ℚ × ℚ) (es : List Nat) : ℚ :=
  if es.length ≤ 1 then 0
  else
    let types := (es.map fun e => shapeKey (pts e)).dedup.length
    (1 - (types : ℚ) / es.length) / (1 - 1 / es.length)

/-- elements/main.py 130-154: the key of an element; `none` for `'no_cache'`. -/
def elementKey (pts : Nat → Fin 3 → ℚ × ℚ) (es : List Nat) : Option (Nat → Key) :=
  if 1 / 2 ≤ similarity pts es then some fun e => shapeKey (pts e) else none

/-- `str(_)` of the number of an edge. -/
def edgeStr : Fin 3 → Char := ![ '0', '1', '2' ]

/-- forms/standard/base/main.py 60-68 and _1/base/IDT.py 49-68; `ees e` are the edges of `EEs[e]` (no entry if empty). -/
def oneKey (pts : Nat → Fin 3 → ℚ × ℚ) (es : List Nat) (ees : Nat → List (Fin 3)) : Option (Nat → Key) :=
  (elementKey pts es).map fun k e => if ees e = [] then k e else k e ++ '-' :: (ees e).map edgeStr

/-- The mass matrix as an EWC object: `'no_cache'` gives the key `'>NC<'` for every element
(`tools/elementwiseCache/dataStructures/objects/sparseMatrix/main.py` 246-247). -/
def massObject {β : Type} (M : Nat → β) (key : Option (Nat → Key)) : EWC.Node β :=
  match key with
  | none => EWC.ncLeaf M
  | some k => .leaf M k

/-! ## The cache of the coordinate transformation -/

/-- coordinate_transformation/helpers/cache.py 58-86: the value for an element, and the dictionary after it.  `f e d` is
the method of the element, `d` the intermediate data; `itm` is the cache of the intermediate data (its own dictionary is
left out).  The method has no keyword `item`, so that the call with intermediate data raises `TypeError` (`none`). -/
def ctGet {β γ : Type} (key : Option (Nat → Key)) (f : Nat → β) (itm : Option (Nat → γ)) (c : List (Key × β)) (e : Nat) :
    Option (β × List (Key × β)) :=
  match key with
  | none => some (f e, c)
  | some k => match c.lookup (k e) with
    | some v => some (v, c)
    | none => match itm with
      | none => some (f e, (k e, f e) :: c)
      | some _ => none

/-- Several reads. -/
def ctReads {β γ : Type} (key : Option (Nat → Key)) (f : Nat → β) (itm : Option (Nat → γ)) :
    List Nat → List (Key × β) → Option (List β)
  | [], _ => some []
  | e :: es, c => (ctGet key f itm c e).bind fun r => (ctReads key f itm es r.2).map (r.1 :: ·)

end Mifem.Tri
