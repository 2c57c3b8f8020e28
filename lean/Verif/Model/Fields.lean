import Verif.Model.Wrappers
import Verif.Model.Caches
import Verif.Model.CrossProduct

/-!
# Operations on scalar, vector and tensor fields

Python sources, below `/repo/objects`:
* `CSCG/_3d/fields/scalar/main.py` lines 57-81 and 188-344, `vector/main.py` lines 63-91, 198-220 and 302-425,
  `tensor/main.py` lines 154-268, with the helpers in `*/helpers/{add,sub,neg,mul}.py`
* `CSCG/_3d/fields/{scalar,vector,tensor}/numerical/main.py`, `vector/do/{cross,inner}_product/main.py`
* `CSCG/_3d/fields/vector/helpers/inner_product_with_{1,2}form.py`
* `CSCG/_2d/fields/scalar/main.py` lines 61-80 and 167-318, `vector/main.py` lines 73-95 and 188-313,
  `{scalar,vector}/numerical/main.py`, `scalar/do/cross_product`, `vector/do/inner_product`
* `miUsGrid/triangular/fields/{scalar,vector}/numerical/main.py`, `scalar/do/{cross,inner}_product.py`,
  `vector/do/inner_product.py`

The numerical differentiation operator is a parameter, as in `Model/ExactSolution`; `none` stands for an exception.  Names
of fields are left out.  A field that is not of type 'standard' holds a dictionary; all operations below refuse it, so
that its `func` is never looked at.
-/

namespace Mifem.Fields
open Mifem.ES Mifem.Wrap Mifem.Caches

/-- `ftype`. -/
inductive FType where
  | standard
  | boundaryWise
  | traceElementWise
  deriving DecidableEq

/-- The kinds of fields. -/
inductive Shape where
  | s
  | v
  | t
  deriving DecidableEq

/-- One object per component: `func[0]`, `func[i]`, `func[i][j]`. -/
def Comp (d : Nat) (A : Type) : Shape → Type
  | .s => A
  | .v => Fin d → A
  | .t => Fin d → Fin d → A

variable {d : Nat} {A B C F : Type}

/-- The same for all components. -/
def Comp.map (f : A → B) : {sh : Shape} → Comp d A sh → Comp d B sh
  | .s, a => f a
  | .v, a => fun i => f (a i)
  | .t, a => fun i j => f (a i j)

/-- Component by component. -/
def Comp.map2 (f : A → B → C) : {sh : Shape} → Comp d A sh → Comp d B sh → Comp d C sh
  | .s, a, b => f a b
  | .v, a, b => fun i => f (a i) (b i)
  | .t, a, b => fun i j => f (a i j) (b i j)

/-- A check that all components have to pass. -/
def Comp.all (p : A → Bool) : {sh : Shape} → Comp d A sh → Bool
  | .s, a => p a
  | .v, a => decide (∀ i, p (a i) = true)
  | .t, a => decide (∀ i j, p (a i j) = true)

/-- A field. -/
structure Fld (d : Nat) (F : Type) (sh : Shape) where
  ftype : FType
  func : Comp d (Call F) sh
  validTime : ValidTime ℝ

variable {sh : Shape}

/-! ## What the constructors accept -/

/-- What a user gives for one component. -/
inductive Raw (F : Type) where
  | number (c : ℝ)
  | call (c : Call F)
  | other

/-- `_3d/fields/vector/main.py` 78-90 and `scalar/main.py` 65-75: a number becomes a method with five arguments
(`CFG(fci)()`). -/
def checked3 : Raw Fn3 → Option (Call Fn3)
  | .number c => some ⟨.method 5, fun t x y z => c + 0 * t * x * y * z⟩
  | .call ⟨.function n, f⟩ => if 4 ≤ n then some ⟨.function n, f⟩ else none
  | .call ⟨.method n, f⟩ => if 5 ≤ n then some ⟨.method n, f⟩ else none
  | .call ⟨.object, f⟩ => some ⟨.object, f⟩
  | .other => none

/-- `_2d/fields/scalar/main.py` 68-79, `vector/main.py` 83-94 and the fields on triangles: the only number accepted is
zero, which becomes the function `_0t_` of three arguments. -/
noncomputable def checked2 : Raw Fn2 → Option (Call Fn2)
  | .number c => if c = 0 then some ⟨.function 3, fun t _ _ => 0 + 0 * t⟩ else none
  | .call ⟨.function n, f⟩ => if 3 ≤ n then some ⟨.function n, f⟩ else none
  | .call ⟨.method n, f⟩ => if 4 ≤ n then some ⟨.method n, f⟩ else none
  | .call ⟨.object, f⟩ => some ⟨.object, f⟩
  | .other => none

/-! ## The helper objects (3D and 2D) -/

/-- `_3d/fields/*/helpers/add.py` 9-10, `_2d/fields/scalar/helpers/add.py` 19-20. -/
def addH [Add F] (a b : Call F) : Call F := ⟨.object, a.f + b.f⟩
/-- `_3d/fields/*/helpers/sub.py` 9-10, `_2d/fields/scalar/helpers/sub.py` 20-21. -/
def subH [Sub F] (a b : Call F) : Call F := ⟨.object, a.f - b.f⟩
/-- `_3d/fields/*/helpers/neg.py` 8-9, `_2d/fields/scalar/helpers/neg.py` 19-20. -/
def negH [Neg F] (a : Call F) : Call F := ⟨.object, -a.f⟩
/-- `_3d/fields/scalar/helpers/mul.py` 17-18, `vector/helpers/mul.py` 17-18, `_2d/fields/scalar/helpers/mul.py` 17-18. -/
def numH [SMul ℝ F] (k : ℝ) (a : Call F) : Call F := ⟨.object, k • a.f⟩
/-- `_3d/fields/scalar/helpers/mul.py` 27-28, `_2d/fields/scalar/helpers/mul.py` 28-29, `.../cross_product/helpers/helper2.py`
16-17. -/
def mulH [Mul F] (a b : Call F) : Call F := ⟨.object, a.f * b.f⟩
/-- `_3d/fields/vector/do/cross_product/helpers/cp1.py` 11-12. -/
def crossH [Mul F] [Sub F] (a b c e : Call F) : Call F := ⟨.object, a.f * b.f - c.f * e.f⟩
/-- `_3d/fields/vector/do/inner_product/helpers/ip1.py` 22-25. -/
def innerH (a b : Fin 3 → Call Fn3) : Call Fn3 :=
  ⟨.object, (a 0).f * (b 0).f + (a 1).f * (b 1).f + (a 2).f * (b 2).f⟩
/-- `_3d/fields/vector/numerical/helpers/divergence.py` 10-11 and `tensor/numerical/helpers/div.py` 10-11. -/
def sumH [Add F] (a b c : Call F) : Call F := ⟨.object, a.f + b.f + c.f⟩

/-! ## Algebra -/

/-- A number with the name of its class. -/
structure Num where
  cls : String
  x : ℝ

/-- `other.__class__.__name__ in ('int', 'float', 'int64', 'int32')`. -/
def Num.accepted (k : Num) : Bool := ["int", "float", "int64", "int32"].contains k.cls

section
variable [Add F] [Sub F] [Neg F] [Mul F] [SMul ℝ F]

/-- `__neg__` (`_3d/fields/scalar/main.py` 188-205, `vector/main.py` 302-321, `tensor/main.py` 154-184,
`_2d/fields/scalar/main.py` 302-318, `vector/main.py` 296-313). -/
def neg (a : Fld d F sh) : Option (Fld d F sh) :=
  if a.ftype = .standard then some ⟨.standard, a.func.map negH, a.validTime⟩ else none

/-- `__add__` (`_3d/fields/scalar/main.py` 232-255, `vector/main.py` 350-375, `tensor/main.py` 228-268,
`_2d/fields/scalar/main.py` 253-275, `vector/main.py` 244-267). -/
def add (a b : Fld d F sh) : Option (Fld d F sh) :=
  if a.ftype = .standard ∧ b.ftype = .standard then some ⟨.standard, a.func.map2 addH b.func, a.validTime⟩ else none

/-- `__sub__` (`_3d/fields/scalar/main.py` 207-230, `vector/main.py` 323-348, `tensor/main.py` 186-226,
`_2d/fields/scalar/main.py` 277-300, `vector/main.py` 269-293). -/
def sub (a b : Fld d F sh) : Option (Fld d F sh) :=
  if a.ftype = .standard ∧ b.ftype = .standard then some ⟨.standard, a.func.map2 subH b.func, a.validTime⟩ else none

/-- `__mul__` and `__rmul__` with a number (`_3d/fields/scalar/main.py` 262-276 and 305-319, `vector/main.py` 379-395 and
405-421, `_2d/fields/scalar/main.py` 169-184 and 212-227, `vector/main.py` 190-207 and 217-234).  Tensor fields have
neither. -/
def mulNum (k : Num) (a : Fld d F sh) : Option (Fld d F sh) :=
  if k.accepted = true ∧ a.ftype = .standard ∧ sh ≠ .t then some ⟨.standard, a.func.map (numH k.x), a.validTime⟩ else none

/-- `scalar * vector` (`_3d/fields/scalar/main.py` 278-298, `_2d/fields/scalar/main.py` 186-205). -/
def scalarVector (a : Fld d F .s) (b : Fld d F .v) : Option (Fld d F .v) :=
  if a.ftype = .standard ∧ b.ftype = .standard then some ⟨.standard, fun i => mulH a.func (b.func i), a.validTime⟩ else none

/-- `vector * scalar`: `other.__rmul__(self)` (`_3d/fields/vector/main.py` 397-398, `scalar/main.py` 321-341,
`_2d/fields/vector/main.py` 209-210, `scalar/main.py` 229-248), with the `valid_time` of the scalar. -/
def vectorScalar (b : Fld d F .v) (a : Fld d F .s) : Option (Fld d F .v) :=
  if a.ftype = .standard ∧ b.ftype = .standard then some ⟨.standard, fun i => mulH a.func (b.func i), a.validTime⟩ else none
end

/-! ## 3D -/

/-- `do.cross_product` (`_3d/fields/vector/do/cross_product/main.py` 12-47). -/
def cross (a b : Fld 3 Fn3 .v) : Option (Fld 3 Fn3 .v) :=
  if a.ftype = .standard ∧ b.ftype = .standard then
    let w := a.func
    let u := b.func
    some ⟨.standard, ![crossH (w 1) (u 2) (w 2) (u 1), crossH (w 2) (u 0) (w 0) (u 2), crossH (w 0) (u 1) (w 1) (u 0)],
      a.validTime⟩
  else none

/-- `do.inner_product` (`_3d/fields/vector/do/inner_product/main.py` 22-57). -/
def inner (a b : Fld 3 Fn3 .v) : Option (Fld 3 Fn3 .s) :=
  if a.ftype = .standard ∧ b.ftype = .standard then some ⟨.standard, innerH a.func b.func, a.validTime⟩ else none

/-- All components are accepted by `NumericalPartialDerivative_txyz_Functions`. -/
def diffable (a : Fld 3 Fn3 sh) : Bool := a.ftype = .standard && a.func.all fun c => accepted3 c.kind

/-- A derivative as a bound method (`timePlus3dSpace/partial_derivative_as_functions.py` 34-74). -/
def meth (g : Fn3 → Fn3) (c : Call Fn3) : Call Fn3 := ⟨.method 5, g c.f⟩

/-- `numerical.time_derivative` (`scalar/numerical/main.py` 15-35, `vector/numerical/main.py` 18-37,
`tensor/numerical/main.py` 17-49). -/
def dt (D : Diff3) (a : Fld 3 Fn3 sh) : Option (Fld 3 Fn3 sh) :=
  if diffable a then some ⟨.standard, a.func.map (meth D.t), a.validTime⟩ else none

/-- `numerical.gradient` of a scalar (`scalar/numerical/main.py` 38-58). -/
def gradS (D : Diff3) (a : Fld 3 Fn3 .s) : Option (Fld 3 Fn3 .v) :=
  if diffable a then some ⟨.standard, ![meth D.x a.func, meth D.y a.func, meth D.z a.func], a.validTime⟩ else none

/-- `numerical.gradient` of a vector (`vector/numerical/main.py` 40-65). -/
def gradV (D : Diff3) (a : Fld 3 Fn3 .v) : Option (Fld 3 Fn3 .t) :=
  if diffable a then
    some ⟨.standard, ![![meth D.x (a.func 0), meth D.y (a.func 0), meth D.z (a.func 0)],
      ![meth D.x (a.func 1), meth D.y (a.func 1), meth D.z (a.func 1)],
      ![meth D.x (a.func 2), meth D.y (a.func 2), meth D.z (a.func 2)]], a.validTime⟩
  else none

/-- `numerical.curl` (`vector/numerical/main.py` 68-96). -/
def curl (D : Diff3) (a : Fld 3 Fn3 .v) : Option (Fld 3 Fn3 .v) :=
  if diffable a then
    let u := a.func 0
    let v := a.func 1
    let w := a.func 2
    some ⟨.standard, ![subH (meth D.y w) (meth D.z v), subH (meth D.z u) (meth D.x w), subH (meth D.x v) (meth D.y u)],
      a.validTime⟩
  else none

/-- `numerical.divergence` of a vector (`vector/numerical/main.py` 99-123). -/
def divV (D : Diff3) (a : Fld 3 Fn3 .v) : Option (Fld 3 Fn3 .s) :=
  if diffable a then
    some ⟨.standard, sumH (meth D.x (a.func 0)) (meth D.y (a.func 1)) (meth D.z (a.func 2)), a.validTime⟩
  else none

/-- `numerical.divergence` of a tensor (`tensor/numerical/main.py` 52-88). -/
def divT (D : Diff3) (a : Fld 3 Fn3 .t) : Option (Fld 3 Fn3 .v) :=
  if diffable a then
    some ⟨.standard, ![sumH (meth D.x (a.func 0 0)) (meth D.y (a.func 0 1)) (meth D.z (a.func 0 2)),
      sumH (meth D.x (a.func 1 0)) (meth D.y (a.func 1 1)) (meth D.z (a.func 1 2)),
      sumH (meth D.x (a.func 2 0)) (meth D.y (a.func 2 1)) (meth D.z (a.func 2 2))], a.validTime⟩
  else none

/-- An expression in 3D fields. -/
inductive Expr3 : Shape → Type where
  | leaf {σ : Shape} (f : Fld 3 Fn3 σ) : Expr3 σ
  | neg {σ : Shape} (a : Expr3 σ) : Expr3 σ
  | add {σ : Shape} (a b : Expr3 σ) : Expr3 σ
  | sub {σ : Shape} (a b : Expr3 σ) : Expr3 σ
  | num {σ : Shape} (k : Num) (a : Expr3 σ) : Expr3 σ
  | sv (a : Expr3 .s) (b : Expr3 .v) : Expr3 .v
  | vs (b : Expr3 .v) (a : Expr3 .s) : Expr3 .v
  | cross (a b : Expr3 .v) : Expr3 .v
  | inner (a b : Expr3 .v) : Expr3 .s
  | dt {σ : Shape} (a : Expr3 σ) : Expr3 σ
  | gradS (a : Expr3 .s) : Expr3 .v
  | gradV (a : Expr3 .v) : Expr3 .t
  | curl (a : Expr3 .v) : Expr3 .v
  | divV (a : Expr3 .v) : Expr3 .s
  | divT (a : Expr3 .t) : Expr3 .v

/-- The field that Python makes of an expression. -/
def Expr3.run (D : Diff3) : {sh : Shape} → Expr3 sh → Option (Fld 3 Fn3 sh)
  | _, .leaf f => some f
  | _, .neg a => (a.run D).bind Fields.neg
  | _, .add a b => (a.run D).bind fun x => (b.run D).bind fun y => Fields.add x y
  | _, .sub a b => (a.run D).bind fun x => (b.run D).bind fun y => Fields.sub x y
  | _, .num k a => (a.run D).bind (mulNum k)
  | _, .sv a b => (a.run D).bind fun x => (b.run D).bind fun y => scalarVector x y
  | _, .vs b a => (b.run D).bind fun y => (a.run D).bind fun x => vectorScalar y x
  | _, .cross a b => (a.run D).bind fun x => (b.run D).bind fun y => Fields.cross x y
  | _, .inner a b => (a.run D).bind fun x => (b.run D).bind fun y => Fields.inner x y
  | _, .dt a => (a.run D).bind (Fields.dt D)
  | _, .gradS a => (a.run D).bind (Fields.gradS D)
  | _, .gradV a => (a.run D).bind (Fields.gradV D)
  | _, .curl a => (a.run D).bind (Fields.curl D)
  | _, .divV a => (a.run D).bind (Fields.divV D)
  | _, .divT a => (a.run D).bind (Fields.divT D)

/-- A new field for the history of its times (C78). -/
def Fld.fresh (f : Fld d F sh) : Caches.Field (Comp d (Call F) sh) ℝ := Field.init f.func false f.validTime

/-! ## 2D -/

/-- All components are accepted by `NumericalPartialDerivative_txy_Functions`. -/
def diffable2 (a : Fld 2 Fn2 sh) : Bool := a.ftype = .standard && a.func.all fun c => accepted2 c.kind

/-- A derivative as a bound method (`timePlus2dSpace/partial_derivative_as_functions.py` 37-68). -/
def meth2 (g : Fn2 → Fn2) (c : Call Fn2) : Call Fn2 := ⟨.method 4, g c.f⟩

/-- `numerical.time_derivative` (`_2d/fields/scalar/numerical/main.py` 16-34, `vector/numerical/main.py` 19-38,
`triangular/fields/{scalar,vector}/numerical/main.py` 17-30, 23-42). -/
def dt2 (D : Diff2) (a : Fld 2 Fn2 sh) : Option (Fld 2 Fn2 sh) :=
  if diffable2 a then some ⟨.standard, a.func.map (meth2 D.t), a.validTime⟩ else none

/-- `numerical.grad` (`_2d/fields/scalar/numerical/main.py` 37-58, triangular 34-54). -/
def grad2 (D : Diff2) (a : Fld 2 Fn2 .s) : Option (Fld 2 Fn2 .v) :=
  if diffable2 a then some ⟨.standard, ![meth2 D.x a.func, meth2 D.y a.func], a.validTime⟩ else none

/-- `numerical.curl` (`_2d/fields/scalar/numerical/main.py` 61-83, triangular 58-79). -/
def curl2 (D : Diff2) (a : Fld 2 Fn2 .s) : Option (Fld 2 Fn2 .v) :=
  if diffable2 a then some ⟨.standard, ![meth2 D.y a.func, negH (meth2 D.x a.func)], a.validTime⟩ else none

/-- `numerical.rot` (`_2d/fields/vector/numerical/main.py` 45-69, triangular 49-72). -/
def rot2 (D : Diff2) (a : Fld 2 Fn2 .v) : Option (Fld 2 Fn2 .s) :=
  if diffable2 a then some ⟨.standard, subH (meth2 D.x (a.func 1)) (meth2 D.y (a.func 0)), a.validTime⟩ else none

/-- `numerical.div` (`_2d/fields/vector/numerical/main.py` 72-96, triangular 78-101). -/
def div2 (D : Diff2) (a : Fld 2 Fn2 .v) : Option (Fld 2 Fn2 .s) :=
  if diffable2 a then some ⟨.standard, addH (meth2 D.x (a.func 0)) (meth2 D.y (a.func 1)), a.validTime⟩ else none

/-- `do.cross_product` of a scalar and a vector (`_2d/fields/scalar/do/cross_product/main.py` 21-57, triangular
`scalar/do/cross_product.py` 21-57). -/
def cross2 (a : Fld 2 Fn2 .s) (b : Fld 2 Fn2 .v) : Option (Fld 2 Fn2 .v) :=
  if a.ftype = .standard ∧ b.ftype = .standard then
    some ⟨.standard, ![⟨.object, -a.func.f * (b.func 1).f⟩, mulH a.func (b.func 0)], a.validTime⟩
  else none

/-- `do.inner_product` of two vectors on a structured mesh (`_2d/fields/vector/do/inner_product/main.py` 19-51): a scalar. -/
def inner2 (a b : Fld 2 Fn2 .v) : Option (Σ sh, Fld 2 Fn2 sh) :=
  if a.ftype = .standard ∧ b.ftype = .standard then
    some ⟨.s, .standard, ⟨.object, (a.func 0).f * (b.func 0).f + (a.func 1).f * (b.func 1).f⟩, a.validTime⟩
  else none

/-- `do.inner_product` of two vectors on a triangular mesh (`triangular/fields/vector/do/inner_product.py` 21-54): a vector
`[IP1, IP2]`. -/
def innerTri (a b : Fld 2 Fn2 .v) : Option (Σ sh, Fld 2 Fn2 sh) :=
  if a.ftype = .standard ∧ b.ftype = .standard then
    some ⟨.v, .standard, ![mulH (a.func 0) (b.func 0), mulH (a.func 1) (b.func 1)], a.validTime⟩
  else none

/-- `do.inner_product` of two scalars on a triangular mesh (`triangular/fields/scalar/do/inner_product.py` 20-56). -/
def innerTriS (a b : Fld 2 Fn2 .s) : Option (Fld 2 Fn2 .s) :=
  if a.ftype = .standard ∧ b.ftype = .standard then some ⟨.standard, mulH a.func b.func, a.validTime⟩ else none

/-- An expression in 2D fields. -/
inductive Expr2 : Shape → Type where
  | leaf {σ : Shape} (f : Fld 2 Fn2 σ) : Expr2 σ
  | neg {σ : Shape} (a : Expr2 σ) : Expr2 σ
  | add {σ : Shape} (a b : Expr2 σ) : Expr2 σ
  | sub {σ : Shape} (a b : Expr2 σ) : Expr2 σ
  | num {σ : Shape} (k : Num) (a : Expr2 σ) : Expr2 σ
  | sv (a : Expr2 .s) (b : Expr2 .v) : Expr2 .v
  | vs (b : Expr2 .v) (a : Expr2 .s) : Expr2 .v
  | cross (a : Expr2 .s) (b : Expr2 .v) : Expr2 .v
  | dt {σ : Shape} (a : Expr2 σ) : Expr2 σ
  | grad (a : Expr2 .s) : Expr2 .v
  | curl (a : Expr2 .s) : Expr2 .v
  | rot (a : Expr2 .v) : Expr2 .s
  | div (a : Expr2 .v) : Expr2 .s

/-- The field that Python makes of an expression. -/
def Expr2.run (D : Diff2) : {sh : Shape} → Expr2 sh → Option (Fld 2 Fn2 sh)
  | _, .leaf f => some f
  | _, .neg a => (a.run D).bind Fields.neg
  | _, .add a b => (a.run D).bind fun x => (b.run D).bind fun y => Fields.add x y
  | _, .sub a b => (a.run D).bind fun x => (b.run D).bind fun y => Fields.sub x y
  | _, .num k a => (a.run D).bind (mulNum k)
  | _, .sv a b => (a.run D).bind fun x => (b.run D).bind fun y => scalarVector x y
  | _, .vs b a => (b.run D).bind fun y => (a.run D).bind fun x => vectorScalar y x
  | _, .cross a b => (a.run D).bind fun x => (b.run D).bind fun y => cross2 x y
  | _, .dt a => (a.run D).bind (dt2 D)
  | _, .grad a => (a.run D).bind (grad2 D)
  | _, .curl a => (a.run D).bind (curl2 D)
  | _, .rot a => (a.run D).bind (rot2 D)
  | _, .div a => (a.run D).bind (div2 D)

/-! ## `do.inner_product_with_space_of` (3D) -/
section test
open Mifem.Metric Mifem.Basis Mifem.Cross
variable {K : Type*} [Field K]

/-- The choice of `_3d/fields/vector/main.py` 207-220 by the class name of `other`, for meshes that are equal. -/
def testSpace (ft : FType) (cls : String) : Option Deg :=
  if ft = .standard then
    if cls = "_2Form" then some .two else if cls = "_1Form" then some .one else none
  else none

/-- `___PRIVATE_J___` (`inner_product_with_1form.py` 22-50): row `a`, column `r` is `J{a}{r}`; `None` of orthogonal elements
is `0` here, and is not looked at. -/
def cofactors (orth : Bool) (J : M3 K) : M3 K :=
  if orth then
    ![![J 1 1 * J 2 2, 0, 0], ![0, J 2 2 * J 0 0, 0], ![0, 0, J 0 0 * J 1 1]]
  else
    ![![J 1 1 * J 2 2 - J 1 2 * J 2 1, J 2 1 * J 0 2 - J 2 2 * J 0 1, J 0 1 * J 1 2 - J 0 2 * J 1 1],
      ![J 1 2 * J 2 0 - J 1 0 * J 2 2, J 2 2 * J 0 0 - J 2 0 * J 0 2, J 0 2 * J 1 0 - J 0 0 * J 1 2],
      ![J 1 0 * J 2 1 - J 1 1 * J 2 0, J 2 0 * J 0 1 - J 2 1 * J 0 0, J 0 0 * J 1 1 - J 0 1 * J 1 0]]

/-- `np.einsum('w, iw -> i', c, g)`. -/
def weigh (g : Arr K) (c : Nat → K) (i : Nat) : K := ((List.range g.cols).map fun m => c m * g.e i m).sum

/-- `np.concatenate([v0, v1, v2])`. -/
def concat3 (n0 n1 : Nat) (v : Fin 3 → Nat → K) (i : Nat) : K :=
  if i < n0 then v 0 i else if i < n0 + n1 then v 1 (i - n0) else v 2 (i - (n0 + n1))

/-- `_VF_InnerWith1Form.__call__` (`inner_product_with_1form.py` 52-73): `C` is what `___PRIVATE_J___` returned at the
quadrature points, `f` the values of the field there, `q` the weights, `g` the basis functions. -/
def with1 (orth : Bool) (C : Nat → M3 K) (q : Nat → K) (f : Nat → Fin 3 → K) (g : Fin 3 → Arr K) : Nat → K :=
  concat3 (g 0).rows (g 1).rows fun a =>
    weigh (g a) fun m =>
      (if orth then f m a * C m a a else f m 0 * C m a 0 + f m 1 * C m a 1 + f m 2 * C m a 2) * q m

/-- `_VF_InnerWith2Form.__call__` (`inner_product_with_2form.py` 21-42). -/
def with2 (orth : Bool) (J : Nat → M3 K) (q : Nat → K) (f : Nat → Fin 3 → K) (g : Fin 3 → Arr K) : Nat → K :=
  concat3 (g 0).rows (g 1).rows fun a =>
    weigh (g a) fun m =>
      (if orth then f m a * J m a a else f m 0 * J m 0 a + f m 1 * J m 1 a + f m 2 * J m 2 a) * q m

/-- The dictionary `_J_cache_` and one call for the element with mark `k` (`inner_product_with_1form.py` 22-27 and 47-50):
`orth` is read off the mark. -/
def withCache {M : Type} [DecidableEq M] (orth : M → Bool) (q : Nat → K) (g : Fin 3 → Arr K)
    (cache : List (M × (Nat → M3 K))) (k : M) (J : Nat → M3 K) (f : Nat → Fin 3 → K) :
    (Nat → K) × List (M × (Nat → M3 K)) :=
  match cache.find? (fun e => decide (e.1 = k)) with
  | some e => (with1 (orth k) e.2 q f g, cache)
  | none =>
    let C := fun m => cofactors (orth k) (J m)
    (with1 (orth k) C q f g, (k, C) :: cache)

/-- The elements in the order in which they are asked for. -/
def withAll {M : Type} [DecidableEq M] (orth : M → Bool) (q : Nat → K) (g : Fin 3 → Arr K) :
    List (M × (Nat → M3 K)) → List (M × (Nat → M3 K) × (Nat → Fin 3 → K)) → List (Nat → K)
  | _, [] => []
  | cache, (k, J, f) :: es =>
    let r := withCache orth q g cache k J f
    r.1 :: withAll orth q g r.2 es

end test
end Mifem.Fields
