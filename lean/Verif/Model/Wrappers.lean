import Verif.Model.ExactSolution

/-!
# Model of the scalar and vector calculus on functions of time and space

Source: `components/functions/timePlus3dSpace/wrappers` and `timePlus2dSpace/wrappers`
(`t3dScalar`, `t3dVector`, `t2dScalar`, `t2dVector`), whose derivatives come from
`components/numerical/timePlus{2,3}dSpace/partial_derivative_as_functions.py`.

The numerical differentiation operator is a parameter, as in `Model/ExactSolution`.  The cached
`__NPD__` objects are recomputed.  `none` stands for an exception.
-/

namespace Mifem.Wrap

open Mifem.ES

/-- What Python sees of a callable: a function or a bound method with its `__code__.co_argcount`,
or an object with a `__call__` method (all helper classes and the wrappers themselves). -/
inductive Kind where
  | function (args : ℕ)
  | method (args : ℕ)
  | object
  deriving DecidableEq, Repr

/-- A callable with its values. -/
structure Call (F : Type) where
  kind : Kind
  f : F

/-! ## Three dimensions -/

/-- `NumericalPartialDerivative_txyz_Functions.___PRIVATE_check_func___`
(timePlus3dSpace/partial_derivative_as_functions.py, 21–31): callable objects end in the `else`
branch, `raise NotImplementedError`. -/
def accepted3 : Kind → Bool
  | .function n => n == 4
  | .method n => n == 5
  | .object => false

/-- The four derivatives as methods of five arguments
(partial_derivative_as_functions.py, 34–74). -/
structure NPD3 where
  t : Call Fn3
  x : Call Fn3
  y : Call Fn3
  z : Call Fn3

@[inherit_doc NPD3] def npd3 (D : Diff3) (c : Call Fn3) : Option NPD3 :=
  if accepted3 c.kind then
    some ⟨⟨.method 5, D.t c.f⟩, ⟨.method 5, D.x c.f⟩, ⟨.method 5, D.y c.f⟩, ⟨.method 5, D.z c.f⟩⟩
  else none

/-- `t3d_ScalarAdd` (timePlus3dSpace/wrappers/helpers/scalar_add.py, 13–20) -/
def add3 (a b : Call Fn3) : Call Fn3 := ⟨.object, fun t x y z => a.f t x y z + b.f t x y z⟩
/-- `t3d_ScalarSub` (helpers/scalar_sub.py, 13–20) -/
def sub3 (a b : Call Fn3) : Call Fn3 := ⟨.object, fun t x y z => a.f t x y z - b.f t x y z⟩
/-- `t3d_ScalarMultiply` (helpers/scalar_mul.py, 13–20) -/
def mul3 (a b : Call Fn3) : Call Fn3 := ⟨.object, fun t x y z => a.f t x y z * b.f t x y z⟩
/-- `t3d_ScalarNeg` (helpers/scalar_neg.py, 13–19) -/
def neg3 (a : Call Fn3) : Call Fn3 := ⟨.object, fun t x y z => -a.f t x y z⟩
/-- `t3d_3ScalarAdd` (helpers/_3scalars_add.py, 13–21) -/
def sum3 (a b c : Call Fn3) : Call Fn3 :=
  ⟨.object, fun t x y z => a.f t x y z + b.f t x y z + c.f t x y z⟩

/-- `t3dScalar` (wrappers/scalar.py, 30–37) -/
structure Scalar3 where
  s : Call Fn3

/-- `t3dVector` (wrappers/vector.py, 31–51) -/
structure Vector3 where
  v0 : Call Fn3
  v1 : Call Fn3
  v2 : Call Fn3

namespace Scalar3

/-- scalar.py, 70–72 -/
def timeDerivative (D : Diff3) (a : Scalar3) : Option Scalar3 := (npd3 D a.s).map fun n => ⟨n.t⟩

/-- scalar.py, 75–85 -/
def gradient (D : Diff3) (a : Scalar3) : Option Vector3 :=
  (npd3 D a.s).map fun n => ⟨n.x, n.y, n.z⟩

/-- scalar.py, 87–110 -/
def convectionBy (D : Diff3) (a : Scalar3) (u : Vector3) : Option Scalar3 :=
  (npd3 D a.s).map fun n => ⟨sum3 (mul3 u.v0 n.x) (mul3 u.v1 n.y) (mul3 u.v2 n.z)⟩

/-- scalar.py, 112–121 -/
def add (a b : Scalar3) : Scalar3 := ⟨add3 a.s b.s⟩
/-- scalar.py, 123–132 -/
def sub (a b : Scalar3) : Scalar3 := ⟨sub3 a.s b.s⟩
/-- scalar.py, 134–139 -/
def neg (a : Scalar3) : Scalar3 := ⟨neg3 a.s⟩
/-- scalar.py, 141–148 -/
def mul (a b : Scalar3) : Scalar3 := ⟨mul3 a.s b.s⟩

end Scalar3

namespace Vector3

/-- vector.py, 99–103 -/
def timeDerivative (D : Diff3) (a : Vector3) : Option Vector3 := do
  let n0 ← npd3 D a.v0
  let n1 ← npd3 D a.v1
  let n2 ← npd3 D a.v2
  some ⟨n0.t, n1.t, n2.t⟩

/-- vector.py, 106–116 -/
def divergence (D : Diff3) (a : Vector3) : Option Scalar3 := do
  let n0 ← npd3 D a.v0
  let n1 ← npd3 D a.v1
  let n2 ← npd3 D a.v2
  some ⟨sum3 n0.x n1.y n2.z⟩

/-- vector.py, 119–139 -/
def curl (D : Diff3) (a : Vector3) : Option Vector3 := do
  let n2 ← npd3 D a.v2
  let n0 ← npd3 D a.v0
  let n1 ← npd3 D a.v1
  some ⟨sub3 n2.y n1.z, sub3 n0.z n2.x, sub3 n1.x n0.y⟩

/-- vector.py, 141–178 -/
def convectionBy (D : Diff3) (a u : Vector3) : Option Vector3 := do
  let n0 ← npd3 D a.v0
  let n1 ← npd3 D a.v1
  let n2 ← npd3 D a.v2
  some ⟨sum3 (mul3 u.v0 n0.x) (mul3 u.v1 n0.y) (mul3 u.v2 n0.z),
    sum3 (mul3 u.v0 n1.x) (mul3 u.v1 n1.y) (mul3 u.v2 n1.z),
    sum3 (mul3 u.v0 n2.x) (mul3 u.v1 n2.y) (mul3 u.v2 n2.z)⟩

/-- vector.py, 180–203 -/
def add (a b : Vector3) : Vector3 := ⟨add3 a.v0 b.v0, add3 a.v1 b.v1, add3 a.v2 b.v2⟩
/-- vector.py, 205–228 -/
def sub (a b : Vector3) : Vector3 := ⟨sub3 a.v0 b.v0, sub3 a.v1 b.v1, sub3 a.v2 b.v2⟩
/-- vector.py, 230–237 -/
def neg (a : Vector3) : Vector3 := ⟨neg3 a.v0, neg3 a.v1, neg3 a.v2⟩
/-- vector.py, 239–266 -/
def dot (a b : Vector3) : Scalar3 := ⟨sum3 (mul3 a.v0 b.v0) (mul3 a.v1 b.v1) (mul3 a.v2 b.v2)⟩
/-- vector.py, 269–289: `(bw, cu, av) - (cv, aw, bu)` -/
def cross (a b : Vector3) : Vector3 :=
  sub ⟨mul3 a.v1 b.v2, mul3 a.v2 b.v0, mul3 a.v0 b.v1⟩
    ⟨mul3 a.v2 b.v1, mul3 a.v0 b.v2, mul3 a.v1 b.v0⟩

end Vector3

/-! ## Two dimensions -/

/-- `NumericalPartialDerivative_txy_Functions.___PRIVATE_check_func___`
(timePlus2dSpace/partial_derivative_as_functions.py, 22–34): any other callable passes. -/
def accepted2 : Kind → Bool
  | .function n => n == 3
  | .method n => n == 4
  | .object => true

/-- The three derivatives as methods of four arguments
(timePlus2dSpace/partial_derivative_as_functions.py, 37–68). -/
structure NPD2 where
  t : Call Fn2
  x : Call Fn2
  y : Call Fn2

@[inherit_doc NPD2] def npd2 (D : Diff2) (c : Call Fn2) : Option NPD2 :=
  if accepted2 c.kind then
    some ⟨⟨.method 4, D.t c.f⟩, ⟨.method 4, D.x c.f⟩, ⟨.method 4, D.y c.f⟩⟩
  else none

/-- `t2d_ScalarAdd` (timePlus2dSpace/wrappers/helpers/scalar_add.py, 13–20) -/
def add2 (a b : Call Fn2) : Call Fn2 := ⟨.object, fun t x y => a.f t x y + b.f t x y⟩
/-- `t2d_ScalarSub` (helpers/scalar_sub.py, 13–20) -/
def sub2 (a b : Call Fn2) : Call Fn2 := ⟨.object, fun t x y => a.f t x y - b.f t x y⟩
/-- `t2d_ScalarMultiply` (helpers/scalar_mul.py, 13–20) -/
def mul2 (a b : Call Fn2) : Call Fn2 := ⟨.object, fun t x y => a.f t x y * b.f t x y⟩
/-- `t2d_ScalarNeg` (helpers/scalar_neg.py, 13–19) -/
def neg2 (a : Call Fn2) : Call Fn2 := ⟨.object, fun t x y => -a.f t x y⟩

/-- `t2dScalar` (timePlus2dSpace/wrappers/scalar.py, 31–38) -/
structure Scalar2 where
  s : Call Fn2

/-- `t2dVector` (timePlus2dSpace/wrappers/vector.py, 27–44) -/
structure Vector2 where
  v0 : Call Fn2
  v1 : Call Fn2

namespace Scalar2

/-- scalar.py, 134–143 -/
def add (a b : Scalar2) : Scalar2 := ⟨add2 a.s b.s⟩
/-- scalar.py, 145–154 -/
def sub (a b : Scalar2) : Scalar2 := ⟨sub2 a.s b.s⟩
/-- scalar.py, 157–162 -/
def neg (a : Scalar2) : Scalar2 := ⟨neg2 a.s⟩
/-- scalar.py, 165–172 -/
def mul (a b : Scalar2) : Scalar2 := ⟨mul2 a.s b.s⟩

/-- scalar.py, 78–81 -/
def timeDerivative (D : Diff2) (a : Scalar2) : Option Scalar2 := (npd2 D a.s).map fun n => ⟨n.t⟩
/-- scalar.py, 85–94 -/
def gradient (D : Diff2) (a : Scalar2) : Option Vector2 := (npd2 D a.s).map fun n => ⟨n.x, n.y⟩
/-- scalar.py, 98–108: the second component is a `t2dScalar`, a callable object. -/
def curl (D : Diff2) (a : Scalar2) : Option Vector2 :=
  (npd2 D a.s).map fun n => ⟨n.y, ⟨.object, (neg ⟨n.x⟩).s.f⟩⟩
/-- scalar.py, 110–131 -/
def convectionBy (D : Diff2) (a : Scalar2) (u : Vector2) : Option Scalar2 :=
  (npd2 D a.s).map fun n => ⟨add2 (mul2 u.v0 n.x) (mul2 u.v1 n.y)⟩

end Scalar2

namespace Vector2

/-- vector.py, 91–94 -/
def timeDerivative (D : Diff2) (a : Vector2) : Option Vector2 := do
  let n0 ← npd2 D a.v0
  let n1 ← npd2 D a.v1
  some ⟨n0.t, n1.t⟩
/-- vector.py, 97–104 -/
def divergence (D : Diff2) (a : Vector2) : Option Scalar2 := do
  let n0 ← npd2 D a.v0
  let n1 ← npd2 D a.v1
  some (Scalar2.add ⟨n0.x⟩ ⟨n1.y⟩)
/-- vector.py, 107–120 -/
def rot (D : Diff2) (a : Vector2) : Option Scalar2 := do
  let n1 ← npd2 D a.v1
  let n0 ← npd2 D a.v0
  some (Scalar2.sub ⟨n1.x⟩ ⟨n0.y⟩)
/-- vector.py, 122–147 -/
def convectionBy (D : Diff2) (a u : Vector2) : Option Vector2 := do
  let n0 ← npd2 D a.v0
  let n1 ← npd2 D a.v1
  some ⟨add2 (mul2 u.v0 n0.x) (mul2 u.v1 n0.y), add2 (mul2 u.v0 n1.x) (mul2 u.v1 n1.y)⟩
/-- vector.py, 150–172 -/
def add (a b : Vector2) : Vector2 := ⟨add2 a.v0 b.v0, add2 a.v1 b.v1⟩
/-- vector.py, 174–196 -/
def sub (a b : Vector2) : Vector2 := ⟨sub2 a.v0 b.v0, sub2 a.v1 b.v1⟩
/-- vector.py, 199–205 -/
def neg (a : Vector2) : Vector2 := ⟨neg2 a.v0, neg2 a.v1⟩
/-- vector.py, 207–233 -/
def dot (a b : Vector2) : Scalar2 := ⟨add2 (mul2 a.v0 b.v0) (mul2 a.v1 b.v1)⟩

end Vector2

end Mifem.Wrap
