import Mathlib.Analysis.SpecialFunctions.Trigonometric.Basic
import Mathlib.Analysis.SpecialFunctions.Trigonometric.Deriv
import Mathlib.Analysis.SpecialFunctions.ExpDeriv
import Mathlib.Analysis.SpecialFunctions.Sqrt

/-!
# Model of the manufactured solutions

Sources: `objects/CSCG/_3d/exactSolutions` and `objects/CSCG/_2d/exactSolutions`, with the
numerical derivatives of `components/numerical/timePlus3dSpace` and `timePlus2dSpace`.

Floating point numbers are reals.  Every class inherits default derivatives, obtained by
numerical differentiation; the definitions below take the differentiation operator as a
parameter, `central3 (10⁻⁶)` and `central2 (10⁻⁶)` being the ones of the code.
-/

namespace Mifem.ES

open Real

/-- A function of time and three space coordinates. -/
abbrev Fn3 := ℝ → ℝ → ℝ → ℝ → ℝ

/-- A function of time and two space coordinates. -/
abbrev Fn2 := ℝ → ℝ → ℝ → ℝ

/-- `scipy.misc.derivative(f, a, dx=h, n=1, order=3)`, called in
components/numerical/timePlus3dSpace/partial_derivative.py, 78–97, with the defaults of line 18
(`dtdxdydz=1e-6, n=1, order=3`): weights `[-1, 0, 1]/2` at `a - h, a, a + h`, divided by `h`. -/
noncomputable def central (h : ℝ) (f : ℝ → ℝ) (a : ℝ) : ℝ :=
  ((-1) / 2 * f (a - h) + 0 / 2 * f a + 1 / 2 * f (a + h)) / h

/-- The four partial derivatives offered by `NumericalPartialDerivative_txyz_Functions`
(components/numerical/timePlus3dSpace/partial_derivative_as_functions.py, 34–74). -/
structure Diff3 where
  t : Fn3 → Fn3
  x : Fn3 → Fn3
  y : Fn3 → Fn3
  z : Fn3 → Fn3

/-- components/numerical/timePlus3dSpace/partial_derivative.py, 64–97: all other arguments are
held fixed. -/
noncomputable def central3 (h : ℝ) : Diff3 where
  t F := fun t x y z => central h (fun s => F s x y z) t
  x F := fun t x y z => central h (fun s => F t s y z) x
  y F := fun t x y z => central h (fun s => F t x s z) y
  z F := fun t x y z => central h (fun s => F t x y s) z

/-- The three partial derivatives of `NumericalPartialDerivative_txy_Functions`
(components/numerical/timePlus2dSpace/partial_derivative_as_functions.py, 37–68). -/
structure Diff2 where
  t : Fn2 → Fn2
  x : Fn2 → Fn2
  y : Fn2 → Fn2

/-- components/numerical/timePlus2dSpace/partial_derivative.py, 64–88. -/
noncomputable def central2 (h : ℝ) : Diff2 where
  t F := fun t x y => central h (fun s => F s x y) t
  x F := fun t x y => central h (fun s => F t s y) x
  y F := fun t x y => central h (fun s => F t x s) y

/-! ## A function with the derivatives a class provides -/

/-- One of `u`, `v`, `w` with the methods named after its derivatives
(3d incompressibleNavierStokes/base.py, 70–137 and 156–199; every one may be overridden). -/
structure Comp where
  f : Fn3
  ft : Fn3
  fx : Fn3
  fy : Fn3
  fz : Fn3
  fxx : Fn3
  fyy : Fn3
  fzz : Fn3

/-- Nothing but the function is overridden (base.py, 73–137, 156–199): the second derivatives
differentiate the first ones. -/
def Comp.default (D : Diff3) (f : Fn3) : Comp where
  f := f
  ft := D.t f
  fx := D.x f
  fy := D.y f
  fz := D.z f
  fxx := D.x (D.x f)
  fyy := D.y (D.y f)
  fzz := D.z (D.z f)

/-- The first space derivatives are overridden, the time derivative and the second derivatives are
not; `u_xx` then differentiates the overriding `u_x` (base.py, 156–199). -/
def Comp.first (D : Diff3) (f fx fy fz : Fn3) : Comp where
  f := f
  ft := D.t f
  fx := fx
  fy := fy
  fz := fz
  fxx := D.x fx
  fyy := D.y fy
  fzz := D.z fz

/-- A scalar with its gradient: `p`, `p_x`, `p_y`, `p_z` (base.py, 139–154). -/
structure Pressure where
  p : Fn3
  px : Fn3
  py : Fn3
  pz : Fn3

/-- base.py, 141–154 -/
def Pressure.default (D : Diff3) (p : Fn3) : Pressure := ⟨p, D.x p, D.y p, D.z p⟩

/-- The velocity of a three-dimensional flow. -/
structure Flow where
  U : Comp
  V : Comp
  W : Comp

namespace Flow

/-- `omega_x` (base.py, 272–273) -/
def omegaX (F : Flow) : Fn3 := fun t x y z => F.W.fy t x y z - F.V.fz t x y z

/-- `omega_y` (base.py, 275–276) -/
def omegaY (F : Flow) : Fn3 := fun t x y z => F.U.fz t x y z - F.W.fx t x y z

/-- `omega_z` (base.py, 278–279) -/
def omegaZ (F : Flow) : Fn3 := fun t x y z => F.V.fx t x y z - F.U.fy t x y z

/-- `___div_of_velocity___` (base.py, 230–232) -/
def div (F : Flow) : Fn3 := fun t x y z => F.U.fx t x y z + F.V.fy t x y z + F.W.fz t x y z

/-- `___m_laplace_u___` (base.py, 299–300), first component of `curl_of_vorticity` -/
def mLaplaceU (F : Flow) : Fn3 := fun t x y z =>
  -(F.U.fxx t x y z + F.U.fyy t x y z + F.U.fzz t x y z)

/-- `___m_laplace_v___` (base.py, 302–303) -/
def mLaplaceV (F : Flow) : Fn3 := fun t x y z =>
  -(F.V.fxx t x y z + F.V.fyy t x y z + F.V.fzz t x y z)

/-- `___m_laplace_w___` (base.py, 305–306) -/
def mLaplaceW (F : Flow) : Fn3 := fun t x y z =>
  -(F.W.fxx t x y z + F.W.fyy t x y z + F.W.fzz t x y z)

/-- `___div_of_vorticity___` (base.py, 319–321): the constant zero. -/
def divOmega (_F : Flow) : Fn3 := fun t x y z => 0 * t * x * y * z

/-- `___kinetic_energy_distribution___` (base.py, 420–421) -/
noncomputable def ke (F : Flow) : Fn3 := fun t x y z =>
  0.5 * (F.U.f t x y z ^ 2 + F.V.f t x y z ^ 2 + F.W.f t x y z ^ 2)

/-- `_ke_x_` (base.py, 423–427) -/
def keX (F : Flow) : Fn3 := fun t x y z =>
  F.U.f t x y z * F.U.fx t x y z + F.V.f t x y z * F.V.fx t x y z + F.W.f t x y z * F.W.fx t x y z

/-- `_ke_y_` (base.py, 429–433) -/
def keY (F : Flow) : Fn3 := fun t x y z =>
  F.U.f t x y z * F.U.fy t x y z + F.V.f t x y z * F.V.fy t x y z + F.W.f t x y z * F.W.fy t x y z

/-- `_ke_z_` (base.py, 435–439) -/
def keZ (F : Flow) : Fn3 := fun t x y z =>
  F.U.f t x y z * F.U.fz t x y z + F.V.f t x y z * F.V.fz t x y z + F.W.f t x y z * F.W.fz t x y z

/-- `___total_pressure___` (base.py, 381–382) -/
noncomputable def tp (F : Flow) (P : Pressure) : Fn3 := fun t x y z => P.p t x y z + F.ke t x y z

/-- `_tp_x_` (base.py, 384–386) -/
def tpX (F : Flow) (P : Pressure) : Fn3 := fun t x y z => P.px t x y z + F.keX t x y z

/-- `_tp_y_` (base.py, 388–390) -/
def tpY (F : Flow) (P : Pressure) : Fn3 := fun t x y z => P.py t x y z + F.keY t x y z

/-- `_tp_z_` (base.py, 392–394) -/
def tpZ (F : Flow) (P : Pressure) : Fn3 := fun t x y z => P.pz t x y z + F.keZ t x y z

/-- `fx` (base.py, 323–327) -/
def forceX (F : Flow) (P : Pressure) (nu : ℝ) : Fn3 := fun t x y z =>
  F.U.ft t x y z + F.omegaY t x y z * F.W.f t x y z - F.omegaZ t x y z * F.V.f t x y z
    + F.tpX P t x y z - nu * (F.U.fxx t x y z + F.U.fyy t x y z + F.U.fzz t x y z)

/-- `fy` (base.py, 329–333) -/
def forceY (F : Flow) (P : Pressure) (nu : ℝ) : Fn3 := fun t x y z =>
  F.V.ft t x y z + F.omegaZ t x y z * F.U.f t x y z - F.omegaX t x y z * F.W.f t x y z
    + F.tpY P t x y z - nu * (F.V.fxx t x y z + F.V.fyy t x y z + F.V.fzz t x y z)

/-- `fz` (base.py, 335–339) -/
def forceZ (F : Flow) (P : Pressure) (nu : ℝ) : Fn3 := fun t x y z =>
  F.W.ft t x y z + F.omegaX t x y z * F.V.f t x y z - F.omegaY t x y z * F.U.f t x y z
    + F.tpZ P t x y z - nu * (F.W.fxx t x y z + F.W.fyy t x y z + F.W.fzz t x y z)

/-- `___helicity_distribution___` (base.py, 453–456) -/
def helicity (F : Flow) : Fn3 := fun t x y z =>
  F.U.f t x y z * F.omegaX t x y z + F.V.f t x y z * F.omegaY t x y z
    + F.W.f t x y z * F.omegaZ t x y z

/-- `___enstrophy_distribution___` (base.py, 470–473) -/
noncomputable def enstrophy (F : Flow) : Fn3 := fun t x y z =>
  0.5 * (F.omegaX t x y z ^ 2 + F.omegaY t x y z ^ 2 + F.omegaZ t x y z ^ 2)

/-- `fx` of the Stokes solutions (3d Stokes/base.py, 284–285); `fy`, `fz` (287–291) alike. -/
def stokesX (F : Flow) (P : Pressure) : Fn3 := fun t x y z => F.mLaplaceU t x y z + P.px t x y z
@[inherit_doc stokesX] def stokesY (F : Flow) (P : Pressure) : Fn3 := fun t x y z =>
  F.mLaplaceV t x y z + P.py t x y z
@[inherit_doc stokesX] def stokesZ (F : Flow) (P : Pressure) : Fn3 := fun t x y z =>
  F.mLaplaceW t x y z + P.pz t x y z

end Flow

/-! ## The Navier–Stokes solutions of the library -/

/-- `SinCosRebholz_Conservation` and the four `SinCos_Conservation_Conservative_Body_Force*`
(3d incompressibleNavierStokes/Sin_Cos.py, 29–51, 215–237, 270–292, 325–347, 380–402): the same
velocity and first derivatives. -/
noncomputable def rebholzC (D : Diff3) : Flow where
  U := .first D (fun _ _ _ z => cos (2 * π * z)) (fun _ x _ _ => 0 * x) (fun _ x _ _ => 0 * x)
    (fun _ _ _ z => -2 * π * sin (2 * π * z))
  V := .first D (fun _ _ _ z => sin (2 * π * z)) (fun _ x _ _ => 0 * x) (fun _ x _ _ => 0 * x)
    (fun _ _ _ z => 2 * π * cos (2 * π * z))
  W := .first D (fun _ x _ _ => sin (2 * π * x)) (fun _ x _ _ => 2 * π * cos (2 * π * x))
    (fun _ x _ _ => 0 * x) (fun _ x _ _ => 0 * x)

/-- The body forces of the five classes (Sin_Cos.py, 54–58, 240–244, 295–299, 350–354, 405–409). -/
noncomputable def bodyForces : List (Fn3 × Fn3 × Fn3) :=
  [(fun _ x _ _ => 0 * x, fun _ x _ _ => 0 * x, fun _ x _ _ => 0 * x),
   (fun t x y z => 2 * π * t * cos (2 * π * x) * sin (2 * π * y) * sin (2 * π * z),
    fun t x y z => 2 * π * t * sin (2 * π * x) * cos (2 * π * y) * sin (2 * π * z),
    fun t x y z => 2 * π * t * sin (2 * π * x) * sin (2 * π * y) * cos (2 * π * z)),
   (fun _ x y z => 2 * π * cos (2 * π * x) * sin (2 * π * y) * sin (2 * π * z),
    fun _ x y z => 2 * π * sin (2 * π * x) * cos (2 * π * y) * sin (2 * π * z),
    fun _ x y z => 2 * π * sin (2 * π * x) * sin (2 * π * y) * cos (2 * π * z)),
   (fun t x _ _ => t * x * (x - 1), fun t _ y _ => t * y * (y - 1),
    fun t _ _ z => t * z * (z - 1)),
   (fun _ x y z => 1 + 0 * x * y * z, fun _ x y z => 0 + 0 * x * y * z,
    fun _ x y z => 0 + 0 * x * y * z)]

/-- `SinCosRebholz_Dissipation` (Sin_Cos.py, 80–126): every derivative is overridden. -/
noncomputable def rebholzD : Flow where
  U := { f := fun t _ _ z => (2 - t) * cos (2 * π * z)
         ft := fun _ _ _ z => -cos (2 * π * z)
         fx := fun _ x _ _ => 0 * x
         fy := fun _ x _ _ => 0 * x
         fz := fun t _ _ z => -2 * π * (2 - t) * sin (2 * π * z)
         fxx := fun _ x _ _ => 0 * x
         fyy := fun _ _ y _ => 0 * y
         fzz := fun t _ _ z => -4 * π ^ 2 * (2 - t) * cos (2 * π * z) }
  V := { f := fun t _ _ z => (1 + t) * sin (2 * π * z)
         ft := fun _ _ _ z => sin (2 * π * z)
         fx := fun _ x _ _ => 0 * x
         fy := fun _ x _ _ => 0 * x
         fz := fun t _ _ z => 2 * π * (1 + t) * cos (2 * π * z)
         fxx := fun _ x _ _ => 0 * x
         fyy := fun _ x _ _ => 0 * x
         fzz := fun t _ _ z => -4 * π ^ 2 * (1 + t) * sin (2 * π * z) }
  W := { f := fun t x _ _ => (1 - t) * sin (2 * π * x)
         ft := fun _ x _ _ => -sin (2 * π * x)
         fx := fun t x _ _ => 2 * π * (1 - t) * cos (2 * π * x)
         fy := fun _ x _ _ => 0 * x
         fz := fun _ x _ _ => 0 * x
         fxx := fun t x _ _ => -4 * π ^ 2 * (1 - t) * sin (2 * π * x)
         fyy := fun _ x _ _ => 0 * x
         fzz := fun _ x _ _ => 0 * x }

/-- Sin_Cos.py, 128–134 -/
noncomputable def rebholzDP : Pressure where
  p := fun t x y _ => sin (2 * π * (x + y + t))
  px := fun t x y _ => 2 * π * cos (2 * π * (x + y + t))
  py := fun t x y _ => 2 * π * cos (2 * π * (x + y + t))
  pz := fun _ x _ _ => 0 * x

/-- `SinCos_Modified_Dissipation` (Sin_Cos.py, 144–190): every derivative is overridden. -/
noncomputable def modifiedD : Flow where
  U := { f := fun t _ _ z => (1 - sin (2 * π * t)) * cos (2 * π * z)
         ft := fun t _ _ z => -2 * π * cos (2 * π * t) * cos (2 * π * z)
         fx := fun _ x _ _ => 0 * x
         fy := fun _ x _ _ => 0 * x
         fz := fun t _ _ z => -2 * π * (1 - sin (2 * π * t)) * sin (2 * π * z)
         fxx := fun _ x _ _ => 0 * x
         fyy := fun _ _ y _ => 0 * y
         fzz := fun t _ _ z => -4 * π ^ 2 * (1 - sin (2 * π * t)) * cos (2 * π * z) }
  V := { f := fun t _ _ z => (1 + cos (2 * π * t)) * sin (2 * π * z)
         ft := fun t _ _ z => -2 * π * sin (2 * π * t) * sin (2 * π * z)
         fx := fun _ x _ _ => 0 * x
         fy := fun _ x _ _ => 0 * x
         fz := fun t _ _ z => 2 * π * (1 + cos (2 * π * t)) * cos (2 * π * z)
         fxx := fun _ x _ _ => 0 * x
         fyy := fun _ x _ _ => 0 * x
         fzz := fun t _ _ z => -4 * π ^ 2 * (1 + cos (2 * π * t)) * sin (2 * π * z) }
  W := { f := fun t x _ _ => (1 - sin (2 * π * t)) * sin (2 * π * x)
         ft := fun t x _ _ => -2 * π * cos (2 * π * t) * sin (2 * π * x)
         fx := fun t x _ _ => 2 * π * (1 - sin (2 * π * t)) * cos (2 * π * x)
         fy := fun _ x _ _ => 0 * x
         fz := fun _ x _ _ => 0 * x
         fxx := fun t x _ _ => -4 * π ^ 2 * (1 - sin (2 * π * t)) * sin (2 * π * x)
         fyy := fun _ x _ _ => 0 * x
         fzz := fun _ x _ _ => 0 * x }

/-- Sin_Cos.py, 192–198 -/
noncomputable def modifiedDP : Pressure where
  p := fun t x y z => sin (2 * π * (x + y + z + t))
  px := fun t x y z => 2 * π * cos (2 * π * (x + y + z + t))
  py := fun t x y z => 2 * π * cos (2 * π * (x + y + z + t))
  pz := fun t x y z => 2 * π * cos (2 * π * (x + y + z + t))

/-- `TGV1` (3d incompressibleNavierStokes/Taylor_Green_vortex.py, 43–73) -/
noncomputable def tgv1 (D : Diff3) (V0 L : ℝ) : Flow where
  U := .first D (fun _ x y z => V0 * sin (x / L) * cos (y / L) * cos (z / L))
    (fun _ x y z => (V0 / L) * cos (x / L) * cos (y / L) * cos (z / L))
    (fun _ x y z => -(V0 / L) * sin (x / L) * sin (y / L) * cos (z / L))
    (fun _ x y z => -(V0 / L) * sin (x / L) * cos (y / L) * sin (z / L))
  V := .first D (fun _ x y z => -V0 * cos (x / L) * sin (y / L) * cos (z / L))
    (fun _ x y z => (V0 / L) * sin (x / L) * sin (y / L) * cos (z / L))
    (fun _ x y z => -(V0 / L) * cos (x / L) * cos (y / L) * cos (z / L))
    (fun _ x y z => (V0 / L) * cos (x / L) * sin (y / L) * sin (z / L))
  W := .first D (fun _ x _ _ => 0 * x) (fun _ x _ _ => 0 * x) (fun _ x _ _ => 0 * x)
    (fun _ x _ _ => 0 * x)

/-- `Stokes_SinCos1` (3d Stokes/sin_cos_1.py, 22–29): only the functions are given. -/
noncomputable def stokes1 (D : Diff3) : Flow where
  U := .default D fun _ x y z => cos (2 * π * x) * sin (2 * π * y) * sin (2 * π * z)
  V := .default D fun _ x y z => sin (2 * π * x) * cos (2 * π * y) * sin (2 * π * z)
  W := .default D fun _ x y z => -2 * sin (2 * π * x) * sin (2 * π * y) * cos (2 * π * z)

/-- sin_cos_1.py, 18–19 -/
noncomputable def stokes1P (D : Diff3) : Pressure :=
  .default D fun _ x y z => sin (2 * π * x) * sin (2 * π * y) * sin (2 * π * z)

/-! ## Scalar problems -/

/-- `u, v, w` of the Poisson, wave and Schrödinger bases: the numerical gradient of the potential
(3d Poisson/base.py, 51–67; wave_equations/base.py, 51–67; timeIndependentSchrodingerEquation/base.py,
81–97). -/
def grad (D : Diff3) (phi : Fn3) : Fn3 × Fn3 × Fn3 := (D.x phi, D.y phi, D.z phi)

/-- `f` of `Poisson_Base` (Poisson/base.py, 84–85, with `u_x, v_y, w_z` of 69–82) -/
def poissonF (D : Diff3) (phi : Fn3) : Fn3 := fun t x y z =>
  -D.x (D.x phi) t x y z - D.y (D.y phi) t x y z - D.z (D.z phi) t x y z

/-- `f` of `Wave_Base` (wave_equations/base.py, 90–91, with `psi`, `psi_t` of 45–49 and 69–73) -/
def waveF (D : Diff3) (phi : Fn3) : Fn3 := fun t x y z =>
  D.t (D.t phi) t x y z - D.x (D.x phi) t x y z - D.y (D.y phi) t x y z - D.z (D.z phi) t x y z

/-- `Poisson_SinCos1.phi` (Poisson/Sin_Cos.py, 18–19) -/
noncomputable def poisson1 : Fn3 := fun t x y z =>
  sin (2 * π * x) * sin (2 * π * y) * sin (2 * π * z) + t

/-- `AS1.phi` (wave_equations/analytical_solution1.py, 22–23) -/
noncomputable def wave1 : Fn3 := fun t x y z =>
  sin (2 * π * x) * sin (2 * π * y) * sin (2 * π * z) * exp (t / π)

/-- `_alpha_` (timeIndependentSchrodingerEquation/base.py, 41): `hbar² / (2 m)`; the module
docstring (line 5) has `hbar / (2 m)`. -/
noncomputable def alpha (hbar m : ℝ) : ℝ := hbar ^ 2 / (2 * m)

/-- `TISE_SinCos1.psi` (sin_cos_1.py, 14–15) -/
noncomputable def tisePsi : Fn3 := fun _ x y z =>
  sin (2 * π * x) * sin (2 * π * y) * sin (2 * π * z)

/-- `TISE_SinCos1.V` (sin_cos_1.py, 17–19) -/
noncomputable def tiseV (hbar m E : ℝ) : Fn3 := fun _ _ _ _ => E - 12 * π ^ 2 * alpha hbar m

/-- `___source___` (timeIndependentSchrodingerEquation/base.py, 149–154) -/
noncomputable def tiseSource (hbar m E : ℝ) (V psi : Fn3) : Fn3 := fun t x y z =>
  (V t x y z * psi t x y z - E * psi t x y z) / alpha hbar m

/-- `Eigen1` (3d pH/linearGradDiv/eigen1.py, 15–76): `OM = (a, b, c)`, `PHI = (p, q, r, s)`. -/
structure EigenPars where
  (a b c p q r s : ℝ)

/-- `om_t` (eigen1.py, 40) -/
noncomputable def EigenPars.om (E : EigenPars) : ℝ := sqrt (E.a ^ 2 + E.b ^ 2 + E.c ^ 2)

/-- `p` (eigen1.py, 25–46) -/
noncomputable def eigenP (E : EigenPars) : Fn3 := fun t x y z =>
  -(cos (E.a * x + E.p) * sin (E.b * y + E.q) * sin (E.c * z + E.r))
    * (E.om * (2 * cos (E.om * t + E.s) - 3 * sin (E.om * t + E.s)))

/-- `u` (eigen1.py, 48–56) -/
noncomputable def eigenU (E : EigenPars) : Fn3 := fun t x y z =>
  (-E.a * sin (E.a * x + E.p) * sin (E.b * y + E.q) * sin (E.c * z + E.r))
    * (2 * sin (E.om * t + E.s) + 3 * cos (E.om * t + E.s))

/-- `v` (eigen1.py, 58–66) -/
noncomputable def eigenV (E : EigenPars) : Fn3 := fun t x y z =>
  (E.b * cos (E.a * x + E.p) * cos (E.b * y + E.q) * sin (E.c * z + E.r))
    * (2 * sin (E.om * t + E.s) + 3 * cos (E.om * t + E.s))

/-- `w` (eigen1.py, 68–76) -/
noncomputable def eigenW (E : EigenPars) : Fn3 := fun t x y z =>
  (E.c * cos (E.a * x + E.p) * sin (E.b * y + E.q) * cos (E.c * z + E.r))
    * (2 * sin (E.om * t + E.s) + 3 * cos (E.om * t + E.s))

/-! ## Magnetohydrodynamics -/

/-- An incompressible magnetohydrodynamic solution (3d incompressibleMHD/base.py): velocity,
pressure, the magnetic field and the numbers `1/Rf`, `1/Rm`, `c`. -/
structure MHD where
  flow : Flow
  P : Pressure
  Bx : Comp
  By : Comp
  Bz : Comp
  iRf : ℝ
  iRm : ℝ
  c : ℝ

namespace MHD

/-- `j_x` (incompressibleMHD/base.py, 479–481) -/
def jX (M : MHD) : Fn3 := fun t x y z => M.Bz.fy t x y z - M.By.fz t x y z
/-- `j_y` (base.py, 483–484) -/
def jY (M : MHD) : Fn3 := fun t x y z => M.Bx.fz t x y z - M.Bz.fx t x y z
/-- `j_z` (base.py, 486–487) -/
def jZ (M : MHD) : Fn3 := fun t x y z => M.By.fx t x y z - M.Bx.fy t x y z

/-- `___div_of_B___` (base.py, 464–466) -/
def divB (M : MHD) : Fn3 := fun t x y z => M.Bx.fx t x y z + M.By.fy t x y z + M.Bz.fz t x y z

/-- `Ex` (base.py, 515–517, with `_uXB_x_` of 503–505) -/
def eX (M : MHD) : Fn3 := fun t x y z => M.iRm * M.jX t x y z
  - (M.flow.V.f t x y z * M.Bz.f t x y z - M.flow.W.f t x y z * M.By.f t x y z)
/-- `Ey` (base.py, 519–521, with `_uXB_y_` of 507–509) -/
def eY (M : MHD) : Fn3 := fun t x y z => M.iRm * M.jY t x y z
  - (M.flow.W.f t x y z * M.Bx.f t x y z - M.flow.U.f t x y z * M.Bz.f t x y z)
/-- `Ez` (base.py, 523–525, with `_uXB_z_` of 511–513) -/
def eZ (M : MHD) : Fn3 := fun t x y z => M.iRm * M.jZ t x y z
  - (M.flow.U.f t x y z * M.By.f t x y z - M.flow.V.f t x y z * M.Bx.f t x y z)

/-- `___curl_omega_x___` (base.py, 614–615, with `omega_z_y`, `omega_y_z` of 420–433):
`curl_of_vorticity` differentiates the vorticity here, unlike in the Navier–Stokes base. -/
def curlOmegaX (D : Diff3) (M : MHD) : Fn3 := fun t x y z =>
  D.y M.flow.omegaZ t x y z - D.z M.flow.omegaY t x y z
/-- `___curl_omega_y___` (base.py, 617–618) -/
def curlOmegaY (D : Diff3) (M : MHD) : Fn3 := fun t x y z =>
  D.z M.flow.omegaX t x y z - D.x M.flow.omegaZ t x y z
/-- `___curl_omega_z___` (base.py, 620–621) -/
def curlOmegaZ (D : Diff3) (M : MHD) : Fn3 := fun t x y z =>
  D.x M.flow.omegaY t x y z - D.y M.flow.omegaX t x y z

/-- `___div_of_vorticity___` (base.py, 698–700, with 395–438) -/
def divOmega (D : Diff3) (M : MHD) : Fn3 := fun t x y z =>
  D.x M.flow.omegaX t x y z + D.y M.flow.omegaY t x y z + D.z M.flow.omegaZ t x y z

/-- `fx` (base.py, 702–707) -/
def forceX (M : MHD) : Fn3 := fun t x y z =>
  M.flow.U.ft t x y z + M.flow.omegaY t x y z * M.flow.W.f t x y z
    - M.flow.omegaZ t x y z * M.flow.V.f t x y z + M.flow.tpX M.P t x y z
    - M.iRf * (M.flow.U.fxx t x y z + M.flow.U.fyy t x y z + M.flow.U.fzz t x y z)
    - M.c * (M.jY t x y z * M.Bz.f t x y z - M.jZ t x y z * M.By.f t x y z)
/-- `fy` (base.py, 709–714) -/
def forceY (M : MHD) : Fn3 := fun t x y z =>
  M.flow.V.ft t x y z + M.flow.omegaZ t x y z * M.flow.U.f t x y z
    - M.flow.omegaX t x y z * M.flow.W.f t x y z + M.flow.tpY M.P t x y z
    - M.iRf * (M.flow.V.fxx t x y z + M.flow.V.fyy t x y z + M.flow.V.fzz t x y z)
    - M.c * (M.jZ t x y z * M.Bx.f t x y z - M.jX t x y z * M.Bz.f t x y z)
/-- `fz` (base.py, 716–721) -/
def forceZ (M : MHD) : Fn3 := fun t x y z =>
  M.flow.W.ft t x y z + M.flow.omegaX t x y z * M.flow.V.f t x y z
    - M.flow.omegaY t x y z * M.flow.U.f t x y z + M.flow.tpZ M.P t x y z
    - M.iRf * (M.flow.W.fxx t x y z + M.flow.W.fyy t x y z + M.flow.W.fzz t x y z)
    - M.c * (M.jX t x y z * M.By.f t x y z - M.jY t x y z * M.Bx.f t x y z)

/-- `rx` (base.py, 733–734, with `_CurlEx_` of 633–634) -/
def rX (D : Diff3) (M : MHD) : Fn3 := fun t x y z =>
  M.Bx.ft t x y z + (D.y M.eZ t x y z - D.z M.eY t x y z)
/-- `ry` (base.py, 736–737, with `_CurlEy_` of 636–637) -/
def rY (D : Diff3) (M : MHD) : Fn3 := fun t x y z =>
  M.By.ft t x y z + (D.z M.eX t x y z - D.x M.eZ t x y z)
/-- `rz` (base.py, 739–740, with `_CurlEz_` of 639–640) -/
def rZ (D : Diff3) (M : MHD) : Fn3 := fun t x y z =>
  M.Bz.ft t x y z + (D.x M.eY t x y z - D.y M.eX t x y z)

/-- All classes below override functions only. -/
def default (D : Diff3) (u v w p bx by' bz : Fn3) (iRf iRm c : ℝ) : MHD where
  flow := ⟨.default D u, .default D v, .default D w⟩
  P := .default D p
  Bx := .default D bx
  By := .default D by'
  Bz := .default D bz
  iRf := iRf
  iRm := iRm
  c := c

end MHD

/-- `MHD_SinCos1` (3d incompressibleMHD/sin_cos.py, 23–49) -/
noncomputable def mhdSinCos (D : Diff3) (iRf iRm c : ℝ) : MHD :=
  .default D (fun _ _ _ z => cos (2 * π * z)) (fun _ _ _ z => sin (2 * π * z))
    (fun _ x _ _ => sin (2 * π * x)) (fun t x y z => sin (2 * π * (x + y + z)) + t)
    (fun _ _ _ z => cos (2 * π * z)) (fun _ _ _ z => sin (2 * π * z))
    (fun _ x _ _ => sin (2 * π * x)) iRf iRm c

/-- `_h` (incompressibleMHD/analytic_solution_1.py, 27) -/
def hh (a : ℝ) : ℝ := (a ^ 2 - a) ^ 2
/-- `_h_p` (analytic_solution_1.py, 30) -/
def hp (a : ℝ) : ℝ := 2 * (a ^ 2 - a) * (2 * a - 1)

/-- The velocity of `AS1` (analytic_solution_1.py, 33–48) -/
def as1U (D : Diff3) : Comp := .default D fun t x y z => -(4 - 2 * t) * hp x * hh y * hh z
@[inherit_doc as1U] def as1V (D : Diff3) : Comp :=
  .default D fun t x y z => -(1 + t) * hh x * hp y * hh z
@[inherit_doc as1U] def as1W (D : Diff3) : Comp :=
  .default D fun t x y z => -(1 - t) * hh x * hh y * hp z

/-- `AS1` (analytic_solution_1.py, 33–80): the magnetic field is the numerical vorticity. -/
def as1 (D : Diff3) (iRf iRm c : ℝ) : MHD where
  flow := ⟨as1U D, as1V D, as1W D⟩
  P := .default D fun _ x y z => hh x * hh y * hh z
  Bx := .default D fun t x y z => (as1W D).fy t x y z - (as1V D).fz t x y z
  By := .default D fun t x y z => (as1U D).fz t x y z - (as1W D).fx t x y z
  Bz := .default D fun t x y z => (as1V D).fx t x y z - (as1U D).fy t x y z
  iRf := iRf
  iRm := iRm
  c := c

/-- The mass source `s` of `AS1` (analytic_solution_1.py, 74–76); all other solutions have
`s = 0 * x` (base.py, 558–565). -/
def as1S (D : Diff3) : Fn3 := fun t x y z =>
  (as1U D).fx t x y z + (as1V D).fy t x y z + (as1W D).fz t x y z

/-- `AS2` (analytic_solution_2.py, 25–46) -/
noncomputable def as2 (D : Diff3) (iRf iRm c : ℝ) : MHD :=
  .default D (fun t x y z => sin x * cos y * cos z * exp (t / π))
    (fun t x y z => cos x * sin y * cos z * exp (t / π))
    (fun t x y z => -2 * cos x * cos y * sin z * exp (t / π))
    (fun t x y z => sin x * sin y * sin z * exp (t / π))
    (fun t x y z => cos x * cos y * cos z * exp (t / π))
    (fun t x y z => sin x * sin y * cos z * exp (t / π))
    (fun t x y _ => cos x * sin y * exp (t / π)) iRf iRm c

/-- The velocity and the magnetic field of `AS3` (analytic_solution_3.py, 28–56; the pressure is
not implemented and the force is overridden by zero). -/
noncomputable def as3 (D : Diff3) (p : Fn3) (iRf iRm c : ℝ) : MHD :=
  .default D (fun _ x y z => sin x * cos y * cos z) (fun _ x y z => cos x * sin y * cos z)
    (fun _ x y z => -2 * cos x * cos y * sin z) p
    (fun _ x y z => cos x * cos y * cos z) (fun _ x y z => sin x * sin y * cos z)
    (fun _ x y _ => cos x * sin y) iRf iRm c

/-! ## Two-dimensional flows -/

/-- `u` or `v` with its derivatives (2d incompressibleNavierStokes/base.py, 53–87; Euler/base.py,
37–71). -/
structure Comp2 where
  f : Fn2
  ft : Fn2
  fx : Fn2
  fy : Fn2

@[inherit_doc Comp2] def Comp2.default (D : Diff2) (f : Fn2) : Comp2 := ⟨f, D.t f, D.x f, D.y f⟩

/-- A two-dimensional flow: `omega` may be overridden. -/
structure Flow2 where
  U : Comp2
  V : Comp2
  omega : Fn2

/-- `omega` of the base classes (2d incompressibleNavierStokes/base.py, 110–111; Euler/base.py,
81–82) -/
def omegaDefault (U V : Comp2) : Fn2 := fun t x y => V.fx t x y - U.fy t x y

namespace Flow2

@[inherit_doc Flow2] def default (D : Diff2) (u v : Fn2) : Flow2 :=
  ⟨.default D u, .default D v, omegaDefault (.default D u) (.default D v)⟩

/-- `___div_of_velocity___` (2d incompressibleNavierStokes/base.py, 106–108) -/
def div (F : Flow2) : Fn2 := fun t x y => F.U.fx t x y + F.V.fy t x y

/-- `___kinetic_energy_distribution___` (base.py, 212–213) -/
noncomputable def ke (F : Flow2) : Fn2 := fun t x y => 0.5 * (F.U.f t x y ^ 2 + F.V.f t x y ^ 2)

/-- `_tp_` (base.py, 199–200) -/
noncomputable def tp (F : Flow2) (p : Fn2) : Fn2 := fun t x y => p t x y + F.ke t x y

/-- `fx` (base.py, 225–227, with `omega_y` of 131–134 and `_tp_x_` of 202–205); `Euler/base.py`,
152–153 is the case `nu = 0`. -/
noncomputable def forceX (D : Diff2) (F : Flow2) (p : Fn2) (nu : ℝ) : Fn2 := fun t x y =>
  F.U.ft t x y - F.omega t x y * F.V.f t x y + nu * D.y F.omega t x y + D.x (F.tp p) t x y

/-- `fy` (base.py, 229–231); `Euler/base.py`, 155–156 is the case `nu = 0`. -/
noncomputable def forceY (D : Diff2) (F : Flow2) (p : Fn2) (nu : ℝ) : Fn2 := fun t x y =>
  F.V.ft t x y + F.omega t x y * F.U.f t x y - nu * D.x F.omega t x y + D.y (F.tp p) t x y

end Flow2

/-- `TaylorGreenVortex` (2d incompressibleNavierStokes/Taylor_Green_vortex.py, 38–42) -/
noncomputable def tgv2 (D : Diff2) (nu : ℝ) : Flow2 :=
  .default D (fun t x y => -sin (π * x) * cos (π * y) * exp (-2 * π ^ 2 * nu * t))
    (fun t x y => cos (π * x) * sin (π * y) * exp (-2 * π ^ 2 * nu * t))

/-- Taylor_Green_vortex.py, 44–46 -/
noncomputable def tgv2P (nu : ℝ) : Fn2 := fun t x y =>
  0.25 * (cos (2 * π * x) + cos (2 * π * y)) * exp (-4 * π ^ 2 * nu * t)

/-- The parameters of `DipoleCollision` (2d incompressibleNavierStokes/dipole_collision.py, 31–78);
`K` is the factor `_v_scale_` computed there by quadrature. -/
structure DipolePars where
  (x1 y1 x2 y2 r0 we1 we2 K : ℝ)

/-- `_u_unscaled` (dipole_collision.py, 130–143) -/
noncomputable def dipoleU (P : DipolePars) (x y : ℝ) : ℝ :=
  -0.5 * |P.we1| * (y - P.y1) * exp (-((x - P.x1) ^ 2 + (y - P.y1) ^ 2) / P.r0 ^ 2)
    + 0.5 * |P.we1| * (y - P.y2) * exp (-((x - P.x2) ^ 2 + (y - P.y2) ^ 2) / P.r0 ^ 2)

/-- `_v_unscaled` (dipole_collision.py, 148–160) -/
noncomputable def dipoleV (P : DipolePars) (x y : ℝ) : ℝ :=
  0.5 * |P.we1| * (x - P.x1) * exp (-((x - P.x1) ^ 2 + (y - P.y1) ^ 2) / P.r0 ^ 2)
    + -0.5 * |P.we1| * (x - P.x2) * exp (-((x - P.x2) ^ 2 + (y - P.y2) ^ 2) / P.r0 ^ 2)

/-- `_omega_unscaled` (dipole_collision.py, 165–180) -/
noncomputable def dipoleOmega (P : DipolePars) (x y : ℝ) : ℝ :=
  P.we2 * (1 - ((x - P.x2) ^ 2 + (y - P.y2) ^ 2) / P.r0 ^ 2)
      * exp (-((x - P.x2) ^ 2 + (y - P.y2) ^ 2) / P.r0 ^ 2)
    + P.we1 * (1 - ((x - P.x1) ^ 2 + (y - P.y1) ^ 2) / P.r0 ^ 2)
      * exp (-((x - P.x1) ^ 2 + (y - P.y1) ^ 2) / P.r0 ^ 2)

/-- `DipoleCollision` (dipole_collision.py, 145–146, 162–163, 182–183): `omega` is overridden. -/
noncomputable def dipole (D : Diff2) (P : DipolePars) : Flow2 where
  U := .default D fun _ x y => P.K * dipoleU P x y
  V := .default D fun _ x y => P.K * dipoleV P x y
  omega := fun _ x y => P.K * dipoleOmega P x y

/-- The constructor accepts the parameters (dipole_collision.py, 67): `assert we1 + we2 == 0`.  The
checks of the domain and of the total enstrophy and palinstrophy (83–97) are left out; they do
not see the sign of the vorticity. -/
def DipolePars.accepted (P : DipolePars) : Prop := P.we1 + P.we2 = 0

/-- `f` of `scalar_Laplace_Base` (2d scalarLaplace/base.py, 83–85, with 48–66) -/
def laplaceF (D : Diff2) (p : Fn2) : Fn2 := fun t x y => D.x (D.x p) t x y + D.y (D.y p) t x y

/-- `SinCos1.p` (2d scalarLaplace/SinCos.py, 11) -/
noncomputable def laplace1 : Fn2 := fun _ x y => sin (2 * π * x) * sin (2 * π * y)

end Mifem.ES
