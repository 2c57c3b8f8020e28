import Verif.Props.ExactSolution

/-!
# C73, continued: the solutions that come with the library
-/

set_option linter.unusedSimpArgs false
set_option linter.unusedTactic false
set_option linter.unreachableTactic false

namespace Mifem.Props

open Mifem.ES Real

/-- Evaluate the derivatives on the left-hand side, then compare. -/
macro "pd" : tactic => `(tactic|
  (simp (disch := fun_prop) [exact3, exact2, deriv_fun_mul, deriv_fun_add, deriv_fun_sub,
    -mul_eq_mul_right_iff, -mul_eq_mul_left_iff, -mul_eq_zero, -zero_eq_mul, -neg_inj, -neg_eq_zero,
    -mul_neg, -neg_mul]; try ring1))

/-! ## Three-dimensional Navier–Stokes -/

/-- `NS:SinCosRebholz_Dissipation` and `NS:SinCos_Modified_Dissipation`: the derivatives written out
by hand are the derivatives of the velocity and the pressure. -/
theorem c73_derivatives :
    FlowAgrees exact3 rebholzD ∧ PAgrees exact3 rebholzDP ∧ FlowAgrees exact3 modifiedD ∧
      PAgrees exact3 modifiedDP := by
  refine ⟨⟨⟨?_, ?_, ?_, ?_, ?_, ?_, ?_⟩, ⟨?_, ?_, ?_, ?_, ?_, ?_, ?_⟩, ⟨?_, ?_, ?_, ?_, ?_, ?_, ?_⟩⟩,
    ⟨?_, ?_, ?_⟩,
    ⟨⟨?_, ?_, ?_, ?_, ?_, ?_, ?_⟩, ⟨?_, ?_, ?_, ?_, ?_, ?_, ?_⟩, ⟨?_, ?_, ?_, ?_, ?_, ?_, ?_⟩⟩,
    ⟨?_, ?_, ?_⟩⟩ <;>
  · funext t x y z
    simp only [rebholzD, modifiedD, rebholzDP, modifiedDP]
    pd

theorem agrees_first {f fx fy fz : Fn3} (hx : fx = exact3.x f) (hy : fy = exact3.y f)
    (hz : fz = exact3.z f) : DerivAgrees exact3 (.first exact3 f fx fy fz) where
  t := rfl
  x := hx
  y := hy
  z := hz
  xx := by simp only [Comp.first, hx]
  yy := by simp only [Comp.first, hy]
  zz := by simp only [Comp.first, hz]

/-- The conservation cases and `NS:TGV1`: the first derivatives written out by hand are right. -/
theorem c73_first_derivatives (V0 L : ℝ) :
    FlowAgrees exact3 (rebholzC exact3) ∧ FlowAgrees exact3 (tgv1 exact3 V0 L) := by
  refine ⟨⟨agrees_first ?_ ?_ ?_, agrees_first ?_ ?_ ?_, agrees_first ?_ ?_ ?_⟩,
    ⟨agrees_first ?_ ?_ ?_, agrees_first ?_ ?_ ?_, agrees_first ?_ ?_ ?_⟩⟩ <;>
  · funext t x y z
    pd

/-- All these velocities have no divergence. -/
theorem c73_divergence_free (V0 L : ℝ) (D : Diff3) :
    rebholzD.div = (fun _ _ _ _ => 0) ∧ modifiedD.div = (fun _ _ _ _ => 0) ∧
    (rebholzC D).div = (fun _ _ _ _ => 0) ∧ (tgv1 D V0 L).div = (fun _ _ _ _ => 0) ∧
    (stokes1 exact3).div = (fun _ _ _ _ => 0) := by
  refine ⟨?_, ?_, ?_, ?_, ?_⟩ <;> funext t x y z
  · simp [Flow.div, rebholzD]
  · simp [Flow.div, modifiedD]
  · simp [Flow.div, rebholzC, Comp.first]
  · simp only [Flow.div, tgv1, Comp.first]; ring
  · simp only [Flow.div, stokes1, Comp.default]; pd

/-- The Stokes solution has no divergence even with numerical derivatives. -/
theorem c73_stokes_divergence (h : ℝ) : (stokes1 (central3 h)).div = fun _ _ _ _ => 0 := by
  funext t x y z
  simp only [Flow.div, stokes1, Comp.default, central3, central, mul_sub, mul_add, sin_sub, sin_add,
    cos_sub, cos_add]
  ring

/-- The two dissipative solutions, with the derived body force, solve the Navier–Stokes equations. -/
theorem c73_dissipative (nu : ℝ) :
    NavierStokes exact3 nu rebholzD.U.f rebholzD.V.f rebholzD.W.f rebholzDP.p
      (rebholzD.forceX rebholzDP nu) (rebholzD.forceY rebholzDP nu) (rebholzD.forceZ rebholzDP nu) ∧
    NavierStokes exact3 nu modifiedD.U.f modifiedD.V.f modifiedD.W.f modifiedDP.p
      (modifiedD.forceX modifiedDP nu) (modifiedD.forceY modifiedDP nu)
      (modifiedD.forceZ modifiedDP nu) :=
  ⟨c73_momentum _ _ _ _ c73_derivatives.1 c73_derivatives.2.1,
    c73_momentum _ _ _ _ c73_derivatives.2.2.1 c73_derivatives.2.2.2⟩

/-- The body forces of the conservation cases are conservative: they are gradients. -/
theorem c73_conservative : ∀ f ∈ bodyForces, ∃ phi : Fn3,
    f.1 = exact3.x phi ∧ f.2.1 = exact3.y phi ∧ f.2.2 = exact3.z phi := by
  intro f hf
  simp only [bodyForces, List.mem_cons, List.not_mem_nil, or_false] at hf
  rcases hf with rfl | rfl | rfl | rfl | rfl
  · refine ⟨fun _ _ _ _ => 0, ?_, ?_, ?_⟩ <;> funext t x y z <;> pd
  · refine ⟨fun t x y z => t * sin (2 * π * x) * sin (2 * π * y) * sin (2 * π * z), ?_, ?_, ?_⟩ <;>
      funext t x y z <;> pd
  · refine ⟨fun t x y z => sin (2 * π * x) * sin (2 * π * y) * sin (2 * π * z), ?_, ?_, ?_⟩ <;>
      funext t x y z <;> pd
  · refine ⟨fun t x y z => t * (x ^ 3 / 3 - x ^ 2 / 2 + (y ^ 3 / 3 - y ^ 2 / 2)
      + (z ^ 3 / 3 - z ^ 2 / 2)), ?_, ?_, ?_⟩ <;> funext t x y z <;> pd
  · refine ⟨fun t x y z => x, ?_, ?_, ?_⟩ <;> funext t x y z <;> pd

/-- `total_pressure` and its three derivatives. -/
theorem c73_total_pressure {F : Flow} {P : Pressure} (hF : FlowAgrees exact3 F)
    (hP : PAgrees exact3 P) (hU : Diffable F.U.f) (hV : Diffable F.V.f) (hW : Diffable F.W.f)
    (hp : Diffable P.p) :
    F.tpX P = exact3.x (F.tp P) ∧ F.tpY P = exact3.y (F.tp P) ∧ F.tpZ P = exact3.z (F.tp P) := by
  obtain ⟨p1, p2, p3⟩ := hP
  have slice : ∀ {G : Fn3} (_ : Diffable G) (t x y z : ℝ),
      DifferentiableAt ℝ (fun s => G t s y z) x ∧ DifferentiableAt ℝ (fun s => G t x s z) y ∧
      DifferentiableAt ℝ (fun s => G t x y s) z := by
    intro G hG t x y z
    refine ⟨?_, ?_, ?_⟩
    · exact (hG.comp (f := fun s : ℝ => (t, s, y, z)) (by fun_prop)) x
    · exact (hG.comp (f := fun s : ℝ => (t, x, s, z)) (by fun_prop)) y
    · exact (hG.comp (f := fun s : ℝ => (t, x, y, s)) (by fun_prop)) z
  refine ⟨?_, ?_, ?_⟩ <;> funext t x y z
  · have a := (slice hU t x y z).1; have b := (slice hV t x y z).1
    have c := (slice hW t x y z).1; have d := (slice hp t x y z).1
    simp only [Flow.tpX, Flow.keX, p1, hF.1.x, hF.2.1.x, hF.2.2.x, exact3, Flow.tp, Flow.ke]
    have h := ((d.hasDerivAt).add ((((a.hasDerivAt.pow 2).add (b.hasDerivAt.pow 2)).add
      (c.hasDerivAt.pow 2)).const_mul 0.5)).deriv
    refine Eq.trans ?_ h.symm
    norm_num; ring
  · have a := (slice hU t x y z).2.1; have b := (slice hV t x y z).2.1
    have c := (slice hW t x y z).2.1; have d := (slice hp t x y z).2.1
    simp only [Flow.tpY, Flow.keY, p2, hF.1.y, hF.2.1.y, hF.2.2.y, exact3, Flow.tp, Flow.ke]
    have h := ((d.hasDerivAt).add ((((a.hasDerivAt.pow 2).add (b.hasDerivAt.pow 2)).add
      (c.hasDerivAt.pow 2)).const_mul 0.5)).deriv
    refine Eq.trans ?_ h.symm
    norm_num; ring
  · have a := (slice hU t x y z).2.2; have b := (slice hV t x y z).2.2
    have c := (slice hW t x y z).2.2; have d := (slice hp t x y z).2.2
    simp only [Flow.tpZ, Flow.keZ, p3, hF.1.z, hF.2.1.z, hF.2.2.z, exact3, Flow.tp, Flow.ke]
    have h := ((d.hasDerivAt).add ((((a.hasDerivAt.pow 2).add (b.hasDerivAt.pow 2)).add
      (c.hasDerivAt.pow 2)).const_mul 0.5)).deriv
    refine Eq.trans ?_ h.symm
    norm_num; ring

/-- The distributions of kinetic energy, helicity and enstrophy are those of the velocity and its
curl. -/
theorem c73_densities {D : Diff3} {F : Flow} (hF : FlowAgrees D F) (t x y z : ℝ) :
    2 * F.ke t x y z = F.U.f t x y z ^ 2 + F.V.f t x y z ^ 2 + F.W.f t x y z ^ 2 ∧
    F.helicity t x y z = F.U.f t x y z * curlX D F.U.f F.V.f F.W.f t x y z
      + F.V.f t x y z * curlY D F.U.f F.V.f F.W.f t x y z
      + F.W.f t x y z * curlZ D F.U.f F.V.f F.W.f t x y z ∧
    2 * F.enstrophy t x y z = curlX D F.U.f F.V.f F.W.f t x y z ^ 2
      + curlY D F.U.f F.V.f F.W.f t x y z ^ 2 + curlZ D F.U.f F.V.f F.W.f t x y z ^ 2 := by
  refine ⟨?_, ?_, ?_⟩
  · simp only [Flow.ke]; ring
  · simp only [Flow.helicity, omegaX_eq hF, omegaY_eq hF, omegaZ_eq hF]
  · simp only [Flow.enstrophy, omegaX_eq hF, omegaY_eq hF, omegaZ_eq hF]; ring

/-- The conservation case at the origin: helicity density `-2 π`, computed from the model and from
the curl. -/
example : (rebholzC exact3).helicity 0 0 0 0 = -2 * π := by
  simp [rebholzC, Flow.helicity, Flow.omegaX, Flow.omegaY, Flow.omegaZ, Comp.first]

/-- The hypotheses of `c73_vorticity` hold for the dissipative solution with exact derivatives. -/
example : SmoothField 2 rebholzD.U.f ∧ SmoothField 2 rebholzD.V.f ∧ SmoothField 2 rebholzD.W.f := by
  refine ⟨?_, ?_, ?_⟩ <;>
  · simp only [SmoothField, rebholzD]
    unfold unc
    fun_prop

/-! ## Stokes -/

/-- The Stokes equations as documented: `curl w + grad p = f` with `w = curl u`. -/
def StokesEq (D : Diff3) (u v w p fx fy fz : Fn3) : Prop := ∀ t x y z,
  curlX D (curlX D u v w) (curlY D u v w) (curlZ D u v w) t x y z + D.x p t x y z = fx t x y z ∧
  curlY D (curlX D u v w) (curlY D u v w) (curlZ D u v w) t x y z + D.y p t x y z = fy t x y z ∧
  curlZ D (curlX D u v w) (curlY D u v w) (curlZ D u v w) t x y z + D.z p t x y z = fz t x y z

/-- The derived body force of a flow without divergence satisfies the Stokes equations. -/
theorem c73_stokes_force {D : Diff3} {S : Fn3 → Prop} (hD : FieldCalculus D S) {F : Flow} {P : Pressure}
    (hF : FlowAgrees D F) (hR : FlowRegular D S F) (hP : PAgrees D P)
    (h0 : F.div = fun _ _ _ _ => 0) (hx : D.x (fun _ _ _ _ => 0) = fun _ _ _ _ => 0)
    (hy : D.y (fun _ _ _ _ => 0) = fun _ _ _ _ => 0)
    (hz : D.z (fun _ _ _ _ => 0) = fun _ _ _ _ => 0) :
    StokesEq D F.U.f F.V.f F.W.f P.p (F.stokesX P) (F.stokesY P) (F.stokesZ P) := by
  obtain ⟨hX, hY, hZ⟩ := (c73_vorticity hD hF hR).2 h0 hx hy hz
  rw [omegaX_eq hF, omegaY_eq hF, omegaZ_eq hF] at hX hY hZ
  intro t x y z
  rw [hX, hY, hZ]
  obtain ⟨p1, p2, p3⟩ := hP
  simp only [Flow.stokesX, Flow.stokesY, Flow.stokesZ, p1, p2, p3, and_self]

/-- `Stokes:sincos1` satisfies the Stokes equations with the numerical derivatives of the code. -/
theorem c73_stokes (h : ℝ) :
    StokesEq (central3 h) (stokes1 (central3 h)).U.f (stokes1 (central3 h)).V.f
      (stokes1 (central3 h)).W.f (stokes1P (central3 h)).p
      ((stokes1 (central3 h)).stokesX (stokes1P (central3 h)))
      ((stokes1 (central3 h)).stokesY (stokes1P (central3 h)))
      ((stokes1 (central3 h)).stokesZ (stokes1P (central3 h))) :=
  c73_stokes_force (calculus_central h) ⟨agrees_default _ _, agrees_default _ _, agrees_default _ _⟩
    ⟨regular_central _ _, regular_central _ _, regular_central _ _⟩ ⟨rfl, rfl, rfl⟩
    (c73_stokes_divergence h) (central3_zero h).1 (central3_zero h).2.1 (central3_zero h).2.2

/-! ## Scalar problems -/

/-- The source of `Poisson:sincos1` in closed form. -/
theorem c73_poisson (t x y z : ℝ) : poissonF exact3 poisson1 t x y z
    = 12 * π ^ 2 * (sin (2 * π * x) * sin (2 * π * y) * sin (2 * π * z)) := by
  simp only [poissonF, poisson1, exact3]; pd

/-- The source of `wave:as1` in closed form. -/
theorem c73_wave (t x y z : ℝ) : waveF exact3 wave1 t x y z
    = (1 / π ^ 2 + 12 * π ^ 2) * wave1 t x y z := by
  simp only [waveF, wave1, exact3]; pd

/-- `TISE:sincos1` satisfies the time-independent Schrödinger equation, and the source is the
Laplacian of the wave function. -/
theorem c73_schrodinger (hbar m E t x y z : ℝ) (hα : alpha hbar m ≠ 0) :
    -alpha hbar m * lap exact3 tisePsi t x y z + tiseV hbar m E t x y z * tisePsi t x y z
      = E * tisePsi t x y z ∧
    tiseSource hbar m E (tiseV hbar m E) tisePsi t x y z = lap exact3 tisePsi t x y z := by
  have h : lap exact3 tisePsi t x y z = -12 * π ^ 2 * tisePsi t x y z := by
    simp only [lap, tisePsi, exact3]; pd
  rw [h]
  refine ⟨by simp only [tiseV]; ring, ?_⟩
  simp only [tiseSource, tiseV]
  field_simp
  ring

/-- `pHlGD:Eigen1` solves the port-Hamiltonian wave system `u_t = -grad p`, `p_t = -div u`. -/
theorem c73_eigen (E : EigenPars) (t x y z : ℝ) :
    exact3.t (eigenU E) t x y z = -exact3.x (eigenP E) t x y z ∧
    exact3.t (eigenV E) t x y z = -exact3.y (eigenP E) t x y z ∧
    exact3.t (eigenW E) t x y z = -exact3.z (eigenP E) t x y z ∧
    exact3.t (eigenP E) t x y z = -divField exact3 (eigenU E) (eigenV E) (eigenW E) t x y z := by
  have ho : E.om ^ 2 = E.a ^ 2 + E.b ^ 2 + E.c ^ 2 :=
    Real.sq_sqrt (by positivity)
  refine ⟨?_, ?_, ?_, ?_⟩
  · simp only [eigenU, eigenP, exact3]; pd
  · simp only [eigenV, eigenP, exact3]; pd
  · simp only [eigenW, eigenP, exact3]; pd
  · have h : exact3.t (eigenP E) t x y z = -(cos (E.a * x + E.p) * sin (E.b * y + E.q)
        * sin (E.c * z + E.r)) * (E.om ^ 2 * (-2 * sin (E.om * t + E.s) - 3 * cos (E.om * t + E.s))) := by
      simp only [eigenP, exact3]; pd
    rw [h, ho]
    simp only [divField, eigenU, eigenV, eigenW, exact3]; pd

/-- The source of `sL:sincos1` (two-dimensional Laplace) in closed form. -/
theorem c73_laplace (t x y : ℝ) : laplaceF exact2 laplace1 t x y = -8 * π ^ 2 * laplace1 t x y := by
  simp only [laplaceF, laplace1, exact2]; pd

/-- The velocity of the potential problems is irrotational, also with numerical derivatives. -/
theorem c73_irrotational {D : Diff3} {S : Fn3 → Prop} {phi : Fn3} (h : RegularField D S phi) :
    curlX D (grad D phi).1 (grad D phi).2.1 (grad D phi).2.2 = (fun _ _ _ _ => 0) ∧
    curlY D (grad D phi).1 (grad D phi).2.1 (grad D phi).2.2 = (fun _ _ _ _ => 0) ∧
    curlZ D (grad D phi).1 (grad D phi).2.1 (grad D phi).2.2 = (fun _ _ _ _ => 0) := by
  refine ⟨?_, ?_, ?_⟩ <;> funext t x y z
  · simp only [curlX, grad, h.yz, sub_self]
  · simp only [curlY, grad, h.xz, sub_self]
  · simp only [curlZ, grad, h.xy, sub_self]

example (h : ℝ) : curlX (central3 h) (grad (central3 h) wave1).1 (grad (central3 h) wave1).2.1
    (grad (central3 h) wave1).2.2 = fun _ _ _ _ => 0 :=
  (c73_irrotational (regular_central h wave1)).1

/-! ## Magnetohydrodynamics -/

/-- All methods agree with the derivatives. -/
structure MHDAgrees (D : Diff3) (M : MHD) : Prop where
  flow : FlowAgrees D M.flow
  P : PAgrees D M.P
  bx : DerivAgrees D M.Bx
  by' : DerivAgrees D M.By
  bz : DerivAgrees D M.Bz

/-- One component of the documented momentum equation, convective term written out:
`∂q/∂t + (u·∇) q + g + (1/Rf) curl(ω) - c (j × B) = f`, where `k` is the component of `curl(ω)` and
`l` that of `j × B`. -/
def mhdResidual (D : Diff3) (iRf c : ℝ) (u v w q g k l : Fn3) : Fn3 := fun t x y z =>
  D.t q t x y z + (u t x y z * D.x q t x y z + v t x y z * D.y q t x y z + w t x y z * D.z q t x y z)
    + g t x y z + iRf * k t x y z - c * l t x y z

/-- The first component of a vector product. -/
def crossX (_a1 a2 a3 _b1 b2 b3 : Fn3) : Fn3 := fun t x y z =>
  a2 t x y z * b3 t x y z - a3 t x y z * b2 t x y z
/-- The second component. -/
def crossY (a1 _a2 a3 b1 _b2 b3 : Fn3) : Fn3 := fun t x y z =>
  a3 t x y z * b1 t x y z - a1 t x y z * b3 t x y z
/-- The third component. -/
def crossZ (a1 a2 _a3 b1 b2 _b3 : Fn3) : Fn3 := fun t x y z =>
  a1 t x y z * b2 t x y z - a2 t x y z * b1 t x y z

/-- The left-hand side of the documented momentum equation for the fields of `M`. -/
def mhdX (D : Diff3) (M : MHD) : Fn3 :=
  let u := M.flow.U.f; let v := M.flow.V.f; let w := M.flow.W.f
  let a := M.Bx.f; let b := M.By.f; let d := M.Bz.f
  mhdResidual D M.iRf M.c u v w u (D.x M.P.p)
    (curlX D (curlX D u v w) (curlY D u v w) (curlZ D u v w))
    (crossX (curlX D a b d) (curlY D a b d) (curlZ D a b d) a b d)
@[inherit_doc mhdX] def mhdY (D : Diff3) (M : MHD) : Fn3 :=
  let u := M.flow.U.f; let v := M.flow.V.f; let w := M.flow.W.f
  let a := M.Bx.f; let b := M.By.f; let d := M.Bz.f
  mhdResidual D M.iRf M.c u v w v (D.y M.P.p)
    (curlY D (curlX D u v w) (curlY D u v w) (curlZ D u v w))
    (crossY (curlX D a b d) (curlY D a b d) (curlZ D a b d) a b d)
@[inherit_doc mhdX] def mhdZ (D : Diff3) (M : MHD) : Fn3 :=
  let u := M.flow.U.f; let v := M.flow.V.f; let w := M.flow.W.f
  let a := M.Bx.f; let b := M.By.f; let d := M.Bz.f
  mhdResidual D M.iRf M.c u v w w (D.z M.P.p)
    (curlZ D (curlX D u v w) (curlY D u v w) (curlZ D u v w))
    (crossZ (curlX D a b d) (curlY D a b d) (curlZ D a b d) a b d)

/-- The derived body force misses the documented equation by `(1/Rf) grad(div u)`. -/
theorem c73_mhd_force {D : Diff3} {S : Fn3 → Prop} (hD : FieldCalculus D S) {M : MHD}
    (hM : MHDAgrees D M) (hR : FlowRegular D S M.flow) (t x y z : ℝ) :
    mhdX D M t x y z = M.forceX t x y z + M.iRf * D.x M.flow.div t x y z ∧
    mhdY D M t x y z = M.forceY t x y z + M.iRf * D.y M.flow.div t x y z ∧
    mhdZ D M t x y z = M.forceZ t x y z + M.iRf * D.z M.flow.div t x y z := by
  obtain ⟨ha, hb, hc⟩ := hR
  have hF := hM.flow
  obtain ⟨hU, hV, hW⟩ := hM.flow
  obtain ⟨p1, p2, p3⟩ := hM.P
  have hx := hM.bx; have hy := hM.by'; have hz := hM.bz
  refine ⟨?_, ?_, ?_⟩
  · rw [div_eq hF]
    simp only [mhdX, mhdResidual, curl_curlX hD ha hb hc, crossX, MHD.forceX, MHD.jY, MHD.jZ,
      Flow.omegaY, Flow.omegaZ, Flow.tpX, Flow.keX, curlY, curlZ, lap, hU.t, hU.x, hU.y, hU.z, hU.xx,
      hU.yy, hU.zz, hV.x, hV.z, hW.x, p1, hx.z, hz.x, hy.x, hx.y]
    ring
  · rw [div_eq hF]
    simp only [mhdY, mhdResidual, curl_curlY hD ha hb hc, crossY, MHD.forceY, MHD.jX, MHD.jZ,
      Flow.omegaX, Flow.omegaZ, Flow.tpY, Flow.keY, curlX, curlZ, lap, hV.t, hV.x, hV.y, hV.z, hV.xx,
      hV.yy, hV.zz, hU.y, hU.z, hW.y, p2, hz.y, hy.z, hy.x, hx.y]
    ring
  · rw [div_eq hF]
    simp only [mhdZ, mhdResidual, curl_curlZ hD ha hb hc, crossZ, MHD.forceZ, MHD.jX, MHD.jY,
      Flow.omegaX, Flow.omegaY, Flow.tpZ, Flow.keZ, curlX, curlY, lap, hW.t, hW.x, hW.y, hW.z, hW.xx,
      hW.yy, hW.zz, hU.z, hV.z, p3, hz.y, hy.z, hx.z, hz.x]
    ring

/-- What `default` builds agrees with the derivatives it used. -/
theorem mhd_default_agrees (D : Diff3) (u v w p a b d : Fn3) (iRf iRm c : ℝ) :
    MHDAgrees D (.default D u v w p a b d iRf iRm c) where
  flow := ⟨agrees_default _ _, agrees_default _ _, agrees_default _ _⟩
  P := ⟨rfl, rfl, rfl⟩
  bx := agrees_default _ _
  by' := agrees_default _ _
  bz := agrees_default _ _

/-- The velocities of the solutions without mass source have no divergence, numerically. -/
theorem c73_mhd_divergence (h : ℝ) (p : Fn3) (iRf iRm c : ℝ) :
    (mhdSinCos (central3 h) iRf iRm c).flow.div = (fun _ _ _ _ => 0) ∧
    (as2 (central3 h) iRf iRm c).flow.div = (fun _ _ _ _ => 0) ∧
    (as3 (central3 h) p iRf iRm c).flow.div = (fun _ _ _ _ => 0) := by
  refine ⟨?_, ?_, ?_⟩ <;> funext t x y z <;>
  · simp only [mhdSinCos, as2, as3, MHD.default, Flow.div, Comp.default, central3, central, mul_sub,
      mul_add, sin_sub, sin_add, cos_sub, cos_add]
    ring

/-- So the momentum equation holds for `MHD:SinCos1` and `MHD:as2`, with the derivatives of the
code. -/
theorem c73_mhd (h iRf iRm c : ℝ) : ∀ M ∈ [mhdSinCos (central3 h) iRf iRm c, as2 (central3 h) iRf iRm c],
    mhdX (central3 h) M = M.forceX ∧ mhdY (central3 h) M = M.forceY
      ∧ mhdZ (central3 h) M = M.forceZ := by
  intro M hM
  have key : MHDAgrees (central3 h) M ∧ M.flow.div = fun _ _ _ _ => 0 := by
    rcases List.mem_cons.1 hM with rfl | hM
    · exact ⟨mhd_default_agrees .., (c73_mhd_divergence h (fun _ _ _ _ => 0) iRf iRm c).1⟩
    · rw [List.mem_singleton.1 hM]
      exact ⟨mhd_default_agrees .., (c73_mhd_divergence h (fun _ _ _ _ => 0) iRf iRm c).2.1⟩
  have hf := c73_mhd_force (calculus_central h) key.1
    ⟨regular_central _ _, regular_central _ _, regular_central _ _⟩
  obtain ⟨zx, zy, zz⟩ := central3_zero h
  refine ⟨?_, ?_, ?_⟩ <;> funext t x y z
  · rw [(hf t x y z).1, key.2, zx]; ring
  · rw [(hf t x y z).2.1, key.2, zy]; ring
  · rw [(hf t x y z).2.2, key.2, zz]; ring

theorem smooth_as1 : SmoothField 2 (as1U exact3).f ∧ SmoothField 2 (as1V exact3).f
    ∧ SmoothField 2 (as1W exact3).f := by
  refine ⟨?_, ?_, ?_⟩ <;>
  · simp only [SmoothField, as1U, as1V, as1W, Comp.default, hh, hp]
    unfold unc
    fun_prop

/-- It does not hold for `MHD:as1` at finite Reynolds number: that solution has a mass source. -/
theorem c73_mhd_as1_fails (iRf iRm c : ℝ) (hR : iRf ≠ 0) :
    mhdX exact3 (as1 exact3 iRf iRm c) ≠ (as1 exact3 iRf iRm c).forceX := by
  intro hcon
  have hM : MHDAgrees exact3 (as1 exact3 iRf iRm c) :=
    ⟨⟨agrees_default _ _, agrees_default _ _, agrees_default _ _⟩, ⟨rfl, rfl, rfl⟩,
      agrees_default _ _, agrees_default _ _, agrees_default _ _⟩
  have hreg : FlowRegular exact3 Diffable (as1 exact3 iRf iRm c).flow :=
    ⟨regular_exact smooth_as1.1, regular_exact smooth_as1.2.1, regular_exact smooth_as1.2.2⟩
  have h1 := (c73_mhd_force calculus_exact hM hreg 0 (1 / 4) (1 / 2) (1 / 2)).1
  rw [hcon] at h1
  have h2 : exact3.x (as1 exact3 iRf iRm c).flow.div 0 (1 / 4) (1 / 2) (1 / 2) = 0 := by
    have : iRf * exact3.x (as1 exact3 iRf iRm c).flow.div 0 (1 / 4) (1 / 2) (1 / 2) = 0 := by
      have e : (as1 exact3 iRf iRm c).iRf = iRf := rfl
      rw [e] at h1
      linarith
    exact (mul_eq_zero.1 this).resolve_left hR
  have h3 : (as1 exact3 iRf iRm c).flow.div = fun t x y z =>
      -(4 - 2 * t) * (12 * x ^ 2 - 12 * x + 2) * hh y * hh z
      + -(1 + t) * hh x * (12 * y ^ 2 - 12 * y + 2) * hh z
      + -(1 - t) * hh x * hh y * (12 * z ^ 2 - 12 * z + 2) := by
    funext t x y z
    simp only [as1, Flow.div, as1U, as1V, as1W, Comp.default, hh, hp]
    pd
  rw [h3] at h2
  have h4 : ∀ t x y z, exact3.x (fun t x y z =>
      -(4 - 2 * t) * (12 * x ^ 2 - 12 * x + 2) * hh y * hh z
      + -(1 + t) * hh x * (12 * y ^ 2 - 12 * y + 2) * hh z
      + -(1 - t) * hh x * hh y * (12 * z ^ 2 - 12 * z + 2)) t x y z
      = -(4 - 2 * t) * (24 * x - 12) * hh y * hh z
      + -(1 + t) * hp x * (12 * y ^ 2 - 12 * y + 2) * hh z
      + -(1 - t) * hp x * hh y * (12 * z ^ 2 - 12 * z + 2) := by
    intro t x y z
    simp only [hh, hp]
    pd
  rw [h4] at h2
  simp only [hh, hp] at h2
  norm_num at h2

theorem as1_divB (D : Diff3) (iRf iRm c : ℝ) : (as1 D iRf iRm c).divB
    = divField D (curlX D (as1U D).f (as1V D).f (as1W D).f) (curlY D (as1U D).f (as1V D).f (as1W D).f)
      (curlZ D (as1U D).f (as1V D).f (as1W D).f) := rfl

/-- The magnetic fields have no divergence, with the derivatives of the code. -/
theorem c73_magnetic (h : ℝ) (p : Fn3) (iRf iRm c : ℝ) :
    (mhdSinCos (central3 h) iRf iRm c).divB = (fun _ _ _ _ => 0) ∧
    (as1 (central3 h) iRf iRm c).divB = (fun _ _ _ _ => 0) ∧
    (as2 (central3 h) iRf iRm c).divB = (fun _ _ _ _ => 0) ∧
    (as3 (central3 h) p iRf iRm c).divB = (fun _ _ _ _ => 0) := by
  refine ⟨?_, ?_, ?_, ?_⟩
  · funext t x y z
    simp only [mhdSinCos, MHD.default, MHD.divB, Comp.default, central3, central]
    ring
  · rw [as1_divB]
    exact div_curl (calculus_central h) (regular_central h (as1U (central3 h)).f)
      (regular_central h (as1V (central3 h)).f) (regular_central h (as1W (central3 h)).f)
  · funext t x y z
    simp only [as2, MHD.default, MHD.divB, Comp.default, central3, central, sin_sub, sin_add, cos_sub,
      cos_add]
    ring
  · funext t x y z
    simp only [as3, MHD.default, MHD.divB, Comp.default, central3, central, sin_sub, sin_add, cos_sub,
      cos_add]
    ring

/-- Faraday's law with the source `r` keeps the magnetic field free of divergence: `r` has the
divergence of `∂B/∂t`. -/
theorem c73_faraday (h : ℝ) {M : MHD} (hM : MHDAgrees (central3 h) M) :
    divField (central3 h) (M.rX (central3 h)) (M.rY (central3 h)) (M.rZ (central3 h))
      = (central3 h).t M.divB := by
  have h0 := div_curl (calculus_central h) (regular_central h M.eX) (regular_central h M.eY)
    (regular_central h M.eZ)
  funext t x y z
  have h1 := congrFun (congrFun (congrFun (congrFun h0 t) x) y) z
  have hD := calculus_central h
  have e1 : (central3 h).x (M.rX (central3 h)) = fun t x y z => (central3 h).x M.Bx.ft t x y z
      + (central3 h).x (curlX (central3 h) M.eX M.eY M.eZ) t x y z := hD.xadd _ _ trivial trivial
  have e2 : (central3 h).y (M.rY (central3 h)) = fun t x y z => (central3 h).y M.By.ft t x y z
      + (central3 h).y (curlY (central3 h) M.eX M.eY M.eZ) t x y z := hD.yadd _ _ trivial trivial
  have e3 : (central3 h).z (M.rZ (central3 h)) = fun t x y z => (central3 h).z M.Bz.ft t x y z
      + (central3 h).z (curlZ (central3 h) M.eX M.eY M.eZ) t x y z := hD.zadd _ _ trivial trivial
  simp only [divField] at h1 ⊢
  rw [e1, e2, e3]
  have h2 : (central3 h).t M.divB t x y z = (central3 h).x M.Bx.ft t x y z
      + (central3 h).y M.By.ft t x y z + (central3 h).z M.Bz.ft t x y z := by
    have : M.divB = fun t x y z => M.Bx.fx t x y z + M.By.fy t x y z + M.Bz.fz t x y z := rfl
    rw [this, hM.bx.x, hM.by'.y, hM.bz.z, hM.bx.t, hM.by'.t, hM.bz.t]
    simp only [central3, central]
    ring
  rw [h2]
  linarith

/-- The mass source of `MHD:as1` is the divergence of its velocity. -/
theorem c73_mass (D : Diff3) (iRf iRm c : ℝ) : as1S D = divField D (as1 D iRf iRm c).flow.U.f
    (as1 D iRf iRm c).flow.V.f (as1 D iRf iRm c).flow.W.f := rfl

/-- Ampère's and Ohm's law for the derived fields. -/
theorem c73_ohm {D : Diff3} {M : MHD} (hM : MHDAgrees D M) (t x y z : ℝ) :
    let u := M.flow.U.f; let v := M.flow.V.f; let w := M.flow.W.f
    let a := M.Bx.f; let b := M.By.f; let d := M.Bz.f
    M.iRm * curlX D a b d t x y z - M.eX t x y z = crossX u v w a b d t x y z ∧
    M.iRm * curlY D a b d t x y z - M.eY t x y z = crossY u v w a b d t x y z ∧
    M.iRm * curlZ D a b d t x y z - M.eZ t x y z = crossZ u v w a b d t x y z := by
  refine ⟨?_, ?_, ?_⟩
  · simp only [MHD.eX, MHD.jX, curlX, crossX, hM.bz.y, hM.by'.z]; ring
  · simp only [MHD.eY, MHD.jY, curlY, crossY, hM.bx.z, hM.bz.x]; ring
  · simp only [MHD.eZ, MHD.jZ, curlZ, crossZ, hM.by'.x, hM.bx.y]; ring

/-! ## Two dimensions -/

/-- A planar field seen as one that does not depend on the third coordinate. -/
def lift (F : Fn2) : Fn3 := fun t x y _ => F t x y

/-- One component of the two-dimensional momentum equation. -/
def Transport2 (D : Diff2) (nu : ℝ) (u v q g f : Fn2) : Prop := ∀ t x y,
  D.t q t x y + (u t x y * D.x q t x y + v t x y * D.y q t x y) + g t x y
    = nu * (D.x (D.x q) t x y + D.y (D.y q) t x y) + f t x y

/-- The derivative methods of the two components and the vorticity are right. -/
structure Flow2Agrees (D : Diff2) (F : Flow2) : Prop where
  ut : F.U.ft = D.t F.U.f
  ux : F.U.fx = D.x F.U.f
  uy : F.U.fy = D.y F.U.f
  vt : F.V.ft = D.t F.V.f
  vx : F.V.fx = D.x F.V.f
  vy : F.V.fy = D.y F.V.f
  omega : F.omega = fun t x y => D.x F.V.f t x y - D.y F.U.f t x y

/-- The body force the two-dimensional base classes derive makes a divergence-free velocity a
solution of the Navier–Stokes equations; the viscous term is `nu curl ω` here. -/
theorem c73_momentum_2d {F : Flow2} {p : Fn2} {nu : ℝ} (hF : Flow2Agrees exact2 F)
    (hu : SmoothField 2 (lift F.U.f)) (hv : SmoothField 2 (lift F.V.f)) (hp : Diffable (lift p))
    (h0 : nu = 0 ∨ F.div = fun _ _ _ => 0) :
    Transport2 exact2 nu F.U.f F.V.f F.U.f (exact2.x p) (F.forceX exact2 p nu) ∧
    Transport2 exact2 nu F.U.f F.V.f F.V.f (exact2.y p) (F.forceY exact2 p nu) := by
  have ru := regular_exact hu
  have rv := regular_exact hv
  have du : Diffable (lift F.U.f) := ContDiff.differentiable hu (by norm_num)
  have dv : Diffable (lift F.V.f) := ContDiff.differentiable hv (by norm_num)
  have slice : ∀ {G : Fn2} (_ : Diffable (lift G)) (t x y : ℝ),
      DifferentiableAt ℝ (fun s => G t s y) x ∧ DifferentiableAt ℝ (fun s => G t x s) y := by
    intro G hG t x y
    refine ⟨?_, ?_⟩
    · exact (hG.comp (f := fun s : ℝ => (t, s, y, 0)) (by fun_prop)) x
    · exact (hG.comp (f := fun s : ℝ => (t, x, s, 0)) (by fun_prop)) y
  have tpx : ∀ t x y, exact2.x (F.tp p) t x y = exact2.x p t x y
      + (F.U.f t x y * exact2.x F.U.f t x y + F.V.f t x y * exact2.x F.V.f t x y) := by
    intro t x y
    have h := (((slice hp t x y).1.hasDerivAt).add ((((slice du t x y).1.hasDerivAt.pow 2).add
      ((slice dv t x y).1.hasDerivAt.pow 2)).const_mul 0.5)).deriv
    refine Eq.trans h ?_
    simp only [exact2]; norm_num; ring
  have tpy : ∀ t x y, exact2.y (F.tp p) t x y = exact2.y p t x y
      + (F.U.f t x y * exact2.y F.U.f t x y + F.V.f t x y * exact2.y F.V.f t x y) := by
    intro t x y
    have h := (((slice hp t x y).2.hasDerivAt).add ((((slice du t x y).2.hasDerivAt.pow 2).add
      ((slice dv t x y).2.hasDerivAt.pow 2)).const_mul 0.5)).deriv
    refine Eq.trans h ?_
    simp only [exact2]; norm_num; ring
  have oy : ∀ t x y, exact2.y F.omega t x y
      = exact2.y (exact2.x F.V.f) t x y - exact2.y (exact2.y F.U.f) t x y := by
    intro t x y
    rw [hF.omega]
    have := congrFun (congrFun (congrFun (congrFun (calculus_exact.ysub _ _ rv.sx ru.sy) t) x) y) 0
    exact this
  have ox : ∀ t x y, exact2.x F.omega t x y
      = exact2.x (exact2.x F.V.f) t x y - exact2.x (exact2.y F.U.f) t x y := by
    intro t x y
    rw [hF.omega]
    have := congrFun (congrFun (congrFun (congrFun (calculus_exact.xsub _ _ rv.sx ru.sy) t) x) y) 0
    exact this
  have cu : ∀ t x y, exact2.x (exact2.y F.U.f) t x y = exact2.y (exact2.x F.U.f) t x y := by
    intro t x y
    exact congrFun (congrFun (congrFun (congrFun ru.xy t) x) y) 0
  have cv : ∀ t x y, exact2.x (exact2.y F.V.f) t x y = exact2.y (exact2.x F.V.f) t x y := by
    intro t x y
    exact congrFun (congrFun (congrFun (congrFun rv.xy t) x) y) 0
  have hdx : ∀ t x y, nu * (exact2.x (exact2.x F.U.f) t x y + exact2.x (exact2.y F.V.f) t x y) = 0 := by
    intro t x y
    rcases h0 with h0 | h0
    · rw [h0, zero_mul]
    · have e : exact2.x F.div t x y
          = exact2.x (exact2.x F.U.f) t x y + exact2.x (exact2.y F.V.f) t x y := by
        have e0 : F.div = fun t x y => exact2.x F.U.f t x y + exact2.y F.V.f t x y := by
          funext t x y; simp only [Flow2.div, hF.ux, hF.vy]
        rw [e0]
        exact congrFun (congrFun (congrFun (congrFun (calculus_exact.xadd _ _ ru.sx rv.sy) t) x) y) 0
      rw [← e, h0]; simp [exact2]
  have hdy : ∀ t x y, nu * (exact2.y (exact2.x F.U.f) t x y + exact2.y (exact2.y F.V.f) t x y) = 0 := by
    intro t x y
    rcases h0 with h0 | h0
    · rw [h0, zero_mul]
    · have e : exact2.y F.div t x y
          = exact2.y (exact2.x F.U.f) t x y + exact2.y (exact2.y F.V.f) t x y := by
        have e0 : F.div = fun t x y => exact2.x F.U.f t x y + exact2.y F.V.f t x y := by
          funext t x y; simp only [Flow2.div, hF.ux, hF.vy]
        rw [e0]
        exact congrFun (congrFun (congrFun (congrFun (calculus_exact.yadd _ _ ru.sx rv.sy) t) x) y) 0
      rw [← e, h0]; simp [exact2]
  refine ⟨fun t x y => ?_, fun t x y => ?_⟩
  · have h1 := hdx t x y
    simp only [Flow2.forceX, tpx, oy, hF.ut]
    rw [cv] at h1
    rw [hF.omega]
    linear_combination -h1
  · have h1 := hdy t x y
    simp only [Flow2.forceY, tpy, ox, hF.vt]
    rw [cu]
    rw [hF.omega]
    linear_combination -h1

/-- The two-dimensional Taylor–Green vortex is an exact solution without body force: the derived
body force vanishes, for every viscosity. -/
theorem c73_tgv2 (nu t x y : ℝ) :
    (tgv2 exact2 nu).div t x y = 0 ∧
    (tgv2 exact2 nu).forceX exact2 (tgv2P nu) nu t x y = 0 ∧
    (tgv2 exact2 nu).forceY exact2 (tgv2P nu) nu t x y = 0 := by
  have hE : exp (-4 * π ^ 2 * nu * t) = exp (-2 * π ^ 2 * nu * t) ^ 2 := by
    rw [← Real.exp_nat_mul]; congr 1; push_cast; ring
  have hx := Real.sin_sq_add_cos_sq (π * x)
  have hy := Real.sin_sq_add_cos_sq (π * y)
  have sx : sin (2 * π * x) = 2 * sin (π * x) * cos (π * x) := by
    rw [mul_assoc, Real.sin_two_mul]
  have sy : sin (2 * π * y) = 2 * sin (π * y) * cos (π * y) := by
    rw [mul_assoc, Real.sin_two_mul]
  set E := exp (-2 * π ^ 2 * nu * t) with hEdef
  have ut : (tgv2 exact2 nu).U.ft t x y = 2 * π ^ 2 * nu * sin (π * x) * cos (π * y) * E := by
    simp only [tgv2, Flow2.default, Comp2.default, hEdef, exact2]; pd
  have vt : (tgv2 exact2 nu).V.ft t x y = -2 * π ^ 2 * nu * cos (π * x) * sin (π * y) * E := by
    simp only [tgv2, Flow2.default, Comp2.default, hEdef, exact2]; pd
  have om : (tgv2 exact2 nu).omega
      = fun t x y => -2 * π * sin (π * x) * sin (π * y) * exp (-2 * π ^ 2 * nu * t) := by
    funext t x y
    simp only [tgv2, Flow2.default, omegaDefault, Comp2.default, exact2]; pd
  have oy : exact2.y (tgv2 exact2 nu).omega t x y = -2 * π ^ 2 * sin (π * x) * cos (π * y) * E := by
    rw [om]; simp only [exact2, hEdef]; pd
  have ox : exact2.x (tgv2 exact2 nu).omega t x y = -2 * π ^ 2 * cos (π * x) * sin (π * y) * E := by
    rw [om]; simp only [exact2, hEdef]; pd
  have tx : exact2.x ((tgv2 exact2 nu).tp (tgv2P nu)) t x y
      = -0.5 * π * sin (2 * π * x) * exp (-4 * π ^ 2 * nu * t)
        + π * sin (π * x) * cos (π * x) * (cos (π * y) ^ 2 - sin (π * y) ^ 2) * E ^ 2 := by
    simp only [tgv2, Flow2.default, Flow2.tp, Flow2.ke, tgv2P, Comp2.default, exact2, hEdef]; pd
  have ty : exact2.y ((tgv2 exact2 nu).tp (tgv2P nu)) t x y
      = -0.5 * π * sin (2 * π * y) * exp (-4 * π ^ 2 * nu * t)
        + π * sin (π * y) * cos (π * y) * (cos (π * x) ^ 2 - sin (π * x) ^ 2) * E ^ 2 := by
    simp only [tgv2, Flow2.default, Flow2.tp, Flow2.ke, tgv2P, Comp2.default, exact2, hEdef]; pd
  refine ⟨?_, ?_, ?_⟩
  · simp only [tgv2, Flow2.default, Flow2.div, Comp2.default, exact2]; pd
  · simp only [Flow2.forceX]
    rw [ut, oy, tx, om, hE, sx]
    simp only [tgv2, Flow2.default, Comp2.default, ← hEdef]
    linear_combination (π * sin (π * x) * cos (π * x) * E ^ 2) * hy
  · simp only [Flow2.forceY]
    rw [vt, ox, ty, om, hE, sy]
    simp only [tgv2, Flow2.default, Comp2.default, ← hEdef]
    linear_combination (π * sin (π * y) * cos (π * y) * E ^ 2) * hx

/-- The hypotheses of `c73_momentum_2d` hold for the Taylor–Green vortex. -/
example (nu : ℝ) : Flow2Agrees exact2 (tgv2 exact2 nu) ∧ SmoothField 2 (lift (tgv2 exact2 nu).U.f) ∧
    SmoothField 2 (lift (tgv2 exact2 nu).V.f) ∧ Diffable (lift (tgv2P nu)) := by
  refine ⟨⟨rfl, rfl, rfl, rfl, rfl, rfl, rfl⟩, ?_, ?_, ?_⟩
  · simp only [SmoothField, tgv2, Flow2.default, Comp2.default]; unfold unc lift; fun_prop
  · simp only [SmoothField, tgv2, Flow2.default, Comp2.default]; unfold unc lift; fun_prop
  · unfold Diffable lift unc tgv2P; fun_prop

/-- The dipole: no divergence, and the curl of the velocity has the sign of `|we1|`. -/
theorem dipole_curl (P : DipolePars) (t x y : ℝ) :
    (dipole exact2 P).div t x y = 0 ∧
    exact2.x (dipole exact2 P).V.f t x y - exact2.y (dipole exact2 P).U.f t x y
      = P.K * dipoleOmega { P with we1 := |P.we1|, we2 := -|P.we1| } x y := by
  refine ⟨?_, ?_⟩
  · simp only [dipole, Flow2.div, Comp2.default, exact2, dipoleU, dipoleV]; pd
  · simp only [dipole, Comp2.default, exact2, dipoleU, dipoleV, dipoleOmega]; pd

/-- `NS:DipoleCollision` with a positive first vortex: the vorticity written out by hand is the
curl of the velocity. -/
theorem c73_dipole_partial (P : DipolePars) (hP : P.accepted) (h1 : 0 ≤ P.we1) :
    Flow2Agrees exact2 (dipole exact2 P) ∧ (dipole exact2 P).div = fun _ _ _ => 0 := by
  have h2 : P.we2 = -P.we1 := by unfold DipolePars.accepted at hP; linarith
  refine ⟨⟨rfl, rfl, rfl, rfl, rfl, rfl, ?_⟩, ?_⟩
  · funext t x y
    rw [(dipole_curl P t x y).2, abs_of_nonneg h1]
    simp only [dipole, dipoleOmega, h2]
  · funext t x y; exact (dipole_curl P t x y).1

/-- With a negative first vortex the vorticity has the wrong sign, though the constructor accepts
the parameters. -/
theorem c73_dipole_fails : ∃ P : DipolePars, P.accepted ∧ P.r0 ≠ 0 ∧ P.K ≠ 0 ∧
    (dipole exact2 P).omega ≠ fun t x y =>
      exact2.x (dipole exact2 P).V.f t x y - exact2.y (dipole exact2 P).U.f t x y := by
  refine ⟨⟨0, 0.1, 0, -0.1, 0.1, -320, 320, 1⟩, by norm_num [DipolePars.accepted], by norm_num,
    one_ne_zero, fun h => ?_⟩
  have h1 := congrFun (congrFun (congrFun h 0) 0) 0.1
  rw [(dipole_curl _ _ _ _).2] at h1
  simp only [dipole, dipoleOmega] at h1
  norm_num at h1
  have := Real.exp_pos (-4)
  linarith

end Mifem.Props
