import Verif.Model.ExactSolution
import Mathlib.Analysis.Calculus.FDeriv.Symmetric
import Mathlib.Analysis.Calculus.ContDiff.Basic
import Mathlib.Analysis.Calculus.Deriv.Prod
import Mathlib.Analysis.SpecialFunctions.Trigonometric.Bounds

/-!
# C73: manufactured solutions satisfy the equations they are documented to satisfy

The specification is written with the true partial derivatives `exact3`, `exact2` (and, where a
statement also holds for them, with the central differences of the code).
-/

namespace Mifem.Props

open Mifem.ES Real

/-! ## Specification -/

/-- The true partial derivatives. -/
noncomputable def exact3 : Diff3 where
  t F := fun t x y z => deriv (fun s => F s x y z) t
  x F := fun t x y z => deriv (fun s => F t s y z) x
  y F := fun t x y z => deriv (fun s => F t x s z) y
  z F := fun t x y z => deriv (fun s => F t x y s) z

@[inherit_doc exact3] noncomputable def exact2 : Diff2 where
  t F := fun t x y => deriv (fun s => F s x y) t
  x F := fun t x y => deriv (fun s => F t s y) x
  y F := fun t x y => deriv (fun s => F t x s) y

/-- Divergence of a vector field. -/
def divField (D : Diff3) (a b c : Fn3) : Fn3 := fun t x y z =>
  D.x a t x y z + D.y b t x y z + D.z c t x y z

/-- The first component of the curl of a vector field. -/
def curlX (D : Diff3) (_a b c : Fn3) : Fn3 := fun t x y z => D.y c t x y z - D.z b t x y z
/-- The second component. -/
def curlY (D : Diff3) (a _b c : Fn3) : Fn3 := fun t x y z => D.z a t x y z - D.x c t x y z
/-- The third component. -/
def curlZ (D : Diff3) (a b _c : Fn3) : Fn3 := fun t x y z => D.x b t x y z - D.y a t x y z

/-- The Laplacian of a scalar field. -/
def lap (D : Diff3) (a : Fn3) : Fn3 := fun t x y z =>
  D.x (D.x a) t x y z + D.y (D.y a) t x y z + D.z (D.z a) t x y z

/-- One component `q` of the momentum equation in convective form:
`∂q/∂t + (u·∇) q + g = nu Δq + f`. -/
def Transport (D : Diff3) (nu : ℝ) (u v w q g f : Fn3) : Prop := ∀ t x y z,
  D.t q t x y z + (u t x y z * D.x q t x y z + v t x y z * D.y q t x y z + w t x y z * D.z q t x y z)
    + g t x y z = nu * lap D q t x y z + f t x y z

/-- The incompressible Navier–Stokes equations with viscosity `nu` and body force `f`. -/
def NavierStokes (D : Diff3) (nu : ℝ) (u v w p fx fy fz : Fn3) : Prop :=
  Transport D nu u v w u (D.x p) fx ∧ Transport D nu u v w v (D.y p) fy
    ∧ Transport D nu u v w w (D.z p) fz

/-- The methods named after derivatives return the derivatives of `f`. -/
structure DerivAgrees (D : Diff3) (C : Comp) : Prop where
  t : C.ft = D.t C.f
  x : C.fx = D.x C.f
  y : C.fy = D.y C.f
  z : C.fz = D.z C.f
  xx : C.fxx = D.x (D.x C.f)
  yy : C.fyy = D.y (D.y C.f)
  zz : C.fzz = D.z (D.z C.f)

/-- All methods of a flow agree with the derivatives of the velocity. -/
def FlowAgrees (D : Diff3) (F : Flow) : Prop := DerivAgrees D F.U ∧ DerivAgrees D F.V ∧ DerivAgrees D F.W

/-- `p_x`, `p_y`, `p_z` are the derivatives of `p`. -/
def PAgrees (D : Diff3) (P : Pressure) : Prop := P.px = D.x P.p ∧ P.py = D.y P.p ∧ P.pz = D.z P.p

theorem agrees_default (D : Diff3) (f : Fn3) : DerivAgrees D (.default D f) :=
  ⟨rfl, rfl, rfl, rfl, rfl, rfl, rfl⟩

/-- The body force the base class derives makes velocity and pressure a solution of the
Navier–Stokes equations (with the derivatives the class uses, numerical or not). -/
theorem c73_momentum (D : Diff3) (F : Flow) (P : Pressure) (nu : ℝ) (hF : FlowAgrees D F)
    (hP : PAgrees D P) :
    NavierStokes D nu F.U.f F.V.f F.W.f P.p (F.forceX P nu) (F.forceY P nu) (F.forceZ P nu) := by
  obtain ⟨hU, hV, hW⟩ := hF
  obtain ⟨p1, p2, p3⟩ := hP
  refine ⟨fun t x y z => ?_, fun t x y z => ?_, fun t x y z => ?_⟩ <;>
  · simp only [Flow.forceX, Flow.forceY, Flow.forceZ, Flow.omegaX, Flow.omegaY, Flow.omegaZ,
      Flow.tpX, Flow.tpY, Flow.tpZ, Flow.keX, Flow.keY, Flow.keZ, lap, hU.t, hU.x, hU.y, hU.z, hU.xx,
      hU.yy, hU.zz, hV.t, hV.x, hV.y, hV.z, hV.xx, hV.yy, hV.zz, hW.t, hW.x, hW.y, hW.z, hW.xx,
      hW.yy, hW.zz, p1, p2, p3]
    ring

/-! ## Operators under which curl and divergence behave -/

/-- On the fields of `S`, sums and differences may be differentiated term by term. -/
structure FieldCalculus (D : Diff3) (S : Fn3 → Prop) : Prop where
  xadd : ∀ a b, S a → S b → D.x (fun t x y z => a t x y z + b t x y z) =
    fun t x y z => D.x a t x y z + D.x b t x y z
  yadd : ∀ a b, S a → S b → D.y (fun t x y z => a t x y z + b t x y z) =
    fun t x y z => D.y a t x y z + D.y b t x y z
  zadd : ∀ a b, S a → S b → D.z (fun t x y z => a t x y z + b t x y z) =
    fun t x y z => D.z a t x y z + D.z b t x y z
  xsub : ∀ a b, S a → S b → D.x (fun t x y z => a t x y z - b t x y z) =
    fun t x y z => D.x a t x y z - D.x b t x y z
  ysub : ∀ a b, S a → S b → D.y (fun t x y z => a t x y z - b t x y z) =
    fun t x y z => D.y a t x y z - D.y b t x y z
  zsub : ∀ a b, S a → S b → D.z (fun t x y z => a t x y z - b t x y z) =
    fun t x y z => D.z a t x y z - D.z b t x y z
  sadd : ∀ a b, S a → S b → S (fun t x y z => a t x y z + b t x y z)

/-- The first derivatives of `F` are in `S` and the mixed second derivatives are symmetric. -/
structure RegularField (D : Diff3) (S : Fn3 → Prop) (F : Fn3) : Prop where
  sx : S (D.x F)
  sy : S (D.y F)
  sz : S (D.z F)
  xy : D.x (D.y F) = D.y (D.x F)
  xz : D.x (D.z F) = D.z (D.x F)
  yz : D.y (D.z F) = D.z (D.y F)

/-- The numerical derivatives of the code are linear … -/
theorem calculus_central (h : ℝ) : FieldCalculus (central3 h) fun _ => True where
  xadd a b _ _ := by funext t x y z; simp only [central3, central]; ring
  yadd a b _ _ := by funext t x y z; simp only [central3, central]; ring
  zadd a b _ _ := by funext t x y z; simp only [central3, central]; ring
  xsub a b _ _ := by funext t x y z; simp only [central3, central]; ring
  ysub a b _ _ := by funext t x y z; simp only [central3, central]; ring
  zsub a b _ _ := by funext t x y z; simp only [central3, central]; ring
  sadd _ _ _ _ := trivial

/-- … and commute, for every function, smooth or not. -/
theorem regular_central (h : ℝ) (F : Fn3) : RegularField (central3 h) (fun _ => True) F where
  sx := trivial
  sy := trivial
  sz := trivial
  xy := by funext t x y z; simp only [central3, central]; ring
  xz := by funext t x y z; simp only [central3, central]; ring
  yz := by funext t x y z; simp only [central3, central]; ring

/-- A field as a function of one variable. -/
def unc (F : Fn3) (q : ℝ × ℝ × ℝ × ℝ) : ℝ := F q.1 q.2.1 q.2.2.1 q.2.2.2

/-- The field is `n` times continuously differentiable. -/
def SmoothField (n : ℕ) (F : Fn3) : Prop := ContDiff ℝ n (unc F)

theorem exact3_t_eq {F : Fn3} (hF : Differentiable ℝ (unc F)) (t x y z : ℝ) :
    exact3.t F t x y z = fderiv ℝ (unc F) (t, x, y, z) (1, 0, 0, 0) := by
  have h1 : HasDerivAt (fun s : ℝ => ((s, x, y, z) : ℝ × ℝ × ℝ × ℝ)) (1, 0, 0, 0) t :=
    (hasDerivAt_id t).prodMk ((hasDerivAt_const t x).prodMk
      ((hasDerivAt_const t y).prodMk (hasDerivAt_const t z)))
  exact ((hF (t, x, y, z)).hasFDerivAt.comp_hasDerivAt t h1).deriv

theorem exact3_x_eq {F : Fn3} (hF : Differentiable ℝ (unc F)) (t x y z : ℝ) :
    exact3.x F t x y z = fderiv ℝ (unc F) (t, x, y, z) (0, 1, 0, 0) := by
  have h1 : HasDerivAt (fun s : ℝ => ((t, s, y, z) : ℝ × ℝ × ℝ × ℝ)) (0, 1, 0, 0) x :=
    (hasDerivAt_const x t).prodMk ((hasDerivAt_id x).prodMk
      ((hasDerivAt_const x y).prodMk (hasDerivAt_const x z)))
  exact ((hF (t, x, y, z)).hasFDerivAt.comp_hasDerivAt x h1).deriv

theorem exact3_y_eq {F : Fn3} (hF : Differentiable ℝ (unc F)) (t x y z : ℝ) :
    exact3.y F t x y z = fderiv ℝ (unc F) (t, x, y, z) (0, 0, 1, 0) := by
  have h1 : HasDerivAt (fun s : ℝ => ((t, x, s, z) : ℝ × ℝ × ℝ × ℝ)) (0, 0, 1, 0) y :=
    (hasDerivAt_const y t).prodMk ((hasDerivAt_const y x).prodMk
      ((hasDerivAt_id y).prodMk (hasDerivAt_const y z)))
  exact ((hF (t, x, y, z)).hasFDerivAt.comp_hasDerivAt y h1).deriv

theorem exact3_z_eq {F : Fn3} (hF : Differentiable ℝ (unc F)) (t x y z : ℝ) :
    exact3.z F t x y z = fderiv ℝ (unc F) (t, x, y, z) (0, 0, 0, 1) := by
  have h1 : HasDerivAt (fun s : ℝ => ((t, x, y, s) : ℝ × ℝ × ℝ × ℝ)) (0, 0, 0, 1) z :=
    (hasDerivAt_const z t).prodMk ((hasDerivAt_const z x).prodMk
      ((hasDerivAt_const z y).prodMk (hasDerivAt_id z)))
  exact ((hF (t, x, y, z)).hasFDerivAt.comp_hasDerivAt z h1).deriv

theorem unc_x {F : Fn3} (hF : Differentiable ℝ (unc F)) :
    unc (exact3.x F) = fun q => fderiv ℝ (unc F) q (0, 1, 0, 0) := by
  funext q; exact exact3_x_eq hF _ _ _ _

theorem unc_y {F : Fn3} (hF : Differentiable ℝ (unc F)) :
    unc (exact3.y F) = fun q => fderiv ℝ (unc F) q (0, 0, 1, 0) := by
  funext q; exact exact3_y_eq hF _ _ _ _

theorem unc_z {F : Fn3} (hF : Differentiable ℝ (unc F)) :
    unc (exact3.z F) = fun q => fderiv ℝ (unc F) q (0, 0, 0, 1) := by
  funext q; exact exact3_z_eq hF _ _ _ _

theorem diff_dir {f : ℝ × ℝ × ℝ × ℝ → ℝ} (hf : ContDiff ℝ 2 f) (e : ℝ × ℝ × ℝ × ℝ) :
    Differentiable ℝ fun q => fderiv ℝ f q e :=
  ((hf.fderiv_right (m := 1) (by norm_num)).differentiable (by norm_num)).clm_apply
    (differentiable_const e)

theorem fderiv_dir {f : ℝ × ℝ × ℝ × ℝ → ℝ} (hf : ContDiff ℝ 2 f) (e d q : ℝ × ℝ × ℝ × ℝ) :
    fderiv ℝ (fun q => fderiv ℝ f q e) q d = fderiv ℝ (fderiv ℝ f) q d e := by
  have h1 : DifferentiableAt ℝ (fderiv ℝ f) q :=
    ((hf.fderiv_right (m := 1) (by norm_num)).differentiable (by norm_num)) q
  have := (h1.hasFDerivAt.clm_apply (hasFDerivAt_const e q)).fderiv
  rw [this]
  simp

theorem symm_dir {f : ℝ × ℝ × ℝ × ℝ → ℝ} (hf : ContDiff ℝ 2 f) (e d q : ℝ × ℝ × ℝ × ℝ) :
    fderiv ℝ (fun q => fderiv ℝ f q e) q d = fderiv ℝ (fun q => fderiv ℝ f q d) q e := by
  rw [fderiv_dir hf, fderiv_dir hf]
  have h := (hf.contDiffAt (x := q)).isSymmSndFDerivAt (by simp)
  exact h d e

/-- Differentiability in each variable. -/
def Diffable (F : Fn3) : Prop := Differentiable ℝ (unc F)

theorem dir_add {a b : Fn3} (ha : Diffable a) (hb : Diffable b) (q e : ℝ × ℝ × ℝ × ℝ) :
    fderiv ℝ (unc fun t x y z => a t x y z + b t x y z) q e
      = fderiv ℝ (unc a) q e + fderiv ℝ (unc b) q e := by
  have : unc (fun t x y z => a t x y z + b t x y z) = fun q => unc a q + unc b q := rfl
  rw [this, fderiv_fun_add (ha q) (hb q)]; rfl

theorem dir_sub {a b : Fn3} (ha : Diffable a) (hb : Diffable b) (q e : ℝ × ℝ × ℝ × ℝ) :
    fderiv ℝ (unc fun t x y z => a t x y z - b t x y z) q e
      = fderiv ℝ (unc a) q e - fderiv ℝ (unc b) q e := by
  have : unc (fun t x y z => a t x y z - b t x y z) = fun q => unc a q - unc b q := rfl
  rw [this, fderiv_fun_sub (ha q) (hb q)]; rfl

theorem calculus_exact : FieldCalculus exact3 Diffable where
  xadd a b ha hb := by
    funext t x y z
    have h : Differentiable ℝ (unc fun t x y z => a t x y z + b t x y z) := Differentiable.add ha hb
    rw [exact3_x_eq h, exact3_x_eq ha, exact3_x_eq hb]
    exact dir_add ha hb _ _
  yadd a b ha hb := by
    funext t x y z
    have h : Differentiable ℝ (unc fun t x y z => a t x y z + b t x y z) := Differentiable.add ha hb
    rw [exact3_y_eq h, exact3_y_eq ha, exact3_y_eq hb]
    exact dir_add ha hb _ _
  zadd a b ha hb := by
    funext t x y z
    have h : Differentiable ℝ (unc fun t x y z => a t x y z + b t x y z) := Differentiable.add ha hb
    rw [exact3_z_eq h, exact3_z_eq ha, exact3_z_eq hb]
    exact dir_add ha hb _ _
  xsub a b ha hb := by
    funext t x y z
    have h : Differentiable ℝ (unc fun t x y z => a t x y z - b t x y z) := Differentiable.sub ha hb
    rw [exact3_x_eq h, exact3_x_eq ha, exact3_x_eq hb]
    exact dir_sub ha hb _ _
  ysub a b ha hb := by
    funext t x y z
    have h : Differentiable ℝ (unc fun t x y z => a t x y z - b t x y z) := Differentiable.sub ha hb
    rw [exact3_y_eq h, exact3_y_eq ha, exact3_y_eq hb]
    exact dir_sub ha hb _ _
  zsub a b ha hb := by
    funext t x y z
    have h : Differentiable ℝ (unc fun t x y z => a t x y z - b t x y z) := Differentiable.sub ha hb
    rw [exact3_z_eq h, exact3_z_eq ha, exact3_z_eq hb]
    exact dir_sub ha hb _ _
  sadd a b ha hb := Differentiable.add ha hb

/-- Twice continuously differentiable fields have symmetric second derivatives. -/
theorem regular_exact {F : Fn3} (hF : SmoothField 2 F) : RegularField exact3 Diffable F := by
  have hd : Differentiable ℝ (unc F) := ContDiff.differentiable hF (by norm_num)
  have sx : Diffable (exact3.x F) := by unfold Diffable; rw [unc_x hd]; exact diff_dir hF _
  have sy : Diffable (exact3.y F) := by unfold Diffable; rw [unc_y hd]; exact diff_dir hF _
  have sz : Diffable (exact3.z F) := by unfold Diffable; rw [unc_z hd]; exact diff_dir hF _
  refine ⟨sx, sy, sz, ?_, ?_, ?_⟩
  · funext t x y z
    rw [exact3_x_eq sy, exact3_y_eq sx, unc_x hd, unc_y hd]; exact symm_dir hF _ _ _
  · funext t x y z
    rw [exact3_x_eq sz, exact3_z_eq sx, unc_x hd, unc_z hd]; exact symm_dir hF _ _ _
  · funext t x y z
    rw [exact3_y_eq sz, exact3_z_eq sy, unc_z hd, unc_y hd]; exact symm_dir hF _ _ _

/-! ## Vorticity -/

section vorticity

variable {D : Diff3} {S : Fn3 → Prop}

theorem omegaX_eq {F : Flow} (hF : FlowAgrees D F) : F.omegaX = curlX D F.U.f F.V.f F.W.f := by
  funext t x y z; simp only [Flow.omegaX, curlX, hF.2.2.y, hF.2.1.z]

theorem omegaY_eq {F : Flow} (hF : FlowAgrees D F) : F.omegaY = curlY D F.U.f F.V.f F.W.f := by
  funext t x y z; simp only [Flow.omegaY, curlY, hF.1.z, hF.2.2.x]

theorem omegaZ_eq {F : Flow} (hF : FlowAgrees D F) : F.omegaZ = curlZ D F.U.f F.V.f F.W.f := by
  funext t x y z; simp only [Flow.omegaZ, curlZ, hF.2.1.x, hF.1.y]

theorem div_eq {F : Flow} (hF : FlowAgrees D F) : F.div = divField D F.U.f F.V.f F.W.f := by
  funext t x y z; simp only [Flow.div, divField, hF.1.x, hF.2.1.y, hF.2.2.z]

/-- The curl of a field has no divergence. -/
theorem div_curl (hD : FieldCalculus D S) {a b c : Fn3} (ha : RegularField D S a) (hb : RegularField D S b)
    (hc : RegularField D S c) :
    divField D (curlX D a b c) (curlY D a b c) (curlZ D a b c) = fun _ _ _ _ => 0 := by
  funext t x y z
  have e1 : D.x (curlX D a b c) = fun t x y z => D.x (D.y c) t x y z - D.x (D.z b) t x y z :=
    hD.xsub _ _ hc.sy hb.sz
  have e2 : D.y (curlY D a b c) = fun t x y z => D.y (D.z a) t x y z - D.y (D.x c) t x y z :=
    hD.ysub _ _ ha.sz hc.sx
  have e3 : D.z (curlZ D a b c) = fun t x y z => D.z (D.x b) t x y z - D.z (D.y a) t x y z :=
    hD.zsub _ _ hb.sx ha.sy
  simp only [divField, e1, e2, e3, hc.xy, hb.xz, ha.yz]
  ring

/-- `curl curl u = grad div u - Δu`, first component. -/
theorem curl_curlX (hD : FieldCalculus D S) {a b c : Fn3} (ha : RegularField D S a) (hb : RegularField D S b)
    (hc : RegularField D S c) (t x y z : ℝ) :
    curlX D (curlX D a b c) (curlY D a b c) (curlZ D a b c) t x y z
      = D.x (divField D a b c) t x y z - lap D a t x y z := by
  have e2 : D.z (curlY D a b c) = fun t x y z => D.z (D.z a) t x y z - D.z (D.x c) t x y z :=
    hD.zsub _ _ ha.sz hc.sx
  have e3 : D.y (curlZ D a b c) = fun t x y z => D.y (D.x b) t x y z - D.y (D.y a) t x y z :=
    hD.ysub _ _ hb.sx ha.sy
  have e4 : D.x (divField D a b c) = fun t x y z =>
      D.x (fun t x y z => D.x a t x y z + D.y b t x y z) t x y z + D.x (D.z c) t x y z :=
    hD.xadd _ _ (hD.sadd _ _ ha.sx hb.sy) hc.sz
  simp only [curlX, e2, e3, e4, hD.xadd _ _ ha.sx hb.sy, lap, hb.xy, hc.xz]
  ring

/-- Second component. -/
theorem curl_curlY (hD : FieldCalculus D S) {a b c : Fn3} (ha : RegularField D S a) (hb : RegularField D S b)
    (hc : RegularField D S c) (t x y z : ℝ) :
    curlY D (curlX D a b c) (curlY D a b c) (curlZ D a b c) t x y z
      = D.y (divField D a b c) t x y z - lap D b t x y z := by
  have e2 : D.z (curlX D a b c) = fun t x y z => D.z (D.y c) t x y z - D.z (D.z b) t x y z :=
    hD.zsub _ _ hc.sy hb.sz
  have e3 : D.x (curlZ D a b c) = fun t x y z => D.x (D.x b) t x y z - D.x (D.y a) t x y z :=
    hD.xsub _ _ hb.sx ha.sy
  have e4 : D.y (divField D a b c) = fun t x y z =>
      D.y (fun t x y z => D.x a t x y z + D.y b t x y z) t x y z + D.y (D.z c) t x y z :=
    hD.yadd _ _ (hD.sadd _ _ ha.sx hb.sy) hc.sz
  simp only [curlY, e2, e3, e4, hD.yadd _ _ ha.sx hb.sy, lap, ha.xy, hc.yz]
  ring

/-- Third component. -/
theorem curl_curlZ (hD : FieldCalculus D S) {a b c : Fn3} (ha : RegularField D S a) (hb : RegularField D S b)
    (hc : RegularField D S c) (t x y z : ℝ) :
    curlZ D (curlX D a b c) (curlY D a b c) (curlZ D a b c) t x y z
      = D.z (divField D a b c) t x y z - lap D c t x y z := by
  have e2 : D.x (curlY D a b c) = fun t x y z => D.x (D.z a) t x y z - D.x (D.x c) t x y z :=
    hD.xsub _ _ ha.sz hc.sx
  have e3 : D.y (curlX D a b c) = fun t x y z => D.y (D.y c) t x y z - D.y (D.z b) t x y z :=
    hD.ysub _ _ hc.sy hb.sz
  have e4 : D.z (divField D a b c) = fun t x y z =>
      D.z (fun t x y z => D.x a t x y z + D.y b t x y z) t x y z + D.z (D.z c) t x y z :=
    hD.zadd _ _ (hD.sadd _ _ ha.sx hb.sy) hc.sz
  simp only [curlZ, e2, e3, e4, hD.zadd _ _ ha.sx hb.sy, lap, ha.xz, hb.yz]
  ring

/-- The velocity of a flow is regular. -/
def FlowRegular (D : Diff3) (S : Fn3 → Prop) (F : Flow) : Prop :=
  RegularField D S F.U.f ∧ RegularField D S F.V.f ∧ RegularField D S F.W.f

/-- `divergence_of_vorticity`, the constant zero, is the divergence of `vorticity`, and if the
velocity has no divergence, `curl_of_vorticity` is the curl of `vorticity`. -/
theorem c73_vorticity (hD : FieldCalculus D S) {F : Flow} (hF : FlowAgrees D F)
    (hR : FlowRegular D S F) :
    divField D F.omegaX F.omegaY F.omegaZ = F.divOmega ∧
    (F.div = (fun _ _ _ _ => 0) → D.x (fun _ _ _ _ => 0) = (fun _ _ _ _ => 0) →
      D.y (fun _ _ _ _ => 0) = (fun _ _ _ _ => 0) → D.z (fun _ _ _ _ => 0) = (fun _ _ _ _ => 0) →
      curlX D F.omegaX F.omegaY F.omegaZ = F.mLaplaceU ∧
      curlY D F.omegaX F.omegaY F.omegaZ = F.mLaplaceV ∧
      curlZ D F.omegaX F.omegaY F.omegaZ = F.mLaplaceW) := by
  rw [omegaX_eq hF, omegaY_eq hF, omegaZ_eq hF, div_eq hF]
  obtain ⟨ha, hb, hc⟩ := hR
  refine ⟨?_, fun h0 hx hy hz => ⟨?_, ?_, ?_⟩⟩
  · rw [div_curl hD ha hb hc]; funext t x y z; simp [Flow.divOmega]
  · funext t x y z
    rw [curl_curlX hD ha hb hc, h0, hx]
    simp only [lap, Flow.mLaplaceU, hF.1.xx, hF.1.yy, hF.1.zz]; ring
  · funext t x y z
    rw [curl_curlY hD ha hb hc, h0, hy]
    simp only [lap, Flow.mLaplaceV, hF.2.1.xx, hF.2.1.yy, hF.2.1.zz]; ring
  · funext t x y z
    rw [curl_curlZ hD ha hb hc, h0, hz]
    simp only [lap, Flow.mLaplaceW, hF.2.2.xx, hF.2.2.yy, hF.2.2.zz]; ring

end vorticity

theorem central3_zero (h : ℝ) : (central3 h).x (fun _ _ _ _ => 0) = (fun _ _ _ _ => 0) ∧
    (central3 h).y (fun _ _ _ _ => 0) = (fun _ _ _ _ => 0) ∧
    (central3 h).z (fun _ _ _ _ => 0) = (fun _ _ _ _ => 0) := by
  refine ⟨?_, ?_, ?_⟩ <;> funext t x y z <;> simp [central3, central]

theorem exact3_zero : exact3.x (fun _ _ _ _ => 0) = (fun _ _ _ _ => 0) ∧
    exact3.y (fun _ _ _ _ => 0) = (fun _ _ _ _ => 0) ∧
    exact3.z (fun _ _ _ _ => 0) = (fun _ _ _ _ => 0) := by
  refine ⟨?_, ?_, ?_⟩ <;> funext t x y z <;> simp [exact3]

end Mifem.Props
