import Verif.Props.TraceRec
import Mathlib.MeasureTheory.Integral.DivergenceTheorem
import Mathlib.Analysis.Calculus.ContDiff.Operations
import Mathlib.Analysis.Calculus.Deriv.Pi

/-! # The divergence theorem on the reference cube, and smoothness of the basis functions -/

namespace Mifem.Stokes
open Mifem.Basis Mifem.Props Mifem.Three Finset MeasureTheory

/-! ## Smoothness -/

theorem contDiff_lagrangeAt (nodes : List ℝ) (i : Nat) : ContDiff ℝ 1 (lagrangeAt nodes i) := by
  have key : ∀ (l : List Nat) (g : ℝ → ℝ), ContDiff ℝ 1 g → ContDiff ℝ 1 fun x => l.foldl
      (fun b j => if i ≠ j then b * ((x - node nodes j) / (node nodes i - node nodes j)) else b) (g x) := by
    intro l
    induction l with
    | nil => intro g hg; exact hg
    | cons j l ih =>
      intro g hg
      simp only [List.foldl_cons]
      refine ih (fun x => if i ≠ j then g x * ((x - node nodes j) / (node nodes i - node nodes j)) else g x) ?_
      split
      · exact hg.mul ((contDiff_id.sub contDiff_const).div_const _)
      · exact hg
  exact key _ (fun _ => 1) contDiff_const

theorem contDiff_derivAt (nodes : List ℝ) (j : Nat) : ContDiff ℝ 1 (derivAt nodes j) := by
  unfold derivAt
  simp only [range_map_sum]
  exact ContDiff.sum fun k _ => contDiff_const.mul (contDiff_lagrangeAt nodes k)

theorem contDiff_edgeAt (nodes : List ℝ) (i : Nat) : ContDiff ℝ 1 (edgeAt nodes i) := by
  have key : ∀ (l : List Nat) (g : ℝ → ℝ), ContDiff ℝ 1 g → ContDiff ℝ 1 fun x => l.foldl
      (fun b j => b - derivAt nodes j x) (g x) := by
    intro l
    induction l with
    | nil => intro g hg; exact hg
    | cons j l ih =>
      intro g hg
      simp only [List.foldl_cons]
      exact ih (fun x => g x - derivAt nodes j x) (hg.sub (contDiff_derivAt nodes j))
  exact key _ (fun _ => 0) contDiff_const

/-- A one-dimensional basis, evaluated at one point, is smooth in this point. -/
def Smooth1 (A : ℝ → Arr ℝ) : Prop :=
  ∃ n, ∀ x, (A x).rows = n ∧ (A x).cols = 1 ∧ ∀ i, ContDiff ℝ 1 fun x => (A x).e i 0

theorem smooth_node (nodes : List ℝ) : Smooth1 fun x => nodeBasis nodes [x] :=
  ⟨nodes.length, fun _ => ⟨rfl, rfl, fun i => contDiff_lagrangeAt nodes i⟩⟩

theorem smooth_edge (nodes : List ℝ) : Smooth1 fun x => edgeBasis nodes [x] :=
  ⟨nodes.length - 1, fun _ => ⟨rfl, rfl, fun i => contDiff_edgeAt nodes i⟩⟩

theorem contDiff_kron3 {D B A : ℝ → Arr ℝ} (hD : Smooth1 D) (hB : Smooth1 B) (hA : Smooth1 A) (w : Nat → ℝ) :
    ContDiff ℝ 1 fun P : Fin 3 → ℝ => einsum (Basis.Three.kron3 (D (P 2)) (B (P 1)) (A (P 0))) w 0 := by
  obtain ⟨nd, hd⟩ := hD
  obtain ⟨nb, hb⟩ := hB
  obtain ⟨na, ha⟩ := hA
  have e : (fun P : Fin 3 → ℝ => einsum (Basis.Three.kron3 (D (P 2)) (B (P 1)) (A (P 0))) w 0) = fun P : Fin 3 → ℝ =>
      ∑ k ∈ range nd, ∑ j ∈ range nb, ∑ i ∈ range na,
        (D (P 2)).e k 0 * (B (P 1)).e j 0 * (A (P 0)).e i 0 * w (fIdx3 na nb i j k) := by
    funext P
    rw [three_recon _ _ _ (ha _).2.1 (hb _).2.1, (ha _).1, (hb _).1, (hd _).1]
  rw [e]
  refine ContDiff.sum fun k _ => ContDiff.sum fun j _ => ContDiff.sum fun i _ => ?_
  refine ((ContDiff.mul ?_ ?_).mul ?_).mul contDiff_const
  · exact ((hd 0).2.2 k).comp (contDiff_apply ℝ ℝ (2 : Fin 3))
  · exact ((hb 0).2.2 j).comp (contDiff_apply ℝ ℝ (1 : Fin 3))
  · exact ((ha 0).2.2 i).comp (contDiff_apply ℝ ℝ (0 : Fin 3))

variable (nx ny nz : List ℝ)

/-- The reconstructions at a point. -/
noncomputable def at0 (w : Nat → ℝ) (P : Fin 3 → ℝ) : ℝ := Basis.Three.recon0 nx ny nz [P 0] [P 1] [P 2] w 0
@[inherit_doc at0] noncomputable def at1 (w : Nat → ℝ) (P : Fin 3 → ℝ) : Fin 3 → ℝ :=
  comp3 (Basis.Three.recon1 nx ny nz [P 0] [P 1] [P 2] w 0)
@[inherit_doc at0] noncomputable def at2 (w : Nat → ℝ) (P : Fin 3 → ℝ) : Fin 3 → ℝ :=
  comp3 (Basis.Three.recon2 nx ny nz [P 0] [P 1] [P 2] w 0)
@[inherit_doc at0] noncomputable def at3 (w : Nat → ℝ) (P : Fin 3 → ℝ) : ℝ := Basis.Three.recon3 nx ny nz [P 0] [P 1] [P 2] w 0

theorem contDiff_at0 (w : Nat → ℝ) : ContDiff ℝ 1 (at0 nx ny nz w) :=
  contDiff_kron3 (smooth_node nz) (smooth_node ny) (smooth_node nx) w

theorem contDiff_at1 (w : Nat → ℝ) (c : Fin 3) : ContDiff ℝ 1 fun P => at1 nx ny nz w P c := by
  fin_cases c
  · exact contDiff_kron3 (smooth_node nz) (smooth_node ny) (smooth_edge nx) _
  · exact contDiff_kron3 (smooth_node nz) (smooth_edge ny) (smooth_node nx) _
  · exact contDiff_kron3 (smooth_edge nz) (smooth_node ny) (smooth_node nx) _

theorem contDiff_at2 (w : Nat → ℝ) (c : Fin 3) : ContDiff ℝ 1 fun P => at2 nx ny nz w P c := by
  fin_cases c
  · exact contDiff_kron3 (smooth_edge nz) (smooth_edge ny) (smooth_node nx) _
  · exact contDiff_kron3 (smooth_edge nz) (smooth_node ny) (smooth_edge nx) _
  · exact contDiff_kron3 (smooth_node nz) (smooth_edge ny) (smooth_edge nx) _

theorem contDiff_at3 (w : Nat → ℝ) : ContDiff ℝ 1 (at3 nx ny nz w) :=
  contDiff_kron3 (smooth_edge nz) (smooth_edge ny) (smooth_edge nx) w

/-! ## Partial derivatives -/

/-- The partial derivative in direction `c`. -/
noncomputable def pd (c : Fin 3) (g : (Fin 3 → ℝ) → ℝ) (P : Fin 3 → ℝ) : ℝ := fderiv ℝ g P (Pi.single c 1)

theorem pd_eq {g : (Fin 3 → ℝ) → ℝ} (hg : ContDiff ℝ 1 g) {c : Fin 3} {P : Fin 3 → ℝ} {d : ℝ}
    (h : HasDerivAt (fun t => g (Function.update P c t)) d (P c)) : pd c g P = d := by
  have h1 : HasFDerivAt g (fderiv ℝ g P) (Function.update P c (P c)) := by
    rw [Function.update_eq_self]; exact (hg.differentiable (by norm_num) P).hasFDerivAt
  have h2 := h1.comp_hasDerivAt (P c) (hasDerivAt_update P c (P c))
  exact h2.unique h

theorem pd_mul {f g : (Fin 3 → ℝ) → ℝ} (hf : ContDiff ℝ 1 f) (hg : ContDiff ℝ 1 g) (c : Fin 3) (P : Fin 3 → ℝ) :
    pd c (fun Q => f Q * g Q) P = f P * pd c g P + pd c f P * g P := by
  have hf' := hf.differentiable (by norm_num) P
  have hg' := hg.differentiable (by norm_num) P
  unfold pd
  rw [fderiv_fun_mul hf' hg']
  simp [mul_comm]

theorem pd_sub {f g : (Fin 3 → ℝ) → ℝ} (hf : ContDiff ℝ 1 f) (hg : ContDiff ℝ 1 g) (c : Fin 3) (P : Fin 3 → ℝ) :
    pd c (fun Q => f Q - g Q) P = pd c f P - pd c g P := by
  unfold pd
  rw [fderiv_fun_sub (hf.differentiable (by norm_num) P) (hg.differentiable (by norm_num) P)]
  rfl

theorem continuous_pd {g : (Fin 3 → ℝ) → ℝ} (hg : ContDiff ℝ 1 g) (c : Fin 3) : Continuous (pd c g) :=
  (hg.continuous_fderiv (by norm_num)).clm_apply continuous_const

/-! ## The divergence theorem -/

/-- The reference cube and the reference square. -/
def cube : Set (Fin 3 → ℝ) := Set.Icc (fun _ => -1) (fun _ => 1)
@[inherit_doc cube] def square : Set (Fin 2 → ℝ) := Set.Icc (fun _ => -1) (fun _ => 1)

/-- The integral over a side in its own coordinates. -/
noncomputable def onS (s : Side) (g : (Fin 3 → ℝ) → ℝ) : ℝ := ∫ q in square, g (onSide3 s (q 0) (q 1))

theorem gauss (F : Fin 3 → (Fin 3 → ℝ) → ℝ) (hF : ∀ c, ContDiff ℝ 1 (F c)) :
    ∫ P in cube, ∑ c, pd c (F c) P = (sides3.map fun s => (outward3 s : ℝ) * onS s (F (nrm3 s))).sum := by
  have hd : ∀ P, HasFDerivAt (fun P => fun c => F c P) (ContinuousLinearMap.pi fun c => fderiv ℝ (F c) P) P :=
    fun P => hasFDerivAt_pi.2 fun c => ((hF c).differentiable (by norm_num) P).hasFDerivAt
  have h := integral_divergence_of_hasFDerivAt_off_countable (fun _ : Fin 3 => (-1 : ℝ)) (fun _ => 1) (fun _ => by norm_num)
    (fun P => fun c => F c P) (fun P => ContinuousLinearMap.pi fun c => fderiv ℝ (F c) P) ∅ Set.countable_empty
    (continuous_pi fun c => (hF c).continuous).continuousOn (fun P _ => hd P)
    (Continuous.integrableOn_Icc (continuous_finsetSum _ fun c _ => continuous_pd (hF c) c))
  refine h.trans ?_
  rw [Fin.sum_univ_three]
  have ins : ∀ (a : ℝ) (q : Fin 2 → ℝ), (0 : Fin 3).insertNth a q = ![a, q 0, q 1] ∧
      (1 : Fin 3).insertNth a q = ![q 0, a, q 1] ∧ (2 : Fin 3).insertNth a q = ![q 0, q 1, a] := by
    intro a q
    refine ⟨?_, ?_, ?_⟩ <;> funext i <;> fin_cases i <;> rfl
  simp only [fun a q => (ins a q).1, fun a q => (ins a q).2.1, fun a q => (ins a q).2.2]
  simp only [sides3, List.map_cons, List.map_nil, List.sum_cons, List.sum_nil, outward3, nrm3, onS, onSide3]
  change (∫ q in square, F 0 ![1, q 0, q 1]) - (∫ q in square, F 0 ![-1, q 0, q 1]) +
    ((∫ q in square, F 1 ![q 0, 1, q 1]) - (∫ q in square, F 1 ![q 0, -1, q 1])) +
    ((∫ q in square, F 2 ![q 0, q 1, 1]) - (∫ q in square, F 2 ![q 0, q 1, -1])) = _
  push_cast
  ring

end Mifem.Stokes
