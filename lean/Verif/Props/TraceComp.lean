import Verif.Props.TraceDisc

/-! # C84, continued: components on trace elements, both elements of a trace element, trace matrices, boundary-wise fields -/

namespace Mifem.Props
open Mifem.Disc Mifem.TraceDisc

section
variable (e : Disc.Three.El ℝ) (s : Three.Side)

/-- The side is a regular surface: its two tangents are independent everywhere. -/
def RegularSide : Prop := ∀ a ∈ Ref, ∀ b ∈ Ref, ∃ c, crossJ e s a b c ≠ 0

variable {e s}

/-- The normal is a unit vector, orthogonal to both tangents. -/
theorem c84_unit (h : RegularSide e s) {a b : ℝ} (ha : a ∈ Ref) (hb : b ∈ Ref) : dotV (unitNormal e s a b) (unitNormal e s a b) = 1 := by
  have hm : 0 < metric e s a b := by
    rw [metric_eq]
    obtain ⟨c, hc⟩ := h a ha b hb
    have := pow_pos (abs_pos.mpr hc) 2
    rw [sq_abs] at this
    fin_cases c <;> dsimp only at this <;> simp only [Fin.zero_eta, Fin.mk_one, Fin.reduceFinMk] at this
    · nlinarith [sq_nonneg (crossJ e s a b 1), sq_nonneg (crossJ e s a b 2)]
    · nlinarith [sq_nonneg (crossJ e s a b 0), sq_nonneg (crossJ e s a b 2)]
    · nlinarith [sq_nonneg (crossJ e s a b 0), sq_nonneg (crossJ e s a b 1)]
  have h1 := metric_eq e s a b
  simp only [← unitNormal_scaled] at h1
  have h2 := Real.sq_sqrt hm.le
  have h3 : metric e s a b * dotV (unitNormal e s a b) (unitNormal e s a b) = metric e s a b * 1 := by
    rw [dotV]
    linear_combination (-h1) + (-h2) * (unitNormal e s a b 0 ^ 2 + unitNormal e s a b 1 ^ 2 + unitNormal e s a b 2 ^ 2)
  exact mul_left_cancel₀ hm.ne' h3

theorem normal_tangent (a b : ℝ) (i : Fin 2) : dotV (fun c => jac e s a b c i) (unitNormal e s a b) = 0 := by
  have : ∀ v : Fin 3 → ℝ, dotV v (unitNormal e s a b) =
      dotV v (crossJ e s a b) / Real.sqrt (crossJ e s a b 0 ^ 2 + crossJ e s a b 1 ^ 2 + crossJ e s a b 2 ^ 2) := by
    intro v
    simp only [dotV, unitNormal]
    ring
  rw [this]
  have : dotV (fun c => jac e s a b c i) (crossJ e s a b) = 0 := by
    fin_cases i <;> simp [dotV, crossJ, crossV] <;> ring
  rw [this, zero_div]

/-- A vector splits into its component along the normal and the one along the surface. -/
theorem c84_split (h : RegularSide e s) (w : ℝ → ℝ → Fin 3 → ℝ) {a b : ℝ} (ha : a ∈ Ref) (hb : b ∈ Ref) :
    w a b = normOf e s w a b + tParaOf e s w a b ∧ dotV (tParaOf e s w a b) (unitNormal e s a b) = 0 ∧
      dotV (tPerpOf e s w a b) (unitNormal e s a b) = 0 ∧
      tParaOf e s w a b = crossV (unitNormal e s a b) (tPerpOf e s w a b) ∧
      tPerpOf e s w a b = crossV (tParaOf e s w a b) (unitNormal e s a b) := by
  have hu := c84_unit h ha hb
  simp only [dotV] at hu
  refine ⟨?_, ?_, ?_, rfl, ?_⟩
  · funext c
    fin_cases c <;> simp [normOf, tParaOf, crossV, dotV]
    · linear_combination (-(w a b 0)) * hu
    · linear_combination (-(w a b 1)) * hu
    · linear_combination (-(w a b 2)) * hu
  · simp [tParaOf, crossV, dotV]; ring
  · simp [tPerpOf, crossV, dotV]; ring
  · funext c
    fin_cases c <;> simp [tPerpOf, tParaOf, crossV]
    · linear_combination (-(w a b 1 * unitNormal e s a b 2 - w a b 2 * unitNormal e s a b 1)) * hu
    · linear_combination (-(w a b 2 * unitNormal e s a b 0 - w a b 0 * unitNormal e s a b 2)) * hu
    · linear_combination (-(w a b 0 * unitNormal e s a b 1 - w a b 1 * unitNormal e s a b 0)) * hu

section
variable (p0 p1 p2 : Nat) (x0 x1 x2 : Nat → ℝ) (r0 r1 r2 : Rule ℝ)

/-- The line integrals depend on the tangential components along the side only. -/
theorem te1_congr (hx0 : NodesOK p0 x0) (hx1 : NodesOK p1 x1) (hx2 : NodesOK p2 x2) (h0 : RuleOK r0) (h1 : RuleOK r1) (h2 : RuleOK r2)
    {e e' : Disc.Three.El ℝ} {s : Three.Side} {w w' : ℝ → ℝ → Fin 3 → ℝ}
    (h : ∀ a ∈ Ref, ∀ b ∈ Ref, ∀ i : Fin 2, dotV (fun c => jac e s a b c i) (w a b) = dotV (fun c => jac e' s a b c i) (w' a b)) :
    te1 e s p0 p1 p2 x0 x1 x2 r0 r1 r2 w = te1 e' s p0 p1 p2 x0 x1 x2 r0 r1 r2 w' := by
  have A : ∀ {pa pb : Nat} {xa xb : Nat → ℝ} {ra : Rule ℝ} (col : Fin 2), NodesOK pa xa → NodesOK pb xb → RuleOK ra →
      lineInts e s w col ra (rowsA pa pb xa xb ra) (tile pa fun j => lens xa j * (1 / 2)) =
        lineInts e' s w' col ra (rowsA pa pb xa xb ra) (tile pa fun j => lens xa j * (1 / 2)) := by
    intro pa pb xa xb ra col ha hb hr
    rw [lineInts_A, lineInts_A]
    refine List.flatMap_congr fun k hk => List.map_congr_left fun j hj => ?_
    exact edge3_congr ha hr (List.mem_range.mp hj) fun a ha' => h a ha' _ (hb.mem _ (by have := List.mem_range.mp hk; omega)) col
  have B : ∀ {pa pb : Nat} {xa xb : Nat → ℝ} {rb : Rule ℝ} (col : Fin 2), NodesOK pa xa → NodesOK pb xb → RuleOK rb →
      lineInts e s w col rb (rowsB pa pb xa xb rb) (rep (pa + 1) fun k => lens xb k * (1 / 2)) =
        lineInts e' s w' col rb (rowsB pa pb xa xb rb) (rep (pa + 1) fun k => lens xb k * (1 / 2)) := by
    intro pa pb xa xb rb col ha hb hr
    rw [lineInts_B, lineInts_B]
    refine List.flatMap_congr fun k hk => List.map_congr_left fun j hj => ?_
    exact edge3_congr hb hr (List.mem_range.mp hk) fun b hb' => h _ (ha.mem _ (by have := List.mem_range.mp hj; omega)) b hb' col
  cases s <;> simp only [te1] <;> exact congrArg₂ (· ++ ·) (A _ ‹_› ‹_› ‹_›) (B _ ‹_› ‹_› ‹_›)

/-- Discretizing the component of a field along the surface is discretizing the field. -/
theorem c84_para (hx0 : NodesOK p0 x0) (hx1 : NodesOK p1 x1) (hx2 : NodesOK p2 x2) (h0 : RuleOK r0) (h1 : RuleOK r1) (h2 : RuleOK r2)
    (h : RegularSide e s) (w : ℝ → ℝ → Fin 3 → ℝ) :
    te1 e s p0 p1 p2 x0 x1 x2 r0 r1 r2 (tParaOf e s w) = te1 e s p0 p1 p2 x0 x1 x2 r0 r1 r2 w := by
  refine te1_congr _ _ _ _ _ _ _ _ _ hx0 hx1 hx2 h0 h1 h2 fun a ha b hb i => ?_
  have hs := congrArg (dotV fun c => jac e s a b c i) (c84_split h w ha hb).1
  rw [hs]
  have hn := normal_tangent (e := e) (s := s) a b i
  simp only [dotV, normOf, Pi.add_apply, Matrix.cons_val_zero, Matrix.cons_val_one, Matrix.cons_val] at hn ⊢
  linear_combination (-(w a b 0 * unitNormal e s a b 0 + w a b 1 * unitNormal e s a b 1 + w a b 2 * unitNormal e s a b 2)) * hn

/-- The fluxes depend on the flux density only. -/
theorem te2v_congr (hx0 : NodesOK p0 x0) (hx1 : NodesOK p1 x1) (hx2 : NodesOK p2 x2) (h0 : RuleOK r0) (h1 : RuleOK r1) (h2 : RuleOK r2)
    {e e' : Disc.Three.El ℝ} {s : Three.Side} {g g' : ℝ → ℝ → ℝ}
    (h : ∀ a ∈ Ref, ∀ b ∈ Ref, g a b * Real.sqrt (metric e s a b) = g' a b * Real.sqrt (metric e' s a b)) :
    te2 e s p0 p1 p2 x0 x1 x2 r0 r1 r2 g = te2 e' s p0 p1 p2 x0 x1 x2 r0 r1 r2 g' := by
  have A : ∀ {pa pb : Nat} {xa xb : Nat → ℝ} {ra rb : Rule ℝ}, NodesOK pa xa → NodesOK pb xb → RuleOK ra → RuleOK rb →
      faceInts e s pa pb xa xb ra rb g = faceInts e' s pa pb xa xb ra rb g' := by
    intro pa pb xa xb ra rb ha hb hra hrb
    rw [faceInts_eq, faceInts_eq]
    refine List.flatMap_congr fun k hk => List.map_congr_left fun j hj => ?_
    exact edge3_congr ha hra (List.mem_range.mp hj) fun a ha' => edge3_congr hb hrb (List.mem_range.mp hk) fun b hb' => h a ha' b hb'
  cases s <;> simp only [te2] <;> exact A ‹_› ‹_› ‹_› ‹_›

/-- Discretizing the normal component of a field as a 2-form is discretizing the field, and the components along the surface
have no flux. -/
theorem c84_norm (hx0 : NodesOK p0 x0) (hx1 : NodesOK p1 x1) (hx2 : NodesOK p2 x2) (h0 : RuleOK r0) (h1 : RuleOK r1) (h2 : RuleOK r2)
    (h : RegularSide e s) (w : ℝ → ℝ → Fin 3 → ℝ) :
    te2v e s p0 p1 p2 x0 x1 x2 r0 r1 r2 (normOf e s w) = te2v e s p0 p1 p2 x0 x1 x2 r0 r1 r2 w ∧
    te2v e s p0 p1 p2 x0 x1 x2 r0 r1 r2 (tParaOf e s w) = te2 e s p0 p1 p2 x0 x1 x2 r0 r1 r2 (fun _ _ => 0) ∧
    te2v e s p0 p1 p2 x0 x1 x2 r0 r1 r2 (tPerpOf e s w) = te2 e s p0 p1 p2 x0 x1 x2 r0 r1 r2 (fun _ _ => 0) := by
  refine ⟨?_, ?_, ?_⟩ <;> refine te2v_congr _ _ _ _ _ _ _ _ _ hx0 hx1 hx2 h0 h1 h2 fun a ha b hb => congrArg (· * _) ?_
  · have hu := c84_unit h ha hb
    simp only [fluxOf, dotV, normOf, Matrix.cons_val_zero, Matrix.cons_val_one, Matrix.cons_val] at hu ⊢
    linear_combination (w a b 0 * unitNormal e s a b 0 + w a b 1 * unitNormal e s a b 1 + w a b 2 * unitNormal e s a b 2) * hu
  · exact (c84_split h w ha hb).2.1
  · exact (c84_split h w ha hb).2.2.1

theorem te2_zero : ∀ v ∈ te2 e s p0 p1 p2 x0 x1 x2 r0 r1 r2 (fun _ _ => 0), v = 0 := by
  cases s <;> simp [te2, faceInts]

/-! ## Both elements of a trace element -/

variable {e' : Disc.Three.El ℝ} {t : Three.Side}

/-- The values do not depend on the element the trace element is looked at from: 0-forms. -/
theorem c84_both_0 (hx0 : NodesOK p0 x0) (hx1 : NodesOK p1 x1) (hx2 : NodesOK p2 x2) (hp : parallel3 s t = true)
    (f : (Fin 3 → ℝ) → ℝ) (hm : Meets3 f e s e' t) :
    te0 s p0 p1 p2 x0 x1 x2 (onTe e s f) = te0 t p0 p1 p2 x0 x1 x2 (onTe e' t f) := by
  have hG : ∀ g ∈ [(⟨0, s, 1, t⟩ : Glue Three.Side)], parallel3 g.s g.t = true ∧
      Meets3 f ((fun k => if k = 0 then e else e') g.e) g.s ((fun k => if k = 0 then e else e') g.e') g.t := by
    intro g hg; rw [List.mem_singleton.mp hg]; exact ⟨hp, hm⟩
  have h := c68_3d_0 p0 p1 p2 x0 x1 x2 hx0 hx1 hx2 (fun k => if k = 0 then e else e') f _ hG
  rw [singleValued_iff (fun g hg => (len3 (hG g hg).1).1)] at h
  have h := h _ (List.mem_singleton.mpr rfl)
  simp only [if_pos, if_neg one_ne_zero] at h
  rw [c84_0 _ _ _ _ _ _ _ _ hx0 hx1 hx2, c84_0 _ _ _ _ _ _ _ _ hx0 hx1 hx2] at h
  exact List.map_injective_iff.mpr (Option.some_injective _) h

/-- 1-forms. -/
theorem c84_both_1 (hx0 : NodesOK p0 x0) (hx1 : NodesOK p1 x1) (hx2 : NodesOK p2 x2) (h0 : RuleOK r0) (h1 : RuleOK r1) (h2 : RuleOK r2)
    (he : SmoothEl3 e) (he' : SmoothEl3 e') (hp : parallel3 s t = true) (f : (Fin 3 → ℝ) → Fin 3 → ℝ) (hm : Meets3 f e s e' t) :
    te1 e s p0 p1 p2 x0 x1 x2 r0 r1 r2 (onTe e s f) = te1 e' t p0 p1 p2 x0 x1 x2 r0 r1 r2 (onTe e' t f) := by
  have hG : ∀ g ∈ [(⟨0, s, 1, t⟩ : Glue Three.Side)], parallel3 g.s g.t = true ∧
      Meets3 f ((fun k => if k = 0 then e else e') g.e) g.s ((fun k => if k = 0 then e else e') g.e') g.t := by
    intro g hg; rw [List.mem_singleton.mp hg]; exact ⟨hp, hm⟩
  have h := c68_3d_1 p0 p1 p2 x0 x1 x2 hx0 hx1 hx2 r0 r1 r2 h0 h1 h2 (fun k => if k = 0 then e else e')
    (by intro k; by_cases hk : k = 0 <;> simp only [hk, if_true, if_false] <;> assumption) f _ hG
  rw [singleValued_iff (fun g hg => (len3 (hG g hg).1).2.1)] at h
  have h := h _ (List.mem_singleton.mpr rfl)
  simp only [if_pos, if_neg one_ne_zero] at h
  rw [c84_1 _ _ _ _ _ _ _ _ _ _ _ hx0 hx1 hx2 he.orth, c84_1 _ _ _ _ _ _ _ _ _ _ _ hx0 hx1 hx2 he'.orth] at h
  exact List.map_injective_iff.mpr (Option.some_injective _) h

/-- 2-forms. -/
theorem c84_both_2 (hx0 : NodesOK p0 x0) (hx1 : NodesOK p1 x1) (hx2 : NodesOK p2 x2) (h0 : RuleOK r0) (h1 : RuleOK r1) (h2 : RuleOK r2)
    (he : SmoothEl3 e) (he' : SmoothEl3 e') (hp : parallel3 s t = true) (f : (Fin 3 → ℝ) → Fin 3 → ℝ) (hm : Meets3 f e s e' t) :
    te2v e s p0 p1 p2 x0 x1 x2 r0 r1 r2 (onTe e s f) = te2v e' t p0 p1 p2 x0 x1 x2 r0 r1 r2 (onTe e' t f) := by
  have hG : ∀ g ∈ [(⟨0, s, 1, t⟩ : Glue Three.Side)], parallel3 g.s g.t = true ∧
      Meets3 f ((fun k => if k = 0 then e else e') g.e) g.s ((fun k => if k = 0 then e else e') g.e') g.t := by
    intro g hg; rw [List.mem_singleton.mp hg]; exact ⟨hp, hm⟩
  have h := c68_3d_2 p0 p1 p2 x0 x1 x2 hx0 hx1 hx2 r0 r1 r2 h0 h1 h2 (fun k => if k = 0 then e else e')
    (by intro k; by_cases hk : k = 0 <;> simp only [hk, if_true, if_false] <;> assumption) f _ hG
  rw [singleValued_iff (fun g hg => (len3 (hG g hg).1).2.2)] at h
  have h := h _ (List.mem_singleton.mpr rfl)
  simp only [if_pos, if_neg one_ne_zero] at h
  rw [c84_2 _ _ _ _ _ _ _ _ _ _ _ hx0 hx1 hx2 he.orth, c84_2 _ _ _ _ _ _ _ _ _ _ _ hx0 hx1 hx2 he'.orth] at h
  exact List.map_injective_iff.mpr (Option.some_injective _) h

/-- The unit normals of the two elements are the same, so the outward normals of a shared side are opposite. -/
theorem c84_normal_both (he : SmoothEl3 e) (he' : SmoothEl3 e') (hp : parallel3 s t = true) {c : Fin 3 → ℝ}
    (hm : ∀ σ ∈ Ref, ∀ τ ∈ Ref, e.map (onSide3 s σ τ) = e'.map (onSide3 t σ τ) + c) {a b : ℝ} (ha : a ∈ Ref) (hb : b ∈ Ref) :
    unitNormal e s a b = unitNormal e' t a b ∧
      outwardNormal e s a b = fun i => ((outward3 s * outward3 t : ℤ) : ℝ) * outwardNormal e' t a b i := by
  have key := fun i => tangent_agree3 he he' hm ha hb i
  have hj : ∀ i k, jac e s a b i k = jac e' t a b i k := by
    intro i k
    have := key i
    cases s <;> cases t <;> first
      | (exact absurd hp (by decide))
      | (simp only [fst3, snd3] at this
         fin_cases k <;> simp [jac, fullEp_eq, this])
  have hu : unitNormal e s a b = unitNormal e' t a b := by
    simp only [unitNormal, hj]
  refine ⟨hu, ?_⟩
  cases s <;> cases t <;> first
    | (exact absurd hp (by decide))
    | (funext i; simp [outwardNormal, outward3, hu])

/-! ## The trace matrices -/

/-- A list as a local cochain. -/
theorem map_getD {l : List ℝ} {ds : List Nat} {v : List ℝ} (h : ds.map (fun d => l[d]?) = v.map some) (c : ℝ) :
    ds.map (fun d => c * (l[d]?).getD 0) = v.map (c * ·) := by
  have : ds.map (fun d => c * (l[d]?).getD 0) = (ds.map (fun d => l[d]?)).map (fun o => c * o.getD 0) := by simp
  rw [this, h]
  simp

/-- The trace matrix, applied to the discretized form, gives the values found on the six trace elements with outward signs. -/
theorem c84_matrix (e : Disc.Three.El ℝ) (hx0 : NodesOK p0 x0) (hx1 : NodesOK p1 x1) (hx2 : NodesOK p2 x2) (he : OrthOK3 e)
    (f : (Fin 3 → ℝ) → ℝ) (u : (Fin 3 → ℝ) → Fin 3 → ℝ) :
    (List.range (Three.nbT0 p0 p1 p2)).map (applyM (Three.nb0 p0 p1 p2) (Three.trace0 p0 p1 p2)
        fun d => ((Disc.Three.disc0 p0 p1 p2 x0 x1 x2 e f)[d]?).getD 0) =
      (sides3.flatMap fun s => (te0 s p0 p1 p2 x0 x1 x2 (onTe e s f)).map ((outward3 s : ℝ) * ·)) ∧
    (List.range (Three.nbT1 p0 p1 p2)).map (applyM (Three.nb1 p0 p1 p2) (Three.trace1 p0 p1 p2)
        fun d => ((Disc.Three.disc1 p0 p1 p2 x0 x1 x2 r0 r1 r2 e u)[d]?).getD 0) =
      (sides3.flatMap fun s => (te1 e s p0 p1 p2 x0 x1 x2 r0 r1 r2 (onTe e s u)).map ((outward3 s : ℝ) * ·)) ∧
    (List.range (Three.nbT2 p0 p1 p2)).map (applyM (Three.nb2 p0 p1 p2) (Three.trace2 p0 p1 p2)
        fun d => ((Disc.Three.disc2 p0 p1 p2 x0 x1 x2 r0 r1 r2 e u)[d]?).getD 0) =
      (sides3.flatMap fun s => (te2v e s p0 p1 p2 x0 x1 x2 r0 r1 r2 (onTe e s u)).map ((outward3 s : ℝ) * ·)) := by
  refine ⟨?_, ?_, ?_⟩
  · rw [c43_3d_trace0]
    exact List.flatMap_congr fun s _ => map_getD (c84_0 _ _ _ _ _ _ _ _ hx0 hx1 hx2 f) _
  · rw [c43_3d_trace1]
    exact List.flatMap_congr fun s _ => map_getD (c84_1 _ _ _ _ _ _ _ _ _ _ _ hx0 hx1 hx2 he u) _
  · rw [c43_3d_trace2]
    exact List.flatMap_congr fun s _ => map_getD (c84_2 _ _ _ _ _ _ _ _ _ _ _ hx0 hx1 hx2 he u) _

/-- Gauss' theorem: for a polynomial field the signed values on the trace elements of an element add up to the integral of
the divergence. -/
theorem c84_gauss {Φ : Fin 3 → MvPolynomial (Fin 3) ℝ} {U : Fin 3 → MvPolynomial (Fin 3) ℝ} {e : Disc.Three.El ℝ} (he : PolyEl3 e Φ)
    (hx0 : NodesOK p0 x0) (hx1 : NodesOK p1 x1) (hx2 : NodesOK p2 x2) (d : Nat) (h0 : Exact r0 d) (h1 : Exact r1 d) (h2 : Exact r2 d)
    (hU : ∀ b c, (pullN3 Φ U b).degreeOf c ≤ d) :
    (sides3.flatMap fun s => (te2v e s p0 p1 p2 x0 x1 x2 r0 r1 r2 (onTe e s (fieldP3 U))).map ((outward3 s : ℝ) * ·)).sum =
      (Disc.Three.disc3 p0 p1 p2 x0 x1 x2 r0 r1 r2 e (fun z => MvPolynomial.eval z (divP3 U))).sum := by
  rw [← (c84_matrix p0 p1 p2 x0 x1 x2 r0 r1 r2 e hx0 hx1 hx2 he.orth (fun _ => 0) (fieldP3 U)).2.2]
  have hs : ∀ (n : Nat) (g : Nat → ℝ), ((List.range n).map g).sum = ∑ i ∈ Finset.range n, g i := by
    intro n g
    induction n with
    | zero => simp
    | succ n ih => rw [List.range_succ, List.map_append, List.sum_append, ih, Finset.sum_range_succ]; simp
  rw [hs, ← c43_3d_gauss]
  have hl : (Disc.Three.disc3 p0 p1 p2 x0 x1 x2 r0 r1 r2 e (fun z => MvPolynomial.eval z (divP3 U))) =
      (List.range (Three.nb3 p0 p1 p2)).map (applyM (Three.nb2 p0 p1 p2) (Three.div p0 p1 p2)
        fun d => ((Disc.Three.disc2 p0 p1 p2 x0 x1 x2 r0 r1 r2 e (fieldP3 U))[d]?).getD 0) := by
    have hlen : (Disc.Three.disc3 p0 p1 p2 x0 x1 x2 r0 r1 r2 e (fun z => MvPolynomial.eval z (divP3 U))).length = Three.nb3 p0 p1 p2 := by
      simp [Disc.Three.disc3]
    apply List.ext_getElem?
    intro r
    by_cases hr : r < Three.nb3 p0 p1 p2
    · rw [c67_div U he p0 p1 p2 x0 x1 x2 r0 r1 r2 r0 r1 r2 d h0 h1 h2 h0 h1 h2 hU r hr, List.getElem?_map, List.getElem?_range hr, Option.map_some]
    · rw [List.getElem?_eq_none (by omega), List.getElem?_eq_none (by simp; omega)]
  rw [hl, hs]
end
end

/-! ## Boundary-wise fields -/

section
variable {φ B : Type*} (FUNC : List (B × φ)) (range : B → List Nat) (val : Nat → φ → List ℝ)

theorem foldlM_put (L : List (Nat × φ)) (d : List (Nat × List ℝ)) :
    L.foldlM (init := d) (fun d t => if t.1 ∈ d.map Prod.fst then none else some (d ++ [(t.1, val t.1 t.2)])) =
      if (L.map Prod.fst).Nodup ∧ ∀ t ∈ L, t.1 ∉ d.map Prod.fst then some (d ++ L.map fun t => (t.1, val t.1 t.2)) else none := by
  induction L generalizing d with
  | nil => simp
  | cons t L ih =>
    rw [List.foldlM_cons]
    by_cases h : t.1 ∈ d.map Prod.fst
    · rw [if_pos h, if_neg (by rintro ⟨-, h'⟩; exact h' t (by simp) h)]
      rfl
    · rw [if_neg h]
      refine (ih _).trans ?_
      have : ((L.map Prod.fst).Nodup ∧ ∀ t' ∈ L, t'.1 ∉ (d ++ [(t.1, val t.1 t.2)]).map Prod.fst) ↔
          (((t :: L).map Prod.fst).Nodup ∧ ∀ t' ∈ t :: L, t'.1 ∉ d.map Prod.fst) := by
        simp only [List.map_append, List.map_cons, List.map_nil, List.mem_append, not_or, List.nodup_cons,
          List.mem_cons, forall_eq_or_imp]
        constructor
        · rintro ⟨h1, h2⟩
          refine ⟨⟨?_, h1⟩, h, fun t' ht' => (h2 t' ht').1⟩
          intro hm
          obtain ⟨t', ht', e⟩ := List.mem_map.mp hm
          exact (h2 t' ht').2.1 e
        · rintro ⟨⟨h1, h2⟩, -, h3⟩
          exact ⟨h2, fun t' ht' => ⟨h3 t' ht', fun e => h1 (List.mem_map.mpr ⟨t', ht', e⟩), by simp⟩⟩
      by_cases hc : ((t :: L).map Prod.fst).Nodup ∧ ∀ t' ∈ t :: L, t'.1 ∉ d.map Prod.fst
      · rw [if_pos hc, if_pos (this.mpr hc)]; simp
      · rw [if_neg hc, if_neg (fun h' => hc (this.mp h'))]

/-- C84 (boundary-wise fields): the call succeeds exactly if no trace element is on two of the boundaries given (or twice on
one), and then a trace element has a value exactly if it is on one of them, namely the one of the function of that boundary. -/
theorem c84_boundary_wise (hb : (FUNC.map Prod.fst).Nodup) (hr : ∀ bf ∈ FUNC, (range bf.1).Nodup)
    (hd : ∀ bf ∈ FUNC, ∀ bg ∈ FUNC, bf.1 ≠ bg.1 → List.Disjoint (range bf.1) (range bg.1)) :
    ∃ d, boundaryWise FUNC range val = some d ∧ (d.map Prod.fst).Nodup ∧
      ∀ i v, (i, v) ∈ d ↔ ∃ b f, (b, f) ∈ FUNC ∧ i ∈ range b ∧ v = val i f := by
  refine ⟨(FUNC.flatMap fun bf => (range bf.1).map fun i => (i, bf.2)).map fun t => (t.1, val t.1 t.2), ?_, ?_, ?_⟩
  · rw [boundaryWise, foldlM_put, if_pos]
    · simp
    · refine ⟨?_, by simp⟩
      rw [List.map_flatMap]
      simp only [List.map_map]
      rw [List.nodup_flatMap]
      constructor
      · intro bf hbf
        have : (range bf.1).map (Prod.fst ∘ fun i => (i, bf.2)) = range bf.1 := by
          simp [Function.comp_def]
        rw [this]; exact hr bf hbf
      · have hp := List.pairwise_map.mp hb
        refine List.Pairwise.imp_of_mem ?_ hp
        intro bf bg hbf hbg hne
        simp only [Function.onFun, Function.comp_def, List.map_id']
        exact hd bf hbf bg hbg hne
  · rw [List.map_map]
    have : (Prod.fst ∘ fun t : Nat × φ => (t.1, val t.1 t.2)) = Prod.fst := rfl
    rw [this, List.map_flatMap]
    simp only [List.map_map]
    rw [List.nodup_flatMap]
    constructor
    · intro bf hbf
      have : (range bf.1).map (Prod.fst ∘ fun i => (i, bf.2)) = range bf.1 := by
        simp [Function.comp_def]
      rw [this]; exact hr bf hbf
    · have hp := List.pairwise_map.mp hb
      refine List.Pairwise.imp_of_mem ?_ hp
      intro bf bg hbf hbg hne
      simp only [Function.onFun, Function.comp_def, List.map_id']
      exact hd bf hbf bg hbg hne
  · intro i v
    simp only [List.mem_map, List.mem_flatMap, Prod.mk.injEq, Prod.exists]
    constructor
    · rintro ⟨j, f, ⟨b, g, hbg, k, hk, rfl, rfl⟩, rfl, rfl⟩
      exact ⟨b, g, hbg, hk, rfl⟩
    · rintro ⟨b, g, hbg, hk, rfl⟩
      exact ⟨i, g, ⟨b, g, hbg, i, hk, rfl, rfl⟩, rfl, rfl⟩

/-- ... and it fails if a trace element is on two of them. -/
theorem c84_boundary_wise_fails {b c : B} {f g : φ} {i : Nat} {l₁ l₂ l₃ : List (B × φ)}
    (hF : FUNC = l₁ ++ (b, f) :: l₂ ++ (c, g) :: l₃) (hi : i ∈ range b) (hj : i ∈ range c) : boundaryWise FUNC range val = none := by
  rw [boundaryWise, foldlM_put, if_neg]
  rintro ⟨h, -⟩
  rw [hF] at h
  simp only [List.flatMap_append, List.flatMap_cons, List.map_append, List.map_map] at h
  rw [List.nodup_append] at h
  refine h.2.2 i ?_ i ?_ rfl
  · simp only [List.mem_append]
    exact .inr (.inl (by simpa [Function.comp_def] using hi))
  · simp only [List.mem_append]
    exact .inl (by simpa [Function.comp_def] using hj)
end

/-- C84: a field given boundary by boundary that has the values of `u` on each boundary is discretized to the flux of `u` on
every trace element of these boundaries. -/
theorem c84_boundary_wise_flux {B : Type*} (p0 p1 p2 : Nat) (x0 x1 x2 : Nat → ℝ) (r0 r1 r2 : Rule ℝ)
    (hx0 : NodesOK p0 x0) (hx1 : NodesOK p1 x1) (hx2 : NodesOK p2 x2) (h0 : RuleOK r0) (h1 : RuleOK r1) (h2 : RuleOK r2)
    (ch : Nat → Disc.Three.El ℝ × Three.Side) (range : B → List Nat) (FUNC : List (B × ((Fin 3 → ℝ) → Fin 3 → ℝ)))
    (u : (Fin 3 → ℝ) → Fin 3 → ℝ)
    (hu : ∀ b f, (b, f) ∈ FUNC → ∀ i ∈ range b, ∀ σ ∈ Ref, ∀ τ ∈ Ref,
      f ((ch i).1.map (onSide3 (ch i).2 σ τ)) = u ((ch i).1.map (onSide3 (ch i).2 σ τ)))
    (hb : (FUNC.map Prod.fst).Nodup) (hr : ∀ bf ∈ FUNC, (range bf.1).Nodup)
    (hd : ∀ bf ∈ FUNC, ∀ bg ∈ FUNC, bf.1 ≠ bg.1 → List.Disjoint (range bf.1) (range bg.1)) :
    ∃ d, boundaryWise FUNC range (fun i f => te2v (ch i).1 (ch i).2 p0 p1 p2 x0 x1 x2 r0 r1 r2 (onTe (ch i).1 (ch i).2 f)) = some d ∧
      (∀ i, i ∈ d.map Prod.fst ↔ ∃ b f, (b, f) ∈ FUNC ∧ i ∈ range b) ∧
      ∀ i v, (i, v) ∈ d → v = te2v (ch i).1 (ch i).2 p0 p1 p2 x0 x1 x2 r0 r1 r2 (onTe (ch i).1 (ch i).2 u) := by
  obtain ⟨d, h, -, hm⟩ := c84_boundary_wise FUNC range
    (fun i f => te2v (ch i).1 (ch i).2 p0 p1 p2 x0 x1 x2 r0 r1 r2 (onTe (ch i).1 (ch i).2 f)) hb hr hd
  refine ⟨d, h, ?_, ?_⟩
  · intro i
    simp only [List.mem_map, Prod.exists]
    constructor
    · rintro ⟨j, v, hv, rfl⟩
      obtain ⟨b, f, hf, hi, -⟩ := (hm _ _).mp hv
      exact ⟨b, f, hf, hi⟩
    · rintro ⟨b, f, hf, hi⟩
      exact ⟨i, _, (hm _ _).mpr ⟨b, f, hf, hi, rfl⟩, rfl⟩
  · intro i v hv
    obtain ⟨b, f, hf, hi, rfl⟩ := (hm _ _).mp hv
    refine te2v_congr _ _ _ _ _ _ _ _ _ hx0 hx1 hx2 h0 h1 h2 fun σ hσ τ hτ => ?_
    simp only [fluxOf, onTe, TraceDisc.map, fullEp_eq, hu b f hf i hi σ hσ τ hτ]


/-! ## A case: a sheared element of degree 1, whose sides N and S are not orthogonal to the first axis -/

/-- `(x + y, y, z)`. -/
def shearEl : Disc.Three.El ℝ where
  map v := ![v 0 + v 1, v 1, v 2]
  J _ := ![![1, 1, 0], ![0, 1, 0], ![0, 0, 1]]
  orth := false

/-- The end points as nodes, and the midpoint rule. -/
def ends : Nat → ℝ := fun i => 2 * i - 1
@[inherit_doc ends] def midRule : Rule ℝ := ⟨1, fun _ => 0, fun _ => 2⟩

theorem ends_ok : NodesOK 1 ends := by
  refine ⟨by norm_num [ends], by norm_num [ends], fun i hi => ?_⟩
  interval_cases i <;> norm_num [ends, Ref]

theorem midRule_ok : RuleOK midRule := fun q _ => by norm_num [midRule, Ref]

theorem shear_regular : RegularSide shearEl .S := by
  intro a _ b _
  refine ⟨0, ?_⟩
  simp [crossJ, crossV, jac, shearEl]

/-- The flux of the field `(3, 1, 0)` through the side at the end of the first axis: `(3 - 1) * 4`, found by discretizing
the 2-form, and on the trace element from the whole field or from its normal component. -/
example :
    (Three.dofs2 1 1 1 .S).map (fun d => (Disc.Three.disc2 1 1 1 ends ends ends midRule midRule midRule shearEl fun _ => ![3, 1, 0])[d]?) =
        [some 8] ∧
      te2v shearEl .S 1 1 1 ends ends ends midRule midRule midRule (onTe shearEl .S fun _ => ![3, 1, 0]) = [8] ∧
      te2v shearEl .S 1 1 1 ends ends ends midRule midRule midRule (normOf shearEl .S (onTe shearEl .S fun _ => ![3, 1, 0])) = [8] := by
  have h : te2v shearEl .S 1 1 1 ends ends ends midRule midRule midRule (onTe shearEl .S fun _ => ![3, 1, 0]) = [8] := by
    simp only [te2v, te2, faceInts_eq, flux_scaled]
    simp [face3, edge3, fluxDensity, crossJ, crossV, dotV, jac, shearEl, onTe, midRule, ends, List.range_succ]
    norm_num
  refine ⟨?_, h, ?_⟩
  · rw [c84_2 _ _ _ _ _ _ _ _ _ _ _ ends_ok ends_ok ends_ok (fun h => by cases h), h]; rfl
  · rw [(c84_norm _ _ _ _ _ _ _ _ _ ends_ok ends_ok ends_ok midRule_ok midRule_ok midRule_ok shear_regular _).1, h]

/-- The line integrals of the same field along the four edges of the side (the second axis is mapped to `(1, 1, 0)`). -/
example : te1 shearEl .S 1 1 1 ends ends ends midRule midRule midRule (onTe shearEl .S fun _ => ![3, 1, 0]) = [8, 8, 0, 0] := by
  simp only [te1, lineInts_A, lineInts_B]
  simp [edge3, jac, shearEl, onTe, midRule, ends, List.range_succ]
  norm_num

example : boundaryWise [(true, 0), (false, 1)] (fun b => if b then [3, 5] else [4]) (fun i f => [(i : ℝ) + f]) =
      some [(3, [3]), (5, [5]), (4, [5])] ∧
    boundaryWise [(true, 0), (false, 1)] (fun b => if b then [3, 5] else [5]) (fun i f => [(i : ℝ) + f]) = none := by
  constructor
  · norm_num [boundaryWise, List.foldlM]
  · norm_num [boundaryWise, List.foldlM]

end Mifem.Props
