import Verif.Props.Discretize3D
import Verif.Props.Sides
import Mathlib.Analysis.Calculus.Deriv.Add
import Mathlib.Analysis.Calculus.Deriv.Mul
import Mathlib.Analysis.Calculus.Deriv.Pow
import Mathlib.Analysis.Calculus.TangentCone.Real

/-! # C68: neighbouring elements find the same value for the dofs they share -/

namespace Mifem.Props
open Mifem.Disc

/-- The interval of the reference coordinates. -/
abbrev Ref : Set ℝ := Set.Icc (-1) 1

/-- The nodes of one direction: from `-1` to `1`, and inside in between. -/
structure NodesOK (p : Nat) (x : Nat → ℝ) : Prop where
  first : x 0 = -1
  last : x p = 1
  mem : ∀ i ≤ p, x i ∈ Ref

/-- The nodes of the quadrature rule are in `[-1, 1]`. -/
def RuleOK (r : Rule ℝ) : Prop := ∀ q < r.n, r.x q ∈ Ref

theorem inCell_mem {p : Nat} {x : Nat → ℝ} (hx : NodesOK p x) {r : Rule ℝ} (hr : RuleOK r) {q i : Nat} (hq : q < r.n) (hi : i < p) :
    inCell x r q i ∈ Ref := by
  obtain ⟨a, b⟩ := hr q hq
  obtain ⟨c, d⟩ := hx.mem i (by omega)
  obtain ⟨e, f⟩ := hx.mem (i + 1) (by omega)
  rw [inCell]
  constructor
  · nlinarith [mul_nonneg (by linarith : (0:ℝ) ≤ r.x q + 1) (by linarith : (0:ℝ) ≤ x (i + 1) + 1),
      mul_nonneg (by linarith : (0:ℝ) ≤ 1 - r.x q) (by linarith : (0:ℝ) ≤ x i + 1)]
  · nlinarith [mul_nonneg (by linarith : (0:ℝ) ≤ r.x q + 1) (by linarith : (0:ℝ) ≤ 1 - x (i + 1)),
      mul_nonneg (by linarith : (0:ℝ) ≤ 1 - r.x q) (by linarith : (0:ℝ) ≤ 1 - x i)]

/-- Functions that agree on `[-1, 1]` have the same derivatives there. -/
theorem deriv_agree {f g : ℝ → ℝ} {a b t : ℝ} (ht : t ∈ Ref) (h : ∀ s ∈ Ref, f s = g s) (hf : HasDerivWithinAt f a Ref t)
    (hg : HasDerivWithinAt g b Ref t) : a = b :=
  ((uniqueDiffOn_Icc (by norm_num)).uniqueDiffWithinAt ht).eq_deriv Ref hf (hg.congr (fun s hs => h s hs) (h t ht))

/-! ## 2D -/

/-- The matrix of the element holds the derivatives of its mapping on the reference square, and elements marked as
orthogonal have a diagonal matrix. -/
structure SmoothEl2 (e : Disc.Two.El ℝ) : Prop where
  J : ∀ v, (∀ c, v c ∈ Ref) → ∀ a b, HasDerivWithinAt (fun t => e.map (Function.update v b t) a) (e.J v a b) Ref (v b)
  orth : e.orth = true → ∀ v, e.J v 0 1 = 0 ∧ e.J v 1 0 = 0

/-- Points of a side of the reference square. -/
def onSide2 : Two.Side → ℝ → Fin 2 → ℝ
  | .U, t => ![-1, t]
  | .D, t => ![1, t]
  | .L, t => ![t, -1]
  | .R, t => ![t, 1]

/-- The mapped sides are the same curve, with the same parameter, up to a translation under which the field `f` is
invariant (`c = 0`, or periodic boundaries and a periodic field). -/
def Meets2 {α : Type*} (f : (Fin 2 → ℝ) → α) (e : Disc.Two.El ℝ) (s : Two.Side) (e' : Disc.Two.El ℝ) (t : Two.Side) : Prop :=
  ∃ c, (∀ z, f (z + c) = f z) ∧ ∀ τ ∈ Ref, e.map (onSide2 s τ) = e'.map (onSide2 t τ) + c

/-- The direction along a side. -/
def along2 : Two.Side → Fin 2
  | .U | .D => 1
  | .L | .R => 0

theorem onSide2_update (s : Two.Side) (τ σ : ℝ) : Function.update (onSide2 s τ) (along2 s) σ = onSide2 s σ := by
  cases s <;> simp only [onSide2, along2, upd2_0, upd2_1]

theorem onSide2_along (s : Two.Side) (τ : ℝ) : onSide2 s τ (along2 s) = τ := by
  cases s <;> simp [onSide2, along2]

theorem onSide2_mem (s : Two.Side) {τ : ℝ} (h : τ ∈ Ref) (c : Fin 2) : onSide2 s τ c ∈ Ref := by
  cases s <;> fin_cases c <;> simp [onSide2] <;> simpa using h

theorem tangent_agree2 {e e' : Disc.Two.El ℝ} (he : SmoothEl2 e) (he' : SmoothEl2 e') {s t : Two.Side}
    {c : Fin 2 → ℝ} (hm : ∀ τ ∈ Ref, e.map (onSide2 s τ) = e'.map (onSide2 t τ) + c) {τ : ℝ} (hτ : τ ∈ Ref) (a : Fin 2) :
    e.J (onSide2 s τ) a (along2 s) = e'.J (onSide2 t τ) a (along2 t) := by
  have h1 := he.J _ (onSide2_mem s hτ) a (along2 s)
  have h2 := he'.J _ (onSide2_mem t hτ) a (along2 t)
  simp only [onSide2_update, onSide2_along] at h1 h2
  exact deriv_agree hτ (fun σ hσ => congrFun (hm σ hσ) a) h1 (h2.add_const (c a))


/-- C68 (2D, 0-forms): on every mesh in which glued sides are the same curve, the discretized function is
single-valued. -/
theorem c68_2d_0 (p0 p1 : Nat) (x0 x1 : Nat → ℝ) (hx0 : NodesOK p0 x0) (hx1 : NodesOK p1 x1) (E : Nat → Disc.Two.El ℝ)
    (f : (Fin 2 → ℝ) → ℝ) (G : List (Glue Two.Side)) (hG : ∀ g ∈ G, parallel2 g.s g.t = true ∧ Meets2 f (E g.e) g.s (E g.e') g.t) :
    SingleValued (Two.dofs0 p0 p1) G fun k d => (Disc.Two.disc0 p0 p1 x0 x1 (E k) f)[d]? := by
  rw [singleValued_iff (fun g hg => (len2 (hG g hg).1).1)]
  rintro ⟨k, s, k', t⟩ hg
  obtain ⟨hp, c, hf, hm⟩ := hG _ hg
  dsimp only at hp hm ⊢
  cases s <;> cases t <;> first
    | (exact absurd hp (by decide))
    | (simp only [Two.dofs0, List.map_map, List.map_inj_left, List.mem_range, Function.comp_apply]
       intro n hn
       rw [disc0_at2 _ _ _ _ _ (by omega) (by omega), disc0_at2 _ _ _ _ _ (by omega) (by omega)]
       first
       | (have := hm (x1 n) (hx1.mem n (by omega))
          simp only [onSide2] at this
          simp only [hx0.first, hx0.last, this, hf])
       | (have := hm (x0 n) (hx0.mem n (by omega))
          simp only [onSide2] at this
          simp only [hx1.first, hx1.last, this, hf]))

/-- C68 (2D, inner 1-forms): the same for the discretized line integrals of a field. -/
theorem c68_2d_inner (p0 p1 : Nat) (x0 x1 : Nat → ℝ) (hx0 : NodesOK p0 x0) (hx1 : NodesOK p1 x1) (r0 r1 : Rule ℝ) (h0 : RuleOK r0)
    (h1 : RuleOK r1) (E : Nat → Disc.Two.El ℝ) (hE : ∀ k, SmoothEl2 (E k))
    (f : (Fin 2 → ℝ) → Fin 2 → ℝ) (G : List (Glue Two.Side)) (hG : ∀ g ∈ G, parallel2 g.s g.t = true ∧ Meets2 f (E g.e) g.s (E g.e') g.t) :
    SingleValued (Two.dofsI1 p0 p1) G fun k d => (Disc.Two.discInner p0 p1 x0 x1 r0 r1 (E k) f)[d]? := by
  rw [singleValued_iff (fun g hg => (len2 (hG g hg).1).2.1)]
  rintro ⟨k, s, k', t⟩ hg
  obtain ⟨hp, c, hf, hm⟩ := hG _ hg
  dsimp only at hp hm ⊢
  have key := fun {τ : ℝ} hτ a => tangent_agree2 (hE k) (hE k') hm (τ := τ) hτ a
  cases s <;> cases t <;> first
    | (exact absurd hp (by decide))
    | (simp only [Two.dofsI1, List.map_map, List.map_inj_left, List.mem_range, Function.comp_apply]
       intro n hn
       first
       | (rw [discInner_c1 _ _ _ _ _ _ (hE k).orth _ (by omega) hn, discInner_c1 _ _ _ _ _ _ (hE k').orth _ (by omega) hn, edgeY, edgeY]
          refine congrArg some (Finset.sum_congr rfl fun q hq => ?_)
          have hτ := inCell_mem hx1 h1 (Finset.mem_range.mp hq) hn
          have hm' := hm _ hτ
          have k0 := key hτ 0
          have k1 := key hτ 1
          simp only [onSide2, along2] at hm' k0 k1
          simp only [hx0.first, hx0.last, tangent2, hm', hf, k0, k1])
       | (rw [discInner_c0 _ _ _ _ _ _ (hE k).orth _ hn (by omega), discInner_c0 _ _ _ _ _ _ (hE k').orth _ hn (by omega), edgeX, edgeX]
          refine congrArg some (Finset.sum_congr rfl fun q hq => ?_)
          have hτ := inCell_mem hx0 h0 (Finset.mem_range.mp hq) hn
          have hm' := hm _ hτ
          have k0 := key hτ 0
          have k1 := key hτ 1
          simp only [onSide2, along2] at hm' k0 k1
          simp only [hx1.first, hx1.last, tangent2, hm', hf, k0, k1]))

/-- C68 (2D, outer 1-forms): the same for the discretized fluxes of a field. -/
theorem c68_2d_outer (p0 p1 : Nat) (x0 x1 : Nat → ℝ) (hx0 : NodesOK p0 x0) (hx1 : NodesOK p1 x1) (r0 r1 : Rule ℝ) (h0 : RuleOK r0)
    (h1 : RuleOK r1) (E : Nat → Disc.Two.El ℝ) (hE : ∀ k, SmoothEl2 (E k))
    (f : (Fin 2 → ℝ) → Fin 2 → ℝ) (G : List (Glue Two.Side)) (hG : ∀ g ∈ G, parallel2 g.s g.t = true ∧ Meets2 f (E g.e) g.s (E g.e') g.t) :
    SingleValued (Two.dofsO1 p0 p1) G fun k d => (Disc.Two.discOuter p0 p1 x0 x1 r0 r1 (E k) f)[d]? := by
  rw [singleValued_iff (fun g hg => (len2 (hG g hg).1).2.2)]
  rintro ⟨k, s, k', t⟩ hg
  obtain ⟨hp, c, hf, hm⟩ := hG _ hg
  dsimp only at hp hm ⊢
  have key := fun {τ : ℝ} hτ a => tangent_agree2 (hE k) (hE k') hm (τ := τ) hτ a
  cases s <;> cases t <;> first
    | (exact absurd hp (by decide))
    | (simp only [Two.dofsO1, List.map_map, List.map_inj_left, List.mem_range, Function.comp_apply]
       intro n hn
       first
       | (rw [discOuter_c0 _ _ _ _ _ _ (hE k).orth _ (by omega) hn, discOuter_c0 _ _ _ _ _ _ (hE k').orth _ (by omega) hn, edgeY, edgeY]
          refine congrArg some (Finset.sum_congr rfl fun q hq => ?_)
          have hτ := inCell_mem hx1 h1 (Finset.mem_range.mp hq) hn
          have hm' := hm _ hτ
          have k0 := key hτ 0
          have k1 := key hτ 1
          simp only [onSide2, along2] at hm' k0 k1
          simp only [hx0.first, hx0.last, normal2, Matrix.cons_val_zero, hm', hf, k0, k1])
       | (rw [discOuter_c1 _ _ _ _ _ _ (hE k).orth _ hn (by omega), discOuter_c1 _ _ _ _ _ _ (hE k').orth _ hn (by omega), edgeX, edgeX]
          refine congrArg some (Finset.sum_congr rfl fun q hq => ?_)
          have hτ := inCell_mem hx0 h0 (Finset.mem_range.mp hq) hn
          have hm' := hm _ hτ
          have k0 := key hτ 0
          have k1 := key hτ 1
          simp only [onSide2, along2] at hm' k0 k1
          simp only [hx1.first, hx1.last, normal2, Matrix.cons_val_one, Matrix.cons_val_zero, hm', hf, k0, k1]))


/-! ## 3D -/

/-- The matrix of the element holds the derivatives of its mapping on the reference cube, and elements marked as
orthogonal have a diagonal matrix. -/
structure SmoothEl3 (e : Disc.Three.El ℝ) : Prop where
  J : ∀ v, (∀ c, v c ∈ Ref) → ∀ a b, HasDerivWithinAt (fun t => e.map (Function.update v b t) a) (e.J v a b) Ref (v b)
  orth : OrthOK3 e

/-- Points of a side of the reference cube. -/
def onSide3 : Three.Side → ℝ → ℝ → Fin 3 → ℝ
  | .N, s, t => ![-1, s, t]
  | .S, s, t => ![1, s, t]
  | .W, s, t => ![s, -1, t]
  | .E, s, t => ![s, 1, t]
  | .B, s, t => ![s, t, -1]
  | .F, s, t => ![s, t, 1]

/-- The mapped sides are the same surface, with the same parameters, up to a translation under which the field `f` is
invariant. -/
def Meets3 {α : Type*} (f : (Fin 3 → ℝ) → α) (e : Disc.Three.El ℝ) (s : Three.Side) (e' : Disc.Three.El ℝ) (t : Three.Side) : Prop :=
  ∃ c, (∀ z, f (z + c) = f z) ∧ ∀ σ ∈ Ref, ∀ τ ∈ Ref, e.map (onSide3 s σ τ) = e'.map (onSide3 t σ τ) + c

/-- The two directions along a side. -/
def fst3 : Three.Side → Fin 3
  | .N | .S => 1
  | _ => 0
@[inherit_doc fst3] def snd3 : Three.Side → Fin 3
  | .B | .F => 1
  | _ => 2

theorem onSide3_fst (s : Three.Side) (σ τ a : ℝ) : Function.update (onSide3 s σ τ) (fst3 s) a = onSide3 s a τ := by
  cases s <;> simp only [onSide3, fst3, upd3_0, upd3_1]

theorem onSide3_snd (s : Three.Side) (σ τ a : ℝ) : Function.update (onSide3 s σ τ) (snd3 s) a = onSide3 s σ a := by
  cases s <;> simp only [onSide3, snd3, upd3_1, upd3_2]

theorem onSide3_at_fst (s : Three.Side) (σ τ : ℝ) : onSide3 s σ τ (fst3 s) = σ := by
  cases s <;> simp [onSide3, fst3]

theorem onSide3_at_snd (s : Three.Side) (σ τ : ℝ) : onSide3 s σ τ (snd3 s) = τ := by
  cases s <;> simp [onSide3, snd3]

theorem onSide3_mem (s : Three.Side) {σ τ : ℝ} (h : σ ∈ Ref) (h' : τ ∈ Ref) (c : Fin 3) : onSide3 s σ τ c ∈ Ref := by
  cases s <;> fin_cases c <;> simp [onSide3] <;> first | simpa using h | simpa using h'

theorem tangent_agree3 {e e' : Disc.Three.El ℝ} (he : SmoothEl3 e) (he' : SmoothEl3 e') {s t : Three.Side}
    {c : Fin 3 → ℝ} (hm : ∀ σ ∈ Ref, ∀ τ ∈ Ref, e.map (onSide3 s σ τ) = e'.map (onSide3 t σ τ) + c) {σ τ : ℝ} (hσ : σ ∈ Ref) (hτ : τ ∈ Ref) (a : Fin 3) :
    e.J (onSide3 s σ τ) a (fst3 s) = e'.J (onSide3 t σ τ) a (fst3 t) ∧
      e.J (onSide3 s σ τ) a (snd3 s) = e'.J (onSide3 t σ τ) a (snd3 t) := by
  constructor
  · have h1 := he.J _ (onSide3_mem s hσ hτ) a (fst3 s)
    have h2 := he'.J _ (onSide3_mem t hσ hτ) a (fst3 t)
    simp only [onSide3_fst, onSide3_at_fst] at h1 h2
    exact deriv_agree hσ (fun ρ hρ => congrFun (hm ρ hρ τ hτ) a) h1 (h2.add_const (c a))
  · have h1 := he.J _ (onSide3_mem s hσ hτ) a (snd3 s)
    have h2 := he'.J _ (onSide3_mem t hσ hτ) a (snd3 t)
    simp only [onSide3_snd, onSide3_at_snd] at h1 h2
    exact deriv_agree hτ (fun ρ hρ => congrFun (hm σ hσ ρ hρ) a) h1 (h2.add_const (c a))

theorem edge3_congr {p : Nat} {x : Nat → ℝ} (hx : NodesOK p x) {r : Rule ℝ} (hr : RuleOK r) {i : Nat} (hi : i < p) {g g' : ℝ → ℝ}
    (h : ∀ a ∈ Ref, g a = g' a) : edge3 x r i g = edge3 x r i g' := by
  rw [edge3, edge3]
  refine Finset.sum_congr rfl fun q hq => ?_
  rw [h _ (inCell_mem hx hr (Finset.mem_range.mp hq) hi)]

/-- C68 (3D, 0-forms). -/
theorem c68_3d_0 (p0 p1 p2 : Nat) (x0 x1 x2 : Nat → ℝ) (hx0 : NodesOK p0 x0) (hx1 : NodesOK p1 x1) (hx2 : NodesOK p2 x2)
    (E : Nat → Disc.Three.El ℝ) (f : (Fin 3 → ℝ) → ℝ) (G : List (Glue Three.Side))
    (hG : ∀ g ∈ G, parallel3 g.s g.t = true ∧ Meets3 f (E g.e) g.s (E g.e') g.t) :
    SingleValued (Three.dofs0 p0 p1 p2) G fun k d => (Disc.Three.disc0 p0 p1 p2 x0 x1 x2 (E k) f)[d]? := by
  rw [singleValued_iff (fun g hg => (len3 (hG g hg).1).1)]
  rintro ⟨k, s, k', t⟩ hg
  obtain ⟨hp, c, hf, hm⟩ := hG _ hg
  dsimp only at hp hm ⊢
  cases s <;> cases t <;> first
    | (exact absurd hp (by decide))
    | (simp only [Three.dofs0, map_ravelF_eq]
       intro m n hm' hn
       rw [disc0_at3 _ _ _ _ _ _ _ (by omega) (by omega) (by omega), disc0_at3 _ _ _ _ _ _ _ (by omega) (by omega) (by omega)]
       first
       | (have := hm (x1 m) (hx1.mem m (by omega)) (x2 n) (hx2.mem n (by omega))
          simp only [onSide3] at this
          simp only [hx0.first, hx0.last, this, hf])
       | (have := hm (x0 m) (hx0.mem m (by omega)) (x2 n) (hx2.mem n (by omega))
          simp only [onSide3] at this
          simp only [hx1.first, hx1.last, this, hf])
       | (have := hm (x0 m) (hx0.mem m (by omega)) (x1 n) (hx1.mem n (by omega))
          simp only [onSide3] at this
          simp only [hx2.first, hx2.last, this, hf]))

/-- Along a shared surface the components of a field are the same. -/
theorem tangential3 {e e' : Disc.Three.El ℝ} (he : SmoothEl3 e) (he' : SmoothEl3 e') {s t : Three.Side}
    {c : Fin 3 → ℝ} (hm : ∀ σ ∈ Ref, ∀ τ ∈ Ref, e.map (onSide3 s σ τ) = e'.map (onSide3 t σ τ) + c) {f : (Fin 3 → ℝ) → Fin 3 → ℝ} (hf : ∀ z, f (z + c) = f z) {σ τ : ℝ} (hσ : σ ∈ Ref) (hτ : τ ∈ Ref) :
    tangent3 e f (fst3 s) (onSide3 s σ τ) = tangent3 e' f (fst3 t) (onSide3 t σ τ) ∧
      tangent3 e f (snd3 s) (onSide3 s σ τ) = tangent3 e' f (snd3 t) (onSide3 t σ τ) := by
  have key := fun a => tangent_agree3 he he' hm hσ hτ a
  simp only [tangent3, hm σ hσ τ hτ, hf, (key _).1, (key _).2, and_self]

/-- The direction across a side. -/
def across3 : Three.Side → Fin 3
  | .N | .S => 0
  | .W | .E => 1
  | .B | .F => 2

/-- Through a shared surface the flux density is the same. -/
theorem flux3 {e e' : Disc.Three.El ℝ} (he : SmoothEl3 e) (he' : SmoothEl3 e') {s t : Three.Side} (hp : parallel3 s t = true)
    {c : Fin 3 → ℝ} (hm : ∀ σ ∈ Ref, ∀ τ ∈ Ref, e.map (onSide3 s σ τ) = e'.map (onSide3 t σ τ) + c) {f : (Fin 3 → ℝ) → Fin 3 → ℝ} (hf : ∀ z, f (z + c) = f z) {σ τ : ℝ} (hσ : σ ∈ Ref) (hτ : τ ∈ Ref) :
    normal3 e f (across3 s) (onSide3 s σ τ) = normal3 e' f (across3 t) (onSide3 t σ τ) := by
  have key := fun a => tangent_agree3 he he' hm hσ hτ a
  have hm' := hm σ hσ τ hτ
  cases s <;> cases t <;> first
    | (exact absurd hp (by decide))
    | (simp only [fst3, snd3] at key
       simp only [across3, normal3_at0, normal3_at1, normal3_at2, hm', hf, (key _).1, (key _).2])

theorem append_map_eqO {R : Type*} {a b a' b' : Nat} {f f' g g' : Nat → Nat → Nat} {x y : Nat → R} :
    (ravelF a b f ++ ravelF a' b' f').map x = (ravelF a b g ++ ravelF a' b' g').map y ↔
      (∀ i j, i < a → j < b → x (f i j) = y (g i j)) ∧ (∀ i j, i < a' → j < b' → x (f' i j) = y (g' i j)) := by
  rw [List.map_append, List.map_append, ← map_ravelF_eq, ← map_ravelF_eq]
  constructor
  · intro h; exact List.append_inj h (by rw [List.length_map, List.length_map, Mifem.ravelF_length, Mifem.ravelF_length])
  · rintro ⟨h1, h2⟩; rw [h1, h2]

/-- C68 (3D, 1-forms): line integrals. -/
theorem c68_3d_1 (p0 p1 p2 : Nat) (x0 x1 x2 : Nat → ℝ) (hx0 : NodesOK p0 x0) (hx1 : NodesOK p1 x1) (hx2 : NodesOK p2 x2)
    (r0 r1 r2 : Rule ℝ) (h0 : RuleOK r0) (h1 : RuleOK r1) (h2 : RuleOK r2)
    (E : Nat → Disc.Three.El ℝ) (hE : ∀ k, SmoothEl3 (E k)) (f : (Fin 3 → ℝ) → Fin 3 → ℝ) (G : List (Glue Three.Side))
    (hG : ∀ g ∈ G, parallel3 g.s g.t = true ∧ Meets3 f (E g.e) g.s (E g.e') g.t) :
    SingleValued (Three.dofs1 p0 p1 p2) G fun k d => (Disc.Three.disc1 p0 p1 p2 x0 x1 x2 r0 r1 r2 (E k) f)[d]? := by
  rw [singleValued_iff (fun g hg => (len3 (hG g hg).1).2.1)]
  rintro ⟨k, s, k', t⟩ hg
  obtain ⟨hp, c, hf, hm⟩ := hG _ hg
  dsimp only at hp hm ⊢
  have key := fun {σ τ : ℝ} hσ hτ => tangential3 (hE k) (hE k') hm hf (σ := σ) (τ := τ) hσ hτ
  cases s <;> cases t <;> first
    | (exact absurd hp (by decide))
    | (simp only [Three.dofs1, append_map_eqO]
       simp only [onSide3, fst3, snd3] at key
       refine ⟨fun m n hm' hn => ?_, fun m n hm' hn => ?_⟩ <;>
       first
       | (rw [disc1_c0 _ _ _ _ _ _ _ _ _ (hE k).orth _ (by omega) (by omega) (by omega),
            disc1_c0 _ _ _ _ _ _ _ _ _ (hE k').orth _ (by omega) (by omega) (by omega)]
          refine congrArg some (edge3_congr hx0 h0 (by omega) fun a ha => ?_)
          first
          | (simp only [hx1.first, hx1.last]; exact (key ha (hx2.mem _ (by omega))).1)
          | (simp only [hx2.first, hx2.last]; exact (key ha (hx1.mem _ (by omega))).1))
       | (rw [disc1_c1 _ _ _ _ _ _ _ _ _ (hE k).orth _ (by omega) (by omega) (by omega),
            disc1_c1 _ _ _ _ _ _ _ _ _ (hE k').orth _ (by omega) (by omega) (by omega)]
          refine congrArg some (edge3_congr hx1 h1 (by omega) fun a ha => ?_)
          first
          | (simp only [hx0.first, hx0.last]; exact (key ha (hx2.mem _ (by omega))).1)
          | (simp only [hx2.first, hx2.last]; exact (key (hx0.mem _ (by omega)) ha).2))
       | (rw [disc1_c2 _ _ _ _ _ _ _ _ _ (hE k).orth _ (by omega) (by omega) (by omega),
            disc1_c2 _ _ _ _ _ _ _ _ _ (hE k').orth _ (by omega) (by omega) (by omega)]
          refine congrArg some (edge3_congr hx2 h2 (by omega) fun a ha => ?_)
          first
          | (simp only [hx0.first, hx0.last]; exact (key (hx1.mem _ (by omega)) ha).2)
          | (simp only [hx1.first, hx1.last]; exact (key (hx0.mem _ (by omega)) ha).2)))

/-- C68 (3D, 2-forms): fluxes. -/
theorem c68_3d_2 (p0 p1 p2 : Nat) (x0 x1 x2 : Nat → ℝ) (hx0 : NodesOK p0 x0) (hx1 : NodesOK p1 x1) (hx2 : NodesOK p2 x2)
    (r0 r1 r2 : Rule ℝ) (h0 : RuleOK r0) (h1 : RuleOK r1) (h2 : RuleOK r2)
    (E : Nat → Disc.Three.El ℝ) (hE : ∀ k, SmoothEl3 (E k)) (f : (Fin 3 → ℝ) → Fin 3 → ℝ) (G : List (Glue Three.Side))
    (hG : ∀ g ∈ G, parallel3 g.s g.t = true ∧ Meets3 f (E g.e) g.s (E g.e') g.t) :
    SingleValued (Three.dofs2 p0 p1 p2) G fun k d => (Disc.Three.disc2 p0 p1 p2 x0 x1 x2 r0 r1 r2 (E k) f)[d]? := by
  rw [singleValued_iff (fun g hg => (len3 (hG g hg).1).2.2)]
  rintro ⟨k, s, k', t⟩ hg
  obtain ⟨hp, c, hf, hm⟩ := hG _ hg
  dsimp only at hp hm ⊢
  have key := fun {σ τ : ℝ} hσ hτ => flux3 (hE k) (hE k') hp hm hf (σ := σ) (τ := τ) hσ hτ
  cases s <;> cases t <;> first
    | (exact absurd hp (by decide))
    | (simp only [Three.dofs2, map_ravelF_eq]
       simp only [onSide3, across3] at key
       intro m n hm' hn
       first
       | (rw [disc2_c0 _ _ _ _ _ _ _ _ _ (hE k).orth _ (by omega) (by omega) (by omega),
            disc2_c0 _ _ _ _ _ _ _ _ _ (hE k').orth _ (by omega) (by omega) (by omega), face3, face3]
          refine congrArg some (edge3_congr hx1 h1 (by omega) fun a ha => edge3_congr hx2 h2 (by omega) fun b hb => ?_)
          simp only [hx0.first, hx0.last]; exact key ha hb)
       | (rw [disc2_c1 _ _ _ _ _ _ _ _ _ (hE k).orth _ (by omega) (by omega) (by omega),
            disc2_c1 _ _ _ _ _ _ _ _ _ (hE k').orth _ (by omega) (by omega) (by omega), face3, face3]
          refine congrArg some (edge3_congr hx0 h0 (by omega) fun a ha => edge3_congr hx2 h2 (by omega) fun b hb => ?_)
          simp only [hx1.first, hx1.last]; exact key ha hb)
       | (rw [disc2_c2 _ _ _ _ _ _ _ _ _ (hE k).orth _ (by omega) (by omega) (by omega),
            disc2_c2 _ _ _ _ _ _ _ _ _ (hE k').orth _ (by omega) (by omega) (by omega), face3, face3]
          refine congrArg some (edge3_congr hx0 h0 (by omega) fun a ha => edge3_congr hx1 h1 (by omega) fun b hb => ?_)
          simp only [hx2.first, hx2.last]; exact key ha hb))

end Mifem.Props
