import Verif.Lemmas.Sides
import Verif.Props.Incidence
import Mathlib.Logic.Relation

/-!
# C11 (the coboundary of a single-valued cochain is single-valued) and C43 (trace matrices)
-/

namespace Mifem.Props
open Mifem Finset

/-! ## Specification of gluing -/

/-- side `s` of element `e` is glued to side `t` of element `e'`. -/
structure Glue (σ : Type) where
  e : Nat
  s : σ
  e' : Nat
  t : σ

/-- A slot is a pair (element, local dof). Two slots are linked when they sit at the same position of two glued
sides. -/
def Link {σ : Type} (dofs : σ → List Nat) (G : List (Glue σ)) (a b : Nat × Nat) : Prop :=
  ∃ g ∈ G, a.1 = g.e ∧ b.1 = g.e' ∧ ∃ n : Nat, (dofs g.s)[n]? = some a.2 ∧ (dofs g.t)[n]? = some b.2


/-- A family of local cochains (element → local dof → value) is single-valued: slots that are the same dof of the
glued mesh (equivalence closure of `Link`) carry the same value. -/
def SingleValued {σ : Type} {R : Type*} (dofs : σ → List Nat) (G : List (Glue σ)) (x : Nat → Nat → R) : Prop :=
  ∀ a b, Relation.EqvGen (Link dofs G) a b → x a.1 a.2 = x b.1 b.2

theorem singleValued_iff {σ : Type} {R : Type*} {dofs : σ → List Nat} {G : List (Glue σ)} {x : Nat → Nat → R}
    (hlen : ∀ g ∈ G, (dofs g.s).length = (dofs g.t).length) :
    SingleValued dofs G x ↔ ∀ g ∈ G, (dofs g.s).map (x g.e) = (dofs g.t).map (x g.e') := by
  constructor
  · intro h g hg
    apply List.ext_getElem
    · simpa using hlen g hg
    · intro n h1 h2
      simp only [List.length_map] at h1 h2
      simp only [List.getElem_map]
      exact h (g.e, (dofs g.s)[n]) (g.e', (dofs g.t)[n])
        (.rel _ _ ⟨g, hg, rfl, rfl, n, by simp [h1], by simp [h2]⟩)
  · intro h a b hab
    induction hab with
    | rel a b hab =>
      obtain ⟨g, hg, ha, hb, n, h1, h2⟩ := hab
      have := congrArg (fun l => l[n]?) (h g hg)
      simp only [List.getElem?_map, h1, h2, Option.map_some, Option.some.injEq] at this
      rw [ha, hb]; exact this
    | refl a => rfl
    | symm a b _ ih => exact ih.symm
    | trans a b c _ _ ih1 ih2 => exact ih1.trans ih2

variable {R : Type*} [Ring R]

/-! ## C11, 2D -/

/-- glued sides are parallel: `U`/`D` to `U`/`D`, `L`/`R` to `L`/`R` (every CSCG element map glues `U` to `D` and `L` to
`R`). -/
def parallel2 (s t : Two.Side) : Bool :=
  match s, t with
  | .U, .U | .U, .D | .D, .U | .D, .D | .L, .L | .L, .R | .R, .L | .R, .R => true
  | _, _ => false


theorem grad_side {p0 p1 : Nat} {s t : Two.Side} (hp : parallel2 s t = true) {x y : Nat → R}
    (h : (Two.dofs0 p0 p1 s).map x = (Two.dofs0 p0 p1 t).map y) :
    (Two.dofsI1 p0 p1 s).map (applyM (Two.nb0 p0 p1) (Two.gradInner p0 p1) x)
      = (Two.dofsI1 p0 p1 t).map (applyM (Two.nb0 p0 p1) (Two.gradInner p0 p1) y) := by
  cases s <;> cases t <;> first
    | (exact absurd hp (by decide))
    | (simp only [Two.dofs0, List.map_map, List.map_inj_left, List.mem_range, Function.comp_apply] at h
       simp only [Two.dofsI1, List.map_map, List.map_inj_left, List.mem_range, Function.comp_apply]
       intro n hn
       first
       | rw [Two.gradInner_c1 _ (by omega) hn, Two.gradInner_c1 _ (by omega) hn, h _ (by omega), h _ (by omega)]
       | rw [Two.gradInner_c0 _ hn (by omega), Two.gradInner_c0 _ hn (by omega), h _ (by omega), h _ (by omega)])

theorem curl_side {p0 p1 : Nat} {s t : Two.Side} (hp : parallel2 s t = true) {x y : Nat → R}
    (h : (Two.dofs0 p0 p1 s).map x = (Two.dofs0 p0 p1 t).map y) :
    (Two.dofsO1 p0 p1 s).map (applyM (Two.nb0 p0 p1) (Two.curlOuter p0 p1) x)
      = (Two.dofsO1 p0 p1 t).map (applyM (Two.nb0 p0 p1) (Two.curlOuter p0 p1) y) := by
  cases s <;> cases t <;> first
    | (exact absurd hp (by decide))
    | (simp only [Two.dofs0, List.map_map, List.map_inj_left, List.mem_range, Function.comp_apply] at h
       simp only [Two.dofsO1, List.map_map, List.map_inj_left, List.mem_range, Function.comp_apply]
       intro n hn
       first
       | rw [Two.curlOuter_c0 _ (by omega) hn, Two.curlOuter_c0 _ (by omega) hn, h _ (by omega), h _ (by omega)]
       | rw [Two.curlOuter_c1 _ hn (by omega), Two.curlOuter_c1 _ hn (by omega), h _ (by omega), h _ (by omega)])

theorem len2 {p0 p1 : Nat} {s t : Two.Side} (hp : parallel2 s t = true) :
    (Two.dofs0 p0 p1 s).length = (Two.dofs0 p0 p1 t).length ∧ (Two.dofsI1 p0 p1 s).length = (Two.dofsI1 p0 p1 t).length
      ∧ (Two.dofsO1 p0 p1 s).length = (Two.dofsO1 p0 p1 t).length := by
  cases s <;> cases t <;> first | (exact absurd hp (by decide)) | simp [Two.dofs0, Two.dofsI1, Two.dofsO1]

/-- 2D, inner orientation: for every connectivity (any list of gluings of parallel sides), degree and 0-cochain. -/
theorem c11_2d_grad (p0 p1 : Nat) (G : List (Glue Two.Side)) (hG : ∀ g ∈ G, parallel2 g.s g.t = true)
    (x : Nat → Nat → R) (hx : SingleValued (Two.dofs0 p0 p1) G x) :
    SingleValued (Two.dofsI1 p0 p1) G (fun e => applyM (Two.nb0 p0 p1) (Two.gradInner p0 p1) (x e)) := by
  rw [singleValued_iff (fun g hg => (len2 (hG g hg)).2.1)]
  rw [singleValued_iff (fun g hg => (len2 (hG g hg)).1)] at hx
  exact fun g hg => grad_side (hG g hg) (hx g hg)

/-- 2D, outer orientation. -/
theorem c11_2d_curl (p0 p1 : Nat) (G : List (Glue Two.Side)) (hG : ∀ g ∈ G, parallel2 g.s g.t = true)
    (x : Nat → Nat → R) (hx : SingleValued (Two.dofs0 p0 p1) G x) :
    SingleValued (Two.dofsO1 p0 p1) G (fun e => applyM (Two.nb0 p0 p1) (Two.curlOuter p0 p1) (x e)) := by
  rw [singleValued_iff (fun g hg => (len2 (hG g hg)).2.2)]
  rw [singleValued_iff (fun g hg => (len2 (hG g hg)).1)] at hx
  exact fun g hg => curl_side (hG g hg) (hx g hg)

/-- two elements glued `D`-`U`, degree (1,2), with a single-valued cochain that is not constant, and whose gradient on
the shared edge is not zero. -/
example : ∃ x : Nat → Nat → ℤ, SingleValued (Two.dofs0 1 2) [⟨0, .D, 1, .U⟩] x ∧ x 0 1 ≠ x 0 3 ∧
    applyM (Two.nb0 1 2) (Two.gradInner 1 2) (x 0) (Two.lnI1c1 1 2 1 0) = 1 := by
  refine ⟨fun e d => if e = 0 then (d / 2 : Nat) else (d / 2 : Nat), ?_, by decide, ?_⟩
  · rw [singleValued_iff (by decide)]; decide
  · rw [Two.gradInner_c1 _ (by omega) (by omega)]; decide

/-! ## C11, 3D -/

/-- glued sides are parallel: N/S, W/E, B/F. -/
def parallel3 (s t : Three.Side) : Bool :=
  match s, t with
  | .N, .N | .N, .S | .S, .N | .S, .S | .W, .W | .W, .E | .E, .W | .E, .E | .B, .B | .B, .F | .F, .B | .F, .F => true
  | _, _ => false

theorem len3 {p0 p1 p2 : Nat} {s t : Three.Side} (hp : parallel3 s t = true) :
    (Three.dofs0 p0 p1 p2 s).length = (Three.dofs0 p0 p1 p2 t).length ∧
    (Three.dofs1 p0 p1 p2 s).length = (Three.dofs1 p0 p1 p2 t).length ∧
    (Three.dofs2 p0 p1 p2 s).length = (Three.dofs2 p0 p1 p2 t).length := by
  cases s <;> cases t <;> first
    | (exact absurd hp (by decide)) | simp [Three.dofs0, Three.dofs1, Three.dofs2, ravelF_length]


theorem append_map_eq {a b a' b' : Nat} {f f' g g' : Nat → Nat → Nat} {x y : Nat → R} :
    (ravelF a b f ++ ravelF a' b' f').map x = (ravelF a b g ++ ravelF a' b' g').map y ↔
      (∀ i j, i < a → j < b → x (f i j) = y (g i j)) ∧ (∀ i j, i < a' → j < b' → x (f' i j) = y (g' i j)) := by
  rw [List.map_append, List.map_append, ← map_ravelF_eq, ← map_ravelF_eq]
  constructor
  · intro h; exact List.append_inj h (by simp [ravelF_length])
  · rintro ⟨h1, h2⟩; rw [h1, h2]

theorem grad3_side {p0 p1 p2 : Nat} {s t : Three.Side} (hp : parallel3 s t = true) {x y : Nat → R}
    (h : (Three.dofs0 p0 p1 p2 s).map x = (Three.dofs0 p0 p1 p2 t).map y) :
    (Three.dofs1 p0 p1 p2 s).map (applyM (Three.nb0 p0 p1 p2) (Three.grad p0 p1 p2) x)
      = (Three.dofs1 p0 p1 p2 t).map (applyM (Three.nb0 p0 p1 p2) (Three.grad p0 p1 p2) y) := by
  cases s <;> cases t <;> first
    | (exact absurd hp (by decide))
    | (simp only [Three.dofs0, map_ravelF_eq] at h
       simp only [Three.dofs1, append_map_eq]
       constructor <;> intro m n hm hn <;>
       first
       | rw [Three.grad_c0 _ (by omega) (by omega) (by omega), Three.grad_c0 _ (by omega) (by omega) (by omega),
           h _ _ (by omega) (by omega), h _ _ (by omega) (by omega)]
       | rw [Three.grad_c1 _ (by omega) (by omega) (by omega), Three.grad_c1 _ (by omega) (by omega) (by omega),
           h _ _ (by omega) (by omega), h _ _ (by omega) (by omega)]
       | rw [Three.grad_c2 _ (by omega) (by omega) (by omega), Three.grad_c2 _ (by omega) (by omega) (by omega),
           h _ _ (by omega) (by omega), h _ _ (by omega) (by omega)])

theorem curl3_side {p0 p1 p2 : Nat} {s t : Three.Side} (hp : parallel3 s t = true) {x y : Nat → R}
    (h : (Three.dofs1 p0 p1 p2 s).map x = (Three.dofs1 p0 p1 p2 t).map y) :
    (Three.dofs2 p0 p1 p2 s).map (applyM (Three.nb1 p0 p1 p2) (Three.curl p0 p1 p2) x)
      = (Three.dofs2 p0 p1 p2 t).map (applyM (Three.nb1 p0 p1 p2) (Three.curl p0 p1 p2) y) := by
  cases s <;> cases t <;> first
    | (exact absurd hp (by decide))
    | (simp only [Three.dofs1, append_map_eq] at h
       obtain ⟨h1, h2⟩ := h
       simp only [Three.dofs2, map_ravelF_eq]
       intro m n hm hn
       first
       | rw [Three.curl_c0 _ (by omega) (by omega) (by omega), Three.curl_c0 _ (by omega) (by omega) (by omega),
           h1 _ _ (by omega) (by omega), h1 _ _ (by omega) (by omega),
           h2 _ _ (by omega) (by omega), h2 _ _ (by omega) (by omega)]
       | rw [Three.curl_c1 _ (by omega) (by omega) (by omega), Three.curl_c1 _ (by omega) (by omega) (by omega),
           h1 _ _ (by omega) (by omega), h1 _ _ (by omega) (by omega),
           h2 _ _ (by omega) (by omega), h2 _ _ (by omega) (by omega)]
       | rw [Three.curl_c2 _ (by omega) (by omega) (by omega), Three.curl_c2 _ (by omega) (by omega) (by omega),
           h1 _ _ (by omega) (by omega), h1 _ _ (by omega) (by omega),
           h2 _ _ (by omega) (by omega), h2 _ _ (by omega) (by omega)])

/-- 3D, 0-forms. -/
theorem c11_3d_grad (p0 p1 p2 : Nat) (G : List (Glue Three.Side)) (hG : ∀ g ∈ G, parallel3 g.s g.t = true)
    (x : Nat → Nat → R) (hx : SingleValued (Three.dofs0 p0 p1 p2) G x) :
    SingleValued (Three.dofs1 p0 p1 p2) G (fun e => applyM (Three.nb0 p0 p1 p2) (Three.grad p0 p1 p2) (x e)) := by
  rw [singleValued_iff (fun g hg => (len3 (hG g hg)).2.1)]
  rw [singleValued_iff (fun g hg => (len3 (hG g hg)).1)] at hx
  exact fun g hg => grad3_side (hG g hg) (hx g hg)

/-- 3D, 1-forms. -/
theorem c11_3d_curl (p0 p1 p2 : Nat) (G : List (Glue Three.Side)) (hG : ∀ g ∈ G, parallel3 g.s g.t = true)
    (x : Nat → Nat → R) (hx : SingleValued (Three.dofs1 p0 p1 p2) G x) :
    SingleValued (Three.dofs2 p0 p1 p2) G (fun e => applyM (Three.nb1 p0 p1 p2) (Three.curl p0 p1 p2) (x e)) := by
  rw [singleValued_iff (fun g hg => (len3 (hG g hg)).2.2)]
  rw [singleValued_iff (fun g hg => (len3 (hG g hg)).2.1)] at hx
  exact fun g hg => curl3_side (hG g hg) (hx g hg)

example : ∃ x : Nat → Nat → ℤ, SingleValued (Three.dofs0 1 1 1) [⟨0, .S, 1, .N⟩, ⟨1, .W, 0, .E⟩] x ∧ x 0 4 ≠ x 0 0 := by
  refine ⟨fun _ d => (d / 4 : Nat), ?_, by decide⟩
  rw [singleValued_iff (by decide)]; decide

end Mifem.Props
