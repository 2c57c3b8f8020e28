import Verif.Model.Wrappers
import Verif.Props.ExactSolution
import Mathlib.Algebra.BigOperators.Fin
import Mathlib.Tactic.FinCases

/-!
# C75: the calculus on wrapped functions is vector calculus and can be iterated
-/

namespace Mifem.Props

open Mifem.ES Mifem.Wrap

/-! ## Three dimensions -/

/-- Everything about the vector can be computed: its components can be differentiated. -/
def Usable3 (a : Vector3) : Prop := accepted3 a.v0.kind ∧ accepted3 a.v1.kind ∧ accepted3 a.v2.kind

/-- The values of a vector. -/
def Values3 (a : Vector3) (u v w : Fn3) : Prop := a.v0.f = u ∧ a.v1.f = v ∧ a.v2.f = w

/-- Divergence, curl, time derivative and convection of a usable vector, in terms of the partial
derivatives. -/
theorem c75_values_3d (D : Diff3) {a : Vector3} (ha : Usable3 a) {u v w : Fn3}
    (hv : Values3 a u v w) (b : Vector3) {p q r : Fn3} (hb : Values3 b p q r) :
    (∃ s, a.divergence D = some s ∧ s.s.f = divField D u v w) ∧
    (∃ c, a.curl D = some c ∧ Values3 c (curlX D u v w) (curlY D u v w) (curlZ D u v w)) ∧
    (∃ c, a.timeDerivative D = some c ∧ Values3 c (D.t u) (D.t v) (D.t w) ∧ Usable3 c) ∧
    (∃ c, a.convectionBy D b = some c ∧ ∀ t x y z,
      c.v0.f t x y z = p t x y z * D.x u t x y z + q t x y z * D.y u t x y z
        + r t x y z * D.z u t x y z ∧
      c.v1.f t x y z = p t x y z * D.x v t x y z + q t x y z * D.y v t x y z
        + r t x y z * D.z v t x y z ∧
      c.v2.f t x y z = p t x y z * D.x w t x y z + q t x y z * D.y w t x y z
        + r t x y z * D.z w t x y z) := by
  obtain ⟨h0, h1, h2⟩ := ha
  obtain ⟨rfl, rfl, rfl⟩ := hv
  obtain ⟨rfl, rfl, rfl⟩ := hb
  refine ⟨⟨⟨⟨.object, divField D a.v0.f a.v1.f a.v2.f⟩⟩, ?_, rfl⟩, ⟨⟨⟨.object, curlX D a.v0.f a.v1.f a.v2.f⟩,
    ⟨.object, curlY D a.v0.f a.v1.f a.v2.f⟩, ⟨.object, curlZ D a.v0.f a.v1.f a.v2.f⟩⟩, ?_, rfl, rfl, rfl⟩,
    ?_, ?_⟩
  · simp only [Vector3.divergence, npd3, h0, h1, h2, if_true]; rfl
  · simp only [Vector3.curl, npd3, h0, h1, h2, if_true]; rfl
  · refine ⟨⟨⟨.method 5, D.t a.v0.f⟩, ⟨.method 5, D.t a.v1.f⟩, ⟨.method 5, D.t a.v2.f⟩⟩, ?_,
      ⟨rfl, rfl, rfl⟩, rfl, rfl, rfl⟩
    simp only [Vector3.timeDerivative, npd3, h0, h1, h2, if_true]; rfl
  · refine ⟨⟨sum3 (mul3 b.v0 ⟨.method 5, D.x a.v0.f⟩) (mul3 b.v1 ⟨.method 5, D.y a.v0.f⟩)
        (mul3 b.v2 ⟨.method 5, D.z a.v0.f⟩),
      sum3 (mul3 b.v0 ⟨.method 5, D.x a.v1.f⟩) (mul3 b.v1 ⟨.method 5, D.y a.v1.f⟩)
        (mul3 b.v2 ⟨.method 5, D.z a.v1.f⟩),
      sum3 (mul3 b.v0 ⟨.method 5, D.x a.v2.f⟩) (mul3 b.v1 ⟨.method 5, D.y a.v2.f⟩)
        (mul3 b.v2 ⟨.method 5, D.z a.v2.f⟩)⟩, ?_, ?_⟩
    · simp only [Vector3.convectionBy, npd3, h0, h1, h2, if_true]; rfl
    intro t x y z; exact ⟨rfl, rfl, rfl⟩

/-- The gradient of a usable scalar can be differentiated; its curl vanishes and its divergence is
the Laplacian. -/
theorem c75_gradient_3d {D : Diff3} {S : Fn3 → Prop} {a : Scalar3} (ha : accepted3 a.s.kind)
    (hr : RegularField D S a.s.f) :
    ∃ g, a.gradient D = some g ∧ Usable3 g ∧ Values3 g (D.x a.s.f) (D.y a.s.f) (D.z a.s.f) ∧
      (∃ c, g.curl D = some c ∧
        Values3 c (fun _ _ _ _ => 0) (fun _ _ _ _ => 0) (fun _ _ _ _ => 0)) ∧
      (∃ s, g.divergence D = some s ∧ s.s.f = lap D a.s.f) := by
  have hu : Usable3 ⟨⟨.method 5, D.x a.s.f⟩, ⟨.method 5, D.y a.s.f⟩, ⟨.method 5, D.z a.s.f⟩⟩ :=
    ⟨rfl, rfl, rfl⟩
  refine ⟨_, ?_, hu, ⟨rfl, rfl, rfl⟩, ?_, ?_⟩
  · simp only [Scalar3.gradient, npd3, ha, if_true]; rfl
  · obtain ⟨c, hc, h1, h2, h3⟩ := (c75_values_3d D hu ⟨rfl, rfl, rfl⟩
      ⟨⟨.method 5, D.x a.s.f⟩, ⟨.method 5, D.y a.s.f⟩, ⟨.method 5, D.z a.s.f⟩⟩ ⟨rfl, rfl, rfl⟩).2.1
    refine ⟨c, hc, ?_, ?_, ?_⟩
    · rw [h1]; funext t x y z; simp only [curlX, hr.yz, sub_self]
    · rw [h2]; funext t x y z; simp only [curlY, hr.xz, sub_self]
    · rw [h3]; funext t x y z; simp only [curlZ, hr.xy, sub_self]
  · obtain ⟨s, hs, h1⟩ := (c75_values_3d D hu ⟨rfl, rfl, rfl⟩
      ⟨⟨.method 5, D.x a.s.f⟩, ⟨.method 5, D.y a.s.f⟩, ⟨.method 5, D.z a.s.f⟩⟩ ⟨rfl, rfl, rfl⟩).1
    exact ⟨s, hs, h1⟩

/-- Time derivative and convection of a scalar. -/
theorem c75_scalar_3d (D : Diff3) {a : Scalar3} (ha : accepted3 a.s.kind) (b : Vector3) (t x y z : ℝ) :
    (a.timeDerivative D).map (·.s) = some ⟨.method 5, D.t a.s.f⟩ ∧
    (a.convectionBy D b).map (·.s.f t x y z)
      = some (b.v0.f t x y z * D.x a.s.f t x y z + b.v1.f t x y z * D.y a.s.f t x y z
        + b.v2.f t x y z * D.z a.s.f t x y z) := by
  constructor
  · simp only [Scalar3.timeDerivative, npd3, ha, if_true]; rfl
  · simp only [Scalar3.convectionBy, npd3, ha, if_true]; rfl

/-- The values of the curl have no divergence, and their curl is `grad div - Δ` … -/
theorem c75_curl_3d_partial {D : Diff3} {S : Fn3 → Prop} (hD : FieldCalculus D S) {a c : Vector3}
    (ha : Usable3 a) (h0 : RegularField D S a.v0.f) (h1 : RegularField D S a.v1.f)
    (h2 : RegularField D S a.v2.f) (hc : a.curl D = some c) :
    divField D c.v0.f c.v1.f c.v2.f = (fun _ _ _ _ => 0) ∧
    ∀ t x y z, curlX D c.v0.f c.v1.f c.v2.f t x y z
      = D.x (divField D a.v0.f a.v1.f a.v2.f) t x y z - lap D a.v0.f t x y z := by
  obtain ⟨c', hc', e0, e1, e2⟩ :=
    (c75_values_3d D ha ⟨rfl, rfl, rfl⟩ a ⟨rfl, rfl, rfl⟩).2.1
  rw [hc] at hc'
  obtain rfl := Option.some.inj hc'
  rw [e0, e1, e2]
  exact ⟨div_curl hD h0 h1 h2, curl_curlX hD h0 h1 h2⟩

/-- … but in three dimensions nothing that was computed by a sum, a difference or a product can be
differentiated: the divergence and the curl of a curl, the gradient of a divergence or of a dot
product, derivatives of sums all raise `NotImplementedError`. -/
theorem c75_closed_3d_fails (D : Diff3) (a b : Vector3) (s r : Scalar3) :
    (a.curl D).bind (·.divergence D) = none ∧ (a.curl D).bind (·.curl D) = none ∧
    (a.divergence D).bind (·.gradient D) = none ∧ (a.dot b).gradient D = none ∧
    (a.add b).divergence D = none ∧ (a.sub b).curl D = none ∧ a.neg.timeDerivative D = none ∧
    (a.cross b).divergence D = none ∧ (s.mul r).gradient D = none ∧ (s.add r).timeDerivative D = none := by
  refine ⟨?_, ?_, ?_, rfl, rfl, rfl, rfl, rfl, rfl, rfl⟩
  · cases h : a.curl D with
    | none => rfl
    | some c =>
      simp only [Vector3.curl, Option.bind_eq_bind, Option.bind_eq_some_iff, Option.some.injEq] at h
      obtain ⟨_, _, _, _, _, _, rfl⟩ := h
      rfl
  · cases h : a.curl D with
    | none => rfl
    | some c =>
      simp only [Vector3.curl, Option.bind_eq_bind, Option.bind_eq_some_iff, Option.some.injEq] at h
      obtain ⟨_, _, _, _, _, _, rfl⟩ := h
      rfl
  · cases h : a.divergence D with
    | none => rfl
    | some c =>
      simp only [Vector3.divergence, Option.bind_eq_bind, Option.bind_eq_some_iff, Option.some.injEq]
        at h
      obtain ⟨_, _, _, _, _, _, rfl⟩ := h
      rfl

/-- Such a curl exists: the failure is not the failure of the first step. -/
example : ∃ a : Vector3, Usable3 a ∧ (a.curl (central3 1)).isSome :=
  ⟨⟨⟨.function 4, fun _ _ y _ => y⟩, ⟨.function 4, fun _ x _ _ => x * x⟩, ⟨.method 5, fun t _ _ _ => t⟩⟩,
    ⟨rfl, rfl, rfl⟩, rfl⟩

/-- The algebra of vectors: the product is antisymmetric, orthogonal to its factors, and satisfies
Lagrange's identity; `a × (b × c) = b (a·c) - c (a·b)`. -/
theorem c75_algebra_3d (a b c : Vector3) (t x y z : ℝ) :
    (a.dot (a.cross b)).s.f t x y z = 0 ∧ (b.dot (a.cross b)).s.f t x y z = 0 ∧
    ((a.cross b).dot (a.cross b)).s.f t x y z + (a.dot b).s.f t x y z ^ 2
      = (a.dot a).s.f t x y z * (b.dot b).s.f t x y z ∧
    (a.cross b).v0.f t x y z = (b.cross a).neg.v0.f t x y z ∧
    (a.cross b).v1.f t x y z = (b.cross a).neg.v1.f t x y z ∧
    (a.cross b).v2.f t x y z = (b.cross a).neg.v2.f t x y z ∧
    (a.cross (b.cross c)).v0.f t x y z
      = b.v0.f t x y z * (a.dot c).s.f t x y z - c.v0.f t x y z * (a.dot b).s.f t x y z ∧
    (a.cross (b.cross c)).v1.f t x y z
      = b.v1.f t x y z * (a.dot c).s.f t x y z - c.v1.f t x y z * (a.dot b).s.f t x y z ∧
    (a.cross (b.cross c)).v2.f t x y z
      = b.v2.f t x y z * (a.dot c).s.f t x y z - c.v2.f t x y z * (a.dot b).s.f t x y z := by
  simp only [Vector3.dot, Vector3.cross, Vector3.sub, Vector3.neg, sum3, mul3, sub3, neg3]
  refine ⟨?_, ?_, ?_, ?_, ?_, ?_, ?_, ?_, ?_⟩ <;> ring

/-- A vector at a point, and a scalar at a point: the operations are those of `ℝ³` and `ℝ`. -/
def at3 (a : Vector3) (t x y z : ℝ) : Fin 3 → ℝ := ![a.v0.f t x y z, a.v1.f t x y z, a.v2.f t x y z]

/-- Evaluation is a homomorphism. -/
theorem c75_pointwise_3d (a b : Vector3) (s r : Scalar3) (t x y z : ℝ) :
    at3 (a.add b) t x y z = at3 a t x y z + at3 b t x y z ∧
    at3 (a.sub b) t x y z = at3 a t x y z - at3 b t x y z ∧
    at3 a.neg t x y z = -at3 a t x y z ∧
    (a.dot b).s.f t x y z = ∑ i, at3 a t x y z i * at3 b t x y z i ∧
    (s.add r).s.f t x y z = s.s.f t x y z + r.s.f t x y z ∧
    (s.sub r).s.f t x y z = s.s.f t x y z - r.s.f t x y z ∧
    (s.mul r).s.f t x y z = s.s.f t x y z * r.s.f t x y z ∧
    s.neg.s.f t x y z = -s.s.f t x y z := by
  refine ⟨?_, ?_, ?_, ?_, rfl, rfl, rfl, rfl⟩
  · funext i; fin_cases i <;> rfl
  · funext i; fin_cases i <;> rfl
  · funext i; fin_cases i <;> rfl
  · rw [Fin.sum_univ_three]; rfl

/-! ## Two dimensions -/

/-- The components can be differentiated. -/
def Usable2 (a : Vector2) : Prop := accepted2 a.v0.kind ∧ accepted2 a.v1.kind

/-- In two dimensions whatever the calculus returns can be used again. -/
theorem c75_closed_2d (D : Diff2) {a b : Vector2} {s r : Scalar2} (ha : Usable2 a)
    (hs : accepted2 s.s.kind) :
    (∃ c, a.divergence D = some c ∧ accepted2 c.s.kind) ∧
    (∃ c, a.rot D = some c ∧ accepted2 c.s.kind) ∧
    (∃ c, a.timeDerivative D = some c ∧ Usable2 c) ∧
    (∃ c, a.convectionBy D b = some c ∧ Usable2 c) ∧
    (∃ c, s.gradient D = some c ∧ Usable2 c) ∧ (∃ c, s.curl D = some c ∧ Usable2 c) ∧
    (∃ c, s.timeDerivative D = some c ∧ accepted2 c.s.kind) ∧
    (∃ c, s.convectionBy D a = some c ∧ accepted2 c.s.kind) ∧
    Usable2 (a.add b) ∧ Usable2 (a.sub b) ∧ Usable2 a.neg ∧ accepted2 (a.dot b).s.kind ∧
    accepted2 (s.add r).s.kind ∧ accepted2 (s.sub r).s.kind ∧ accepted2 s.neg.s.kind ∧
    accepted2 (s.mul r).s.kind := by
  obtain ⟨h0, h1⟩ := ha
  refine ⟨⟨Scalar2.add ⟨⟨.method 4, D.x a.v0.f⟩⟩ ⟨⟨.method 4, D.y a.v1.f⟩⟩, ?_, rfl⟩,
    ⟨Scalar2.sub ⟨⟨.method 4, D.x a.v1.f⟩⟩ ⟨⟨.method 4, D.y a.v0.f⟩⟩, ?_, rfl⟩,
    ⟨⟨⟨.method 4, D.t a.v0.f⟩, ⟨.method 4, D.t a.v1.f⟩⟩, ?_, rfl, rfl⟩,
    ⟨⟨add2 (mul2 b.v0 ⟨.method 4, D.x a.v0.f⟩) (mul2 b.v1 ⟨.method 4, D.y a.v0.f⟩),
      add2 (mul2 b.v0 ⟨.method 4, D.x a.v1.f⟩) (mul2 b.v1 ⟨.method 4, D.y a.v1.f⟩)⟩, ?_, rfl, rfl⟩,
    ⟨⟨⟨.method 4, D.x s.s.f⟩, ⟨.method 4, D.y s.s.f⟩⟩, ?_, rfl, rfl⟩,
    ⟨⟨⟨.method 4, D.y s.s.f⟩, ⟨.object, fun t x y => -D.x s.s.f t x y⟩⟩, ?_, rfl, rfl⟩,
    ⟨⟨⟨.method 4, D.t s.s.f⟩⟩, ?_, rfl⟩,
    ⟨⟨add2 (mul2 a.v0 ⟨.method 4, D.x s.s.f⟩) (mul2 a.v1 ⟨.method 4, D.y s.s.f⟩)⟩, ?_, rfl⟩,
    ⟨rfl, rfl⟩, ⟨rfl, rfl⟩, ⟨rfl, rfl⟩, rfl, rfl, rfl, rfl, rfl⟩
  · simp only [Vector2.divergence, npd2, h0, h1, if_true]; rfl
  · simp only [Vector2.rot, npd2, h0, h1, if_true]; rfl
  · simp only [Vector2.timeDerivative, npd2, h0, h1, if_true]; rfl
  · simp only [Vector2.convectionBy, npd2, h0, h1, if_true]; rfl
  · simp only [Scalar2.gradient, npd2, hs, if_true]; rfl
  · simp only [Scalar2.curl, npd2, hs, if_true]; rfl
  · simp only [Scalar2.timeDerivative, npd2, hs, if_true]; rfl
  · simp only [Scalar2.convectionBy, npd2, hs, if_true]; rfl

/-- The values of divergence, rot and convection. -/
theorem c75_values_2d (D : Diff2) {a b : Vector2} {s : Scalar2} (ha : Usable2 a)
    (hs : accepted2 s.s.kind) (t x y : ℝ) :
    (a.divergence D).map (·.s.f t x y) = some (D.x a.v0.f t x y + D.y a.v1.f t x y) ∧
    (a.rot D).map (·.s.f t x y) = some (D.x a.v1.f t x y - D.y a.v0.f t x y) ∧
    (a.convectionBy D b).map (fun c => (c.v0.f t x y, c.v1.f t x y))
      = some (b.v0.f t x y * D.x a.v0.f t x y + b.v1.f t x y * D.y a.v0.f t x y,
        b.v0.f t x y * D.x a.v1.f t x y + b.v1.f t x y * D.y a.v1.f t x y) ∧
    (s.curl D).map (fun c => (c.v0.f t x y, c.v1.f t x y))
      = some (D.y s.s.f t x y, -D.x s.s.f t x y) ∧
    (s.convectionBy D b).map (·.s.f t x y)
      = some (b.v0.f t x y * D.x s.s.f t x y + b.v1.f t x y * D.y s.s.f t x y) ∧
    (s.gradient D).map (fun c => (c.v0.f t x y, c.v1.f t x y))
      = some (D.x s.s.f t x y, D.y s.s.f t x y) ∧
    (s.timeDerivative D).map (·.s.f t x y) = some (D.t s.s.f t x y) ∧
    (a.timeDerivative D).map (fun c => (c.v0.f t x y, c.v1.f t x y))
      = some (D.t a.v0.f t x y, D.t a.v1.f t x y) := by
  obtain ⟨h0, h1⟩ := ha
  refine ⟨?_, ?_, ?_, ?_, ?_, ?_, ?_, ?_⟩
  · simp only [Vector2.divergence, npd2, h0, h1, if_true]; rfl
  · simp only [Vector2.rot, npd2, h0, h1, if_true]; rfl
  · simp only [Vector2.convectionBy, npd2, h0, h1, if_true]; rfl
  · simp only [Scalar2.curl, npd2, hs, if_true]; rfl
  · simp only [Scalar2.convectionBy, npd2, hs, if_true]; rfl
  · simp only [Scalar2.gradient, npd2, hs, if_true]; rfl
  · simp only [Scalar2.timeDerivative, npd2, hs, if_true]; rfl
  · simp only [Vector2.timeDerivative, npd2, h0, h1, if_true]; rfl

/-- A vector at a point. -/
def at2 (a : Vector2) (t x y : ℝ) : Fin 2 → ℝ := ![a.v0.f t x y, a.v1.f t x y]

/-- Evaluation is a homomorphism. -/
theorem c75_pointwise_2d (a b : Vector2) (s r : Scalar2) (t x y : ℝ) :
    at2 (a.add b) t x y = at2 a t x y + at2 b t x y ∧
    at2 (a.sub b) t x y = at2 a t x y - at2 b t x y ∧
    at2 a.neg t x y = -at2 a t x y ∧
    (a.dot b).s.f t x y = ∑ i, at2 a t x y i * at2 b t x y i ∧
    (s.add r).s.f t x y = s.s.f t x y + r.s.f t x y ∧
    (s.sub r).s.f t x y = s.s.f t x y - r.s.f t x y ∧
    (s.mul r).s.f t x y = s.s.f t x y * r.s.f t x y ∧
    s.neg.s.f t x y = -s.s.f t x y := by
  refine ⟨?_, ?_, ?_, ?_, rfl, rfl, rfl, rfl⟩
  · funext i; fin_cases i <;> rfl
  · funext i; fin_cases i <;> rfl
  · funext i; fin_cases i <;> rfl
  · rw [Fin.sum_univ_two]; rfl

private theorem curl2_eq (D : Diff2) {s : Scalar2} (hs : accepted2 s.s.kind) :
    s.curl D = some ⟨⟨.method 4, D.y s.s.f⟩, ⟨.object, fun t x y => -D.x s.s.f t x y⟩⟩ := by
  simp only [Scalar2.curl, npd2, hs, if_true]; rfl

private theorem grad2_eq (D : Diff2) {s : Scalar2} (hs : accepted2 s.s.kind) :
    s.gradient D = some ⟨⟨.method 4, D.x s.s.f⟩, ⟨.method 4, D.y s.s.f⟩⟩ := by
  simp only [Scalar2.gradient, npd2, hs, if_true]; rfl

private theorem div2_eq (D : Diff2) {a : Vector2} (ha : Usable2 a) :
    a.divergence D = some ⟨⟨.object, fun t x y => D.x a.v0.f t x y + D.y a.v1.f t x y⟩⟩ := by
  obtain ⟨h0, h1⟩ := ha
  simp only [Vector2.divergence, npd2, h0, h1, if_true]; rfl

private theorem rot2_eq (D : Diff2) {a : Vector2} (ha : Usable2 a) :
    a.rot D = some ⟨⟨.object, fun t x y => D.x a.v1.f t x y - D.y a.v0.f t x y⟩⟩ := by
  obtain ⟨h0, h1⟩ := ha
  simp only [Vector2.rot, npd2, h0, h1, if_true]; rfl

/-- With the numerical derivatives of the code, for every function, smooth or not: the curl of a
scalar has no divergence, the gradient has no rot, `rot curl s = -div grad s`, and
`div (u + v) = div u + div v`. -/
theorem c75_identities_2d (h : ℝ) {s : Scalar2} (hs : accepted2 s.s.kind) {a b : Vector2}
    (ha : Usable2 a) (hb : Usable2 b) (t x y : ℝ) :
    ((s.curl (central2 h)).bind (·.divergence (central2 h))).map (·.s.f t x y) = some 0 ∧
    ((s.gradient (central2 h)).bind (·.rot (central2 h))).map (·.s.f t x y) = some 0 ∧
    (∃ p q, (s.curl (central2 h)).bind (·.rot (central2 h)) = some p ∧
      (s.gradient (central2 h)).bind (·.divergence (central2 h)) = some q ∧
      p.s.f t x y = -q.s.f t x y) ∧
    (∃ p q r, (a.add b).divergence (central2 h) = some p ∧ a.divergence (central2 h) = some q ∧
      b.divergence (central2 h) = some r ∧ p.s.f t x y = q.s.f t x y + r.s.f t x y) := by
  rw [curl2_eq _ hs, grad2_eq _ hs, div2_eq _ ha, div2_eq _ hb,
    div2_eq _ (a := a.add b) ⟨rfl, rfl⟩, Option.bind_some, Option.bind_some, Option.bind_some,
    Option.bind_some, div2_eq _ ⟨rfl, rfl⟩, div2_eq _ ⟨rfl, rfl⟩, rot2_eq _ ⟨rfl, rfl⟩,
    rot2_eq _ ⟨rfl, rfl⟩]
  refine ⟨?_, ?_, ⟨_, _, rfl, rfl, ?_⟩, ⟨_, _, _, rfl, rfl, rfl, ?_⟩⟩
  · simp only [Option.map_some, Option.some.injEq, central2, central]
    ring
  · simp only [Option.map_some, Option.some.injEq, central2, central]
    ring
  · simp only [central2, central]
    ring
  · simp only [Vector2.add, add2, central2, central]
    ring

/-- A wrapped function of three arguments, its curl and the divergence of that. -/
example : ∃ c, ((Scalar2.mk ⟨.function 3, fun t x y => t * x * x * y⟩).curl (central2 1)).bind
    (·.divergence (central2 1)) = some c := ⟨_, rfl⟩

end Mifem.Props
