import Verif.Props.Fields
import Mathlib.LinearAlgebra.Matrix.Determinant.Basic

/-!
# C100: operations on fields in 2D
-/

namespace Mifem.Props
open Mifem.Fields Mifem.ES Mifem.Wrap Mifem.Caches

namespace Fld100

variable {A : Type} {sh : Shape}

/-- The two partial derivatives in space. -/
def part2 (D : Diff2) : Fin 2 → Fn2 → Fn2 := ![D.x, D.y]

/-- The sign of the rotation by a right angle: `(-1, 1)`. -/
def turnSign (i : Fin 2) : ℝ := if i = 0 then -1 else 1

/-- The values of an expression, by the definitions of vector calculus in the plane: `curl s = (∂y s, -∂x s)`,
`rot v = ∂x v1 - ∂y v0`, and `s × v` is `s` times `v` turned by a right angle. -/
def den2 (D : Diff2) : {sh : Shape} → Expr2 sh → Comp 2 Fn2 sh
  | _, .leaf f => vals f
  | _, .neg a => (den2 D a).map fun u t x y => -u t x y
  | _, .add a b => (den2 D a).map2 (fun u v t x y => u t x y + v t x y) (den2 D b)
  | _, .sub a b => (den2 D a).map2 (fun u v t x y => u t x y - v t x y) (den2 D b)
  | _, .num k a => (den2 D a).map fun u t x y => k.x * u t x y
  | _, .sv a b => fun i t x y => (den2 D a : Fn2) t x y * (den2 D b : Fin 2 → Fn2) i t x y
  | _, .vs b a => fun i t x y => (den2 D b : Fin 2 → Fn2) i t x y * (den2 D a : Fn2) t x y
  | _, .cross a b => fun i t x y => turnSign i * ((den2 D a : Fn2) t x y * (den2 D b : Fin 2 → Fn2) (1 - i) t x y)
  | _, .dt a => (den2 D a).map D.t
  | _, .grad a => fun i => part2 D i (den2 D a)
  | _, .curl a => fun i t x y => -turnSign i * part2 D (1 - i) (den2 D a) t x y
  | _, .rot a => (fun t x y => D.x ((den2 D a : Fin 2 → Fn2) 1) t x y - D.y ((den2 D a : Fin 2 → Fn2) 0) t x y : Fn2)
  | _, .div a => (fun t x y => ∑ i, part2 D i ((den2 D a : Fin 2 → Fn2) i) t x y : Fn2)

/-- An operand of a derivative: functions of exactly three arguments, or anything made by an operation. -/
def direct2 : {sh : Shape} → Expr2 sh → Prop
  | _, .leaf f => f.func.all (fun c => accepted2 c.kind) = true
  | _, _ => True

/-- A leaf that is operated upon is a standard field. -/
def std2 : {sh : Shape} → Expr2 sh → Prop
  | _, .leaf f => f.ftype = .standard
  | _, _ => True

/-- The expressions that are accepted. -/
def ok2 : {sh : Shape} → Expr2 sh → Prop
  | _, .leaf _ => True
  | _, .neg a => std2 a ∧ ok2 a
  | _, .add a b => std2 a ∧ std2 b ∧ ok2 a ∧ ok2 b
  | _, .sub a b => std2 a ∧ std2 b ∧ ok2 a ∧ ok2 b
  | sh, .num k a => k.cls ∈ ["int", "float", "int64", "int32"] ∧ sh ≠ .t ∧ std2 a ∧ ok2 a
  | _, .sv a b => std2 a ∧ std2 b ∧ ok2 a ∧ ok2 b
  | _, .vs a b => std2 a ∧ std2 b ∧ ok2 a ∧ ok2 b
  | _, .cross a b => std2 a ∧ std2 b ∧ ok2 a ∧ ok2 b
  | _, .dt a => std2 a ∧ direct2 a ∧ ok2 a
  | _, .grad a => std2 a ∧ direct2 a ∧ ok2 a
  | _, .curl a => std2 a ∧ direct2 a ∧ ok2 a
  | _, .rot a => std2 a ∧ direct2 a ∧ ok2 a
  | _, .div a => std2 a ∧ direct2 a ∧ ok2 a

/-- The leaf whose `valid_time` is inherited. -/
def head2 : {sh : Shape} → Expr2 sh → ValidTime ℝ
  | _, .leaf f => f.validTime
  | _, .neg a => head2 a
  | _, .add a _ => head2 a
  | _, .sub a _ => head2 a
  | _, .num _ a => head2 a
  | _, .sv a _ => head2 a
  | _, .vs _ a => head2 a
  | _, .cross a _ => head2 a
  | _, .dt a => head2 a
  | _, .grad a => head2 a
  | _, .curl a => head2 a
  | _, .rot a => head2 a
  | _, .div a => head2 a

/-- **C100.** The value of the field Python makes of an expression is the value of the expression. -/
theorem c100_values_2d (D : Diff2) {sh : Shape} (E : Expr2 sh) : ∀ f, E.run D = some f → vals f = den2 D E := by
  induction E with
  | leaf f => intro g h; simp only [Expr2.run, Option.some.injEq] at h; subst h; rfl
  | neg a ih =>
    intro f h
    simp only [Expr2.run, Option.bind_eq_some_iff] at h
    obtain ⟨x, hx, h⟩ := h
    unfold Fields.neg at h
    split at h
    · simp only [Option.some.injEq] at h; subst h
      rw [den2, ← ih x hx]; simp only [vals, map_map]; rfl
    · exact absurd h (by simp)
  | add a b iha ihb =>
    intro f h
    simp only [Expr2.run, Option.bind_eq_some_iff] at h
    obtain ⟨x, hx, y, hy, h⟩ := h
    unfold Fields.add at h
    split at h
    · simp only [Option.some.injEq] at h; subst h
      rw [den2, ← iha x hx, ← ihb y hy]; simp only [vals, map2_map, map_map2]; rfl
    · exact absurd h (by simp)
  | sub a b iha ihb =>
    intro f h
    simp only [Expr2.run, Option.bind_eq_some_iff] at h
    obtain ⟨x, hx, y, hy, h⟩ := h
    unfold Fields.sub at h
    split at h
    · simp only [Option.some.injEq] at h; subst h
      rw [den2, ← iha x hx, ← ihb y hy]; simp only [vals, map2_map, map_map2]; rfl
    · exact absurd h (by simp)
  | num k a ih =>
    intro f h
    simp only [Expr2.run, Option.bind_eq_some_iff] at h
    obtain ⟨x, hx, h⟩ := h
    unfold mulNum at h
    split at h
    · simp only [Option.some.injEq] at h; subst h
      rw [den2, ← ih x hx]; simp only [vals, map_map]; rfl
    · exact absurd h (by simp)
  | sv a b iha ihb =>
    intro f h
    simp only [Expr2.run, Option.bind_eq_some_iff] at h
    obtain ⟨x, hx, y, hy, h⟩ := h
    unfold scalarVector at h
    split at h
    · simp only [Option.some.injEq] at h; subst h
      rw [den2, ← iha x hx, ← ihb y hy]; rfl
    · exact absurd h (by simp)
  | vs b a ihb iha =>
    intro f h
    simp only [Expr2.run, Option.bind_eq_some_iff] at h
    obtain ⟨y, hy, x, hx, h⟩ := h
    unfold vectorScalar at h
    split at h
    · simp only [Option.some.injEq] at h; subst h
      rw [den2, ← iha x hx, ← ihb y hy]
      funext i t p q
      exact mul_comm _ _
    · exact absurd h (by simp)
  | cross a b iha ihb =>
    intro f h
    simp only [Expr2.run, Option.bind_eq_some_iff] at h
    obtain ⟨x, hx, y, hy, h⟩ := h
    unfold cross2 at h
    split at h
    · simp only [Option.some.injEq] at h; subst h
      rw [den2, ← iha x hx, ← ihb y hy]
      funext i t p q
      fin_cases i
      · exact (by simp [turnSign] : -x.func.f t p q * (y.func 1).f t p q = turnSign 0 * (x.func.f t p q * (y.func (1 - 0)).f t p q))
      · exact (by simp [turnSign] : x.func.f t p q * (y.func 0).f t p q = turnSign 1 * (x.func.f t p q * (y.func (1 - 1)).f t p q))
    · exact absurd h (by simp)
  | dt a ih =>
    intro f h
    simp only [Expr2.run, Option.bind_eq_some_iff] at h
    obtain ⟨x, hx, h⟩ := h
    unfold dt2 at h
    split at h
    · simp only [Option.some.injEq] at h; subst h
      rw [den2, ← ih x hx]; simp only [vals, map_map]; rfl
    · exact absurd h (by simp)
  | grad a ih =>
    intro f h
    simp only [Expr2.run, Option.bind_eq_some_iff] at h
    obtain ⟨x, hx, h⟩ := h
    unfold grad2 at h
    split at h
    · simp only [Option.some.injEq] at h; subst h
      rw [den2, ← ih x hx]
      funext i; fin_cases i <;> rfl
    · exact absurd h (by simp)
  | curl a ih =>
    intro f h
    simp only [Expr2.run, Option.bind_eq_some_iff] at h
    obtain ⟨x, hx, h⟩ := h
    unfold curl2 at h
    split at h
    · simp only [Option.some.injEq] at h; subst h
      rw [den2, ← ih x hx]
      funext i t p q
      fin_cases i
      · exact (by simp [turnSign, part2] : (D.y (vals x)) t p q = -turnSign 0 * part2 D (1 - 0) (vals x) t p q)
      · exact (by simp [turnSign, part2] : -(D.x (vals x)) t p q = -turnSign 1 * part2 D (1 - 1) (vals x) t p q)
    · exact absurd h (by simp)
  | rot a ih =>
    intro f h
    simp only [Expr2.run, Option.bind_eq_some_iff] at h
    obtain ⟨x, hx, h⟩ := h
    unfold rot2 at h
    split at h
    · simp only [Option.some.injEq] at h; subst h
      rw [den2, ← ih x hx]; rfl
    · exact absurd h (by simp)
  | div a ih =>
    intro f h
    simp only [Expr2.run, Option.bind_eq_some_iff] at h
    obtain ⟨x, hx, h⟩ := h
    unfold div2 at h
    split at h
    · simp only [Option.some.injEq] at h; subst h
      rw [den2, ← ih x hx]
      funext t p q
      simp only [Fin.sum_univ_two]; rfl
    · exact absurd h (by simp)

/-- What is known of the result beside its values. -/
def Facts2 (sh : Shape) (E : Expr2 sh) (f : Fld 2 Fn2 sh) : Prop :=
  (std2 E ↔ f.ftype = .standard) ∧ (direct2 E ↔ f.func.all (fun c => accepted2 c.kind) = true) ∧ f.validTime = head2 E

theorem all2_map (g : A → Call Fn2) (hg : ∀ a, accepted2 (g a).kind = true) {sh : Shape} (a : Comp 2 A sh) :
    (a.map g).all (fun c => accepted2 c.kind) = true := by
  cases sh
  · exact hg a
  · exact decide_eq_true fun i => hg (a i)
  · exact decide_eq_true fun i j => hg (a i j)

theorem all2_v (v : Fin 2 → Call Fn2) (h : ∀ i, accepted2 (v i).kind = true) :
    Comp.all (d := 2) (sh := .v) (fun c => accepted2 c.kind) v = true := decide_eq_true h

theorem all2_map2 (g : A → A → Call Fn2) (hg : ∀ a b, accepted2 (g a b).kind = true) {sh : Shape} (a b : Comp 2 A sh) :
    (a.map2 g b).all (fun c => accepted2 c.kind) = true := by
  cases sh
  · exact hg a b
  · exact decide_eq_true fun i => hg (a i) (b i)
  · exact decide_eq_true fun i j => hg (a i j) (b i j)

theorem run_facts2 (D : Diff2) {sh : Shape} (E : Expr2 sh) : ∀ f, E.run D = some f → Facts2 sh E f := by
  induction E with
  | leaf f => intro g h; simp only [Expr2.run, Option.some.injEq] at h; subst h; exact ⟨Iff.rfl, Iff.rfl, rfl⟩
  | neg a ih =>
    intro f h
    simp only [Expr2.run, Option.bind_eq_some_iff] at h
    obtain ⟨x, hx, h⟩ := h
    unfold Fields.neg at h
    split at h
    · simp only [Option.some.injEq] at h; subst h
      exact ⟨by simp [std2], by rw [all2_map _ fun _ => rfl]; simp [direct2], (ih x hx).2.2⟩
    · exact absurd h (by simp)
  | add a b iha ihb =>
    intro f h
    simp only [Expr2.run, Option.bind_eq_some_iff] at h
    obtain ⟨x, hx, y, hy, h⟩ := h
    unfold Fields.add at h
    split at h
    · simp only [Option.some.injEq] at h; subst h
      exact ⟨by simp [std2], by rw [all2_map2 _ fun _ _ => rfl]; simp [direct2], (iha x hx).2.2⟩
    · exact absurd h (by simp)
  | sub a b iha ihb =>
    intro f h
    simp only [Expr2.run, Option.bind_eq_some_iff] at h
    obtain ⟨x, hx, y, hy, h⟩ := h
    unfold Fields.sub at h
    split at h
    · simp only [Option.some.injEq] at h; subst h
      exact ⟨by simp [std2], by rw [all2_map2 _ fun _ _ => rfl]; simp [direct2], (iha x hx).2.2⟩
    · exact absurd h (by simp)
  | num k a ih =>
    intro f h
    simp only [Expr2.run, Option.bind_eq_some_iff] at h
    obtain ⟨x, hx, h⟩ := h
    unfold mulNum at h
    split at h
    · simp only [Option.some.injEq] at h; subst h
      exact ⟨by simp [std2], by rw [all2_map _ fun _ => rfl]; simp [direct2], (ih x hx).2.2⟩
    · exact absurd h (by simp)
  | sv a b iha ihb =>
    intro f h
    simp only [Expr2.run, Option.bind_eq_some_iff] at h
    obtain ⟨x, hx, y, hy, h⟩ := h
    unfold scalarVector at h
    split at h
    · simp only [Option.some.injEq] at h; subst h
      exact ⟨by simp [std2], ⟨fun _ => all2_v _ fun _ => rfl, fun _ => trivial⟩, (iha x hx).2.2⟩
    · exact absurd h (by simp)
  | vs b a ihb iha =>
    intro f h
    simp only [Expr2.run, Option.bind_eq_some_iff] at h
    obtain ⟨y, hy, x, hx, h⟩ := h
    unfold vectorScalar at h
    split at h
    · simp only [Option.some.injEq] at h; subst h
      exact ⟨by simp [std2], ⟨fun _ => all2_v _ fun _ => rfl, fun _ => trivial⟩, (iha x hx).2.2⟩
    · exact absurd h (by simp)
  | cross a b iha ihb =>
    intro f h
    simp only [Expr2.run, Option.bind_eq_some_iff] at h
    obtain ⟨x, hx, y, hy, h⟩ := h
    unfold cross2 at h
    split at h
    · simp only [Option.some.injEq] at h; subst h
      exact ⟨by simp [std2], ⟨fun _ => all2_v _ fun i => by fin_cases i <;> rfl, fun _ => trivial⟩, (iha x hx).2.2⟩
    · exact absurd h (by simp)
  | dt a ih =>
    intro f h
    simp only [Expr2.run, Option.bind_eq_some_iff] at h
    obtain ⟨x, hx, h⟩ := h
    unfold dt2 at h
    split at h
    · simp only [Option.some.injEq] at h; subst h
      exact ⟨by simp [std2], by rw [all2_map _ fun _ => rfl]; simp [direct2], (ih x hx).2.2⟩
    · exact absurd h (by simp)
  | grad a ih =>
    intro f h
    simp only [Expr2.run, Option.bind_eq_some_iff] at h
    obtain ⟨x, hx, h⟩ := h
    unfold grad2 at h
    split at h
    · simp only [Option.some.injEq] at h; subst h
      exact ⟨by simp [std2], ⟨fun _ => all2_v _ fun i => by fin_cases i <;> rfl, fun _ => trivial⟩, (ih x hx).2.2⟩
    · exact absurd h (by simp)
  | curl a ih =>
    intro f h
    simp only [Expr2.run, Option.bind_eq_some_iff] at h
    obtain ⟨x, hx, h⟩ := h
    unfold curl2 at h
    split at h
    · simp only [Option.some.injEq] at h; subst h
      exact ⟨by simp [std2], ⟨fun _ => all2_v _ fun i => by fin_cases i <;> rfl, fun _ => trivial⟩, (ih x hx).2.2⟩
    · exact absurd h (by simp)
  | rot a ih =>
    intro f h
    simp only [Expr2.run, Option.bind_eq_some_iff] at h
    obtain ⟨x, hx, h⟩ := h
    unfold rot2 at h
    split at h
    · simp only [Option.some.injEq] at h; subst h
      exact ⟨by simp [std2], ⟨fun _ => rfl, fun _ => trivial⟩, (ih x hx).2.2⟩
    · exact absurd h (by simp)
  | div a ih =>
    intro f h
    simp only [Expr2.run, Option.bind_eq_some_iff] at h
    obtain ⟨x, hx, h⟩ := h
    unfold div2 at h
    split at h
    · simp only [Option.some.injEq] at h; subst h
      exact ⟨by simp [std2], ⟨fun _ => rfl, fun _ => trivial⟩, (ih x hx).2.2⟩
    · exact absurd h (by simp)

theorem diffable2_iff {f : Fld 2 Fn2 sh} : diffable2 f = true
    ↔ f.ftype = .standard ∧ f.func.all (fun c => accepted2 c.kind) = true := by simp [diffable2]

theorem one2 (D : Diff2) {s1 s2 : Shape} {a : Expr2 s1} (ih : (a.run D).isSome = true ↔ ok2 a) (g : Fld 2 Fn2 s1 → Option (Fld 2 Fn2 s2))
    (p : Prop) (hg : ∀ f, Facts2 s1 a f → ((g f).isSome = true ↔ p)) : ((a.run D).bind g).isSome = true ↔ p ∧ ok2 a := by
  cases h : a.run D with
  | none => rw [h] at ih; simp [← ih]
  | some f =>
    rw [h] at ih
    rw [Option.bind_some, hg f (run_facts2 D a f h)]
    simp [← ih]

theorem two2 (D : Diff2) {s1 s2 s3 : Shape} {a : Expr2 s1} {b : Expr2 s2} (iha : (a.run D).isSome = true ↔ ok2 a)
    (ihb : (b.run D).isSome = true ↔ ok2 b) (g : Fld 2 Fn2 s1 → Fld 2 Fn2 s2 → Option (Fld 2 Fn2 s3))
    (hg : ∀ x y, (g x y).isSome = true ↔ x.ftype = .standard ∧ y.ftype = .standard) :
    ((a.run D).bind fun x => (b.run D).bind fun y => g x y).isSome = true
      ↔ std2 a ∧ std2 b ∧ ok2 a ∧ ok2 b := by
  cases h : a.run D with
  | none => rw [h] at iha; simp [← iha]
  | some x =>
    cases k : b.run D with
    | none => rw [k] at ihb; simp [← ihb]
    | some y =>
      rw [h] at iha; rw [k] at ihb
      simp only [Option.bind_some, hg, (run_facts2 D a x h).1, (run_facts2 D b y k).1, ← iha, ← ihb, Option.isSome_some, and_true]

/-- Python makes a field of an expression exactly if it is well formed in the sense of `ok2`. -/
theorem c100_defined_2d (D : Diff2) {sh : Shape} (E : Expr2 sh) : (E.run D).isSome = true ↔ ok2 E := by
  induction E with
  | leaf f => simp [Expr2.run, ok2]
  | neg a ih => exact one2 D ih _ _ fun f hf => by rw [Fields.neg, isSome_ite, hf.1]
  | add a b iha ihb => exact two2 D iha ihb _ fun x y => by rw [Fields.add, isSome_ite]
  | sub a b iha ihb => exact two2 D iha ihb _ fun x y => by rw [Fields.sub, isSome_ite]
  | @num σ k a ih =>
    rw [Expr2.run, one2 D ih _ (k.cls ∈ ["int", "float", "int64", "int32"] ∧ σ ≠ Shape.t ∧ std2 a) fun f hf => ?_]
    · rw [ok2]; tauto
    · rw [mulNum, isSome_ite, hf.1, Num.accepted, List.contains_iff_mem]
      tauto
  | sv a b iha ihb => exact two2 D iha ihb _ fun x y => by rw [scalarVector, isSome_ite]
  | vs a b iha ihb => exact two2 D iha ihb _ fun x y => by rw [vectorScalar, isSome_ite, and_comm]
  | cross a b iha ihb => exact two2 D iha ihb _ fun x y => by rw [cross2, isSome_ite]
  | dt a ih =>
    rw [Expr2.run, one2 D ih _ (std2 a ∧ direct2 a) fun f hf => by rw [dt2, isSome_ite, diffable2_iff, hf.1, hf.2.1], ok2, and_assoc]
  | grad a ih =>
    rw [Expr2.run, one2 D ih _ (std2 a ∧ direct2 a) fun f hf => by rw [grad2, isSome_ite, diffable2_iff, hf.1, hf.2.1], ok2, and_assoc]
  | curl a ih =>
    rw [Expr2.run, one2 D ih _ (std2 a ∧ direct2 a) fun f hf => by rw [curl2, isSome_ite, diffable2_iff, hf.1, hf.2.1], ok2, and_assoc]
  | rot a ih =>
    rw [Expr2.run, one2 D ih _ (std2 a ∧ direct2 a) fun f hf => by rw [rot2, isSome_ite, diffable2_iff, hf.1, hf.2.1], ok2, and_assoc]
  | div a ih =>
    rw [Expr2.run, one2 D ih _ (std2 a ∧ direct2 a) fun f hf => by rw [div2, isSome_ite, diffable2_iff, hf.1, hf.2.1], ok2, and_assoc]

/-- The result can be evaluated at the times of the first operand. -/
theorem c100_time_2d (D : Diff2) {sh : Shape} (E : Expr2 sh) (f : Fld 2 Fn2 sh) (h : E.run D = some f) (t : ℝ) :
    (f.fresh.step (.evaluate (some t))).2 = some (.val (t, f.func)) ↔ Admits (head2 E) t := by
  rw [fresh_admits, (run_facts2 D E f h).2.2]

/-- The numerical divergence of the numerical curl and the rotation of the gradient are zero, without an error. -/
theorem c100_zero_2d (h : ℝ) (s : Expr2 .s) (f g : Fld 2 Fn2 .s) (ef : (Expr2.div (.curl s)).run (central2 h) = some f)
    (eg : (Expr2.rot (.grad s)).run (central2 h) = some g) (t x y : ℝ) :
    (vals f : Fn2) t x y = 0 ∧ (vals g : Fn2) t x y = 0 := by
  rw [c100_values_2d _ _ f ef, c100_values_2d _ _ g eg]
  simp only [den2]
  obtain ⟨u, hu⟩ : ∃ u : Fn2, u = den2 (central2 h) s := ⟨_, rfl⟩
  rw [← hu]
  have k := central_comm h (fun a b => u t a b) x y
  constructor
  · simp only [Fin.sum_univ_two, part2, turnSign]
    simp only [Matrix.cons_val_zero, Matrix.cons_val_one, Matrix.cons_val_fin_one, sub_zero, sub_self, if_true, neg_neg, one_mul,
      Fin.reduceEq, if_false, central2]
    unfold central at k ⊢
    linear_combination k
  · exact sub_eq_zero.2 k

/-- The rotation of the curl is minus the divergence of the gradient. -/
theorem c100_rot_curl_2d (h : ℝ) (s : Expr2 .s) (f g : Fld 2 Fn2 .s) (ef : (Expr2.rot (.curl s)).run (central2 h) = some f)
    (eg : (Expr2.div (.grad s)).run (central2 h) = some g) (t x y : ℝ) :
    (vals f : Fn2) t x y = -(vals g : Fn2) t x y := by
  rw [c100_values_2d _ _ f ef, c100_values_2d _ _ g eg]
  simp only [den2]
  obtain ⟨u, hu⟩ : ∃ u : Fn2, u = den2 (central2 h) s := ⟨_, rfl⟩
  rw [← hu]
  simp only [Fin.sum_univ_two, part2, turnSign]
  simp only [Matrix.cons_val_zero, Matrix.cons_val_one, Matrix.cons_val_fin_one, sub_zero, sub_self, if_true, neg_neg, one_mul,
      Fin.reduceEq, if_false, central2]
  unfold central
  ring

/-- The inner product of two vectors on a structured mesh is the scalar field of the dot products. -/
theorem c100_inner_2d (a b : Fld 2 Fn2 .v) (ha : a.ftype = .standard) (hb : b.ftype = .standard) :
    ∃ f : Fld 2 Fn2 .s, inner2 a b = some ⟨.s, f⟩ ∧ ∀ t x y, (vals f : Fn2) t x y
      = dotProduct (fun i => (vals a : Fin 2 → Fn2) i t x y) (fun i => (vals b : Fin 2 → Fn2) i t x y) := by
  refine ⟨_, by rw [inner2, if_pos ⟨ha, hb⟩], fun t x y => ?_⟩
  simp only [dotProduct, Fin.sum_univ_two]; rfl

/-- **Partial.** On a triangular mesh the inner product of two vectors is the vector of the products of the components, whose
sum is the dot product.  Missing: the claim for structured meshes, `c100_inner_2d`, which is false here
(`c100_tri_inner_fails`). -/
theorem c100_tri_inner_partial (a b : Fld 2 Fn2 .v) (ha : a.ftype = .standard) (hb : b.ftype = .standard) :
    ∃ f : Fld 2 Fn2 .v, innerTri a b = some ⟨.v, f⟩ ∧ ∀ t x y, ∑ i, (vals f : Fin 2 → Fn2) i t x y
      = dotProduct (fun i => (vals a : Fin 2 → Fn2) i t x y) (fun i => (vals b : Fin 2 → Fn2) i t x y) := by
  refine ⟨_, by rw [innerTri, if_pos ⟨ha, hb⟩], fun t x y => ?_⟩
  simp only [dotProduct, Fin.sum_univ_two]; rfl

/-- On a triangular mesh the inner product of two vectors never is a scalar field. -/
theorem c100_tri_inner_fails (a b : Fld 2 Fn2 .v) (f : Fld 2 Fn2 .s) : innerTri a b ≠ some ⟨.s, f⟩ := by
  unfold innerTri
  split
  · intro h
    simp only [Option.some.injEq, Sigma.mk.injEq] at h
    exact absurd h.1 (by decide)
  · simp

/-- The product of two scalars on a triangular mesh. -/
theorem c100_tri_scalar (a b : Fld 2 Fn2 .s) (ha : a.ftype = .standard) (hb : b.ftype = .standard) :
    ∃ f, innerTriS a b = some f ∧ ∀ t x y, (vals f : Fn2) t x y = (vals a : Fn2) t x y * (vals b : Fn2) t x y :=
  ⟨_, by rw [innerTriS, if_pos ⟨ha, hb⟩], fun _ _ _ => rfl⟩

/-- The field `x y`. -/
def sample2 : Fld 2 Fn2 .s := ⟨.standard, (⟨.function 3, fun _ x y => x * y⟩ : Call Fn2), .always⟩

/-- Unlike in 3D, sums of derivatives can be differentiated again. -/
example (D : Diff2) : (Expr2.grad (.div (.add (.curl (.leaf sample2)) (.grad (.leaf sample2))))).run D ≠ none := by
  rw [← Option.isSome_iff_ne_none, c100_defined_2d]
  simp [ok2, std2, direct2, sample2, Comp.all, accepted2]

example (D : Diff2) : (Expr2.div (.curl (.leaf sample2))).run D ≠ none ∧ (Expr2.rot (.grad (.leaf sample2))).run D ≠ none := by
  rw [← Option.isSome_iff_ne_none, ← Option.isSome_iff_ne_none, c100_defined_2d, c100_defined_2d]
  simp [ok2, std2, direct2, sample2, Comp.all, accepted2]

/-! ## Constructors -/

/-- What a user means by a component given as a number or a function. -/
def meant3 : Raw Fn3 → Option Fn3
  | .number c => some fun _ _ _ _ => c
  | .call c => some c.f
  | .other => none

/-- A component that is accepted in 3D has the value that was given; numbers and functions of four arguments always are. -/
theorem c100_component_3d (r : Raw Fn3) :
    (∀ c, checked3 r = some c → meant3 r = some c.f) ∧
    ((∃ x, r = .number x) ∨ (∃ f, r = .call ⟨.function 4, f⟩) ∨ (∃ f, r = .call ⟨.method 5, f⟩) →
      ∃ c, checked3 r = some c ∧ accepted3 c.kind = true) := by
  constructor
  · intro c h
    match r, h with
    | .number x, h =>
      simp only [checked3, Option.some.injEq] at h; subst h
      simp [meant3]
    | .call ⟨.function n, f⟩, h =>
      simp only [checked3] at h
      split at h
      · simp only [Option.some.injEq] at h; subst h; rfl
      · exact absurd h (by simp)
    | .call ⟨.method n, f⟩, h =>
      simp only [checked3] at h
      split at h
      · simp only [Option.some.injEq] at h; subst h; rfl
      · exact absurd h (by simp)
    | .call ⟨.object, f⟩, h => simp only [checked3, Option.some.injEq] at h; subst h; rfl
  · rintro (⟨x, rfl⟩ | ⟨f, rfl⟩ | ⟨f, rfl⟩) <;> exact ⟨_, rfl, rfl⟩

/-- The number of arguments besides `self` that a function or method must at least have; other callables have no such
number, and their arguments are not looked at. -/
def arguments : Kind → Option Nat
  | .function n => some n
  | .method n => some (n - 1)
  | .object => none

/-- A function or method is accepted in 3D if and only if it can be called with `t, x, y, z`; in 2D with `t, x, y`. -/
theorem c100_component_arguments (k : Kind) (f : Fn3) (g : Fn2) :
    ((checked3 (.call ⟨k, f⟩)).isSome = true ↔ ∀ n, arguments k = some n → 4 ≤ n) ∧
    ((checked2 (.call ⟨k, g⟩)).isSome = true ↔ ∀ n, arguments k = some n → 3 ≤ n) := by
  cases k with
  | function n => constructor <;> simp only [checked3, checked2, arguments, isSome_ite] <;> simp
  | method n => constructor <;> simp only [checked3, checked2, arguments, isSome_ite] <;> simp <;> omega
  | object => simp [checked3, checked2, arguments]

example (f : Fn3) (g : Fn2) : ¬ (checked3 (.call ⟨.method 4, f⟩)).isSome = true ∧ (checked2 (.call ⟨.method 4, g⟩)).isSome = true := by
  constructor
  · intro h
    have := ((c100_component_arguments (.method 4) f g).1.1 h) 3 rfl
    omega
  · exact (c100_component_arguments (.method 4) f g).2.2 (by intro n h; simp [arguments] at h; omega)

/-- In 2D the only number accepted is zero. -/
theorem c100_component_2d (x : ℝ) : (checked2 (.number x)).isSome = true ↔ x = 0 := by
  rw [checked2, isSome_ite]

end Fld100
end Mifem.Props
