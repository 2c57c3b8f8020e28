import Verif.Model.Fields
import Verif.Props.Wrappers
import Verif.Props.Caches
import Mathlib.LinearAlgebra.CrossProduct
import Mathlib.Algebra.BigOperators.Fin
import Mathlib.Tactic.FinCases

/-!
# C100: operations on fields
-/

namespace Mifem.Props
open Mifem.Fields Mifem.ES Mifem.Wrap Mifem.Caches

namespace Fld100

variable {d : Nat} {A B C F : Type} {sh : Shape}

/-- The values of a field, component by component. -/
def vals (f : Fld d F sh) : Comp d F sh := f.func.map Call.f

/-! ## What an expression means (3D) -/

/-- The three partial derivatives in space. -/
def part (D : Diff3) : Fin 3 → Fn3 → Fn3 := ![D.x, D.y, D.z]

/-- The values of an expression, by the definitions of vector calculus. -/
def den3 (D : Diff3) : {sh : Shape} → Expr3 sh → Comp 3 Fn3 sh
  | _, .leaf f => vals f
  | _, .neg a => (den3 D a).map fun u t x y z => -u t x y z
  | _, .add a b => (den3 D a).map2 (fun u v t x y z => u t x y z + v t x y z) (den3 D b)
  | _, .sub a b => (den3 D a).map2 (fun u v t x y z => u t x y z - v t x y z) (den3 D b)
  | _, .num k a => (den3 D a).map fun u t x y z => k.x * u t x y z
  | _, .sv a b => fun i t x y z => (den3 D a : Fn3) t x y z * (den3 D b : Fin 3 → Fn3) i t x y z
  | _, .vs b a => fun i t x y z => (den3 D b : Fin 3 → Fn3) i t x y z * (den3 D a : Fn3) t x y z
  | _, .cross a b => fun i t x y z =>
      crossProduct (fun k => (den3 D a : Fin 3 → Fn3) k t x y z) (fun k => (den3 D b : Fin 3 → Fn3) k t x y z) i
  | _, .inner a b => (fun t x y z =>
      dotProduct (fun k => (den3 D a : Fin 3 → Fn3) k t x y z) (fun k => (den3 D b : Fin 3 → Fn3) k t x y z) : Fn3)
  | _, .dt a => (den3 D a).map D.t
  | _, .gradS a => fun i => part D i (den3 D a)
  | _, .gradV a => fun i j => part D j ((den3 D a : Fin 3 → Fn3) i)
  | _, .curl a => fun i t x y z => part D (i + 1) ((den3 D a : Fin 3 → Fn3) (i + 2)) t x y z
      - part D (i + 2) ((den3 D a : Fin 3 → Fn3) (i + 1)) t x y z
  | _, .divV a => (fun t x y z => ∑ i, part D i ((den3 D a : Fin 3 → Fn3) i) t x y z : Fn3)
  | _, .divT a => fun i t x y z => ∑ j, part D j ((den3 D a : Fin 3 → Fin 3 → Fn3) i j) t x y z

/-- An operand of a derivative: functions of exactly four arguments, or a derivative that is no sum. -/
def direct3 : {sh : Shape} → Expr3 sh → Prop
  | _, .leaf f => f.func.all (fun c => accepted3 c.kind) = true
  | _, .dt _ => True
  | _, .gradS _ => True
  | _, .gradV _ => True
  | _, _ => False

/-- The leaves are standard fields or are not operated upon, the numbers have an accepted class, and derivatives are applied
to operands in the sense of `direct3`. -/
def ok3 : {sh : Shape} → Expr3 sh → Prop
  | _, .leaf _ => True
  | _, .neg a => std3 a ∧ ok3 a
  | _, .add a b => std3 a ∧ std3 b ∧ ok3 a ∧ ok3 b
  | _, .sub a b => std3 a ∧ std3 b ∧ ok3 a ∧ ok3 b
  | sh, .num k a => k.cls ∈ ["int", "float", "int64", "int32"] ∧ sh ≠ .t ∧ std3 a ∧ ok3 a
  | _, .sv a b => std3 a ∧ std3 b ∧ ok3 a ∧ ok3 b
  | _, .vs a b => std3 a ∧ std3 b ∧ ok3 a ∧ ok3 b
  | _, .cross a b => std3 a ∧ std3 b ∧ ok3 a ∧ ok3 b
  | _, .inner a b => std3 a ∧ std3 b ∧ ok3 a ∧ ok3 b
  | _, .dt a => std3 a ∧ direct3 a ∧ ok3 a
  | _, .gradS a => std3 a ∧ direct3 a ∧ ok3 a
  | _, .gradV a => std3 a ∧ direct3 a ∧ ok3 a
  | _, .curl a => std3 a ∧ direct3 a ∧ ok3 a
  | _, .divV a => std3 a ∧ direct3 a ∧ ok3 a
  | _, .divT a => std3 a ∧ direct3 a ∧ ok3 a
where
  /-- A leaf that is operated upon is a standard field. -/
  std3 : {sh : Shape} → Expr3 sh → Prop
  | _, .leaf f => f.ftype = .standard
  | _, _ => True

theorem map_map (f : A → B) (g : B → C) (a : Comp d A sh) : (a.map f).map g = a.map (g ∘ f) := by cases sh <;> rfl
theorem map2_map (f : A → A → B) (g : B → C) (a b : Comp d A sh) : (a.map2 f b).map g = a.map2 (fun x y => g (f x y)) b := by
  cases sh <;> rfl
theorem map_map2 (f : A → B) (g : B → B → C) (a b : Comp d A sh) :
    (a.map f).map2 g (b.map f) = a.map2 (fun x y => g (f x) (f y)) b := by cases sh <;> rfl

/-- **C100.** The value of the field Python makes of an expression is the value of the expression. -/
theorem c100_values_3d (D : Diff3) {sh : Shape} (E : Expr3 sh) :
    ∀ f, E.run D = some f → vals f = den3 D E := by
  induction E with
  | leaf f => intro g h; simp only [Expr3.run, Option.some.injEq] at h; subst h; rfl
  | neg a ih =>
    intro f h
    simp only [Expr3.run, Option.bind_eq_some_iff] at h
    obtain ⟨x, hx, h⟩ := h
    unfold Fields.neg at h
    split at h
    · simp only [Option.some.injEq] at h; subst h
      rw [den3, ← ih x hx]; simp only [vals, map_map]; rfl
    · exact absurd h (by simp)
  | add a b iha ihb =>
    intro f h
    simp only [Expr3.run, Option.bind_eq_some_iff] at h
    obtain ⟨x, hx, y, hy, h⟩ := h
    unfold Fields.add at h
    split at h
    · simp only [Option.some.injEq] at h; subst h
      rw [den3, ← iha x hx, ← ihb y hy]; simp only [vals, map2_map, map_map2]; rfl
    · exact absurd h (by simp)
  | sub a b iha ihb =>
    intro f h
    simp only [Expr3.run, Option.bind_eq_some_iff] at h
    obtain ⟨x, hx, y, hy, h⟩ := h
    unfold Fields.sub at h
    split at h
    · simp only [Option.some.injEq] at h; subst h
      rw [den3, ← iha x hx, ← ihb y hy]; simp only [vals, map2_map, map_map2]; rfl
    · exact absurd h (by simp)
  | num k a ih =>
    intro f h
    simp only [Expr3.run, Option.bind_eq_some_iff] at h
    obtain ⟨x, hx, h⟩ := h
    unfold mulNum at h
    split at h
    · simp only [Option.some.injEq] at h; subst h
      rw [den3, ← ih x hx]; simp only [vals, map_map]; rfl
    · exact absurd h (by simp)
  | sv a b iha ihb =>
    intro f h
    simp only [Expr3.run, Option.bind_eq_some_iff] at h
    obtain ⟨x, hx, y, hy, h⟩ := h
    unfold scalarVector at h
    split at h
    · simp only [Option.some.injEq] at h; subst h
      rw [den3, ← iha x hx, ← ihb y hy]; rfl
    · exact absurd h (by simp)
  | vs b a ihb iha =>
    intro f h
    simp only [Expr3.run, Option.bind_eq_some_iff] at h
    obtain ⟨y, hy, x, hx, h⟩ := h
    unfold vectorScalar at h
    split at h
    · simp only [Option.some.injEq] at h; subst h
      rw [den3, ← iha x hx, ← ihb y hy]
      funext i t p q r
      exact mul_comm _ _
    · exact absurd h (by simp)
  | cross a b iha ihb =>
    intro f h
    simp only [Expr3.run, Option.bind_eq_some_iff] at h
    obtain ⟨x, hx, y, hy, h⟩ := h
    unfold Fields.cross at h
    split at h
    · simp only [Option.some.injEq] at h; subst h
      rw [den3, ← iha x hx, ← ihb y hy]
      funext i t p q r
      rw [cross_apply]
      fin_cases i <;> rfl
    · exact absurd h (by simp)
  | inner a b iha ihb =>
    intro f h
    simp only [Expr3.run, Option.bind_eq_some_iff] at h
    obtain ⟨x, hx, y, hy, h⟩ := h
    unfold Fields.inner at h
    split at h
    · simp only [Option.some.injEq] at h; subst h
      rw [den3, ← iha x hx, ← ihb y hy]
      funext t p q r
      simp only [dotProduct, Fin.sum_univ_three]; rfl
    · exact absurd h (by simp)
  | dt a ih =>
    intro f h
    simp only [Expr3.run, Option.bind_eq_some_iff] at h
    obtain ⟨x, hx, h⟩ := h
    unfold Fields.dt at h
    split at h
    · simp only [Option.some.injEq] at h; subst h
      rw [den3, ← ih x hx]; simp only [vals, map_map]; rfl
    · exact absurd h (by simp)
  | gradS a ih =>
    intro f h
    simp only [Expr3.run, Option.bind_eq_some_iff] at h
    obtain ⟨x, hx, h⟩ := h
    unfold Fields.gradS at h
    split at h
    · simp only [Option.some.injEq] at h; subst h
      rw [den3, ← ih x hx]
      funext i; fin_cases i <;> rfl
    · exact absurd h (by simp)
  | gradV a ih =>
    intro f h
    simp only [Expr3.run, Option.bind_eq_some_iff] at h
    obtain ⟨x, hx, h⟩ := h
    unfold Fields.gradV at h
    split at h
    · simp only [Option.some.injEq] at h; subst h
      rw [den3, ← ih x hx]
      funext i j; fin_cases i <;> fin_cases j <;> rfl
    · exact absurd h (by simp)
  | curl a ih =>
    intro f h
    simp only [Expr3.run, Option.bind_eq_some_iff] at h
    obtain ⟨x, hx, h⟩ := h
    unfold Fields.curl at h
    split at h
    · simp only [Option.some.injEq] at h; subst h
      rw [den3, ← ih x hx]
      funext i t p q r; fin_cases i <;> rfl
    · exact absurd h (by simp)
  | divV a ih =>
    intro f h
    simp only [Expr3.run, Option.bind_eq_some_iff] at h
    obtain ⟨x, hx, h⟩ := h
    unfold Fields.divV at h
    split at h
    · simp only [Option.some.injEq] at h; subst h
      rw [den3, ← ih x hx]
      funext t p q r
      simp only [Fin.sum_univ_three]; rfl
    · exact absurd h (by simp)
  | divT a ih =>
    intro f h
    simp only [Expr3.run, Option.bind_eq_some_iff] at h
    obtain ⟨x, hx, h⟩ := h
    unfold Fields.divT at h
    split at h
    · simp only [Option.some.injEq] at h; subst h
      rw [den3, ← ih x hx]
      funext i t p q r
      simp only [Fin.sum_univ_three]
      fin_cases i <;> rfl
    · exact absurd h (by simp)

/-- The leaf whose `valid_time` is inherited: the first operand, but the scalar of a vector times a scalar. -/
def head3 : {sh : Shape} → Expr3 sh → ValidTime ℝ
  | _, .leaf f => f.validTime
  | _, .neg a => head3 a
  | _, .add a _ => head3 a
  | _, .sub a _ => head3 a
  | _, .num _ a => head3 a
  | _, .sv a _ => head3 a
  | _, .vs _ a => head3 a
  | _, .cross a _ => head3 a
  | _, .inner a _ => head3 a
  | _, .dt a => head3 a
  | _, .gradS a => head3 a
  | _, .gradV a => head3 a
  | _, .curl a => head3 a
  | _, .divV a => head3 a
  | _, .divT a => head3 a

/-- What is known of the result beside its values. -/
def Facts (sh : Shape) (E : Expr3 sh) (f : Fld 3 Fn3 sh) : Prop :=
  (ok3.std3 E ↔ f.ftype = .standard) ∧ (direct3 E ↔ f.func.all (fun c => accepted3 c.kind) = true) ∧ f.validTime = head3 E

theorem all_map_object (g : A → Call Fn3) (hg : ∀ a, (g a).kind = .object) {sh : Shape} (a : Comp 3 A sh) :
    (a.map g).all (fun c => accepted3 c.kind) = false := by
  cases sh
  · exact (congrArg accepted3 (hg a)).trans rfl
  · simp [Comp.map, Comp.all, hg, accepted3]
  · simp [Comp.map, Comp.all, hg, accepted3]

theorem all_map2_object (g : A → A → Call Fn3) (hg : ∀ a b, (g a b).kind = .object) {sh : Shape} (a b : Comp 3 A sh) :
    (a.map2 g b).all (fun c => accepted3 c.kind) = false := by
  cases sh
  · exact (congrArg accepted3 (hg a b)).trans rfl
  · simp [Comp.map2, Comp.all, hg, accepted3]
  · simp [Comp.map2, Comp.all, hg, accepted3]

theorem all_map_meth (g : Fn3 → Fn3) {sh : Shape} (a : Comp 3 (Call Fn3) sh) :
    (a.map (meth g)).all (fun c => accepted3 c.kind) = true := by
  cases sh
  · simp [Comp.map, Comp.all, meth, accepted3]
  · simp [Comp.map, Comp.all, meth, accepted3]
  · simp [Comp.map, Comp.all, meth, accepted3]

theorem all_v (v : Fin 3 → Call Fn3) : Comp.all (d := 3) (sh := .v) (fun c => accepted3 c.kind) v = true
    ↔ ∀ i, accepted3 (v i).kind = true := by simp [Comp.all]

theorem run_facts (D : Diff3) {sh : Shape} (E : Expr3 sh) : ∀ f, E.run D = some f → Facts sh E f := by
  induction E with
  | leaf f => intro g h; simp only [Expr3.run, Option.some.injEq] at h; subst h; exact ⟨Iff.rfl, Iff.rfl, rfl⟩
  | neg a ih =>
    intro f h
    simp only [Expr3.run, Option.bind_eq_some_iff] at h
    obtain ⟨x, hx, h⟩ := h
    unfold Fields.neg at h
    split at h
    · simp only [Option.some.injEq] at h; subst h
      refine ⟨by simp [ok3.std3], ?_, (ih x hx).2.2⟩
      rw [all_map_object _ fun _ => rfl]; simp [direct3]
    · exact absurd h (by simp)
  | add a b iha ihb =>
    intro f h
    simp only [Expr3.run, Option.bind_eq_some_iff] at h
    obtain ⟨x, hx, y, hy, h⟩ := h
    unfold Fields.add at h
    split at h
    · simp only [Option.some.injEq] at h; subst h
      refine ⟨by simp [ok3.std3], ?_, (iha x hx).2.2⟩
      rw [all_map2_object _ fun _ _ => rfl]; simp [direct3]
    · exact absurd h (by simp)
  | sub a b iha ihb =>
    intro f h
    simp only [Expr3.run, Option.bind_eq_some_iff] at h
    obtain ⟨x, hx, y, hy, h⟩ := h
    unfold Fields.sub at h
    split at h
    · simp only [Option.some.injEq] at h; subst h
      refine ⟨by simp [ok3.std3], ?_, (iha x hx).2.2⟩
      rw [all_map2_object _ fun _ _ => rfl]; simp [direct3]
    · exact absurd h (by simp)
  | num k a ih =>
    intro f h
    simp only [Expr3.run, Option.bind_eq_some_iff] at h
    obtain ⟨x, hx, h⟩ := h
    unfold mulNum at h
    split at h
    · simp only [Option.some.injEq] at h; subst h
      refine ⟨by simp [ok3.std3], ?_, (ih x hx).2.2⟩
      rw [all_map_object _ fun _ => rfl]; simp [direct3]
    · exact absurd h (by simp)
  | sv a b iha ihb =>
    intro f h
    simp only [Expr3.run, Option.bind_eq_some_iff] at h
    obtain ⟨x, hx, y, hy, h⟩ := h
    unfold scalarVector at h
    split at h
    · simp only [Option.some.injEq] at h; subst h
      refine ⟨by simp [ok3.std3], ?_, (iha x hx).2.2⟩
      rw [all_v]; simp [direct3, mulH, accepted3]
    · exact absurd h (by simp)
  | vs b a ihb iha =>
    intro f h
    simp only [Expr3.run, Option.bind_eq_some_iff] at h
    obtain ⟨y, hy, x, hx, h⟩ := h
    unfold vectorScalar at h
    split at h
    · simp only [Option.some.injEq] at h; subst h
      refine ⟨by simp [ok3.std3], ?_, (iha x hx).2.2⟩
      rw [all_v]; simp [direct3, mulH, accepted3]
    · exact absurd h (by simp)
  | cross a b iha ihb =>
    intro f h
    simp only [Expr3.run, Option.bind_eq_some_iff] at h
    obtain ⟨x, hx, y, hy, h⟩ := h
    unfold Fields.cross at h
    split at h
    · simp only [Option.some.injEq] at h; subst h
      refine ⟨by simp [ok3.std3], ?_, (iha x hx).2.2⟩
      rw [all_v]; simp [direct3, crossH, accepted3, Fin.forall_fin_succ]
    · exact absurd h (by simp)
  | inner a b iha ihb =>
    intro f h
    simp only [Expr3.run, Option.bind_eq_some_iff] at h
    obtain ⟨x, hx, y, hy, h⟩ := h
    unfold Fields.inner at h
    split at h
    · simp only [Option.some.injEq] at h; subst h
      exact ⟨by simp [ok3.std3], by simp [direct3, innerH, accepted3, Comp.all], (iha x hx).2.2⟩
    · exact absurd h (by simp)
  | dt a ih =>
    intro f h
    simp only [Expr3.run, Option.bind_eq_some_iff] at h
    obtain ⟨x, hx, h⟩ := h
    unfold Fields.dt at h
    split at h
    · simp only [Option.some.injEq] at h; subst h
      refine ⟨by simp [ok3.std3], ?_, (ih x hx).2.2⟩
      rw [all_map_meth]; simp [direct3]
    · exact absurd h (by simp)
  | gradS a ih =>
    intro f h
    simp only [Expr3.run, Option.bind_eq_some_iff] at h
    obtain ⟨x, hx, h⟩ := h
    unfold Fields.gradS at h
    split at h
    · simp only [Option.some.injEq] at h; subst h
      refine ⟨by simp [ok3.std3], ?_, (ih x hx).2.2⟩
      rw [all_v]; simp [direct3, meth, accepted3, Fin.forall_fin_succ]
    · exact absurd h (by simp)
  | gradV a ih =>
    intro f h
    simp only [Expr3.run, Option.bind_eq_some_iff] at h
    obtain ⟨x, hx, h⟩ := h
    unfold Fields.gradV at h
    split at h
    · simp only [Option.some.injEq] at h; subst h
      refine ⟨by simp [ok3.std3], ?_, (ih x hx).2.2⟩
      simp [direct3, meth, accepted3, Comp.all, Fin.forall_fin_succ]
    · exact absurd h (by simp)
  | curl a ih =>
    intro f h
    simp only [Expr3.run, Option.bind_eq_some_iff] at h
    obtain ⟨x, hx, h⟩ := h
    unfold Fields.curl at h
    split at h
    · simp only [Option.some.injEq] at h; subst h
      refine ⟨by simp [ok3.std3], ?_, (ih x hx).2.2⟩
      rw [all_v]; simp [direct3, subH, accepted3, Fin.forall_fin_succ]
    · exact absurd h (by simp)
  | divV a ih =>
    intro f h
    simp only [Expr3.run, Option.bind_eq_some_iff] at h
    obtain ⟨x, hx, h⟩ := h
    unfold Fields.divV at h
    split at h
    · simp only [Option.some.injEq] at h; subst h
      exact ⟨by simp [ok3.std3], by simp [direct3, sumH, accepted3, Comp.all], (ih x hx).2.2⟩
    · exact absurd h (by simp)
  | divT a ih =>
    intro f h
    simp only [Expr3.run, Option.bind_eq_some_iff] at h
    obtain ⟨x, hx, h⟩ := h
    unfold Fields.divT at h
    split at h
    · simp only [Option.some.injEq] at h; subst h
      refine ⟨by simp [ok3.std3], ?_, (ih x hx).2.2⟩
      rw [all_v]; simp [direct3, sumH, accepted3, Fin.forall_fin_succ]
    · exact absurd h (by simp)

theorem diffable_iff {f : Fld 3 Fn3 sh} : diffable f = true
    ↔ f.ftype = .standard ∧ f.func.all (fun c => accepted3 c.kind) = true := by simp [diffable]

theorem isSome_ite {α : Type} {p : Prop} [Decidable p] (a : α) : (if p then some a else none).isSome = true ↔ p := by
  split <;> simp [*]

theorem one3 (D : Diff3) {s1 s2 : Shape} {a : Expr3 s1} (ih : (a.run D).isSome = true ↔ ok3 a) (g : Fld 3 Fn3 s1 → Option (Fld 3 Fn3 s2))
    (p : Prop) (hg : ∀ f, Facts s1 a f → ((g f).isSome = true ↔ p)) : ((a.run D).bind g).isSome = true ↔ p ∧ ok3 a := by
  cases h : a.run D with
  | none => rw [h] at ih; simp [← ih]
  | some f =>
    rw [h] at ih
    rw [Option.bind_some, hg f (run_facts D a f h)]
    simp [← ih]

theorem two3 (D : Diff3) {s1 s2 s3 : Shape} {a : Expr3 s1} {b : Expr3 s2} (iha : (a.run D).isSome = true ↔ ok3 a)
    (ihb : (b.run D).isSome = true ↔ ok3 b) (g : Fld 3 Fn3 s1 → Fld 3 Fn3 s2 → Option (Fld 3 Fn3 s3))
    (hg : ∀ x y, (g x y).isSome = true ↔ x.ftype = .standard ∧ y.ftype = .standard) :
    ((a.run D).bind fun x => (b.run D).bind fun y => g x y).isSome = true
      ↔ ok3.std3 a ∧ ok3.std3 b ∧ ok3 a ∧ ok3 b := by
  cases h : a.run D with
  | none => rw [h] at iha; simp [← iha]
  | some x =>
    cases k : b.run D with
    | none => rw [k] at ihb; simp [← ihb]
    | some y =>
      rw [h] at iha; rw [k] at ihb
      simp only [Option.bind_some, hg, (run_facts D a x h).1, (run_facts D b y k).1, ← iha, ← ihb, Option.isSome_some, and_true]

/-- Python makes a field of an expression exactly if it is well formed in the sense of `ok3`. -/
theorem c100_defined_3d (D : Diff3) {sh : Shape} (E : Expr3 sh) : (E.run D).isSome = true ↔ ok3 E := by
  induction E with
  | leaf f => simp [Expr3.run, ok3]
  | neg a ih => exact one3 D ih _ _ fun f hf => by rw [Fields.neg, isSome_ite, hf.1]
  | add a b iha ihb => exact two3 D iha ihb _ fun x y => by rw [Fields.add, isSome_ite]
  | sub a b iha ihb => exact two3 D iha ihb _ fun x y => by rw [Fields.sub, isSome_ite]
  | @num σ k a ih =>
    rw [Expr3.run, one3 D ih _ (k.cls ∈ ["int", "float", "int64", "int32"] ∧ σ ≠ Shape.t ∧ ok3.std3 a) fun f hf => ?_]
    · rw [ok3]; tauto
    · rw [mulNum, isSome_ite, hf.1, Num.accepted, List.contains_iff_mem]
      tauto
  | sv a b iha ihb => exact two3 D iha ihb _ fun x y => by rw [scalarVector, isSome_ite]
  | vs a b iha ihb => exact two3 D iha ihb _ fun x y => by rw [vectorScalar, isSome_ite, and_comm]
  | cross a b iha ihb => exact two3 D iha ihb _ fun x y => by rw [Fields.cross, isSome_ite]
  | inner a b iha ihb => exact two3 D iha ihb _ fun x y => by rw [Fields.inner, isSome_ite]
  | dt a ih =>
    rw [Expr3.run, one3 D ih _ (ok3.std3 a ∧ direct3 a) fun f hf => by rw [Fields.dt, isSome_ite, diffable_iff, hf.1, hf.2.1], ok3, and_assoc]
  | gradS a ih =>
    rw [Expr3.run, one3 D ih _ (ok3.std3 a ∧ direct3 a) fun f hf => by rw [Fields.gradS, isSome_ite, diffable_iff, hf.1, hf.2.1], ok3, and_assoc]
  | gradV a ih =>
    rw [Expr3.run, one3 D ih _ (ok3.std3 a ∧ direct3 a) fun f hf => by rw [Fields.gradV, isSome_ite, diffable_iff, hf.1, hf.2.1], ok3, and_assoc]
  | curl a ih =>
    rw [Expr3.run, one3 D ih _ (ok3.std3 a ∧ direct3 a) fun f hf => by rw [Fields.curl, isSome_ite, diffable_iff, hf.1, hf.2.1], ok3, and_assoc]
  | divV a ih =>
    rw [Expr3.run, one3 D ih _ (ok3.std3 a ∧ direct3 a) fun f hf => by rw [Fields.divV, isSome_ite, diffable_iff, hf.1, hf.2.1], ok3, and_assoc]
  | divT a ih =>
    rw [Expr3.run, one3 D ih _ (ok3.std3 a ∧ direct3 a) fun f hf => by rw [Fields.divT, isSome_ite, diffable_iff, hf.1, hf.2.1], ok3, and_assoc]

/-! ## Times -/

/-- The `valid_time` of all leaves. -/
def times3 : {sh : Shape} → Expr3 sh → List (ValidTime ℝ)
  | _, .leaf f => [f.validTime]
  | _, .neg a => times3 a
  | _, .add a b => times3 a ++ times3 b
  | _, .sub a b => times3 a ++ times3 b
  | _, .num _ a => times3 a
  | _, .sv a b => times3 a ++ times3 b
  | _, .vs a b => times3 a ++ times3 b
  | _, .cross a b => times3 a ++ times3 b
  | _, .inner a b => times3 a ++ times3 b
  | _, .dt a => times3 a
  | _, .gradS a => times3 a
  | _, .gradV a => times3 a
  | _, .curl a => times3 a
  | _, .divV a => times3 a
  | _, .divT a => times3 a

/-- A field that was never evaluated may be evaluated at `t`. -/
def Admits (v : ValidTime ℝ) (t : ℝ) : Prop := ∀ s, v = .only s → t = s

theorem head_mem {sh : Shape} (E : Expr3 sh) : head3 E ∈ times3 E := by
  induction E with
  | leaf f => exact List.mem_singleton.2 rfl
  | neg a ih => exact ih
  | add a b iha ihb => exact List.mem_append_left _ iha
  | sub a b iha ihb => exact List.mem_append_left _ iha
  | num k a ih => exact ih
  | sv a b iha ihb => exact List.mem_append_left _ iha
  | vs a b iha ihb => exact List.mem_append_right _ ihb
  | cross a b iha ihb => exact List.mem_append_left _ iha
  | inner a b iha ihb => exact List.mem_append_left _ iha
  | dt a ih => exact ih
  | gradS a ih => exact ih
  | gradV a ih => exact ih
  | curl a ih => exact ih
  | divV a ih => exact ih
  | divT a ih => exact ih

theorem fresh_evaluates (f : Fld d F sh) (t : ℝ) :
    (f.fresh.step (.evaluate (some t))).2 = some (.val (t, f.func)) ∨ (f.fresh.step (.evaluate (some t))).2 = some .raise := by
  by_cases h : Caches.timeOk f.fresh t = true
  · left; simp [Field.step, Field.atTime, Caches.setTime, h, Fld.fresh, Field.init]
    simp [Fld.fresh, Field.init] at h; simp [h]
  · right; simp [Field.step, Field.atTime, Caches.setTime, h]

theorem fresh_admits (f : Fld d F sh) (t : ℝ) :
    (f.fresh.step (.evaluate (some t))).2 = some (.val (t, f.func)) ↔ Admits f.validTime t := by
  have e : Caches.timeOk f.fresh t = true ↔ Admits f.validTime t := by
    unfold Caches.timeOk Fld.fresh Field.init Admits
    cases hv : f.validTime with
    | always => simp
    | firstInstant => simp
    | only s => simp
  rw [← e]
  by_cases h : Caches.timeOk f.fresh t = true
  · simp only [h, iff_true, Field.step, Field.atTime, Caches.setTime, if_true]
    rfl
  · simp [Field.step, Field.atTime, Caches.setTime, h]

/-- The result can be evaluated at the times of the first operand (of the scalar, for a vector times a scalar). -/
theorem c100_time (D : Diff3) {sh : Shape} (E : Expr3 sh) (f : Fld 3 Fn3 sh) (h : E.run D = some f) (t : ℝ) :
    (f.fresh.step (.evaluate (some t))).2 = some (.val (t, f.func)) ↔ Admits (head3 E) t := by
  rw [fresh_admits, (run_facts D E f h).2.2]

/-- **Partial.** If all leaves have the same `valid_time`, then the result can be evaluated exactly at the times at which
all leaves can.  Missing: leaves with different `valid_time`, for which it is false (`c100_time_fails`). -/
theorem c100_time_partial (D : Diff3) {sh : Shape} (E : Expr3 sh) (f : Fld 3 Fn3 sh) (h : E.run D = some f)
    (v : ValidTime ℝ) (hv : ∀ w ∈ times3 E, w = v) (t : ℝ) :
    (f.fresh.step (.evaluate (some t))).2 = some (.val (t, f.func)) ↔ ∀ w ∈ times3 E, Admits w t := by
  rw [c100_time D E f h]
  constructor
  · intro g w hw
    rw [hv w hw, ← hv _ (head_mem E)]; exact g
  · intro g; exact g _ (head_mem E)

/-- A scalar field of value one. -/
def unitField (v : ValidTime ℝ) : Fld 3 Fn3 .s := ⟨.standard, (⟨.function 4, fun _ _ _ _ => 1⟩ : Call Fn3), v⟩

/-- The sum of a field valid always and one valid at time 1 only can be evaluated at time 2. -/
theorem c100_time_fails : ¬ ∀ (D : Diff3) (sh : Shape) (E : Expr3 sh) (f : Fld 3 Fn3 sh), E.run D = some f → ∀ t : ℝ,
    (f.fresh.step (.evaluate (some t))).2 = some (.val (t, f.func)) → ∀ w ∈ times3 E, Admits w t := by
  intro H
  have h := H (central3 1) .s (.add (.leaf (unitField .always)) (.leaf (unitField (.only 1)))) _ rfl 2
    ((fresh_admits _ _).2 (fun s hs => by cases hs)) (.only 1) (by simp [times3, unitField]) 1 rfl
  norm_num at h

/-! ## What cannot be differentiated -/

/-- Sums, differences, multiples, products, curls and divergences cannot be differentiated in 3D. -/
theorem c100_not_closed (D : Diff3) (a : Expr3 .v) (s : Expr3 .s) :
    (Expr3.curl (.curl a)).run D = none ∧ (Expr3.gradS (.divV a)).run D = none ∧ (Expr3.divV (.curl a)).run D = none ∧
    (∀ b, (Expr3.curl (.add a b)).run D = none) ∧ (∀ b, (Expr3.divV (.cross a b)).run D = none) ∧
    (∀ b, (Expr3.gradS (.inner a b)).run D = none) ∧ (∀ b, (Expr3.divV (.sv s b)).run D = none) ∧
    (∀ k, (Expr3.dt (.num k s)).run D = none) := by
  have e : ∀ {sh} (E : Expr3 sh), ¬ ok3 E → E.run D = none := fun E h => by
    rw [← c100_defined_3d D] at h; simpa using h
  refine ⟨e _ ?_, e _ ?_, e _ ?_, fun b => e _ ?_, fun b => e _ ?_, fun b => e _ ?_, fun b => e _ ?_, fun k => e _ ?_⟩ <;>
    simp [ok3, direct3]

/-! ## Identities of the difference quotients -/

theorem central_comm (h : ℝ) (F : ℝ → ℝ → ℝ) (a b : ℝ) :
    central h (fun s => central h (fun r => F s r) b) a = central h (fun r => central h (fun s => F s r) a) b := by
  unfold central; ring

/-- The numerical curl of the numerical gradient is zero, without an error. -/
theorem c100_curl_grad (h : ℝ) (s : Expr3 .s) (f : Fld 3 Fn3 .v) (e : (Expr3.curl (.gradS s)).run (central3 h) = some f)
    (i : Fin 3) (t x y z : ℝ) : (vals f : Fin 3 → Fn3) i t x y z = 0 := by
  rw [c100_values_3d _ _ f e]
  simp only [den3]
  rw [sub_eq_zero]
  obtain ⟨u, hu⟩ : ∃ u : Fn3, u = den3 (central3 h) s := ⟨_, rfl⟩
  rw [← hu]
  fin_cases i
  · exact central_comm h (fun b c => u t x b c) y z
  · exact central_comm h (fun c a => u t a y c) z x
  · exact central_comm h (fun a b => u t a b z) x y

/-- The divergence of the gradient of a vector is the vector of the divergences of the gradients. -/
theorem c100_laplace (D : Diff3) (a : Expr3 .v) (f : Fld 3 Fn3 .v) (e : (Expr3.divT (.gradV a)).run D = some f)
    (s : Fin 3 → Fld 3 Fn3 .s) (hs : ∀ i, vals (s i) = (den3 D a : Fin 3 → Fn3) i) (g : Fin 3 → Fld 3 Fn3 .s)
    (hg : ∀ i, (Expr3.divV (.gradS (.leaf (s i)))).run D = some (g i)) (i : Fin 3) :
    (vals f : Fin 3 → Fn3) i = vals (g i) := by
  rw [c100_values_3d _ _ f e, c100_values_3d _ _ (g i) (hg i)]
  simp only [den3, hs]

/-- A vector field `(y z, x, t)` and the curl of it. -/
def sample : Fld 3 Fn3 .v :=
  ⟨.standard, (![⟨.function 4, fun _ _ y z => y * z⟩, ⟨.function 4, fun _ x _ _ => x⟩, ⟨.method 5, fun t _ _ _ => t⟩] :
    Fin 3 → Call Fn3), .always⟩

example : ok3 (Expr3.add (.curl (.leaf sample)) (.cross (.leaf sample) (.dt (.leaf sample)))) := by
  simp [ok3, ok3.std3, direct3, sample, Comp.all, accepted3, Fin.forall_fin_succ]

example (D : Diff3) : (Expr3.divT (.gradV (.leaf sample))).run D ≠ none := by
  rw [← Option.isSome_iff_ne_none, c100_defined_3d]
  simp [ok3, ok3.std3, direct3, sample, Comp.all, accepted3, Fin.forall_fin_succ]

example (D : Diff3) : (Expr3.curl (.gradS (.leaf (unitField .always)))).run D ≠ none := by
  rw [← Option.isSome_iff_ne_none, c100_defined_3d]
  simp [ok3, ok3.std3, direct3, unitField, Comp.all, accepted3]

/-- `numpy.float64` numbers are refused as factors, although they are floats. -/
theorem c100_float64 (D : Diff3) {sh : Shape} (x : ℝ) (E : Expr3 sh) : (Expr3.num ⟨"float64", x⟩ E).run D = none := by
  have : ¬ ok3 (Expr3.num ⟨"float64", x⟩ E) := by simp [ok3]
  rw [← c100_defined_3d D] at this
  simpa using this

end Fld100
end Mifem.Props
