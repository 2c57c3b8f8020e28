import Verif.Model.FormOps
import Verif.Props.Cochain
import Verif.Lemmas.Sides
import Mathlib.Algebra.BigOperators.Fin
import Mathlib.Tactic.Ring
import Mathlib.Tactic.Linarith

/-!
# C104: sums and multiples of forms, dofs on boundaries, dofs at the same place

The specification: an expression stands for a number once its forms stand for numbers (`val`); the coefficients of the result are
those numbers, coefficient by coefficient.
-/

namespace Mifem.Props.Ops104
open Mifem.Gath Mifem.Cochain Mifem.FormOps

/-! ## lists -/

theorem mapM_ex {α β : Type} {f : α → Option β} : ∀ {l : List α}, (∀ a ∈ l, ∃ b, f a = some b) → ∃ r, l.mapM f = some r
  | [], _ => ⟨[], rfl⟩
  | a :: l, h => by
    obtain ⟨b, hb⟩ := h a (by simp)
    obtain ⟨r, hr⟩ := mapM_ex (l := l) fun x hx => h x (by simp [hx])
    exact ⟨b :: r, by simp [List.mapM_cons, hb, hr]⟩

theorem mapM_mem {α β : Type} {f : α → Option β} : ∀ {l : List α} {r : List β}, l.mapM f = some r →
    (∀ a ∈ l, ∃ b ∈ r, f a = some b) ∧ (∀ b ∈ r, ∃ a ∈ l, f a = some b)
  | [], r, h => by simp at h; subst h; simp
  | a :: l, r, h => by
    rw [List.mapM_cons] at h
    cases hb : f a with
    | none => simp [hb] at h
    | some b =>
      cases hr : l.mapM f with
      | none => simp [hb, hr] at h
      | some r' =>
        simp [hb, hr] at h
        subst h
        obtain ⟨h1, h2⟩ := mapM_mem hr
        constructor
        · intro x hx
          rcases List.mem_cons.1 hx with rfl | hx
          · exact ⟨b, by simp, hb⟩
          · obtain ⟨y, hy, he⟩ := h1 x hx
            exact ⟨y, by simp [hy], he⟩
        · intro y hy
          rcases List.mem_cons.1 hy with rfl | hy
          · exact ⟨a, by simp, hb⟩
          · obtain ⟨x, hx, he⟩ := h2 y hy
            exact ⟨x, by simp [hx], he⟩

theorem mapM_keys {β : Type} {f : Nat → Option β} : ∀ {l : List Nat} {r : List (Nat × β)},
    l.mapM (fun e => (f e).map fun z => (e, z)) = some r → ∀ e ∈ l, r.lookup e = f e
  | [], r, h => by simp
  | a :: l, r, h => by
    rw [List.mapM_cons] at h
    cases hb : f a with
    | none => simp [hb] at h
    | some b =>
      cases hr : l.mapM (fun e => (f e).map fun z => (e, z)) with
      | none => simp [hb, hr] at h
      | some r' =>
        simp [hb, hr] at h
        subst h
        intro e he
        rw [List.lookup_cons]
        by_cases hea : e = a
        · subst hea; simp [hb]
        · have : (e == a) = false := by simp [hea]
          rw [this]
          rcases List.mem_cons.1 he with rfl | he
          · exact absurd rfl hea
          · exact mapM_keys hr e he

theorem mapM_fst {β : Type} {f : Nat → Option β} : ∀ {l : List Nat} {r : List (Nat × β)},
    l.mapM (fun e => (f e).map fun z => (e, z)) = some r → r.map Prod.fst = l
  | [], r, h => by simp at h; subst h; rfl
  | a :: l, r, h => by
    rw [List.mapM_cons] at h
    cases hb : f a with
    | none => simp [hb] at h
    | some b =>
      cases hr : l.mapM (fun e => (f e).map fun z => (e, z)) with
      | none => simp [hb, hr] at h
      | some r' =>
        simp [hb, hr] at h
        subst h
        simp [mapM_fst hr]

variable {K : Type} [Field K] [DecidableEq K]

/-! ## the specification -/

/-- the number an expression stands for, when form `i` stands for `x i`. -/
def val (x : Nat → K) : Expr K → K
  | .form i => x i
  | .add a b => val x a + val x b
  | .sub a b => val x a - val x b
  | .mul _ c a => c * val x a

/-- the forms of an expression. -/
def atoms : Expr K → List Nat
  | .form i => [i]
  | .add a b => atoms a ++ atoms b
  | .sub a b => atoms a ++ atoms b
  | .mul _ _ a => atoms a

/-- the leftmost form. -/
def first : Expr K → Nat
  | .form i => i
  | .add a _ => first a
  | .sub a _ => first a
  | .mul _ _ a => first a

/-- the name of the result. -/
def text (three : Bool) (nm : Nat → String) : Expr K → String
  | .form i => nm i
  | .add a b => text three nm a ++ "+" ++ text three nm b
  | .sub a b => text three nm a ++ "-" ++ text three nm b
  | .mul t _ a => (if three then t else t ++ "*") ++ text three nm a

/-- no difference is formed. -/
def noSub : Expr K → Prop
  | .form _ => True
  | .add a b => noSub a ∧ noSub b
  | .sub _ _ => False
  | .mul _ _ a => noSub a

/-- at least one operation. -/
def isOp : Expr K → Prop
  | .form _ => False
  | _ => True

/-- the form has `n` coefficients in every element of this core. -/
def Has (W : World) (A : Obj K) (n : Nat) : Prop :=
  ∃ l, A.cochain = some l ∧ ∀ e ∈ W.elems A.mesh, ∃ v, l.lookup e = some v ∧ v.length = n

/-- coefficient `j` in element `e`. -/
def coef (A : Obj K) (e j : Nat) : K := (((A.cochain.bind fun l => l.lookup e).bind fun v => v[j]?).getD 0)

/-! ## one operation -/

theorem setLocal_some {W : World} {A R : Obj K} {l : Local K} (h : setLocal W A l = some R) :
    R = { A with cochain := some l } ∧ ∀ p ∈ l, p.2.length = W.nb A.cls A.space A.hybrid := by
  unfold setLocal at h
  split at h
  · rename_i hh
    simp only [Option.some.injEq] at h
    refine ⟨h.symm, fun p hp => ?_⟩
    simpa using List.all_eq_true.1 hh p hp
  · simp at h

theorem setLocal_ok {W : World} {A : Obj K} {l : Local K} (h : ∀ p ∈ l, p.2.length = W.nb A.cls A.space A.hybrid) :
    setLocal W A l = some { A with cochain := some l } := by
  unfold setLocal
  rw [if_pos]
  exact List.all_eq_true.2 fun p hp => by simpa using h p hp

theorem npOp_len {op : K → K → K} {a b : List K} (h : a.length = b.length) : npOp op a b = some (a.zipWith op b) := by
  unfold npOp; rw [if_pos h]

theorem binop_ok {W : World} {op : K → K → K} {sym : String} {A B : Obj K} {n : Nat} (hc : B.cls = A.cls) (hm : B.mesh = A.mesh)
    (hs : B.space = A.space) (hn : W.nb A.cls A.space A.hybrid = n) (hA : Has W A n) (hB : Has W B n) :
    ∃ R, binop W op sym A B = some R ∧ R.cls = A.cls ∧ R.mesh = A.mesh ∧ R.space = A.space ∧ R.hybrid = A.hybrid ∧
      R.orientation = A.orientation ∧ R.numbering = A.numbering ∧ R.name = A.name ++ sym ++ B.name ∧ R.define = none ∧ Has W R n ∧
      ∀ e ∈ W.elems A.mesh, ∀ j, j < n → coef R e j = op (coef A e j) (coef B e j) := by
  obtain ⟨a, ha, ha'⟩ := hA
  obtain ⟨b, hb, hb'⟩ := hB
  have hf : ∀ e ∈ W.elems A.mesh, ∃ x y, a.lookup e = some x ∧ b.lookup e = some y ∧ x.length = n ∧ y.length = n := by
    intro e he
    obtain ⟨x, hx, hxn⟩ := ha' e he
    obtain ⟨y, hy, hyn⟩ := hb' e (by rw [hm]; exact he)
    exact ⟨x, y, hx, hy, hxn, hyn⟩
  let f : Nat → Option (List K) := fun e => (a.lookup e).bind fun x => (b.lookup e).bind fun y => npOp op x y
  have hform : (fun e => (a.lookup e).bind fun x => (b.lookup e).bind fun y => (npOp op x y).map fun z => (e, z)) =
      fun e => (f e).map fun z => (e, z) := by
    funext e
    simp only [f]
    cases a.lookup e with
    | none => rfl
    | some x => cases b.lookup e with
      | none => rfl
      | some y => rfl
  obtain ⟨r, hr⟩ := mapM_ex (f := fun e => (f e).map fun z => (e, z)) (l := W.elems A.mesh) (by
    intro e he
    obtain ⟨x, y, hx, hy, hxn, hyn⟩ := hf e he
    exact ⟨(e, x.zipWith op y), by simp [f, hx, hy, npOp_len (hxn.trans hyn.symm)]⟩)
  have hlen : ∀ p ∈ r, p.2.length = n := by
    intro p hp
    obtain ⟨e, he, hpe⟩ := (mapM_mem hr).2 p hp
    obtain ⟨x, y, hx, hy, hxn, hyn⟩ := hf e he
    simp [f, hx, hy, npOp_len (hxn.trans hyn.symm)] at hpe
    subst hpe
    simp [hxn, hyn]
  refine ⟨{ fresh A (A.name ++ sym ++ B.name) with cochain := some r }, ?_, rfl, rfl, rfl, rfl, rfl, rfl, rfl, rfl, ?_, ?_⟩
  · unfold binop
    rw [if_pos ⟨hc, hm, hs⟩, ha, hb]
    simp only [Option.bind_some]
    rw [hform, hr]
    simp only [Option.bind_some]
    exact setLocal_ok fun p hp => (hlen p hp).trans hn.symm
  · refine ⟨r, rfl, fun e he => ?_⟩
    obtain ⟨x, y, hx, hy, hxn, hyn⟩ := hf e he
    refine ⟨x.zipWith op y, ?_, by simp [hxn, hyn]⟩
    rw [mapM_keys hr e he]
    simp [f, hx, hy, npOp_len (hxn.trans hyn.symm)]
  · intro e he j hj
    obtain ⟨x, y, hx, hy, hxn, hyn⟩ := hf e he
    have : r.lookup e = some (x.zipWith op y) := by
      rw [mapM_keys hr e he]
      simp [f, hx, hy, npOp_len (hxn.trans hyn.symm)]
    have hjx : j < x.length := by omega
    have hjy : j < y.length := by omega
    simp [coef, ha, hb, hx, hy, this, hjx, hjy, List.getElem?_zipWith]

theorem rmul_ok {W : World} {t : String} {c : K} {A : Obj K} {n : Nat} (hn : W.nb A.cls A.space A.hybrid = n) (hA : Has W A n) :
    ∃ R, rmul W t c A = some R ∧ R.cls = A.cls ∧ R.mesh = A.mesh ∧ R.space = A.space ∧ R.hybrid = A.hybrid ∧
      R.orientation = A.orientation ∧ R.numbering = A.numbering ∧ R.name = (if W.three then t else t ++ "*") ++ A.name ∧
      R.define = none ∧ Has W R n ∧ ∀ e ∈ W.elems A.mesh, ∀ j, j < n → coef R e j = c * coef A e j := by
  obtain ⟨a, ha, ha'⟩ := hA
  let f : Nat → Option (List K) := fun e => (a.lookup e).map fun x => x.map (c * ·)
  have hform : (fun e => (a.lookup e).map fun x => (e, x.map (c * ·))) = fun e => (f e).map fun z => (e, z) := by
    funext e
    simp only [f]
    cases a.lookup e <;> rfl
  obtain ⟨r, hr⟩ := mapM_ex (f := fun e => (f e).map fun z => (e, z)) (l := W.elems A.mesh) (by
    intro e he
    obtain ⟨x, hx, hxn⟩ := ha' e he
    exact ⟨(e, x.map (c * ·)), by simp [f, hx]⟩)
  have hlen : ∀ p ∈ r, p.2.length = n := by
    intro p hp
    obtain ⟨e, he, hpe⟩ := (mapM_mem hr).2 p hp
    obtain ⟨x, hx, hxn⟩ := ha' e he
    simp [f, hx] at hpe
    subst hpe
    simp [hxn]
  refine ⟨{ fresh A ((if W.three then t else t ++ "*") ++ A.name) with cochain := some r }, ?_, rfl, rfl, rfl, rfl, rfl, rfl, rfl, rfl, ?_, ?_⟩
  · unfold rmul
    simp only [ha, Option.bind_some]
    rw [hform, hr]
    simp only [Option.bind_some]
    split <;> exact setLocal_ok fun p hp => (hlen p hp).trans hn.symm
  · refine ⟨r, rfl, fun e he => ?_⟩
    obtain ⟨x, hx, hxn⟩ := ha' e he
    exact ⟨x.map (c * ·), by rw [mapM_keys hr e he]; simp [f, hx], by simp [hxn]⟩
  · intro e he j hj
    obtain ⟨x, hx, hxn⟩ := ha' e he
    have : r.lookup e = some (x.map (c * ·)) := by rw [mapM_keys hr e he]; simp [f, hx]
    have hjx : j < x.length := by omega
    simp [coef, ha, hx, this, hjx]

/-! ## expressions -/

/-- the forms of an expression fit together: one class, one mesh, one space, and `n` coefficients in every element. -/
def Fit (W : World) (env : Nat → Obj K) (e : Expr K) (cls : String) (mesh space n : Nat) : Prop :=
  ∀ i ∈ atoms e, (env i).cls = cls ∧ (env i).mesh = mesh ∧ (env i).space = space ∧ W.nb cls space (env i).hybrid = n ∧ Has W (env i) n

theorem first_mem : ∀ e : Expr K, first e ∈ atoms e
  | .form i => by simp [first, atoms]
  | .add a _ => by simp [first, atoms, first_mem a]
  | .sub a _ => by simp [first, atoms, first_mem a]
  | .mul _ _ a => by simp [first, atoms, first_mem a]

/-- **C104, value of an expression.** If the forms fit together, the expression is evaluated without error (differences only in
3D), every coefficient of the result is the same expression of the coefficients of the forms, and the result has the class, mesh,
space, hybridization, orientation and numbering of the leftmost form. -/
theorem c104_value (W : World) (env : Nat → Obj K) (cls : String) (mesh space n : Nat) : ∀ (e : Expr K),
    Fit W env e cls mesh space n → (W.three = true ∨ noSub e) →
    ∃ R, eval W env e = some R ∧ R.cls = cls ∧ R.mesh = mesh ∧ R.space = space ∧ R.hybrid = (env (first e)).hybrid ∧
      R.orientation = (env (first e)).orientation ∧ R.numbering = (env (first e)).numbering ∧
      R.name = text W.three (fun i => (env i).name) e ∧ (isOp e → R.define = none) ∧ Has W R n ∧
      ∀ el ∈ W.elems mesh, ∀ j, j < n → coef R el j = val (fun i => coef (env i) el j) e := by
  intro e
  induction e with
  | form i =>
    intro h _
    obtain ⟨h1, h2, h3, h4, h5⟩ := h i (by simp [atoms])
    exact ⟨env i, rfl, h1, h2, h3, rfl, rfl, rfl, rfl, fun h => h.elim, h5, fun _ _ _ _ => rfl⟩
  | add a b iha ihb =>
    intro h hs
    obtain ⟨A, hA, a1, a2, a3, a4, a5, a6, a7, a8, a9, a10⟩ := iha (fun i hi => h i (by simp [atoms, hi])) (hs.imp_right And.left)
    obtain ⟨B, hB, b1, b2, b3, b4, b5, b6, b7, b8, b9, b10⟩ := ihb (fun i hi => h i (by simp [atoms, hi])) (hs.imp_right And.right)
    have hn : W.nb A.cls A.space A.hybrid = n := by
      rw [a1, a3, a4]; exact (h (first a) (by simp [atoms, first_mem a])).2.2.2.1
    obtain ⟨R, hR, r1, r2, r3, r4, r5, r6, r7, r8, r9, r10⟩ := binop_ok (op := (· + ·)) (sym := "+") (b1.trans a1.symm) (b2.trans a2.symm)
      (b3.trans a3.symm) hn a9 b9
    refine ⟨R, by simp [eval, hA, hB, add, hR], r1.trans a1, r2.trans a2, r3.trans a3, r4.trans a4, r5.trans a5, r6.trans a6,
      by rw [r7, a7, b7]; rfl, fun _ => r8, r9, fun el hel j hj => ?_⟩
    rw [r10 el (by rw [a2]; exact hel) j hj, a10 el hel j hj, b10 el hel j hj]; rfl
  | sub a b iha ihb =>
    intro h hs
    have h3 : W.three = true := hs.elim id fun h => h.elim
    obtain ⟨A, hA, a1, a2, a3, a4, a5, a6, a7, a8, a9, a10⟩ := iha (fun i hi => h i (by simp [atoms, hi])) (.inl h3)
    obtain ⟨B, hB, b1, b2, b3, b4, b5, b6, b7, b8, b9, b10⟩ := ihb (fun i hi => h i (by simp [atoms, hi])) (.inl h3)
    have hn : W.nb A.cls A.space A.hybrid = n := by
      rw [a1, a3, a4]; exact (h (first a) (by simp [atoms, first_mem a])).2.2.2.1
    obtain ⟨R, hR, r1, r2, r3, r4, r5, r6, r7, r8, r9, r10⟩ := binop_ok (op := (· - ·)) (sym := "-") (b1.trans a1.symm) (b2.trans a2.symm)
      (b3.trans a3.symm) hn a9 b9
    refine ⟨R, by simp [eval, hA, hB, FormOps.sub, hR, h3], r1.trans a1, r2.trans a2, r3.trans a3, r4.trans a4, r5.trans a5, r6.trans a6,
      by rw [r7, a7, b7]; rfl, fun _ => r8, r9, fun el hel j hj => ?_⟩
    rw [r10 el (by rw [a2]; exact hel) j hj, a10 el hel j hj, b10 el hel j hj]; rfl
  | mul t c a iha =>
    intro h hs
    obtain ⟨A, hA, a1, a2, a3, a4, a5, a6, a7, a8, a9, a10⟩ := iha (fun i hi => h i (by simpa [atoms] using hi)) hs
    have hn : W.nb A.cls A.space A.hybrid = n := by
      rw [a1, a3, a4]; exact (h (first a) (by simp [atoms, first_mem a])).2.2.2.1
    obtain ⟨R, hR, r1, r2, r3, r4, r5, r6, r7, r8, r9, r10⟩ := rmul_ok (t := t) (c := c) hn a9
    refine ⟨R, by simp [eval, hA, hR], r1.trans a1, r2.trans a2, r3.trans a3, r4.trans a4, r5.trans a5, r6.trans a6,
      by rw [r7, a7]; rfl, fun _ => r8, r9, fun el hel j hj => ?_⟩
    rw [r10 el (by rw [a2]; exact hel) j hj, a10 el hel j hj]; rfl

theorem binop_some {W : World} {op : K → K → K} {sym : String} {A B R : Obj K} (h : binop W op sym A B = some R) :
    B.cls = A.cls ∧ B.mesh = A.mesh ∧ B.space = A.space ∧ A.cochain.isSome ∧ B.cochain.isSome ∧
      (∀ e ∈ W.elems A.mesh, (A.cochain.bind fun l => l.lookup e).isSome ∧ (B.cochain.bind fun l => l.lookup e).isSome) ∧
      R.cls = A.cls ∧ R.mesh = A.mesh ∧ R.space = A.space ∧ R.hybrid = A.hybrid ∧ R.define = none ∧
      ∃ l, R.cochain = some l ∧ l.map Prod.fst = W.elems A.mesh ∧ ∀ p ∈ l, p.2.length = W.nb A.cls A.space A.hybrid := by
  unfold binop at h
  split at h
  · rename_i hh
    cases ha : A.cochain with
    | none => simp [ha] at h
    | some a =>
      cases hb : B.cochain with
      | none => simp [ha, hb] at h
      | some b =>
        simp only [ha, hb, Option.bind_some] at h
        let f : Nat → Option (List K) := fun e => (a.lookup e).bind fun x => (b.lookup e).bind fun y => npOp op x y
        have hform : (fun e => (a.lookup e).bind fun x => (b.lookup e).bind fun y => (npOp op x y).map fun z => (e, z)) =
            fun e => (f e).map fun z => (e, z) := by
          funext e
          simp only [f]
          cases a.lookup e with
          | none => rfl
          | some x => cases b.lookup e with
            | none => rfl
            | some y => rfl
        rw [hform] at h
        cases hr : (W.elems A.mesh).mapM (fun e => (f e).map fun z => (e, z)) with
        | none => simp [hr] at h
        | some r =>
          simp only [hr, Option.bind_some] at h
          obtain ⟨rfl, hl⟩ := setLocal_some h
          refine ⟨hh.1, hh.2.1, hh.2.2, rfl, rfl, fun e he => ?_, rfl, rfl, rfl, rfl, rfl, r, rfl, mapM_fst hr, hl⟩
          obtain ⟨z, _, hz⟩ := (mapM_mem hr).1 e he
          simp only [Option.bind_some]
          constructor
          · cases hx : a.lookup e with
            | none => simp [f, hx] at hz
            | some x => rfl
          · cases hy : b.lookup e with
            | none => cases hx : a.lookup e <;> simp [f, hx, hy] at hz
            | some y => rfl
  · simp at h

theorem rmul_some {W : World} {t : String} {c : K} {A R : Obj K} (h : rmul W t c A = some R) :
    (W.three = true → A.cochain.isSome) ∧ (∀ e ∈ W.elems A.mesh, (A.cochain.bind fun l => l.lookup e).isSome) ∧
      R.cls = A.cls ∧ R.mesh = A.mesh ∧ R.space = A.space ∧ R.hybrid = A.hybrid ∧ R.define = none ∧
      ∃ l, R.cochain = some l ∧ l.map Prod.fst = W.elems A.mesh ∧ ∀ p ∈ l, p.2.length = W.nb A.cls A.space A.hybrid := by
  let f : Nat → Option (List K) := fun e => (A.cochain.bind fun l => l.lookup e).map fun x => x.map (c * ·)
  have hform : (fun e => (A.cochain.bind fun l => l.lookup e).map fun x => (e, x.map (c * ·))) = fun e => (f e).map fun z => (e, z) := by
    funext e
    simp only [f]
    cases A.cochain.bind fun l => l.lookup e <;> rfl
  have key : ∃ nm, (W.three = true → A.cochain.isSome) ∧ (((W.elems A.mesh).mapM fun e => (f e).map fun z => (e, z)).bind
      (setLocal W (fresh A nm))) = some R := by
    unfold rmul at h
    rw [← hform]
    by_cases h3 : W.three = true
    · rw [if_pos h3] at h
      cases ha : A.cochain with
      | none => simp [ha] at h
      | some a =>
        simp only [ha, Option.bind_some] at h
        exact ⟨_, fun _ => rfl, h⟩
    · rw [if_neg h3] at h
      exact ⟨_, fun h => absurd h h3, h⟩
  obtain ⟨nm, h1, h2⟩ := key
  cases hr : (W.elems A.mesh).mapM (fun e => (f e).map fun z => (e, z)) with
  | none => simp [hr] at h2
  | some r =>
    simp only [hr, Option.bind_some] at h2
    obtain ⟨rfl, hl⟩ := setLocal_some h2
    refine ⟨h1, fun e he => ?_, rfl, rfl, rfl, rfl, rfl, r, rfl, mapM_fst hr, hl⟩
    obtain ⟨z, _, hz⟩ := (mapM_mem hr).1 e he
    cases hx : A.cochain.bind fun l => l.lookup e with
    | none =>
      have hfe : f e = none := by simp only [f]; rw [hx]; rfl
      rw [hfe] at hz; simp at hz
    | some x => rfl

/-- **C104, what is refused.** If an expression has a value, all its forms have one class, mesh and space; and if there is an
operation, every form in it has coefficients for all elements of this core, and the coefficients of the result are just those of
the elements of the mesh, in the number belonging to the result. -/
theorem c104_accepted (W : World) (env : Nat → Obj K) : ∀ (e : Expr K) (R : Obj K), eval W env e = some R →
    (∀ i ∈ atoms e, (env i).cls = R.cls ∧ (env i).mesh = R.mesh ∧ (env i).space = R.space) ∧ (isOp e →
      (∀ i ∈ atoms e, ∀ el ∈ W.elems R.mesh, ((env i).cochain.bind fun l => l.lookup el).isSome) ∧ R.define = none ∧
      ∃ l, R.cochain = some l ∧ l.map Prod.fst = W.elems R.mesh ∧ ∀ p ∈ l, p.2.length = W.nb R.cls R.space R.hybrid) := by
  have bin : ∀ (op : K → K → K) (sym : String) (a b : Expr K) (A B R : Obj K),
      (∀ R : Obj K, eval W env a = some R → (∀ i ∈ atoms a, (env i).cls = R.cls ∧ (env i).mesh = R.mesh ∧ (env i).space = R.space) ∧ (isOp a →
        (∀ i ∈ atoms a, ∀ el ∈ W.elems R.mesh, ((env i).cochain.bind fun l => l.lookup el).isSome) ∧ R.define = none ∧
        ∃ l, R.cochain = some l ∧ l.map Prod.fst = W.elems R.mesh ∧ ∀ p ∈ l, p.2.length = W.nb R.cls R.space R.hybrid)) →
      (∀ R : Obj K, eval W env b = some R → (∀ i ∈ atoms b, (env i).cls = R.cls ∧ (env i).mesh = R.mesh ∧ (env i).space = R.space) ∧ (isOp b →
        (∀ i ∈ atoms b, ∀ el ∈ W.elems R.mesh, ((env i).cochain.bind fun l => l.lookup el).isSome) ∧ R.define = none ∧
        ∃ l, R.cochain = some l ∧ l.map Prod.fst = W.elems R.mesh ∧ ∀ p ∈ l, p.2.length = W.nb R.cls R.space R.hybrid)) →
      eval W env a = some A → eval W env b = some B → binop W op sym A B = some R →
      (∀ i ∈ atoms a ++ atoms b, (env i).cls = R.cls ∧ (env i).mesh = R.mesh ∧ (env i).space = R.space) ∧
      ((∀ i ∈ atoms a ++ atoms b, ∀ el ∈ W.elems R.mesh, ((env i).cochain.bind fun l => l.lookup el).isSome) ∧ R.define = none ∧
        ∃ l, R.cochain = some l ∧ l.map Prod.fst = W.elems R.mesh ∧ ∀ p ∈ l, p.2.length = W.nb R.cls R.space R.hybrid) := by
    intro op sym a b A B R iha ihb hA hB h
    obtain ⟨h1, h2, h3, h4, h5, h6, r1, r2, r3, r4, r5, l, hl, hk, hn⟩ := binop_some h
    obtain ⟨a1, a2⟩ := iha A hA
    obtain ⟨b1, b2⟩ := ihb B hB
    refine ⟨fun i hi => ?_, fun i hi el hel => ?_, r5, l, hl, by rw [r2]; exact hk, by rw [r1, r3, r4]; exact hn⟩
    · rcases List.mem_append.1 hi with hi | hi
      · rw [r1, r2, r3]; exact a1 i hi
      · rw [r1, r2, r3, ← h1, ← h2, ← h3]; exact b1 i hi
    · rw [r2] at hel
      rcases List.mem_append.1 hi with hi | hi
      · by_cases ho : isOp a
        · exact (a2 ho).1 i hi el hel
        · cases a with
          | form i' =>
            simp [eval, atoms] at hA hi
            subst hi hA
            exact (h6 el hel).1
          | add | sub | mul => exact absurd trivial ho
      · by_cases ho : isOp b
        · exact (b2 ho).1 i hi el (by rw [h2]; exact hel)
        · cases b with
          | form i' =>
            simp [eval, atoms] at hB hi
            subst hi hB
            exact (h6 el hel).2
          | add | sub | mul => exact absurd trivial ho
  intro e
  induction e with
  | form i =>
    intro R h
    simp only [eval, Option.some.injEq] at h
    subst h
    exact ⟨fun j hj => by simp [atoms] at hj; subst hj; exact ⟨rfl, rfl, rfl⟩, fun h => h.elim⟩
  | add a b iha ihb =>
    intro R h
    cases hA : eval W env a with
    | none => simp [eval, hA] at h
    | some A =>
      cases hB : eval W env b with
      | none => simp [eval, hA, hB] at h
      | some B =>
        simp only [eval, hA, hB, Option.bind_some, FormOps.add] at h
        obtain ⟨h1, h2⟩ := bin _ _ a b A B R iha ihb hA hB h
        exact ⟨h1, fun _ => h2⟩
  | sub a b iha ihb =>
    intro R h
    cases hA : eval W env a with
    | none => simp [eval, hA] at h
    | some A =>
      cases hB : eval W env b with
      | none => simp [eval, hA, hB] at h
      | some B =>
        simp only [eval, hA, hB, Option.bind_some, FormOps.sub] at h
        split at h
        · obtain ⟨h1, h2⟩ := bin _ _ a b A B R iha ihb hA hB h
          exact ⟨h1, fun _ => h2⟩
        · simp at h
  | mul t c a iha =>
    intro R h
    cases hA : eval W env a with
    | none => simp [eval, hA] at h
    | some A =>
      simp only [eval, hA, Option.bind_some] at h
      obtain ⟨_, h2, r1, r2, r3, r4, r5, l, hl, hk, hn⟩ := rmul_some h
      obtain ⟨a1, a2⟩ := iha A hA
      refine ⟨fun i hi => by rw [r1, r2, r3]; exact a1 i hi, fun _ => ⟨fun i hi el hel => ?_, r5, l, hl, by rw [r2]; exact hk,
        by rw [r1, r3, r4]; exact hn⟩⟩
      rw [r2] at hel
      by_cases ho : isOp a
      · exact (a2 ho).1 i hi el hel
      · cases a with
        | form i' =>
          simp [eval, atoms] at hA hi
          subst hi hA
          exact h2 el hel
        | add | sub | mul => exact absurd trivial ho

/-- **C104, no differences in 2D and no negatives.** -/
theorem c104_no_difference (W : World) (env : Nat → Obj K) (h2 : W.three = false) : ∀ e : Expr K, ¬ noSub e → eval W env e = none := by
  intro e
  induction e with
  | form i => intro h; exact absurd trivial h
  | add a b iha ihb =>
    intro h
    by_cases ha : noSub a
    · have hb : ¬ noSub b := fun hb => h ⟨ha, hb⟩
      cases hA : eval W env a <;> simp [eval, hA, ihb hb]
    · simp [eval, iha ha]
  | sub a b _ _ =>
    intro _
    cases hA : eval W env a with
    | none => simp [eval, hA]
    | some A => cases hB : eval W env b <;> simp [eval, hA, hB, FormOps.sub, h2]
  | mul t c a iha => intro h; simp [eval, iha h]

/-- a linear functional of the coefficients in one element: a value of the reconstruction at a point, an integral, ... -/
def functional (n : Nat) (w : Nat → K) (x : Nat → K) : K := ∑ j : Fin n, w j * x j

theorem val_functional (n : Nat) (w : Nat → K) (x : Nat → Nat → K) : ∀ e : Expr K,
    functional n w (fun j => val (fun i => x i j) e) = val (fun i => functional n w (x i)) e
  | .form i => rfl
  | .add a b => by
    have ha := val_functional n w x a
    have hb := val_functional n w x b
    simp only [functional, val] at ha hb ⊢
    rw [← ha, ← hb, ← Finset.sum_add_distrib]
    exact Finset.sum_congr rfl fun j _ => by ring
  | .sub a b => by
    have ha := val_functional n w x a
    have hb := val_functional n w x b
    simp only [functional, val] at ha hb ⊢
    rw [← ha, ← hb, ← Finset.sum_sub_distrib]
    exact Finset.sum_congr rfl fun j _ => by ring
  | .mul _ c a => by
    have ha := val_functional n w x a
    simp only [functional, val] at ha ⊢
    rw [← ha, Finset.mul_sum]
    exact Finset.sum_congr rfl fun j _ => by ring

/-- **C104, linear functionals.** Whatever is a weighted sum of the coefficients in an element (a component of the reconstruction at
a point, a coefficient of the exterior derivative, an integral) takes on the result the value of the expression. -/
theorem c104_linear (W : World) (env : Nat → Obj K) (cls : String) (mesh space n : Nat) (e : Expr K) (h : Fit W env e cls mesh space n)
    (hs : W.three = true ∨ noSub e) (w : Nat → K) :
    ∃ R, eval W env e = some R ∧ ∀ el ∈ W.elems mesh,
      functional n w (coef R el) = val (fun i => functional n w (coef (env i) el)) e := by
  obtain ⟨R, hR, _, _, _, _, _, _, _, _, _, hc⟩ := c104_value W env cls mesh space n e h hs
  refine ⟨R, hR, fun el hel => ?_⟩
  rw [← val_functional n w (fun i j => coef (env i) el j) e]
  exact Finset.sum_congr rfl fun j _ => by rw [hc el hel j j.2]

/-- the coefficients on this core come from values at the dofs: elements sharing a dof agree. -/
def Single (g : LocalGM) (A : Obj K) (c : Nat → K) : Prop :=
  ∀ p ∈ g, (A.cochain.bind fun l => l.lookup p.1) = some (p.2.map c)

/-- **C104, dof-wise values.** If the coefficients of all forms come from values at dofs (of one gathering matrix with the elements
of the core), so do those of the result, and its values at the dofs are the expression of the values. -/
theorem c104_single (W : World) (env : Nat → Obj K) (cls : String) (mesh space n : Nat) (e : Expr K) (h : Fit W env e cls mesh space n)
    (hs : W.three = true ∨ noSub e) (g : LocalGM) (hg : ∀ p ∈ g, p.1 ∈ W.elems mesh) (c : Nat → Nat → K)
    (hc : ∀ i ∈ atoms e, Single g (env i) (c i)) :
    ∃ R, eval W env e = some R ∧ Single g R fun d => val (fun i => c i d) e := by
  obtain ⟨R, hR, _, hm, _, _, _, _, _, _, ⟨l, hl, hln⟩, hv⟩ := c104_value W env cls mesh space n e h hs
  refine ⟨R, hR, fun p hp => ?_⟩
  obtain ⟨v, hlv, hvn⟩ := hln p.1 (by rw [hm]; exact hg p hp)
  have hpn : p.2.length = n := by
    obtain ⟨_, hm', _, _, la, hla, hlan⟩ := h (first e) (first_mem e)
    obtain ⟨x, hx, hxn⟩ := hlan p.1 (by rw [hm']; exact hg p hp)
    have := hc (first e) (first_mem e) p hp
    rw [hla, Option.bind_some, hx, Option.some.injEq] at this
    rw [← hxn, this, List.length_map]
  rw [hl, Option.bind_some, hlv]
  congr 1
  apply List.ext_getElem
  · simp [hvn, hpn]
  · intro j h1 h2
    have hj : j < n := by omega
    have h3 : coef R p.1 j = v[j] := by simp [coef, hl, hlv, h1]
    rw [← h3, hv p.1 (hg p hp) j hj, List.getElem_map]
    have : ∀ e' : Expr K, (∀ i ∈ atoms e', i ∈ atoms e) →
        val (fun i => coef (env i) p.1 j) e' = val (fun i => c i (p.2[j]'(by omega))) e' := by
      intro e'
      induction e' with
      | form i =>
        intro hi
        have := hc i (hi i (by simp [atoms])) p hp
        simp only [val, coef, this, Option.bind_some]
        simp [show j < p.2.length by omega]
      | add a b ha hb => intro hi; simp [val, ha fun i h => hi i (by simp [atoms, h]), hb fun i h => hi i (by simp [atoms, h])]
      | sub a b ha hb => intro hi; simp [val, ha fun i h => hi i (by simp [atoms, h]), hb fun i h => hi i (by simp [atoms, h])]
      | mul t c' a ha => intro hi; simp [val, ha fun i h => hi i (by simpa [atoms] using h)]
    exact this e fun _ h => h

/-- **C104 fails: saving.** The result of an operation cannot be written to a file. -/
theorem c104_save_fails (W : World) (env : Nat → Obj K) (e : Expr K) (ho : isOp e) (R : Obj K) (h : eval W env e = some R) :
    save R = none := by
  unfold save
  rw [((c104_accepted W env e R h).2 ho).2.1]; rfl

/-- **C104, forms of the factory can be saved and read.** -/
theorem c104_save (W : World) (cls : String) (mesh space : Nat) (kw : Kwargs) (l : Local K) (A : Obj K)
    (h : setLocal W (create cls mesh space kw) l = some A) : ∃ f, save A = some f ∧ read W f = some A := by
  obtain ⟨rfl, hl⟩ := setLocal_some h
  exact ⟨_, rfl, setLocal_ok hl⟩

end Mifem.Props.Ops104
