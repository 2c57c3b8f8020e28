import Verif.Model.ValueCache
import Mathlib.Tactic.SplitIfs
import Mathlib.Data.List.Basic

/-!
# C112: values of the coordinate transformation of all mesh elements

Specification: `obj[i]` is what element `i` of the mesh of the object gives itself at the coordinates of the object.
-/

namespace Mifem.Props.Values112
open Mifem.ValueCache

variable {V : Type}

/-- Elements of a mesh that share a mark have the same values of all quantities made from the Jacobian matrix (see C58). -/
def marksRight (m : Mesh V) : Prop :=
  ∀ (c : CTT) (i j coord : ℕ) (s : String), (∀ k, c ≠ .place k) → m.mark i = .shared s → m.mark j = .shared s →
    m.own c i coord = m.own c j coord

/-- What is stored is right for all elements with the mark. -/
def cachesRight (objs : List (Obj V)) (cs : Caches V) : Prop :=
  ∀ id o, objs[id]? = some o → ∀ s v, (cs id).lookup s = some v → ∀ i, o.mesh.mark i = .shared s → (∀ k, o.ctt ≠ .place k) →
    v = o.mesh.own o.ctt i o.coord

theorem store_right (objs : List (Obj V)) (cs : Caches V) (h : cachesRight objs cs) (factor id i : ℕ) (o : Obj V)
    (ho : objs[id]? = some o) (hm : marksRight o.mesh) (s : String) (hs : o.mesh.mark i = .shared s) :
    cachesRight objs (store factor o.mesh s (o.mesh.own o.ctt i o.coord) id cs) := by
  unfold store
  split_ifs with hf
  swap
  · exact h
  intro id' o' ho' s' v hv i' hi' hp
  dsimp only at hv
  by_cases hid : id' = id
  · subst hid
    rw [ho] at ho'
    cases ho'
    rw [if_pos rfl, List.lookup_cons] at hv
    by_cases hss : s' = s
    · subst hss
      simp only [beq_self_eq_true] at hv
      cases hv
      exact hm o.ctt i i' o.coord s' hp hs hi'
    · have : (s' == s) = false := by simpa using hss
      rw [this] at hv
      exact h id' o ho s' v hv i' hi' hp
  · rw [if_neg hid] at hv
    exact h id' o' ho' s' v hv i' hi' hp

theorem read_right (derive : CTT → V → V) (factor : ℕ) (objs : List (Obj V)) (hm : ∀ o ∈ objs, marksRight o.mesh) (i : ℕ) :
    ∀ (id : ℕ) (cs : Caches V) (o : Obj V) (v : V) (cs' : Caches V), cachesRight objs cs → objs[id]? = some o →
      ValueCache.read derive factor objs id i cs = some (v, cs') → v = o.mesh.own o.ctt i o.coord ∧ cachesRight objs cs' := by
  intro id
  induction id using Nat.strongRecOn with
  | ind id ih =>
    intro cs o v cs' hc ho hr
    have hmo : marksRight o.mesh := hm o (List.mem_of_getElem? ho)
    unfold ValueCache.read at hr
    rw [ho] at hr
    dsimp only at hr
    split_ifs at hr with hhas
    have keep : ∀ (w : V), (∀ k, o.ctt ≠ .place k) → ∀ s, o.mesh.mark i = .shared s → (cs id).lookup s = some w →
        w = o.mesh.own o.ctt i o.coord := fun w hp s hs hl => hc id o ho s w hl i hs hp
    split at hr
    · cases hr
      exact ⟨rfl, hc⟩
    · cases hr
      exact ⟨rfl, hc⟩
    · rename_i k s hct hmk
      have hp : ∀ k', o.ctt ≠ .place k' := by rw [hct]; intro k' h; cases h
      split at hr
      · rename_i w hl
        cases hr
        exact ⟨keep _ hp s hmk hl, hc⟩
      · cases hr
        exact ⟨rfl, store_right objs cs hc factor id i o ho hmo s hmk⟩
    · split at hr
      · cases hr
        exact ⟨rfl, hc⟩
      · rename_i j _
        split_ifs at hr with hj
        cases hrd : ValueCache.read derive factor objs j i cs with
        | none => rw [hrd] at hr; cases hr
        | some p =>
          obtain ⟨w, cs1⟩ := p
          rw [hrd] at hr
          cases hr
          cases hoj : objs[j]? with
          | none => unfold ValueCache.read at hrd; rw [hoj] at hrd; cases hrd
          | some oj => exact ⟨rfl, (ih j hj cs oj w _ hc hoj hrd).2⟩
    · rename_i s hmk hct1 hct2
      have hp : ∀ k', o.ctt ≠ .place k' := fun k' h => hct1 k' h
      split at hr
      · rename_i w hl
        cases hr
        exact ⟨keep _ hp s hmk hl, hc⟩
      · split at hr
        · cases hr
          exact ⟨rfl, store_right objs cs hc factor id i o ho hmo s hmk⟩
        · rename_i j _
          split_ifs at hr with hj
          cases hrd : ValueCache.read derive factor objs j i cs with
          | none => rw [hrd] at hr; cases hr
          | some p =>
            obtain ⟨w, cs1⟩ := p
            rw [hrd] at hr
            cases hr
            cases hoj : objs[j]? with
            | none => unfold ValueCache.read at hrd; rw [hoj] at hrd; cases hrd
            | some oj => exact ⟨rfl, store_right objs cs1 (ih j hj cs oj w _ hc hoj hrd).2 factor id i o ho hmo s hmk⟩

theorem store_outside (factor : ℕ) (m : Mesh V) (s : String) (v : V) (id k : ℕ) (cs : Caches V) (h : k ≠ id) :
    store factor m s v id cs k = cs k := by
  unfold store
  split_ifs
  · exact if_neg h
  · rfl

theorem read_outside (derive : CTT → V → V) (factor : ℕ) (objs : List (Obj V)) (i k : ℕ) (hk : objs.length ≤ k) :
    ∀ (id : ℕ) (cs : Caches V) (v : V) (cs' : Caches V), cs k = [] →
      ValueCache.read derive factor objs id i cs = some (v, cs') → cs' k = [] := by
  intro id
  induction id using Nat.strongRecOn with
  | ind id ih =>
    intro cs v cs' hc hr
    unfold ValueCache.read at hr
    cases ho : objs[id]? with
    | none => rw [ho] at hr; cases hr
    | some o =>
    have hid : k ≠ id := by
      have := (List.getElem?_eq_some_iff.mp ho).1
      omega
    rw [ho] at hr
    dsimp only at hr
    split_ifs at hr with hhas
    split at hr
    · cases hr; exact hc
    · cases hr; exact hc
    · split at hr
      · cases hr; exact hc
      · cases hr; rw [store_outside _ _ _ _ _ _ _ hid]; exact hc
    · split at hr
      · cases hr; exact hc
      · rename_i j _
        split_ifs at hr with hj
        cases hrd : ValueCache.read derive factor objs j i cs with
        | none => rw [hrd] at hr; cases hr
        | some p => rw [hrd] at hr; cases hr; exact ih j hj cs p.1 p.2 hc hrd
    · split at hr
      · cases hr; exact hc
      · split at hr
        · cases hr; rw [store_outside _ _ _ _ _ _ _ hid]; exact hc
        · rename_i j _
          split_ifs at hr with hj
          cases hrd : ValueCache.read derive factor objs j i cs with
          | none => rw [hrd] at hr; cases hr
          | some p =>
            rw [hrd] at hr
            cases hr
            rw [store_outside _ _ _ _ _ _ _ hid]
            exact ih j hj cs p.1 p.2 hc hrd

theorem make_objs (objs : List (Obj V)) (o : Obj V) (objs' : List (Obj V)) (h : make objs o = some objs') : objs' = objs ++ [o] := by
  unfold make at h
  split at h
  · cases h; rfl
  · split at h
    · cases h
    · split_ifs at h
      cases h; rfl

/-- The meshes of the objects of a program. -/
def stepsRight (l : List (Step V)) : Prop := ∀ o, Step.new o ∈ l → marksRight o.mesh

theorem run_right (derive : CTT → V → V) (factor : ℕ) : ∀ (l : List (Step V)) (objs : List (Obj V)) (cs : Caches V)
    (out : List (Obj V × ℕ × V)), stepsRight l → (∀ o ∈ objs, marksRight o.mesh) → cachesRight objs cs →
    (∀ id, objs.length ≤ id → cs id = []) → run derive factor l objs cs = some out →
    ∀ o i v, (o, i, v) ∈ out → v = o.mesh.own o.ctt i o.coord
  | [], _, _, _, _, _, _, _, h => by
    cases h
    intro o i v hm
    cases hm
  | .new o :: l, objs, cs, out, hl, hm, hc, hz, h => by
    unfold run at h
    cases hmk : make objs o with
    | none => rw [hmk] at h; cases h
    | some objs' =>
      rw [hmk] at h
      have he := make_objs objs o objs' hmk
      subst he
      refine run_right derive factor l (objs ++ [o]) cs out (fun o' ho' => hl o' (List.mem_cons_of_mem _ ho')) ?_ ?_ ?_ h
      · intro o' ho'
        rcases List.mem_append.mp ho' with h1 | h1
        · exact hm o' h1
        · cases List.mem_singleton.mp h1
          exact hl o (List.mem_cons_self ..)
      · intro id o' ho' s v hv
        by_cases hid : id < objs.length
        · rw [List.getElem?_append_left hid] at ho'
          exact hc id o' ho' s v hv
        · rw [hz id (by omega)] at hv
          cases hv
      · intro id hid
        rw [List.length_append] at hid
        exact hz id (by omega)
  | .get id i :: l, objs, cs, out, hl, hm, hc, hz, h => by
    unfold run at h
    cases ho : objs[id]? with
    | none => rw [ho] at h; cases h
    | some o =>
      cases hr : ValueCache.read derive factor objs id i cs with
      | none => rw [ho, hr] at h; cases h
      | some p =>
        obtain ⟨v, cs'⟩ := p
        rw [ho, hr] at h
        dsimp only at h
        cases hrn : run derive factor l objs cs' with
        | none => rw [hrn] at h; cases h
        | some r =>
          rw [hrn] at h
          cases h
          have hv := read_right derive factor objs hm i id cs o v cs' hc ho hr
          intro o' i' v' hmem
          rcases List.mem_cons.mp hmem with h1 | h1
          · cases h1
            exact hv.1
          · refine run_right derive factor l objs cs' r (fun o' ho' => hl o' (List.mem_cons_of_mem _ ho')) hm hv.2 ?_ hrn o' i' v' h1
            intro k hk
            exact read_outside derive factor objs i k hk id cs v cs' (hz k hk) hr

/-- **C112 (values).**  Whatever objects are made, with whatever intermediate objects, and in whatever order elements are asked for:
each value that is given is the value of the element itself. -/
theorem c112_values (derive : CTT → V → V) (factor : ℕ) (l : List (Step V)) (out : List (Obj V × ℕ × V)) (hl : stepsRight l)
    (h : run derive factor l [] (fun _ => []) = some out) : ∀ o i v, (o, i, v) ∈ out → v = o.mesh.own o.ctt i o.coord :=
  run_right derive factor l [] (fun _ => []) out hl (fun _ h => by cases h) (fun id o ho => by simp at ho) (fun _ _ => rfl) h

/-- Which quantity may be made from which. -/
def table : List (CTT × CTT) :=
  [(.Jacobian, .jac 0), (.metric, .Jacobian), (.metricMatrix, .jac 0), (.invJacobianMatrix, .jac 0), (.invJacobian, .invJacobianMatrix),
   (.invMetricMatrix, .invJacobianMatrix)]

/-- An intermediate object is an earlier one at the same coordinates with a quantity of the table. -/
def interRight (objs : List (Obj V)) (o : Obj V) : Prop :=
  ∀ j, o.inter = some j → ∃ q, objs[j]? = some q ∧ q.coord = o.coord ∧ (o.ctt, q.ctt) ∈ table

theorem source_table (c d : CTT) : source c = some d ↔ (c, d) ∈ table := by
  cases c <;> simp [source, table, eq_comm]

/-- **C112 (intermediate objects).**  An object is made exactly if its intermediate object, if it has one, is right. -/
theorem c112_made (objs : List (Obj V)) (o : Obj V) : make objs o = some (objs ++ [o]) ↔ interRight objs o := by
  unfold make interRight
  cases hi : o.inter with
  | none => simp
  | some j =>
    dsimp only
    cases hq : objs[j]? with
    | none =>
      constructor
      · intro h; cases h
      · intro h
        obtain ⟨q, h1, -⟩ := h j rfl
        rw [hq] at h1
        cases h1
    | some q =>
      dsimp only
      constructor
      · intro h k hk
        cases hk
        split_ifs at h with hc
        exact ⟨q, hq, hc.1, (source_table _ _).mp hc.2⟩
      · intro h
        obtain ⟨q', h1, h2⟩ := h j rfl
        rw [hq] at h1
        cases h1
        rw [if_pos ⟨h2.1, (source_table _ _).mpr h2.2⟩]

theorem read_given (derive : CTT → V → V) (factor : ℕ) (objs : List (Obj V)) (i : ℕ)
    (hw : ∀ (id : ℕ) (o : Obj V) (j : ℕ), objs[id]? = some o → o.inter = some j → j < id) (hi : ∀ o ∈ objs, o.mesh.has i = true) :
    ∀ (id : ℕ) (cs : Caches V), id < objs.length → ∃ v cs', ValueCache.read derive factor objs id i cs = some (v, cs') := by
  intro id
  induction id using Nat.strongRecOn with
  | ind id ih =>
    intro cs hlt
    have ho : objs[id]? = some objs[id] := List.getElem?_eq_getElem hlt
    generalize objs[id] = o at ho
    unfold ValueCache.read
    rw [ho]
    dsimp only
    rw [if_neg (by rw [hi o (List.mem_of_getElem? ho)]; exact Bool.noConfusion)]
    split
    · exact ⟨_, _, rfl⟩
    · exact ⟨_, _, rfl⟩
    · split
      · exact ⟨_, _, rfl⟩
      · exact ⟨_, _, rfl⟩
    · split
      · exact ⟨_, _, rfl⟩
      · rename_i j hj
        have hji := hw id o j ho hj
        rw [dif_pos hji]
        obtain ⟨w, cs1, h1⟩ := ih j hji cs (by omega)
        rw [h1]
        exact ⟨_, _, rfl⟩
    · split
      · exact ⟨_, _, rfl⟩
      · split
        · exact ⟨_, _, rfl⟩
        · rename_i j hj
          have hji := hw id o j ho hj
          rw [dif_pos hji]
          obtain ⟨w, cs1, h1⟩ := ih j hji cs (by omega)
          rw [h1]
          exact ⟨_, _, rfl⟩

/-- A program that makes right objects, and asks objects that there are for elements that all meshes have. -/
def legal : List (Step V) → List (Obj V) → Prop
  | [], _ => True
  | .new o :: l, objs => interRight objs o ∧ legal l (objs ++ [o])
  | .get id i :: l, objs => (id < objs.length ∧ ∀ o ∈ objs, o.mesh.has i = true) ∧ legal l objs

/-- What a program asks for: object by object. -/
def asked : List (Step V) → List (Obj V) → List (Option (Obj V) × ℕ)
  | [], _ => []
  | .new o :: l, objs => asked l (objs ++ [o])
  | .get id i :: l, objs => (objs[id]?, i) :: asked l objs

theorem run_given (derive : CTT → V → V) (factor : ℕ) : ∀ (l : List (Step V)) (objs : List (Obj V)) (cs : Caches V), legal l objs →
    (∀ (id : ℕ) (o : Obj V) (j : ℕ), objs[id]? = some o → o.inter = some j → j < id) →
    ∃ out, run derive factor l objs cs = some out ∧ out.map (fun p => (some p.1, p.2.1)) = asked l objs
  | [], _, _, _, _ => ⟨[], rfl, rfl⟩
  | .new o :: l, objs, cs, h, hw => by
    obtain ⟨h1, h2⟩ := h
    unfold run
    rw [(c112_made objs o).mpr h1]
    refine run_given derive factor l (objs ++ [o]) cs h2 ?_
    intro id o' j ho' hj
    by_cases hid : id < objs.length
    · rw [List.getElem?_append_left hid] at ho'
      exact hw id o' j ho' hj
    · rw [List.getElem?_append_right (by omega)] at ho'
      have hm := List.mem_of_getElem? ho'
      cases List.mem_singleton.mp hm
      obtain ⟨q, hq, -⟩ := h1 j hj
      have := (List.getElem?_eq_some_iff.mp hq).1
      omega
  | .get id i :: l, objs, cs, h, hw => by
    obtain ⟨⟨h1, h2⟩, h3⟩ := h
    obtain ⟨v, cs', hr⟩ := read_given derive factor objs i hw h2 id cs h1
    obtain ⟨out, hout, hask⟩ := run_given derive factor l objs cs' h3 hw
    have ho : objs[id]? = some objs[id] := List.getElem?_eq_getElem h1
    refine ⟨(objs[id], i, v) :: out, ?_, ?_⟩
    · unfold run
      rw [ho, hr]
      dsimp only
      rw [hout]
      rfl
    · unfold asked
      rw [List.map_cons, hask, ho]

/-- **C112 (all values are given).**  A program that asks for elements that the meshes have gets a value for everything it asks for. -/
theorem c112_given (derive : CTT → V → V) (factor : ℕ) (l : List (Step V)) (h : legal l []) :
    ∃ out, run derive factor l [] (fun _ => []) = some out ∧ out.map (fun p => (some p.1, p.2.1)) = asked l [] :=
  run_given derive factor l [] _ h (by intro id o j ho; simp at ho)

/-! A mesh of four elements, of which 0 and 1 share a mark; a value is the quantity, the class and the coordinates. -/

def small : Mesh (ℕ × ℕ) where
  has i := decide (i < 4)
  mark i := if i < 2 then .shared "Orth.1" else .own i
  multi s := if s = "Orth.1" then 2 else 0
  own c i p := ((match c with | .place _ => 100 | .jac k => k | .Jacobian => 50 | .metric => 51 | _ => 52) + p,
    match c with | .place _ => i | _ => if i < 2 then 0 else i)

def prog : List (Step (ℕ × ℕ)) :=
  [.new ⟨small, .jac 0, 7, none⟩, .new ⟨small, .Jacobian, 7, some 0⟩, .get 1 1, .get 1 0, .get 0 0, .new ⟨small, .place 0, 7, none⟩,
   .get 2 0, .get 2 1, .get 1 3, .get 0 3]

theorem small_right : marksRight small := by
  intro c i j p s hc hi hj
  have hlt : ∀ k, small.mark k = .shared s → k < 2 := by
    intro k hk
    by_contra hn
    simp only [small, if_neg hn] at hk
    cases hk
  have h1 := hlt i hi
  have h2 := hlt j hj
  cases c with
  | place k => exact absurd rfl (hc k)
  | _ => simp only [small, if_pos h1, if_pos h2]

example : stepsRight prog := by
  intro o ho
  have : o.mesh = small := by
    simp only [prog, List.mem_cons, Step.new.injEq, List.not_mem_nil, or_false, reduceCtorEq, false_or] at ho
    rcases ho with h | h | h <;> rw [h]
  rw [this]
  exact small_right

example : legal prog [] := by
  simp [legal, prog, interRight, table, small]

example : (run (fun _ v => v) 2 prog [] (fun _ => [])).map (fun l => l.map (·.2)) =
    some [(1, (57, 0)), (0, (57, 0)), (0, (7, 0)), (0, (107, 0)), (1, (107, 1)), (3, (57, 3)), (3, (7, 3))] := by
  decide +kernel

end Mifem.Props.Values112
