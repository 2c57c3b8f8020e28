import Verif.Model.HybridPairing
import Verif.Props.TraceNum
import Verif.Props.Trace
import Verif.Props.Hybrid
import Mathlib.Tactic.IntervalCases
import Mathlib.Algebra.Field.Rat

/-!
# C91: the equations of the hybrid pairing
-/

namespace Mifem.Props
open Mifem Mifem.Three Mifem.HybridPair Finset

variable {α : Type*}

/-! ## dictionaries -/

theorem lookup_cons_if (a : Nat) (l : List α) (d : Dict α) (e : Nat) :
    List.lookup e ((a, l) :: d) = if e = a then some l else d.lookup e := by
  rw [List.lookup_cons]
  by_cases h : e = a
  · subst h; simp
  · have : (e == a) = false := by simpa using h
    simp [this, h]

theorem extend_cons (a : Nat) (l : List α) (d : Dict α) (e : Nat) (x : List α) (h : a ≠ e) :
    extend ((a, l) :: d) e x = (a, l) :: extend d e x := by
  have : (a == e) = false := by simpa using h
  unfold extend
  simp only [List.any_cons, this, Bool.false_or, List.map_cons]
  split <;> simp

theorem map_lookup (e : Nat) (x : List α) (e' : Nat) (h : e' ≠ e) (d : Dict α) :
    (d.map fun p => if p.1 == e then (p.1, p.2 ++ x) else p).lookup e' = d.lookup e' := by
  induction d with
  | nil => rfl
  | cons p d ih =>
    obtain ⟨a, l⟩ := p
    rw [List.map_cons]
    by_cases ha : a = e
    · subst ha
      simp only [beq_self_eq_true, if_true]
      rw [lookup_cons_if, lookup_cons_if, ih]
      simp [h]
    · have : (a == e) = false := by simpa using ha
      simp only [this]
      rw [if_neg (by simp), lookup_cons_if, lookup_cons_if, ih]

theorem extendDict_lookup (d : Dict α) (e : Nat) (x : List α) (e' : Nat) :
    (extend d e x).lookup e' = if e' = e then some ((d.lookup e).getD [] ++ x) else d.lookup e' := by
  induction d with
  | nil =>
    simp only [extend, List.any_nil, Bool.false_eq_true, if_false, List.nil_append]
    rw [lookup_cons_if]
    simp
  | cons p d ih =>
    obtain ⟨a, l⟩ := p
    by_cases ha : a = e
    · subst ha
      have e1 : extend ((a, l) :: d) a x = (a, l ++ x) :: d.map fun p => if p.1 == a then (p.1, p.2 ++ x) else p := by
        simp [extend]
      rw [e1, lookup_cons_if, lookup_cons_if, lookup_cons_if]
      by_cases he : e' = a
      · simp [he]
      · rw [if_neg he, if_neg he, if_neg he, map_lookup a x e' he]
    · rw [extend_cons a l d e x ha, lookup_cons_if, lookup_cons_if, lookup_cons_if, ih]
      have : ¬ e = a := fun h => ha h.symm
      by_cases he : e' = a
      · subst he; simp [ha]
      · simp [he, this]

theorem collect_append (f : Nat → Side → List α) (ps : List (Nat × Side)) (p : Nat × Side) :
    collect f (ps ++ [p]) = extend (collect f ps) p.1 (f p.1 p.2) := by
  simp [collect]

/-- what the dictionary holds for an element: the lists of its parts, one after the other. -/
theorem collect_lookup (f : Nat → Side → List α) (ps : List (Nat × Side)) (e : Nat) :
    (collect f ps).lookup e =
      if e ∈ ps.map Prod.fst then some ((ps.filter fun p => p.1 == e).flatMap fun p => f e p.2) else none := by
  induction ps using List.reverseRecOn with
  | nil => simp [collect]
  | append_singleton ps p ih =>
    rw [collect_append, extendDict_lookup]
    by_cases he : e = p.1
    · subst he
      rw [ih]
      by_cases hm : p.1 ∈ ps.map Prod.fst
      · simp [hm]
      · have : ps.filter (fun q => q.1 == p.1) = [] := by
          rw [List.filter_eq_nil_iff]
          intro q hq hqp
          exact hm (List.mem_map.2 ⟨q, hq, by simpa using hqp⟩)
        simp [hm, this]
    · have hf : (p.1 == e) = false := by simpa using fun h => he h.symm
      have : e ∈ (ps ++ [p]).map Prod.fst ↔ e ∈ ps.map Prod.fst := by
        simp [he]
      rw [if_neg he, ih]
      simp only [this, List.filter_append, List.filter_cons, hf, List.filter_nil, List.append_nil, Bool.false_eq_true, if_false]

theorem extend_keys (d : Dict α) (e : Nat) (x : List α) :
    (extend d e x).map Prod.fst = if e ∈ d.map Prod.fst then d.map Prod.fst else d.map Prod.fst ++ [e] := by
  have : (d.any fun p => p.1 == e) = true ↔ e ∈ d.map Prod.fst := by
    simp [List.any_eq_true, List.mem_map]
  unfold extend
  by_cases h : e ∈ d.map Prod.fst
  · rw [if_pos (this.2 h), if_pos h, List.map_map]
    apply List.map_congr_left
    intro p _
    simp only [Function.comp_apply]
    split <;> rfl
  · rw [if_neg (fun g => h (this.1 g)), if_neg h]
    simp

/-- the elements in the dictionary do not depend on what is collected. -/
theorem collect_keys {β : Type*} (f : Nat → Side → List α) (g : Nat → Side → List β) (ps : List (Nat × Side)) :
    (collect f ps).map Prod.fst = (collect g ps).map Prod.fst := by
  induction ps using List.reverseRecOn with
  | nil => rfl
  | append_singleton ps p ih => rw [collect_append, collect_append, extend_keys, extend_keys, ih]

theorem collect_length {β : Type*} (f : Nat → Side → List α) (g : Nat → Side → List β) (ps : List (Nat × Side)) :
    (collect f ps).length = (collect g ps).length := by
  have := congrArg List.length (collect_keys f g ps)
  simpa using this

theorem collect_keys_nodup (f : Nat → Side → List α) (ps : List (Nat × Side)) : ((collect f ps).map Prod.fst).Nodup := by
  induction ps using List.reverseRecOn with
  | nil => simp [collect]
  | append_singleton ps p ih =>
    rw [collect_append, extend_keys]
    split
    · exact ih
    · rename_i h
      rw [List.nodup_append]
      exact ⟨ih, by simp, by intro a ha b hb; simp at hb; subst hb; intro hab; exact h (hab ▸ ha)⟩

theorem lookup_of_mem {d : Dict α} (hd : (d.map Prod.fst).Nodup) {p : Nat × List α} (hp : p ∈ d) : d.lookup p.1 = some p.2 := by
  induction d with
  | nil => simp at hp
  | cons q d ih =>
    rw [List.map_cons, List.nodup_cons] at hd
    rw [List.lookup_cons]
    rcases List.mem_cons.1 hp with rfl | hp
    · simp
    · have : (p.1 == q.1) = false := by
        simp only [beq_eq_false_iff_ne, ne_eq]
        intro h
        exact hd.1 (h ▸ List.mem_map.2 ⟨p, hp, rfl⟩)
      simp [this, ih hd.2 hp]

theorem zip_flatMap {β γ : Type*} (ps : List γ) (f : γ → List α) (g : γ → List β) (h : ∀ p ∈ ps, (f p).length = (g p).length) :
    (ps.flatMap f).zip (ps.flatMap g) = ps.flatMap fun p => (f p).zip (g p) := by
  induction ps with
  | nil => rfl
  | cons p ps ih =>
    simp only [List.flatMap_cons]
    rw [List.zip_append (h p (by simp)), ih fun q hq => h q (by simp [hq])]

/-! ## rows of a side -/

variable {a b c : Nat}

theorem row_unique {s s' : Side} {k k' : Nat} (hk : k < sideSize a b c s) (hk' : k' < sideSize a b c s')
    (h : Hybrid.offset a b c s + k = Hybrid.offset a b c s' + k') : s = s' ∧ k = k' := by
  cases s <;> cases s' <;> simp only [sideSize, Hybrid.offset] at hk hk' h <;>
    first
    | exact ⟨rfl, by omega⟩
    | (exfalso; omega)

theorem row_exists {r : Nat} (h : r < 2 * (a + b + c)) : ∃ s k, k < sideSize a b c s ∧ r = Hybrid.offset a b c s + k := by
  by_cases h1 : r < a
  · exact ⟨.N, r, h1, by simp [Hybrid.offset]⟩
  by_cases h2 : r < a * 2
  · exact ⟨.S, r - a, by simp only [sideSize]; omega, by simp only [Hybrid.offset]; omega⟩
  by_cases h3 : r < a * 2 + b
  · exact ⟨.W, r - a * 2, by simp only [sideSize]; omega, by simp only [Hybrid.offset]; omega⟩
  by_cases h4 : r < a * 2 + b * 2
  · exact ⟨.E, r - (a * 2 + b), by simp only [sideSize]; omega, by simp only [Hybrid.offset]; omega⟩
  by_cases h5 : r < a * 2 + b * 2 + c
  · exact ⟨.B, r - (a * 2 + b * 2), by simp only [sideSize]; omega, by simp only [Hybrid.offset]; omega⟩
  · exact ⟨.F, r - (a * 2 + b * 2 + c), by simp only [sideSize]; omega, by simp only [Hybrid.offset]; omega⟩

theorem row_lt {s : Side} {k : Nat} (hk : k < sideSize a b c s) : Hybrid.offset a b c s + k < 2 * (a + b + c) := by
  cases s <;> simp only [sideSize, Hybrid.offset] at * <;> omega

theorem mem_rowsOn {s s' : Side} {k : Nat} (hk : k < sideSize a b c s) :
    Hybrid.offset a b c s + k ∈ rowsOn a b c s' ↔ s = s' := by
  constructor
  · intro h
    simp only [rowsOn, List.mem_range'_1] at h
    have := row_unique (a := a) (b := b) (c := c) hk (s' := s') (k' := Hybrid.offset a b c s + k - Hybrid.offset a b c s')
      (by omega) (by omega)
    exact this.1
  · rintro rfl
    simp only [rowsOn, List.mem_range'_1]; omega

/-- the rows in the dictionary. -/
theorem mem_rows {ps : List (Nat × Side)} {e : Nat} {s : Side} {k : Nat} (hk : k < sideSize a b c s) :
    (∃ l, (collect (fun _ s => rowsOn a b c s) ps).lookup e = some l ∧ Hybrid.offset a b c s + k ∈ l) ↔ (e, s) ∈ ps := by
  rw [collect_lookup]
  constructor
  · rintro ⟨l, hl, hm⟩
    split at hl
    · obtain rfl := (Option.some.inj hl)
      obtain ⟨p, hp, hr⟩ := List.mem_flatMap.1 hm
      rw [List.mem_filter] at hp
      have := (mem_rowsOn hk).1 hr
      have h2 : p.1 = e := by simpa using hp.2
      have : p = (e, s) := by rw [← h2, this]
      exact this ▸ hp.1
    · simp at hl
  · intro h
    rw [if_pos (List.mem_map.2 ⟨_, h, rfl⟩)]
    exact ⟨_, rfl, List.mem_flatMap.2 ⟨(e, s), by simp [h], (mem_rowsOn hk).2 rfl⟩⟩

/-- the pairs of a row and what stands beside it. -/
theorem mem_zip_rows {ps : List (Nat × Side)} {e : Nat} {g : Side → List α} {s : Side} {k : Nat} {y : α}
    (hk : k < sideSize a b c s) (hg : ∀ p ∈ ps, p.1 = e → (g p.2).length = sideSize a b c p.2) :
    (Hybrid.offset a b c s + k, y) ∈
      ((ps.filter fun p => p.1 == e).flatMap fun p => rowsOn a b c p.2).zip ((ps.filter fun p => p.1 == e).flatMap fun p => g p.2) ↔
    (e, s) ∈ ps ∧ (g s)[k]? = some y := by
  rw [zip_flatMap]
  · rw [List.mem_flatMap]
    constructor
    · rintro ⟨p, hp, hz⟩
      rw [List.mem_filter] at hp
      have h2 : p.1 = e := by simpa using hp.2
      obtain ⟨i, hi⟩ := List.mem_iff_getElem?.1 hz
      rw [List.getElem?_zip_eq_some] at hi
      obtain ⟨h3, h4⟩ := hi
      have hil : i < sideSize a b c p.2 := by
        have := List.getElem?_eq_some_iff.1 h3
        simpa [rowsOn] using this.1
      have h5 : Hybrid.offset a b c p.2 + i = Hybrid.offset a b c s + k := by
        unfold rowsOn at h3
        rw [List.getElem?_range' hil] at h3
        simpa using h3
      obtain ⟨rfl, rfl⟩ := row_unique hk hil h5.symm
      exact ⟨h2 ▸ hp.1, h4⟩
    · rintro ⟨hm, hy⟩
      refine ⟨(e, s), by simp [hm], List.mem_iff_getElem?.2 ⟨k, ?_⟩⟩
      rw [List.getElem?_zip_eq_some]
      refine ⟨?_, hy⟩
      unfold rowsOn
      rw [List.getElem?_range' hk]
      simp
  · intro p hp
    rw [List.mem_filter] at hp
    rw [hg p hp.1 (by simpa using hp.2)]
    simp [rowsOn]

theorem assign_at {K : Type*} (l : List (Nat × K)) (v : Nat → K) (r : Nat) (y : K) (h : ∀ p ∈ l, p.1 = r → p.2 = y) :
    assign v l r = if r ∈ l.map Prod.fst then y else v r := by
  unfold assign
  induction l generalizing v with
  | nil => simp
  | cons p l ih =>
    rw [List.foldl_cons, ih _ fun q hq => h q (by simp [hq])]
    by_cases h1 : r ∈ l.map Prod.fst
    · simp [h1]
    · rw [if_neg h1]
      by_cases h2 : r = p.1
      · subst h2
        simp [h p (by simp) rfl]
      · rw [if_neg h2, if_neg]
        rw [List.map_cons, List.mem_cons]
        rintro (h3 | h3)
        · exact h2 h3
        · exact h1 h3

section
variable {K : Type*}

theorem clearRows_at [Zero K] (ps : List (Nat × Side)) (M : Nat → Nat → Nat → K) (e : Nat) (s : Side) (k cc : Nat)
    (hk : k < sideSize a b c s) :
    clearRows (collect (fun _ s => rowsOn a b c s) ps) M e (Hybrid.offset a b c s + k) cc =
      if (e, s) ∈ ps then 0 else M e (Hybrid.offset a b c s + k) cc := by
  have h := mem_rows (ps := ps) (e := e) hk
  unfold clearRows
  cases hl : (collect (fun _ s => rowsOn a b c s) ps).lookup e with
  | none =>
    rw [hl] at h
    simp only [reduceCtorEq, false_and, exists_false, false_iff] at h
    simp [h]
  | some l =>
    rw [hl] at h
    simp only [Option.some.injEq, exists_eq_left'] at h
    simp only [h]

theorem identifyRows_at [Zero K] [One K] (ps : List (Nat × Side)) (g : Side → List Nat) (M M' : Nat → Nat → Nat → K)
    (hg : ∀ s, (g s).length = sideSize a b c s)
    (h : identifyRows (collect (fun _ s => rowsOn a b c s) ps) (collect (fun _ s => g s) ps) M = some M')
    (e : Nat) (s : Side) (k cc : Nat) (hk : k < sideSize a b c s) :
    M' e (Hybrid.offset a b c s + k) cc =
      if (e, s) ∈ ps then (if (g s)[k]? = some cc then 1 else 0) else M e (Hybrid.offset a b c s + k) cc := by
  unfold identifyRows at h
  split at h
  · obtain rfl := Option.some.inj h
    have h1 := mem_rows (ps := ps) (e := e) hk
    have h2 := mem_zip_rows (ps := ps) (e := e) (g := g) (y := cc) hk fun p _ _ => hg p.2
    cases hl : (collect (fun _ s => rowsOn a b c s) ps).lookup e with
    | none =>
      rw [hl] at h1
      simp only [reduceCtorEq, false_and, exists_false, false_iff] at h1
      simp [h1, hl]
    | some l =>
      rw [hl] at h1
      simp only [Option.some.injEq, exists_eq_left'] at h1
      have e1 := hl
      rw [collect_lookup] at e1
      split at e1
      · rename_i hm
        obtain rfl := Option.some.inj e1
        simp only [hl]
        rw [collect_lookup (fun _ s => g s), if_pos hm, Option.getD_some]
        simp only [h1, h2]
        by_cases h3 : (e, s) ∈ ps
        · simp [h3]
        · simp [h3]
      · simp at e1
  · simp at h

theorem setEntries_at (ps : List (Nat × Side)) (dv : Dict K) (g : Side → List K) (v v' : Nat → Nat → K) (e : Nat)
    (hg : ∀ p ∈ ps, p.1 = e → (g p.2).length = sideSize a b c p.2)
    (hdv : e ∈ ps.map Prod.fst → dv.lookup e = some ((ps.filter fun p => p.1 == e).flatMap fun p => g p.2))
    (h : setEntries (collect (fun _ s => rowsOn a b c s) ps) dv v = some v')
    (s : Side) (k : Nat) (hk : k < sideSize a b c s) :
    ((e, s) ∈ ps → (g s)[k]? = some (v' e (Hybrid.offset a b c s + k))) ∧
    ((e, s) ∉ ps → v' e (Hybrid.offset a b c s + k) = v e (Hybrid.offset a b c s + k)) := by
  unfold setEntries at h
  split at h
  · obtain rfl := Option.some.inj h
    have h1 := mem_rows (ps := ps) (e := e) hk
    cases hl : (collect (fun _ s => rowsOn a b c s) ps).lookup e with
    | none =>
      rw [hl] at h1
      simp only [reduceCtorEq, false_and, exists_false, false_iff] at h1
      simp [h1, hl]
    | some l =>
      have e1 := hl
      rw [collect_lookup] at e1
      split at e1
      · rename_i hm
        obtain rfl := Option.some.inj e1
        simp only [hl]
        rw [hdv hm, Option.getD_some]
        set z := ((ps.filter fun p => p.1 == e).flatMap fun p => rowsOn a b c p.2).zip
          ((ps.filter fun p => p.1 == e).flatMap fun p => g p.2) with hz
        constructor
        · intro hes
          have hlen := hg (e, s) hes rfl
          have hy : (g s)[k]? = some ((g s)[k]'(by rw [hlen]; exact hk)) := List.getElem?_eq_getElem _
          rw [assign_at z _ _ ((g s)[k]'(by rw [hlen]; exact hk)), if_pos, hy]
          · exact List.mem_map.2 ⟨(_, _), (mem_zip_rows hk hg).2 ⟨hes, hy⟩, rfl⟩
          · rintro ⟨r, y⟩ hp (rfl : r = _)
            have := ((mem_zip_rows hk hg).1 hp).2
            rw [hy] at this
            exact (Option.some.inj this).symm
        · intro hes
          rw [assign_at z _ _ (v e (Hybrid.offset a b c s + k)), if_neg]
          · intro hm2
            obtain ⟨⟨r, y⟩, hp, rfl : r = _⟩ := List.mem_map.1 hm2
            exact hes ((mem_zip_rows hk hg).1 hp).1
          · rintro ⟨r, y⟩ hp (rfl : r = _)
            exact absurd ((mem_zip_rows hk hg).1 hp).1 hes
      · simp at e1
  · simp at h

end

/-! ## Specification -/

section
variable {K : Type*} [CommRing K]

/-- the value the function of the form prescribes for dof number `k` of a side. -/
def Prescribed (dofs : Side → List Nat) (f : FormBC K) (e : Nat) (s : Side) (k : Nat) (y : K) : Prop :=
  match f with
  | .full v => ∃ d, (dofs s)[k]? = some d ∧ y = v e d
  | .sides v => ∃ l, v e s = some l ∧ l[k]? = some y

/-- what the functions give has one value for each dof of a side. -/
structure Fitting (m : Mesh) (a b c : Nat) (dofs : Side → List Nat) (f : FormBC K) (x : Nat → Option (List K)) : Prop where
  dofs : ∀ s, (dofs s).length = sideSize a b c s
  form : ∀ v, f = .sides v → ∀ e s l, v e s = some l → l.length = sideSize a b c s
  dual : ∀ bn ∈ m.names, ∀ p ∈ m.range bn, ∀ l, x (m.te p.1 p.2) = some l → l.length = sideSize a b c p.2

theorem formValues_lookup {f : FormBC K} {dofs : Side → List Nat} {ps : List (Nat × Side)} {d : Dict K}
    (h : formValues f (collect (fun _ s => dofs s) ps) ps = some d) (e : Nat) :
    ∃ g : Side → List K, (e ∈ ps.map Prod.fst → d.lookup e = some ((ps.filter fun p => p.1 == e).flatMap fun p => g p.2)) ∧
      (∀ s, (e, s) ∈ ps → (match f with
        | .full v => g s = (dofs s).map (v e)
        | .sides v => v e s = some (g s))) := by
  cases f with
  | full v =>
    simp only [formValues, Option.some.injEq] at h
    subst h
    refine ⟨fun s => (dofs s).map (v e), fun he => ?_, fun s _ => rfl⟩
    have hl := collect_lookup (fun _ s => dofs s) ps e
    rw [if_pos he] at hl
    have : ∀ D : Dict Nat, ∀ l, D.lookup e = some l → (D.map fun p => (p.1, p.2.map (v p.1))).lookup e = some (l.map (v e)) := by
      intro D
      induction D with
      | nil => simp
      | cons p D ih =>
        obtain ⟨q, l0⟩ := p
        intro l
        rw [List.map_cons, lookup_cons_if, lookup_cons_if]
        by_cases hq : e = q
        · subst hq; simp; rintro rfl; rfl
        · simp only [hq, if_false]; exact ih l
    rw [this _ _ hl, List.map_flatMap]
  | sides v =>
    simp only [formValues, collectSome] at h
    split at h
    · rename_i hall
      obtain rfl := Option.some.inj h
      refine ⟨fun s => (v e s).getD [], fun he => ?_, fun s hs => ?_⟩
      · rw [collect_lookup, if_pos he]
      · have := List.all_eq_true.1 hall _ hs
        obtain ⟨l, hl⟩ := Option.isSome_iff_exists.1 this
        have hl' : v e s = some l := hl
        simp [hl']
    · simp at h

/-- the rows of the three results. -/
theorem pairing_rows {m : Mesh} {dofs : Side → List Nat} {T0 : Nat → Nat → K} {mm : Nat → Nat → Nat → K}
    {neu dir : List String} {f : FormBC K} {x : Nat → Option (List K)} {T D : Nat → Nat → Nat → K} {v : Nat → Nat → K}
    (h : hybridPairing m a b c dofs T0 mm neu dir f x = some (T, D, v)) (hfit : Fitting m a b c dofs f x)
    (e : Nat) (s : Side) (k : Nat) (hk : k < sideSize a b c s) :
    ((∀ bn ∈ dir, bn ∉ neu) ∧ ∀ bn, bn ∈ neu ∨ bn ∈ dir ↔ bn ∈ m.names) ∧
    ((e, s) ∈ dir.flatMap m.range → (∀ cc, T e (Hybrid.offset a b c s + k) cc = 0) ∧
      (∀ cc, D e (Hybrid.offset a b c s + k) cc = if cc = Hybrid.offset a b c s + k then 1 else 0) ∧
      ∃ l, x (m.te e s) = some l ∧
        v e (Hybrid.offset a b c s + k) = ∑ j ∈ range l.length, mm (m.te e s) k j * l.getD j 0) ∧
    ((e, s) ∉ dir.flatMap m.range → (e, s) ∈ neu.flatMap m.range →
      (∀ cc, T e (Hybrid.offset a b c s + k) cc = if (dofs s)[k]? = some cc then 1 else 0) ∧
      (∀ cc, D e (Hybrid.offset a b c s + k) cc = 0) ∧ Prescribed dofs f e s k (v e (Hybrid.offset a b c s + k))) ∧
    ((e, s) ∉ dir.flatMap m.range → (e, s) ∉ neu.flatMap m.range →
      (∀ cc, T e (Hybrid.offset a b c s + k) cc = T0 (Hybrid.offset a b c s + k) cc) ∧
      (∀ cc, D e (Hybrid.offset a b c s + k) cc = 0) ∧ v e (Hybrid.offset a b c s + k) = 0) := by
  unfold hybridPairing at h
  split at h
  · simp at h
  rename_i hdisj
  split at h
  · simp at h
  rename_i hcover
  simp only at h
  split at h
  rotate_left
  · simp at h
  rename_i vN vN' hvN hvN'
  split at h
  rotate_left
  · simp at h
  rename_i T1 b1 hT1 hb1
  split at h
  rotate_left
  · simp at h
  rename_i vD hvD
  split at h
  rotate_left
  · simp at h
  rename_i D2 b2 hD2 hb2
  simp only [Option.some.injEq, Prod.mk.injEq] at h
  obtain ⟨rfl, rfl, rfl⟩ := h
  have hT := clearRows_at (a := a) (b := b) (c := c) (dir.flatMap m.range) T1 e s k
  have hI := identifyRows_at (a := a) (b := b) (c := c) _ dofs _ T1 hfit.dofs hT1 e s k
  have hD := identifyRows_at (a := a) (b := b) (c := c) _ (rowsOn a b c) _ D2 (by intro s; simp [rowsOn]) hD2 e s k
  have hnames : (∀ bn ∈ dir, bn ∉ neu) ∧ ∀ bn, bn ∈ neu ∨ bn ∈ dir ↔ bn ∈ m.names := by
    simp only [Bool.not_eq_true', Bool.not_eq_false, Bool.and_eq_true, List.all_eq_true, List.contains_eq_mem,
      decide_eq_true_eq, List.any_eq_true, not_exists, not_and] at hdisj hcover
    refine ⟨hdisj, fun bn => ⟨fun h => hcover.1 bn (List.mem_append.2 h), fun h => List.mem_append.1 (hcover.2 bn h)⟩⟩
  -- the vector on the Neumann sides
  obtain ⟨g, hg1, hg2⟩ := formValues_lookup hvN e
  have hN := setEntries_at (a := a) (b := b) (c := c) _ vN g _ b1 e (by
    intro p hp hpe
    have := hg2 p.2 (by rw [← hpe]; exact hp)
    cases f with
    | full w => simp only at this; rw [this, List.length_map, hfit.dofs]
    | sides w => exact hfit.form w rfl e p.2 _ this) hg1 hb1 s k hk
  -- on the Dirichlet sides
  have hdual : ∀ s', (e, s') ∈ dir.flatMap m.range → ∃ l, x (m.te e s') = some l ∧ l.length = sideSize a b c s' := by
    intro s' hs'
    have h1 := hvD
    unfold collectSome at h1
    split at h1
    · rename_i hall
      have := List.all_eq_true.1 hall _ hs'
      simp only [Option.isSome_map] at this
      obtain ⟨l, hl⟩ := Option.isSome_iff_exists.1 this
      obtain ⟨bn, hbn, hr⟩ := List.mem_flatMap.1 hs'
      exact ⟨l, hl, hfit.dual bn ((hnames.2 bn).1 (Or.inr hbn)) _ hr l hl⟩
    · simp at h1
  have hDv := setEntries_at (a := a) (b := b) (c := c) _ vD
    (fun s => ((x (m.te e s)).map (dualValues mm (m.te e s))).getD []) _ b2 e (by
      intro p hp hpe
      obtain ⟨l, hl, hlen⟩ := hdual p.2 (by rw [← hpe]; exact hp)
      simp [hl, dualValues, hlen]) (by
      intro he
      unfold collectSome at hvD
      split at hvD
      · obtain rfl := Option.some.inj hvD
        rw [collect_lookup, if_pos he]
      · simp at hvD) hb2 s k hk
  refine ⟨hnames, fun hd => ⟨fun cc => ?_, fun cc => ?_, ?_⟩, fun hd hn => ⟨fun cc => ?_, fun cc => ?_, ?_⟩,
    fun hd hn => ⟨fun cc => ?_, fun cc => ?_, ?_⟩⟩
  · rw [hT cc hk, if_pos hd]
  · rw [hD cc hk, if_pos hd]
    have : (rowsOn a b c s)[k]? = some (Hybrid.offset a b c s + k) := by
      unfold rowsOn
      rw [List.getElem?_range' hk]; simp
    rw [this]
    simp [eq_comm]
  · obtain ⟨l, hl, hlen⟩ := hdual s hd
    have h1 := hDv.1 hd
    refine ⟨l, hl, ?_⟩
    simp only [hl, Option.map_some, Option.getD_some, dualValues] at h1
    rw [List.getElem?_map, List.getElem?_range (by omega)] at h1
    simp only [Option.map_some, Option.some.injEq] at h1
    rw [← h1, Finset.sum_range, ← List.sum_ofFn]
    congr 1
    rw [List.ofFn_eq_map, ← List.map_coe_finRange_eq_range, List.map_map]
    rfl
  · rw [hT cc hk, if_neg hd, hI cc hk, if_pos hn]
  · rw [hD cc hk, if_neg hd]
  · rw [hDv.2 hd]
    have h1 := hN.1 hn
    have h2 := hg2 s hn
    cases f with
    | full w =>
      simp only at h2
      rw [h2, List.getElem?_map] at h1
      obtain ⟨d, hd1, hd2⟩ := Option.map_eq_some_iff.1 h1
      exact ⟨d, hd1, hd2.symm⟩
    | sides w => exact ⟨g s, h2, h1⟩
  · rw [hT cc hk, if_neg hd, hI cc hk, if_neg hn]
  · rw [hD cc hk, if_neg hd]
  · rw [hDv.2 hd, hN.2 hn]

/-- the side on the other end. -/
def facing : Side → Side
  | .N => .S | .S => .N | .W => .E | .E => .W | .B => .F | .F => .B

/-- the direction of the trace elements on a side. -/
def sideDir : Side → Hybrid.Dir
  | .N | .S => .NS
  | .W | .E => .WE
  | .B | .F => .BF

/-- a mesh of `n` elements with its trace elements: a trace element on a boundary belongs to one element side, any other one to
two sides, facing each other. -/
structure PairedMesh (m : Mesh) (n : Nat) (dirs : List Hybrid.Dir) : Prop where
  six : ∀ e < n, (m.map e).length = 6
  dir : ∀ e < n, ∀ s, m.te e s < dirs.length ∧ dirs.getD (m.te e s) .NS = sideDir s
  bnd : ∀ bn ∈ m.names, ∀ p ∈ m.range bn, p.1 < n ∧ ∀ e < n, ∀ s, m.te e s = m.te p.1 p.2 → (e, s) = p
  disj : ∀ bn ∈ m.names, ∀ bn' ∈ m.names, ∀ p, p ∈ m.range bn → p ∈ m.range bn' → bn = bn'
  inner : ∀ e < n, ∀ s, (∀ bn ∈ m.names, (e, s) ∉ m.range bn) → ∃ e' < n, m.te e' (facing s) = m.te e s ∧
    ∀ e'' < n, ∀ s'', m.te e'' s'' = m.te e s → (e'', s'') = (e, s) ∨ (e'', s'') = (e', facing s)

/-- the global number of a row of an element. -/
def rowNumber (a b c : Nat) (dirs : List Hybrid.Dir) (m : Mesh) (e r : Nat) : Nat := (TraceNum.hybridVec a b c dirs m.map e).getD r 0

/-- what row `r` of element `e` contributes to `T u + D λ - b`. -/
def contribution (N nb : Nat) (num : Nat → Nat → Nat) (T D : Nat → Nat → Nat → K) (v : Nat → Nat → K) (u : Nat → Nat → K)
    (lam : Nat → K) (e r : Nat) : K :=
  (∑ d ∈ range nb, T e r d * u e d) + (∑ d ∈ range N, D e r d * lam (num e d)) - v e r

/-- the assembled equation number `g`: the contributions of all rows numbered `g` add up to zero. -/
def Equation (n N nb : Nat) (num : Nat → Nat → Nat) (T D : Nat → Nat → Nat → K) (v : Nat → Nat → K) (u : Nat → Nat → K)
    (lam : Nat → K) (g : Nat) : Prop :=
  (∑ q ∈ range n ×ˢ range N, if num q.1 q.2 = g then contribution N nb num T D v u lam q.1 q.2 else 0) = 0

theorem sideIndex_dirs {m : Mesh} {n : Nat} {dirs : List Hybrid.Dir} (hm : PairedMesh m n dirs) {e : Nat} (he : e < n) (s : Side) :
    (m.map e)[sideIndex s]? = some (m.te e s) ∧ sideStart a b c dirs (m.map e) (sideIndex s) = Hybrid.offset a b c s ∧
    Hybrid.dp a b c (dirs.getD (m.te e s) .NS) = sideSize a b c s := by
  have h6 := hm.six e he
  have hd := fun s => (hm.dir e he s).2
  refine ⟨?_, ?_, ?_⟩
  · have : sideIndex s < (m.map e).length := by rw [h6]; cases s <;> simp [sideIndex]
    unfold Mesh.te
    rw [List.getD_eq_getElem?_getD, List.getElem?_eq_getElem this]
    simp
  · have hN := hd .N; have hS := hd .S; have hW := hd .W; have hE := hd .E; have hB := hd .B; have hF := hd .F
    unfold Mesh.te at hN hS hW hE hB hF
    generalize m.map e = l at *
    match l, h6 with
    | [t0, t1, t2, t3, t4, t5], _ =>
      simp only [sideIndex, sideDir, List.getD_cons_zero, List.getD_cons_succ] at hN hS hW hE hB hF
      cases s <;> simp only [sideStart, inFront, sideIndex, Hybrid.offset, List.map_cons, List.map_nil, hN, hS, hW, hE, hB, hF,
        Hybrid.dp, List.take_zero, List.take_succ_cons, List.sum_cons, List.sum_nil] <;> omega
  · rw [hd s]
    cases s <;> rfl

theorem rowNumber_same {m : Mesh} {n : Nat} {dirs : List Hybrid.Dir} (hm : PairedMesh m n dirs) {e e' : Nat} (he : e < n)
    (he' : e' < n) {s s' : Side} {k k' : Nat} (hk : k < sideSize a b c s) (hk' : k' < sideSize a b c s') :
    rowNumber a b c dirs m e (Hybrid.offset a b c s + k) = rowNumber a b c dirs m e' (Hybrid.offset a b c s' + k') ↔
      m.te e s = m.te e' s' ∧ k = k' := by
  obtain ⟨h1, h2, h3⟩ := sideIndex_dirs (a := a) (b := b) (c := c) hm he s
  obtain ⟨h1', h2', h3'⟩ := sideIndex_dirs (a := a) (b := b) (c := c) hm he' s'
  have h := c83_hybrid_same a b c dirs m.map e (sideIndex s) k (m.te e s) e' (sideIndex s') k' (m.te e' s') h1 (hm.dir e he s).1
    (by rw [h3]; exact hk) h1' (hm.dir e' he' s').1 (by rw [h3']; exact hk')
  rw [h2, h2'] at h
  have q : ∀ e < n, ∀ s k, k < sideSize a b c s →
      ∃ y, (TraceNum.hybridVec a b c dirs m.map e)[Hybrid.offset a b c s + k]? = some y := by
    intro e he s k hk
    obtain ⟨h1, h2, h3⟩ := sideIndex_dirs (a := a) (b := b) (c := c) hm he s
    have := c83_hybrid_entry a b c dirs m.map e (sideIndex s) k (m.te e s) h1 (by rw [h3]; exact hk)
    rw [h2] at this
    rw [this]
    unfold TraceNum.block
    rw [List.getElem?_range' (by rw [h3]; exact hk)]
    exact ⟨_, rfl⟩
  obtain ⟨y, hy⟩ := q e he s k hk
  obtain ⟨y', hy'⟩ := q e' he' s' k' hk'
  rw [← h]
  unfold rowNumber
  rw [List.getD_eq_getElem?_getD, List.getD_eq_getElem?_getD, hy, hy']
  simp

/-- a number of a boundary side: one contribution. -/
theorem equation_one {m : Mesh} {n : Nat} {dirs : List Hybrid.Dir} (hm : PairedMesh m n dirs) {nb : Nat}
    {T D : Nat → Nat → Nat → K} {v u : Nat → Nat → K} {lam : Nat → K} {bn : String} (hbn : bn ∈ m.names) {e : Nat} {s : Side}
    (hes : (e, s) ∈ m.range bn) {k : Nat} (hk : k < sideSize a b c s) :
    Equation n (2 * (a + b + c)) nb (rowNumber a b c dirs m) T D v u lam (rowNumber a b c dirs m e (Hybrid.offset a b c s + k)) ↔
      contribution (2 * (a + b + c)) nb (rowNumber a b c dirs m) T D v u lam e (Hybrid.offset a b c s + k) = 0 := by
  obtain ⟨he, hu⟩ := hm.bnd bn hbn _ hes
  unfold Equation
  rw [Finset.sum_eq_single (e, Hybrid.offset a b c s + k)]
  · simp
  · rintro ⟨e', r'⟩ hq hne
    rw [Finset.mem_product, Finset.mem_range, Finset.mem_range] at hq
    rw [if_neg]
    intro hg
    obtain ⟨s', k', hk', hr'⟩ := row_exists hq.2
    simp only at hr' hq
    subst hr'
    obtain ⟨h1, rfl⟩ := (rowNumber_same hm hq.1 he hk' hk).1 hg
    have := hu e' hq.1 s' h1
    simp only [Prod.mk.injEq] at this
    obtain ⟨rfl, rfl⟩ := this
    exact hne rfl
  · intro hn
    refine absurd ?_ hn
    rw [Finset.mem_product]
    exact ⟨Finset.mem_range.2 he, Finset.mem_range.2 (row_lt hk)⟩

theorem facing_size (s : Side) : sideSize a b c (facing s) = sideSize a b c s := by cases s <;> rfl
theorem facing_ne (s : Side) : facing s ≠ s := by cases s <;> simp [facing]

/-- a number of an inner side: two contributions. -/
theorem equation_two {m : Mesh} {n : Nat} {dirs : List Hybrid.Dir} (hm : PairedMesh m n dirs) {nb : Nat}
    {T D : Nat → Nat → Nat → K} {v u : Nat → Nat → K} {lam : Nat → K} {e e' : Nat} (he : e < n) (he' : e' < n) {s : Side}
    (hte : m.te e' (facing s) = m.te e s)
    (hu : ∀ e'' < n, ∀ s'', m.te e'' s'' = m.te e s → (e'', s'') = (e, s) ∨ (e'', s'') = (e', facing s)) {k : Nat}
    (hk : k < sideSize a b c s) :
    Equation n (2 * (a + b + c)) nb (rowNumber a b c dirs m) T D v u lam (rowNumber a b c dirs m e (Hybrid.offset a b c s + k)) ↔
      contribution (2 * (a + b + c)) nb (rowNumber a b c dirs m) T D v u lam e (Hybrid.offset a b c s + k) +
      contribution (2 * (a + b + c)) nb (rowNumber a b c dirs m) T D v u lam e' (Hybrid.offset a b c (facing s) + k) = 0 := by
  unfold Equation
  rw [← Finset.sum_filter]
  have hk2 : k < sideSize a b c (facing s) := by rw [facing_size]; exact hk
  have hset : (range n ×ˢ range (2 * (a + b + c))).filter
      (fun q => rowNumber a b c dirs m q.1 q.2 = rowNumber a b c dirs m e (Hybrid.offset a b c s + k)) =
      {(e, Hybrid.offset a b c s + k), (e', Hybrid.offset a b c (facing s) + k)} := by
    ext ⟨e1, r1⟩
    rw [Finset.mem_filter, Finset.mem_product, Finset.mem_range, Finset.mem_range, Finset.mem_insert, Finset.mem_singleton]
    constructor
    · rintro ⟨⟨h1, h2⟩, h3⟩
      obtain ⟨s1, k1, hk1, rfl⟩ := row_exists h2
      obtain ⟨h4, rfl⟩ := (rowNumber_same hm h1 he hk1 hk).1 h3
      rcases hu e1 h1 s1 h4 with h5 | h5 <;> simp only [Prod.mk.injEq] at h5 <;> obtain ⟨rfl, rfl⟩ := h5
      · exact Or.inl rfl
      · exact Or.inr rfl
    · rintro (h | h) <;> simp only [Prod.mk.injEq] at h <;> obtain ⟨rfl, rfl⟩ := h
      · exact ⟨⟨he, row_lt hk⟩, rfl⟩
      · exact ⟨⟨he', row_lt hk2⟩, (rowNumber_same hm he' he hk2 hk).2 ⟨hte, rfl⟩⟩
  rw [hset, Finset.sum_pair]
  intro h
  simp only [Prod.mk.injEq] at h
  exact facing_ne s (row_unique hk hk2 h.2).1.symm

omit [CommRing K] in
theorem prescribed_unique {dofs : Side → List Nat} {f : FormBC K} {e : Nat} {s : Side} {k : Nat} {y y' : K}
    (h : Prescribed dofs f e s k y) (h' : Prescribed dofs f e s k y') : y = y' := by
  cases f with
  | full v =>
    obtain ⟨d, h1, rfl⟩ := h
    obtain ⟨d', h1', rfl⟩ := h'
    rw [h1] at h1'
    rw [Option.some.inj h1']
  | sides v =>
    obtain ⟨l, h1, h2⟩ := h
    obtain ⟨l', h1', h2'⟩ := h'
    rw [h1] at h1'
    obtain rfl := Option.some.inj h1'
    rw [h2] at h2'
    exact Option.some.inj h2'

/-- **What the equations are for**: elements that share a trace element have the same values there, in the same order; on a
boundary given to the form its values are the prescribed ones; on a boundary given to the dual trace form the values of the dual
form are mass matrix times prescribed cochain. -/
structure Satisfied (m : Mesh) (n a b c : Nat) (dirs : List Hybrid.Dir) (dofs : Side → List Nat) (mm : Nat → Nat → Nat → K)
    (neu dir : List String) (f : FormBC K) (x : Nat → Option (List K)) (u : Nat → Nat → K) (lam : Nat → K) : Prop where
  glued : ∀ e < n, ∀ e' < n, ∀ s s', m.te e s = m.te e' s' → (dofs s).map (u e) = (dofs s').map (u e')
  neumann : ∀ bn ∈ neu, ∀ e s, (e, s) ∈ m.range bn → ∀ k d, (dofs s)[k]? = some d → Prescribed dofs f e s k (u e d)
  dirichlet : ∀ bn ∈ dir, ∀ e s, (e, s) ∈ m.range bn → ∃ l, x (m.te e s) = some l ∧ ∀ k < sideSize a b c s,
    lam (rowNumber a b c dirs m e (Hybrid.offset a b c s + k)) = ∑ j ∈ range l.length, mm (m.te e s) k j * l.getD j 0

theorem sum_unit {N : Nat} {r : Nat} (hr : r < N) (y : Nat → K) : (∑ d ∈ range N, (if d = r then (1 : K) else 0) * y d) = y r := by
  rw [Finset.sum_eq_single r]
  · simp
  · intro d _ hd; simp [hd]
  · intro h; exact absurd (Finset.mem_range.2 hr) h

/-- for any form whose trace matrix takes the dofs of each side with a sign. -/
theorem pairing_iff {m : Mesh} {n : Nat} {dirs : List Hybrid.Dir} (hm : PairedMesh m n dirs) {dofs : Side → List Nat} {nb : Nat}
    (hnb : ∀ s, ∀ d ∈ dofs s, d < nb) {T0 : Nat → Nat → K}
    (hT0 : ∀ s k d, (dofs s)[k]? = some d → ∀ y : Nat → K,
      (∑ i ∈ range nb, T0 (Hybrid.offset a b c s + k) i * y i) = (outward3 s : K) * y d)
    {mm : Nat → Nat → Nat → K} {neu dir : List String} {f : FormBC K} {x : Nat → Option (List K)} (hfit : Fitting m a b c dofs f x)
    {T D : Nat → Nat → Nat → K} {v : Nat → Nat → K} (h : hybridPairing m a b c dofs T0 mm neu dir f x = some (T, D, v))
    (u : Nat → Nat → K) (lam : Nat → K) :
    (∀ g, Equation n (2 * (a + b + c)) nb (rowNumber a b c dirs m) T D v u lam g) ↔
      Satisfied m n a b c dirs dofs mm neu dir f x u lam := by
  have hget : ∀ s k, k < sideSize a b c s → ∃ d, (dofs s)[k]? = some d ∧ d < nb := by
    intro s k hk
    have : k < (dofs s).length := by rw [hfit.dofs]; exact hk
    exact ⟨_, List.getElem?_eq_getElem this, hnb s _ (List.getElem_mem this)⟩
  have hlt : ∀ s k d, (dofs s)[k]? = some d → k < sideSize a b c s := by
    intro s k d hd
    rw [← hfit.dofs s]
    exact (List.getElem?_eq_some_iff.1 hd).1
  -- names
  have hnames : (∀ bn ∈ dir, bn ∉ neu) ∧ ∀ bn, bn ∈ neu ∨ bn ∈ dir ↔ bn ∈ m.names := by
    unfold hybridPairing at h
    split at h
    · simp at h
    rename_i hdisj
    split at h
    · simp at h
    rename_i hcover
    simp only [Bool.not_eq_true', Bool.not_eq_false, Bool.and_eq_true, List.all_eq_true, List.contains_eq_mem,
      decide_eq_true_eq, List.any_eq_true, not_exists, not_and] at hdisj hcover
    exact ⟨hdisj, fun bn => ⟨fun h => hcover.1 bn (List.mem_append.2 h), fun h => List.mem_append.1 (hcover.2 bn h)⟩⟩
  have hnd : ∀ bn ∈ neu, ∀ e s, (e, s) ∈ m.range bn → (e, s) ∉ dir.flatMap m.range := by
    intro bn hbn e s hr hd
    obtain ⟨bn', hbn', hr'⟩ := List.mem_flatMap.1 hd
    have := hm.disj bn ((hnames.2 bn).1 (Or.inl hbn)) bn' ((hnames.2 bn').1 (Or.inr hbn')) _ hr hr'
    subst this
    exact hnames.1 _ hbn' hbn
  -- the contributions
  have cD : ∀ bn ∈ dir, ∀ e s, (e, s) ∈ m.range bn → ∀ k < sideSize a b c s, ∃ l, x (m.te e s) = some l ∧
      contribution (2 * (a + b + c)) nb (rowNumber a b c dirs m) T D v u lam e (Hybrid.offset a b c s + k) =
        lam (rowNumber a b c dirs m e (Hybrid.offset a b c s + k)) - ∑ j ∈ range l.length, mm (m.te e s) k j * l.getD j 0 := by
    intro bn hbn e s hr k hk
    obtain ⟨-, h1, -, -⟩ := pairing_rows h hfit e s k hk
    obtain ⟨hT, hD, l, hl, hv⟩ := h1 (List.mem_flatMap.2 ⟨bn, hbn, hr⟩)
    refine ⟨l, hl, ?_⟩
    unfold contribution
    simp only [hT, hD, hv, zero_mul, Finset.sum_const_zero, zero_add]
    rw [sum_unit (row_lt hk)]
  have cN : ∀ bn ∈ neu, ∀ e s, (e, s) ∈ m.range bn → ∀ k d, (dofs s)[k]? = some d → ∃ y, Prescribed dofs f e s k y ∧
      contribution (2 * (a + b + c)) nb (rowNumber a b c dirs m) T D v u lam e (Hybrid.offset a b c s + k) = u e d - y := by
    intro bn hbn e s hr k d hd
    have hk := hlt s k d hd
    obtain ⟨-, -, h1, -⟩ := pairing_rows h hfit e s k hk
    obtain ⟨hT, hD, hv⟩ := h1 (hnd bn hbn e s hr) (List.mem_flatMap.2 ⟨bn, hbn, hr⟩)
    refine ⟨_, hv, ?_⟩
    unfold contribution
    obtain ⟨d', hd', hlt'⟩ := hget s k hk
    rw [hd] at hd'
    obtain rfl := Option.some.inj hd'
    simp only [hT, hD, hd, Option.some.injEq, zero_mul, Finset.sum_const_zero, add_zero]
    have := sum_unit hlt' (u e)
    simp only [eq_comm] at this ⊢
    rw [← this]
  have cI : ∀ e s, (∀ bn ∈ m.names, (e, s) ∉ m.range bn) → ∀ k d, (dofs s)[k]? = some d →
      contribution (2 * (a + b + c)) nb (rowNumber a b c dirs m) T D v u lam e (Hybrid.offset a b c s + k) =
        (outward3 s : K) * u e d := by
    intro e s hno k d hd
    have hk := hlt s k d hd
    obtain ⟨-, -, -, h1⟩ := pairing_rows h hfit e s k hk
    obtain ⟨hT, hD, hv⟩ := h1
      (fun hh => by obtain ⟨bn, hb, hr⟩ := List.mem_flatMap.1 hh; exact hno bn ((hnames.2 bn).1 (Or.inr hb)) hr)
      (fun hh => by obtain ⟨bn, hb, hr⟩ := List.mem_flatMap.1 hh; exact hno bn ((hnames.2 bn).1 (Or.inl hb)) hr)
    unfold contribution
    simp only [hT, hD, hv, zero_mul, Finset.sum_const_zero, add_zero, sub_zero]
    exact hT0 s k d hd (u e)
  have hsgn : ∀ s (p q : K), (outward3 s : K) * p + (outward3 (facing s) : K) * q = 0 ↔ p = q := by
    intro s p q
    cases s <;> simp [outward3, facing, neg_add_eq_zero, ← sub_eq_add_neg, sub_eq_zero]
  constructor
  · intro heq
    refine ⟨?_, ?_, ?_⟩
    · intro e he e' he' s s' hte
      by_cases hb : ∃ bn ∈ m.names, (e, s) ∈ m.range bn
      · obtain ⟨bn, hbn, hr⟩ := hb
        have := (hm.bnd bn hbn _ hr).2 e' he' s' hte.symm
        simp only [Prod.mk.injEq] at this
        obtain ⟨rfl, rfl⟩ := this
        rfl
      · have hno : ∀ bn ∈ m.names, (e, s) ∉ m.range bn := fun bn h1 h2 => hb ⟨bn, h1, h2⟩
        obtain ⟨e2, he2, hte2, hu⟩ := hm.inner e he s hno
        rcases hu e' he' s' hte.symm with h5 | h5 <;> simp only [Prod.mk.injEq] at h5 <;> obtain ⟨rfl, rfl⟩ := h5
        · rfl
        · have hno' : ∀ bn ∈ m.names, (e', facing s) ∉ m.range bn := by
            intro bn hbn hr
            have := (hm.bnd bn hbn _ hr).2 e he s hte2.symm
            simp only [Prod.mk.injEq] at this
            exact facing_ne s this.2.symm
          apply List.ext_getElem?
          intro k
          rw [List.getElem?_map, List.getElem?_map]
          by_cases hk : k < sideSize a b c s
          · obtain ⟨d, hd, -⟩ := hget s k hk
            obtain ⟨d', hd', -⟩ := hget (facing s) k (by rw [facing_size]; exact hk)
            have h6 := (equation_two hm he he2 hte2 hu hk).1 (heq _)
            rw [cI e s hno k d hd, cI e' (facing s) hno' k d' hd', hsgn] at h6
            rw [hd, hd']
            simp [h6]
          · have h1 : (dofs s)[k]? = none := by rw [List.getElem?_eq_none_iff, hfit.dofs]; omega
            have h2 : (dofs (facing s))[k]? = none := by rw [List.getElem?_eq_none_iff, hfit.dofs, facing_size]; omega
            rw [h1, h2]; rfl
    · intro bn hbn e s hr k d hd
      obtain ⟨y, hy, hc⟩ := cN bn hbn e s hr k d hd
      have h1 := (equation_one hm ((hnames.2 bn).1 (Or.inl hbn)) hr (hlt s k d hd)).1 (heq _)
      rw [hc, sub_eq_zero] at h1
      rw [h1]; exact hy
    · intro bn hbn e s hr
      have hx : ∃ l, x (m.te e s) = some l := by
        have h' := h
        unfold hybridPairing at h'
        split at h'
        · simp at h'
        split at h'
        · simp at h'
        simp only at h'
        split at h'
        rotate_left
        · simp at h'
        split at h'
        rotate_left
        · simp at h'
        split at h'
        rotate_left
        · simp at h'
        rename_i vD hvD
        unfold collectSome at hvD
        split at hvD
        · rename_i hall
          have := List.all_eq_true.1 hall (e, s) (List.mem_flatMap.2 ⟨bn, hbn, hr⟩)
          simp only [Option.isSome_map] at this
          exact Option.isSome_iff_exists.1 this
        · simp at hvD
      obtain ⟨l, hl⟩ := hx
      refine ⟨l, hl, fun k hk => ?_⟩
      obtain ⟨l', hl', hc⟩ := cD bn hbn e s hr k hk
      rw [hl] at hl'
      obtain rfl := Option.some.inj hl'
      have h1 := (equation_one hm ((hnames.2 bn).1 (Or.inr hbn)) hr hk).1 (heq _)
      rw [hc, sub_eq_zero] at h1
      exact h1
  · rintro ⟨hg, hn, hd⟩ g
    by_cases hex : ∃ e < n, ∃ s k, k < sideSize a b c s ∧ rowNumber a b c dirs m e (Hybrid.offset a b c s + k) = g
    · obtain ⟨e, he, s, k, hk, rfl⟩ := hex
      obtain ⟨d, hd1, -⟩ := hget s k hk
      by_cases hb : ∃ bn ∈ m.names, (e, s) ∈ m.range bn
      · obtain ⟨bn, hbn, hr⟩ := hb
        rw [equation_one hm hbn hr hk]
        rcases (hnames.2 bn).2 hbn with hbn' | hbn'
        · obtain ⟨y, hy, hc⟩ := cN bn hbn' e s hr k d hd1
          rw [hc, sub_eq_zero]
          exact prescribed_unique (hn bn hbn' e s hr k d hd1) hy
        · obtain ⟨l, hl, hc⟩ := cD bn hbn' e s hr k hk
          obtain ⟨l', hl', hv⟩ := hd bn hbn' e s hr
          rw [hl] at hl'
          obtain rfl := Option.some.inj hl'
          rw [hc, hv k hk, sub_self]
      · have hno : ∀ bn ∈ m.names, (e, s) ∉ m.range bn := fun bn h1 h2 => hb ⟨bn, h1, h2⟩
        obtain ⟨e2, he2, hte2, hu⟩ := hm.inner e he s hno
        have hno' : ∀ bn ∈ m.names, (e2, facing s) ∉ m.range bn := by
          intro bn hbn hr
          have := (hm.bnd bn hbn _ hr).2 e he s hte2.symm
          simp only [Prod.mk.injEq] at this
          exact facing_ne s this.2.symm
        obtain ⟨d', hd', -⟩ := hget (facing s) k (by rw [facing_size]; exact hk)
        rw [equation_two hm he he2 hte2 hu hk, cI e s hno k d hd1, cI e2 (facing s) hno' k d' hd', hsgn]
        have := congrArg (fun l => l[k]?) (hg e he e2 he2 s (facing s) hte2.symm)
        simp only [List.getElem?_map, hd1, hd', Option.map_some, Option.some.injEq] at this
        exact this
    · unfold Equation
      apply Finset.sum_eq_zero
      rintro ⟨e, r⟩ hq
      rw [Finset.mem_product, Finset.mem_range, Finset.mem_range] at hq
      rw [if_neg]
      intro hgr
      obtain ⟨s, k, hk, hr⟩ := row_exists hq.2
      simp only at hr hgr
      subst hr
      exact hex ⟨e, hq.1, s, k, hk, hgr⟩

/-! ## C91 -/

/-- rows of the trace matrix of a form with `dofs`, numbered side by side. -/
theorem trace_row {dofs : Side → List Nat} {nb : Nat} (hnb : ∀ s, ∀ d ∈ dofs s, d < nb)
    (hlen : ∀ s, (dofs s).length = sideSize a b c s) (s : Side) (k d : Nat) (hd : (dofs s)[k]? = some d) (y : Nat → K) :
    (∑ i ∈ range nb, ((matOf (traceAux dofs 0 sideSigns) (Hybrid.offset a b c s + k) i : ℤ) : K) * y i) = (outward3 s : K) * y d := by
  have hT := applyM_trace dofs sideSigns rfl hnb y
  obtain ⟨hk, hd'⟩ := List.getElem?_eq_some_iff.1 hd
  subst hd'
  have hi : sideIndex s < sideSigns.length := by cases s <;> simp [sideIndex, sideSigns]
  have hs : sideSigns[sideIndex s]'hi = (s, outward3 s) := by cases s <;> rfl
  have hb : blockStart dofs sideSigns (sideIndex s) = Hybrid.offset a b c s := by
    cases s <;> simp [blockStart, sideIndex, sideSigns, hlen, sideSize, Hybrid.offset] <;> omega
  have hk' : k < (dofs (sideSigns[sideIndex s]'hi).1).length := by rw [hs]; exact hk
  have := block_of_trace rfl hT (sideIndex s) hi k hk'
  rw [hb] at this
  unfold applyM at this
  rw [this]
  simp only [hs]

/-- **C91, 2-forms.** What `hybrid_pairing` of a 2-form returns: `(u, λ)` solves the assembled equations exactly when the form is
glued together across inner sides and both boundary conditions hold. -/
theorem c91_two_form {m : Mesh} {n : Nat} {dirs : List Hybrid.Dir} (hm : PairedMesh m n dirs) (p0 p1 p2 : Nat)
    {mm : Nat → Nat → Nat → K} {neu dir : List String} {f : FormBC K} {x : Nat → Option (List K)}
    (hfit : Fitting m (p1*p2) (p0*p2) (p0*p1) (dofs2 p0 p1 p2) f x) {T D : Nat → Nat → Nat → K} {v : Nat → Nat → K}
    (h : hybridPairing m (p1*p2) (p0*p2) (p0*p1) (dofs2 p0 p1 p2) (fun r d => ((trace2 p0 p1 p2 r d : ℤ) : K)) mm neu dir f x =
      some (T, D, v)) (u : Nat → Nat → K) (lam : Nat → K) :
    (∀ g, Equation n (2 * (p1*p2 + p0*p2 + p0*p1)) (nb2 p0 p1 p2) (rowNumber (p1*p2) (p0*p2) (p0*p1) dirs m) T D v u lam g) ↔
      Satisfied m n (p1*p2) (p0*p2) (p0*p1) dirs (dofs2 p0 p1 p2) mm neu dir f x u lam :=
  pairing_iff hm (dofs2_lt p0 p1 p2) (fun s k d hd y => trace_row (dofs2_lt p0 p1 p2) hfit.dofs s k d hd y) hfit h u lam

/-- **C91, 1-forms**, as `hybrid_pairing` has them before the singularity is overcome (that step: C81). -/
theorem c91_one_form_partial {m : Mesh} {n : Nat} {dirs : List Hybrid.Dir} (hm : PairedMesh m n dirs) (p0 p1 p2 : Nat)
    {mm : Nat → Nat → Nat → K} {neu dir : List String} {f : FormBC K} {x : Nat → Option (List K)}
    (hfit : Fitting m (Hybrid.nNS1 p0 p1 p2) (Hybrid.nWE1 p0 p1 p2) (Hybrid.nBF1 p0 p1 p2) (dofs1 p0 p1 p2) f x)
    {T D : Nat → Nat → Nat → K} {v : Nat → Nat → K}
    (h : hybridPairing m (Hybrid.nNS1 p0 p1 p2) (Hybrid.nWE1 p0 p1 p2) (Hybrid.nBF1 p0 p1 p2) (dofs1 p0 p1 p2)
      (fun r d => ((trace1 p0 p1 p2 r d : ℤ) : K)) mm neu dir f x = some (T, D, v)) (u : Nat → Nat → K) (lam : Nat → K) :
    (∀ g, Equation n (2 * (Hybrid.nNS1 p0 p1 p2 + Hybrid.nWE1 p0 p1 p2 + Hybrid.nBF1 p0 p1 p2)) (nb1 p0 p1 p2)
      (rowNumber (Hybrid.nNS1 p0 p1 p2) (Hybrid.nWE1 p0 p1 p2) (Hybrid.nBF1 p0 p1 p2) dirs m) T D v u lam g) ↔
      Satisfied m n (Hybrid.nNS1 p0 p1 p2) (Hybrid.nWE1 p0 p1 p2) (Hybrid.nBF1 p0 p1 p2) dirs (dofs1 p0 p1 p2) mm neu dir f x u lam :=
  pairing_iff hm (dofs1_lt p0 p1 p2) (fun s k d hd y => trace_row (dofs1_lt p0 p1 p2) hfit.dofs s k d hd y) hfit h u lam

/-- **C91, 0-forms**, as `hybrid_pairing` has them before the singularity is overcome (that step: C81). -/
theorem c91_zero_form_partial {m : Mesh} {n : Nat} {dirs : List Hybrid.Dir} (hm : PairedMesh m n dirs) (p0 p1 p2 : Nat)
    {mm : Nat → Nat → Nat → K} {neu dir : List String} {f : FormBC K} {x : Nat → Option (List K)}
    (hfit : Fitting m ((p1+1)*(p2+1)) ((p0+1)*(p2+1)) ((p0+1)*(p1+1)) (dofs0 p0 p1 p2) f x)
    {T D : Nat → Nat → Nat → K} {v : Nat → Nat → K}
    (h : hybridPairing m ((p1+1)*(p2+1)) ((p0+1)*(p2+1)) ((p0+1)*(p1+1)) (dofs0 p0 p1 p2)
      (fun r d => ((trace0 p0 p1 p2 r d : ℤ) : K)) mm neu dir f x = some (T, D, v)) (u : Nat → Nat → K) (lam : Nat → K) :
    (∀ g, Equation n (2 * ((p1+1)*(p2+1) + (p0+1)*(p2+1) + (p0+1)*(p1+1))) (nb0 p0 p1 p2)
      (rowNumber ((p1+1)*(p2+1)) ((p0+1)*(p2+1)) ((p0+1)*(p1+1)) dirs m) T D v u lam g) ↔
      Satisfied m n ((p1+1)*(p2+1)) ((p0+1)*(p2+1)) ((p0+1)*(p1+1)) dirs (dofs0 p0 p1 p2) mm neu dir f x u lam :=
  pairing_iff hm (dofs0_lt p0 p1 p2) (fun s k d hd y => trace_row (dofs0_lt p0 p1 p2) hfit.dofs s k d hd y) hfit h u lam

/-- the assembled equation with edge unknowns (`xi m` are those of element `m`). -/
def EquationE (n N nb ne : Nat) (num : Nat → Nat → Nat) (T D C : Nat → Nat → Nat → K) (v : Nat → Nat → K) (u : Nat → Nat → K)
    (lam : Nat → K) (xi : Nat → Nat → K) (g : Nat) : Prop :=
  (∑ q ∈ range n ×ˢ range N, if num q.1 q.2 = g then
    contribution N nb num T D v u lam q.1 q.2 + ∑ d ∈ range ne, C q.1 q.2 d * xi q.1 d else 0) = 0

theorem equationE_iff {n N nb ne : Nat} {num : Nat → Nat → Nat} {T T' D C : Nat → Nat → Nat → K} {v u xi : Nat → Nat → K} {lam : Nat → K}
    (h : ∀ m r, ∑ d ∈ range nb, T' m r d * u m d + ∑ d ∈ range ne, C m r d * xi m d = ∑ d ∈ range nb, T m r d * u m d) (g : Nat) :
    EquationE n N nb ne num T' D C v u lam xi g ↔ Equation n N nb num T D v u lam g := by
  unfold EquationE Equation
  have : ∀ q : Nat × Nat, contribution N nb num T' D v u lam q.1 q.2 + ∑ d ∈ range ne, C q.1 q.2 d * xi q.1 d =
      contribution N nb num T D v u lam q.1 q.2 := by
    intro q
    unfold contribution
    rw [← h q.1 q.2]
    abel
  simp only [this]

/-- **C91, 1-forms with edge unknowns**: if the edge unknowns have the values of the form on the edges, `(u, λ)` solves all that
`hybrid_pairing` returns exactly when the form is glued together and both conditions hold. Missing: that the equations give the
edge unknowns these values (edge by edge: C81). -/
theorem c91_one_edges_partial {m : Mesh} {n : Nat} {dirs : List Hybrid.Dir} (hm : PairedMesh m n dirs) (p0 p1 p2 : Nat)
    {mm : Nat → Nat → Nat → K} {neu dir : List String} {f : FormBC K} {x : Nat → Option (List K)}
    (hfit : Fitting m (Hybrid.nNS1 p0 p1 p2) (Hybrid.nWE1 p0 p1 p2) (Hybrid.nBF1 p0 p1 p2) (dofs1 p0 p1 p2) f x)
    {T D T' C : Nat → Nat → Nat → K} {v : Nat → Nat → K}
    (h : hybridPairing m (Hybrid.nNS1 p0 p1 p2) (Hybrid.nWE1 p0 p1 p2) (Hybrid.nBF1 p0 p1 p2) (dofs1 p0 p1 p2)
      (fun r d => ((trace1 p0 p1 p2 r d : ℤ) : K)) mm neu dir f x = some (T, D, v)) {edges : List Hybrid.EdgeElem}
    (ho : Hybrid.overcome (Hybrid.tables1 p0 p1 p2) m.map dir edges T (fun _ _ _ => 0) = some (T', C))
    (hn : ((edges.filter fun e => !Hybrid.skipped dir e).map (·.positions.head?)).Nodup)
    (u : Nat → Nat → K) (lam : Nat → K) {xi : Nat → Nat → K}
    (hxi : ∀ e ce, ((Hybrid.tables1 p0 p1 p2).ef ce).map (xi e) = ((Hybrid.tables1 p0 p1 p2).sf ce).map (u e)) :
    (∀ g, EquationE n (2 * (Hybrid.nNS1 p0 p1 p2 + Hybrid.nWE1 p0 p1 p2 + Hybrid.nBF1 p0 p1 p2)) (nb1 p0 p1 p2) (4 * (p0 + p1 + p2))
      (rowNumber (Hybrid.nNS1 p0 p1 p2) (Hybrid.nWE1 p0 p1 p2) (Hybrid.nBF1 p0 p1 p2) dirs m) T' D C v u lam xi g) ↔
      Satisfied m n (Hybrid.nNS1 p0 p1 p2) (Hybrid.nWE1 p0 p1 p2) (Hybrid.nBF1 p0 p1 p2) dirs (dofs1 p0 p1 p2) mm neu dir f x u lam := by
  rw [← c91_one_form_partial hm p0 p1 p2 hfit h u lam]
  exact forall_congr' (equationE_iff (c81_value1 p0 p1 p2 ho hn hxi))

/-- **C91, 0-forms with edge unknowns**, in the same way. -/
theorem c91_zero_edges_partial {m : Mesh} {n : Nat} {dirs : List Hybrid.Dir} (hm : PairedMesh m n dirs) (p0 p1 p2 : Nat)
    {mm : Nat → Nat → Nat → K} {neu dir : List String} {f : FormBC K} {x : Nat → Option (List K)}
    (hfit : Fitting m ((p1+1)*(p2+1)) ((p0+1)*(p2+1)) ((p0+1)*(p1+1)) (dofs0 p0 p1 p2) f x)
    {T D T' C : Nat → Nat → Nat → K} {v : Nat → Nat → K}
    (h : hybridPairing m ((p1+1)*(p2+1)) ((p0+1)*(p2+1)) ((p0+1)*(p1+1)) (dofs0 p0 p1 p2)
      (fun r d => ((trace0 p0 p1 p2 r d : ℤ) : K)) mm neu dir f x = some (T, D, v)) {edges : List Hybrid.EdgeElem}
    (ho : Hybrid.overcome (Hybrid.tables0 p0 p1 p2) m.map dir edges T (fun _ _ _ => 0) = some (T', C))
    (hn : ((edges.filter fun e => !Hybrid.skipped dir e).map (·.positions.head?)).Nodup)
    (u : Nat → Nat → K) (lam : Nat → K) {xi : Nat → Nat → K}
    (hxi : ∀ e ce, ((Hybrid.tables0 p0 p1 p2).ef ce).map (xi e) = ((Hybrid.tables0 p0 p1 p2).sf ce).map (u e)) :
    (∀ g, EquationE n (2 * ((p1+1)*(p2+1) + (p0+1)*(p2+1) + (p0+1)*(p1+1))) (nb0 p0 p1 p2) (4 * (p0+1 + (p1+1) + (p2+1)))
      (rowNumber ((p1+1)*(p2+1)) ((p0+1)*(p2+1)) ((p0+1)*(p1+1)) dirs m) T' D C v u lam xi g) ↔
      Satisfied m n ((p1+1)*(p2+1)) ((p0+1)*(p2+1)) ((p0+1)*(p1+1)) dirs (dofs0 p0 p1 p2) mm neu dir f x u lam := by
  rw [← c91_zero_form_partial hm p0 p1 p2 hfit h u lam]
  exact forall_congr' (equationE_iff (c81_value0 p0 p1 p2 ho hn hxi))

/-! ## when there is a result -/

theorem flatMap_length_eq {γ α β : Type*} (ps : List γ) (f : γ → List α) (g : γ → List β)
    (h : ∀ p ∈ ps, (f p).length = (g p).length) : (ps.flatMap f).length = (ps.flatMap g).length := by
  rw [List.length_flatMap, List.length_flatMap]
  congr 1
  exact List.map_congr_left h

theorem identifyRows_some {K : Type*} [Zero K] [One K] (ps : List (Nat × Side)) (g : Side → List Nat) (M : Nat → Nat → Nat → K)
    (hg : ∀ s, (g s).length = sideSize a b c s) :
    ∃ M', identifyRows (collect (fun _ s => rowsOn a b c s) ps) (collect (fun _ s => g s) ps) M = some M' := by
  unfold identifyRows
  rw [if_pos]
  · exact ⟨_, rfl⟩
  · rw [List.all_eq_true]
    intro p hp
    have h1 := lookup_of_mem (collect_keys_nodup _ _) hp
    rw [collect_lookup] at h1
    split at h1
    · rename_i hm
      have h2 := Option.some.inj h1
      rw [collect_lookup, if_pos hm]
      simp only [beq_iff_eq]
      rw [← h2]
      apply flatMap_length_eq
      intro q _
      simp [hg, rowsOn]
    · simp at h1

theorem setEntries_some {K : Type*} (ps : List (Nat × Side)) (dv : Dict K) (g : Nat → Side → List K) (v : Nat → Nat → K)
    (hlen : dv.length = (collect (fun _ s => rowsOn a b c s) ps).length)
    (hg : ∀ p ∈ ps, (g p.1 p.2).length = sideSize a b c p.2)
    (hdv : ∀ e ∈ ps.map Prod.fst, dv.lookup e = some ((ps.filter fun p => p.1 == e).flatMap fun p => g e p.2)) :
    ∃ v', setEntries (collect (fun _ s => rowsOn a b c s) ps) dv v = some v' := by
  unfold setEntries
  rw [if_pos]
  · exact ⟨_, rfl⟩
  · rw [Bool.and_eq_true, List.all_eq_true]
    refine ⟨by simp [hlen], ?_⟩
    intro p hp
    have h1 := lookup_of_mem (collect_keys_nodup _ _) hp
    rw [collect_lookup] at h1
    split at h1
    · rename_i hm
      have h2 := Option.some.inj h1
      rw [hdv _ hm]
      simp only [beq_iff_eq]
      rw [← h2]
      apply flatMap_length_eq
      intro q hq
      rw [List.mem_filter] at hq
      have hq2 : q.1 = p.1 := by simpa using hq.2
      have := hg q hq.1
      rw [hq2] at this
      simp [this, rowsOn]
    · simp at h1

/-- **C91, when there is a result**: no boundary is given to both, each boundary of the mesh is given to one of them, the function
of the form covers its boundaries, and the function of the dual trace form covers its boundaries *and* those of the form. -/
theorem c91_defined {m : Mesh} {dofs : Side → List Nat} {T0 : Nat → Nat → K} {mm : Nat → Nat → Nat → K}
    {neu dir : List String} {f : FormBC K} {x : Nat → Option (List K)} (hfit : Fitting m a b c dofs f x) :
    (hybridPairing m a b c dofs T0 mm neu dir f x).isSome ↔
      (∀ bn ∈ dir, bn ∉ neu) ∧ (∀ bn, bn ∈ neu ∨ bn ∈ dir ↔ bn ∈ m.names) ∧
      (∀ w, f = .sides w → ∀ bn ∈ neu, ∀ p ∈ m.range bn, (w p.1 p.2).isSome) ∧
      (∀ bn ∈ m.names, ∀ p ∈ m.range bn, (x (m.te p.1 p.2)).isSome) := by
  constructor
  · intro h
    obtain ⟨⟨T, D, v⟩, h⟩ := Option.isSome_iff_exists.1 h
    unfold hybridPairing at h
    split at h
    · simp at h
    rename_i hdisj
    split at h
    · simp at h
    rename_i hcover
    simp only at h
    split at h
    rotate_left
    · simp at h
    rename_i vN vN' hvN hvN'
    split at h
    rotate_left
    · simp at h
    split at h
    rotate_left
    · simp at h
    rename_i vD hvD
    simp only [Bool.not_eq_true', Bool.not_eq_false, Bool.and_eq_true, List.all_eq_true, List.contains_eq_mem,
      decide_eq_true_eq, List.any_eq_true, not_exists, not_and] at hdisj hcover
    have hnames : ∀ bn, bn ∈ neu ∨ bn ∈ dir ↔ bn ∈ m.names :=
      fun bn => ⟨fun h => hcover.1 bn (List.mem_append.2 h), fun h => List.mem_append.1 (hcover.2 bn h)⟩
    have hsome : ∀ {α : Type _} {f : Nat → Side → Option (List α)} {ps d}, collectSome f ps = some d →
        ∀ p ∈ ps, (f p.1 p.2).isSome := by
      intro α f ps d h p hp
      unfold collectSome at h
      split at h
      · rename_i hall
        exact List.all_eq_true.1 hall p hp
      · simp at h
    refine ⟨hdisj, hnames, ?_, ?_⟩
    · rintro w rfl bn hbn p hp
      exact hsome hvN p (List.mem_flatMap.2 ⟨bn, hbn, hp⟩)
    · intro bn hbn p hp
      rcases (hnames bn).2 hbn with hb | hb
      · simpa using hsome hvN' p (List.mem_flatMap.2 ⟨bn, hb, hp⟩)
      · simpa using hsome hvD p (List.mem_flatMap.2 ⟨bn, hb, hp⟩)
  · rintro ⟨h1, h2, h3, h4⟩
    have hdual : ∀ l : List String, (∀ bn ∈ l, bn ∈ m.names) → collectSome (fun e s => (x (m.te e s)).map (dualValues mm (m.te e s)))
        (l.flatMap m.range) = some (collect (fun e s => ((x (m.te e s)).map (dualValues mm (m.te e s))).getD []) (l.flatMap m.range)) := by
      intro l hl
      unfold collectSome
      rw [if_pos]
      rw [List.all_eq_true]
      intro p hp
      obtain ⟨bn, hbn, hr⟩ := List.mem_flatMap.1 hp
      simpa using h4 bn (hl bn hbn) p hr
    have hN := hdual neu fun bn hb => (h2 bn).1 (Or.inl hb)
    have hD := hdual dir fun bn hb => (h2 bn).1 (Or.inr hb)
    obtain ⟨vN, hvN⟩ : ∃ vN, formValues f (collect (fun _ s => dofs s) (neu.flatMap m.range)) (neu.flatMap m.range) = some vN := by
      cases f with
      | full w => exact ⟨_, rfl⟩
      | sides w =>
        simp only [formValues, collectSome]
        rw [if_pos]
        · exact ⟨_, rfl⟩
        · rw [List.all_eq_true]
          intro p hp
          obtain ⟨bn, hbn, hr⟩ := List.mem_flatMap.1 hp
          exact h3 w rfl bn hbn p hr
    obtain ⟨T1, hT1⟩ := identifyRows_some (a := a) (b := b) (c := c) (neu.flatMap m.range) dofs (fun _ => T0) hfit.dofs
    obtain ⟨D2, hD2⟩ := identifyRows_some (a := a) (b := b) (c := c) (dir.flatMap m.range) (rowsOn a b c)
      (fun _ _ _ => (0 : K)) (by intro s; simp [rowsOn])
    have hch := fun e => formValues_lookup hvN e
    choose g hg1 hg2 using hch
    obtain ⟨b1, hb1⟩ := setEntries_some (a := a) (b := b) (c := c) (neu.flatMap m.range) vN g (fun _ _ => (0 : K)) (by
      cases f with
      | full w =>
        simp only [formValues, Option.some.injEq] at hvN
        rw [← hvN, List.length_map]
        exact collect_length _ _ _
      | sides w =>
        simp only [formValues, collectSome] at hvN
        split at hvN
        · rw [← Option.some.inj hvN]
          exact collect_length _ _ _
        · simp at hvN) (by
      intro p hp
      have := hg2 p.1 p.2 hp
      cases f with
      | full w => simp only at this; rw [this, List.length_map, hfit.dofs]
      | sides w => exact hfit.form w rfl p.1 p.2 _ this) (fun e he => hg1 e he)
    obtain ⟨b2, hb2⟩ := setEntries_some (a := a) (b := b) (c := c) (dir.flatMap m.range)
      (collect (fun e s => ((x (m.te e s)).map (dualValues mm (m.te e s))).getD []) (dir.flatMap m.range))
      (fun e s => ((x (m.te e s)).map (dualValues mm (m.te e s))).getD []) b1
      (collect_length _ _ _) (by
      intro p hp
      obtain ⟨bn, hbn, hr⟩ := List.mem_flatMap.1 hp
      have hbm := (h2 bn).1 (Or.inr hbn)
      obtain ⟨l, hl⟩ := Option.isSome_iff_exists.1 (h4 bn hbm p hr)
      simp [hl, dualValues, hfit.dual bn hbm p hr l hl]) (by
      intro e he
      rw [collect_lookup, if_pos he])
    unfold hybridPairing
    rw [if_neg, if_neg]
    · simp only [hvN, hN, hT1, hb1, hD, hD2, hb2]
      rfl
    · simp only [Bool.not_eq_true', Bool.not_eq_false, Bool.and_eq_true, List.all_eq_true, List.contains_eq_mem,
        decide_eq_true_eq]
      exact ⟨fun bn hb => (h2 bn).1 (List.mem_append.1 hb), fun bn hb => List.mem_append.2 ((h2 bn).2 hb)⟩
    · simp only [List.any_eq_true, List.contains_eq_mem, decide_eq_true_eq, not_exists, not_and]
      exact h1

/-- **C91, a function of the dual form given on its own boundaries only**: there is no result (`KeyError`), as its conditions are
also worked out on the boundaries of the form. -/
theorem c91_dual_everywhere {m : Mesh} {dofs : Side → List Nat} {T0 : Nat → Nat → K} {mm : Nat → Nat → Nat → K}
    {neu dir : List String} {f : FormBC K} {x : Nat → Option (List K)} (hfit : Fitting m a b c dofs f x) {bn : String} (hb : bn ∈ neu)
    {p : Nat × Side} (hp : p ∈ m.range bn) (hx : x (m.te p.1 p.2) = none) : hybridPairing m a b c dofs T0 mm neu dir f x = none := by
  rw [← Option.not_isSome_iff_eq_none]
  intro h
  obtain ⟨-, h2, -, h4⟩ := (c91_defined hfit).1 h
  have := h4 bn ((h2 bn).1 (Or.inl hb)) p hp
  rw [hx] at this
  simp at this

end

/-- two elements, the first one north of the second; boundaries: the two ends, and the walls. -/
def exPair : Mesh where
  names := ["in", "out", "walls"]
  range := fun bn =>
    if bn = "in" then [(0, .N)] else if bn = "out" then [(1, .S)]
    else if bn = "walls" then [(0, .W), (0, .E), (0, .B), (0, .F), (1, .W), (1, .E), (1, .B), (1, .F)] else []
  map := exMap

theorem exPair_conforming : PairedMesh exPair 2 exDirs where
  six := by intro e he; interval_cases e <;> rfl
  dir := by intro e he s; interval_cases e <;> cases s <;> decide
  bnd := by
    intro bn hb p hp
    simp only [exPair, List.mem_cons, List.not_mem_nil, or_false] at hb
    rcases hb with rfl | rfl | rfl <;> simp only [exPair, reduceIte, String.reduceEq, List.mem_cons, List.not_mem_nil, or_false] at hp
    · subst hp
      exact ⟨by decide, by intro e he s; interval_cases e <;> cases s <;> decide⟩
    · subst hp
      exact ⟨by decide, by intro e he s; interval_cases e <;> cases s <;> decide⟩
    · rcases hp with rfl | rfl | rfl | rfl | rfl | rfl | rfl | rfl <;>
        exact ⟨by decide, by intro e he s; interval_cases e <;> cases s <;> decide⟩
  disj := by
    intro bn hb bn' hb' p hp hp'
    simp only [exPair, List.mem_cons, List.not_mem_nil, or_false] at hb hb'
    rcases hb with rfl | rfl | rfl <;> rcases hb' with rfl | rfl | rfl <;>
      simp only [exPair, reduceIte, String.reduceEq, List.mem_cons, List.not_mem_nil, or_false] at hp hp' ⊢ <;>
      simp_all
  inner := by
    intro e he s hno
    have h1 := hno "in" (by simp [exPair])
    have h2 := hno "out" (by simp [exPair])
    have h3 := hno "walls" (by simp [exPair])
    simp only [exPair, reduceIte, String.reduceEq, List.mem_cons, List.not_mem_nil, or_false] at h1 h2 h3
    interval_cases e <;> cases s <;> first
      | (exfalso; revert h1 h2 h3; decide)
      | exact ⟨1, by decide, by decide, by intro e he s; interval_cases e <;> cases s <;> decide⟩
      | exact ⟨0, by decide, by decide, by intro e he s; interval_cases e <;> cases s <;> decide⟩

/-- inflow given to the form, the rest to the dual form (degree 1, one dof on a side). -/
example : Fitting exPair 1 1 1 (dofs2 1 1 1) (.full fun e d => ((3 * e + d : Nat) : ℚ)) (fun t => some [(t : ℚ)]) where
  dofs := by intro s; cases s <;> rfl
  form := by intro v hv; cases hv
  dual := by
    intro bn _ p _ l hl
    obtain rfl := Option.some.inj hl
    cases p.2 <;> rfl

example : (hybridPairing exPair 1 1 1 (dofs2 1 1 1) (fun r d => ((trace2 1 1 1 r d : ℤ) : ℚ)) (fun _ _ _ => 2)
    ["in"] ["out", "walls"] (.full fun e d => ((3 * e + d : Nat) : ℚ)) (fun t => some [(t : ℚ)])).isSome = true := by decide +kernel
/-- the dual function is not given at the inflow: no result. -/
example : (hybridPairing exPair 1 1 1 (dofs2 1 1 1) (fun r d => ((trace2 1 1 1 r d : ℤ) : ℚ)) (fun _ _ _ => 2)
    ["in"] ["out", "walls"] (.full fun e d => ((3 * e + d : Nat) : ℚ)) (fun t => if t = 0 then none else some [(t : ℚ)])).isSome = false := by
  decide +kernel

end Mifem.Props
