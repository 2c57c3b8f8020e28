import Mathlib.Tactic.NormNum
import Mathlib.Tactic.Push
import Verif.Model.Accepts

/-!
# C108: checks of the types of arguments

Specification: the documentation of `accepts` (accepts.py 11-73) as a predicate on the argument and the requirement.
-/

namespace Mifem.Props.Accept108
open Mifem.Accepts

variable {C : Type} [DecidableEq C] (name : C → String)

/-! ## Specification -/

/-- A shape as documented: `(4,x)` has two dimensions, the first of depth 4; `(4,x,...)` has two or more. -/
def HasShape (s : List ℕ) (ds : List Dim) : Prop :=
  ∃ head : List Dim, (∀ d ∈ head, d = .x ∨ ∃ n, d = .num n) ∧
    ((ds = head ∧ s.length = head.length) ∨ (ds = head ++ [.dots] ∧ head.length ≤ s.length)) ∧
    ∀ j n, head[j]? = some (.num n) → ((s.getD j 0 : ℕ) : ℤ) = n

/-- The argument is of one of the types of a list. -/
def OneOf (a : Val C) (l : List (Item C)) : Prop :=
  (∃ c, .cls c ∈ l ∧ c ∈ a.mro) ∨ .name (name a.cls) ∈ l ∨ (.name "sparse_matrix" ∈ l ∧ name a.cls ∈ sparseNames)

/-- The argument `a`, at position `i`, is as documented for the requirement. -/
def Doc (i : ℕ) (a : Val C) : Req C → Prop
  | .nothing => True
  | .cls c => c ∈ a.mro
  | .str s => s = "" ∨ (s = "self" ∧ i = 0) ∨ (s = "sparse_matrix" ∧ name a.cls ∈ sparseNames) ∨
      (s = "natural_number" ∧ ∃ n : ℕ, a.int = some (n : ℤ)) ∨ (s = "positive_int" ∧ ∃ n : ℕ, a.int = some (n + 1 : ℤ)) ∨
      (s = "negative_int" ∧ ∃ n : ℕ, a.int = some (-(n : ℤ) - 1)) ∨ s = name a.cls
  | .many l => OneOf name a l ∧ (∀ ds, .shape ds ∈ l → ∃ s, a.shape = some s ∧ s ≠ [] ∧ HasShape s ds) ∧
      ∀ n, .ndim n ∈ l → ∃ s, a.shape = some s ∧ (s.length : ℤ) = n

/-- No class has the name of a key. -/
def Plain : Prop := ∀ c : C, name c ∉ ["", "self", "sparse_matrix", "natural_number", "positive_int", "negative_int"]

/-- No entry is a class. -/
def NoClass (l : List (Item C)) : Prop := ∀ c, .cls c ∉ l

/-- A shape requirement whose number of dimensions is fixed by the numbers in it or by a requirement `ndim`. -/
def Fixed (ds : List Dim) (ndims : List ℤ) : Prop :=
  (∃ head : List Dim, (∀ d ∈ head, d = .x ∨ ∃ n, d = .num n) ∧ ds = head ∧ (head.length : ℤ) ∈ ndims) ∨
  (∃ (head : List Dim) (n : ℤ), (∀ d ∈ head, d = .x ∨ ∃ n, d = .num n) ∧ ds = head ++ [.num n, .dots])

/-- Requirements for which the decorator is meant: among several, the classes come first, then the names and the numbers of
dimensions, then perhaps one shape. -/
def Good : Req C → Prop
  | .many l => ∃ (cs : List C) (mid : List (Item C)) (sh : Option (List Dim)) (ndims : List ℤ),
      l = cs.map .cls ++ (mid ++ sh.toList.map .shape) ∧
      (∀ i ∈ mid, (∃ s, i = .name s ∧ s ∉ ["natural_number", "positive_int", "negative_int"]) ∨ ∃ n, i = .ndim n) ∧
      (∀ n ∈ ndims, .ndim n ∈ mid) ∧ ∀ ds ∈ sh, Fixed ds ndims
  | _ => True

/-! ## Shapes -/

omit [DecidableEq C] in
theorem read_head (head : List Dim) (h : ∀ d ∈ head, d = .x ∨ ∃ n, d = .num n) (t : List Dim) :
    dimsRead (head ++ t) = dimsRead t := by
  induction head with
  | nil => rfl
  | cons d l ih =>
    have := ih fun x hx => h x (by simp [hx])
    rcases h d (by simp) with e | ⟨n, e⟩ <;> subst e <;> simpa [dimsRead] using this

theorem match_head (s : List ℕ) (head : List Dim) (h : ∀ d ∈ head, d = .x ∨ ∃ n, d = .num n) (t : List Dim) (j : ℕ) :
    dimsMatch s j (head ++ t) = true ↔
      (∀ k n, head[k]? = some (.num n) → j + k < s.length ∧ ((s.getD (j + k) 0 : ℕ) : ℤ) = n) ∧
        dimsMatch s (j + head.length) t = true := by
  induction head generalizing j with
  | nil => simp
  | cons d l ih =>
    have ih := ih (fun x hx => h x (by simp [hx])) (j + 1)
    rcases h d (by simp) with e | ⟨n, e⟩ <;> subst e
    · rw [List.cons_append, dimsMatch.eq_4 _ _ _ _ (by simp) (by simp), ih, List.length_cons, show j + 1 + l.length = j + (l.length + 1) by omega]
      refine and_congr_left fun _ => ⟨fun H k m hk => ?_, fun H k m hk => ?_⟩
      · cases k with
        | zero => simp at hk
        | succ k =>
          have := H k m (by simpa using hk)
          rwa [show j + 1 + k = j + (k + 1) by omega] at this
      · have := H (k + 1) m (by simpa using hk)
        rwa [show j + (k + 1) = j + 1 + k by omega] at this
    · rw [List.cons_append, dimsMatch, Bool.and_eq_true, Bool.and_eq_true, ih, List.length_cons,
        show j + 1 + l.length = j + (l.length + 1) by omega, decide_eq_true_eq, decide_eq_true_eq]
      constructor
      · rintro ⟨⟨h1, h2⟩, H, h3⟩
        refine ⟨fun k m hk => ?_, h3⟩
        cases k with
        | zero =>
          simp only [List.getElem?_cons_zero, Option.some.injEq, Dim.num.injEq] at hk
          subst hk
          exact ⟨h1, h2⟩
        | succ k =>
          have := H k m (by simpa using hk)
          rwa [show j + 1 + k = j + (k + 1) by omega] at this
      · rintro ⟨H, h3⟩
        refine ⟨by simpa using H 0 n (by simp), fun k m hk => ?_, h3⟩
        have := H (k + 1) m (by simpa using hk)
        rwa [show j + (k + 1) = j + 1 + k by omega] at this

/-- What is in fact checked for a shape: the numbers. -/
theorem shapeOk_iff (a : Val C) (head : List Dim) (h : ∀ d ∈ head, d = .x ∨ ∃ n, d = .num n) (t : List Dim) (ht : t = [] ∨ t = [.dots]) :
    shapeOk a (head ++ t) = true ↔ ∃ s, a.shape = some s ∧ s ≠ [] ∧
      ∀ k n, head[k]? = some (.num n) → k < s.length ∧ ((s.getD k 0 : ℕ) : ℤ) = n := by
  unfold shapeOk
  cases ha : a.shape with
  | none => simp
  | some s =>
    have h1 : dimsRead (head ++ t) = true := by
      rw [read_head head h]
      rcases ht with e | e <;> subst e <;> rfl
    have h2 : dimsMatch s (0 + head.length) t = true := by
      rcases ht with e | e <;> subst e <;> rfl
    rw [zero_add] at h2
    simp only [h1, Bool.and_true, Bool.and_eq_true, match_head s head h t 0, Option.some.injEq, zero_add, h2, and_true]
    simp [List.isEmpty_iff]

/-- A shape requirement is checked as documented when the number of dimensions is fixed otherwise. -/
theorem shape_fixed (a : Val C) (ds : List Dim) (ndims : List ℤ) (hf : Fixed ds ndims)
    (hn : ∀ n ∈ ndims, ∃ s, a.shape = some s ∧ (s.length : ℤ) = n) :
    shapeOk a ds = true ↔ ∃ s, a.shape = some s ∧ s ≠ [] ∧ HasShape s ds := by
  rcases hf with ⟨head, hh, e, hm⟩ | ⟨head, n, hh, e⟩
  · obtain ⟨s, es, el⟩ := hn _ hm
    have el : s.length = head.length := by exact_mod_cast el
    subst e
    have := shapeOk_iff a ds hh [] (Or.inl rfl)
    rw [List.append_nil] at this
    rw [this]
    constructor
    · rintro ⟨s', es', hne, H⟩
      obtain rfl : s = s' := by simpa [es] using es'
      exact ⟨s, es, hne, ds, hh, Or.inl ⟨rfl, el⟩, fun j n h => (H j n h).2⟩
    · rintro ⟨s', es', hne, head', hh', hor, H⟩
      obtain rfl : s = s' := by simpa [es] using es'
      refine ⟨s, es, hne, fun k n hk => ?_⟩
      have hk' : k < ds.length := by
        by_contra hc
        rw [List.getElem?_eq_none (by omega)] at hk
        simp at hk
      refine ⟨by omega, H k n ?_⟩
      rcases hor with ⟨e, -⟩ | ⟨e, -⟩
      · rwa [← e]
      · exfalso
        have := hh .dots (by rw [e]; simp)
        simp at this
  · subst e
    have hh1 : ∀ d ∈ head ++ [Dim.num n], d = .x ∨ ∃ n, d = .num n := by
      intro d hd
      rcases List.mem_append.1 hd with hd | hd
      · exact hh d hd
      · exact Or.inr ⟨n, by simpa using hd⟩
    have := shapeOk_iff a (head ++ [.num n]) hh1 [.dots] (Or.inr rfl)
    rw [List.append_assoc] at this
    simp only [List.cons_append, List.nil_append] at this
    rw [this]
    refine exists_congr fun s => and_congr_right fun _ => and_congr_right fun _ => ?_
    constructor
    · intro H
      refine ⟨head ++ [.num n], hh1, Or.inr ⟨by simp, ?_⟩, fun j m h => (H j m h).2⟩
      have := (H head.length n (by simp)).1
      simp only [List.length_append, List.length_cons, List.length_nil]
      omega
    · rintro ⟨head', hh', hor, H⟩
      have key : head' = head ++ [.num n] ∧ head'.length ≤ s.length := by
        rcases hor with ⟨e, -⟩ | ⟨e, hl⟩
        · exfalso
          have := hh' .dots (by rw [← e]; simp)
          simp at this
        · refine ⟨?_, hl⟩
          have e' : (head ++ [Dim.num n]) ++ [.dots] = head' ++ [.dots] := by simpa using e
          exact (List.append_inj_left' e' rfl).symm
      obtain ⟨rfl, hl⟩ := key
      intro k m hk
      refine ⟨?_, H k m hk⟩
      by_contra hc
      rw [List.getElem?_eq_none (by omega)] at hk
      simp at hk

/-! ## Several types -/

theorem items_classes (a : Val C) (cs : List C) (l : List (Item C)) : itemsOk a (cs.map .cls ++ l) = itemsOk a l := by
  induction cs with
  | nil => rfl
  | cons c cs ih => simpa [itemsOk] using ih

/-- Names and numbers of dimensions. -/
def IsMid (i : Item C) : Prop := (∃ s, i = .name s) ∨ ∃ n, i = .ndim n

theorem items_mid (a : Val C) (mid : List (Item C)) (h : ∀ i ∈ mid, IsMid i) (l : List (Item C)) :
    itemsOk a (mid ++ l) = true ↔ (∀ n, .ndim n ∈ mid → ∃ s, a.shape = some s ∧ (s.length : ℤ) = n) ∧ itemsOk a l = true := by
  induction mid with
  | nil => simp
  | cons i mid ih =>
    have ih := ih fun x hx => h x (by simp [hx])
    rcases h i (by simp) with ⟨s, e⟩ | ⟨n, e⟩ <;> subst e
    · rw [List.cons_append, itemsOk.eq_4 _ _ _ (by simp) (by simp), ih]
      simp
    · rw [List.cons_append, itemsOk, Bool.and_eq_true, ih]
      cases ha : a.shape with
      | none =>
        simp only [Bool.false_eq_true, false_and, reduceCtorEq, exists_false, imp_false, false_iff, not_and]
        exact fun h => absurd (by simp) (h n)
      | some s =>
        simp only [decide_eq_true_eq, List.mem_cons, Item.ndim.injEq, Option.some.injEq, exists_eq_left']
        constructor
        · rintro ⟨h1, h2, h3⟩
          refine ⟨fun m hm => ?_, h3⟩
          rcases hm with e | hm
          · rw [e]; exact h1
          · exact h2 m hm
        · rintro ⟨h1, h3⟩
          exact ⟨h1 n (Or.inl rfl), fun m hm => h1 m (Or.inr hm), h3⟩

theorem type_classes (a : Val C) (cs : List C) (l : List (Item C)) (hl : NoClass l) :
    typeOk name a (cs.map .cls ++ l) = true ↔ (∃ c ∈ cs, c ∈ a.mro) ∨ .name (name a.cls) ∈ l := by
  have key : isInstance a (cs.map .cls ++ l) = if ∃ c ∈ cs, c ∈ a.mro then some true else if l = [] then some false else none := by
    induction cs with
    | nil =>
      cases l with
      | nil => simp [isInstance]
      | cons i l =>
        cases i with
        | cls c => exact absurd (by simp) (hl c)
        | _ => simp [isInstance]
    | cons c cs ih =>
      rw [List.map_cons, List.cons_append, isInstance, ih]
      by_cases hc : c ∈ a.mro
      · rw [if_pos hc, if_pos ⟨c, by simp, hc⟩]
      · rw [if_neg hc]
        simp [hc]
  unfold typeOk
  rw [key]
  by_cases h1 : ∃ c ∈ cs, c ∈ a.mro
  · simp [h1]
  · rw [if_neg h1]
    by_cases h2 : l = []
    · subst h2
      simp [h1]
    · rw [if_neg h2]
      simp [h1]

/-- One argument. -/
theorem check_iff (hp : Plain name) (i : ℕ) (a : Val C) (t : Req C) (ht : Good t) : check name i a t = true ↔ Doc name i a t := by
  have hpa := hp a.cls
  simp only [List.mem_cons, List.not_mem_nil, or_false, not_or] at hpa
  obtain ⟨p1, p2, p3, p4, p5, p6⟩ := hpa
  cases t with
  | nothing => simp [check, Doc]
  | cls c => simp [check, Doc]
  | str s =>
    unfold check Doc
    by_cases h1 : s = "sparse_matrix"
    · subst h1
      simp [Ne.symm p3]
    by_cases h2 : s = "natural_number"
    · subst h2
      cases ha : a.int with
      | none => simp [Ne.symm p4]
      | some n =>
        simp only [String.reduceEq, ↓reduceIte, ge_iff_le, decide_eq_true_eq, Option.some.injEq, false_and, true_and, false_or, Ne.symm p4, or_false]
        exact ⟨fun h => ⟨n.toNat, by omega⟩, fun ⟨m, h⟩ => by omega⟩
    by_cases h3 : s = "positive_int"
    · subst h3
      cases ha : a.int with
      | none => simp [Ne.symm p5]
      | some n =>
        simp only [String.reduceEq, ↓reduceIte, gt_iff_lt, decide_eq_true_eq, Option.some.injEq, false_and, true_and, false_or, Ne.symm p5, or_false]
        exact ⟨fun h => ⟨(n - 1).toNat, by omega⟩, fun ⟨m, h⟩ => by omega⟩
    by_cases h4 : s = "negative_int"
    · subst h4
      cases ha : a.int with
      | none => simp [Ne.symm p6]
      | some n =>
        simp only [String.reduceEq, ↓reduceIte, decide_eq_true_eq, Option.some.injEq, false_and, true_and, false_or, Ne.symm p6, or_false]
        exact ⟨fun h => ⟨(-n - 1).toNat, by omega⟩, fun ⟨m, h⟩ => by omega⟩
    dsimp only
    rw [if_neg h1, if_neg h2, if_neg h3, if_neg h4]
    by_cases h5 : s = "" ∨ (s = "self" ∧ i = 0)
    · rw [if_pos h5]
      rcases h5 with h5 | h5
      · simp [h5]
      · simp [h5]
    · rw [if_neg h5]
      push Not at h5
      simp only [decide_eq_true_eq, h1, h2, h3, h4, false_and, false_or, h5.1]
      constructor
      · exact fun h => Or.inr h.symm
      · rintro (⟨h6, h7⟩ | h6)
        · exact absurd h7 (h5.2 h6)
        · exact h6.symm
  | many l =>
    obtain ⟨cs, mid, sh, ndims, rfl, hmid, hnd, hsh⟩ := ht
    set l := cs.map Item.cls ++ (mid ++ sh.toList.map .shape) with hl
    obtain ⟨T, hT, eT⟩ : ∃ T : List (Item C), (T = [] ∨ T = sparseNames.map .name) ∧ extend l = l ++ T ∧
        (.name (name a.cls) ∈ T ↔ .name "sparse_matrix" ∈ l ∧ name a.cls ∈ sparseNames) := by
      unfold extend
      by_cases h : Item.name "sparse_matrix" ∈ l
      · exact ⟨_, Or.inr rfl, if_pos h, by simp [h]⟩
      · exact ⟨[], Or.inl rfl, by rw [if_neg h, List.append_nil], by simp [h]⟩
    obtain ⟨eT, hTn⟩ := eT
    have hTmid : ∀ i ∈ T, IsMid i := by
      intro i hi
      rcases hT with e | e <;> subst e
      · simp at hi
      · obtain ⟨s, -, rfl⟩ := List.mem_map.1 hi
        exact Or.inl ⟨s, rfl⟩
    have hmid' : ∀ i ∈ mid, IsMid i := fun i hi => by
      rcases hmid i hi with ⟨s, e, -⟩ | h
      · exact Or.inl ⟨s, e⟩
      · exact Or.inr h
    have hTnd : ∀ n, Item.ndim n ∉ T := by
      intro n hn
      rcases hT with e | e <;> subst e <;> simp at hn
    have hnoc : NoClass (mid ++ sh.toList.map .shape ++ T) := by
      intro c hc
      rcases List.mem_append.1 hc with hc | hc
      · rcases List.mem_append.1 hc with hc | hc
        · rcases hmid' _ hc with ⟨s, e⟩ | ⟨n, e⟩ <;> simp at e
        · simp at hc
      · rcases hTmid _ hc with ⟨s, e⟩ | ⟨n, e⟩ <;> simp at e
    have h1 : severalOk (extend l) = true := by
      rw [eT]
      unfold severalOk
      rw [List.all_eq_true]
      intro i hi
      have : ∀ s, i = .name s → s ∉ ["natural_number", "positive_int", "negative_int"] := by
        rintro s rfl
        rcases List.mem_append.1 hi with hi | hi
        · rw [hl] at hi
          rcases List.mem_append.1 hi with hi | hi
          · simp at hi
          · rcases List.mem_append.1 hi with hi | hi
            · rcases hmid _ hi with ⟨s', e, hs⟩ | ⟨n, e⟩
              · obtain rfl : s = s' := by simpa using e
                exact hs
              · simp at e
            · simp at hi
        · rcases hT with e | e
          · subst e; simp at hi
          · subst e
            simp only [List.mem_map, Item.name.injEq, exists_eq_right, sparseNames, List.mem_cons, List.not_mem_nil, or_false] at hi
            rcases hi with rfl | rfl | rfl | rfl | rfl | rfl | rfl <;> decide
      cases i with
      | name s =>
        have := this s rfl
        simp only [List.mem_cons, List.not_mem_nil, or_false, not_or] at this
        simp [this]
      | _ => simp
    have h2 : typeOk name a (extend l) = true ↔ OneOf name a l := by
      rw [eT, hl, List.append_assoc, type_classes name a cs _ hnoc]
      unfold OneOf
      rw [← hl, List.mem_append, hTn]
      refine or_congr ?_ (or_congr_left ?_)
      · constructor
        · rintro ⟨c, hc, hm⟩
          exact ⟨c, by rw [hl]; simp [hc], hm⟩
        · rintro ⟨c, hc, hm⟩
          refine ⟨c, ?_, hm⟩
          rw [hl] at hc
          rcases List.mem_append.1 hc with hc | hc
          · simpa using hc
          · exact absurd (List.mem_append_left _ hc) (hnoc c)
      · rw [hl]
        simp
    have hnl : ∀ n, Item.ndim n ∈ l ↔ Item.ndim n ∈ mid := by
      intro n
      rw [hl]
      simp
    have h3 : itemsOk a (extend l) = true ↔ (∀ n, .ndim n ∈ l → ∃ s, a.shape = some s ∧ (s.length : ℤ) = n) ∧
        ∀ ds ∈ sh, shapeOk a ds = true := by
      rw [eT, hl, List.append_assoc, items_classes, List.append_assoc, items_mid a mid hmid', ← hl]
      simp only [hnl]
      refine and_congr_right fun _ => ?_
      cases sh with
      | none =>
        have := items_mid a T hTmid []
        rw [List.append_nil] at this
        simp only [Option.toList_none, List.map_nil, List.nil_append, Option.mem_def, reduceCtorEq, false_implies, implies_true, iff_true]
        rw [this]
        exact ⟨fun n hn => absurd hn (hTnd n), rfl⟩
      | some ds => simp [itemsOk]
    unfold check Doc
    simp only [Bool.and_eq_true, h1, true_and, h2, h3]
    rw [and_comm]
    refine and_congr_right fun _ => ?_
    rw [and_comm]
    refine and_congr_left fun hn => ?_
    have hsl : ∀ ds, Item.shape ds ∈ l ↔ ds ∈ sh := by
      intro ds
      rw [hl]
      simp only [List.mem_append, List.mem_map, reduceCtorEq, and_false, exists_false, false_or, Item.shape.injEq, exists_eq_right,
        Option.mem_toList]
      refine ⟨fun h => h.resolve_left fun hc => ?_, Or.inr⟩
      rcases hmid' _ hc with ⟨s, e⟩ | ⟨n, e⟩ <;> simp at e
    simp only [hsl]
    refine forall_congr' fun ds => forall_congr' fun hds => ?_
    exact shape_fixed a ds ndims (hsh ds hds) fun n hn' => hn n ((hnl n).2 (hnd n hn'))

theorem checkAll_iff (i : ℕ) (args : List (Val C)) (types : List (Req C)) :
    checkAll name i args types = true ↔
      ∀ k (h1 : k < args.length) (h2 : k < types.length), check name (i + k) args[k] types[k] = true := by
  induction args generalizing i types with
  | nil => simp [checkAll]
  | cons a as ih =>
    cases types with
    | nil => simp [checkAll]
    | cons t ts =>
      rw [checkAll, Bool.and_eq_true, ih]
      constructor
      · rintro ⟨h, H⟩ k h1 h2
        cases k with
        | zero => exact h
        | succ k =>
          have := H k (by simpa using h1) (by simpa using h2)
          rwa [show i + 1 + k = i + (k + 1) by omega] at this
      · intro H
        refine ⟨H 0 (by simp) (by simp), fun k h1 h2 => ?_⟩
        have := H (k + 1) (by simpa using h1) (by simpa using h2)
        rwa [show i + (k + 1) = i + 1 + k by omega] at this

/-! ## Calls -/

open Classical in
/-- **C108, what holds.** For all functions, requirements of the documented form (classes before names; shapes whose number of
dimensions is fixed by their last number or by `ndim`) and arguments: the function is called, with the same arguments, exactly when
every argument given by position is as documented.
Missing: shapes with `x` at the end, which are not checked as documented (`c108_shape_fails`), and arguments given by keyword
(`c108_keywords_fails`). -/
theorem c108_calls_partial (hp : Plain name) {R K : Type} (types : List (Req C)) (hg : ∀ t ∈ types, Good t)
    (f : List (Val C) → K → R) (args : List (Val C)) (kw : K) :
    accepts name types f args kw =
      if ∀ k (h1 : k < args.length) (h2 : k < types.length), Doc name k args[k] types[k] then some (f args kw) else none := by
  have key : checkAll name 0 args types = true ↔
      ∀ k (h1 : k < args.length) (h2 : k < types.length), Doc name k args[k] types[k] := by
    rw [checkAll_iff]
    refine forall_congr' fun k => forall_congr' fun h1 => forall_congr' fun h2 => ?_
    rw [zero_add, check_iff name hp _ _ _ (hg _ (List.getElem_mem h2))]
  unfold accepts
  by_cases h : checkAll name 0 args types = true
  · rw [if_pos h, if_pos (key.1 h)]
  · rw [if_neg h, if_neg fun h' => h (key.2 h')]

/-- **C108.** The exact meaning of a shape requirement, for all arguments and all requirements that can be read: the numbers are
the depths of their dimensions; `x` and `...` require nothing, not even that there is such a dimension. -/
theorem c108_shape_meaning (a : Val C) (c : C) (head : List Dim) (h : ∀ d ∈ head, d = .x ∨ ∃ n, d = .num n) (t : List Dim)
    (ht : t = [] ∨ t = [.dots]) (i : ℕ) :
    check name i a (.many [.cls c, .shape (head ++ t)]) = true ↔ c ∈ a.mro ∧ ∃ s, a.shape = some s ∧ s ≠ [] ∧
      ∀ k n, head[k]? = some (.num n) → k < s.length ∧ ((s.getD k 0 : ℕ) : ℤ) = n := by
  rw [← shapeOk_iff a head h t ht]
  have e : extend [Item.cls c, .shape (head ++ t)] = [Item.cls c, .shape (head ++ t)] := by
    unfold extend
    rw [if_neg (by simp)]
  unfold check
  dsimp only
  rw [e, Bool.and_eq_true, Bool.and_eq_true]
  have h1 : severalOk [Item.cls c, .shape (head ++ t)] = true := by simp [severalOk]
  have h2 : typeOk name a [Item.cls c, .shape (head ++ t)] = true ↔ c ∈ a.mro := by
    have := type_classes name a [c] [.shape (head ++ t)] (by intro d; simp)
    simpa using this
  rw [h2]
  simp only [h1, true_and, itemsOk]
  exact and_comm

/-- **C108, false of the code.** `shape=(4,x)` "can only be of 2-dimensions", but arrays of shape (4, 5, 6) and (4,) are accepted;
`shape=(4,x,...)` "can only be of 2 or more dimensions", but one of shape (4,) is accepted. -/
theorem c108_shape_fails (c : C) :
    (∀ s ∈ [[4, 5, 6], [4]], ∀ i, check name i ⟨c, [c], none, some s⟩ (.many [.cls c, .shape [.num 4, .x]]) = true ∧
      ¬ HasShape s [.num 4, .x]) ∧
    (∀ i, check name i ⟨c, [c], none, some [4]⟩ (.many [.cls c, .shape [.num 4, .x, .dots]]) = true) ∧
      ¬ HasShape [4] [.num 4, .x, .dots] := by
  have num : ∀ s : List ℕ, s ≠ [] → s.getD 0 0 = 4 → ∀ t, t = [] ∨ t = [Dim.dots] → ∀ i,
      check name i ⟨c, [c], none, some s⟩ (.many [.cls c, .shape ([.num 4, .x] ++ t)]) = true := by
    intro s hs h4 t ht i
    rw [c108_shape_meaning name _ c [.num 4, .x] (by simp) t ht i]
    refine ⟨by simp, s, rfl, hs, fun k n hk => ?_⟩
    match k with
    | 0 =>
      simp only [List.getElem?_cons_zero, Option.some.injEq, Dim.num.injEq] at hk
      exact ⟨List.length_pos_iff.2 hs, by rw [h4, ← hk]; rfl⟩
    | 1 => simp at hk
    | k + 2 => simp at hk
  refine ⟨fun s hs i => ⟨num s ?_ ?_ [] (Or.inl rfl) i, ?_⟩, fun i => num [4] (by simp) (by simp) [.dots] (Or.inr rfl) i, ?_⟩
  · rcases List.mem_cons.1 hs with rfl | hs
    · simp
    · rw [List.mem_singleton.1 hs]; simp
  · rcases List.mem_cons.1 hs with rfl | hs
    · simp
    · rw [List.mem_singleton.1 hs]; simp
  · rintro ⟨head, hh, ⟨rfl, hl⟩ | ⟨e, hl⟩, -⟩
    · rcases List.mem_cons.1 hs with rfl | hs
      · simp at hl
      · rw [List.mem_singleton.1 hs] at hl; simp at hl
    · have : Dim.dots ∈ [Dim.num 4, .x] := by rw [e]; simp
      simp at this
  · rintro ⟨head, hh, ⟨rfl, hl⟩ | ⟨e, hl⟩, -⟩
    · simp at hl
    · have := congrArg List.length e
      simp only [List.length_cons, List.length_nil, List.length_append] at this hl
      omega

/-- **C108, false of the code.** A number of dimensions required after a shape is not checked. -/
theorem c108_ndim_fails (c : C) (n : ℤ) (i : ℕ) :
    check name i ⟨c, [c], none, some [3]⟩ (.many [.cls c, .shape [.num 3], .ndim n]) = true := by
  have e : extend [Item.cls c, .shape [.num 3], .ndim n] = [Item.cls c, .shape [.num 3], .ndim n] := by
    unfold extend
    rw [if_neg (by simp)]
  unfold check
  dsimp only
  rw [e]
  simp [severalOk, itemsOk, shapeOk, dimsRead, dimsMatch, typeOk, isInstance]

/-- **C108, false of the code.** Arguments given by keyword are not checked: with all arguments given by keyword every call is
carried out. -/
theorem c108_keywords_fails {R K : Type} (types : List (Req C)) (f : List (Val C) → K → R) (kw : K) :
    accepts name types f [] kw = some (f [] kw) := by
  simp [accepts, checkAll]

/-- **C108.** A shape with `'...'` before its end is refused, whatever the argument. -/
theorem c108_dots_refused (c : C) (u v : List Dim) (d : Dim) (i : ℕ) (a : Val C) :
    check name i a (.many [.cls c, .shape (u ++ .dots :: d :: v)]) = false := by
  have hd : ∀ u : List Dim, dimsRead (u ++ .dots :: d :: v) = false := by
    intro u
    induction u with
    | nil => rfl
    | cons x u ih => cases x <;> simp [dimsRead, ih]
  have e : extend [Item.cls c, .shape (u ++ .dots :: d :: v)] = [Item.cls c, .shape (u ++ .dots :: d :: v)] := by
    unfold extend
    rw [if_neg (by simp)]
  have hs : shapeOk a (u ++ .dots :: d :: v) = false := by
    unfold shapeOk
    cases a.shape with
    | none => rfl
    | some s => simp [hd u]
  unfold check
  dsimp only
  rw [e]
  simp [itemsOk, hs]

/-- **C108.** Keys for numbers are refused among several types, whatever the argument. -/
theorem c108_several_refused (l : List (Item C)) (s : String) (hs : s ∈ ["natural_number", "positive_int", "negative_int"])
    (hl : .name s ∈ l) (i : ℕ) (a : Val C) : check name i a (.many l) = false := by
  have : severalOk (extend l) = false := by
    have hm : Item.name s ∈ extend l := by
      unfold extend
      split_ifs
      · exact List.mem_append_left _ hl
      · exact hl
    unfold severalOk
    rw [List.all_eq_false]
    refine ⟨_, hm, ?_⟩
    simp only [List.mem_cons, List.not_mem_nil, or_false] at hs
    rcases hs with rfl | rfl | rfl <;> simp
  simp [check, this]

/-! ## Examples -/

/-- Classes of the examples. -/
inductive Cls where
  | int | bool | float | list | ndarray | csr
deriving DecidableEq

/-- Their names. -/
def clsName : Cls → String
  | .int => "int" | .bool => "bool" | .float => "float" | .list => "list" | .ndarray => "ndarray" | .csr => "csr_matrix"

theorem plain_example : Plain clsName := by
  intro c
  cases c <;> decide

/-- The number 5, the truth value `True`, a list of three, an array of three, a matrix. -/
def five : Val Cls := ⟨.int, [.int], some 5, some []⟩
def yes : Val Cls := ⟨.bool, [.bool, .int], some 1, some []⟩
def three : Val Cls := ⟨.list, [.list], none, some [3]⟩
def four : Val Cls := ⟨.ndarray, [.ndarray], none, some [4]⟩
def matrix : Val Cls := ⟨.csr, [.csr], none, some [2, 2]⟩

/-- The requirement of all.py 53 is of the documented form. -/
example : Good (.many [.cls .list, .cls .float, .cls Cls.list, .ndim 1, .shape [.num 3]]) :=
  ⟨[.list, .float, .list], [.ndim 1], some [.num 3], [1], rfl, by simp, by simp, by
    simp only [Option.mem_def, Option.some.injEq, forall_eq']
    exact Or.inl ⟨[.num 3], by simp, rfl, by simp⟩⟩

/-- The call of all.py 58, and some that are refused. -/
example : let t := [.str "positive_int", .many [.cls .list, .cls .float, .cls Cls.list, .ndim 1, .shape [.num 3]]]
    accepts clsName t (fun _ _ => 7) [five, three] () = some 7 ∧ accepts clsName t (fun _ _ => 7) [five, four] () = none ∧
      accepts clsName t (fun _ _ => 7) [three, three] () = none ∧ accepts clsName t (fun _ _ => 7) [yes, three] () = some 7 := by
  decide

/-- Names do not follow subclasses, and a class after a name is not looked at (documented as bad). -/
example : check clsName 0 yes (.many [.cls .int, .name "ndarray"]) = true ∧ check clsName 0 yes (.many [.name "int"]) = false ∧
    check clsName 0 five (.many [.name "ndarray", .cls .int]) = false ∧ check clsName 1 matrix (.many [.cls .int, .name "sparse_matrix"]) = true ∧
    check clsName 1 matrix (.str "self") = false := by decide

end Mifem.Props.Accept108
