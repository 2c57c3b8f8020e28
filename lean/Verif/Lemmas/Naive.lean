import Verif.Model.Naive
import Mathlib.Data.List.Range
import Mathlib.Data.List.Nodup

/-!
# Lemmas about the naive numbering
-/

namespace Mifem.Naive

/-! ## dictionaries -/

theorem get_filter {V : Type} (d : Dict V) (k j : Nat) :
    Dict.get (d.filter fun x => x.1 != k) j = if j = k then none else Dict.get d j := by
  unfold Dict.get
  induction d with
  | nil => simp
  | cons x xs ih =>
    obtain ⟨a, v⟩ := x
    by_cases ha : a = k
    · subst ha
      simp only [List.filter_cons, bne_self_eq_false, Bool.false_eq_true, if_false]
      rw [ih]
      by_cases hj : j = a
      · simp [hj]
      · simp only [if_neg hj, List.lookup_cons]
        have : (j == a) = false := by simpa using hj
        rw [this]
    · have h1 : (a != k) = true := by simpa using ha
      simp only [List.filter_cons, h1, if_true, List.lookup_cons]
      by_cases hj : j = a
      · subst hj
        simp [ha]
      · have : (j == a) = false := by simpa using hj
        rw [this]
        exact ih

@[simp] theorem get_set {V : Type} (d : Dict V) (k j : Nat) (v : V) : (d.set k v).get j = if j = k then some v else d.get j := by
  unfold Dict.set
  by_cases hj : j = k
  · subst hj
    simp [Dict.get]
  · have h := get_filter d k j
    rw [if_neg hj] at h ⊢
    rw [← h]
    have : (j == k) = false := by simpa using hj
    simp only [Dict.get, List.lookup_cons, this]

@[simp] theorem get_del {V : Type} (d : Dict V) (k j : Nat) : (d.del k).get j = if j = k then none else d.get j := get_filter d k j

theorem get_foldl_del {V : Type} (ks : List Nat) (d : Dict V) (j : Nat) : (ks.foldl Dict.del d).get j = if j ∈ ks then none else d.get j := by
  induction ks generalizing d with
  | nil => simp
  | cons k ks ih =>
    rw [List.foldl_cons, ih, get_del]
    by_cases h : j ∈ ks <;> by_cases h' : j = k <;> simp [h, h']

variable {σ : Type} [DecidableEq σ]

/-! ## filling -/

theorem fill_spec (l : List σ) : ∀ (a : Arr σ) (c : Nat), l.Nodup →
    (∀ s, a s ≠ none → (fill l a c).1 s = a s) ∧ (∀ s, s ∉ l → (fill l a c).1 s = a s) ∧
      (fill l a c).2 = c + (l.filter fun s => (a s).isNone).length ∧
      (l.filter fun s => (a s).isNone).map (fill l a c).1 = (List.range' c (l.filter fun s => (a s).isNone).length).map some := by
  induction l with
  | nil =>
    intro a c _
    simp [fill]
  | cons s ss ih =>
    intro a c hnd
    rw [List.nodup_cons] at hnd
    cases ha : a s with
    | some v =>
      have h := ih a c hnd.2
      have hf : fill (s :: ss) a c = fill ss a c := by simp [fill, ha]
      rw [hf]
      have hfil : ((s :: ss).filter fun s => (a s).isNone) = ss.filter fun s => (a s).isNone := by simp [ha]
      rw [hfil]
      refine ⟨h.1, ?_, h.2.2.1, h.2.2.2⟩
      intro t ht
      exact h.2.1 t (fun h' => ht (List.mem_cons_of_mem _ h'))
    | none =>
      have hf : fill (s :: ss) a c = fill ss (fun x => if x = s then some c else a x) (c + 1) := by simp [fill, ha]
      rw [hf]
      have h := ih (fun x => if x = s then some c else a x) (c + 1) hnd.2
      have hfil : ((s :: ss).filter fun s => (a s).isNone) = s :: ss.filter fun s => (a s).isNone := by simp [ha]
      have hfil' : (ss.filter fun x => ((fun x => if x = s then some c else a x) x).isNone) = ss.filter fun s => (a s).isNone := by
        apply List.filter_congr
        intro x hx
        have : x ≠ s := fun h' => hnd.1 (h' ▸ hx)
        simp [this]
      rw [hfil'] at h
      rw [hfil]
      have hs : (fill ss (fun x => if x = s then some c else a x) (c + 1)).1 s = some c := by
        rw [h.1 s (by simp)]
        simp
      refine ⟨?_, ?_, ?_, ?_⟩
      · intro t ht
        have hts : t ≠ s := fun h' => ht (h' ▸ ha)
        rw [h.1 t (by simp [hts, ht])]
        simp [hts]
      · intro t ht
        have hts : t ≠ s := fun h' => ht (h' ▸ List.mem_cons_self)
        rw [h.2.1 t (fun h' => ht (List.mem_cons_of_mem _ h'))]
        simp [hts]
      · rw [h.2.2.1, List.length_cons]
        omega
      · rw [List.map_cons, hs, h.2.2.2, List.length_cons, List.range'_succ]
        rfl

theorem fill_isSome (l : List σ) (a : Arr σ) (c : Nat) (hnd : l.Nodup) (s : σ) (hs : s ∈ l) : ((fill l a c).1 s).isSome := by
  have h := fill_spec l a c hnd
  cases ha : a s with
  | some v =>
    rw [h.1 s (by simp [ha]), ha]
    rfl
  | none =>
    have hm : s ∈ l.filter fun s => (a s).isNone := by simp [hs, ha]
    have : (fill l a c).1 s ∈ (l.filter fun s => (a s).isNone).map (fill l a c).1 := List.mem_map.2 ⟨s, hm, rfl⟩
    rw [h.2.2.2] at this
    obtain ⟨v, _, hv⟩ := List.mem_map.1 this
    rw [← hv]
    rfl

/-! ## passing -/

/-- places of element `k` that receive a number from element `o` in place `a`, in the order of the loop. -/
def linksFrom (L : Layout σ) (emap : Nat → List (Option Nat)) (o k : Nat) (a : σ) : List (Nat × σ) :=
  ((emap o).zipIdx.flatMap fun x => if x.1 = some k then ((L.sides x.2).filter fun q => q.2 = a).map fun q => (o, q.1) else [])

/-- the same from all elements below `m`. -/
def links (L : Layout σ) (emap : Nat → List (Option Nat)) (m k : Nat) (a : σ) : List (Nat × σ) :=
  (List.range m).flatMap fun o => linksFrom L emap o k a

theorem links_succ (L : Layout σ) (emap : Nat → List (Option Nat)) (m k : Nat) (a : σ) :
    links L emap (m + 1) k a = links L emap m k a ++ linksFrom L emap m k a := by
  unfold links
  rw [List.range_succ, List.flatMap_append]
  simp

theorem mem_linksFrom (L : Layout σ) (emap : Nat → List (Option Nat)) (o k : Nat) (a : σ) (x : Nat × σ) :
    x ∈ linksFrom L emap o k a ↔ x.1 = o ∧ ∃ j : Nat, (emap o)[j]? = some (some k) ∧ (x.2, a) ∈ L.sides j := by
  unfold linksFrom
  rw [List.mem_flatMap]
  constructor
  · rintro ⟨⟨e, j⟩, hj, hx⟩
    rw [List.mem_zipIdx_iff_getElem?] at hj
    by_cases he : e = some k
    · rw [if_pos he] at hx
      obtain ⟨q, hq, hx⟩ := List.mem_map.1 hx
      rw [List.mem_filter] at hq
      obtain ⟨hq, hqa⟩ := hq
      have hqa : q.2 = a := by simpa using hqa
      subst hx
      refine ⟨rfl, j, ?_, ?_⟩
      · rw [← he]
        exact hj
      · rw [← hqa]
        exact hq
    · rw [if_neg he] at hx
      exact absurd hx List.not_mem_nil
  · rintro ⟨rfl, j, hj, hx⟩
    refine ⟨(some k, j), ?_, ?_⟩
    · rw [List.mem_zipIdx_iff_getElem?]
      exact hj
    · rw [if_pos rfl]
      refine List.mem_map.2 ⟨(x.2, a), ?_, rfl⟩
      rw [List.mem_filter]
      exact ⟨hx, by simp⟩

theorem mem_links (L : Layout σ) (emap : Nat → List (Option Nat)) (m k : Nat) (a : σ) (x : Nat × σ) :
    x ∈ links L emap m k a ↔ x.1 < m ∧ ∃ j : Nat, (emap x.1)[j]? = some (some k) ∧ (x.2, a) ∈ L.sides j := by
  unfold links
  rw [List.mem_flatMap]
  constructor
  · rintro ⟨o, ho, hx⟩
    rw [mem_linksFrom] at hx
    obtain ⟨rfl, h⟩ := hx
    exact ⟨List.mem_range.1 ho, h⟩
  · rintro ⟨h1, h2⟩
    exact ⟨x.1, List.mem_range.2 h1, (mem_linksFrom L emap _ k a x).2 ⟨rfl, h2⟩⟩

theorem pass_spec (pairs : List (σ × σ)) (s : Arr σ) : ∀ (t : Arr σ) (a : σ),
    pass pairs s t a = (pairs.filter fun q => q.2 = a).getLast?.elim (t a) fun q => s q.1 := by
  induction pairs with
  | nil =>
    intro t a
    rfl
  | cons q qs ih =>
    intro t a
    have : pass (q :: qs) s t = pass qs s (fun x => if x = q.2 then s q.1 else t x) := rfl
    rw [this, ih]
    by_cases hq : q.2 = a
    · have hf : ((q :: qs).filter fun q => decide (q.2 = a)) = q :: qs.filter fun q => decide (q.2 = a) := by simp [hq]
      rw [hf]
      cases hl : (qs.filter fun q => decide (q.2 = a)).getLast? with
      | none =>
        rw [List.getLast?_eq_none_iff] at hl
        rw [hl]
        simp [hq]
      | some v =>
        rw [List.getLast?_cons, hl]
        simp
    · have hf : ((q :: qs).filter fun q => decide (q.2 = a)) = qs.filter fun q => decide (q.2 = a) := by simp [hq]
      rw [hf]
      have : ¬ a = q.2 := fun h => hq h.symm
      simp [this]

/-- the value in the (possibly not yet created) array of element `k`. -/
def val (d : Dict (Arr σ)) (k : Nat) (a : σ) : Option Nat := ((d.get k).getD fun _ => none) a

theorem passAll_val (L : Layout σ) (m : Nat) (arr : Arr σ) (es : List (Option Nat)) : ∀ (j : Nat) (d : Dict (Arr σ)) (k : Nat) (a : σ),
    m < k → val (passAll L m arr j es d) k a =
      ((es.zipIdx j).flatMap fun x => if x.1 = some k then ((L.sides x.2).filter fun q => q.2 = a).map fun q => (m, q.1) else []).getLast?.elim
        (val d k a) fun x => arr x.2 := by
  induction es with
  | nil =>
    intro j d k a _
    rfl
  | cons e es ih =>
    intro j d k a hk
    rw [List.zipIdx_cons, List.flatMap_cons]
    cases e with
    | none =>
      simp only [passAll]
      rw [ih (j + 1) d k a hk, if_neg (by simp), List.nil_append]
    | some o =>
      simp only [passAll]
      by_cases ho : o > m
      · rw [if_pos ho, ih (j + 1) _ k a hk]
        by_cases hok : o = k
        · subst hok
          rw [if_pos rfl, List.getLast?_append]
          have hv : val (d.set o (pass (L.sides j) arr ((d.get o).getD fun _ => none))) o a =
              pass (L.sides j) arr ((d.get o).getD fun _ => none) a := by
            unfold val
            rw [get_set, if_pos rfl]
            rfl
          rw [hv, pass_spec]
          cases (List.flatMap (fun x => if x.1 = some o then ((L.sides x.2).filter fun q => decide (q.2 = a)).map fun q => (m, q.1) else [])
            (es.zipIdx (j + 1))).getLast? with
          | some v => rfl
          | none =>
            simp only [Option.elim_none, Option.none_or, List.getLast?_map]
            cases ((L.sides j).filter fun q => decide (q.2 = a)).getLast? <;> rfl
        · rw [if_neg (by simpa using hok), List.nil_append]
          have hv : val (d.set o (pass (L.sides j) arr ((d.get o).getD fun _ => none))) k a = val d k a := by
            unfold val
            rw [get_set, if_neg (fun h => hok h.symm)]
          rw [hv]
      · rw [if_neg ho, ih (j + 1) d k a hk, if_neg (by simp; omega), List.nil_append]

theorem passAll_val' (L : Layout σ) (emap : Nat → List (Option Nat)) (m : Nat) (arr : Arr σ) (d : Dict (Arr σ)) (k : Nat) (a : σ) (hk : m < k) :
    val (passAll L m arr 0 (emap m) d) k a = (linksFrom L emap m k a).getLast?.elim (val d k a) fun x => arr x.2 :=
  passAll_val L m arr (emap m) 0 d k a hk

theorem passAll_get (L : Layout σ) (m : Nat) (arr : Arr σ) (es : List (Option Nat)) : ∀ (j : Nat) (d : Dict (Arr σ)) (k : Nat),
    k ≤ m → (passAll L m arr j es d).get k = d.get k := by
  induction es with
  | nil =>
    intro j d k _
    rfl
  | cons e es ih =>
    intro j d k hk
    cases e with
    | none => exact ih (j + 1) d k hk
    | some o =>
      simp only [passAll]
      by_cases ho : o > m
      · rw [if_pos ho, ih (j + 1) _ k hk, get_set, if_neg (by omega)]
      · rw [if_neg ho, ih (j + 1) d k hk]

theorem passAll_mem (L : Layout σ) (m : Nat) (arr : Arr σ) (es : List (Option Nat)) : ∀ (j : Nat) (d : Dict (Arr σ)) (k : Nat),
    m < k → ((passAll L m arr j es d).get k = none ↔ d.get k = none ∧ some k ∉ es) := by
  induction es with
  | nil =>
    intro j d k _
    simp [passAll]
  | cons e es ih =>
    intro j d k hk
    cases e with
    | none =>
      simp only [passAll]
      rw [ih (j + 1) d k hk]
      simp
    | some o =>
      simp only [passAll]
      by_cases ho : o > m
      · rw [if_pos ho, ih (j + 1) _ k hk, get_set]
        by_cases hok : k = o
        · simp [hok]
        · rw [if_neg hok]
          simp [hok]
      · rw [if_neg ho, ih (j + 1) d k hk]
        have : k ≠ o := by omega
        simp [this]

/-! ## Independence of the distribution to ranks -/

/-- two states that agree from element `m` on. -/
def Agree (m : Nat) (s t : Dict (Arr σ) × Nat) : Prop := s.2 = t.2 ∧ (∀ k, m ≤ k → s.1.get k = t.1.get k) ∧ (m = 0 → s.1 = [] ∧ t.1 = [])

theorem passAll_agree (L : Layout σ) (m : Nat) (arr : Arr σ) (es : List (Option Nat)) : ∀ (j : Nat) (d e : Dict (Arr σ)),
    (∀ k, m ≤ k → d.get k = e.get k) → ∀ k, m ≤ k → (passAll L m arr j es d).get k = (passAll L m arr j es e).get k := by
  induction es with
  | nil =>
    intro j d e h k hk
    exact h k hk
  | cons x es ih =>
    intro j d e h k hk
    cases x with
    | none => exact ih (j + 1) d e h k hk
    | some o =>
      simp only [passAll]
      by_cases ho : o > m
      · rw [if_pos ho, if_pos ho]
        apply ih
        · intro i hi
          rw [get_set, get_set, h o (by omega), h i hi]
        · exact hk
      · rw [if_neg ho, if_neg ho]
        exact ih (j + 1) d e h k hk

theorem step_agree (L : Layout σ) (emap : Nat → List (Option Nat)) (m : Nat) (s t : Dict (Arr σ) × Nat) (h : Agree m s t) :
    (step L emap s m = none ∧ step L emap t m = none) ∨
      ∃ s' t', step L emap s m = some s' ∧ step L emap t m = some t' ∧ s'.1.get m = t'.1.get m ∧ (s'.1.get m).isSome ∧ Agree (m + 1) s' t' ∧
        (∀ k, k < m → s'.1.get k = s.1.get k) ∧ (∀ k, k < m → t'.1.get k = t.1.get k) := by
  obtain ⟨h1, h2, h3⟩ := h
  have key : ∀ (arr : Arr σ) (c : Nat), ∃ s' t',
      some (passAll L m arr 0 (emap m) (s.1.set m arr), c) = some s' ∧
      some (passAll L m arr 0 (emap m) (t.1.set m arr), c) = some t' ∧
      s'.1.get m = t'.1.get m ∧ (s'.1.get m).isSome ∧ Agree (m + 1) s' t' ∧
        (∀ k, k < m → s'.1.get k = s.1.get k) ∧ (∀ k, k < m → t'.1.get k = t.1.get k) := by
    intro arr c
    have hset : ∀ k, m ≤ k → (s.1.set m arr).get k = (t.1.set m arr).get k := by
      intro k hk
      rw [get_set, get_set, h2 k hk]
    refine ⟨_, _, rfl, rfl, ?_, ?_, ⟨rfl, ?_, ?_⟩, ?_, ?_⟩
    · exact passAll_agree L m arr _ 0 _ _ hset m (Nat.le_refl m)
    · rw [passAll_get L m arr _ 0 _ m (Nat.le_refl m), get_set, if_pos rfl]
      rfl
    · intro k hk
      exact passAll_agree L m arr _ 0 _ _ hset k (by omega)
    · intro hk
      omega
    · intro k hk
      rw [passAll_get L m arr _ 0 _ k (by omega), get_set, if_neg (by omega)]
    · intro k hk
      rw [passAll_get L m arr _ 0 _ k (by omega), get_set, if_neg (by omega)]
  unfold step
  by_cases hm : m = 0
  · obtain ⟨e1, e2⟩ := h3 hm
    simp only [if_pos hm, e1, e2, List.isEmpty_nil, if_true]
    right
    have := key (fill L.first (fun _ => none) s.2).1 (fill L.first (fun _ => none) s.2).2
    rw [e1, e2] at this
    rw [← h1]
    exact this
  · simp only [if_neg hm]
    rw [← h2 m (Nat.le_refl m), ← h1]
    cases s.1.get m with
    | none => exact Or.inl ⟨rfl, rfl⟩
    | some a => exact Or.inr (key _ _)

theorem steps_agree (L : Layout σ) (emap : Nat → List (Option Nat)) (n : Nat) : ∀ (m : Nat) (s t : Dict (Arr σ) × Nat), Agree m s t →
    (steps L emap s (List.range' m n) = none ∧ steps L emap t (List.range' m n) = none) ∨
      ∃ s' t', steps L emap s (List.range' m n) = some s' ∧ steps L emap t (List.range' m n) = some t' ∧ Agree (m + n) s' t' ∧
        (∀ k, m ≤ k → k < m + n → s'.1.get k = t'.1.get k ∧ (s'.1.get k).isSome) ∧
        (∀ k, k < m → s'.1.get k = s.1.get k) ∧ (∀ k, k < m → t'.1.get k = t.1.get k) := by
  induction n with
  | zero =>
    intro m s t h
    right
    exact ⟨s, t, rfl, rfl, h, fun k h1 h2 => by omega, fun _ _ => rfl, fun _ _ => rfl⟩
  | succ n ih =>
    intro m s t h
    rw [List.range'_succ]
    simp only [steps]
    rcases step_agree L emap m s t h with ⟨h1, h2⟩ | ⟨s1, t1, h1, h2, h3, h3', h4, h5, h6⟩
    · rw [h1, h2]
      exact Or.inl ⟨rfl, rfl⟩
    · rw [h1, h2]
      simp only [Option.bind_some]
      rcases ih (m + 1) s1 t1 h4 with ⟨g1, g2⟩ | ⟨s2, t2, g1, g2, g3, g4, g5, g6⟩
      · exact Or.inl ⟨g1, g2⟩
      · refine Or.inr ⟨s2, t2, g1, g2, ?_, ?_, ?_, ?_⟩
        · have : m + (n + 1) = m + 1 + n := by omega
          rw [this]
          exact g3
        · intro k hk1 hk2
          by_cases hk : k = m
          · subst hk
            rw [g5 k (by omega), g6 k (by omega)]
            exact ⟨h3, h3'⟩
          · exact g4 k (by omega) (by omega)
        · intro k hk
          rw [g5 k (by omega), h5 k hk]
        · intro k hk
          rw [g6 k (by omega), h6 k hk]

theorem collect_congr (d e : Dict (Arr σ)) (ks : List Nat) (h : ∀ k ∈ ks, d.get k = e.get k) : collect d ks = collect e ks := by
  induction ks with
  | nil => rfl
  | cons k ks ih =>
    simp only [collect]
    rw [h k List.mem_cons_self, ih fun k hk => h k (List.mem_cons_of_mem _ hk)]

theorem collect_append (d : Dict (Arr σ)) (ks ls : List Nat) :
    collect d (ks ++ ls) = (collect d ks).bind fun a => (collect d ls).map fun b => a ++ b := by
  induction ks with
  | nil =>
    simp [collect]
  | cons k ks ih =>
    simp only [collect, List.cons_append, ih]
    cases d.get k with
    | none => rfl
    | some a =>
      simp only [Option.bind_some]
      cases collect d ks with
      | none => rfl
      | some u => cases collect d ls <;> rfl

theorem collect_isSome (d : Dict (Arr σ)) (ks : List Nat) (h : ∀ k ∈ ks, (d.get k).isSome) : ∃ out, collect d ks = some out ∧
    out.map Prod.fst = ks ∧ ∀ x ∈ out, d.get x.1 = some x.2 := by
  induction ks with
  | nil => exact ⟨[], rfl, rfl, fun x hx => absurd hx List.not_mem_nil⟩
  | cons k ks ih =>
    obtain ⟨out, h1, h2, h3⟩ := ih fun k hk => h k (List.mem_cons_of_mem _ hk)
    obtain ⟨a, ha⟩ := Option.isSome_iff_exists.1 (h k List.mem_cons_self)
    refine ⟨(k, a) :: out, ?_, ?_, ?_⟩
    · simp [collect, ha, h1]
    · simp [h2]
    · intro x hx
      rcases List.mem_cons.1 hx with rfl | hx
      · exact ha
      · exact h3 x hx

theorem steps_append (L : Layout σ) (emap : Nat → List (Option Nat)) (s : Dict (Arr σ) × Nat) (a b : List Nat) :
    steps L emap s (a ++ b) = (steps L emap s a).bind fun s' => steps L emap s' b := by
  induction a generalizing s with
  | nil => rfl
  | cons k ks ih =>
    simp only [List.cons_append, steps]
    cases step L emap s k with
    | none => rfl
    | some s' => exact ih s'

/-- a list that starts an interval is an interval. -/
theorem range'_split (a b : List Nat) (m n : Nat) (h : a ++ b = List.range' m n) :
    a = List.range' m a.length ∧ b = List.range' (m + a.length) b.length ∧ a.length + b.length = n := by
  have hlen : a.length + b.length = n := by
    have := congrArg List.length h
    simpa using this
  have hs : List.range' m n = List.range' m a.length ++ List.range' (m + a.length) b.length := by
    rw [← hlen, ← List.range'_append_1]
  rw [hs] at h
  have := List.append_inj h (by simp)
  exact ⟨this.1, this.2, hlen⟩

/-- the run over several ranks does the same as the run over one. -/
theorem run_eq (L : Layout σ) (emap : Nat → List (Option Nat)) : ∀ (ranks : List (List Nat)) (m n : Nat) (s t : Dict (Arr σ) × Nat),
    ranks.flatten = List.range' m n → Agree m s t →
    (run L emap s ranks).map List.flatten = (steps L emap t (List.range' m n)).bind fun t' => collect t'.1 (List.range' m n) := by
  intro ranks
  induction ranks with
  | nil =>
    intro m n s t hr _
    rw [List.flatten_nil] at hr
    rw [← hr]
    rfl
  | cons els rest ih =>
    intro m n s t hr hag
    rw [List.flatten_cons] at hr
    obtain ⟨h1, h2, h3⟩ := range'_split _ _ _ _ hr
    simp only [run]
    rw [← hr]
    conv_rhs => rw [steps_append]
    rw [h1]
    rcases steps_agree L emap els.length m s t hag with ⟨g1, g2⟩ | ⟨s', t', g1, g2, g3, g4, g5, g6⟩
    · rw [g1, g2]
      rfl
    · rw [g1, g2]
      simp only [Option.bind_some]
      have hmem : ∀ k, k ∈ List.range' m els.length → m ≤ k ∧ k < m + els.length := by
        intro k hk
        rw [List.mem_range'_1] at hk
        exact hk
      obtain ⟨out, ho, _, _⟩ := collect_isSome s'.1 (List.range' m els.length) fun k hk => (g4 k (hmem k hk).1 (hmem k hk).2).2
      rw [ho]
      simp only [Option.bind_some]
      have hag' : Agree (m + els.length) ((List.range' m els.length).foldl Dict.del s'.1, s'.2) t' := by
        refine ⟨g3.1, ?_, ?_⟩
        · intro k hk
          rw [get_foldl_del, if_neg]
          · exact g3.2.1 k hk
          · intro hm
            have := hmem k hm
            omega
        · intro h0
          have hm0 : m = 0 := by omega
          have hl0 : els.length = 0 := by omega
          rw [hl0]
          exact g3.2.2 h0
      have hih := ih (m + els.length) rest.flatten.length _ t' h2 hag'
      rw [Option.map_map]
      have hmap : (run L emap ((List.range' m els.length).foldl Dict.del s'.1, s'.2) rest).map (List.flatten ∘ fun r => out :: r) =
          ((run L emap ((List.range' m els.length).foldl Dict.del s'.1, s'.2) rest).map List.flatten).map fun b => out ++ b := by
        rw [Option.map_map]
        rfl
      rw [hmap, hih, ← h2]
      cases hst : steps L emap t' rest.flatten with
      | none => rfl
      | some t'' =>
        simp only [Option.bind_some]
        rw [collect_append]
        have hkeep : collect t''.1 (List.range' m els.length) = some out := by
          rw [← ho]
          apply collect_congr
          intro k hk
          have hk' := hmem k hk
          rw [(g4 k hk'.1 hk'.2).1]
          have hself : Agree (m + els.length) t' t' := ⟨rfl, fun _ _ => rfl, fun h0 => ⟨(g3.2.2 h0).2, (g3.2.2 h0).2⟩⟩
          rcases steps_agree L emap rest.flatten.length (m + els.length) t' t' hself with ⟨q1, _⟩ | ⟨u, _, q1, _, _, _, q5, _⟩
          · rw [← h2, hst] at q1
            exact absurd q1 (by simp)
          · rw [← h2, hst] at q1
            have : t'' = u := by simpa using q1
            rw [this]
            exact q5 k hk'.2
        rw [hkeep]
        rfl

end Mifem.Naive
