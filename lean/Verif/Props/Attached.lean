import Mathlib.Tactic.IntervalCases
import Mathlib.Data.List.Nodup
import Mathlib.Data.List.GetD
import Verif.Model.Attached

/-!
# C109: edge, trace and node elements attached to each other

Specification: the corners, edges and sides of the unit cube by coordinates.
-/

namespace Mifem.Props.Attached109
open Mifem.Attached
open Mifem.EdgeEl (occurrences)

/-! ## Specification -/

/-- Corner `c` of the cube, numbered with the first coordinate fastest, has these coordinates. -/
def coord (c k : ℕ) : ℕ := c / 2 ^ k % 2

/-- Corner `c` is an end of edge `d`.  Edges 0-3 have the first direction, 4-7 the second, 8-11 the third; within a direction
they are numbered by the two other coordinates, the lower one fastest. -/
def endOf (c d : ℕ) : Prop :=
  if d / 4 = 0 then coord c 1 = d % 2 ∧ coord c 2 = d / 2 % 2
  else if d / 4 = 1 then coord c 0 = d % 2 ∧ coord c 2 = d / 2 % 2
  else coord c 0 = d % 2 ∧ coord c 1 = d / 2 % 2

/-- Corner `c` is on side `s`: sides 0, 1 are the ends of the first direction, and so on. -/
def onSide (c s : ℕ) : Prop := coord c (s / 2) = s % 2

instance (c d : ℕ) : Decidable (endOf c d) := by unfold endOf; infer_instance
instance (c s : ℕ) : Decidable (onSide c s) := by unfold onSide; infer_instance

/-- Edge `d` is in side `s`: its ends are. -/
def edgeIn (d s : ℕ) : Prop := ∀ c < 8, endOf c d → onSide c s

instance (d s : ℕ) : Decidable (edgeIn d s) := by unfold edgeIn; infer_instance

/-- Edge element `x` has node element `i` as an end, in some mesh element. -/
def EdgeAtNode (nmap emap : ℕ → List ℕ) (N i x : ℕ) : Prop :=
  ∃ e < N, ∃ c < 8, ∃ d < 12, (nmap e)[c]? = some i ∧ (emap e)[d]? = some x ∧ endOf c d

/-- Trace element `x` has node element `i` as a corner. -/
def TraceAtNode (nmap tmap : ℕ → List ℕ) (N i x : ℕ) : Prop :=
  ∃ e < N, ∃ c < 8, ∃ s < 6, (nmap e)[c]? = some i ∧ (tmap e)[s]? = some x ∧ onSide c s

/-- Trace element `x` has edge element `i` in its boundary. -/
def TraceAtEdge (emap tmap : ℕ → List ℕ) (N i x : ℕ) : Prop :=
  ∃ e < N, ∃ d < 12, ∃ s < 6, (emap e)[d]? = some i ∧ (tmap e)[s]? = some x ∧ edgeIn d s

/-- The mesh elements 0, ..., N-1 are distributed over the cores. -/
def Distributed (N : ℕ) (cores : List (List ℕ)) : Prop := ∀ e, e < N ↔ ∃ c ∈ cores, e ∈ c

/-! ## Sets -/

theorem mem_update (s l : List ℕ) (x : ℕ) : x ∈ update s l ↔ x ∈ s ∨ x ∈ l := by
  unfold update
  induction l generalizing s with
  | nil => simp
  | cons a l ih =>
    rw [List.foldl_cons, ih]
    by_cases h : a ∈ s
    · rw [if_pos (by simpa using h)]
      simp only [List.mem_cons]
      constructor
      · rintro (h1 | h1)
        · exact Or.inl h1
        · exact Or.inr (Or.inr h1)
      · rintro (h1 | rfl | h1)
        · exact Or.inl h1
        · exact Or.inl h
        · exact Or.inr h1
    · rw [if_neg (by simpa using h)]
      simp only [List.mem_append, List.mem_cons, List.not_mem_nil, or_false, or_assoc]

theorem nodup_update (s l : List ℕ) (hs : s.Nodup) : (update s l).Nodup := by
  unfold update
  induction l generalizing s with
  | nil => exact hs
  | cons a l ih =>
    rw [List.foldl_cons]
    apply ih
    by_cases h : a ∈ s
    · rwa [if_pos (by simpa using h)]
    · rw [if_neg (by simpa using h)]
      exact List.Nodup.append hs (by simp) (by simpa using h)

theorem merge_some (l : List (List ℕ)) :
    ∃ s, merge (l.map some) = some s ∧ s.Nodup ∧ ∀ x, x ∈ s ↔ ∃ a ∈ l, x ∈ a := by
  have key : ∀ s0 : List ℕ, s0.Nodup → ∃ s, (l.map some).foldl (fun s x => match s, x with
      | some s, some l => some (update s l)
      | _, _ => none) (some s0) = some s ∧ s.Nodup ∧ ∀ x, x ∈ s ↔ x ∈ s0 ∨ ∃ a ∈ l, x ∈ a := by
    induction l with
    | nil => exact fun s0 h => ⟨s0, rfl, h, by simp⟩
    | cons a l ih =>
      intro s0 h
      obtain ⟨s, e, hn, hx⟩ := ih (update s0 a) (nodup_update _ _ h)
      refine ⟨s, e, hn, fun x => ?_⟩
      rw [hx, mem_update]
      simp [or_assoc]
  obtain ⟨s, e, hn, hx⟩ := key [] (by simp)
  exact ⟨s, e, hn, by simpa using hx⟩

theorem merge_none (l : List (Option (List ℕ))) (h : none ∈ l) : merge l = none := by
  have stay : ∀ l : List (Option (List ℕ)), l.foldl (fun s x => match s, x with
      | some s, some l => some (update s l)
      | _, _ => none) none = none := by
    intro l
    induction l with
    | nil => rfl
    | cons a l ih => exact ih
  have key : ∀ s0 : Option (List ℕ), l.foldl (fun s x => match s, x with
      | some s, some l => some (update s l)
      | _, _ => none) s0 = none := by
    induction l with
    | nil => simp at h
    | cons a l ih =>
      intro s0
      rw [List.foldl_cons]
      rcases List.mem_cons.1 h with rfl | h
      · cases s0 <;> exact stay l
      · exact ih h _
  exact key _

/-! ## Positions -/

theorem mem_positions {α : Type} (names : List α) (map : ℕ → List ℕ) (N i e : ℕ) (a : α) :
    (e, a) ∈ positions names map N i ↔ e < N ∧ ∃ k : ℕ, (map e)[k]? = some i ∧ names[k]? = some a := by
  simp only [positions, occurrences, List.mem_map, List.mem_filter, List.mem_flatMap, List.mem_range, Prod.exists]
  constructor
  · rintro ⟨x, e', a', ⟨⟨m, hm, y, b, hz, h1⟩, hi⟩, h2⟩
    simp only [Prod.mk.injEq] at h1 h2
    obtain ⟨rfl, rfl, rfl⟩ := h1
    obtain ⟨rfl, rfl⟩ := h2
    obtain rfl : y = i := by simpa using hi
    obtain ⟨k, hk⟩ := List.mem_iff_getElem?.1 hz
    rw [List.getElem?_zip_eq_some] at hk
    exact ⟨hm, k, hk⟩
  · rintro ⟨he, k, hk⟩
    refine ⟨i, e, a, ⟨⟨e, he, i, a, ?_, rfl⟩, by simp⟩, rfl⟩
    exact List.mem_iff_getElem?.2 ⟨k, List.getElem?_zip_eq_some.2 hk⟩

theorem isLocal_iff (map : ℕ → List ℕ) (core : List ℕ) (i : ℕ) : isLocal map core i = true ↔ ∃ e ∈ core, i ∈ map e := by
  simp [isLocal]

/-! ## Nodes -/

theorem nodeFind_mem (nmap : ℕ → List ℕ) (N i : ℕ) (pick : ℕ → Side × Side × Side → List ℕ) (core : List ℕ)
    (h : isLocal nmap core i = true) : ∃ s, nodeFind cornerNames nmap N i pick core = some s ∧
      ∀ x, x ∈ s ↔ ∃ e ∈ core, ∃ c, (e, c) ∈ positions cornerNames nmap N i ∧ x ∈ pick e c := by
  refine ⟨_, by rw [nodeFind, if_pos h], fun x => ?_⟩
  have key : ∀ (ps : List (ℕ × Side × Side × Side)) (s0 : List ℕ),
      x ∈ ps.foldl (fun s p => if core.contains p.1 then update s (pick p.1 p.2) else s) s0 ↔
        x ∈ s0 ∨ ∃ e ∈ core, ∃ c, (e, c) ∈ ps ∧ x ∈ pick e c := by
    intro ps
    induction ps with
    | nil => simp
    | cons p ps ih =>
      intro s0
      rw [List.foldl_cons, ih]
      by_cases hp : p.1 ∈ core
      · rw [if_pos (by simpa using hp), mem_update]
        constructor
        · rintro ((h1 | h1) | ⟨e, he, c, h1, h2⟩)
          · exact Or.inl h1
          · exact Or.inr ⟨p.1, hp, p.2, by simp, h1⟩
          · exact Or.inr ⟨e, he, c, by simp [h1], h2⟩
        · rintro (h1 | ⟨e, he, c, h1, h2⟩)
          · exact Or.inl (Or.inl h1)
          · rcases List.mem_cons.1 h1 with h1 | h1
            · subst h1
              exact Or.inl (Or.inr h2)
            · exact Or.inr ⟨e, he, c, h1, h2⟩
      · rw [if_neg (by simpa using hp)]
        refine or_congr_right ⟨?_, ?_⟩
        · rintro ⟨e, he, c, h1, h2⟩
          exact ⟨e, he, c, by simp [h1], h2⟩
        · rintro ⟨e, he, c, h1, h2⟩
          rcases List.mem_cons.1 h1 with h1 | h1
          · subst h1
            exact absurd he hp
          · exact ⟨e, he, c, h1, h2⟩
  rw [key]
  simp

/-- All that the cores find together. -/
theorem node_all (nmap : ℕ → List ℕ) (N i : ℕ) (pick : ℕ → Side × Side × Side → List ℕ) (cores : List (List ℕ))
    (hd : Distributed N cores) (h : ∀ core ∈ cores, isLocal nmap core i = true) :
    ∃ s, merge (cores.map (nodeFind cornerNames nmap N i pick)) = some s ∧ s.Nodup ∧
      ∀ x, x ∈ s ↔ ∃ e < N, ∃ (c : ℕ) (a : Side × Side × Side), (nmap e)[c]? = some i ∧ cornerNames[c]? = some a ∧ x ∈ pick e a := by
  have e1 : cores.map (nodeFind cornerNames nmap N i pick) =
      (cores.map fun core => (nodeFind cornerNames nmap N i pick core).getD []).map some := by
    rw [List.map_map]
    refine List.map_congr_left fun core hc => ?_
    obtain ⟨s, e, -⟩ := nodeFind_mem nmap N i pick core (h core hc)
    simp [e]
  obtain ⟨s, e, hn, hx⟩ := merge_some (cores.map fun core => (nodeFind cornerNames nmap N i pick core).getD [])
  refine ⟨s, by rw [e1, e], hn, fun x => ?_⟩
  rw [hx]
  constructor
  · rintro ⟨a, ha, hxa⟩
    obtain ⟨core, hc, rfl⟩ := List.mem_map.1 ha
    obtain ⟨s', e', hx'⟩ := nodeFind_mem nmap N i pick core (h core hc)
    rw [e', Option.getD_some, hx'] at hxa
    obtain ⟨e, -, c, hp, hpick⟩ := hxa
    obtain ⟨he, k, h1, h2⟩ := (mem_positions _ _ _ _ _ _).1 hp
    exact ⟨e, he, k, c, h1, h2, hpick⟩
  · rintro ⟨e, he, k, c, h1, h2, hpick⟩
    obtain ⟨core, hc, hec⟩ := (hd e).1 he
    obtain ⟨s', e', hx'⟩ := nodeFind_mem nmap N i pick core (h core hc)
    refine ⟨_, List.mem_map_of_mem hc, ?_⟩
    rw [e', Option.getD_some, hx']
    exact ⟨e, hec, c, (mem_positions _ _ _ _ _ _).2 ⟨he, k, h1, h2⟩, hpick⟩

theorem mem_getD (l : List ℕ) (n : ℕ) (hl : l.length = n) (ds : List ℕ) (hds : ∀ d ∈ ds, d < n) (x : ℕ) :
    x ∈ ds.map (fun d => l.getD d 0) ↔ ∃ d < n, l[d]? = some x ∧ d ∈ ds := by
  rw [List.mem_map]
  constructor
  · rintro ⟨d, hd, rfl⟩
    have h := hds d hd
    refine ⟨d, h, ?_, hd⟩
    rw [List.getD_eq_getElem _ _ (by omega), List.getElem?_eq_getElem (by omega)]
  · rintro ⟨d, -, h, hd⟩
    exact ⟨d, hd, by rw [List.getD_eq_getElem?_getD, h]; rfl⟩

/-- The indices of the edges at a corner. -/
theorem edge_table : ∀ c < 8, ∀ a, cornerNames[c]? = some a →
    (∀ d ∈ [(a.1, a.2.1), (a.1, a.2.2), (a.2.1, a.2.2)].map edgeNames.idxOf, d < 12) ∧
      ∀ d < 12, d ∈ [(a.1, a.2.1), (a.1, a.2.2), (a.2.1, a.2.2)].map edgeNames.idxOf ↔ endOf c d := by
  intro c hc
  interval_cases c <;> (intro a ha; simp only [cornerNames, List.getElem?_cons_zero, List.getElem?_cons_succ, Option.some.injEq] at ha; subst ha; decide)

theorem side_table : ∀ c < 8, ∀ a, cornerNames[c]? = some a →
    (∀ d ∈ [a.1, a.2.1, a.2.2].map sideNames.idxOf, d < 6) ∧
      ∀ d < 6, d ∈ [a.1, a.2.1, a.2.2].map sideNames.idxOf ↔ onSide c d := by
  intro c hc
  interval_cases c <;> (intro a ha; simp only [cornerNames, List.getElem?_cons_zero, List.getElem?_cons_succ, Option.some.injEq] at ha; subst ha; decide)

theorem corner_lt {c : ℕ} {a} (h : cornerNames[c]? = some a) : c < 8 := by
  have := (List.getElem?_eq_some_iff.1 h).1
  simpa [cornerNames] using this

theorem corner_name {c : ℕ} (h : c < 8) : ∃ a, cornerNames[c]? = some a :=
  ⟨_, List.getElem?_eq_getElem (by simpa [cornerNames] using h)⟩

/-- **C109, what holds.** For all meshes (maps of node and edge elements), distributions over cores, and node elements that are on
all cores: the list has no duplicates and contains exactly the edge elements that have the node element as an end.
Missing: node elements that are not on all cores (`c109_cores_fails`). -/
theorem c109_node_edges_partial (nmap emap : ℕ → List ℕ) (N : ℕ) (cores : List (List ℕ)) (i : ℕ)
    (he : ∀ e < N, (emap e).length = 12) (hd : Distributed N cores) (h : ∀ core ∈ cores, ∃ e ∈ core, i ∈ nmap e) :
    ∃ l, nodeEdges nmap emap N cores i = some l ∧ l.Nodup ∧ ∀ x, x ∈ l ↔ EdgeAtNode nmap emap N i x := by
  obtain ⟨s, e, hn, hx⟩ := node_all nmap N i (edgesAt emap) cores hd fun core hc => (isLocal_iff _ _ _).2 (h core hc)
  refine ⟨s, e, hn, fun x => ?_⟩
  rw [hx]
  refine exists_congr fun m => and_congr_right fun hm => ?_
  constructor
  · rintro ⟨c, a, h1, h2, h3⟩
    have hc := corner_lt h2
    obtain ⟨t1, t2⟩ := edge_table c hc a h2
    unfold edgesAt at h3
    rw [← Function.comp_def (fun d => (emap m).getD d 0) edgeNames.idxOf, ← List.map_map, mem_getD _ 12 (he m hm) _ t1] at h3
    obtain ⟨d, h4, h5, h6⟩ := h3
    exact ⟨c, hc, d, h4, h1, h5, (t2 d h4).1 h6⟩
  · rintro ⟨c, hc, d, h4, h1, h5, h6⟩
    obtain ⟨a, ha⟩ := corner_name hc
    obtain ⟨t1, t2⟩ := edge_table c hc a ha
    refine ⟨c, a, h1, ha, ?_⟩
    unfold edgesAt
    rw [← Function.comp_def (fun d => (emap m).getD d 0) edgeNames.idxOf, ← List.map_map, mem_getD _ 12 (he m hm) _ t1]
    exact ⟨d, h4, h5, (t2 d h4).2 h6⟩

/-- **C109, what holds.** The same for trace elements with the node element as a corner. -/
theorem c109_node_traces_partial (nmap tmap : ℕ → List ℕ) (N : ℕ) (cores : List (List ℕ)) (i : ℕ)
    (he : ∀ e < N, (tmap e).length = 6) (hd : Distributed N cores) (h : ∀ core ∈ cores, ∃ e ∈ core, i ∈ nmap e) :
    ∃ l, nodeTraces nmap tmap N cores i = some l ∧ l.Nodup ∧ ∀ x, x ∈ l ↔ TraceAtNode nmap tmap N i x := by
  obtain ⟨s, e, hn, hx⟩ := node_all nmap N i (tracesAt tmap) cores hd fun core hc => (isLocal_iff _ _ _).2 (h core hc)
  refine ⟨s, e, hn, fun x => ?_⟩
  rw [hx]
  refine exists_congr fun m => and_congr_right fun hm => ?_
  constructor
  · rintro ⟨c, a, h1, h2, h3⟩
    have hc := corner_lt h2
    obtain ⟨t1, t2⟩ := side_table c hc a h2
    unfold tracesAt at h3
    rw [← Function.comp_def (fun d => (tmap m).getD d 0) sideNames.idxOf, ← List.map_map, mem_getD _ 6 (he m hm) _ t1] at h3
    obtain ⟨d, h4, h5, h6⟩ := h3
    exact ⟨c, hc, d, h4, h1, h5, (t2 d h4).1 h6⟩
  · rintro ⟨c, hc, d, h4, h1, h5, h6⟩
    obtain ⟨a, ha⟩ := corner_name hc
    obtain ⟨t1, t2⟩ := side_table c hc a ha
    refine ⟨c, a, h1, ha, ?_⟩
    unfold tracesAt
    rw [← Function.comp_def (fun d => (tmap m).getD d 0) sideNames.idxOf, ← List.map_map, mem_getD _ 6 (he m hm) _ t1]
    exact ⟨d, h4, h5, (t2 d h4).2 h6⟩

/-- **C109, false of the code.** As soon as one core has no mesh element with the node element, both calls end with an exception
(`update(None)`), on all cores. -/
theorem c109_cores_fails (nmap emap tmap : ℕ → List ℕ) (N : ℕ) (cores : List (List ℕ)) (i : ℕ) (core : List ℕ) (hc : core ∈ cores)
    (h : ∀ e ∈ core, i ∉ nmap e) : nodeEdges nmap emap N cores i = none ∧ nodeTraces nmap tmap N cores i = none := by
  have hl : isLocal nmap core i = false := by
    rw [← Bool.not_eq_true, isLocal_iff]
    rintro ⟨e, he, hi⟩
    exact h e he hi
  constructor
  · exact merge_none _ (List.mem_map.2 ⟨core, hc, by rw [nodeFind, if_neg (by simp [hl])]⟩)
  · exact merge_none _ (List.mem_map.2 ⟨core, hc, by rw [nodeFind, if_neg (by simp [hl])]⟩)

/-! ## Edges -/

theorem edge_side_table : ∀ d < 12, ∀ a, edgeNames[d]? = some a →
    (∀ s ∈ [a.1, a.2].map sideNames.idxOf, s < 6) ∧ ∀ s < 6, s ∈ [a.1, a.2].map sideNames.idxOf ↔ edgeIn d s := by
  intro d hd
  interval_cases d <;> (intro a ha; simp only [edgeNames, List.getElem?_cons_zero, List.getElem?_cons_succ, Option.some.injEq] at ha; subst ha; decide)

theorem edge_lt {d : ℕ} {a} (h : edgeNames[d]? = some a) : d < 12 := by
  have := (List.getElem?_eq_some_iff.1 h).1
  simpa [edgeNames] using this

/-- **C109.** For all meshes, distributions over cores and edge elements: the trace elements found are exactly those with the edge
element in their boundary, without duplicates; the call is refused when these are not 2 to 5. -/
theorem c109_edge_traces (emap tmap : ℕ → List ℕ) (N : ℕ) (cores : List (List ℕ)) (i : ℕ)
    (ht : ∀ e < N, (tmap e).length = 6) (hd : Distributed N cores) :
    ∃ l : List ℕ, l.Nodup ∧ (∀ x, x ∈ l ↔ TraceAtEdge emap tmap N i x) ∧
      edgeTraces emap tmap N cores i = if 2 ≤ l.length ∧ l.length ≤ 5 then some l else none := by
  have key : ∀ (os : List (Option (List ℕ))) (s0 : List ℕ), s0.Nodup →
      (os.foldl (fun s x => match x with
        | some l => update s l
        | none => s) s0).Nodup ∧ ∀ x, x ∈ os.foldl (fun s x => match x with
        | some l => update s l
        | none => s) s0 ↔ x ∈ s0 ∨ ∃ l, some l ∈ os ∧ x ∈ l := by
    intro os
    induction os with
    | nil => exact fun s0 h => ⟨h, by simp⟩
    | cons o os ih =>
      intro s0 h
      cases o with
      | none =>
        obtain ⟨h1, h2⟩ := ih s0 h
        exact ⟨h1, fun x => (h2 x).trans (by simp)⟩
      | some l =>
        obtain ⟨h1, h2⟩ := ih (update s0 l) (nodup_update _ _ h)
        refine ⟨h1, fun x => (h2 x).trans ?_⟩
        rw [mem_update]
        simp [or_assoc, or_and_right, exists_or]
  obtain ⟨h1, h2⟩ := key (cores.map (edgeFind emap tmap N i)) [] (by simp)
  refine ⟨_, h1, fun x => ?_, rfl⟩
  rw [h2]
  simp only [List.not_mem_nil, false_or, List.mem_map]
  constructor
  · rintro ⟨l, ⟨core, hc, e⟩, hx⟩
    unfold edgeFind at e
    by_cases hl : isLocal emap core i = true
    · rw [if_pos hl, Option.some.injEq] at e
      subst e
      obtain ⟨p, hp, hx⟩ := List.mem_flatMap.1 hx
      by_cases hpc : core.contains p.1 = true
      · rw [if_pos hpc] at hx
        obtain ⟨m, a⟩ := p
        obtain ⟨hm, k, h3, h4⟩ := (mem_positions _ _ _ _ _ _).1 hp
        have hk := edge_lt h4
        obtain ⟨t1, t2⟩ := edge_side_table k hk a h4
        rw [← Function.comp_def (fun d => (tmap m).getD d 0) sideNames.idxOf, ← List.map_map, mem_getD _ 6 (ht m hm) _ t1] at hx
        obtain ⟨s, h5, h6, h7⟩ := hx
        exact ⟨m, hm, k, hk, s, h5, h3, h6, (t2 s h5).1 h7⟩
      · rw [if_neg hpc] at hx
        simp at hx
    · rw [if_neg hl] at e
      simp at e
  · rintro ⟨m, hm, d, hdd, s, hs, h3, h4, h5⟩
    obtain ⟨core, hc, hmc⟩ := (hd m).1 hm
    have hl : isLocal emap core i = true := (isLocal_iff _ _ _).2 ⟨m, hmc, List.mem_iff_getElem?.2 ⟨d, h3⟩⟩
    refine ⟨_, ⟨core, hc, by rw [edgeFind, if_pos hl]⟩, ?_⟩
    obtain ⟨a, ha⟩ : ∃ a, edgeNames[d]? = some a := ⟨_, List.getElem?_eq_getElem (by simpa [edgeNames] using hdd)⟩
    obtain ⟨t1, t2⟩ := edge_side_table d hdd a ha
    refine List.mem_flatMap.2 ⟨(m, a), (mem_positions _ _ _ _ _ _).2 ⟨hm, d, h3, ha⟩, ?_⟩
    rw [if_pos (by simpa using hmc), ← Function.comp_def (fun d => (tmap m).getD d 0) sideNames.idxOf, ← List.map_map,
      mem_getD _ 6 (ht m hm) _ t1]
    exact ⟨s, hs, h4, (t2 s hs).2 h5⟩

/-! ## Trace elements -/

/-- A place of trace element `i`. -/
def Place (tmap : ℕ → List ℕ) (N i e s : ℕ) : Prop := e < N ∧ s < 6 ∧ (tmap e)[s]? = some i

theorem charac_place (tmap : ℕ → List ℕ) (N : ℕ) (ht : ∀ e < N, (tmap e).length = 6) (core : List ℕ) (hcore : ∀ e ∈ core, e < N)
    (i : ℕ) (p : ℕ × ℕ) (h : charac tmap core i = some p) : p.1 ∈ core ∧ Place tmap N i p.1 p.2 := by
  unfold charac at h
  obtain ⟨e, he, rfl⟩ := Option.map_eq_some_iff.1 h
  have h1 := List.mem_of_find?_eq_some he
  have h2 : i ∈ tmap e := by simpa using List.find?_some he
  have h3 := List.idxOf_lt_length_of_mem h2
  refine ⟨h1, hcore e h1, by rw [← ht e (hcore e h1)]; exact h3, ?_⟩
  rw [List.getElem?_eq_getElem h3, List.getElem_idxOf]

theorem charac_some (tmap : ℕ → List ℕ) (core : List ℕ) (i e : ℕ) (he : e ∈ core) (hi : i ∈ tmap e) :
    ∃ p, charac tmap core i = some p := by
  unfold charac
  cases h : core.find? fun e => (tmap e).contains i with
  | none =>
    have := List.find?_eq_none.1 h e he
    simp [hi] at this
  | some e' => exact ⟨_, rfl⟩

theorem firstSome_some {α : Type} (l : List (Option α)) (x : α) (h : some x ∈ l) : ∃ y, firstSome l = some y ∧ some y ∈ l := by
  unfold firstSome
  cases e : l.findSome? id with
  | none =>
    have := List.findSome?_eq_none_iff.1 e _ h
    simp at this
  | some y =>
    obtain ⟨a, ha, hy⟩ := List.exists_of_findSome?_eq_some e
    exact ⟨y, rfl, by rwa [← show a = some y from hy]⟩

theorem firstSome_all {α : Type} (l : List (Option α)) (x : α) (h : some x ∈ l) (hall : ∀ y, some y ∈ l → y = x) :
    firstSome l = some x := by
  obtain ⟨y, e, hy⟩ := firstSome_some l x h
  rw [e, hall y hy]

theorem sideEdges_table : ∀ s < 6, (∀ d ∈ sideEdges.getD s [], d < 12) ∧ ∀ d < 12, d ∈ sideEdges.getD s [] ↔ edgeIn d s := by
  decide

theorem sideCorners_table : ∀ s < 6, sideCorners.getD s [] = (List.range 8).filter fun c => decide (onSide c s) := by
  decide

/-- At all places of trace element `i` the sides have the same edge elements. -/
def ConformEdges (emap tmap : ℕ → List ℕ) (N i : ℕ) : Prop :=
  ∀ e s e' s', Place tmap N i e s → Place tmap N i e' s' → ∀ d < 12, edgeIn d s → ∃ d' < 12, edgeIn d' s' ∧ (emap e')[d']? = (emap e)[d]?

/-- **C109.** For all meshes, distributions over cores and trace elements whose sides fit: four edge elements are found; they
are exactly those in the boundary of the trace element. -/
theorem c109_trace_edges (emap tmap : ℕ → List ℕ) (N : ℕ) (cores : List (List ℕ)) (i : ℕ) (ht : ∀ e < N, (tmap e).length = 6)
    (he : ∀ e < N, (emap e).length = 12) (hd : Distributed N cores) (hi : ∃ e s, Place tmap N i e s) (hc : ConformEdges emap tmap N i) :
    ∃ l, traceEdges emap tmap cores i = some l ∧ l.length = 4 ∧ ∀ x, x ∈ l ↔ TraceAtEdge emap tmap N x i := by
  obtain ⟨e0, s0, h0⟩ := hi
  obtain ⟨core0, hc0, hec0⟩ := (hd e0).1 h0.1
  obtain ⟨p0, hp0⟩ := charac_some tmap core0 i e0 hec0 (List.mem_iff_getElem?.2 ⟨s0, h0.2.2⟩)
  obtain ⟨⟨e, s⟩, h1, h2⟩ := firstSome_some (cores.map fun core => charac tmap core i) p0 (List.mem_map.2 ⟨core0, hc0, hp0⟩)
  obtain ⟨core, hcore, hch⟩ := List.mem_map.1 h2
  obtain ⟨hec, hpl⟩ := charac_place tmap N ht core (fun m hm => (hd m).2 ⟨core, hcore, hm⟩) i _ hch
  have h3 : traceEdges emap tmap cores i = some ((sideEdges.getD s []).map fun d => (emap e).getD d 0) := by
    unfold traceEdges
    rw [h1]
    apply firstSome_all
    · exact List.mem_map.2 ⟨core, hcore, by rw [if_pos (by simpa using hec)]⟩
    · intro y hy
      obtain ⟨core', -, hy⟩ := List.mem_map.1 hy
      split_ifs at hy
      exact (Option.some.inj hy).symm
  obtain ⟨t1, t2⟩ := sideEdges_table s hpl.2.1
  refine ⟨_, h3, ?_, fun x => ?_⟩
  · rw [List.length_map]
    have : ∀ s < 6, (sideEdges.getD s []).length = 4 := by decide
    exact this s hpl.2.1
  · rw [mem_getD _ 12 (he e hpl.1) _ t1]
    constructor
    · rintro ⟨d, h4, h5, h6⟩
      exact ⟨e, hpl.1, d, h4, s, hpl.2.1, h5, hpl.2.2, (t2 d h4).1 h6⟩
    · rintro ⟨e', he', d, h4, s', hs', h5, h6, h7⟩
      obtain ⟨d', hd', hin, heq⟩ := hc e' s' e s ⟨he', hs', h6⟩ hpl d h4 h7
      exact ⟨d', hd', by rw [heq, h5], (t2 d' hd').2 hin⟩

/-- The node elements at the corners of a side, in the order of the corners. -/
def nodesOf (nmap : ℕ → List ℕ) (e s : ℕ) : List (Option ℕ) :=
  ((List.range 8).filter fun c => decide (onSide c s)).map fun c => (nmap e)[c]?

/-- **C109.** For all meshes, distributions over cores and trace elements: if the sides at all places of the trace element have the
same nodes in the same order, then these (four) are found. -/
theorem c109_trace_nodes (nmap tmap : ℕ → List ℕ) (N : ℕ) (cores : List (List ℕ)) (i : ℕ) (ht : ∀ e < N, (tmap e).length = 6)
    (hn : ∀ e < N, (nmap e).length = 8) (hd : Distributed N cores) (e s : ℕ) (hp : Place tmap N i e s)
    (hc : ∀ e' s', Place tmap N i e' s' → nodesOf nmap e' s' = nodesOf nmap e s) :
    ∃ l, traceNodes nmap tmap cores i = some (some l) ∧ l.length = 4 ∧ l.map some = nodesOf nmap e s := by
  have val : ∀ e' s', Place tmap N i e' s' →
      ((sideCorners.getD s' []).map fun c => (nmap e').getD c 0).map some = nodesOf nmap e' s' := by
    intro e' s' h
    rw [sideCorners_table s' h.2.1, List.map_map]
    refine List.map_congr_left fun c hcc => ?_
    have : c < 8 := List.mem_range.1 (List.mem_filter.1 hcc).1
    have hl := hn e' h.1
    simp only [Function.comp_apply]
    rw [List.getD_eq_getElem _ _ (by omega), List.getElem?_eq_getElem (by omega)]
  set l := (sideCorners.getD s []).map fun c => (nmap e).getD c 0 with hl
  have on : ∀ core ∈ cores, ∀ y, traceNodesOn nmap tmap i core = some y → y = l := by
    intro core hcore y hy
    obtain ⟨⟨e', s'⟩, h1, rfl⟩ := Option.map_eq_some_iff.1 hy
    obtain ⟨-, hpl⟩ := charac_place tmap N ht core (fun m hm => (hd m).2 ⟨core, hcore, hm⟩) i _ h1
    have h2 := (val e' s' hpl).trans ((hc e' s' hpl).trans (val e s hp).symm)
    exact List.map_injective_iff.2 (Option.some_injective _) h2
  have key : ∀ (os : List (Option (List ℕ))), (∀ y, some y ∈ os → y = l) →
      allSame os (some l) = some (some l) ∧ (some l ∈ os → allSame os none = some (some l)) := by
    intro os
    induction os with
    | nil => exact fun _ => ⟨rfl, by simp⟩
    | cons o os ih =>
      intro h
      obtain ⟨h1, h2⟩ := ih fun y hy => h y (by simp [hy])
      cases o with
      | none => exact ⟨h1, fun hm => h2 (by simpa using hm)⟩
      | some y =>
        obtain rfl := h y (by simp)
        exact ⟨by rw [allSame, if_pos rfl, h1], fun _ => by rw [allSame, h1]⟩
  refine ⟨l, ?_, ?_, val e s hp⟩
  · unfold traceNodes
    refine (key _ ?_).2 ?_
    · intro y hy
      obtain ⟨core, hcore, hy⟩ := List.mem_map.1 hy
      exact on core hcore y hy
    · obtain ⟨core, hcore, hec⟩ := (hd e).1 hp.1
      obtain ⟨p, hp'⟩ := charac_some tmap core i e hec (List.mem_iff_getElem?.2 ⟨s, hp.2.2⟩)
      refine List.mem_map.2 ⟨core, hcore, ?_⟩
      have : ∃ y, traceNodesOn nmap tmap i core = some y := ⟨_, by rw [traceNodesOn, hp', Option.map_some]⟩
      obtain ⟨y, hy⟩ := this
      rw [hy, on core hcore y hy]
  · rw [hl, List.length_map]
    have : ∀ s < 6, (sideCorners.getD s []).length = 4 := by decide
    exact this s hp.2.1

theorem meshOn_mem (tmap : ℕ → List ℕ) (N : ℕ) (ht : ∀ e < N, (tmap e).length = 6) (core : List ℕ) (hcore : ∀ e ∈ core, e < N)
    (i : ℕ) (l : List ℕ) (h : meshOn tmap N i core = some l) (e : ℕ) : e ∈ l ↔ e < N ∧ i ∈ tmap e := by
  unfold meshOn at h
  obtain ⟨p, hp, rfl⟩ := Option.map_eq_some_iff.1 h
  obtain ⟨-, hpl⟩ := charac_place tmap N ht core hcore i p hp
  have names : ∀ k < 6, ([0, 1, 2, 3, 4, 5] : List ℕ)[k]? = some k := by decide
  rw [List.mem_cons, List.mem_map]
  constructor
  · rintro (rfl | ⟨q, hq, rfl⟩)
    · exact ⟨hpl.1, List.mem_iff_getElem?.2 ⟨_, hpl.2.2⟩⟩
    · obtain ⟨m, a⟩ := q
      obtain ⟨h1, k, h2, -⟩ := (mem_positions _ _ _ _ _ _).1 (List.mem_of_mem_erase hq)
      exact ⟨h1, List.mem_iff_getElem?.2 ⟨k, h2⟩⟩
  · rintro ⟨h1, h2⟩
    by_cases he : e = p.1
    · exact Or.inl he
    · right
      obtain ⟨k, hk⟩ := List.mem_iff_getElem?.1 h2
      have hk6 : k < 6 := by
        rw [← ht e h1]
        exact (List.getElem?_eq_some_iff.1 hk).1
      refine ⟨(e, k), (List.mem_erase_of_ne fun hc => he (by rw [← hc])).2 ((mem_positions _ _ _ _ _ _).2 ⟨h1, k, hk, names k hk6⟩), rfl⟩

/-- **C109.** For all meshes, distributions over cores and two trace elements: a mesh element found has both on its sides, and when
none is found there is none. -/
theorem c109_shared (tmap : ℕ → List ℕ) (N : ℕ) (cores : List (List ℕ)) (i j : ℕ) (ht : ∀ e < N, (tmap e).length = 6)
    (hd : Distributed N cores) (hi : ∃ e < N, i ∈ tmap e) (hj : ∃ e < N, j ∈ tmap e) :
    ∃ r, sharedMesh tmap N cores i j = some r ∧ (∀ e, r = some e → e < N ∧ i ∈ tmap e ∧ j ∈ tmap e) ∧
      (r = none → ∀ e < N, ¬ (i ∈ tmap e ∧ j ∈ tmap e)) := by
  have get : ∀ i, (∃ e < N, i ∈ tmap e) → ∃ l, firstSome (cores.map (meshOn tmap N i)) = some l ∧
      ∀ e, e ∈ l ↔ e < N ∧ i ∈ tmap e := by
    rintro i ⟨e, he, hi⟩
    obtain ⟨core, hcore, hec⟩ := (hd e).1 he
    obtain ⟨p, hp⟩ := charac_some tmap core i e hec hi
    obtain ⟨l, h1, h2⟩ := firstSome_some (cores.map (meshOn tmap N i)) _ (List.mem_map.2 ⟨core, hcore, by rw [meshOn, hp, Option.map_some]⟩)
    obtain ⟨core', hcore', h3⟩ := List.mem_map.1 h2
    exact ⟨l, h1, fun m => meshOn_mem tmap N ht core' (fun m hm => (hd m).2 ⟨core', hcore', hm⟩) i l h3 m⟩
  obtain ⟨a, ha, ha'⟩ := get i hi
  obtain ⟨b, hb, hb'⟩ := get j hj
  refine ⟨_, by rw [sharedMesh, ha, hb], fun e he => ?_, fun hr e he hij => ?_⟩
  · have h1 := (ha' e).1 (List.mem_of_find?_eq_some he)
    have h2 := List.find?_some he
    exact ⟨h1.1, h1.2, ((hb' e).1 (by simpa using h2)).2⟩
  · have := List.find?_eq_none.1 hr e ((ha' e).2 ⟨he, hij.1⟩)
    simp only [List.contains_eq_mem, decide_eq_true_eq] at this
    exact this ((hb' e).2 ⟨he, hij.2⟩)

/-! ## Example: two mesh elements, one behind the other in the first direction, on two cores -/

/-- The maps of the two mesh elements. -/
def nm : ℕ → List ℕ
  | 0 => [0, 1, 2, 3, 4, 5, 6, 7]
  | _ => [1, 8, 3, 9, 5, 10, 7, 11]
def em : ℕ → List ℕ
  | 0 => [0, 1, 2, 3, 4, 5, 6, 7, 8, 9, 10, 11]
  | _ => [12, 13, 14, 15, 5, 16, 7, 17, 9, 18, 11, 19]
def tm : ℕ → List ℕ
  | 0 => [0, 1, 2, 3, 4, 5]
  | _ => [1, 6, 7, 8, 9, 10]

theorem distributed_example : Distributed 2 [[0], [1]] := by
  intro e
  simp only [List.mem_cons, List.not_mem_nil, or_false, exists_eq_or_imp, exists_eq_left]
  omega

/-- Node 1 is on both cores and has four edges and five sides; node 0 is on one core only, and the call fails. -/
example : nodeEdges nm em 2 [[0], [1]] 1 = some [9, 5, 0, 12] ∧ nodeTraces nm tm 2 [[0], [1]] 1 = some [1, 2, 4, 7, 9] ∧
    nodeEdges nm em 2 [[0], [1]] 0 = none ∧ nodeEdges nm em 2 [[0, 1]] 0 = some [8, 4, 0] := by decide

/-- Edge 5 lies between the two elements; trace element 1 is between them. -/
example : edgeTraces em tm 2 [[0], [1]] 5 = some [1, 4, 9] ∧ traceEdges em tm [[0], [1]] 1 = some [5, 7, 9, 11] ∧
    traceNodes nm tm [[0], [1]] 1 = some (some [1, 3, 5, 7]) ∧ sharedMesh tm 2 [[0], [1]] 0 1 = some (some 0) ∧
    sharedMesh tm 2 [[0], [1]] 0 6 = some none := by decide

/-- The sides of the two elements fit. -/
example : nodesOf nm 0 1 = nodesOf nm 1 0 ∧ nodesOf nm 0 1 = [some 1, some 3, some 5, some 7] := by decide

end Mifem.Props.Attached109
