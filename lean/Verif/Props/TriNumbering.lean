import Verif.Props.TriMap

/-! # C63: numbering of the dofs of triangular meshes -/

namespace Mifem.Props
open Mifem.Tri

/-- What a dof belongs to: a vertex of the mesh; the `k`-th position on the edge between two vertices, counted from the
vertex with the smaller number; the `k`-th position in a block of a cell. -/
inductive Ent
  | vertex (v : Nat)
  | edge (a b k : Nat)
  | inner (c : Nat) (b : Fin 2) (k : Nat)
deriving DecidableEq

/-- The entities along an edge with `len` positions, in the direction of the edge. -/
def edgeEnts (len : Nat) (ab : Nat × Nat) : List Ent :=
  if ab.1 < ab.2 then (List.range len).map fun k => .edge ab.1 ab.2 k
  else (List.range len).map fun k => .edge ab.2 ab.1 (len - 1 - k)

/-- The entities of a part of cell `c` with vertices `v`. -/
def ents (f : Form) (v : Cell) (c : Nat) : Slot → List Ent
  | .vertex a => [.vertex (v a)]
  | .edge m => edgeEnts f.edgeLen (edgeOf v m)
  | .inner b => (List.range (f.innerLen b)).map fun k => .inner c b k

/-- All edges are numbered and no part is numbered twice. -/
structure GoodForm (f : Form) : Prop where
  nodup : f.slots.Nodup
  edges : ∀ m, Slot.edge m ∈ f.slots

theorem good0 (p : Nat) : GoodForm (form0 p) :=
  ⟨by simp [form0], by intro m; fin_cases m <;> simp [form0]⟩

theorem good1Outer (p : Nat) : GoodForm (form1Outer p) :=
  ⟨by simp [form1Outer], by intro m; fin_cases m <;> simp [form1Outer]⟩

theorem good1Inner (p : Nat) : GoodForm (form1Inner p) :=
  ⟨by simp [form1Inner], by intro m; fin_cases m <;> simp [form1Inner]⟩

theorem edgeEnts_swap (len : Nat) (ab : Nat × Nat) (h : ab.1 ≠ ab.2) : edgeEnts len ab.swap = (edgeEnts len ab).reverse := by
  have aux : ∀ g : Nat → Ent, ((List.range len).map g).reverse = (List.range len).map fun k => g (len - 1 - k) := by
    intro g
    apply List.ext_getElem (by simp)
    intro i h1 h2
    simp
  simp only [edgeEnts, Prod.fst_swap, Prod.snd_swap]
  rcases lt_or_gt_of_ne h with h | h
  · rw [if_neg (by omega), if_pos h, aux]
  · rw [if_pos h, if_neg (by omega), aux]
    apply List.map_congr_left
    intro k hk
    rw [List.mem_range] at hk
    congr 1
    omega

theorem edgeOf_ne {c : Cell} (hc : Function.Injective c) (m : Fin 3) : (edgeOf c m).1 ≠ (edgeOf c m).2 := by
  fin_cases m <;> simp only [edgeOf, Fin.zero_eta, Fin.mk_one, Fin.reduceFinMk, Matrix.cons_val_zero, Matrix.cons_val_one, Matrix.cons_val] <;>
    exact fun e => absurd (hc e) (by decide)

theorem edgeEnts_same {len : Nat} {c d : Cell} (hd : Function.Injective d) {m s e} (h : SameEdge c d m s e) :
    edgeEnts len (edgeOf c m) = if s then (edgeEnts len (edgeOf d e)).reverse else edgeEnts len (edgeOf d e) := by
  rw [h]
  cases s
  · simp
  · simp only [if_true]; exact edgeEnts_swap _ _ (edgeOf_ne hd e)

/-- A common entity of two edges: they have the same end points. -/
theorem edgeEnts_common {len : Nat} {ab cd : Nat × Nat} {e : Ent} (h1 : e ∈ edgeEnts len ab) (h2 : e ∈ edgeEnts len cd) :
    ∃ s : Bool, ab = if s then cd.swap else cd := by
  obtain ⟨a, b⟩ := ab
  obtain ⟨c, d⟩ := cd
  simp only [edgeEnts] at h1 h2
  split_ifs at h1 h2 <;> obtain ⟨k, -, rfl⟩ := List.mem_map.1 h1 <;> obtain ⟨k', -, h⟩ := List.mem_map.1 h2 <;>
    simp only [Ent.edge.injEq] at h <;> obtain ⟨rfl, rfl, -⟩ := h
  · exact ⟨false, rfl⟩
  · exact ⟨true, rfl⟩
  · exact ⟨true, rfl⟩
  · exact ⟨false, rfl⟩

theorem edgeEnts_nodup (len : Nat) (ab : Nat × Nat) : (edgeEnts len ab).Nodup := by
  rw [edgeEnts]
  split_ifs
  · exact List.Nodup.map (fun a b h => by simpa using h) List.nodup_range
  · refine List.Nodup.map_on ?_ List.nodup_range
    intro a ha b hb h
    simp only [List.mem_range, Ent.edge.injEq, true_and] at ha hb h
    omega

theorem edgeEnts_length (len : Nat) (ab : Nat × Nat) : (edgeEnts len ab).length = len := by
  rw [edgeEnts]; split_ifs <;> simp

theorem mem_edgeEnts {len : Nat} {ab : Nat × Nat} {e : Ent} (h : e ∈ edgeEnts len ab) : ∃ a b k, e = .edge a b k := by
  rw [edgeEnts] at h
  split_ifs at h <;> obtain ⟨k, -, rfl⟩ := List.mem_map.1 h <;> exact ⟨_, _, _, rfl⟩

theorem ents_nodup (f : Form) (v : Cell) (c : Nat) (s : Slot) : (ents f v c s).Nodup := by
  cases s with
  | vertex a => simp [ents]
  | edge m => exact edgeEnts_nodup _ _
  | inner b => exact List.Nodup.map (fun a b h => by simpa using h) List.nodup_range

/-! ## Appending new entities -/

theorem idxOf_append_left {α} [DecidableEq α] {o l : List α} {e : α} (h : e ∈ o) : (o ++ l).idxOf e = o.idxOf e := by
  rw [List.idxOf_append_of_mem h]

theorem map_idxOf_fresh {α} [DecidableEq α] (o l : List α) (hl : l.Nodup) (hd : ∀ e ∈ l, e ∉ o) :
    l.map (o ++ l).idxOf = List.range' o.length l.length := by
  apply List.ext_getElem (by simp)
  intro i h1 h2
  simp only [List.length_map] at h1
  rw [List.getElem_map, List.getElem_range', List.idxOf_append_of_notMem (hd _ (List.getElem_mem h1)),
    hl.idxOf_getElem]
  omega

/-- The state after the cells before `c` and the parts `P` of `c` have been numbered, in terms of the order in which the
entities were met. -/
structure Sem (f : Form) (cell : Nat → Cell) (c : Nat) (P : List Slot) (a : Nums) (st : St) (o : List Ent) : Prop where
  nodup : o.Nodup
  len : o.length = st.current
  point : ∀ v, st.point v = if Ent.vertex v ∈ o then some (o.idxOf (.vertex v)) else none
  done : ∀ d < c, ∀ s ∈ f.slots, st.done d s = (ents f (cell d) d s).map o.idxOf
  now : ∀ s ∈ P, a s = (ents f (cell c) c s).map o.idxOf
  mem : ∀ d < c, ∀ s ∈ f.slots, ∀ e ∈ ents f (cell d) d s, e ∈ o
  memNow : ∀ s ∈ P, ∀ e ∈ ents f (cell c) c s, e ∈ o
  only : ∀ e ∈ o, (∃ d < c, ∃ s ∈ f.slots, e ∈ ents f (cell d) d s) ∨ ∃ s ∈ P, e ∈ ents f (cell c) c s

/-- New entities: numbered one after another. -/
theorem Sem.fresh {f : Form} {cell : Nat → Cell} {c : Nat} {P : List Slot} {a : Nums} {st : St} {o : List Ent}
    (h : Sem f cell c P a st o) (s : Slot) (hs : s ∉ P) (hnew : ∀ e ∈ ents f (cell c) c s, e ∉ o)
    (pt : Nat → Option Nat) (hpt : ∀ v, pt v = if Ent.vertex v ∈ o ++ ents f (cell c) c s
      then some ((o ++ ents f (cell c) c s).idxOf (.vertex v)) else none) :
    Sem f cell c (s :: P) (Function.update a s (List.range' st.current (ents f (cell c) c s).length))
      { st with current := st.current + (ents f (cell c) c s).length, point := pt } (o ++ ents f (cell c) c s) := by
  have keep : ∀ l : List Ent, (∀ e ∈ l, e ∈ o) → l.map o.idxOf = l.map (o ++ ents f (cell c) c s).idxOf := by
    intro l hl
    apply List.map_congr_left
    intro e he
    rw [idxOf_append_left (hl e he)]
  constructor
  · exact List.nodup_append.2 ⟨h.nodup, ents_nodup _ _ _ _, fun x hx y hy e => hnew y hy (e ▸ hx)⟩
  · simp [h.len]
  · exact hpt
  · intro d hd s' hs'
    rw [← keep _ (h.mem d hd s' hs')]
    exact h.done d hd s' hs'
  · intro s' hs'
    rcases List.mem_cons.1 hs' with rfl | hs'
    · rw [Function.update_self, map_idxOf_fresh _ _ (ents_nodup _ _ _ _) hnew, h.len]
    · rw [Function.update_of_ne (show s' ≠ s from fun e => hs (e ▸ hs')), ← keep _ (h.memNow s' hs')]
      exact h.now s' hs'
  · intro d hd s' hs' e he
    exact List.mem_append_left _ (h.mem d hd s' hs' e he)
  · intro s' hs' e he
    rcases List.mem_cons.1 hs' with rfl | hs'
    · exact List.mem_append_right _ he
    · exact List.mem_append_left _ (h.memNow s' hs' e he)
  · intro e he
    rcases List.mem_append.1 he with he | he
    · rcases h.only e he with q | ⟨s', hs', he⟩
      · exact Or.inl q
      · exact Or.inr ⟨s', by simp [hs'], he⟩
    · exact Or.inr ⟨s, by simp, he⟩

/-- Entities already met. -/
theorem Sem.again {f : Form} {cell : Nat → Cell} {c : Nat} {P : List Slot} {a : Nums} {st : St} {o : List Ent}
    (h : Sem f cell c P a st o) (s : Slot) (hs : s ∉ P) (hold : ∀ e ∈ ents f (cell c) c s, e ∈ o) :
    Sem f cell c (s :: P) (Function.update a s ((ents f (cell c) c s).map o.idxOf)) st o := by
  refine ⟨h.nodup, h.len, h.point, h.done, ?_, h.mem, ?_, ?_⟩
  · intro s' hs'
    rcases List.mem_cons.1 hs' with rfl | hs'
    · rw [Function.update_self]
    · rw [Function.update_of_ne (show s' ≠ s from fun e => hs (e ▸ hs'))]
      exact h.now s' hs'
  · intro s' hs' e he
    rcases List.mem_cons.1 hs' with rfl | hs'
    · exact hold e he
    · exact h.memNow s' hs' e he
  · intro e he
    rcases h.only e he with q | ⟨s', hs', he⟩
    · exact Or.inl q
    · exact Or.inr ⟨s', by simp [hs'], he⟩

/-- Without a new vertex the numbers of the points stay as they are. -/
theorem Sem.point_append {f : Form} {cell : Nat → Cell} {c : Nat} {P : List Slot} {a : Nums} {st : St} {o : List Ent}
    (h : Sem f cell c P a st o) (l : List Ent) (hl : ∀ v, Ent.vertex v ∉ l) (v : Nat) :
    st.point v = if Ent.vertex v ∈ o ++ l then some ((o ++ l).idxOf (.vertex v)) else none := by
  rw [h.point v]
  by_cases hv : Ent.vertex v ∈ o
  · rw [if_pos hv, if_pos (List.mem_append_left _ hv), idxOf_append_left hv]
  · rw [if_neg hv, if_neg]
    rw [List.mem_append]
    rintro (q | q)
    · exact hv q
    · exact hl v q

/-- What the element map says about cell `c`. -/
def MapAt (cell : Nat → Cell) (n : Nat) (em : EMap) (c : Nat) : Prop :=
  ∀ m r, em c m = some r ↔ r.other < n ∧ r.other ≠ c ∧ SameEdge (cell c) (cell r.other) m r.minus r.edge

theorem edges_of_cell {c : Cell} (hc : Function.Injective c) {m m' : Fin 3} {s : Bool}
    (h : edgeOf c m = if s then (edgeOf c m').swap else edgeOf c m') : m = m' := by
  have i01 : c 0 ≠ c 1 := fun e => absurd (hc e) (by decide)
  have i02 : c 0 ≠ c 2 := fun e => absurd (hc e) (by decide)
  have i12 : c 1 ≠ c 2 := fun e => absurd (hc e) (by decide)
  revert h
  fin_cases m <;> fin_cases m' <;> cases s <;>
    simp [edgeOf, i01, i02, i12, i01.symm, i02.symm, i12.symm]

theorem slotStep_sem {f : Form} (hf : GoodForm f) {cell : Nat → Cell} {n : Nat} (hc : Triangulation cell n) {em : EMap}
    {c : Nat} (hcn : c < n) (hem : MapAt cell n em c) {P : List Slot} {a : Nums} {st : St} {o : List Ent}
    (h : Sem f cell c P a st o) (s : Slot) (hs : s ∉ P) :
    ∃ l st' o', slotStep f (cell c) (em c) c s st = some (l, st') ∧ Sem f cell c (s :: P) (Function.update a s l) st' o' := by
  cases s with
  | vertex v =>
    simp only [slotStep]
    by_cases hv : Ent.vertex (cell c v) ∈ o
    · rw [h.point, if_pos hv]
      refine ⟨_, _, o, rfl, ?_⟩
      have := h.again (.vertex v) hs (by simpa [ents] using hv)
      simpa [ents] using this
    · have e : st.point (cell c v) = none := by rw [h.point, if_neg hv]
      rw [e]
      refine ⟨_, _, o ++ [.vertex (cell c v)], rfl, ?_⟩
      have := h.fresh (.vertex v) hs (by simpa [ents] using hv) (Function.update st.point (cell c v) (some st.current)) (by
        intro w
        by_cases hw : w = cell c v
        · subst hw
          rw [Function.update_self, if_pos (by simp [ents]), ents, List.idxOf_append_of_notMem hv, h.len]
          simp
        · rw [Function.update_of_ne hw, h.point]
          by_cases hw' : Ent.vertex w ∈ o
          · rw [if_pos hw', if_pos (by simp [hw']), idxOf_append_left hw']
          · rw [if_neg hw', if_neg (by simp [ents, hw', hw])])
      simpa [ents] using this
  | inner b =>
    simp only [slotStep, Tri.fresh]
    refine ⟨_, _, o ++ ents f (cell c) c (.inner b), rfl, ?_⟩
    have hl : (ents f (cell c) c (.inner b)).length = f.innerLen b := by simp [ents]
    have hnv : ∀ v, Ent.vertex v ∉ ents f (cell c) c (.inner b) := by intro v hv; simp [ents] at hv
    have := h.fresh (.inner b) hs ?_ st.point (h.point_append _ hnv)
    · rw [hl] at this; exact this
    · intro e he ho
      obtain ⟨k, -, rfl⟩ := List.mem_map.1 he
      rcases h.only _ ho with ⟨d, hd, s', -, q⟩ | ⟨s', hs', q⟩
      · cases s' with
        | vertex w => simp [ents] at q
        | edge m => obtain ⟨_, _, _, q⟩ := mem_edgeEnts q; cases q
        | inner b' =>
          obtain ⟨k', -, q⟩ := List.mem_map.1 q
          simp only [Ent.inner.injEq] at q
          omega
      · cases s' with
        | vertex w => simp [ents] at q
        | edge m => obtain ⟨_, _, _, q⟩ := mem_edgeEnts q; cases q
        | inner b' =>
          obtain ⟨k', -, q⟩ := List.mem_map.1 q
          simp only [Ent.inner.injEq] at q
          obtain ⟨-, rfl, -⟩ := q
          exact hs hs'
  | edge m =>
    have hl : (ents f (cell c) c (.edge m)).length = f.edgeLen := edgeEnts_length _ _
    have hnv : ∀ v, Ent.vertex v ∉ ents f (cell c) c (.edge m) := by
      intro v hv
      obtain ⟨_, _, _, q⟩ := mem_edgeEnts hv
      cases q
    have freshCase : (∀ r, em c m = some r → c < r.other) →
        ∃ o', Sem f cell c (.edge m :: P) (Function.update a (.edge m) (List.range' st.current f.edgeLen))
          { st with current := st.current + f.edgeLen } o' := by
      intro hr
      have := h.fresh (.edge m) hs ?_ st.point (h.point_append _ hnv)
      · rw [hl] at this; exact ⟨_, this⟩
      · intro e he ho
        obtain ⟨_, _, k, rfl⟩ := mem_edgeEnts he
        rcases h.only _ ho with ⟨d, hd, s', -, q⟩ | ⟨s', hs', q⟩
        · cases s' with
          | vertex w => simp [ents] at q
          | inner b' => obtain ⟨k', -, q⟩ := List.mem_map.1 q; cases q
          | edge m' =>
            obtain ⟨s, hse⟩ := edgeEnts_common he q
            have := hr ⟨d, s, m'⟩ ((hem m _).2 ⟨by simp only; omega, by simp only; omega, hse⟩)
            simp only at this
            omega
        · cases s' with
          | vertex w => simp [ents] at q
          | inner b' => obtain ⟨k', -, q⟩ := List.mem_map.1 q; cases q
          | edge m' =>
            obtain ⟨s, hse⟩ := edgeEnts_common he q
            have := edges_of_cell (hc.inj c hcn) hse
            subst this
            exact hs hs'
    simp only [slotStep, Tri.fresh]
    cases hm : em c m with
    | none =>
      obtain ⟨o', ho'⟩ := freshCase (by simp [hm])
      exact ⟨_, _, o', rfl, ho'⟩
    | some r =>
      obtain ⟨r1, r2, r3⟩ := (hem m r).1 hm
      simp only
      split_ifs with c1 c2
      · obtain ⟨o', ho'⟩ := freshCase (by intro r' hr'; rw [hm] at hr'; cases hr'; exact c1)
        exact ⟨_, _, o', rfl, ho'⟩
      · refine ⟨_, _, o, rfl, ?_⟩
        have e := edgeEnts_same (len := f.edgeLen) (hc.inj _ r1) r3
        have hmem := h.mem _ c2 (.edge r.edge) (hf.edges _)
        have := h.again (.edge m) hs (by
          intro x hx
          simp only [ents] at hx hmem
          rw [e] at hx
          split_ifs at hx
          · exact hmem x (List.mem_reverse.1 hx)
          · exact hmem x hx)
        have e2 : edgeDofs (st.done r.other) r = (ents f (cell c) c (.edge m)).map o.idxOf := by
          rw [edgeDofs, h.done _ c2 _ (hf.edges _)]
          simp only [ents]
          rw [e]
          split_ifs
          · rw [List.map_reverse]
          · rfl
        rw [e2]
        exact this
      · omega

theorem slotSteps_sem {f : Form} (hf : GoodForm f) {cell : Nat → Cell} {n : Nat} (hc : Triangulation cell n) {em : EMap}
    {c : Nat} (hcn : c < n) (hem : MapAt cell n em c) :
    ∀ (ss P : List Slot) (a : Nums) (st : St) (o : List Ent), Sem f cell c P a st o → (∀ s ∈ ss, s ∉ P) → ss.Nodup →
      ∃ a' st' o', slotSteps f (cell c) (em c) c ss a st = some (a', st') ∧ Sem f cell c (ss.reverse ++ P) a' st' o' := by
  intro ss
  induction ss with
  | nil => intro P a st o h _ _; exact ⟨a, st, o, rfl, h⟩
  | cons s ss ih =>
    intro P a st o h hP hn
    obtain ⟨hn1, hn2⟩ := List.nodup_cons.1 hn
    obtain ⟨l, st1, o1, e1, h1⟩ := slotStep_sem hf hc hcn hem h s (hP s (by simp))
    obtain ⟨a', st', o', e2, h2⟩ := ih (s :: P) _ st1 o1 h1 (by
      intro s' hs' hm
      rcases List.mem_cons.1 hm with rfl | hm
      · exact hn1 hs'
      · exact hP s' (by simp [hs']) hm) hn2
    refine ⟨a', st', o', ?_, ?_⟩
    · rw [slotSteps, e1]; exact e2
    · simpa using h2

theorem number_sem {f : Form} (hf : GoodForm f) {cell : Nat → Cell} {n : Nat} (hc : Triangulation cell n) {em : EMap}
    (hem : ∀ c < n, MapAt cell n em c) : ∀ k ≤ n,
      ∃ st o, number f cell em k = some st ∧ Sem f cell k [] (fun _ => []) st o := by
  intro k
  induction k with
  | zero =>
    intro _
    exact ⟨_, [], rfl, by simp, rfl, by simp, by simp, by simp, by simp, by simp, by simp⟩
  | succ k ih =>
    intro hk
    obtain ⟨st, o, e, h⟩ := ih (by omega)
    obtain ⟨a', st', o', e1, h1⟩ := slotSteps_sem hf hc (by omega) (hem k (by omega)) f.slots [] _ st o h (by simp) hf.nodup
    refine ⟨{ st' with done := Function.update st'.done k a' }, o', by
      rw [number, e]; simp only [Option.bind_some, cellStep, e1, Option.map_some], ?_⟩
    have hmem : ∀ s ∈ f.slots, s ∈ f.slots.reverse ++ [] := by intro s hs; simpa using hs
    have hcase : ∀ d < k + 1, d ≠ k → d < k := by omega
    refine ⟨h1.nodup, h1.len, h1.point, ?_, by simp, ?_, by simp, ?_⟩
    · intro d hd s hs
      simp only
      by_cases hdk : d = k
      · subst hdk
        rw [Function.update_self]
        exact h1.now s (hmem s hs)
      · rw [Function.update_of_ne hdk]
        exact h1.done d (hcase d hd hdk) s hs
    · intro d hd s hs
      by_cases hdk : d = k
      · subst hdk
        exact h1.memNow s (hmem s hs)
      · exact h1.mem d (hcase d hd hdk) s hs
    · intro x hx
      left
      rcases h1.only x hx with ⟨d, hd, q⟩ | ⟨s, hs, q⟩
      · exact ⟨d, by omega, q⟩
      · exact ⟨k, by omega, s, by simpa using hs, q⟩

/-- C63: the numbering succeeds, and it is the order in which the entities of the mesh are met: the numbers of a part of a
cell are the places of its entities in a list of all entities without repetition. -/
theorem c63_numbering (f : Form) (hf : GoodForm f) (cell : Nat → Cell) (n : Nat) (hc : Triangulation cell n) (em : EMap)
    (hem : elementMap cell n = some em) :
    ∃ (st : St) (o : List Ent), number f cell em n = some st ∧ o.Nodup ∧ o.length = st.current ∧
      (∀ e, e ∈ o ↔ ∃ c < n, ∃ s ∈ f.slots, e ∈ ents f (cell c) c s) ∧
      ∀ c < n, ∀ s ∈ f.slots, st.done c s = (ents f (cell c) c s).map o.idxOf := by
  obtain ⟨em', e1, e2, -⟩ := c61_element_map cell n hc
  rw [hem] at e1
  cases e1
  obtain ⟨st, o, e, h⟩ := number_sem hf hc (fun c hc' => e2 c hc') n le_rfl
  refine ⟨st, o, e, h.nodup, h.len, ?_, h.done⟩
  intro x
  constructor
  · intro hx
    rcases h.only x hx with q | ⟨s, hs, -⟩
    · exact q
    · simp at hs
  · rintro ⟨c, hc, s, hs, hx⟩
    exact h.mem c hc s hs x hx

/-! ## Gathering vectors -/

/-- The entity at position `k` of the edge from `ab.1` to `ab.2`. -/
def edgeEnt (len : Nat) (ab : Nat × Nat) (k : Nat) : Ent :=
  if ab.1 < ab.2 then .edge ab.1 ab.2 k else .edge ab.2 ab.1 (len - 1 - k)

/-- The entity of node `(i, j)`, `0 ≤ i, j ≤ p`, of cell `c` with vertices `v`. -/
def node0 (p : Nat) (v : Cell) (c i j : Nat) : Ent :=
  if j = 0 then .vertex (v 0)
  else if j = p then
    if i = 0 then .vertex (v 2) else if i = p then .vertex (v 1) else edgeEnt (p - 1) (v 2, v 1) (i - 1)
  else if i = 0 then edgeEnt (p - 1) (v 0, v 2) (j - 1)
  else if i = p then edgeEnt (p - 1) (v 0, v 1) (j - 1)
  else .inner c 0 ((j - 1) * (p - 1) + (i - 1))

/-- The entity of the segment from node `(i, j)` to node `(i, j + 1)`. -/
def segDy (p : Nat) (v : Cell) (c i j : Nat) : Ent :=
  if i = 0 then edgeEnt p (v 0, v 2) j else if i = p then edgeEnt p (v 0, v 1) j else .inner c 0 (j * (p - 1) + (i - 1))

/-- The entity of the segment from node `(i, j)` to node `(i + 1, j)`, `1 ≤ j`. -/
def segDx (p : Nat) (v : Cell) (c i j : Nat) : Ent :=
  if j = p then edgeEnt p (v 2, v 1) i else .inner c 1 ((j - 1) * p + i)

theorem edgeEnts_getElem? (len : Nat) (ab : Nat × Nat) (k : Nat) (hk : k < len) :
    (edgeEnts len ab)[k]? = some (edgeEnt len ab k) := by
  rw [edgeEnts, edgeEnt]
  split_ifs <;> simp [hk]

theorem getElem?_ravelF {α : Type*} (r k : Nat) (arr : Nat → Nat → α) (i j : Nat) (hi : i < r) (hj : j < k) :
    (ravelF r k arr)[j * r + i]? = some (arr i j) := by
  induction k with
  | zero => omega
  | succ k ih =>
    have hlen : ∀ k, (ravelF r k arr).length = k * r := by
      intro k
      simp only [ravelF, List.length_flatMap, List.length_map, List.length_range]
      rw [List.map_const', List.sum_replicate]
      simp
    have e : ravelF r (k + 1) arr = ravelF r k arr ++ (List.range r).map fun i => arr i k := by
      simp [ravelF, List.range_succ, List.flatMap_append]
    rw [e]
    by_cases hjk : j < k
    · have : j * r + i < k * r := by nlinarith
      rw [List.getElem?_append_left (by rw [hlen]; exact this), ih hjk]
    · have : j = k := by omega
      subst this
      rw [List.getElem?_append_right (by rw [hlen]; omega), hlen]
      simp [hi]

theorem ravelF_length {α : Type*} (r k : Nat) (arr : Nat → Nat → α) : (ravelF r k arr).length = k * r := by
  simp only [ravelF, List.length_flatMap, List.length_map, List.length_range]
  rw [List.map_const', List.sum_replicate]
  simp

theorem edge_lookup {f : Form} {v : Cell} {c : Nat} {a : Nums} {o : List Ent} {m : Fin 3}
    (h : a (.edge m) = (ents f v c (.edge m)).map o.idxOf) (k : Nat) (hk : k < f.edgeLen) :
    (a (.edge m))[k]? = some (o.idxOf (edgeEnt f.edgeLen (edgeOf v m) k)) := by
  rw [h, List.getElem?_map, ents, edgeEnts_getElem? _ _ _ hk, Option.map_some]

theorem inner_lookup {f : Form} {v : Cell} {c : Nat} {a : Nums} {o : List Ent} {b : Fin 2}
    (h : a (.inner b) = (ents f v c (.inner b)).map o.idxOf) (k : Nat) (hk : k < f.innerLen b) :
    (a (.inner b))[k]? = some (o.idxOf (.inner c b k)) := by
  rw [h, List.getElem?_map, ents, List.getElem?_map, List.getElem?_range hk]; rfl

theorem vertex_lookup {f : Form} {v : Cell} {c : Nat} {a : Nums} {o : List Ent} {x : Fin 3}
    (h : a (.vertex x) = (ents f v c (.vertex x)).map o.idxOf) :
    (a (.vertex x))[0]? = some (o.idxOf (.vertex (v x))) := by
  rw [h, ents]; rfl

theorem sub_block {p i j : Nat} (hi : i < p) (hj : j < p) : j * p + i < p * p := by nlinarith

/-- C63, 0-forms: the gathering vector of a cell holds at the local number of node `(i, j)` the place of the entity of the
node. -/
theorem c63_gathering0 (p : Nat) (v : Cell) (c : Nat) (a : Nums) (o : List Ent)
    (h : ∀ s ∈ (form0 p).slots, a s = (ents (form0 p) v c s).map o.idxOf) (i j : Nat) (hp : 1 ≤ p) (hi : i ≤ p) (hj : j ≤ p) :
    (gv0 p a).length = p * (p + 1) + 1 ∧
    (gv0 p a)[ln0 p i j]? = some (some (o.idxOf (node0 p v c i j))) := by
  refine ⟨by simp [gv0, ravelF_length], ?_⟩
  have hv : ∀ x, (a (.vertex x))[0]? = some (o.idxOf (.vertex (v x))) :=
    fun x => vertex_lookup (h _ (by fin_cases x <;> simp [form0]))
  have he : ∀ m k, k < p - 1 → (a (.edge m))[k]? = some (o.idxOf (edgeEnt (p - 1) (edgeOf v m) k)) :=
    fun m k hk => edge_lookup (f := form0 p) (h _ ((good0 p).edges m)) k hk
  have hn : ∀ k, k < (p - 1) ^ 2 → (a (.inner 0))[k]? = some (o.idxOf (.inner c 0 k)) :=
    fun k hk => inner_lookup (f := form0 p) (h _ (by simp [form0])) k hk
  have key : arr0 p a i j = some (o.idxOf (node0 p v c i j)) := by
    rw [arr0, node0]
    split_ifs with c1 c2 c3 c4 c5 c6
    · exact hv 0
    · exact hv 2
    · exact hv 1
    · exact he 2 _ (by omega)
    · exact he 1 _ (by omega)
    · exact he 0 _ (by omega)
    · apply hn
      rw [sq]
      exact sub_block (by omega) (by omega)
  rw [gv0, ln0]
  split_ifs with c1
  · subst c1
    rw [List.getElem?_cons_zero]
    exact congrArg some key
  · rw [show j * (p + 1) + i - p = ((j - 1) * (p + 1) + i) + 1 by
      obtain ⟨q, rfl⟩ : ∃ q, j = q + 1 := ⟨j - 1, by omega⟩
      have : (q + 1) * (p + 1) = q * (p + 1) + (p + 1) := by ring
      rw [this, show q + 1 - 1 = q by omega]; omega,
      List.getElem?_cons_succ, getElem?_ravelF _ _ _ _ _ (by omega) (by omega), show j - 1 + 1 = j by omega, key]

theorem arrDy_eq {p : Nat} {f : Form} (hfe : f.edgeLen = p) (hfi : f.innerLen = fun _ => p * (p - 1)) (hg : GoodForm f)
    (h0 : Slot.inner 0 ∈ f.slots) (v : Cell) (c : Nat) (a : Nums) (o : List Ent)
    (h : ∀ s ∈ f.slots, a s = (ents f v c s).map o.idxOf) (i j : Nat) (hi : i ≤ p) (hj : j < p) :
    arrDy p a i j = some (o.idxOf (segDy p v c i j)) := by
  have he : ∀ m k, k < p → (a (.edge m))[k]? = some (o.idxOf (edgeEnt p (edgeOf v m) k)) := by
    intro m k hk
    rw [← hfe] at hk
    rw [edge_lookup (f := f) (h _ (hg.edges m)) k hk, hfe]
  rw [arrDy, segDy]
  split_ifs with c1 c2
  · exact he 1 _ hj
  · exact he 0 _ hj
  · apply inner_lookup (h _ h0)
    rw [hfi]
    obtain ⟨q, rfl⟩ : ∃ q, p = q + 1 := ⟨p - 1, by omega⟩
    simp only [Nat.add_sub_cancel]
    have : i - 1 < q := by omega
    nlinarith

theorem arrDx_eq {p : Nat} {f : Form} (hfe : f.edgeLen = p) (hfi : f.innerLen = fun _ => p * (p - 1)) (hg : GoodForm f)
    (h1 : Slot.inner 1 ∈ f.slots) (v : Cell) (c : Nat) (a : Nums) (o : List Ent)
    (h : ∀ s ∈ f.slots, a s = (ents f v c s).map o.idxOf) (i j : Nat) (hi : i < p) (hj : j < p) :
    arrDx p a i j = some (o.idxOf (segDx p v c i (j + 1))) := by
  rw [arrDx, segDx]
  split_ifs with c1
  · rw [← hfe] at hi
    rw [edge_lookup (f := f) (h _ (hg.edges 2)) _ hi, hfe]; rfl
  · rw [Nat.add_sub_cancel]
    apply inner_lookup (h _ h1)
    rw [hfi]
    obtain ⟨q, rfl⟩ : ∃ q, p = q + 1 := ⟨p - 1, by omega⟩
    simp only [Nat.add_sub_cancel]
    have : j < q := by omega
    nlinarith

/-- C63, outer 1-forms: the gathering vector holds at the local number of a segment the place of its entity. -/
theorem c63_gathering1_outer (p : Nat) (v : Cell) (c : Nat) (a : Nums) (o : List Ent)
    (h : ∀ s ∈ (form1Outer p).slots, a s = (ents (form1Outer p) v c s).map o.idxOf) :
    (gv1Outer p a).length = p * p + p * (p + 1) ∧
    (∀ i j, i ≤ p → j < p → (gv1Outer p a)[lnOuterDy p i j]? = some (some (o.idxOf (segDy p v c i j)))) ∧
    (∀ i, lnOuterDx p i 0 = none) ∧
    ∀ i j, i < p → 1 ≤ j → j ≤ p → ∃ k, lnOuterDx p i j = some k ∧ (gv1Outer p a)[k]? = some (some (o.idxOf (segDx p v c i j))) := by
  refine ⟨by simp [gv1Outer, ravelF_length]; ring, ?_, by simp [lnOuterDx], ?_⟩
  · intro i j hi hj
    have : j * (p + 1) + i < p * (p + 1) := by nlinarith
    rw [gv1Outer, lnOuterDy, List.getElem?_append_left (by rw [ravelF_length]; exact this),
      getElem?_ravelF _ _ _ _ _ (by omega) hj,
      arrDy_eq (p := p) (f := form1Outer p) rfl rfl (good1Outer p) (by simp [form1Outer]) v c a o h i j hi hj]
  · intro i j hi hj1 hj
    refine ⟨_, by rw [lnOuterDx, if_neg (by omega)], ?_⟩
    obtain ⟨q, rfl⟩ : ∃ q, j = q + 1 := ⟨j - 1, by omega⟩
    have e : p * (p + 1) + ((q + 1) * p + i) - p = p * (p + 1) + (q * p + i) := by
      rw [show (q + 1) * p = q * p + p by ring]; omega
    rw [e, gv1Outer, List.getElem?_append_right (by rw [ravelF_length]; omega), ravelF_length, Nat.add_sub_cancel_left,
      getElem?_ravelF _ _ _ _ _ hi (by omega),
      arrDx_eq (p := p) (f := form1Outer p) rfl rfl (good1Outer p) (by simp [form1Outer]) v c a o h i q hi (by omega)]

/-- C63, inner 1-forms. -/
theorem c63_gathering1_inner (p : Nat) (v : Cell) (c : Nat) (a : Nums) (o : List Ent)
    (h : ∀ s ∈ (form1Inner p).slots, a s = (ents (form1Inner p) v c s).map o.idxOf) :
    (gv1Inner p a).length = p * p + p * (p + 1) ∧
    (∀ i j, i ≤ p → j < p → (gv1Inner p a)[lnInnerDy p i j]? = some (some (o.idxOf (segDy p v c i j)))) ∧
    (∀ i, lnInnerDx p i 0 = none) ∧
    ∀ i j, i < p → 1 ≤ j → j ≤ p → ∃ k, lnInnerDx p i j = some k ∧ (gv1Inner p a)[k]? = some (some (o.idxOf (segDx p v c i j))) := by
  refine ⟨by simp [gv1Inner, ravelF_length], ?_, by simp [lnInnerDx], ?_⟩
  · intro i j hi hj
    rw [gv1Inner, lnInnerDy, List.getElem?_append_right (by rw [ravelF_length]; omega), ravelF_length,
      Nat.add_sub_cancel_left, getElem?_ravelF _ _ _ _ _ (by omega) hj,
      arrDy_eq (p := p) (f := form1Inner p) rfl rfl (good1Inner p) (by simp [form1Inner]) v c a o h i j hi hj]
  · intro i j hi hj1 hj
    refine ⟨_, by rw [lnInnerDx, if_neg (by omega)], ?_⟩
    obtain ⟨q, rfl⟩ : ∃ q, j = q + 1 := ⟨j - 1, by omega⟩
    have e : (q + 1) * p + i - p = q * p + i := by
      rw [show (q + 1) * p = q * p + p by ring]; omega
    rw [e, gv1Inner, List.getElem?_append_left (by rw [ravelF_length]; exact sub_block hi (by omega)),
      getElem?_ravelF _ _ _ _ _ hi (by omega),
      arrDx_eq (p := p) (f := form1Inner p) rfl rfl (good1Inner p) (by simp [form1Inner]) v c a o h i q hi (by omega)]

/-! ## Sharing -/

/-- The numbers in use, and what sharing a number means. -/
theorem sharing {ι : Type*} (o : List Ent) (hn : o.Nodup) (g : ι → Option (Option Nat)) (e : ι → Ent)
    (hg : ∀ x, g x = some (some (o.idxOf (e x)))) (hm : ∀ x, e x ∈ o) (hs : ∀ y ∈ o, ∃ x, e x = y) :
    (∀ x, ∃ k < o.length, g x = some (some k)) ∧ (∀ k < o.length, ∃ x, g x = some (some k)) ∧
      ∀ x y, g x = g y ↔ e x = e y := by
  refine ⟨fun x => ⟨_, List.idxOf_lt_length_of_mem (hm x), hg x⟩, ?_, ?_⟩
  · intro k hk
    obtain ⟨x, hx⟩ := hs _ (List.getElem_mem hk)
    exact ⟨x, by rw [hg, hx, hn.idxOf_getElem]⟩
  · intro x y
    rw [hg, hg]
    constructor
    · intro h
      simp only [Option.some.injEq] at h
      exact (List.idxOf_inj (hm x)).1 h
    · intro h; rw [h]

/-- A node of the mesh: cell, row, column. -/
def NodeIx (n p : Nat) := { x : Nat × Nat × Nat // x.1 < n ∧ x.2.1 ≤ p ∧ x.2.2 ≤ p }

theorem edgeEnt_mem (len : Nat) (ab : Nat × Nat) (k : Nat) (hk : k < len) : edgeEnt len ab k ∈ edgeEnts len ab :=
  List.mem_of_getElem? (edgeEnts_getElem? len ab k hk)

theorem mem_edgeEnts' {len : Nat} {ab : Nat × Nat} {e : Ent} (h : e ∈ edgeEnts len ab) :
    ∃ k < len, e = edgeEnt len ab k := by
  rw [edgeEnts] at h
  split_ifs at h with c <;> obtain ⟨k, hk, rfl⟩ := List.mem_map.1 h <;>
    exact ⟨k, List.mem_range.1 hk, by simp only [edgeEnt, c, if_true, if_false]⟩

theorem node0_mem (p : Nat) (hp : 1 ≤ p) (v : Cell) (c i j : Nat) (hi : i ≤ p) (hj : j ≤ p) :
    ∃ s ∈ (form0 p).slots, node0 p v c i j ∈ ents (form0 p) v c s := by
  rw [node0]
  split_ifs
  · exact ⟨.vertex 0, by simp [form0], by simp [ents]⟩
  · exact ⟨.vertex 2, by simp [form0], by simp [ents]⟩
  · exact ⟨.vertex 1, by simp [form0], by simp [ents]⟩
  · exact ⟨.edge 2, by simp [form0], edgeEnt_mem _ _ _ (by simp only [form0]; omega)⟩
  · exact ⟨.edge 1, by simp [form0], edgeEnt_mem _ _ _ (by simp only [form0]; omega)⟩
  · exact ⟨.edge 0, by simp [form0], edgeEnt_mem _ _ _ (by simp only [form0]; omega)⟩
  · refine ⟨.inner 0, by simp [form0], List.mem_map.2 ⟨_, List.mem_range.2 ?_, rfl⟩⟩
    simp only [form0, Matrix.cons_val_zero, sq]
    exact sub_block (by omega) (by omega)

theorem node0_surj (p : Nat) (hp : 1 ≤ p) (v : Cell) (c : Nat) (s : Slot) (e : Ent) (h : e ∈ ents (form0 p) v c s) :
    ∃ i ≤ p, ∃ j ≤ p, node0 p v c i j = e := by
  have h0 : (form0 p).edgeLen = p - 1 := rfl
  cases s with
  | vertex a =>
    simp only [ents, List.mem_singleton] at h
    subst h
    fin_cases a
    · exact ⟨0, by omega, 0, by omega, by simp [node0]⟩
    · exact ⟨p, le_rfl, p, le_rfl, by simp [node0, show p ≠ 0 by omega]⟩
    · exact ⟨0, by omega, p, le_rfl, by simp [node0, show p ≠ 0 by omega]⟩
  | edge m =>
    obtain ⟨k, hk, rfl⟩ := mem_edgeEnts' h
    rw [h0] at hk ⊢
    fin_cases m
    · refine ⟨p, le_rfl, k + 1, by omega, ?_⟩
      simp [node0, show p ≠ 0 by omega, show k + 1 ≠ p by omega, edgeOf]
    · refine ⟨0, by omega, k + 1, by omega, ?_⟩
      simp [node0, show k + 1 ≠ p by omega, edgeOf]
    · refine ⟨k + 1, by omega, p, by omega, ?_⟩
      simp [node0, show p ≠ 0 by omega, show k + 1 ≠ p by omega, edgeOf]
  | inner b =>
    obtain ⟨k, hk, rfl⟩ := List.mem_map.1 h
    rw [List.mem_range] at hk
    obtain rfl : b = 0 := by
      by_contra hb
      have : b = 1 := by omega
      subst this
      simp [form0] at hk
    simp only [form0, Matrix.cons_val_zero, sq] at hk
    have hq : 0 < p - 1 := by
      by_contra hq
      rw [show p - 1 = 0 by omega] at hk
      omega
    obtain ⟨i, hi, j, hj, rfl⟩ : ∃ i < p - 1, ∃ j < p - 1, k = j * (p - 1) + i :=
      ⟨k % (p - 1), Nat.mod_lt _ hq, k / (p - 1), Nat.div_lt_of_lt_mul hk, (Nat.div_add_mod' _ _).symm⟩
    refine ⟨i + 1, by omega, j + 1, by omega, ?_⟩
    rw [node0, if_neg (by omega), if_neg (by omega), if_neg (by omega), if_neg (by omega), Nat.add_sub_cancel,
      Nat.add_sub_cancel]

/-- C63 for 0-forms: every node gets a number, the numbers are `0, …, N - 1` without gaps, and two nodes (of the same or of
different cells) get the same number exactly if they are the same vertex, the same position on the same edge, or the same
inner node of the same cell. -/
theorem c63_zero_forms (p : Nat) (hp : 1 ≤ p) (cell : Nat → Cell) (n : Nat) (hc : Triangulation cell n) (em : EMap)
    (hem : elementMap cell n = some em) :
    ∃ st, number (form0 p) cell em n = some st ∧
      let g := fun x : NodeIx n p => (gv0 p (st.done x.1.1))[ln0 p x.1.2.1 x.1.2.2]?
      (∀ x, ∃ k < st.current, g x = some (some k)) ∧ (∀ k < st.current, ∃ x, g x = some (some k)) ∧
      ∀ x y, g x = g y ↔
        node0 p (cell x.1.1) x.1.1 x.1.2.1 x.1.2.2 = node0 p (cell y.1.1) y.1.1 y.1.2.1 y.1.2.2 := by
  obtain ⟨st, o, e, hn, hl, hm, hd⟩ := c63_numbering (form0 p) (good0 p) cell n hc em hem
  refine ⟨st, e, ?_⟩
  rw [← hl]
  refine sharing o hn _ (fun x : NodeIx n p => node0 p (cell x.1.1) x.1.1 x.1.2.1 x.1.2.2) ?_ ?_ ?_
  · intro x
    exact (c63_gathering0 p _ _ _ o (hd _ x.2.1) _ _ hp x.2.2.1 x.2.2.2).2
  · intro x
    obtain ⟨s, hs, q⟩ := node0_mem p hp (cell x.1.1) x.1.1 x.1.2.1 x.1.2.2 x.2.2.1 x.2.2.2
    exact (hm _).2 ⟨_, x.2.1, s, hs, q⟩
  · intro y hy
    obtain ⟨c, hcn, s, -, q⟩ := (hm y).1 hy
    obtain ⟨i, hi, j, hj, q⟩ := node0_surj p hp _ _ _ _ q
    exact ⟨⟨(c, i, j), hcn, hi, hj⟩, q⟩

/-- A segment of the mesh: cell, `dy` or `dx`, row, column (column `0` of `dx` is the singular vertex). -/
def SegIx (n p : Nat) := { x : Nat × Bool × Nat × Nat // x.1 < n ∧
  if x.2.1 then x.2.2.1 ≤ p ∧ x.2.2.2 < p else x.2.2.1 < p ∧ 1 ≤ x.2.2.2 ∧ x.2.2.2 ≤ p }

/-- The entity of a segment. -/
def segEnt (p : Nat) (cell : Nat → Cell) (x : Nat × Bool × Nat × Nat) : Ent :=
  if x.2.1 then segDy p (cell x.1) x.1 x.2.2.1 x.2.2.2 else segDx p (cell x.1) x.1 x.2.2.1 x.2.2.2

/-- The local number of a segment in an outer form. -/
def lnOuter (p : Nat) (x : Nat × Bool × Nat × Nat) : Option Nat :=
  if x.2.1 then some (lnOuterDy p x.2.2.1 x.2.2.2) else lnOuterDx p x.2.2.1 x.2.2.2

/-- The local number of a segment in an inner form. -/
def lnInner (p : Nat) (x : Nat × Bool × Nat × Nat) : Option Nat :=
  if x.2.1 then some (lnInnerDy p x.2.2.1 x.2.2.2) else lnInnerDx p x.2.2.1 x.2.2.2

theorem seg_mem {p : Nat} {f : Form} (hfe : f.edgeLen = p) (hfi : f.innerLen = fun _ => p * (p - 1)) (hg : GoodForm f)
    (hin : ∀ b, Slot.inner b ∈ f.slots) (cell : Nat → Cell) {n : Nat} (x : SegIx n p) :
    ∃ s ∈ f.slots, segEnt p cell x.1 ∈ ents f (cell x.1.1) x.1.1 s := by
  obtain ⟨⟨c, b, i, j⟩, hc, hx⟩ := x
  simp only at hc hx
  have edgeIn : ∀ m k, k < p → ∃ s ∈ f.slots, edgeEnt p (edgeOf (cell c) m) k ∈ ents f (cell c) c s := by
    intro m k hk
    refine ⟨.edge m, hg.edges m, ?_⟩
    rw [ents, hfe]
    exact edgeEnt_mem _ _ _ hk
  have innerIn : ∀ b k, k < p * (p - 1) → ∃ s ∈ f.slots, Ent.inner c b k ∈ ents f (cell c) c s := by
    intro b k hk
    refine ⟨.inner b, hin b, ?_⟩
    rw [ents, hfi]
    exact List.mem_map.2 ⟨k, List.mem_range.2 hk, rfl⟩
  cases b
  · simp only [Bool.false_eq_true, if_false] at hx
    simp only [segEnt, Bool.false_eq_true, if_false, segDx]
    split_ifs
    · exact edgeIn 2 i (by omega)
    · apply innerIn
      obtain ⟨q, rfl⟩ : ∃ q, p = q + 1 := ⟨p - 1, by omega⟩
      simp only [Nat.add_sub_cancel]
      have : j - 1 < q := by omega
      nlinarith
  · simp only [if_true] at hx
    simp only [segEnt, if_true, segDy]
    split_ifs
    · exact edgeIn 1 j (by omega)
    · exact edgeIn 0 j (by omega)
    · apply innerIn
      obtain ⟨q, rfl⟩ : ∃ q, p = q + 1 := ⟨p - 1, by omega⟩
      simp only [Nat.add_sub_cancel]
      have : i - 1 < q := by omega
      nlinarith

theorem seg_surj {p : Nat} {f : Form} (hfe : f.edgeLen = p) (hfi : f.innerLen = fun _ => p * (p - 1))
    (hfs : ∀ a, Slot.vertex a ∉ f.slots) (cell : Nat → Cell) {n : Nat} (c : Nat) (hc : c < n) (s : Slot) (hs : s ∈ f.slots)
    (e : Ent) (h : e ∈ ents f (cell c) c s) : ∃ x : SegIx n p, segEnt p cell x.1 = e := by
  cases s with
  | vertex a => exact absurd hs (hfs a)
  | edge m =>
    obtain ⟨k, hk, rfl⟩ := mem_edgeEnts' h
    rw [hfe] at hk ⊢
    fin_cases m
    · refine ⟨⟨(c, true, p, k), hc, by simpa using hk⟩, ?_⟩
      simp [segEnt, segDy, show p ≠ 0 by omega, edgeOf]
    · refine ⟨⟨(c, true, 0, k), hc, by simpa using hk⟩, ?_⟩
      simp [segEnt, segDy, edgeOf]
    · refine ⟨⟨(c, false, k, p), hc, by simp; omega⟩, ?_⟩
      simp [segEnt, segDx, edgeOf]
  | inner b =>
    obtain ⟨k, hk, rfl⟩ := List.mem_map.1 h
    rw [List.mem_range, hfi] at hk
    simp only at hk
    have hq : 0 < p - 1 := by
      by_contra hq
      rw [show p - 1 = 0 by omega] at hk
      omega
    have hb : b = 0 ∨ b = 1 := by omega
    rcases hb with rfl | rfl
    · obtain ⟨i, hi, j, hj, rfl⟩ : ∃ i < p - 1, ∃ j < p, k = j * (p - 1) + i :=
        ⟨k % (p - 1), Nat.mod_lt _ hq, k / (p - 1), Nat.div_lt_of_lt_mul (by rw [Nat.mul_comm]; exact hk),
          (Nat.div_add_mod' _ _).symm⟩
      refine ⟨⟨(c, true, i + 1, j), hc, by simp only [if_true]; omega⟩, ?_⟩
      simp only [segEnt, if_true]
      rw [segDy, if_neg (by omega), if_neg (by omega), Nat.add_sub_cancel]
    · obtain ⟨i, hi, j, hj, rfl⟩ : ∃ i < p, ∃ j < p - 1, k = j * p + i :=
        ⟨k % p, Nat.mod_lt _ (by omega), k / p, Nat.div_lt_of_lt_mul hk, (Nat.div_add_mod' _ _).symm⟩
      refine ⟨⟨(c, false, i, j + 1), hc, by simp only [Bool.false_eq_true, if_false]; omega⟩, ?_⟩
      simp only [segEnt, Bool.false_eq_true, if_false]
      rw [segDx, if_neg (by omega), Nat.add_sub_cancel]

/-- C63 for outer 1-forms: every segment gets a number, the numbers are `0, …, N - 1` without gaps, and two segments get
the same number exactly if they are the same part of the same edge, or the same inner segment of the same cell. -/
theorem c63_one_forms_outer (p : Nat) (cell : Nat → Cell) (n : Nat) (hc : Triangulation cell n) (em : EMap)
    (hem : elementMap cell n = some em) :
    ∃ st, number (form1Outer p) cell em n = some st ∧
      let g := fun x : SegIx n p => (lnOuter p x.1).bind fun k => (gv1Outer p (st.done x.1.1))[k]?
      (∀ x, ∃ k < st.current, g x = some (some k)) ∧ (∀ k < st.current, ∃ x, g x = some (some k)) ∧
      ∀ x y, g x = g y ↔ segEnt p cell x.1 = segEnt p cell y.1 := by
  obtain ⟨st, o, e, hn, hl, hm, hd⟩ := c63_numbering (form1Outer p) (good1Outer p) cell n hc em hem
  refine ⟨st, e, ?_⟩
  rw [← hl]
  refine sharing o hn _ (fun x : SegIx n p => segEnt p cell x.1) ?_ ?_ ?_
  · rintro ⟨⟨c, b, i, j⟩, hcn, hx⟩
    obtain ⟨-, g1, -, g2⟩ := c63_gathering1_outer p (cell c) c (st.done c) o (hd _ hcn)
    cases b
    · simp only [Bool.false_eq_true, if_false] at hx
      obtain ⟨k, e1, e2⟩ := g2 i j hx.1 hx.2.1 hx.2.2
      simp only [lnOuter, Bool.false_eq_true, if_false, e1, Option.bind_some, segEnt]
      exact e2
    · simp only [if_true] at hx
      simp only [lnOuter, if_true, Option.bind_some, segEnt]
      exact g1 i j hx.1 hx.2
  · intro x
    obtain ⟨s, hs, q⟩ := seg_mem (p := p) (f := form1Outer p) rfl rfl (good1Outer p)
      (by intro b; fin_cases b <;> simp [form1Outer]) cell x
    exact (hm _).2 ⟨_, x.2.1, s, hs, q⟩
  · intro y hy
    obtain ⟨c, hcn, s, hs, q⟩ := (hm y).1 hy
    exact seg_surj (p := p) (f := form1Outer p) rfl rfl (by intro a; simp [form1Outer]) cell c hcn s hs y q

/-- C63 for inner 1-forms. -/
theorem c63_one_forms_inner (p : Nat) (cell : Nat → Cell) (n : Nat) (hc : Triangulation cell n) (em : EMap)
    (hem : elementMap cell n = some em) :
    ∃ st, number (form1Inner p) cell em n = some st ∧
      let g := fun x : SegIx n p => (lnInner p x.1).bind fun k => (gv1Inner p (st.done x.1.1))[k]?
      (∀ x, ∃ k < st.current, g x = some (some k)) ∧ (∀ k < st.current, ∃ x, g x = some (some k)) ∧
      ∀ x y, g x = g y ↔ segEnt p cell x.1 = segEnt p cell y.1 := by
  obtain ⟨st, o, e, hn, hl, hm, hd⟩ := c63_numbering (form1Inner p) (good1Inner p) cell n hc em hem
  refine ⟨st, e, ?_⟩
  rw [← hl]
  refine sharing o hn _ (fun x : SegIx n p => segEnt p cell x.1) ?_ ?_ ?_
  · rintro ⟨⟨c, b, i, j⟩, hcn, hx⟩
    obtain ⟨-, g1, -, g2⟩ := c63_gathering1_inner p (cell c) c (st.done c) o (hd _ hcn)
    cases b
    · simp only [Bool.false_eq_true, if_false] at hx
      obtain ⟨k, e1, e2⟩ := g2 i j hx.1 hx.2.1 hx.2.2
      simp only [lnInner, Bool.false_eq_true, if_false, e1, Option.bind_some, segEnt]
      exact e2
    · simp only [if_true] at hx
      simp only [lnInner, if_true, Option.bind_some, segEnt]
      exact g1 i j hx.1 hx.2
  · intro x
    obtain ⟨s, hs, q⟩ := seg_mem (p := p) (f := form1Inner p) rfl rfl (good1Inner p)
      (by intro b; fin_cases b <;> simp [form1Inner]) cell x
    exact (hm _).2 ⟨_, x.2.1, s, hs, q⟩
  · intro y hy
    obtain ⟨c, hcn, s, hs, q⟩ := (hm y).1 hy
    exact seg_surj (p := p) (f := form1Inner p) rfl rfl (by intro a; simp [form1Inner]) cell c hcn s hs y q

/-- C63 for 2-forms: the squares of all cells have different numbers `0, …, n p² - 1`. -/
theorem c63_two_forms (p n : Nat) : ((List.range n).flatMap (gv2 p)) = List.range (n * p ^ 2) ∧
    ∀ c i j, i < p → j < p → (gv2 p c)[ln2 p i j]? = some (c * p ^ 2 + (j * p + i)) := by
  constructor
  · induction n with
    | zero => simp
    | succ n ih =>
      rw [List.range_succ, List.flatMap_append, ih, Nat.succ_mul, List.range_add]
      simp [gv2, List.range'_eq_map_range]
  · intro c i j hi hj
    have : j * p + i < p ^ 2 := by rw [sq]; exact sub_block hi hj
    rw [gv2, ln2, List.getElem?_range' this]
    simp

/-! ## Geometry -/

section
variable {F : Type*} [Field F] [LinearOrder F] [IsStrictOrderedRing F]

/-- The place of an entity on an edge (or at a vertex) of the mesh: `x` are the nodes of the reference interval. -/
def entPoint (x : Nat → F) (pt : Nat → F × F) : Ent → Fin 2 → F
  | .vertex v => ![(pt v).1, (pt v).2]
  | .edge a b k => ![(pt a).1 + (x (k + 1) + 1) / 2 * ((pt b).1 - (pt a).1), (pt a).2 + (x (k + 1) + 1) / 2 * ((pt b).2 - (pt a).2)]
  | .inner _ _ _ => 0

/-- Nodes of the reference interval: the end points included, symmetric about 0. -/
structure SymmetricNodes (p : Nat) (x : Nat → F) : Prop where
  first : x 0 = -1
  last : x p = 1
  symm : ∀ k ≤ p, x (p - k) = - x k

theorem entPoint_edgeEnt (p : Nat) (x : Nat → F) (hx : SymmetricNodes p x) (pt : Nat → F × F) (ab : Nat × Nat) (k : Nat)
    (hk : k < p - 1) : entPoint x pt (edgeEnt (p - 1) ab k) =
      ![(pt ab.1).1 + (x (k + 1) + 1) / 2 * ((pt ab.2).1 - (pt ab.1).1), (pt ab.1).2 + (x (k + 1) + 1) / 2 * ((pt ab.2).2 - (pt ab.1).2)] := by
  rw [edgeEnt]
  split_ifs
  · rfl
  · have : x (p - 1 - 1 - k + 1) = - x (k + 1) := by
      rw [← hx.symm (k + 1) (by omega)]
      congr 1
      omega
    simp only [entPoint, this]
    funext i
    fin_cases i <;> simp <;> ring

/-- C63: nodes with the same number are at the same place. -/
theorem c63_points (p : Nat) (hp : 1 ≤ p) (x : Nat → F) (hx : SymmetricNodes p x) (pt : Nat → F × F) (v w : Cell)
    (c d i j i' j' : Nat) (hi : i ≤ p) (hj : j ≤ p) (hi' : i' ≤ p) (hj' : j' ≤ p) (hvw : c = d → v = w)
    (h : node0 p v c i j = node0 p w d i' j') :
    mapping (fun a => pt (v a)) ![x i, x j] = mapping (fun a => pt (w a)) ![x i', x j'] := by
  have h2 : (2 : F) ≠ 0 := two_ne_zero
  have key : ∀ (v : Cell) (c i j : Nat), i ≤ p → j ≤ p → (∀ b k, node0 p v c i j ≠ .inner c b k) →
      mapping (fun a => pt (v a)) ![x i, x j] = entPoint x pt (node0 p v c i j) := by
    intro v c i j hi hj hni
    rw [mapping_eq _ _ h2]
    simp only [Matrix.cons_val_zero, Matrix.cons_val_one, Matrix.cons_val_fin_one]
    rw [node0] at hni ⊢
    split_ifs at hni ⊢ with c1 c2 c3 c4 c5 c6
    · subst c1; rw [hx.first]; funext q; fin_cases q <;> simp [bary, entPoint]
    · subst c2 c3; rw [hx.first, hx.last]; funext q; fin_cases q <;> simp [bary, entPoint]
    · subst c2 c4; rw [hx.last]; funext q; fin_cases q <;> simp [bary, entPoint]
    · subst c2
      rw [entPoint_edgeEnt _ _ hx _ _ _ (by omega), hx.last, show i - 1 + 1 = i by omega]
      funext q; fin_cases q <;> simp [bary] <;> ring
    · subst c5
      rw [entPoint_edgeEnt _ _ hx _ _ _ (by omega), hx.first, show j - 1 + 1 = j by omega]
      funext q; fin_cases q <;> simp [bary] <;> ring
    · subst c6
      rw [entPoint_edgeEnt _ _ hx _ _ _ (by omega), hx.last, show j - 1 + 1 = j by omega]
      funext q; fin_cases q <;> simp [bary] <;> ring
    · exact absurd rfl (hni _ _)
  have inn : ∀ (v : Cell) (c i j : Nat), i ≤ p → j ≤ p → ∀ c' b k, node0 p v c i j = .inner c' b k →
      c' = c ∧ k = (j - 1) * (p - 1) + (i - 1) ∧ i ≠ 0 ∧ i ≠ p ∧ j ≠ 0 ∧ j ≠ p := by
    intro v c i j hi hj c' b k h
    rw [node0] at h
    split_ifs at h <;> first | (simp only [edgeEnt] at h; split_ifs at h) | skip
    · cases h
      exact ⟨rfl, rfl, by assumption, by assumption, by assumption, by assumption⟩
  by_cases hin : ∃ e b k, node0 p v c i j = .inner e b k
  · obtain ⟨e, b, k, hin⟩ := hin
    obtain ⟨rfl, hk, a1, a2, a3, a4⟩ := inn v c i j hi hj e b k hin
    rw [h] at hin
    obtain ⟨rfl, hk', b1, b2, b3, b4⟩ := inn w d i' j' hi' hj' e b k hin
    obtain rfl := hvw rfl
    have e1 : i - 1 < p - 1 := by omega
    have e2 : i' - 1 < p - 1 := by omega
    have e3 : (j - 1) * (p - 1) + (i - 1) = (j' - 1) * (p - 1) + (i' - 1) := by omega
    have e4 : i - 1 = i' - 1 := by
      have := congrArg (· % (p - 1)) e3
      simpa [Nat.mod_eq_of_lt e1, Nat.mod_eq_of_lt e2] using this
    have e5 : j - 1 = j' - 1 := by
      rw [e4] at e3
      exact Nat.eq_of_mul_eq_mul_right (by omega : 0 < p - 1) (by omega)
    rw [show i = i' by omega, show j = j' by omega]
  · rw [key v c i j hi hj (fun b k q => hin ⟨_, b, k, q⟩), key w d i' j' hi' hj' (fun b k q => hin ⟨_, b, k, by rw [h, q]⟩), h]

end

/-- Four triangles of a square, `p = 2`: 5 vertices, one node on each of the 8 edges, one node inside each cell. -/
example : ((elementMap squareFixed 4).bind fun em => (number (form0 2) squareFixed em 4).map fun st =>
    (st.current, gv0 2 (st.done 0), gv0 2 (st.done 3))) =
    some (17, [0, 1, 2, 3, 4, 5, 6].map some, [0, 15, 16, 1, 14, 13, 4].map some) := by
  decide +kernel

end Mifem.Props
