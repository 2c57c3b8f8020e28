import Verif.Model.TriVtk
import Verif.Props.TriNumbering
import Mathlib.Algebra.BigOperators.Group.List.Lemmas
import Mathlib.Tactic.Linarith
import Mathlib.Tactic.FieldSimp

/-!
# C96: VTK files of triangular meshes
-/

namespace Mifem.Props
open Mifem.Tri

/-! ## Numbers of the points -/

/-- The numbers `ne e i j` of the nodes `(i, j)`, `S i j`, of the elements: every node has one, they are `0, …, N - 1` without gaps, and
two nodes share a number exactly if they are the same vertex, position on an edge, or inner node. -/
structure Numbered (p n N : Nat) (S : Nat → Nat → Prop) (cell : Nat → Cell) (ne : Nat → Nat → Nat → Option Nat) : Prop where
  has : ∀ e < n, ∀ i ≤ p, ∀ j ≤ p, S i j → ∃ k < N, ne e i j = some k
  all : ∀ k < N, ∃ e < n, ∃ i ≤ p, ∃ j ≤ p, S i j ∧ ne e i j = some k
  share : ∀ e < n, ∀ i ≤ p, ∀ j ≤ p, S i j → ∀ e' < n, ∀ i' ≤ p, ∀ j' ≤ p, S i' j' →
    (ne e i j = ne e' i' j' ↔ node0 p (cell e) e i j = node0 p (cell e') e' i' j')

theorem arr0_idx {f : Form} {p : Nat} (hp : 1 ≤ p) (hfe : f.edgeLen = p - 1) (hg : GoodForm f) (hfv : ∀ a, Slot.vertex a ∈ f.slots)
    (v : Cell) (c : Nat) (a : Nums) (o : List Ent) (h : ∀ s ∈ f.slots, a s = (ents f v c s).map o.idxOf) (i j : Nat) (hi : i ≤ p)
    (hj : j ≤ p) (hin : (Slot.inner 0 ∈ f.slots ∧ f.innerLen 0 = (p - 1) ^ 2) ∨ i = 0 ∨ i = p ∨ j = 0 ∨ j = p) :
    arr0 p a i j = some (o.idxOf (node0 p v c i j)) := by
  have hv : ∀ x, (a (.vertex x))[0]? = some (o.idxOf (.vertex (v x))) := fun x => vertex_lookup (h _ (hfv x))
  have he : ∀ m k, k < p - 1 → (a (.edge m))[k]? = some (o.idxOf (edgeEnt (p - 1) (edgeOf v m) k)) := fun m k hk => by
    rw [← hfe] at hk ⊢
    exact edge_lookup (f := f) (h _ (hg.edges m)) k hk
  rw [arr0, node0]
  split_ifs with c1 c2 c3 c4 c5 c6
  · exact hv 0
  · exact hv 2
  · exact hv 1
  · exact he 2 _ (by omega)
  · exact he 1 _ (by omega)
  · exact he 0 _ (by omega)
  · rcases hin with ⟨h1, h2⟩ | h | h | h | h
    · refine inner_lookup (f := f) (h _ h1) _ ?_
      rw [h2, sq]
      exact sub_block (by omega) (by omega)
    all_goals omega

theorem numbered_of {f : Form} {p n : Nat} {S : Nat → Nat → Prop} {cell : Nat → Cell} {st : St} (o : List Ent) (hn : o.Nodup)
    (hl : o.length = st.current) (hm : ∀ e, e ∈ o ↔ ∃ c < n, ∃ s ∈ f.slots, e ∈ ents f (cell c) c s)
    (hk : ∀ c < n, ∀ i ≤ p, ∀ j ≤ p, S i j → arr0 p (st.done c) i j = some (o.idxOf (node0 p (cell c) c i j)))
    (h1 : ∀ c < n, ∀ i ≤ p, ∀ j ≤ p, S i j → ∃ s ∈ f.slots, node0 p (cell c) c i j ∈ ents f (cell c) c s)
    (h2 : ∀ c < n, ∀ s ∈ f.slots, ∀ e ∈ ents f (cell c) c s, ∃ i ≤ p, ∃ j ≤ p, S i j ∧ node0 p (cell c) c i j = e) :
    Numbered p n st.current S cell fun e i j => arr0 p (st.done e) i j := by
  let ι := { x : Nat × Nat × Nat // x.1 < n ∧ x.2.1 ≤ p ∧ x.2.2 ≤ p ∧ S x.2.1 x.2.2 }
  obtain ⟨a, b, c⟩ := sharing o hn (fun x : ι => some (arr0 p (st.done x.1.1) x.1.2.1 x.1.2.2))
    (fun x => node0 p (cell x.1.1) x.1.1 x.1.2.1 x.1.2.2)
    (fun x => by rw [hk _ x.2.1 _ x.2.2.1 _ x.2.2.2.1 x.2.2.2.2])
    (fun x => (hm _).2 ⟨_, x.2.1, h1 _ x.2.1 _ x.2.2.1 _ x.2.2.2.1 x.2.2.2.2⟩)
    (fun y hy => by
      obtain ⟨c, hc, s, hs, q⟩ := (hm y).1 hy
      obtain ⟨i, hi, j, hj, hS, e⟩ := h2 c hc s hs y q
      exact ⟨⟨(c, i, j), hc, hi, hj, hS⟩, e⟩)
  rw [hl] at a b
  refine ⟨fun e he i hi j hj hS => ?_, fun k hk => ?_, fun e he i hi j hj hS e' he' i' hi' j' hj' hS' => ?_⟩
  · obtain ⟨k, h1, h2⟩ := a ⟨(e, i, j), he, hi, hj, hS⟩
    exact ⟨k, h1, Option.some.inj h2⟩
  · obtain ⟨⟨⟨e, i, j⟩, he, hi, hj, hS⟩, h⟩ := b k hk
    exact ⟨e, he, i, hi, j, hj, hS, Option.some.inj h⟩
  · have := c ⟨(e, i, j), he, hi, hj, hS⟩ ⟨(e', i', j'), he', hi', hj', hS'⟩
    simp only [Option.some.injEq] at this
    exact this

/-- **C96, numbers of the points** of `triangle_and_quad_data(p)`. -/
theorem c96_numbers (p : Nat) (hp : 1 ≤ p) (cell : Nat → Cell) (n : Nat) (hc : Triangulation cell n) (em : EMap)
    (hem : elementMap cell n = some em) :
    ∃ st, number (form0 p) cell em n = some st ∧
      Numbered p n st.current (fun _ _ => True) cell fun e i j => arr0 p (st.done e) i j := by
  obtain ⟨st, o, e, hn, hl, hm, hd⟩ := c63_numbering (form0 p) (good0 p) cell n hc em hem
  refine ⟨st, e, numbered_of o hn hl hm (fun c hcn i hi j hj _ => ?_) (fun c hcn i hi j hj _ => node0_mem p hp _ c i j hi hj)
    fun c hcn s hs y hy => ?_⟩
  · exact arr0_idx hp rfl (good0 p) (by intro a; fin_cases a <;> simp [form0]) _ c _ o (hd c hcn) i j hi hj
      (Or.inl ⟨by simp [form0], rfl⟩)
  · obtain ⟨i, hi, j, hj, q⟩ := node0_surj p hp _ _ _ _ hy
    exact ⟨i, hi, j, hj, trivial, q⟩

theorem goodQ : GoodForm formQ := ⟨by simp [formQ], by intro m; fin_cases m <;> simp [formQ]⟩

/-- **C96, numbers of the points** of `quadratic_triangle_data`: vertices and midpoints of edges. -/
theorem c96_numbers_quadratic (cell : Nat → Cell) (n : Nat) (hc : Triangulation cell n) (em : EMap)
    (hem : elementMap cell n = some em) :
    ∃ st, number formQ cell em n = some st ∧
      Numbered 2 n st.current (fun i j => (i, j) ≠ (1, 1)) cell fun e i j => arr0 2 (st.done e) i j := by
  obtain ⟨st, o, e, hn, hl, hm, hd⟩ := c63_numbering formQ goodQ cell n hc em hem
  refine ⟨st, e, numbered_of o hn hl hm (fun c hcn i hi j hj hS => ?_) (fun c hcn i hi j hj hS => ?_)
    fun c hcn s hs y hy => ?_⟩
  · refine arr0_idx (by decide) rfl goodQ (by intro a; fin_cases a <;> simp [formQ]) _ c _ o (hd c hcn) i j hi hj (Or.inr ?_)
    simp only [ne_eq, Prod.mk.injEq, not_and] at hS
    omega
  · obtain ⟨s, hs, h⟩ := node0_mem 2 (by decide) (cell c) c i j hi hj
    have hsn : s ≠ .inner 0 := by
      rintro rfl
      rw [node0] at h
      simp only [ne_eq, Prod.mk.injEq, not_and] at hS
      split_ifs at h <;> simp [ents, form0, edgeEnt] at h
      · split_ifs at h
      · split_ifs at h
      · split_ifs at h
      · omega
    refine ⟨s, ?_, ?_⟩
    · simp only [form0, List.mem_cons, List.not_mem_nil, or_false] at hs
      simp only [formQ, List.mem_cons, List.not_mem_nil, or_false]
      rcases hs with h | h | h | h | h | h | h <;> simp_all
    · cases s with
      | vertex a => exact h
      | edge m => exact h
      | inner b =>
        simp only [form0, List.mem_cons, List.not_mem_nil, or_false] at hs
        simp_all
  · have hy' : y ∈ ents (form0 2) (cell c) c s := by
      cases s with
      | vertex a => exact hy
      | edge m => exact hy
      | inner b => simp [formQ] at hs
    obtain ⟨i, hi, j, hj, q⟩ := node0_surj 2 (by decide) _ _ _ _ hy'
    refine ⟨i, hi, j, hj, ?_, q⟩
    intro h
    simp only [Prod.mk.injEq] at h
    obtain ⟨rfl, rfl⟩ := h
    subst q
    cases s with
    | vertex a => simp [node0, ents] at hy
    | edge m =>
      simp only [ents, formQ] at hy
      obtain ⟨k, _, hk⟩ := mem_edgeEnts' hy
      simp only [node0, edgeEnt] at hk
      split_ifs at hk <;> simp_all
    | inner b => simp [formQ] at hs

/-! ## Cells -/

/-- The corners of cell `(i, j)`, `0 ≤ i, j < p`, of an element: a quadrilateral, for `j = 0` a triangle at the singular vertex. -/
def corners (i j : Nat) : List (Nat × Nat) :=
  if j = 0 then [(0, 0), (i + 1, 1), (i, 1)] else [(i, j), (i + 1, j), (i + 1, j + 1), (i, j + 1)]

theorem cells_eq {α : Type*} (p : Nat) (ne : Nat → Nat → α) : vtkTriangles p ne ++ vtkQuads p ne =
    ravelF p p fun i j => (corners i j).map fun q => ne q.1 q.2 := by
  cases p with
  | zero => rfl
  | succ p =>
    rw [vtkTriangles, vtkQuads, ravelF, List.range_succ_eq_map (n := p), List.flatMap_cons, List.flatMap_map,
      ← List.range_succ_eq_map, Nat.add_sub_cancel]
    congr 1

theorem getElem?_flatMap_const {α : Type*} (n s : Nat) (g : Nat → List α) (hg : ∀ e < n, (g e).length = s) (e r : Nat) (he : e < n)
    (hr : r < s) : ((List.range n).flatMap g)[e * s + r]? = (g e)[r]? ∧ ((List.range n).flatMap g).length = n * s := by
  induction n with
  | zero => omega
  | succ n ih =>
    have hlen : ((List.range n).flatMap g).length = n * s := by
      rw [List.length_flatMap, List.map_congr_left (g := fun _ => s) fun e he => hg e (by have := List.mem_range.1 he; omega)]
      simp
    rw [List.range_succ, List.flatMap_append, List.flatMap_cons, List.flatMap_nil, List.append_nil]
    refine ⟨?_, by rw [List.length_append, hlen, hg n (by omega)]; ring⟩
    by_cases h : e = n
    · subst h
      rw [List.getElem?_append_right (by rw [hlen]; omega), hlen, Nat.add_sub_cancel_left]
    · have : e * s + r < n * s := by
        have h1 : (e + 1) * s ≤ n * s := Nat.mul_le_mul_right s (by omega)
        have h2 : (e + 1) * s = e * s + s := by ring
        omega
      rw [List.getElem?_append_left (by rw [hlen]; exact this)]
      exact (ih (fun e he => hg e (by omega)) (by omega)).1

theorem vtkCount_getElem (l : List Nat) : ∀ ct m, m < l.length → (vtkCount l ct)[m]? = some (ct + (l.take (m + 1)).sum) := by
  induction l with
  | nil => intro ct m h; simp at h
  | cons s ss ih =>
    intro ct m h
    cases m with
    | zero => simp [vtkCount]
    | succ m =>
      rw [vtkCount, List.getElem?_cons_succ, ih _ _ (by simpa using h)]
      simp [List.take_succ_cons, add_assoc]

theorem vtkCount_length (l : List Nat) : ∀ ct, (vtkCount l ct).length = l.length := by
  induction l with
  | nil => intro ct; rfl
  | cons s ss ih => intro ct; simp [vtkCount, ih]

/-- **C96, cells.**  The three arrays fit together: there are `p²` cells in each of the `n` elements; cell `(i, j)` of element `e` is
number `m = e p² + j p + i`, and the part of the connections between offset `m - 1` and offset `m` lists its corners; its VTK type is that
of a triangle (5) or quadrilateral (9).  The last offset is the length of the connections. -/
theorem c96_cells {α : Type*} (p n : Nat) (ne : Nat → Nat → Nat → α) :
    (vtkOffsets p n).length = n * (p * p) ∧ (vtkTypes p n).length = n * (p * p) ∧
    (∀ e < n, ∀ j < p, ∀ i < p,
      let m := e * (p * p) + (j * p + i)
      let start := if m = 0 then 0 else (vtkOffsets p n).getD (m - 1) 0
      ((vtkConnections p n ne).take ((vtkOffsets p n).getD m 0)).drop start = (corners i j).map (fun q => ne e q.1 q.2) ∧
      (vtkTypes p n)[m]? = some (if j = 0 then 5 else 9)) ∧
    (1 ≤ n → 1 ≤ p → (vtkOffsets p n).getLast? = some (vtkConnections p n ne).length) := by
  let L : List (List α) := (List.range n).flatMap fun e => vtkTriangles p (ne e) ++ vtkQuads p (ne e)
  have hconn : vtkConnections p n ne = L.flatten := by
    simp [vtkConnections, L, List.flatMap_def, List.flatten_flatten, List.map_map, Function.comp_def]
  have hlen : ∀ e < n, (vtkTriangles p (ne e) ++ vtkQuads p (ne e)).length = p * p := fun e _ => by
    rw [cells_eq, ravelF_length]
  have hsz : (List.range n).flatMap (fun _ => List.replicate p 3 ++ List.replicate (p * (p - 1)) 4) = L.map List.length := by
    simp only [L, List.map_flatMap]
    congr 1
    funext e
    rw [List.map_append]
    congr 1
    · simp [vtkTriangles, Function.comp_def]
    · symm
      rw [List.eq_replicate_iff]
      constructor
      · rw [List.length_map, vtkQuads, List.length_flatMap]
        simp [mul_comm]
      · intro b hb
        simp only [vtkQuads, List.mem_map, List.mem_flatMap] at hb
        obtain ⟨_, ⟨_, _, _, _, rfl⟩, rfl⟩ := hb
        rfl
  have hty : ∀ e < n, (List.replicate p 5 ++ List.replicate (p * (p - 1)) 9 : List Nat).length = p * p := fun e _ => by
    simp only [List.length_append, List.length_replicate]
    cases p with
    | zero => rfl
    | succ p => rw [Nat.add_sub_cancel]; ring
  have hLl : L.length = n * (p * p) := by
    simp only [L]
    rw [List.length_flatMap, List.map_congr_left (g := fun _ => p * p) fun e he => hlen e (List.mem_range.1 he)]
    simp
  have hol : (vtkOffsets p n).length = n * (p * p) := by rw [vtkOffsets, vtkCount_length, hsz, List.length_map, hLl]
  have hoff : ∀ m < n * (p * p), (vtkOffsets p n)[m]? = some ((L.map List.length).take (m + 1)).sum := by
    intro m hm
    rw [vtkOffsets, hsz, vtkCount_getElem _ _ _ (by rw [List.length_map, hLl]; exact hm), Nat.zero_add]
  refine ⟨hol, ?_, ?_, ?_⟩
  · rw [vtkTypes, List.length_flatMap]
    rw [List.map_congr_left (g := fun _ => p * p) fun e he => hty e (List.mem_range.1 he)]
    simp
  · intro e he j hj i hi m start
    have hr : j * p + i < p * p := sub_block hi hj
    have hm : m < n * (p * p) := by
      have h1 : (e + 1) * (p * p) ≤ n * (p * p) := Nat.mul_le_mul_right _ (by omega)
      have h2 : (e + 1) * (p * p) = e * (p * p) + p * p := by ring
      simp only [m]; omega
    constructor
    · have hst : start = ((L.map List.length).take m).sum := by
        simp only [start]
        split_ifs with h0
        · rw [h0]; rfl
        · rw [List.getD_eq_getElem?_getD, hoff (m - 1) (by omega), show m - 1 + 1 = m by omega]; rfl
      rw [hst, List.getD_eq_getElem?_getD, hoff m hm, hconn, Option.getD_some,
        List.drop_take_succ_flatten_eq_getElem L m (by rw [hLl]; exact hm)]
      have h1 : L[m]? = some ((corners i j).map fun q => ne e q.1 q.2) := by
        simp only [L, m]
        rw [(getElem?_flatMap_const n (p * p) _ hlen e (j * p + i) he hr).1, cells_eq, getElem?_ravelF _ _ _ _ _ hi hj]
      rw [List.getElem?_eq_getElem (by rw [hLl]; exact hm)] at h1
      exact Option.some.inj h1
    · simp only [vtkTypes, m]
      rw [(getElem?_flatMap_const n (p * p) _ hty e (j * p + i) he hr).1]
      split_ifs with h0
      · subst h0
        rw [List.getElem?_append_left (by simpa using hi)]
        simp [hi]
      · have : p ≤ j * p + i := by
          have := Nat.le_mul_of_pos_left p (by omega : 0 < j)
          omega
        have h3 := hty 0 (by omega)
        simp only [List.length_append, List.length_replicate] at h3
        rw [List.getElem?_append_right (by simpa using this)]
        simp only [List.length_replicate, List.getElem?_replicate]
        rw [if_pos (by omega)]
  · intro hn hp
    have h0 : 0 < n * (p * p) := Nat.mul_pos (by omega) (Nat.mul_pos (by omega) (by omega))
    rw [List.getLast?_eq_getElem?, hol, hoff _ (by omega), show n * (p * p) - 1 + 1 = n * (p * p) by omega, hconn,
      List.length_flatten, List.take_of_length_le (by rw [List.length_map, hLl])]

/-! ## Export -/

theorem assign_spec {V : Type*} (N : Nat) (nodes : List (Nat × Nat)) (ne : Nat → Nat → Option Nat) (val : Nat → Nat → V)
    (hin : ∀ q ∈ nodes, ∃ k < N, ne q.1 q.2 = some k) : ∀ x : Nat → V,
    ∃ X, assign N ((nodes.map fun q => ne q.1 q.2).zip (nodes.map fun q => some (val q.1 q.2))) x = some X ∧
      ∀ k, (X k = x k ∧ ∀ q ∈ nodes, ne q.1 q.2 ≠ some k) ∨ ∃ q ∈ nodes, ne q.1 q.2 = some k ∧ X k = val q.1 q.2 := by
  induction nodes with
  | nil => intro x; exact ⟨x, rfl, fun k => Or.inl ⟨rfl, by simp⟩⟩
  | cons q nodes ih =>
    intro x
    obtain ⟨k0, hk0, e0⟩ := hin q (by simp)
    obtain ⟨X, e, h⟩ := ih (fun q hq => hin q (by simp [hq])) (Function.update x k0 (val q.1 q.2))
    refine ⟨X, ?_, fun k => ?_⟩
    · simp only [List.map_cons, List.zip_cons_cons, e0, assign, if_pos hk0]
      exact e
    · rcases h k with ⟨h1, h2⟩ | ⟨q', hq', h1, h2⟩
      · by_cases hk : k = k0
        · subst hk
          exact Or.inr ⟨q, by simp, e0, by rw [h1, Function.update_self]⟩
        · refine Or.inl ⟨by rw [h1, Function.update_of_ne hk], fun q' hq' => ?_⟩
          rcases List.mem_cons.1 hq' with rfl | hq'
          · rw [e0]; intro h; exact hk (Option.some.inj h).symm
          · exact h2 q' hq'
      · exact Or.inr ⟨q', by simp [hq'], h1, h2⟩

theorem scatter_spec {V : Type*} (N : Nat) (nodes : List (Nat × Nat)) (gath : Nat → List (Option Nat)) (vals : Nat → List (Option V))
    (ne : Nat → Nat → Nat → Option Nat) (val : Nat → Nat → Nat → V) (hg : ∀ e, gath e = nodes.map fun q => ne e q.1 q.2)
    (hv : ∀ e, vals e = nodes.map fun q => some (val e q.1 q.2)) (es : List Nat)
    (hin : ∀ e ∈ es, ∀ q ∈ nodes, ∃ k < N, ne e q.1 q.2 = some k) : ∀ x : Nat → V,
    ∃ X, scatter N gath vals es x = some X ∧
      ∀ k, (X k = x k ∧ ∀ e ∈ es, ∀ q ∈ nodes, ne e q.1 q.2 ≠ some k) ∨
        ∃ e ∈ es, ∃ q ∈ nodes, ne e q.1 q.2 = some k ∧ X k = val e q.1 q.2 := by
  induction es with
  | nil => intro x; exact ⟨x, rfl, fun k => Or.inl ⟨rfl, by simp⟩⟩
  | cons e es ih =>
    intro x
    obtain ⟨Y, e1, h1⟩ := assign_spec N nodes (ne e) (val e) (hin e (by simp)) x
    obtain ⟨X, e2, h2⟩ := ih (fun e he => hin e (by simp [he])) Y
    refine ⟨X, ?_, fun k => ?_⟩
    · rw [scatter, hg, hv, e1]; exact e2
    · rcases h2 k with ⟨a, b⟩ | ⟨e', he', q, hq, a, b⟩
      · rcases h1 k with ⟨c, d⟩ | ⟨q, hq, c, d⟩
        · refine Or.inl ⟨a.trans c, fun e' he' => ?_⟩
          rcases List.mem_cons.1 he' with rfl | he'
          · exact d
          · exact b e' he'
        · exact Or.inr ⟨e, by simp, q, hq, c, a.trans d⟩
      · exact Or.inr ⟨e', by simp [he'], q, hq, a, b⟩

/-- The nodes that are read in every element: one of the first column (the singular vertex) and all others. -/
def readNodes (p : Nat) : List (Nat × Nat) := (p / 2, 0) :: ravelF (p + 1) p fun i j => (i, j + 1)

theorem take_vtkIndices {α : Type*} (p : Nat) (arr : Nat → Nat → α) :
    take p (vtkIndices p) arr = (readNodes p).map fun q => some (arr q.1 q.2) := by
  have hp2 : p / 2 < p + 1 := by omega
  rw [take, vtkIndices, readNodes, List.map_cons, List.map_cons]
  congr 1
  · have := getElem?_ravelF (p + 1) (p + 1) arr (p / 2) 0 hp2 (by omega)
    simpa using this
  · have hl : (p + 1) ^ 2 - (p + 1) = p * (p + 1) := by
      have : (p + 1) ^ 2 = p * (p + 1) + (p + 1) := by ring
      omega
    rw [hl]
    refine List.ext_getElem? fun m => ?_
    by_cases hm : m < p * (p + 1)
    · obtain ⟨i, hi, j, hj, rfl⟩ : ∃ i < p + 1, ∃ j < p, m = j * (p + 1) + i :=
        ⟨m % (p + 1), Nat.mod_lt _ (by omega), m / (p + 1), Nat.div_lt_of_lt_mul (by rw [Nat.mul_comm]; exact hm),
          (Nat.div_add_mod' _ _).symm⟩
      rw [List.getElem?_map, List.getElem?_map, List.getElem?_range' hm, getElem?_ravelF _ _ _ _ _ hi hj, Option.map_some,
        Option.map_some]
      have : p + 1 + 1 * (j * (p + 1) + i) = (j + 1) * (p + 1) + i := by ring
      rw [this, getElem?_ravelF _ _ _ _ _ hi (by omega)]
    · rw [List.getElem?_eq_none (by simpa using hm), List.getElem?_eq_none (by simpa [ravelF_length] using hm)]

theorem mem_readNodes {p : Nat} {q : Nat × Nat} : q ∈ readNodes p ↔ q = (p / 2, 0) ∨ (q.1 ≤ p ∧ 1 ≤ q.2 ∧ q.2 ≤ p) := by
  rw [readNodes, List.mem_cons]
  refine or_congr Iff.rfl ?_
  simp only [ravelF, List.mem_flatMap, List.mem_map, List.mem_range]
  constructor
  · rintro ⟨j, hj, i, hi, rfl⟩; exact ⟨by omega, by simp, by simpa using hj⟩
  · rintro ⟨h1, h2, h3⟩; exact ⟨q.2 - 1, by omega, q.1, by omega, by ext <;> simp; omega⟩

theorem mem_vtkConnections {α : Type*} {p n : Nat} {ne : Nat → Nat → Nat → α} {x : α} : x ∈ vtkConnections p n ne ↔
    ∃ e < n, ∃ i < p, ∃ j < p, ∃ q ∈ corners i j, x = ne e q.1 q.2 := by
  have : vtkConnections p n ne = (List.range n).flatMap fun e => (ravelF p p fun i j => (corners i j).map fun q => ne e q.1 q.2).flatten := by
    simp only [vtkConnections, ← cells_eq, List.flatten_append]
  rw [this]
  simp only [List.mem_flatMap, List.mem_range, List.mem_flatten, ravelF, List.mem_map]
  constructor
  · rintro ⟨e, he, l, ⟨j, hj, i, hi, rfl⟩, hx⟩
    obtain ⟨q, hq, rfl⟩ := List.mem_map.1 hx
    exact ⟨e, he, i, hi, j, hj, q, hq, rfl⟩
  · rintro ⟨e, he, i, hi, j, hj, q, hq, rfl⟩
    exact ⟨e, he, _, ⟨j, hj, i, hi, rfl⟩, List.mem_map.2 ⟨q, hq, rfl⟩⟩

theorem corners_le {p i j : Nat} (hi : i < p) (hj : j < p) {q : Nat × Nat} (hq : q ∈ corners i j) : q.1 ≤ p ∧ q.2 ≤ p := by
  rw [corners] at hq
  split_ifs at hq <;> simp only [List.mem_cons, List.not_mem_nil, or_false] at hq
  · rcases hq with rfl | rfl | rfl <;> constructor <;> simp <;> omega
  · rcases hq with rfl | rfl | rfl | rfl <;> constructor <;> simp <;> omega

theorem is_corner {p i j : Nat} (hp : 1 ≤ p) (hi : i ≤ p) (hj : j ≤ p) (h0 : j = 0 → i = 0) :
    ∃ a < p, ∃ b < p, (i, j) ∈ corners a b := by
  by_cases h : j = 0
  · refine ⟨0, by omega, 0, by omega, ?_⟩
    rw [h, h0 h]; simp [corners]
  · by_cases hip : i = p
    · refine ⟨p - 1, by omega, j - 1, by omega, ?_⟩
      subst hip
      rw [corners]; split_ifs
      · obtain rfl : j = 1 := by omega
        simp; omega
      · simp; omega
    · refine ⟨i, by omega, j - 1, by omega, ?_⟩
      rw [corners]; split_ifs
      · obtain rfl : j = 1 := by omega
        simp
      · simp; omega

theorem mapM_id_numbers (L : List (Option Nat)) (h : ∀ x ∈ L, ∃ k, x = some k) : ∃ M, L.mapM id = some M ∧ ∀ k, k ∈ M ↔ some k ∈ L := by
  induction L with
  | nil => exact ⟨[], rfl, by simp⟩
  | cons x L ih =>
    obtain ⟨M, e, hM⟩ := ih fun y hy => h y (by simp [hy])
    obtain ⟨k, rfl⟩ := h x (by simp)
    exact ⟨k :: M, by simp [e], fun k' => by simp [hM]⟩

theorem max_numbers (L : List (Option Nat)) (N : Nat) (h1 : ∀ x ∈ L, ∃ k < N, x = some k) (h2 : 1 ≤ N) (h3 : ∀ k < N, some k ∈ L) :
    (L.mapM id).bind List.max? = some (N - 1) := by
  obtain ⟨M, e, hM⟩ := mapM_id_numbers L fun x hx => (h1 x hx).imp fun k hk => hk.2
  rw [e, Option.bind_some, List.max?_eq_some_iff]
  refine ⟨(hM _).2 (h3 _ (by omega)), fun b hb => ?_⟩
  obtain ⟨k, hk, e⟩ := h1 _ ((hM b).1 hb)
  cases e
  omega

/-- The node of the first column is the same whatever the row. -/
theorem Numbered.first {p n N : Nat} {S : Nat → Nat → Prop} {cell : Nat → Cell} {ne : Nat → Nat → Nat → Option Nat}
    (h : Numbered p n N S cell ne) {e : Nat} (he : e < n) {i i' : Nat} (hi : i ≤ p) (hi' : i' ≤ p) (hS : S i 0) (hS' : S i' 0) :
    ne e i 0 = ne e i' 0 :=
  (h.share e he i hi 0 (by omega) hS e he i' hi' 0 (by omega) hS').2 (by simp [node0])

/-- **C96, export of values.**  The export with `p` succeeds, in whatever order the elements come, and the value at every point of the file is
that of one of the nodes with this number. -/
theorem c96_some {V : Type*} {p n N : Nat} (hp : 1 ≤ p) (hn : 1 ≤ n) {cell : Nat → Cell} {ne : Nat → Nat → Nat → Option Nat}
    (h : Numbered p n N (fun _ _ => True) cell ne) (zero : V) (val : Nat → Nat → Nat → V) (es : List Nat) (hes : ∀ e, e ∈ es ↔ e < n) :
    ∃ X, vtkExport p n zero ne val es = some X ∧
      ∀ k < N, ∃ e < n, ∃ i ≤ p, ∃ j ≤ p, ne e i j = some k ∧ X k = val e i j := by
  obtain ⟨k0, hk0, -⟩ := h.has 0 (by omega) 0 (by omega) 0 (by omega) trivial
  have hmax : ((vtkConnections p n ne).mapM id).bind List.max? = some (N - 1) := by
    refine max_numbers _ N (fun x hx => ?_) (by omega) fun k hk => ?_
    · obtain ⟨e, he, i, hi, j, hj, q, hq, rfl⟩ := mem_vtkConnections.1 hx
      obtain ⟨a, b⟩ := corners_le hi hj hq
      exact h.has e he _ a _ b trivial
    · obtain ⟨e, he, i, hi, j, hj, -, hk⟩ := h.all k hk
      have : ∃ i' ≤ p, (j = 0 → i' = 0) ∧ ne e i' j = some k := by
        by_cases hj0 : j = 0
        · subst hj0
          exact ⟨0, by omega, fun _ => rfl, by rw [← hk]; exact h.first he (by omega) hi trivial trivial⟩
        · exact ⟨i, hi, fun h => absurd h hj0, hk⟩
      obtain ⟨i', hi', h0, hk'⟩ := this
      obtain ⟨a, ha, b, hb, hq⟩ := is_corner hp hi' hj h0
      exact mem_vtkConnections.2 ⟨e, he, a, ha, b, hb, _, hq, hk'.symm⟩
  have hrd : ∀ q ∈ readNodes p, q.1 ≤ p ∧ q.2 ≤ p := by
    intro q hq
    rcases mem_readNodes.1 hq with rfl | ⟨a, -, b⟩
    · exact ⟨by simp; omega, by simp⟩
    · exact ⟨a, b⟩
  obtain ⟨X, e, hX⟩ := scatter_spec (N - 1 + 1) (readNodes p) (fun e => vtkGathering p (ne e)) (fun e => take p (vtkIndices p) (val e)) ne val
    (fun e => by rw [vtkGathering, take_vtkIndices, List.map_map]; rfl) (fun e => take_vtkIndices p _) es
    (fun e he q hq => by
      obtain ⟨k, hk, e'⟩ := h.has e ((hes e).1 he) _ (hrd q hq).1 _ (hrd q hq).2 trivial
      exact ⟨k, by omega, e'⟩) fun _ => zero
  refine ⟨X, by rw [vtkExport, hmax]; exact e, fun k hk => ?_⟩
  rcases hX k with ⟨-, hno⟩ | ⟨e, he, q, hq, a, b⟩
  · obtain ⟨e, he, i, hi, j, hj, -, hk⟩ := h.all k hk
    by_cases hj0 : j = 0
    · subst hj0
      refine absurd ?_ (hno e ((hes e).2 he) (p / 2, 0) (mem_readNodes.2 (Or.inl rfl)))
      rw [← hk]; exact h.first he (by simp; omega) hi trivial trivial
    · exact absurd hk (hno e ((hes e).2 he) (i, j) (mem_readNodes.2 (Or.inr ⟨hi, by simp; omega, hj⟩)))
  · exact ⟨e, (hes e).1 he, q.1, (hrd q hq).1, q.2, (hrd q hq).2, a, b⟩

/-- **C96, single values.**  If the values of nodes with the same number are equal, the file holds at every point the value of each of its nodes. -/
theorem c96_export {V : Type*} {p n N : Nat} (hp : 1 ≤ p) (hn : 1 ≤ n) {cell : Nat → Cell} {ne : Nat → Nat → Nat → Option Nat}
    (h : Numbered p n N (fun _ _ => True) cell ne) (zero : V) (val : Nat → Nat → Nat → V)
    (hval : ∀ e < n, ∀ i ≤ p, ∀ j ≤ p, ∀ e' < n, ∀ i' ≤ p, ∀ j' ≤ p,
      node0 p (cell e) e i j = node0 p (cell e') e' i' j' → val e i j = val e' i' j')
    (es : List Nat) (hes : ∀ e, e ∈ es ↔ e < n) :
    ∃ X, vtkExport p n zero ne val es = some X ∧
      ∀ e < n, ∀ i ≤ p, ∀ j ≤ p, ∀ k, ne e i j = some k → X k = val e i j := by
  obtain ⟨X, e0, hX⟩ := c96_some hp hn h zero val es hes
  refine ⟨X, e0, fun e he i hi j hj k hk => ?_⟩
  obtain ⟨k', hk', e1⟩ := h.has e he i hi j hj trivial
  rw [hk] at e1
  cases e1
  obtain ⟨e', he', i', hi', j', hj', a, b⟩ := hX k hk'
  rw [b]
  exact hval e' he' i' hi' j' hj' e he i hi j hj ((h.share e' he' i' hi' j' hj' trivial e he i hi j hj trivial).1 (a.trans hk.symm))

section
variable {F : Type*} [Field F] [LinearOrder F] [IsStrictOrderedRing F]

theorem linspace_symmetric {p : Nat} (hp : 1 ≤ p) : SymmetricNodes p (linspace (-1 : F) p) := by
  have h : (p : F) ≠ 0 := Nat.cast_ne_zero.2 (by omega)
  refine ⟨by simp [linspace], by simp only [linspace]; field_simp; norm_num, fun k hk => ?_⟩
  simp only [linspace, Nat.cast_sub hk]
  field_simp
  ring

/-- **C96, export of fields.**  For a scalar field the file holds at every node of every element the place of the node and the value of the field
there. -/
theorem c96_field {p n N : Nat} (hp : 1 ≤ p) (hn : 1 ≤ n) {cell : Nat → Cell} {ne : Nat → Nat → Nat → Option Nat}
    (h : Numbered p n N (fun _ _ => True) cell ne) (pt : Nat → F × F) (f : (Fin 2 → F) → F) (es : List Nat) (hes : ∀ e, e ∈ es ↔ e < n) :
    let P := fun e i j => mapping (fun a => pt (cell e a)) ![linspace (-1) p i, linspace (-1) p j]
    ∃ X v, vtkExport p n 0 ne P es = some X ∧ vtkExport p n 0 ne (fun e i j => f (P e i j)) es = some v ∧
      ∀ e < n, ∀ i ≤ p, ∀ j ≤ p, ∀ k, ne e i j = some k → X k = P e i j ∧ v k = f (X k) := by
  intro P
  have hP : ∀ e < n, ∀ i ≤ p, ∀ j ≤ p, ∀ e' < n, ∀ i' ≤ p, ∀ j' ≤ p,
      node0 p (cell e) e i j = node0 p (cell e') e' i' j' → P e i j = P e' i' j' := fun e _ i hi j hj e' _ i' hi' j' hj' hh =>
    c63_points p hp _ (linspace_symmetric hp) pt _ _ e e' i j i' j' hi hj hi' hj' (by rintro rfl; rfl) hh
  obtain ⟨X, e1, h1⟩ := c96_export hp hn h 0 P hP es hes
  obtain ⟨v, e2, h2⟩ := c96_export hp hn h 0 (fun e i j => f (P e i j))
    (fun e he i hi j hj e' he' i' hi' j' hj' hh => by rw [hP e he i hi j hj e' he' i' hi' j' hj' hh]) es hes
  refine ⟨X, v, e1, e2, fun e he i hi j hj k hk => ?_⟩
  rw [h1 e he i hi j hj k hk, h2 e he i hi j hj k hk]
  exact ⟨rfl, rfl⟩

/-! ### Quadratic triangles -/

/-- The nodes read in every element: midpoints and vertices, the singular vertex as `(1, 0)`. -/
def readNodesQ : List (Nat × Nat) := [(1, 0), (0, 1), (2, 1), (0, 2), (1, 2), (2, 2)]

theorem take_quadratic {α : Type*} (arr : Nat → Nat → α) :
    take 2 [1, 3, 5, 6, 7, 8] arr = readNodesQ.map fun q => some (arr q.1 q.2) := rfl

omit [LinearOrder F] [IsStrictOrderedRing F] in
/-- **C96, export with quadratic triangles**: the same for the vertices and midpoints of edges. -/
theorem c96_quadratic {V : Type*} {n N : Nat} (hn : 1 ≤ n) {cell : Nat → Cell} {ne : Nat → Nat → Nat → Option Nat}
    (h : Numbered 2 n N (fun i j => (i, j) ≠ (1, 1)) cell ne) (zero : V) (val : Nat → Nat → Nat → V)
    (hval : ∀ e < n, ∀ i ≤ 2, ∀ j ≤ 2, ∀ e' < n, ∀ i' ≤ 2, ∀ j' ≤ 2,
      node0 2 (cell e) e i j = node0 2 (cell e') e' i' j' → val e i j = val e' i' j')
    (es : List Nat) (hes : ∀ e, e ∈ es ↔ e < n) :
    ∃ X, quadraticExport n zero ne val es = some X ∧
      ∀ e < n, ∀ i ≤ 2, ∀ j ≤ 2, (i, j) ≠ (1, 1) → ∀ k, ne e i j = some k → X k = val e i j := by
  obtain ⟨k0, hk0, -⟩ := h.has 0 (by omega) 0 (by omega) 0 (by omega) (by decide)
  have hrow : ∀ e, (quadraticRow (ne e)).map Option.join = [(0, 0), (2, 2), (0, 2), (2, 1), (1, 2), (0, 1)].map fun q => ne e q.1 q.2 :=
    fun e => rfl
  have hmax : (((List.range n).flatMap fun e => (quadraticRow (ne e)).map Option.join).mapM id).bind List.max? = some (N - 1) := by
    refine max_numbers _ N (fun x hx => ?_) (by omega) fun k hk => ?_
    · obtain ⟨e, he, hx⟩ := List.mem_flatMap.1 hx
      rw [hrow] at hx
      obtain ⟨q, hq, rfl⟩ := List.mem_map.1 hx
      have : q.1 ≤ 2 ∧ q.2 ≤ 2 ∧ (q.1, q.2) ≠ (1, 1) := by
        clear * - hq; revert q; decide
      exact h.has e (List.mem_range.1 he) _ this.1 _ this.2.1 this.2.2
    · obtain ⟨e, he, i, hi, j, hj, hS, hk⟩ := h.all k hk
      refine List.mem_flatMap.2 ⟨e, List.mem_range.2 he, ?_⟩
      rw [hrow]
      by_cases hj0 : j = 0
      · subst hj0
        rw [← hk, h.first he hi (i' := 0) (by omega) hS (by decide)]
        exact List.mem_map.2 ⟨(0, 0), by simp, rfl⟩
      · refine List.mem_map.2 ⟨(i, j), ?_, hk⟩
        have : ∀ i ≤ 2, ∀ j ≤ 2, j ≠ 0 → (i, j) ≠ (1, 1) → (i, j) ∈ [(0, 0), (2, 2), (0, 2), (2, 1), (1, 2), (0, 1)] := by
          intro i hi j hj; interval_cases i <;> interval_cases j <;> simp
        exact this i hi j hj hj0 hS
  have hrd : ∀ q ∈ readNodesQ, q.1 ≤ 2 ∧ q.2 ≤ 2 ∧ (q.1, q.2) ≠ (1, 1) := by decide
  obtain ⟨X, e, hX⟩ := scatter_spec (N - 1 + 1) readNodesQ (fun e => quadraticGathering (ne e))
    (fun e => take 2 [1, 3, 5, 6, 7, 8] (val e)) ne val (fun e => rfl) (fun e => take_quadratic _) es
    (fun e he q hq => by
      obtain ⟨a, b, c⟩ := hrd q hq
      obtain ⟨k, hk, e'⟩ := h.has e ((hes e).1 he) _ a _ b c
      exact ⟨k, by omega, e'⟩) fun _ => zero
  refine ⟨X, by rw [quadraticExport, hmax]; exact e, fun e he i hi j hj hS k hk => ?_⟩
  rcases hX k with ⟨-, hno⟩ | ⟨e', he', q, hq, a, b⟩
  · by_cases hj0 : j = 0
    · subst hj0
      refine absurd ?_ (hno e ((hes e).2 he) (1, 0) (by simp [readNodesQ]))
      rw [← hk]; exact h.first he (by simp) hi (by simp) hS
    · have : ∀ i ≤ 2, ∀ j ≤ 2, j ≠ 0 → (i, j) ≠ (1, 1) → (i, j) ∈ readNodesQ := by
        intro i hi j hj; interval_cases i <;> interval_cases j <;> simp [readNodesQ]
      exact absurd hk (hno e ((hes e).2 he) (i, j) (this i hi j hj hj0 hS))
  · obtain ⟨c1, c2, c3⟩ := hrd q hq
    rw [b]
    exact hval e' ((hes e').1 he') q.1 c1 q.2 c2 e he i hi j hj
      ((h.share e' ((hes e').1 he') q.1 c1 q.2 c2 c3 e he i hi j hj hS).1 (a.trans hk.symm))

/-- **C96, quadratic cells.**  The part of the connections that belongs to element `e` names, in the order of a VTK quadratic triangle, points at
the three vertices and then at the midpoints of the edges from the first to the second, the second to the third, the third to the first. -/
theorem c96_quadratic_cells {n N : Nat} (hn : 1 ≤ n) {cell : Nat → Cell} {ne : Nat → Nat → Nat → Option Nat}
    (h : Numbered 2 n N (fun i j => (i, j) ≠ (1, 1)) cell ne) (pt : Nat → F × F) (es : List Nat) (hes : ∀ e, e ∈ es ↔ e < n) :
    (quadraticOffsets n = vtkCount (List.replicate n 6) 0) ∧
    ∃ X, quadraticExport n 0 ne (fun e i j => mapping (fun a => pt (cell e a)) ![linspace (-1) 2 i, linspace (-1) 2 j]) es = some X ∧
    ∀ e < n, ∃ k : Fin 6 → Nat, (quadraticRow (ne e)).map Option.join = List.ofFn (fun a => some (k a)) ∧
      let v := fun a : Fin 3 => (![(pt (cell e a)).1, (pt (cell e a)).2] : Fin 2 → F)
      X (k 0) = v 0 ∧ X (k 1) = v 1 ∧ X (k 2) = v 2 ∧
      (∀ q, X (k 3) q = (v 0 q + v 1 q) / 2) ∧ (∀ q, X (k 4) q = (v 1 q + v 2 q) / 2) ∧ ∀ q, X (k 5) q = (v 2 q + v 0 q) / 2 := by
  constructor
  · refine List.ext_getElem? fun m => ?_
    by_cases hm : m < n
    · rw [vtkCount_getElem _ _ _ (by simpa using hm)]
      simp [quadraticOffsets, hm, List.take_replicate]
      ring
    · rw [List.getElem?_eq_none (by simpa [quadraticOffsets] using hm), List.getElem?_eq_none (by simpa [vtkCount_length] using hm)]
  · obtain ⟨X, e0, hX⟩ := c96_quadratic hn h 0
      (fun e i j => mapping (fun a => pt (cell e a)) ![linspace (-1) 2 i, linspace (-1) 2 j])
      (fun e _ i hi j hj e' _ i' hi' j' hj' hh =>
        c63_points 2 (by decide) _ (linspace_symmetric (by decide)) pt _ _ e e' i j i' j' hi hj hi' hj' (by rintro rfl; rfl) hh) es hes
    refine ⟨X, e0, fun e he => ?_⟩
    have h2 : (2 : F) ≠ 0 := two_ne_zero
    have get : ∀ i ≤ 2, ∀ j ≤ 2, (i, j) ≠ (1, 1) → ∃ k, ne e i j = some k ∧ X k =
        mapping (fun a => pt (cell e a)) ![linspace (-1) 2 i, linspace (-1) 2 j] := fun i hi j hj hS => by
      obtain ⟨k, -, hk⟩ := h.has e he i hi j hj hS
      exact ⟨k, hk, hX e he i hi j hj hS k hk⟩
    obtain ⟨k0, a0, b0⟩ := get 0 (by decide) 0 (by decide) (by decide)
    obtain ⟨k1, a1, b1⟩ := get 2 (by decide) 2 (by decide) (by decide)
    obtain ⟨k2, a2, b2⟩ := get 0 (by decide) 2 (by decide) (by decide)
    obtain ⟨k3, a3, b3⟩ := get 2 (by decide) 1 (by decide) (by decide)
    obtain ⟨k4, a4, b4⟩ := get 1 (by decide) 2 (by decide) (by decide)
    obtain ⟨k5, a5, b5⟩ := get 0 (by decide) 1 (by decide) (by decide)
    refine ⟨![k0, k1, k2, k3, k4, k5], ?_, ?_⟩
    · have : (quadraticRow (ne e)).map Option.join = [ne e 0 0, ne e 2 2, ne e 0 2, ne e 2 1, ne e 1 2, ne e 0 1] := rfl
      rw [this, a0, a1, a2, a3, a4, a5]; rfl
    · intro v
      rw [mapping_eq _ _ h2] at b0 b1 b2 b3 b4 b5
      refine ⟨b0.trans ?_, b1.trans ?_, b2.trans ?_, fun q => (congrFun b3 q).trans ?_, fun q => (congrFun b4 q).trans ?_,
        fun q => (congrFun b5 q).trans ?_⟩
      · funext q; fin_cases q <;> simp [bary, linspace, v]
      · funext q; fin_cases q <;> simp [bary, linspace, v]
      · funext q; fin_cases q <;> simp [bary, linspace, v]
      · fin_cases q <;> simp [bary, linspace, v] <;> ring
      · fin_cases q <;> simp [bary, linspace, v] <;> ring
      · fin_cases q <;> simp [bary, linspace, v] <;> ring

/-! ### Areas of cells -/

/-- Signed area of a polygon. -/
def shoelace (l : List (Fin 2 → F)) : F := ((l.zip (l.rotate 1)).map fun ab => ab.1 0 * ab.2 1 - ab.1 1 * ab.2 0).sum / 2

/-- **C96, areas.**  With the exported places of the points, cell `(i, j)` of an element has the signed area `(2j + 1)/p³` times that of the
triangle: positive (counterclockwise corners) if the triangle is; and the cells together have the area of the triangle. -/
theorem c96_area {p : Nat} (hp : 1 ≤ p) (pts : Fin 3 → F × F) :
    let P := fun q : Nat × Nat => mapping pts ![linspace (-1) p q.1, linspace (-1) p q.2]
    (∀ i < p, ∀ j < p, shoelace ((corners i j).map P) = (2 * j + 1) / p ^ 3 * (cross (pts 0) (pts 1) (pts 2) / 2)) ∧
    (0 < cross (pts 0) (pts 1) (pts 2) → ∀ i < p, ∀ j < p, 0 < shoelace ((corners i j).map P)) ∧
    ((ravelF p p fun i j => shoelace ((corners i j).map P)).sum = cross (pts 0) (pts 1) (pts 2) / 2) := by
  intro P
  have h2 : (2 : F) ≠ 0 := two_ne_zero
  have hp0 : (p : F) ≠ 0 := Nat.cast_ne_zero.2 (by omega)
  have key : ∀ i < p, ∀ j < p, shoelace ((corners i j).map P) = (2 * j + 1) / p ^ 3 * (cross (pts 0) (pts 1) (pts 2) / 2) := by
    intro i hi j hj
    have hP : ∀ q, P q = bary pts (1 - q.2 / p) ((q.1 / p) * (q.2 / p)) ((1 - q.1 / p) * (q.2 / p)) := by
      intro q
      simp only [P, mapping_eq _ _ h2]
      congr 1 <;> simp [linspace] <;> field_simp <;> ring
    rw [corners]
    split_ifs with hj0
    · subst hj0
      simp [shoelace, hP, bary, cross]
      field_simp
      ring
    · simp [shoelace, hP, bary, cross]
      field_simp
      ring
  refine ⟨key, fun hc i hi j hj => ?_, ?_⟩
  · rw [key i hi j hj]
    have : (0 : F) < p := Nat.cast_pos.2 (by omega)
    positivity
  · have e : (ravelF p p fun i j => shoelace ((corners i j).map P)) =
        ravelF p p fun _ j => (2 * (j : F) + 1) / p ^ 3 * (cross (pts 0) (pts 1) (pts 2) / 2) := by
      simp only [ravelF]
      refine List.flatMap_congr fun j hj => List.map_congr_left fun i hi => ?_
      exact key i (List.mem_range.1 hi) j (List.mem_range.1 hj)
    have sums : ∀ m c : Nat, ((List.range m).map fun j : Nat => (c : F) * (2 * j + 1)).sum = c * (m : F) ^ 2 := by
      intro m c
      induction m with
      | zero => simp
      | succ m ih => rw [List.range_succ, List.map_append, List.sum_append, ih]; simp; ring
    rw [e]
    simp only [ravelF, List.flatMap_def, List.sum_flatten, List.map_map, Function.comp_def, List.map_const', List.sum_replicate,
      List.length_range, nsmul_eq_mul]
    have : (fun j : Nat => (p : F) * ((2 * (j : F) + 1) / p ^ 3 * (cross (pts 0) (pts 1) (pts 2) / 2))) =
        fun j : Nat => (p : F) * (2 * j + 1) * ((cross (pts 0) (pts 1) (pts 2) / 2) / p ^ 3) := by
      funext j; ring
    rw [this, List.sum_map_mul_right, sums]
    field_simp

/-! ### Vector fields, 1-forms and 2-forms -/

theorem vtk_assign_map {V W : Type*} (g : V → W) (N : Nat) : ∀ (l : List (Option Nat × Option V)) (x : Nat → V),
    assign N (l.map (Prod.map id (Option.map g))) (g ∘ x) = (assign N l x).map (g ∘ ·)
  | [], x => rfl
  | (some k, some v) :: r, x => by
    simp only [List.map_cons, Prod.map, id, Option.map_some, assign]
    split_ifs
    · rw [← Function.comp_update, vtk_assign_map g N r]
    · rfl
  | (none, a) :: r, x => by cases a <;> rfl
  | (some k, none) :: r, x => rfl

theorem scatter_map {V W : Type*} (g : V → W) (N : Nat) (gath : Nat → List (Option Nat)) (vals : Nat → List (Option V)) :
    ∀ (es : List Nat) (x : Nat → V),
    scatter N gath (fun e => (vals e).map (Option.map g)) es (g ∘ x) = (scatter N gath vals es x).map (g ∘ ·)
  | [], x => rfl
  | e :: es, x => by
    rw [scatter, scatter]
    have : (gath e).zip ((vals e).map (Option.map g)) = ((gath e).zip (vals e)).map (Prod.map id (Option.map g)) := by
      rw [← List.map_id (gath e), List.zip_map]; simp
    rw [this, vtk_assign_map]
    cases assign N ((gath e).zip (vals e)) x with
    | none => rfl
    | some y => exact scatter_map g N gath vals es y

theorem vtkExport_map {V W : Type*} (g : V → W) (p n : Nat) (zero : V) (ne : Nat → Nat → Nat → Option Nat) (val : Nat → Nat → Nat → V)
    (es : List Nat) : vtkExport p n (g zero) ne (fun e i j => g (val e i j)) es = (vtkExport p n zero ne val es).map (g ∘ ·) := by
  rw [vtkExport, vtkExport]
  have : ∀ e, take p (vtkIndices p) (fun i j => g (val e i j)) = (take p (vtkIndices p) (val e)).map (Option.map g) := by
    intro e
    rw [take_vtkIndices, take_vtkIndices, List.map_map]; rfl
  cases ((vtkConnections p n ne).mapM id).bind List.max? with
  | none => rfl
  | some m =>
    simp only [this]
    exact scatter_map g _ _ _ es fun _ => zero

/-- **C96, export of vector fields**, with `np.linspace(-0.99, 1, p + 1)` instead of `np.linspace(-1, 1, p + 1)` in the second direction.  The
file holds the values of the field at the places it gives, but a point is displaced from the node of the mesh, by at most 1/200 of the
distance from the singular vertex of some element with this node to the side opposite to it. -/
theorem c96_vector_partial {V : Type*} [Zero V] {p n N : Nat} (hp : 1 ≤ p) (hn : 1 ≤ n) {cell : Nat → Cell} {ne : Nat → Nat → Nat → Option Nat}
    (h : Numbered p n N (fun _ _ => True) cell ne) (pt : Nat → F × F) (f : (Fin 2 → F) → V) (es : List Nat) (hes : ∀ e, e ∈ es ↔ e < n) :
    let P := fun e i j => mapping (fun a => pt (cell e a)) ![linspace (-1) p i, linspace (-(99 / 100)) p j]
    ∃ X v, vtkExport p n 0 ne P es = some X ∧ vtkExport p n 0 ne (fun e i j => f (P e i j)) es = some v ∧
      ∀ e < n, ∀ i ≤ p, ∀ j ≤ p, ∀ k, ne e i j = some k → v k = f (X k) ∧
        ∃ e' < n, ∃ i' ≤ p, ∃ j' ≤ p, ne e' i' j' = some k ∧ ∃ δ, 0 ≤ δ ∧ δ ≤ 1 / 200 ∧ (j' = p → δ = 0) ∧ ∀ q,
          X k q = mapping (fun a => pt (cell e a)) ![linspace (-1) p i, linspace (-1) p j] q +
            δ * (bary (fun a => pt (cell e' a)) 0 (i' / p) (1 - i' / p) q - bary (fun a => pt (cell e' a)) 1 0 0 q) := by
  intro P
  obtain ⟨XV, e0, hX⟩ := c96_some hp hn h (0 : (Fin 2 → F) × V) (fun e i j => (P e i j, f (P e i j))) es hes
  refine ⟨Prod.fst ∘ XV, Prod.snd ∘ XV, ?_, ?_, fun e he i hi j hj k hk => ?_⟩
  · have := vtkExport_map Prod.fst p n (0 : (Fin 2 → F) × V) ne (fun e i j => (P e i j, f (P e i j))) es
    rw [e0] at this; exact this
  · have := vtkExport_map Prod.snd p n (0 : (Fin 2 → F) × V) ne (fun e i j => (P e i j, f (P e i j))) es
    rw [e0] at this; exact this
  · obtain ⟨k', hk', e1⟩ := h.has e he i hi j hj trivial
    rw [hk] at e1
    cases e1
    obtain ⟨e', he', i', hi', j', hj', a, b⟩ := hX k hk'
    have hsame := c63_points p hp (linspace (-1 : F) p) (linspace_symmetric hp) pt _ _ e e' i j i' j' hi hj hi' hj' (by rintro rfl; rfl)
      ((h.share e he i hi j hj trivial e' he' i' hi' j' hj' trivial).1 (hk.trans a.symm))
    have h2 : (2 : F) ≠ 0 := two_ne_zero
    have hp0 : (0 : F) < p := Nat.cast_pos.2 (by omega)
    have hjp : (j' : F) / p ≤ 1 := (div_le_one hp0).2 (Nat.cast_le.2 hj')
    have hj0 : 0 ≤ (j' : F) / p := by positivity
    refine ⟨by simp [b], e', he', i', hi', j', hj', a, (1 - j' / p) / 200, ?_, ?_, ?_, fun q => ?_⟩
    · apply div_nonneg <;> linarith
    · rw [div_le_div_iff_of_pos_right (by norm_num)]; linarith
    · rintro rfl; rw [div_self hp0.ne']; simp
    · rw [hsame]
      simp only [Function.comp, b, P, mapping_eq _ _ h2]
      fin_cases q <;> simp [bary, linspace] <;> field_simp <;> ring

end

/-- The mesh of the square, exported in the order `es`: place of point `k`. -/
def squareVector (es : List Nat) (k : Nat) : Option (ℚ × ℚ) :=
  (elementMap squareFixed 4).bind fun em => (number (form0 1) squareFixed em 4).bind fun st =>
    (vtkExport 1 4 0 (fun e i j => arr0 1 (st.done e) i j)
      (fun e i j => mapping (fun a => squarePoints (squareFixed e a)) ![linspace (-1) 1 i, linspace (-(99 / 100)) 1 j]) es).map
      fun X => (X k 0, X k 1)

/-- **C96 fails for vector fields** (and for 1-forms and 2-forms): the place of the first point, the corner `(0, 0)` of the square, depends on
the order in which the elements come from the cores and is not `(0, 0)` in any case. -/
theorem c96_vector_fails : squareVector [0, 1, 2, 3] 0 = some (0, 1 / 200) ∧ squareVector [3, 2, 1, 0] 0 = some (1 / 400, 1 / 400) := by
  decide +kernel

/-! ## Examples -/

/-- The square of four triangles: numbers, places and values of a scalar field for every `p` and every order of the elements. -/
example (p : Nat) (hp : 1 ≤ p) (em : EMap) (hem : elementMap squareFixed 4 = some em) : ∃ st, number (form0 p) squareFixed em 4 = some st ∧
    ∃ X, vtkExport p 4 0 (fun e i j => arr0 p (st.done e) i j)
      (fun e i j => mapping (fun a => squarePoints (squareFixed e a)) ![linspace (-1) p i, linspace (-1) p j]) [2, 0, 3, 1] = some X := by
  obtain ⟨st, e, h⟩ := c96_numbers p hp _ 4 square_triangulation em hem
  obtain ⟨X, v, e1, -⟩ := c96_field hp (by decide) h squarePoints (fun x => x 0) [2, 0, 3, 1] (fun e => by simp; omega)
  exact ⟨st, e, X, e1⟩

example (em : EMap) (hem : elementMap squareFixed 4 = some em) : ∃ st, number formQ squareFixed em 4 = some st ∧
    ∃ X, quadraticExport 4 0 (fun e i j => arr0 2 (st.done e) i j)
      (fun e i j => mapping (fun a => squarePoints (squareFixed e a)) ![linspace (-1) 2 i, linspace (-1) 2 j]) [0, 1, 2, 3] = some X := by
  obtain ⟨st, e, h⟩ := c96_numbers_quadratic _ 4 square_triangulation em hem
  obtain ⟨-, X, e1, -⟩ := c96_quadratic_cells (by decide) h squarePoints [0, 1, 2, 3] (fun e => by simp; omega)
  exact ⟨st, e, X, e1⟩

/-- There is a map of elements. -/
example : (elementMap squareFixed 4).isSome = true := by decide +kernel

/-- One triangle with `p = 2`: two triangles and two quadrilaterals. -/
example : vtkConnections 2 1 (fun _ i j => (i, j)) =
    [(0, 0), (1, 1), (0, 1), (0, 0), (2, 1), (1, 1), (0, 1), (1, 1), (1, 2), (0, 2), (1, 1), (2, 1), (2, 2), (1, 2)] ∧
    vtkOffsets 2 1 = [3, 6, 10, 14] ∧ vtkTypes 2 1 = [5, 5, 9, 9] := by decide

example : 0 < cross (squarePoints 0) (squarePoints 1) (squarePoints 4) := by norm_num [cross, squarePoints]

end Mifem.Props
