import Verif.Model.VtkGrid
import Mathlib.Tactic.SplitIfs
import Mathlib.Tactic.FieldSimp
import Mathlib.Tactic.Ring
import Mathlib.Data.Finset.Card
import Mathlib.Data.Rat.Cast.CharZero
import Mathlib.Algebra.Field.Rat
import Mathlib.Data.List.Basic
import Mathlib.Data.List.Nodup
import Mathlib.Data.List.Induction
import Mathlib.Algebra.BigOperators.Group.List.Basic

/-!
# C114: export to VTK

Specification: a program that reads the file finds at each corner of each cell the coordinates and the values of the discrete field at the
grid point there.  The order of the corners of a cell is that of the VTK documentation.
-/

namespace Mifem.Props.Vtk114
open Mifem.VtkGrid

/-- Corners of the types 8 (pixel), 9 (quadrilateral), 11 (voxel), 12 (hexahedron). -/
def vtkCorners : ℕ → List (List ℕ)
  | 8 => [[0, 0], [1, 0], [0, 1], [1, 1]]
  | 9 => [[0, 0], [1, 0], [1, 1], [0, 1]]
  | 11 => [[0, 0, 0], [1, 0, 0], [0, 1, 0], [1, 1, 0], [0, 0, 1], [1, 0, 1], [0, 1, 1], [1, 1, 1]]
  | 12 => [[0, 0, 0], [1, 0, 0], [1, 1, 0], [0, 1, 0], [0, 0, 1], [1, 0, 1], [1, 1, 1], [0, 1, 1]]
  | _ => []

section nodes
variable {K : Type} [Zero K] [DecidableEq K]

/-- `v` is the value of a corner with node `n` of one of the cells. -/
def AtNode (steps : List (List ℕ)) (gv : ℕ → List ℕ) (arr : String → List ℕ → K) (cells : List Cell) (n : ℕ) (v : K) : Prop :=
  ∃ c ∈ cells, ∃ k : ℕ, (gv c.e)[k]? = some n ∧ (corner steps arr c)[k]? = some v

omit [Zero K] [DecidableEq K] in
theorem assign_spec : ∀ (ns : List ℕ) (vs : List K) (row : ℕ → K) (n : ℕ), ns.length = vs.length →
    (n ∉ ns → assign row ns vs n = row n) ∧ (n ∈ ns → ∃ k : ℕ, ns[k]? = some n ∧ vs[k]? = some (assign row ns vs n))
  | [], vs, row, n, _ => by
    cases vs <;> exact ⟨fun _ => rfl, fun h => by cases h⟩
  | m :: ns, [], _, _, h => by simp at h
  | m :: ns, v :: vs, row, n, h => by
    have ih := assign_spec ns vs (fun k => if k = m then v else row k) n (by simpa using h)
    unfold assign
    constructor
    · intro hn
      rw [List.mem_cons, not_or] at hn
      rw [ih.1 hn.2, if_neg hn.1]
    · intro hn
      by_cases hin : n ∈ ns
      · obtain ⟨k, h1, h2⟩ := ih.2 hin
        exact ⟨k + 1, h1, h2⟩
      · have hnm : n = m := by
          rcases List.mem_cons.mp hn with h' | h'
          · exact h'
          · exact absurd h' hin
        subst hnm
        refine ⟨0, rfl, ?_⟩
        rw [ih.1 hin, if_pos rfl]
        rfl

omit [DecidableEq K] in
theorem rowOf_spec (steps : List (List ℕ)) (gv : ℕ → List ℕ) (arr : String → List ℕ → K) (n : ℕ) (cells : List Cell)
    (hl : ∀ c ∈ cells, (gv c.e).length = steps.length) :
    ((∀ c ∈ cells, n ∉ gv c.e) → rowOf steps gv arr cells n = 0) ∧
      ((∃ c ∈ cells, n ∈ gv c.e) → AtNode steps gv arr cells n (rowOf steps gv arr cells n)) := by
  unfold rowOf
  induction cells using List.reverseRecOn with
  | nil => exact ⟨fun _ => rfl, fun ⟨c, h, _⟩ => by cases h⟩
  | append_singleton cs c ih =>
    have ih := ih (fun x hx => hl x (List.mem_append_left _ hx))
    rw [List.foldl_append]
    simp only [List.foldl_cons, List.foldl_nil]
    have ha := assign_spec (gv c.e) (corner steps arr c)
      (cs.foldl (fun row c => assign row (gv c.e) (corner steps arr c)) fun _ => 0) n (by
        rw [hl c (List.mem_append_right _ (List.mem_singleton.mpr rfl)), corner, List.length_map])
    constructor
    · intro h
      rw [ha.1 (h c (List.mem_append_right _ (List.mem_singleton.mpr rfl)))]
      exact ih.1 (fun x hx => h x (List.mem_append_left _ hx))
    · rintro ⟨x, hx, hxn⟩
      by_cases hc : n ∈ gv c.e
      · obtain ⟨k, h1, h2⟩ := ha.2 hc
        exact ⟨c, List.mem_append_right _ (List.mem_singleton.mpr rfl), k, h1, h2⟩
      · have hx' : x ∈ cs := by
          rcases List.mem_append.mp hx with h | h
          · exact h
          · cases List.mem_singleton.mp h
            exact absurd hxn hc
        rw [ha.1 hc]
        obtain ⟨y, hy, k, h1, h2⟩ := ih.2 ⟨x, hx', hxn⟩
        exact ⟨y, List.mem_append_left _ hy, k, h1, h2⟩

theorem merged_spec (n : ℕ) (rows : List (ℕ → K)) :
    (merged rows n = 0 ∧ ∀ r ∈ rows, r n = 0) ∨ ∃ r ∈ rows, merged rows n = r n ∧ r n ≠ 0 := by
  unfold merged
  induction rows using List.reverseRecOn with
  | nil => exact Or.inl ⟨rfl, fun r h => by cases h⟩
  | append_singleton rs r ih =>
    rw [List.foldl_append]
    simp only [List.foldl_cons, List.foldl_nil]
    by_cases hr : r n = 0
    · rw [if_neg (by simpa using hr)]
      rcases ih with ⟨h1, h2⟩ | ⟨s, hs, h1, h2⟩
      · left
        refine ⟨h1, ?_⟩
        intro s hs
        rcases List.mem_append.mp hs with h | h
        · exact h2 s h
        · cases List.mem_singleton.mp h
          exact hr
      · exact Or.inr ⟨s, List.mem_append_left _ hs, h1, h2⟩
    · rw [if_pos hr]
      exact Or.inr ⟨r, List.mem_append_right _ (List.mem_singleton.mpr rfl), rfl, hr⟩

/-- **C114 (values at nodes).**  At each node of a cell the file has the value of a corner there, for all fields (also discontinuous ones),
on all cores together. -/
theorem c114_some_value (steps : List (List ℕ)) (gv : ℕ → List ℕ) (arr : String → List ℕ → K) (cores : List (List Cell))
    (hl : ∀ c ∈ cores.flatten, (gv c.e).length = steps.length) (n : ℕ) (hn : ∃ c ∈ cores.flatten, n ∈ gv c.e) :
    AtNode steps gv arr cores.flatten n (nodal steps gv arr cores n) := by
  have hl' : ∀ cells ∈ cores, ∀ c ∈ cells, (gv c.e).length = steps.length := fun cells hc c h =>
    hl c (List.mem_flatten.mpr ⟨cells, hc, h⟩)
  unfold nodal
  rcases merged_spec n (cores.map (rowOf steps gv arr)) with ⟨h1, h2⟩ | ⟨r, hr, h1, h2⟩
  · obtain ⟨c, hc, hcn⟩ := hn
    obtain ⟨cells, hcs, hcc⟩ := List.mem_flatten.mp hc
    have h3 := h2 _ (List.mem_map_of_mem hcs)
    obtain ⟨y, hy, k, h4, h5⟩ := (rowOf_spec steps gv arr n cells (hl' cells hcs)).2 ⟨c, hcc, hcn⟩
    rw [h1]
    rw [h3] at h5
    exact ⟨y, List.mem_flatten.mpr ⟨cells, hcs, hy⟩, k, h4, h5⟩
  · obtain ⟨cells, hcs, rfl⟩ := List.mem_map.mp hr
    rw [h1]
    have hex : ∃ c ∈ cells, n ∈ gv c.e := by
      by_contra hno
      push Not at hno
      exact h2 ((rowOf_spec steps gv arr n cells (hl' cells hcs)).1 hno)
    obtain ⟨y, hy, k, h4, h5⟩ := (rowOf_spec steps gv arr n cells (hl' cells hcs)).2 hex
    exact ⟨y, List.mem_flatten.mpr ⟨cells, hcs, hy⟩, k, h4, h5⟩

end nodes

/-- Each cell is on one core. -/
def Distributed (cores : List (List Cell)) : Prop := (cores.flatten.map (·.e)).Nodup

theorem sum_one {f : List Cell → ℕ} {e v : ℕ} : ∀ (cores : List (List Cell)), Distributed cores →
    (∃ c ∈ cores.flatten, c.e = e) → (∀ cells ∈ cores, f cells = if cells.any fun c => c.e == e then v else 0) →
    (cores.map f).sum = v
  | [], _, ⟨_, h, _⟩, _ => by cases h
  | cs :: l, hd, ⟨c, hc, hce⟩, hf => by
    unfold Distributed at hd
    rw [List.flatten_cons, List.map_append, List.nodup_append] at hd
    rw [List.map_cons, List.sum_cons, hf cs (List.mem_cons_self ..)]
    by_cases hin : ∃ x ∈ cs, x.e = e
    · obtain ⟨x, hx, hxe⟩ := hin
      have h1 : (cs.any fun c => c.e == e) = true := List.any_eq_true.mpr ⟨x, hx, by simpa using hxe⟩
      rw [if_pos h1]
      have h2 : (l.map f).sum = 0 := by
        apply List.sum_eq_zero
        intro y hy
        obtain ⟨cells, hcells, rfl⟩ := List.mem_map.mp hy
        rw [hf cells (List.mem_cons_of_mem _ hcells), if_neg]
        intro hany
        obtain ⟨z, hz, hze⟩ := List.any_eq_true.mp hany
        have hze : z.e = e := by simpa using hze
        exact hd.2.2 x.e (List.mem_map_of_mem hx) z.e
          (List.mem_map_of_mem (List.mem_flatten.mpr ⟨cells, hcells, hz⟩)) (by rw [hxe, hze])
      rw [h2, Nat.add_zero]
    · have h1 : ¬ (cs.any fun c => c.e == e) = true := by
        intro hany
        obtain ⟨z, hz, hze⟩ := List.any_eq_true.mp hany
        exact hin ⟨z, hz, by simpa using hze⟩
      rw [if_neg h1, Nat.zero_add]
      refine sum_one l hd.2.1 ⟨c, ?_, hce⟩ (fun cells h => hf cells (List.mem_cons_of_mem _ h))
      rw [List.flatten_cons] at hc
      rcases List.mem_append.mp hc with h | h
      · exact absurd ⟨c, h, hce⟩ hin
      · exact h

/-- Corners with the same node have the same value. -/
def Conforming {K : Type} (steps : List (List ℕ)) (gv : ℕ → List ℕ) (arr : String → List ℕ → K) (cells : List Cell) : Prop :=
  ∀ c ∈ cells, ∀ c' ∈ cells, ∀ k k' n : ℕ, ∀ s s' : List ℕ, (gv c.e)[k]? = some n → (gv c'.e)[k']? = some n →
    steps[k]? = some s → steps[k']? = some s' →
    arr c.rn (List.zipWith (· + ·) c.idx s) = arr c'.rn (List.zipWith (· + ·) c'.idx s')

theorem nodal_at {K : Type} [Zero K] [DecidableEq K] {steps : List (List ℕ)} {gv : ℕ → List ℕ} {arr : String → List ℕ → K}
    {cores : List (List Cell)} (hl : ∀ c ∈ cores.flatten, (gv c.e).length = steps.length)
    (hc : Conforming steps gv arr cores.flatten) {c : Cell} (hm : c ∈ cores.flatten) {j n : ℕ} {s : List ℕ}
    (hn : (gv c.e)[j]? = some n) (hs : steps[j]? = some s) :
    nodal steps gv arr cores n = arr c.rn (List.zipWith (· + ·) c.idx s) := by
  obtain ⟨c', hm', k', h1, h2⟩ := c114_some_value steps gv arr cores hl n ⟨c, hm, List.mem_of_getElem? hn⟩
  rw [corner, List.getElem?_map, Option.map_eq_some_iff] at h2
  obtain ⟨s', hs', h2⟩ := h2
  rw [← h2]
  exact (hc c hm c' hm' j k' n s s' hn h1 hs hs').symm

theorem conn_eq (swift : List (List ℕ)) (orth : ℕ → Bool) (gv : ℕ → List ℕ) {cores : List (List Cell)} (hd : Distributed cores)
    {c : Cell} (hm : c ∈ cores.flatten) (k : ℕ) :
    conn swift orth gv cores c.e k = (connRow swift orth gv c.e).getD k 0 :=
  sum_one cores hd ⟨c, hm, rfl⟩ (fun _ _ => rfl)

theorem cellType_eq (t t' : ℕ) (orth : ℕ → Bool) {cores : List (List Cell)} (hd : Distributed cores)
    {c : Cell} (hm : c ∈ cores.flatten) : cellType t t' orth cores c.e = if orth c.e then t else t' :=
  sum_one cores hd ⟨c, hm, rfl⟩ (fun _ _ => rfl)

/-- **C114 (cells in 2-D, partial).**  For any distribution of the cells: a program that reads the file finds at corner `k` of each cell, in
the order of corners that VTK has for the type of the cell, the number the field has at the grid point there.  Partial: corners with the same
node must have the same number (`c114_periodic_fails`). -/
theorem c114_cells2_partial {K : Type} [Zero K] [DecidableEq K] (orth : ℕ → Bool) (gv : ℕ → List ℕ) (arr : String → List ℕ → K)
    (cores : List (List Cell)) (hd : Distributed cores) (hl : ∀ c ∈ cores.flatten, (gv c.e).length = 4)
    (hc : Conforming steps2 gv arr cores.flatten) (c : Cell) (hm : c ∈ cores.flatten) (k : ℕ) (hk : k < 4) :
    ∃ s, (vtkCorners (cellType 8 9 orth cores c.e))[k]? = some s ∧
      nodal steps2 gv arr cores (conn swift2 orth gv cores c.e k) = arr c.rn (List.zipWith (· + ·) c.idx s) := by
  have key := fun (j n : ℕ) (s : List ℕ) => nodal_at (j := j) (n := n) (s := s) hl hc hm
  rw [conn_eq swift2 orth gv hd hm k, cellType_eq 8 9 orth hd hm, connRow]
  have h4 := hl c hm
  generalize gv c.e = g at key h4 ⊢
  match g, h4 with
  | [a0, a1, a2, a3], _ =>
    cases orth c.e
    · simp only [Bool.false_eq_true, if_false]
      match k, hk with
      | 0, _ => exact ⟨_, rfl, by simpa [mulVec, swift2] using key 0 a0 _ rfl rfl⟩
      | 1, _ => exact ⟨_, rfl, by simpa [mulVec, swift2] using key 1 a1 _ rfl rfl⟩
      | 2, _ => exact ⟨_, rfl, by simpa [mulVec, swift2] using key 3 a3 _ rfl rfl⟩
      | 3, _ => exact ⟨_, rfl, by simpa [mulVec, swift2] using key 2 a2 _ rfl rfl⟩
    · simp only [if_true]
      match k, hk with
      | 0, _ => exact ⟨_, rfl, key 0 a0 _ rfl rfl⟩
      | 1, _ => exact ⟨_, rfl, key 1 a1 _ rfl rfl⟩
      | 2, _ => exact ⟨_, rfl, key 2 a2 _ rfl rfl⟩
      | 3, _ => exact ⟨_, rfl, key 3 a3 _ rfl rfl⟩

/-- **C114 (cells in 3-D, partial).** -/
theorem c114_cells3_partial {K : Type} [Zero K] [DecidableEq K] (orth : ℕ → Bool) (gv : ℕ → List ℕ) (arr : String → List ℕ → K)
    (cores : List (List Cell)) (hd : Distributed cores) (hl : ∀ c ∈ cores.flatten, (gv c.e).length = 8)
    (hc : Conforming steps3 gv arr cores.flatten) (c : Cell) (hm : c ∈ cores.flatten) (k : ℕ) (hk : k < 8) :
    ∃ s, (vtkCorners (cellType 11 12 orth cores c.e))[k]? = some s ∧
      nodal steps3 gv arr cores (conn swift3 orth gv cores c.e k) = arr c.rn (List.zipWith (· + ·) c.idx s) := by
  have key := fun (j n : ℕ) (s : List ℕ) => nodal_at (j := j) (n := n) (s := s) hl hc hm
  rw [conn_eq swift3 orth gv hd hm k, cellType_eq 11 12 orth hd hm, connRow]
  have h8 := hl c hm
  generalize gv c.e = g at key h8 ⊢
  match g, h8 with
  | [a0, a1, a2, a3, a4, a5, a6, a7], _ =>
    cases orth c.e
    · simp only [Bool.false_eq_true, if_false]
      match k, hk with
      | 0, _ => exact ⟨_, rfl, by simpa [mulVec, swift3] using key 0 a0 _ rfl rfl⟩
      | 1, _ => exact ⟨_, rfl, by simpa [mulVec, swift3] using key 1 a1 _ rfl rfl⟩
      | 2, _ => exact ⟨_, rfl, by simpa [mulVec, swift3] using key 3 a3 _ rfl rfl⟩
      | 3, _ => exact ⟨_, rfl, by simpa [mulVec, swift3] using key 2 a2 _ rfl rfl⟩
      | 4, _ => exact ⟨_, rfl, by simpa [mulVec, swift3] using key 4 a4 _ rfl rfl⟩
      | 5, _ => exact ⟨_, rfl, by simpa [mulVec, swift3] using key 5 a5 _ rfl rfl⟩
      | 6, _ => exact ⟨_, rfl, by simpa [mulVec, swift3] using key 7 a7 _ rfl rfl⟩
      | 7, _ => exact ⟨_, rfl, by simpa [mulVec, swift3] using key 6 a6 _ rfl rfl⟩
    · simp only [if_true]
      match k, hk with
      | 0, _ => exact ⟨_, rfl, key 0 a0 _ rfl rfl⟩
      | 1, _ => exact ⟨_, rfl, key 1 a1 _ rfl rfl⟩
      | 2, _ => exact ⟨_, rfl, key 2 a2 _ rfl rfl⟩
      | 3, _ => exact ⟨_, rfl, key 3 a3 _ rfl rfl⟩
      | 4, _ => exact ⟨_, rfl, key 4 a4 _ rfl rfl⟩
      | 5, _ => exact ⟨_, rfl, key 5 a5 _ rfl rfl⟩
      | 6, _ => exact ⟨_, rfl, key 6 a6 _ rfl rfl⟩
      | 7, _ => exact ⟨_, rfl, key 7 a7 _ rfl rfl⟩

/-! Two cells beside each other, on two cores; the second is not orthogonal.  Its third corner is node 5, where `x` is 2. -/

def two : List (List Cell) := [[⟨0, "R:A", [0, 0]⟩], [⟨1, "R:A", [1, 0]⟩]]
def gvTwo : ℕ → List ℕ | 0 => [0, 1, 2, 3] | _ => [1, 4, 3, 5]
def xTwo : String → List ℕ → ℤ := fun _ l => (l.getD 0 0 : ℕ)

example : Distributed two := by unfold Distributed; decide
example : ∀ c ∈ two.flatten, (gvTwo c.e).length = 4 := by decide
example : (List.range 6).map (nodal steps2 gvTwo xTwo two) = [0, 1, 0, 1, 2, 2] := by decide
example : (List.range 4).map (conn swift2 (fun e => e == 0) gvTwo two 1) = [1, 4, 5, 3] := by decide
example : (List.range 2).map (cellType 8 9 (fun e => e == 0) two) = [8, 9] := by decide

/-- The numbers at the corners of the two cells do conform. -/
example : Conforming steps2 gvTwo xTwo two.flatten := by
  intro c hc c' hc' k k' n s s' h1 h2 h3 h4
  have hk : k < 4 := (List.getElem?_eq_some_iff.mp h3).1
  have hk' : k' < 4 := (List.getElem?_eq_some_iff.mp h4).1
  have hall : ∀ c ∈ two.flatten, ∀ c' ∈ two.flatten, ∀ k < 4, ∀ k' < 4, (gvTwo c.e)[k]? = (gvTwo c'.e)[k']? →
      xTwo c.rn (List.zipWith (· + ·) c.idx (steps2.getD k [])) = xTwo c'.rn (List.zipWith (· + ·) c'.idx (steps2.getD k' [])) := by
    decide
  have := hall c hc c' hc' k hk k' hk' (by rw [h1, h2])
  simpa [List.getD_eq_getElem?_getD, h3, h4] using this

/-- **C114 (fails in periodic domains).**  With two cells in a ring the nodes of the right side are those of the left side; the first
coordinate that the file has at the first corner of the first cell is that of the right side. -/
theorem c114_periodic_fails :
    ∃ (gv : ℕ → List ℕ) (c : Cell), c ∈ two.flatten ∧ (∀ c ∈ two.flatten, (gv c.e).length = 4) ∧
      (vtkCorners (cellType 8 9 (fun _ => true) two c.e))[0]? = some [0, 0] ∧
      nodal steps2 gv xTwo two (conn swift2 (fun _ => true) gv two c.e 0) ≠ xTwo c.rn (List.zipWith (· + ·) c.idx [0, 0]) :=
  ⟨fun e => if e = 0 then [0, 1, 2, 3] else [1, 0, 3, 2], ⟨0, "R:A", [0, 0]⟩, List.mem_cons_self .., by decide, by decide, by decide⟩

/-- **C114 (offsets).**  The corners of cell `i` are the entries `m i, …, m i + m - 1` of the connectivity. -/
theorem c114_offsets (m n i : ℕ) (hi : i < n) : offset m n i = m * (i + 1) := by
  unfold offset
  by_cases h1 : n = 1
  · rw [if_pos h1]
    have : i = 0 := by omega
    subst this
    simp
  · rw [if_neg h1]
    have h2 : (n : ℚ) - 1 ≠ 0 := by
      intro h
      apply h1
      have : (n : ℚ) = (1 : ℕ) := by rw [Nat.cast_one]; exact sub_eq_zero.mp h
      exact Nat.cast_injective this
    have h3 : (((m * n : ℕ) : ℚ) - (m : ℚ)) / ((n : ℚ) - 1) = m := by
      rw [div_eq_iff h2]
      push_cast
      ring
    rw [h3]
    ring

example : (List.range 3).map (offset 4 3) = [4, 8, 12] := by
  simp only [List.range, List.range.loop, List.map_cons, List.map_nil]
  rw [c114_offsets 4 3 0 (by decide), c114_offsets 4 3 1 (by decide), c114_offsets 4 3 2 (by decide)]
  norm_num

/-! ### Names of variables -/

/-- The name itself or the name with a number. -/
def Variant (a n : List Char) : Prop := n = a ∨ ∃ j : ℕ, n = a ++ '_' :: Nat.toDigits 10 j

theorem digits_inj {i j : ℕ} (h : Nat.toDigits 10 i = Nat.toDigits 10 j) : i = j := by
  rw [← Nat.ofDigitChars_ten_toDigits (n := i), h, Nat.ofDigitChars_ten_toDigits]

theorem fresh_sound (used : List (List Char)) (old : List Char) : ∀ (fuel j : ℕ) (name n : List Char), Variant old name →
    fresh used old fuel j name = some n → n ∉ used ∧ Variant old n
  | 0, _, _, _, _, h => by cases h
  | fuel + 1, j, name, n, hv, h => by
    unfold fresh at h
    split_ifs at h with hu
    · exact fresh_sound used old fuel (j + 1) _ n (Or.inr ⟨j + 1, rfl⟩) h
    · cases h
      exact ⟨hu, hv⟩

theorem fresh_none (used : List (List Char)) (old : List Char) : ∀ (fuel j : ℕ),
    fresh used old fuel j (old ++ '_' :: Nat.toDigits 10 j) = none →
    ∀ i < fuel, (old ++ '_' :: Nat.toDigits 10 (j + i)) ∈ used
  | 0, _, _, i, hi => absurd hi (Nat.not_lt_zero i)
  | fuel + 1, j, h, i, hi => by
    unfold fresh at h
    split_ifs at h with hu
    cases i with
    | zero => exact hu
    | succ i =>
      have := fresh_none used old fuel (j + 1) h i (by omega)
      rwa [show j + 1 + i = j + (i + 1) by omega] at this

theorem fresh_ends (used : List (List Char)) (old : List Char) : ∃ n, fresh used old (used.length + 2) 0 old = some n := by
  cases h : fresh used old (used.length + 2) 0 old with
  | some n => exact ⟨n, rfl⟩
  | none =>
    exfalso
    unfold fresh at h
    split_ifs at h with hu
    have hall := fresh_none used old (used.length + 1) (0 + 1) h
    let f : ℕ → List Char := fun i => old ++ '_' :: Nat.toDigits 10 (0 + 1 + i)
    have hinj : Function.Injective f := by
      intro i j hij
      have h1 := List.append_cancel_left hij
      have h2 := digits_inj (List.cons.inj h1).2
      omega
    have hnd : ((List.range (used.length + 1)).map f).Nodup := List.nodup_range.map hinj
    have hsub : (List.range (used.length + 1)).map f ⊆ used := by
      intro x hx
      obtain ⟨i, hi, rfl⟩ := List.mem_map.mp hx
      exact hall i (List.mem_range.mp hi)
    have hle := (List.subperm_of_subset hnd hsub).length_le
    rw [List.length_map, List.length_range] at hle
    omega

theorem names_spec : ∀ (l used : List (List Char)), used.Nodup →
    ∃ r, names used l = some (used ++ r) ∧ (used ++ r).Nodup ∧ List.Forall₂ Variant l r
  | [], used, h => ⟨[], by simp [names], by simpa using h, List.Forall₂.nil⟩
  | a :: l, used, h => by
    obtain ⟨n, hn⟩ := fresh_ends used a
    obtain ⟨h1, h2⟩ := fresh_sound used a _ _ _ _ (Or.inl rfl) hn
    obtain ⟨r, hr1, hr2, hr3⟩ := names_spec l (used ++ [n]) (by
      rw [List.nodup_append]
      refine ⟨h, List.nodup_singleton n, ?_⟩
      intro x hx y hy hxy
      cases List.mem_singleton.mp hy
      exact h1 (hxy ▸ hx))
    refine ⟨n :: r, ?_, ?_, List.Forall₂.cons h2 hr3⟩
    · unfold names
      rw [hn]
      simpa using hr1
    · simpa using hr2

/-- **C114 (names).**  The loop ends for all names of objects; the names of the variables are different from each other, and each is the name
of the object or that with a number. -/
theorem c114_names (l : List (List Char)) :
    ∃ r, names [] l = some r ∧ r.Nodup ∧ List.Forall₂ Variant l r := by
  obtain ⟨r, h1, h2, h3⟩ := names_spec l [] List.nodup_nil
  exact ⟨r, h1, h2, h3⟩

example : (names [] ["u".toList, "u".toList, "u_1".toList]).map (·.map String.ofList) = some ["u", "u_1", "u_1_1"] := by decide +kernel

/-! ### Number of objects -/

/-- **C114 (objects).**  Two or more objects with the same coordinates are exported. -/
theorem c114_objects_partial {C : Type} [DecidableEq C] (c d : C) (l : List C) (h : ∀ x ∈ d :: l, x = c) :
    collect (c :: d :: l) = some c := by
  unfold collect
  have h1 : ((d :: l).all fun x => decide (x = c)) = true := by
    rw [List.all_eq_true]
    intro x hx
    simpa using h x hx
  simp only [h1, if_true]
  cases hg : (d :: l).getLast? with
  | none => simp at hg
  | some _ => rfl

example : collect [(1, 2), (1, 2), (1, 2)] = some (1, 2) := rfl

/-- Objects on other grids are refused. -/
theorem c114_refused {C : Type} [DecidableEq C] (c : C) (l : List C) (h : ∃ x ∈ l, x ≠ c) : collect (c :: l) = none := by
  obtain ⟨x, hx, hne⟩ := h
  unfold collect
  dsimp only
  rw [if_neg]
  intro hall
  exact hne (by simpa using List.all_eq_true.mp hall x hx)

example : collect [1, 1, 2] = none := by decide

/-- **C114 (fails for one object).** -/
theorem c114_single_fails {C : Type} [DecidableEq C] (c : C) : collect [c] = none := rfl

/-! ### Files of regions -/

theorem files_bound {C V : Type} (coords : String → C) (values : String → V) (x : C) :
    ∀ (l : List String) (i : ℕ), i ≠ 0 → files coords values (some x) i l =
      some (l.map fun rn => ("region_" ++ (rn.drop 2).toString, x, values rn))
  | [], _, _ => rfl
  | rn :: l, i, hi => by
    unfold files
    rw [if_neg hi]
    simp only [files_bound coords values x l (i + 1) (Nat.succ_ne_zero i), Option.map_some, List.map_cons]

/-- **C114 (files of regions, partial).**  Each region has a file with its name and its values; the coordinates are those of the *first*
region of the core (those of the region itself only when the coordinates are equal, as for one region). -/
theorem c114_files_partial {C V : Type} (coords : String → C) (values : String → V) (r : String) (l : List String) :
    gridFiles coords values (r :: l) =
      some ((r :: l).map fun rn => ("region_" ++ (rn.drop 2).toString, coords r, values rn)) := by
  unfold gridFiles files
  rw [if_pos rfl]
  simp only [files_bound coords values (coords r) l (0 + 1) (Nat.succ_ne_zero 0), Option.map_some, List.map_cons]

/-- A core without regions writes no file. -/
theorem c114_no_region {C V : Type} (coords : String → C) (values : String → V) : gridFiles coords values [] = some [] := rfl

/-- **C114 (coordinates of regions, fails).**  Whenever a core has two regions with different coordinates, one of its files has coordinates
that are not those of its region. -/
theorem c114_regions_fails {C V : Type} (coords : String → C) (values : String → V) (r : String) (l : List String)
    (h : ∃ rn ∈ l, coords rn ≠ coords r) :
    gridFiles coords values (r :: l) ≠
      some ((r :: l).map fun rn => ("region_" ++ (rn.drop 2).toString, coords rn, values rn)) := by
  obtain ⟨rn, hrn, hne⟩ := h
  rw [c114_files_partial]
  intro heq
  have h1 := List.map_inj_left.mp (Option.some.inj heq) rn (List.mem_cons_of_mem _ hrn)
  exact hne (congrArg (fun t => t.2.1) h1).symm

example : ∃ rn ∈ ["R:B"], (fun s : String => if s = "R:A" then 0 else 1) rn ≠ (fun s : String => if s = "R:A" then 0 else 1) "R:A" :=
  ⟨"R:B", List.mem_cons_self .., by decide⟩

end Mifem.Props.Vtk114
