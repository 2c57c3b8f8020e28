import Verif.Model.Sides
import Verif.Lemmas.Incidence2D
import Verif.Lemmas.Incidence3D

/-! Helper lemmas on side dofs and trace matrices. -/

namespace Mifem
open Finset

theorem sideW_rows (start : Nat) (cols : List Nat) (v : Int) :
    (sideW start cols v).map Write.r = List.range' start cols.length := by
  simp [sideW, Function.comp_def, List.zipIdx_map_snd]

theorem sideW_cols (start : Nat) (cols : List Nat) (v : Int) : (sideW start cols v).map Write.c = cols := by
  simp [sideW, Function.comp_def, List.zipIdx_map_fst]

theorem sideW_vals {R : Type*} [Ring R] (start : Nat) (cols : List Nat) (v : Int) (x : Nat → R) :
    (sideW start cols v).map (fun w => (w.v : R) * x w.c) = cols.map (fun d => (v : R) * x d) := by
  unfold sideW
  rw [List.map_map]
  induction cols generalizing start with
  | nil => rfl
  | cons a l ih => simp [List.zipIdx_cons, ← ih (start + 1)]

theorem traceAux_rows {σ : Type} (dofs : σ → List Nat) (start : Nat) (signs : List (σ × Int)) :
    (traceAux dofs start signs).map Write.r
      = List.range' start ((signs.map (fun sv => (dofs sv.1).length)).sum) := by
  induction signs generalizing start with
  | nil => rfl
  | cons sv rest ih =>
    obtain ⟨s, v⟩ := sv
    simp only [traceAux, List.map_append, sideW_rows, ih, List.map_cons, List.sum_cons]
    rw [List.range'_append_1]

theorem traceAux_cols {σ : Type} (dofs : σ → List Nat) (start : Nat) (signs : List (σ × Int)) (n : Nat)
    (h : ∀ s, ∀ d ∈ dofs s, d < n) : ∀ w ∈ traceAux dofs start signs, w.c < n := by
  induction signs generalizing start with
  | nil => simp [traceAux]
  | cons sv rest ih =>
    obtain ⟨s, v⟩ := sv
    intro w hw
    simp only [traceAux, List.mem_append] at hw
    rcases hw with hw | hw
    · apply h s
      rw [← sideW_cols start (dofs s) v]
      exact List.mem_map_of_mem hw
    · exact ih _ w hw

theorem traceAux_vals {R : Type*} [Ring R] {σ : Type} (dofs : σ → List Nat) (start : Nat) (signs : List (σ × Int))
    (x : Nat → R) : (traceAux dofs start signs).map (fun w => (w.v : R) * x w.c)
      = signs.flatMap (fun sv => (dofs sv.1).map (fun d => (sv.2 : R) * x d)) := by
  induction signs generalizing start with
  | nil => rfl
  | cons sv rest ih =>
    obtain ⟨s, v⟩ := sv
    simp only [traceAux, List.map_append, sideW_vals, ih, List.flatMap_cons]

theorem filter_row_of_range {ws : List Write} {s n : Nat} (h : ws.map Write.r = List.range' s n) (k : Nat)
    (hk : k < ws.length) : ws.filter (fun w => w.r = s + k) = [ws[k]] := by
  induction ws generalizing s n k with
  | nil => simp at hk
  | cons w ws ih =>
    have hn : n = ws.length + 1 := by simpa using (congrArg List.length h).symm
    subst hn
    rw [List.range'_succ] at h
    simp only [List.map_cons, List.cons.injEq] at h
    obtain ⟨hw, hws⟩ := h
    cases k with
    | zero =>
      have : ws.filter (fun v => v.r = s) = [] := by
        rw [List.filter_eq_nil_iff]
        intro v hv
        have hv' : v.r ∈ List.range' (s+1) ws.length := by rw [← hws]; exact List.mem_map_of_mem hv
        rw [List.mem_range'_1] at hv'
        simp only [decide_eq_true_eq]; omega
      simp [hw, this]
    | succ k =>
      have hk' : k < ws.length := by simpa using hk
      have := ih hws k hk'
      have e : s + (k + 1) = s + 1 + k := by omega
      simp only [e, List.getElem_cons_succ, ← this]
      rw [List.filter_cons_of_neg]
      simp only [decide_eq_true_eq]; omega

theorem applyM_consecutive {R : Type*} [Ring R] {ws : List Write} {N n : Nat} (x : Nat → R)
    (h : ws.map Write.r = List.range' 0 N) (hc : ∀ w ∈ ws, w.c < n) :
    (List.range N).map (applyM n (matOf ws) x) = ws.map (fun w => (w.v : R) * x w.c) := by
  have hN : ws.length = N := by simpa using congrArg List.length h
  apply List.ext_getElem
  · simp [hN]
  · intro k h1 h2
    have hk : k < ws.length := by simpa using h2
    have hr : ws[k].r = k := by
      have : (ws.map Write.r)[k]'(by simpa using hk) = (List.range' 0 N)[k]'(by simp [← hN]; exact hk) := by
        simp only [h]
      simpa using this
    have hf := filter_row_of_range h k hk
    rw [Nat.zero_add] at hf
    simp only [List.getElem_map, List.getElem_range]
    rw [applyM_row x hf (by simp [hr]) (by simpa using hc _ (List.getElem_mem hk)) (by simp)]
    simp

theorem applyM_trace {R : Type*} [Ring R] {σ : Type} (dofs : σ → List Nat) (signs : List (σ × Int)) {N n : Nat}
    (hN : (signs.map (fun sv => (dofs sv.1).length)).sum = N) (h : ∀ s, ∀ d ∈ dofs s, d < n) (x : Nat → R) :
    (List.range N).map (applyM n (matOf (traceAux dofs 0 signs)) x)
      = signs.flatMap (fun sv => (dofs sv.1).map (fun d => (sv.2 : R) * x d)) := by
  rw [← traceAux_vals dofs 0]
  apply applyM_consecutive
  · rw [traceAux_rows, hN]
  · exact traceAux_cols _ _ _ _ h

theorem ravelF_length (a b : Nat) (f : Nat → Nat → Nat) : (ravelF a b f).length = a * b := by
  simp [ravelF, List.length_flatMap, Nat.mul_comm]

theorem mem_ravelF {a b : Nat} {f : Nat → Nat → Nat} {d : Nat} :
    d ∈ ravelF a b f ↔ ∃ i j, i < a ∧ j < b ∧ f i j = d := by
  simp [ravelF, List.mem_flatMap]
  constructor
  · rintro ⟨j, hj, i, hi, e⟩; exact ⟨i, hi, j, hj, e⟩
  · rintro ⟨i, hi, j, hj, e⟩; exact ⟨j, hj, i, hi, e⟩

/-- two raveled arrays give equal lists of values iff the entries agree. -/
theorem map_ravelF_eq {R : Type*} {a b : Nat} {f g : Nat → Nat → Nat} {x y : Nat → R} :
    (ravelF a b f).map x = (ravelF a b g).map y ↔ ∀ i j, i < a → j < b → x (f i j) = y (g i j) := by
  unfold ravelF
  rw [List.map_flatMap, List.map_flatMap]
  constructor
  · intro h i j hi hj
    induction b with
    | zero => omega
    | succ b ih =>
      rw [List.range_succ, List.flatMap_append, List.flatMap_append] at h
      have hl := List.append_inj' h (by simp)
      by_cases hjb : j = b
      · subst hjb
        have := hl.2
        simp only [List.flatMap_cons, List.flatMap_nil, List.append_nil, List.map_map] at this
        have := List.map_inj_left.1 this i (by simpa using hi)
        simpa using this
      · exact ih hl.1 (by omega)
  · intro h
    refine List.flatMap_congr fun j hj => ?_
    rw [List.map_map, List.map_map]
    refine List.map_congr_left fun i hi => ?_
    exact h i j (by simpa using hi) (by simpa using hj)

theorem sum_map_range {R : Type*} [AddCommMonoid R] (n : Nat) (g : Nat → R) :
    ((List.range n).map g).sum = ∑ i ∈ range n, g i := by
  induction n with
  | zero => simp
  | succ n ih => rw [List.range_succ, List.map_append, List.sum_append, ih, Finset.sum_range_succ]; simp

theorem sum_ravelF {R : Type*} [AddCommMonoid R] (a b : Nat) (f : Nat → Nat → Nat) (g : Nat → R) :
    ((ravelF a b f).map g).sum = ∑ j ∈ range b, ∑ i ∈ range a, g (f i j) := by
  unfold ravelF
  induction b with
  | zero => simp
  | succ b ih =>
    rw [List.range_succ, List.flatMap_append, List.map_append, List.sum_append, ih, Finset.sum_range_succ]
    congr 1
    simp only [List.flatMap_cons, List.flatMap_nil, List.append_nil, List.map_map]
    exact sum_map_range a _

end Mifem
