import Verif.Model.TriSquare
import Mathlib.Tactic.Linarith
import Mathlib.Tactic.FieldSimp
import Mathlib.Tactic.Ring
import Mathlib.Tactic.Positivity
import Mathlib.Data.List.Basic

/-!
# C121: triangular meshes of squares

Specification: a point is in a triangle if it is not to the right of any of its three directed edges.
-/

namespace Mifem.Props.Tri121
open Mifem.TriSquare

/-- Twice the signed area of a triangle. -/
def orient (a b c : ℚ × ℚ) : ℚ := (b.1 - a.1) * (c.2 - a.2) - (b.2 - a.2) * (c.1 - a.1)

/-- The point of a number. -/
def at' (K : ℕ) (d : ℚ) (n : ℕ) : ℚ × ℚ := (xs K d n, ys K d n)

/-- `z` is in the triangle. -/
def In (K : ℕ) (d : ℚ) (t : ℕ × ℕ × ℕ) (z : ℚ × ℚ) : Prop :=
  0 ≤ orient (at' K d t.1) (at' K d t.2.1) z ∧ 0 ≤ orient (at' K d t.2.1) (at' K d t.2.2) z ∧ 0 ≤ orient (at' K d t.2.2) (at' K d t.1) z

/-- `z` is strictly inside of the triangle. -/
def Inside (K : ℕ) (d : ℚ) (t : ℕ × ℕ × ℕ) (z : ℚ × ℚ) : Prop :=
  0 < orient (at' K d t.1) (at' K d t.2.1) z ∧ 0 < orient (at' K d t.2.1) (at' K d t.2.2) z ∧ 0 < orient (at' K d t.2.2) (at' K d t.1) z

/-- The directed edges of a triangle. -/
def edges (t : ℕ × ℕ × ℕ) : List (ℕ × ℕ) := [(t.1, t.2.1), (t.2.1, t.2.2), (t.2.2, t.1)]

theorem mem_writes (K c : ℕ) (t : ℕ × ℕ × ℕ) : (c, t) ∈ writes K ↔ ∃ i < K, ∃ j < K,
    (c = (i + j * K) * 2 ∧ t = (pt K i (j + 1), pt K i j, pt K (i + 1) (j + 1))) ∨
    (c = (i + j * K) * 2 + 1 ∧ t = (pt K (i + 1) j, pt K (i + 1) (j + 1), pt K i j)) := by
  unfold writes
  simp only [List.mem_flatMap, List.mem_range, List.mem_cons, List.not_mem_nil, or_false, Prod.mk.injEq]
  constructor
  · rintro ⟨j, hj, i, hi, h⟩
    exact ⟨i, hi, j, hj, h⟩
  · rintro ⟨i, hi, j, hj, h⟩
    exact ⟨j, hj, i, hi, h⟩

/-- **C121 (rows).**  Each row of the connectivity is written exactly once. -/
theorem c121_rows (K : ℕ) : (writes K).map Prod.fst = List.range (2 * (K * K)) := by
  have inner : ∀ j k, ((List.range k).flatMap fun i =>
      [((i + j * K) * 2, (pt K i (j + 1), pt K i j, pt K (i + 1) (j + 1))),
       ((i + j * K) * 2 + 1, (pt K (i + 1) j, pt K (i + 1) (j + 1), pt K i j))]).map Prod.fst = List.range' (2 * (j * K)) (2 * k) := by
    intro j k
    induction k with
    | zero => rfl
    | succ k ih =>
      rw [List.range_succ, List.flatMap_append, List.map_append, ih, show 2 * (k + 1) = 2 * k + 1 + 1 by ring,
        List.range'_concat, List.range'_concat, List.append_assoc]
      congr 1
      simp only [List.flatMap_cons, List.flatMap_nil, List.map_cons, List.map_nil, List.append_nil, List.cons_append, List.nil_append]
      congr 1
      · ring
      · congr 1
        ring
  have outer : ∀ m, ((List.range m).flatMap fun j => (List.range K).flatMap fun i =>
      [((i + j * K) * 2, (pt K i (j + 1), pt K i j, pt K (i + 1) (j + 1))),
       ((i + j * K) * 2 + 1, (pt K (i + 1) j, pt K (i + 1) (j + 1), pt K i j))]).map Prod.fst = List.range (2 * (m * K)) := by
    intro m
    induction m with
    | zero => simp
    | succ m ih =>
      rw [List.range_succ, List.flatMap_append, List.map_append, ih]
      simp only [List.flatMap_cons, List.flatMap_nil, List.append_nil]
      rw [inner, List.range_eq_range', List.range_eq_range', show 2 * ((m + 1) * K) = 2 * (m * K) + 2 * K by ring]
      have := List.range'_append (s := 0) (m := 2 * (m * K)) (n := 2 * K) (step := 1)
      simpa using this
  exact outer K

theorem pt_mod {K i j : ℕ} (hi : i ≤ K) : pt K i j % (K + 1) = i := by
  unfold pt
  rw [Nat.add_mul_mod_self_right, Nat.mod_eq_of_lt (by omega)]

theorem pt_div {K i j : ℕ} (hi : i ≤ K) : pt K i j / (K + 1) = j := by
  unfold pt
  rw [Nat.add_mul_div_right _ _ (Nat.succ_pos K), Nat.div_eq_of_lt (by omega), Nat.zero_add]

theorem pt_inj {K i j i' j' : ℕ} (hi : i ≤ K) (hi' : i' ≤ K) (h : pt K i j = pt K i' j') : i = i' ∧ j = j' :=
  ⟨by rw [← pt_mod (j := j) hi, h, pt_mod hi'], by rw [← pt_div (j := j) hi, h, pt_div hi']⟩

theorem at_pt {K i j : ℕ} (d : ℚ) (hi : i ≤ K) : at' K d (pt K i j) = (lin K d i, lin K d j) := by
  unfold at' xs ys
  rw [pt_mod hi, pt_div hi]

/-- **C121 (triangles).**  All triangles have three numbers of points, and the same positive area: half of that of a small square. -/
theorem c121_area (K : ℕ) (d : ℚ) (c : ℕ) (t : ℕ × ℕ × ℕ) (h : (c, t) ∈ writes K) :
    (t.1 < (K + 1) * (K + 1) ∧ t.2.1 < (K + 1) * (K + 1) ∧ t.2.2 < (K + 1) * (K + 1)) ∧
      orient (at' K d t.1) (at' K d t.2.1) (at' K d t.2.2) = (d / K) ^ 2 := by
  have lt : ∀ i j, i ≤ K → j ≤ K → pt K i j < (K + 1) * (K + 1) := by
    intro i j hi hj
    unfold pt
    have := Nat.mul_le_mul_right (K + 1) hj
    have e : (K + 1) * (K + 1) = K * (K + 1) + (K + 1) := by ring
    omega
  obtain ⟨i, hi, j, hj, ⟨_, rfl⟩ | ⟨_, rfl⟩⟩ := (mem_writes K c t).mp h
  · refine ⟨⟨lt _ _ (by omega) (by omega), lt _ _ (by omega) (by omega), lt _ _ (by omega) (by omega)⟩, ?_⟩
    dsimp only
    rw [at_pt d (by omega), at_pt d (by omega), at_pt d (by omega)]
    unfold orient lin
    push_cast
    ring
  · refine ⟨⟨lt _ _ (by omega) (by omega), lt _ _ (by omega) (by omega), lt _ _ (by omega) (by omega)⟩, ?_⟩
    dsimp only
    rw [at_pt d (by omega), at_pt d (by omega), at_pt d (by omega)]
    unfold orient lin
    push_cast
    ring

/-- The three conditions for the triangles of a small square, for the point with `u`, `v` steps from the corner. -/
theorem conditions (K : ℕ) (d u v : ℚ) (i j : ℕ) (hi : i < K) :
    (orient (at' K d (pt K i (j + 1))) (at' K d (pt K i j)) (-d / 2 + u * (d / K), -d / 2 + v * (d / K)) = (d / K) ^ 2 * (u - i) ∧
     orient (at' K d (pt K i j)) (at' K d (pt K (i + 1) (j + 1))) (-d / 2 + u * (d / K), -d / 2 + v * (d / K)) = (d / K) ^ 2 * ((v - j) - (u - i)) ∧
     orient (at' K d (pt K (i + 1) (j + 1))) (at' K d (pt K i (j + 1))) (-d / 2 + u * (d / K), -d / 2 + v * (d / K)) = (d / K) ^ 2 * (j + 1 - v)) ∧
    (orient (at' K d (pt K (i + 1) j)) (at' K d (pt K (i + 1) (j + 1))) (-d / 2 + u * (d / K), -d / 2 + v * (d / K)) = (d / K) ^ 2 * (i + 1 - u) ∧
     orient (at' K d (pt K (i + 1) (j + 1))) (at' K d (pt K i j)) (-d / 2 + u * (d / K), -d / 2 + v * (d / K)) = (d / K) ^ 2 * ((u - i) - (v - j)) ∧
     orient (at' K d (pt K i j)) (at' K d (pt K (i + 1) j)) (-d / 2 + u * (d / K), -d / 2 + v * (d / K)) = (d / K) ^ 2 * (v - j)) := by
  rw [at_pt d (by omega), at_pt d (by omega), at_pt d (by omega), at_pt d (by omega)]
  unfold orient lin
  push_cast
  refine ⟨⟨?_, ?_, ?_⟩, ?_, ?_, ?_⟩ <;> ring

theorem steps (K : ℕ) (d X : ℚ) (hK : 0 < K) (hd : 0 < d) : ∃ u : ℚ, X = -d / 2 + u * (d / K) ∧ (-d / 2 ≤ X → 0 ≤ u) ∧ (X ≤ d / 2 → u ≤ K) := by
  have hK' : (0 : ℚ) < K := by exact_mod_cast hK
  have hh : 0 < d / K := div_pos hd hK'
  refine ⟨(X + d / 2) / (d / K), ?_, ?_, ?_⟩
  · rw [div_mul_cancel₀ _ (ne_of_gt hh)]
    ring
  · intro h
    exact div_nonneg (by linarith) (le_of_lt hh)
  · intro h
    rw [div_le_iff₀ hh, mul_div_cancel₀ _ (ne_of_gt hK')]
    linarith

theorem layer : ∀ (K : ℕ) (u : ℚ), 0 < K → 0 ≤ u → u ≤ K → ∃ i < K, (i : ℚ) ≤ u ∧ u ≤ i + 1
  | 0, _, h, _, _ => by omega
  | K + 1, u, _, h0, h1 => by
    by_cases h : (K : ℚ) ≤ u
    · exact ⟨K, by omega, h, by push_cast at h1; exact h1⟩
    · have hK : 0 < K := by
        by_contra hz
        have : K = 0 := by omega
        subst this
        exact h (by simpa using h0)
      obtain ⟨i, hi, h2, h3⟩ := layer K u hK h0 (le_of_lt (not_le.mp h))
      exact ⟨i, by omega, h2, h3⟩

/-- **C121 (cover).**  Each point of the square is in a triangle. -/
theorem c121_cover (K : ℕ) (d : ℚ) (hK : 0 < K) (hd : 0 < d) (X Y : ℚ) (hX : -d / 2 ≤ X) (hX' : X ≤ d / 2) (hY : -d / 2 ≤ Y) (hY' : Y ≤ d / 2) :
    ∃ c t, (c, t) ∈ writes K ∧ In K d t (X, Y) := by
  obtain ⟨u, rfl, hu, hu'⟩ := steps K d X hK hd
  obtain ⟨v, rfl, hv, hv'⟩ := steps K d Y hK hd
  obtain ⟨i, hi, hi1, hi2⟩ := layer K u hK (hu hX) (hu' hX')
  obtain ⟨j, hj, hj1, hj2⟩ := layer K v hK (hv hY) (hv' hY')
  obtain ⟨⟨a1, a2, a3⟩, b1, b2, b3⟩ := conditions K d u v i j hi
  have hp : 0 ≤ (d / (K : ℚ)) ^ 2 := by positivity
  by_cases h : u - i ≤ v - j
  · refine ⟨_, _, (mem_writes K _ _).mpr ⟨i, hi, j, hj, Or.inl ⟨rfl, rfl⟩⟩, ?_, ?_, ?_⟩
    · rw [a1]; exact mul_nonneg hp (by linarith)
    · rw [a2]; exact mul_nonneg hp (by linarith)
    · rw [a3]; exact mul_nonneg hp (by linarith)
  · refine ⟨_, _, (mem_writes K _ _).mpr ⟨i, hi, j, hj, Or.inr ⟨rfl, rfl⟩⟩, ?_, ?_, ?_⟩
    · rw [b1]; exact mul_nonneg hp (by linarith)
    · rw [b2]; exact mul_nonneg hp (by linarith)
    · rw [b3]; exact mul_nonneg hp (by linarith)

theorem inside_square (K : ℕ) (d u v : ℚ) (c : ℕ) (t : ℕ × ℕ × ℕ) (h : (c, t) ∈ writes K)
    (hz : Inside K d t (-d / 2 + u * (d / K), -d / 2 + v * (d / K))) : ∃ i j : ℕ, (i : ℚ) < u ∧ u < i + 1 ∧ (j : ℚ) < v ∧ v < j + 1 ∧
      ((c = (i + j * K) * 2 ∧ u - i < v - j) ∨ (c = (i + j * K) * 2 + 1 ∧ v - j < u - i)) := by
  have hp : 0 ≤ (d / (K : ℚ)) ^ 2 := by positivity
  obtain ⟨z1, z2, z3⟩ := hz
  obtain ⟨i, hi, j, hj, hc⟩ := (mem_writes K c t).mp h
  obtain ⟨⟨a1, a2, a3⟩, b1, b2, b3⟩ := conditions K d u v i j hi
  refine ⟨i, j, ?_⟩
  rcases hc with ⟨hc, rfl⟩ | ⟨hc, rfl⟩
  · dsimp only at z1 z2 z3
    rw [a1] at z1
    rw [a2] at z2
    rw [a3] at z3
    have y1 := pos_of_mul_pos_right z1 hp
    have y2 := pos_of_mul_pos_right z2 hp
    have y3 := pos_of_mul_pos_right z3 hp
    exact ⟨by linarith, by linarith, by linarith, by linarith, Or.inl ⟨hc, by linarith⟩⟩
  · dsimp only at z1 z2 z3
    rw [b1] at z1
    rw [b2] at z2
    rw [b3] at z3
    have y1 := pos_of_mul_pos_right z1 hp
    have y2 := pos_of_mul_pos_right z2 hp
    have y3 := pos_of_mul_pos_right z3 hp
    exact ⟨by linarith, by linarith, by linarith, by linarith, Or.inr ⟨hc, by linarith⟩⟩

/-- **C121 (no overlap).**  No point is strictly inside of two triangles. -/
theorem c121_disjoint (K : ℕ) (d : ℚ) (hK : 0 < K) (hd : 0 < d) (z : ℚ × ℚ) (c c' : ℕ) (t t' : ℕ × ℕ × ℕ)
    (h : (c, t) ∈ writes K) (h' : (c', t') ∈ writes K) (hz : Inside K d t z) (hz' : Inside K d t' z) : c = c' := by
  obtain ⟨X, Y⟩ := z
  obtain ⟨u, rfl, _⟩ := steps K d X hK hd
  obtain ⟨v, rfl, _⟩ := steps K d Y hK hd
  obtain ⟨i, j, i1, i2, j1, j2, hc⟩ := inside_square K d u v c t h hz
  obtain ⟨i', j', i1', i2', j1', j2', hc'⟩ := inside_square K d u v c' t' h' hz'
  have ei : i = i' := by
    have a : (i : ℚ) < i' + 1 := by linarith
    have b : (i' : ℚ) < i + 1 := by linarith
    have a' : i < i' + 1 := by exact_mod_cast a
    have b' : i' < i + 1 := by exact_mod_cast b
    omega
  have ej : j = j' := by
    have a : (j : ℚ) < j' + 1 := by linarith
    have b : (j' : ℚ) < j + 1 := by linarith
    have a' : j < j' + 1 := by exact_mod_cast a
    have b' : j' < j + 1 := by exact_mod_cast b
    omega
  subst ei ej
  rcases hc with ⟨e, l⟩ | ⟨e, l⟩ <;> rcases hc' with ⟨e', l'⟩ | ⟨e', l'⟩
  · rw [e, e']
  · linarith
  · linarith
  · rw [e, e']

/-- The kinds of edges of a small square: start, end, and triangle. -/
def Kind (sx sy ex ey b : ℕ) : Prop :=
  (sx = 0 ∧ sy = 1 ∧ ex = 0 ∧ ey = 0 ∧ b = 0) ∨ (sx = 0 ∧ sy = 0 ∧ ex = 1 ∧ ey = 1 ∧ b = 0) ∨ (sx = 1 ∧ sy = 1 ∧ ex = 0 ∧ ey = 1 ∧ b = 0) ∨
  (sx = 1 ∧ sy = 0 ∧ ex = 1 ∧ ey = 1 ∧ b = 1) ∨ (sx = 1 ∧ sy = 1 ∧ ex = 0 ∧ ey = 0 ∧ b = 1) ∨ (sx = 0 ∧ sy = 0 ∧ ex = 1 ∧ ey = 0 ∧ b = 1)

theorem edge_iff (K c a b : ℕ) : (∃ t, (c, t) ∈ writes K ∧ (a, b) ∈ edges t) ↔
    ∃ i < K, ∃ j < K, ∃ sx sy ex ey o, Kind sx sy ex ey o ∧ c = (i + j * K) * 2 + o ∧ a = pt K (i + sx) (j + sy) ∧ b = pt K (i + ex) (j + ey) := by
  constructor
  · rintro ⟨t, ht, he⟩
    obtain ⟨i, hi, j, hj, ⟨hc, rfl⟩ | ⟨hc, rfl⟩⟩ := (mem_writes K c t).mp ht
    · simp only [edges, List.mem_cons, List.not_mem_nil, or_false, Prod.mk.injEq] at he
      rcases he with ⟨ha, hb⟩ | ⟨ha, hb⟩ | ⟨ha, hb⟩
      · exact ⟨i, hi, j, hj, 0, 1, 0, 0, 0, by unfold Kind; omega, hc, ha, hb⟩
      · exact ⟨i, hi, j, hj, 0, 0, 1, 1, 0, by unfold Kind; omega, hc, ha, hb⟩
      · exact ⟨i, hi, j, hj, 1, 1, 0, 1, 0, by unfold Kind; omega, hc, ha, hb⟩
    · simp only [edges, List.mem_cons, List.not_mem_nil, or_false, Prod.mk.injEq] at he
      rcases he with ⟨ha, hb⟩ | ⟨ha, hb⟩ | ⟨ha, hb⟩
      · exact ⟨i, hi, j, hj, 1, 0, 1, 1, 1, by unfold Kind; omega, hc, ha, hb⟩
      · exact ⟨i, hi, j, hj, 1, 1, 0, 0, 1, by unfold Kind; omega, hc, ha, hb⟩
      · exact ⟨i, hi, j, hj, 0, 0, 1, 0, 1, by unfold Kind; omega, hc, ha, hb⟩
  · rintro ⟨i, hi, j, hj, sx, sy, ex, ey, o, hk, hc, ha, hb⟩
    rcases hk with ⟨rfl, rfl, rfl, rfl, rfl⟩ | ⟨rfl, rfl, rfl, rfl, rfl⟩ | ⟨rfl, rfl, rfl, rfl, rfl⟩ | ⟨rfl, rfl, rfl, rfl, rfl⟩ |
      ⟨rfl, rfl, rfl, rfl, rfl⟩ | ⟨rfl, rfl, rfl, rfl, rfl⟩
    · exact ⟨_, (mem_writes K c _).mpr ⟨i, hi, j, hj, Or.inl ⟨hc, rfl⟩⟩, by simp [edges, ha, hb]⟩
    · exact ⟨_, (mem_writes K c _).mpr ⟨i, hi, j, hj, Or.inl ⟨hc, rfl⟩⟩, by simp [edges, ha, hb]⟩
    · exact ⟨_, (mem_writes K c _).mpr ⟨i, hi, j, hj, Or.inl ⟨hc, rfl⟩⟩, by simp [edges, ha, hb]⟩
    · exact ⟨_, (mem_writes K c _).mpr ⟨i, hi, j, hj, Or.inr ⟨hc, rfl⟩⟩, by simp [edges, ha, hb]⟩
    · exact ⟨_, (mem_writes K c _).mpr ⟨i, hi, j, hj, Or.inr ⟨hc, rfl⟩⟩, by simp [edges, ha, hb]⟩
    · exact ⟨_, (mem_writes K c _).mpr ⟨i, hi, j, hj, Or.inr ⟨hc, rfl⟩⟩, by simp [edges, ha, hb]⟩

/-- Row `c` has the directed edge from `a` to `b`. -/
def HasEdge (K c a b : ℕ) : Prop := ∃ t, (c, t) ∈ writes K ∧ (a, b) ∈ edges t

/-- **C121 (edges).**  Each directed edge is in one triangle only, so an edge is shared by at most two triangles, which pass it in opposite
directions. -/
theorem c121_edges (K a b c c' : ℕ) (h : HasEdge K c a b) (h' : HasEdge K c' a b) : c = c' := by
  obtain ⟨i, hi, j, hj, sx, sy, ex, ey, o, hk, hc, ha, hb⟩ := (edge_iff K c a b).mp h
  obtain ⟨i', hi', j', hj', sx', sy', ex', ey', o', hk', hc', ha', hb'⟩ := (edge_iff K c' a b).mp h'
  unfold Kind at hk hk'
  obtain ⟨e1, e2⟩ := pt_inj (by omega) (by omega) (ha.symm.trans ha')
  obtain ⟨e3, e4⟩ := pt_inj (by omega) (by omega) (hb.symm.trans hb')
  have e : i = i' ∧ j = j' ∧ o = o' := by omega
  obtain ⟨rfl, rfl, rfl⟩ := e
  rw [hc, hc']

/-- Both ends are on one of the four boundaries. -/
def OnSide (K : ℕ) (d : ℚ) (a b : ℕ) : Prop :=
  (upper d (xs K d a) (ys K d a) ∧ upper d (xs K d b) (ys K d b)) ∨ (down d (xs K d a) (ys K d a) ∧ down d (xs K d b) (ys K d b)) ∨
  (left d (xs K d a) (ys K d a) ∧ left d (xs K d b) (ys K d b)) ∨ (right d (xs K d a) (ys K d a) ∧ right d (xs K d b) (ys K d b))

theorem lin_first {K : ℕ} {d : ℚ} (hK : 0 < K) (hd : 0 < d) (k : ℕ) : lin K d k = -d / 2 ↔ k = 0 := by
  have hK' : (0 : ℚ) < K := by exact_mod_cast hK
  have hh : d / (K : ℚ) ≠ 0 := ne_of_gt (div_pos hd hK')
  unfold lin
  constructor
  · intro h
    have : (k : ℚ) * (d / K) = 0 := by linarith
    rcases mul_eq_zero.mp this with h1 | h1
    · exact_mod_cast h1
    · exact absurd h1 hh
  · rintro rfl
    simp

theorem lin_last {K : ℕ} {d : ℚ} (hK : 0 < K) (hd : 0 < d) (k : ℕ) : lin K d k = d / 2 ↔ k = K := by
  have hK' : (0 : ℚ) < K := by exact_mod_cast hK
  have hh : d / (K : ℚ) ≠ 0 := ne_of_gt (div_pos hd hK')
  have e : (K : ℚ) * (d / K) = d := mul_div_cancel₀ _ (ne_of_gt hK')
  unfold lin
  constructor
  · intro h
    have : ((k : ℚ) - K) * (d / K) = 0 := by rw [sub_mul, e]; linarith
    rcases mul_eq_zero.mp this with h1 | h1
    · have : (k : ℚ) = K := by linarith
      exact_mod_cast this
    · exact absurd h1 hh
  · rintro rfl
    rw [e]
    ring

/-- **C121 (boundaries).**  An edge belongs to one triangle only exactly if both of its ends are on the same one of the four boundaries. -/
theorem c121_boundary (K : ℕ) (d : ℚ) (hK : 0 < K) (hd : 0 < d) (c a b : ℕ) (h : HasEdge K c a b) :
    (¬ ∃ c', HasEdge K c' b a) ↔ OnSide K d a b := by
  obtain ⟨i, hi, j, hj, sx, sy, ex, ey, o, hk, hc, rfl, rfl⟩ := (edge_iff K c a b).mp h
  have bounds : sx ≤ 1 ∧ sy ≤ 1 ∧ ex ≤ 1 ∧ ey ≤ 1 := by unfold Kind at hk; omega
  have side : OnSide K d (pt K (i + sx) (j + sy)) (pt K (i + ex) (j + ey)) ↔
      (i + sx = 0 ∧ i + ex = 0) ∨ (i + sx = K ∧ i + ex = K) ∨ (j + sy = 0 ∧ j + ey = 0) ∨ (j + sy = K ∧ j + ey = K) := by
    unfold OnSide upper down left right xs ys
    rw [pt_mod (by omega), pt_mod (by omega), pt_div (by omega), pt_div (by omega)]
    simp only [lin_first hK hd, lin_last hK hd]
  rw [side]
  constructor
  · intro hn
    by_contra hs
    apply hn
    rcases hk with ⟨rfl, rfl, rfl, rfl, rfl⟩ | ⟨rfl, rfl, rfl, rfl, rfl⟩ | ⟨rfl, rfl, rfl, rfl, rfl⟩ | ⟨rfl, rfl, rfl, rfl, rfl⟩ |
      ⟨rfl, rfl, rfl, rfl, rfl⟩ | ⟨rfl, rfl, rfl, rfl, rfl⟩
    · obtain ⟨i, rfl⟩ : ∃ i', i = i' + 1 := ⟨i - 1, by omega⟩
      exact ⟨_, (edge_iff K _ _ _).mpr ⟨i, by omega, j, hj, 1, 0, 1, 1, 1, by unfold Kind; omega, rfl, rfl, rfl⟩⟩
    · exact ⟨_, (edge_iff K _ _ _).mpr ⟨i, hi, j, hj, 1, 1, 0, 0, 1, by unfold Kind; omega, rfl, rfl, rfl⟩⟩
    · exact ⟨_, (edge_iff K _ _ _).mpr ⟨i, hi, j + 1, by omega, 0, 0, 1, 0, 1, by unfold Kind; omega, rfl, rfl, rfl⟩⟩
    · exact ⟨_, (edge_iff K _ _ _).mpr ⟨i + 1, by omega, j, hj, 0, 1, 0, 0, 0, by unfold Kind; omega, rfl, rfl, rfl⟩⟩
    · exact ⟨_, (edge_iff K _ _ _).mpr ⟨i, hi, j, hj, 0, 0, 1, 1, 0, by unfold Kind; omega, rfl, rfl, rfl⟩⟩
    · obtain ⟨j, rfl⟩ : ∃ j', j = j' + 1 := ⟨j - 1, by omega⟩
      exact ⟨_, (edge_iff K _ _ _).mpr ⟨i, hi, j, by omega, 1, 1, 0, 1, 0, by unfold Kind; omega, rfl, rfl, rfl⟩⟩
  · rintro hs ⟨c', h'⟩
    obtain ⟨i', hi', j', hj', sx', sy', ex', ey', o', hk', hc', ha', hb'⟩ := (edge_iff K c' _ _).mp h'
    unfold Kind at hk hk'
    obtain ⟨e1, e2⟩ := pt_inj (by omega) (by omega) ha'
    obtain ⟨e3, e4⟩ := pt_inj (by omega) (by omega) hb'
    omega

/-! Two times two squares. -/

example : writes 2 = [(0, 3, 0, 4), (1, 1, 4, 0), (2, 4, 1, 5), (3, 2, 5, 1), (4, 6, 3, 7), (5, 4, 7, 3), (6, 7, 4, 8), (7, 5, 8, 4)] := by decide
example : HasEdge 2 0 3 0 ∧ HasEdge 2 1 4 0 ∧ HasEdge 2 0 0 4 :=
  ⟨⟨(3, 0, 4), by decide, by decide⟩, ⟨(1, 4, 0), by decide, by decide⟩, ⟨(3, 0, 4), by decide, by decide⟩⟩
example : Inside 2 2 (3, 0, 4) (-3 / 4, -1 / 4) := ⟨by decide +kernel, by decide +kernel, by decide +kernel⟩

end Mifem.Props.Tri121
