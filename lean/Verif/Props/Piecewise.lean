import Mathlib.Tactic.Linarith
import Mathlib.Tactic.NormNum
import Verif.Model.Piecewise
import Verif.Props.Plates

/-!
# C107: functions given in pieces
-/

namespace Mifem.Props.Piece107
open Mifem.Piecewise

variable {K : Type} [Zero K]

/-- The arguments at position `k`. -/
def point (arrays : List (List K)) (k : ℕ) : List K := arrays.map fun a => a.getD k 0

/-- The piece, called with `d` arrays, is the function `g` of the arguments at a position: a number is a constant function, a callable is evaluated
position by position, or returns one number for all positions. -/
def Pointwise (d : ℕ) (p : Piece K) (g : List K → K) : Prop :=
  match p with
  | .const c => ∀ x, g x = c
  | .call f => ∀ (m : ℕ) (arrays : List (List K)), arrays.length = d → (∀ a ∈ arrays, a.length = m) →
      f arrays = (List.range m).map (fun k => g (point arrays k)) ∨ ∃ c, f arrays = [c] ∧ ∀ x, g x = c

/-- Number of positions selected before `k`. -/
def before (m : List Bool) (k : ℕ) : ℕ := (m.take k).count true

theorem extract_length : ∀ (m : List Bool) (a : List K), a.length = m.length → (extract m a).length = m.count true
  | [], [], _ => rfl
  | true :: m, x :: a, h => by
    simp only [extract, List.length_cons, List.count_cons_self]
    rw [extract_length m a (by simpa using h)]
  | false :: m, x :: a, h => by
    simp only [extract]
    rw [extract_length m a (by simpa using h)]
    simp

theorem extract_getD : ∀ (m : List Bool) (a : List K) (k : ℕ), a.length = m.length → m.getD k false = true →
    (extract m a).getD (before m k) 0 = a.getD k 0
  | [], a, k, _, h => by simp at h
  | b :: m, [], k, h, _ => by simp at h
  | true :: m, x :: a, 0, _, _ => by simp [extract, before]
  | false :: m, x :: a, 0, _, h => by simp at h
  | true :: m, x :: a, k + 1, hl, h => by
    have := extract_getD m a k (by simpa using hl) (by simpa using h)
    simpa [extract, before] using this
  | false :: m, x :: a, k + 1, hl, h => by
    have := extract_getD m a k (by simpa using hl) (by simpa using h)
    simpa [extract, before] using this

theorem before_lt : ∀ (m : List Bool) (k : ℕ), m.getD k false = true → before m k < m.count true
  | [], k, h => by simp at h
  | true :: m, 0, _ => by simp [before]
  | false :: m, 0, h => by simp at h
  | true :: m, k + 1, h => by
    have := before_lt m k (by simpa using h)
    simpa [before] using this
  | false :: m, k + 1, h => by
    have := before_lt m k (by simpa using h)
    simpa [before] using this

theorem fill_length (vals : List K) : ∀ (c : ℕ) (out : List K) (m : List Bool), (fill vals c out m).length = out.length
  | c, [], m => by cases m <;> rfl
  | c, x :: l, [] => rfl
  | c, x :: l, true :: m => by simp [fill, fill_length]
  | c, x :: l, false :: m => by simp [fill, fill_length]

theorem fill_getD (vals : List K) : ∀ (c : ℕ) (out : List K) (m : List Bool) (k : ℕ), out.length = m.length →
    (fill vals c out m).getD k 0 = if m.getD k false = true then vals.getD ((c + before m k) % vals.length) 0 else out.getD k 0
  | c, [], [], k, _ => by simp [fill]
  | c, [], b :: m, k, h => by simp at h
  | c, x :: l, [], k, h => by simp at h
  | c, x :: l, true :: m, 0, h => by simp [fill, before]
  | c, x :: l, false :: m, 0, h => by simp [fill]
  | c, x :: l, true :: m, k + 1, h => by
    have := fill_getD vals (c + 1) l m k (by simpa using h)
    simp only [fill, List.getD_cons_succ, this, before, List.take_succ_cons, List.count_cons_self]
    rw [show c + 1 + (m.take k).count true = c + ((m.take k).count true + 1) by omega]
  | c, x :: l, false :: m, k + 1, h => by
    have := fill_getD vals c l m k (by simpa using h)
    simp only [fill, List.getD_cons_succ, this, before, List.take_succ_cons]
    simp

/-- One piece: the selected positions get its values, the others stay. -/
theorem place_piece (cast : K → K) (arrays : List (List K)) (m : List Bool) (hl : ∀ a ∈ arrays, a.length = m.length)
    (p : Piece K) (g : List K → K) (hg : Pointwise arrays.length p g) (out : List K) (ho : out.length = m.length) :
    ∃ out', place out m ((p.values arrays m).map cast) = some out' ∧ out'.length = m.length ∧
      ∀ k, out'.getD k 0 = if m.getD k false = true then cast (g (point arrays k)) else out.getD k 0 := by
  have one : ∀ c : K, (∀ x, g x = c) → ∃ out', place out m ([c].map cast) = some out' ∧ out'.length = m.length ∧
      ∀ k, out'.getD k 0 = if m.getD k false = true then cast (g (point arrays k)) else out.getD k 0 := by
    intro c hc
    refine ⟨fill [cast c] 0 out m, by simp [place], by rw [fill_length, ho], fun k => ?_⟩
    rw [fill_getD _ _ _ _ _ ho, hc]
    simp [Nat.mod_one]
  cases p with
  | const c => exact one c hg
  | call f =>
    have hlen : ∀ a ∈ arrays.map (extract m), a.length = m.count true := by
      intro a h
      obtain ⟨b, hb, rfl⟩ := List.mem_map.1 h
      exact extract_length m b (hl b hb)
    rcases hg (m.count true) (arrays.map (extract m)) (by simp) hlen with h | ⟨c, h, hc⟩
    · simp only [Piece.values, h]
      by_cases hz : m.count true = 0
      · have hf : ∀ k, m.getD k false = false := by
          intro k
          by_contra hk
          have := before_lt m k (by simpa using hk)
          omega
        refine ⟨out, ?_, ho, fun k => by rw [hf]; simp⟩
        rw [hz]
        have : m.any id = false := by
          rw [List.any_eq_false]
          intro b hb hb'
          exact (List.count_eq_zero.1 hz) (by simpa [show b = true by simpa using hb'] using hb)
        simp only [place, List.range_zero, List.map_nil, List.isEmpty_nil, if_true, this, Bool.false_eq_true, if_false]
      · refine ⟨fill (((List.range (m.count true)).map fun k => g (point (arrays.map (extract m)) k)).map cast) 0 out m,
          ?_, ?_, ?_⟩
        · unfold place
          rw [if_neg]
          simp [hz]
        · rw [fill_length, ho]
        · intro k
          rw [fill_getD _ _ _ _ _ ho]
          split_ifs with hk
          · have hlt := before_lt m k hk
            simp only [List.length_map, List.length_range, zero_add, Nat.mod_eq_of_lt hlt]
            rw [List.getD_eq_getElem _ _ (by simpa using hlt)]
            simp only [List.getElem_map, List.getElem_range]
            congr 2
            simp only [point, List.map_map]
            refine List.map_congr_left fun a h => ?_
            exact extract_getD m a k (hl a h) hk
          · rfl
    · simp only [Piece.values, h]
      exact one c hc

/-- All pieces: the last one that selects a position decides. -/
theorem loop_pieces (cast : K → K) (arrays : List (List K)) (n : ℕ) (hl : ∀ a ∈ arrays, a.length = n) :
    ∀ (l : List (List Bool × Piece K × (List K → K))), (∀ x ∈ l, x.1.length = n ∧ Pointwise arrays.length x.2.1 x.2.2) →
    ∀ out : List K, out.length = n → ∃ out', loop cast arrays (l.map fun x => (x.1, x.2.1)) out = some out' ∧ out'.length = n ∧
      ∀ k, out'.getD k 0 = (l.foldl (fun v x => if x.1.getD k false = true then cast (x.2.2 (point arrays k)) else v) (out.getD k 0))
  | [], _, out, ho => ⟨out, rfl, ho, fun _ => rfl⟩
  | (m, p, g) :: l, h, out, ho => by
    have h0 := h (m, p, g) (by simp)
    obtain ⟨o1, e1, l1, v1⟩ := place_piece cast arrays m (fun a h' => by rw [hl a h', h0.1]) p g h0.2 out (by rw [ho, h0.1])
    obtain ⟨o2, e2, l2, v2⟩ := loop_pieces cast arrays n hl l (fun x hx => h x (by simp [hx])) o1 (by rw [l1, h0.1])
    refine ⟨o2, by simp only [List.map_cons, loop, e1, Option.bind_some, e2], l2, fun k => ?_⟩
    rw [v2, v1, List.foldl_cons]

theorem fold_none {α β : Type} (sel : α → Bool) (val : α → β) : ∀ (l : List α) (v : β), (∀ x ∈ l, sel x = false) →
    l.foldl (fun v x => if sel x = true then val x else v) v = v
  | [], v, _ => rfl
  | x :: l, v, h => by
    rw [List.foldl_cons, h x (by simp)]
    exact fold_none sel val l _ fun y hy => h y (by simp [hy])

theorem fold_last {α β : Type} (sel : α → Bool) (val : α → β) : ∀ (l : List α) (v : β) (i : ℕ) (hi : i < l.length), sel l[i] = true →
    (∀ j (hj : j < l.length), i < j → sel l[j] = false) → l.foldl (fun v x => if sel x = true then val x else v) v = val l[i]
  | [], v, i, hi, _, _ => by simp at hi
  | x :: l, v, 0, hi, h, h' => by
    rw [List.foldl_cons]
    have : sel x = true := h
    rw [if_pos this, fold_none sel val l]
    · rfl
    · intro y hy
      obtain ⟨j, hj, rfl⟩ := List.getElem_of_mem hy
      exact h' (j + 1) (by simpa using hj) (by omega)
  | x :: l, v, i + 1, hi, h, h' => by
    rw [List.foldl_cons]
    exact fold_last sel val l _ i (by simpa using hi) h fun j hj hij => h' (j + 1) (by simpa using hj) (by omega)

theorem others_length (conds : List (List Bool)) : (others conds).length = (conds.getD 0 []).length := by simp [others]

theorem others_getD (conds : List (List Bool)) (k : ℕ) (hk : k < (conds.getD 0 []).length) :
    (others conds).getD k false = !conds.any fun c => c.getD k false := by
  rw [List.getD_eq_getElem _ _ (by simpa [others] using hk)]
  simp [others]

/-- **C107.** For all arrays of arguments with `n` entries, conditions and pieces, one piece for each condition and perhaps one
more: the result has `n` entries; an entry is the value of the piece of the last condition that is true there; where none is, it is
the value of the additional piece, or the fill value. -/
theorem c107_value (cast : K → K) (arrays : List (List K)) (n : ℕ) (hl : ∀ a ∈ arrays, a.length = n)
    (conds : List (List Bool)) (hne : conds ≠ []) (hc : ∀ c ∈ conds, c.length = n) (ps : List (Piece K × (List K → K)))
    (hp : ∀ x ∈ ps, Pointwise arrays.length x.1 x.2) (hlen : ps.length = conds.length ∨ ps.length = conds.length + 1) (fv : K) :
    ∃ out, piecewise cast arrays conds (ps.map Prod.fst) fv = some out ∧ out.length = n ∧ ∀ k < n,
      (∀ i (hi : i < conds.length) (hi' : i < ps.length), conds[i].getD k false = true →
        (∀ j (hj : j < conds.length), i < j → conds[j].getD k false = false) → out.getD k 0 = cast (ps[i].2 (point arrays k))) ∧
      ((∀ c ∈ conds, c.getD k false = false) → out.getD k 0 =
        if h : conds.length < ps.length then cast (ps[conds.length].2 (point arrays k)) else cast fv) := by
  have hn0 : (conds.getD 0 []).length = n := by
    cases conds with
    | nil => exact absurd rfl hne
    | cons c l => exact hc c (by simp)
  set conds' := if conds.length + 1 = (ps.map Prod.fst).length then conds ++ [others conds] else conds with hconds'
  have hlen' : conds'.length = ps.length := by
    rw [hconds']
    split_ifs with h
    · simpa using h
    · rw [List.length_map] at h; omega
  have hc' : ∀ c ∈ conds', c.length = n := by
    intro c hcm
    rw [hconds'] at hcm
    split_ifs at hcm with h
    · rcases List.mem_append.1 hcm with h | h
      · exact hc c h
      · simp only [List.mem_singleton] at h
        rw [h, others_length, hn0]
    · exact hc c hcm
  have hle : conds.length ≤ conds'.length := by rw [hlen']; omega
  have hget : ∀ i (hi : i < conds.length), conds'[i] = conds[i] := by
    intro i hi
    have : conds'[i]? = conds[i]? := by
      rw [hconds']
      split_ifs with h
      · rw [List.getElem?_append_left hi]
      · rfl
    rw [List.getElem?_eq_getElem (by omega), List.getElem?_eq_getElem hi] at this
    exact Option.some.inj this
  have hlast : ∀ (h : conds.length < conds'.length), conds'[conds.length] = others conds := by
    intro h
    have h2 : conds.length + 1 = (ps.map Prod.fst).length := by rw [List.length_map]; omega
    have : conds'[conds.length]? = some (others conds) := by
      rw [hconds', if_pos h2]
      simp
    rw [List.getElem?_eq_getElem h] at this
    exact Option.some.inj this
  obtain ⟨out, e, l, v⟩ := loop_pieces cast arrays n hl (conds'.zip ps)
    (fun x hx => ⟨hc' _ (List.of_mem_zip hx).1, hp _ (List.of_mem_zip hx).2⟩) (List.replicate n (cast fv)) (by simp)
  refine ⟨out, ?_, l, fun k hk => ?_⟩
  · unfold piecewise
    rw [if_neg (by rw [List.length_map]; omega), if_neg (by simpa using hne)]
    simp only
    rw [hn0, ← hconds', ← e]
    congr 1
    rw [List.zip_map_right]
    rfl
  have hz : (conds'.zip ps).length = ps.length := by rw [List.length_zip, hlen', min_self]
  have hzi : ∀ i (hi : i < (conds'.zip ps).length), (conds'.zip ps)[i] = (conds'[i]'(by omega), ps[i]'(by omega)) := by
    intro i hi
    rw [List.getElem_zip]
  constructor
  · intro i hi hi' ht hf
    rw [v]
    have := fold_last (fun x : List Bool × Piece K × (List K → K) => x.1.getD k false)
      (fun x => cast (x.2.2 (point arrays k))) (conds'.zip ps) ((List.replicate n (cast fv)).getD k 0) i (by omega)
      (by simp only [hzi]; rw [hget i hi]; exact ht) (by
        intro j hj hij
        simp only [hzi]
        by_cases hj' : j < conds.length
        · rw [hget j hj']; exact hf j hj' hij
        · have hje : j = conds.length := by omega
          subst hje
          rw [hlast (by omega), others_getD _ _ (by rw [hn0]; exact hk)]
          simp only [Bool.not_eq_false', List.any_eq_true]
          exact ⟨conds[i], List.getElem_mem hi, ht⟩)
    rw [this, hzi]
  · intro hf
    rw [v]
    split_ifs with h
    · have hany : (conds.any fun c => c.getD k false) = false := by
        rw [List.any_eq_false]
        intro c hcm
        rw [hf c hcm]
        simp
      have := fold_last (fun x : List Bool × Piece K × (List K → K) => x.1.getD k false)
        (fun x => cast (x.2.2 (point arrays k))) (conds'.zip ps) ((List.replicate n (cast fv)).getD k 0) conds.length (by omega)
        (by simp only [hzi]; rw [hlast (by omega), others_getD _ _ (by rw [hn0]; exact hk), hany]; rfl)
        (fun j hj hij => by omega)
      rw [this, hzi]
    · have := fold_none (fun x : List Bool × Piece K × (List K → K) => x.1.getD k false)
        (fun x => cast (x.2.2 (point arrays k))) (conds'.zip ps) ((List.replicate n (cast fv)).getD k 0) (by
          intro x hx
          have h1 := (List.of_mem_zip hx).1
          have : conds' = conds := by
            rw [hconds', if_neg]
            rw [List.length_map]; omega
          rw [this] at h1
          exact hf _ h1)
      rw [this, List.getD_eq_getElem _ _ (by simpa using hk), List.getElem_replicate]

/-- **C107.** With another number of pieces the call is refused. -/
theorem c107_refused (cast : K → K) (arrays : List (List K)) (conds : List (List Bool)) (funcs : List (Piece K)) (fv : K)
    (h : funcs.length < conds.length ∨ conds.length + 1 < funcs.length) : piecewise cast arrays conds funcs fv = none := by
  unfold piecewise
  rw [if_pos (by omega)]

/-- Two pieces, the second where the first is not, of real arrays. -/
theorem two_pieces (c : ℝ → Bool) (v : List ℝ) (arrays : List (List ℝ)) (hl : ∀ a ∈ arrays, a.length = v.length)
    (p q : Piece ℝ) (g h : List ℝ → ℝ) (hp : Pointwise arrays.length p g) (hq : Pointwise arrays.length q h) (fv : ℝ) :
    piecewise id arrays [v.map c, v.map fun x => !c x] [p, q] fv =
      some ((List.range v.length).map fun k => if c (v.getD k 0) = true then g (point arrays k) else h (point arrays k)) := by
  obtain ⟨out, e, l, hv⟩ := c107_value id arrays v.length hl [v.map c, v.map fun x => !c x] (by simp) (by simp)
    [(p, g), (q, h)] (by simp [hp, hq]) (Or.inl rfl) fv
  rw [show ([(p, g), (q, h)].map Prod.fst) = [p, q] from rfl] at e
  rw [e]
  congr 1
  apply List.ext_getElem (by simp [l])
  intro k h1 h2
  rw [l] at h1
  obtain ⟨v1, -⟩ := hv k h1
  rw [List.getElem_map, List.getElem_range, ← List.getD_eq_getElem out 0]
  have d1 : (v.map c).getD k false = c (v.getD k 0) := by
    rw [List.getD_eq_getElem _ _ (by simpa using h1), List.getD_eq_getElem _ _ h1, List.getElem_map]
  have d2 : (v.map fun x => !c x).getD k false = !c (v.getD k 0) := by
    rw [List.getD_eq_getElem _ _ (by simpa using h1), List.getD_eq_getElem _ _ h1, List.getElem_map]
  by_cases hk : c (v.getD k 0) = true
  · rw [if_pos hk]
    refine v1 0 (by simp) (by simp) (d1.trans hk) ?_
    intro j hj hij
    have : j = 1 := by simp at hj; omega
    subst this
    exact d2.trans (by rw [hk]; rfl)
  · rw [if_neg hk]
    refine v1 1 (by simp) (by simp) (d2.trans (by simpa using hk)) ?_
    intro j hj hij
    simp at hj; omega

theorem pointwise_map (d i : ℕ) (h : i < d) (f : ℝ → ℝ) :
    Pointwise d (.call fun a => (a.getD i []).map f) fun x => f (x.getD i 0) := by
  intro m arrays hd hl
  left
  subst hd
  have e : arrays.getD i [] = arrays[i] := List.getD_eq_getElem _ _ h
  have hm : arrays[i].length = m := hl _ (List.getElem_mem h)
  simp only [e]
  apply List.ext_getElem (by simp [hm])
  intro k h1 h2
  simp only [List.length_map] at h1
  simp only [List.getElem_map, List.getElem_range, point]
  rw [List.getD_eq_getElem _ _ (by simpa using h)]
  simp only [List.getElem_map]
  rw [List.getD_eq_getElem _ _ h1]

open Classical in
/-- **C107.** Shear layer: for all points the first component of the velocity is `tanh ((y - π/2)/δ)` up to the middle and
`tanh ((3π/2 - y)/δ)` beyond it. -/
theorem c107_shear (δ t : ℝ) (xs ys : List ℝ) (hl : xs.length = ys.length) :
    shearU δ t xs ys = some (ys.map fun y => if y ≤ Real.pi then Real.tanh ((y - Real.pi / 2) / δ)
      else Real.tanh ((3 * Real.pi / 2 - y) / δ)) := by
  have h := two_pieces (fun y => decide (y ≤ Real.pi)) ys [ys.map fun _ => t, xs, ys] (by simp [hl]) (uLow δ) (uUp δ) _ _
    (pointwise_map 3 2 (by omega) fun y => Real.tanh ((y - Real.pi / 2) / δ))
    (pointwise_map 3 2 (by omega) fun y => Real.tanh ((3 * Real.pi / 2 - y) / δ)) 0
  have hc : (ys.map fun y => decide (y > Real.pi)) = ys.map fun y => !decide (y ≤ Real.pi) := by
    refine List.map_congr_left fun y _ => ?_
    by_cases hy : y ≤ Real.pi
    · simp [hy]
    · simp [hy, lt_of_not_ge hy]
  rw [shearU, hc, h]
  congr 1
  apply List.ext_getElem (by simp)
  intro k h1 h2
  have hk : k < ys.length := by simpa using h1
  simp [point, List.getD_eq_getElem _ _ hk, hk]

/-- **C107.** The two pieces of the shear layer meet continuously: in the middle, and across the periodic boundary. -/
theorem c107_shear_continuous (δ : ℝ) :
    Real.tanh ((Real.pi - Real.pi / 2) / δ) = Real.tanh ((3 * Real.pi / 2 - Real.pi) / δ) ∧
    shearU δ 0 [0, 0] [0, 2 * Real.pi] = some [Real.tanh (-(Real.pi / 2) / δ), Real.tanh (-(Real.pi / 2) / δ)] := by
  have := Real.pi_pos
  refine ⟨by congr 1; ring, ?_⟩
  rw [c107_shear δ 0 [0, 0] [0, 2 * Real.pi] rfl]
  simp only [List.map_cons, List.map_nil]
  rw [if_pos this.le, if_neg (by linarith)]
  congr 3 <;> ring_nf

open Classical in
/-- **C107.** Flow around a cylinder: the first component of `velocity_bc` is the inlet velocity where `x < -(r + li)`, and 0
elsewhere. -/
theorem c107_inlet (vel r li t : ℝ) (xs ys : List ℝ) (hl : ys.length = xs.length) :
    inletU vel r li t xs ys = some (xs.map fun x => if x < -(r + li) then vel else 0) := by
  have h := two_pieces (fun x => decide (x < -(r + li))) xs [xs.map fun _ => t, xs, ys] (by simp [hl]) _ _ _ _
    (pointwise_map 3 1 (by omega) fun x => 0 * x + vel) (pointwise_map 3 1 (by omega) fun x => 0 * x) 0
  have hc : (xs.map fun x => decide (x ≥ -(r + li))) = xs.map fun x => !decide (x < -(r + li)) := by
    refine List.map_congr_left fun x _ => ?_
    by_cases hy : x < -(r + li)
    · rw [decide_eq_false (not_le.2 hy), decide_eq_true hy]; rfl
    · rw [decide_eq_true (not_lt.1 hy), decide_eq_false hy]; rfl
  rw [inletU, hc, h]
  congr 1
  apply List.ext_getElem (by simp)
  intro k h1 h2
  have hk : k < xs.length := by simpa using h1
  simp [point, List.getD_eq_getElem _ _ hk, hk]

open Mifem.Plates Mifem.Props.Plate106 in
/-- **C107.** On the domain for which it is made, the first component of `velocity_bc` is the inlet velocity on the whole
boundary `Left`, and 0 on the cylinder and on the boundary `Right`; on the walls it is 0 from a distance of `h/2 - r` from the
inlet on. -/
theorem c107_inlet_boundaries {h r li lo vel t : ℝ} (hr : 0 < r) (hh : r < h / 2) (hi : 0 < li) (ho : 0 < lo) :
    ∃ d, cic h r li lo = some d ∧ (∀ P ∈ curve d "Left", inletU vel r li t [P.1] [P.2] = some [vel]) ∧
      (∀ P ∈ curve d "Right", inletU vel r li t [P.1] [P.2] = some [0]) ∧
      (∀ P ∈ curve d "Internal", inletU vel r li t [P.1] [P.2] = some [0]) ∧
      ∀ P ∈ curve d "Upper" ∪ curve d "Down", -h / 2 - li + (h / 2 - r) ≤ P.1 → inletU vel r li t [P.1] [P.2] = some [0] := by
  obtain ⟨d, hd, h1, h2, h3, h4, h5⟩ := c106_cylinder (h := h) (r := r) (li := li) (lo := lo) hr hh hi ho
  refine ⟨d, hd, ?_, ?_, ?_, ?_⟩
  · intro P hP
    rw [h4] at hP
    rw [c107_inlet vel r li t [P.1] [P.2] rfl]
    simp only [List.map_cons, List.map_nil]
    rw [if_pos (by rw [hP.1]; linarith)]
  · intro P hP
    rw [h5] at hP
    rw [c107_inlet vel r li t [P.1] [P.2] rfl]
    simp only [List.map_cons, List.map_nil]
    rw [if_neg (by rw [hP.1]; linarith)]
  · intro P hP
    rw [h1] at hP
    rw [c107_inlet vel r li t [P.1] [P.2] rfl]
    simp only [List.map_cons, List.map_nil]
    simp only [circle, Set.mem_setOf_eq] at hP
    have := (abs_le.1 (abs_le_of_sq_le_sq (show P.1 ^ 2 ≤ r ^ 2 by nlinarith [sq_nonneg P.2]) hr.le)).1
    rw [if_neg (by linarith)]
  · intro P _ hx
    rw [c107_inlet vel r li t [P.1] [P.2] rfl]
    simp only [List.map_cons, List.map_nil]
    rw [if_neg (by linarith)]

open Mifem.Plates Mifem.Props.Plate106 in
/-- **C107, false of the code.** The velocity is not 0 on all of the walls: near the inlet it is the inlet velocity. -/
theorem c107_walls_fails {h r li lo vel t : ℝ} (hr : 0 < r) (hh : r < h / 2) (hi : 0 < li) (ho : 0 < lo) (hv : vel ≠ 0) :
    ∃ d, cic h r li lo = some d ∧ ∃ P ∈ curve d "Upper", -h / 2 - li < P.1 ∧ inletU vel r li t [P.1] [P.2] ≠ some [0] := by
  obtain ⟨d, hd, -, h2, -⟩ := c106_cylinder (h := h) (r := r) (li := li) (lo := lo) hr hh hi ho
  refine ⟨d, hd, (-h / 2 - li + (h / 2 - r) / 2, h / 2), ?_, by simp only; linarith, ?_⟩
  · rw [h2]
    simp only [segX, Set.mem_setOf_eq, and_true]
    rw [min_eq_left (by linarith), max_eq_right (by linarith)]
    constructor <;> linarith
  · dsimp only
    rw [c107_inlet vel r li t [-h / 2 - li + (h / 2 - r) / 2] [h / 2] rfl]
    simp only [List.map_cons, List.map_nil]
    rw [if_pos (by linarith)]
    simpa using hv

/-- A case with three conditions that overlap, an additional piece, and two arrays; the last true condition decides. -/
example : piecewise id [[1, 2, 3, 4], [10, 20, 30, 40]]
    [[true, true, false, false], [false, true, true, false]]
    [.const 7, .call fun a => (a.getD 1 []).map (· + 1), .call fun a => (a.getD 0 []).map (· * 100)] (0 : ℤ) =
      some [7, 21, 31, 400] := by decide +kernel

/-- With arguments that are integers the values are truncated, as documented ("same shape and type as x"). -/
example : piecewise (fun x : ℚ => (x.floor : ℚ)) [[1, 3]] [[true, true]] [.call fun a => (a.getD 0 []).map (· / 2)] 0 = some [0, 1] := by
  decide +kernel

end Mifem.Props.Piece107
