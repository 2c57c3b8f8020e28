import Verif.Model.Layout
import Verif.Lemmas.Mesh
import Mathlib.Data.List.GetD
import Mathlib.Tactic.Linarith
import Mathlib.Tactic.FieldSimp
import Mathlib.Tactic.Ring
import Mathlib.Algebra.BigOperators.Group.List.Basic
import Mathlib.Algebra.Order.BigOperators.Group.List
import Mathlib.Algebra.BigOperators.Ring.List

/-! # C69: an element layout cuts a region into elements without gaps or overlaps -/

namespace Mifem.Props
open Mifem.Layout

variable {K : Type*} [Field K] [LinearOrder K] [IsStrictOrderedRing K]

/-- `0 = spacing 0 < spacing 1 < ... < spacing n = 1`, and the ratios are the differences. -/
structure Tiles (P : Parsed K) : Prop where
  pos : 0 < P.n
  ratioLen : P.ratio.length = P.n
  spacingLen : P.spacing.length = P.n + 1
  ratioPos : ∀ i < P.n, 0 < P.ratio.getD i 0
  first : P.spacing.getD 0 0 = 0
  last : P.spacing.getD P.n 0 = 1
  step : ∀ i < P.n, P.spacing.getD (i + 1) 0 = P.spacing.getD i 0 + P.ratio.getD i 0

theorem spacingOf_getD {n : Nat} {ratio : List K} (hn : 0 < n) (hl : ratio.length = n) (hs : ratio.sum = 1) {j : Nat} (hj : j ≤ n) :
    (spacingOf n ratio).getD j 0 = (ratio.take j).sum := by
  unfold spacingOf
  rw [List.getD_eq_getElem?_getD, List.getElem?_map, List.getElem?_range (by omega), Option.map_some, Option.getD_some]
  by_cases h : 1 ≤ j ∧ j < n
  · rw [if_pos h]
  · rw [if_neg h]
    by_cases h' : j = n
    · rw [if_pos h', h', ← hl, List.take_length, hs]
    · rw [if_neg h']
      have : j = 0 := by omega
      rw [this, List.take_zero, List.sum_nil]

theorem tiles_of {n : Nat} {ratio : List K} (hn : 0 < n) (hl : ratio.length = n) (hs : ratio.sum = 1) (hp : ∀ x ∈ ratio, 0 < x) :
    Tiles ⟨n, ratio, spacingOf n ratio⟩ := by
  refine ⟨hn, hl, by simp [spacingOf], ?_, ?_, ?_, ?_⟩
  · intro i hi
    dsimp only at hi ⊢
    rw [List.getD_eq_getElem _ _ (by omega)]
    exact hp _ (List.getElem_mem _)
  · dsimp only
    rw [spacingOf_getD hn hl hs (Nat.zero_le _), List.take_zero, List.sum_nil]
  · dsimp only
    rw [spacingOf_getD hn hl hs (le_refl _), ← hl, List.take_length, hs]
  · intro i hi
    dsimp only at hi ⊢
    rw [spacingOf_getD hn hl hs (by omega), spacingOf_getD hn hl hs (by omega), List.take_add_one, List.sum_append,
      List.getD_eq_getElem _ _ (by omega), List.getElem?_eq_getElem (by omega)]
    simp

omit [IsStrictOrderedRing K] in
theorem parse1_int {n : Int} {P : Parsed K} (h : parse1 (.int n) = some P) : 0 < n ∧
    P = ⟨n.toNat, List.replicate n.toNat (1 / (n.toNat : K) * 1), spacingOf n.toNat (List.replicate n.toNat (1 / (n.toNat : K) * 1))⟩ := by
  simp only [parse1] at h
  by_cases hn : 0 < n
  · rw [if_pos hn] at h
    exact ⟨hn, (Option.some.inj h).symm⟩
  · rw [if_neg hn] at h
    exact absurd h (by simp)

omit [IsStrictOrderedRing K] in
theorem parse1_sizes {l : List K} {P : Parsed K} (h : parse1 (.sizes l) = some P) : (l ≠ [] ∧ ∀ x ∈ l, 0 < x) ∧
    P = ⟨l.length, l.map fun x => x / l.sum, spacingOf l.length (l.map fun x => x / l.sum)⟩ := by
  simp only [parse1] at h
  by_cases hl : l ≠ [] ∧ ∀ x ∈ l, 0 < x
  · rw [if_pos hl] at h
    exact ⟨hl, (Option.some.inj h).symm⟩
  · rw [if_neg hl] at h
    exact absurd h (by simp)

omit [IsStrictOrderedRing K] in
theorem mapM_parse {l : List (Entry K)} {Ps : List (Parsed K)} (h : l.mapM parse1 = some Ps) :
    Ps.length = l.length ∧ ∀ P ∈ Ps, ∃ e ∈ l, parse1 e = some P := by
  induction l generalizing Ps with
  | nil =>
    obtain rfl : [] = Ps := by simpa using h
    simp
  | cons e l ih =>
    rw [List.mapM_cons] at h
    obtain ⟨P, hP, h⟩ := Option.bind_eq_some_iff.1 h
    obtain ⟨Q, hQ, h⟩ := Option.bind_eq_some_iff.1 h
    obtain rfl : P :: Q = Ps := by simpa using h
    obtain ⟨h1, h2⟩ := ih hQ
    refine ⟨by simp [h1], ?_⟩
    intro R hR
    rcases List.mem_cons.1 hR with rfl | hR
    · exact ⟨e, by simp, hP⟩
    · obtain ⟨e', he', hh⟩ := h2 R hR
      exact ⟨e', by simp [he'], hh⟩

theorem parse1_tiles {e : Entry K} {P : Parsed K} (h : parse1 e = some P) : Tiles P := by
  cases e with
  | int n =>
    obtain ⟨hn, rfl⟩ := parse1_int h
    have hpos : 0 < n.toNat := by omega
    have hk : (0 : K) < (n.toNat : K) := by exact_mod_cast hpos
    refine tiles_of hpos (by simp) ?_ ?_
    · rw [List.sum_replicate, nsmul_eq_mul, mul_one, mul_one_div, div_self hk.ne']
    · intro x hx
      rw [List.eq_of_mem_replicate hx, mul_one]
      exact one_div_pos.2 hk
  | sizes l =>
    obtain ⟨hl, rfl⟩ := parse1_sizes h
    have hs : 0 < l.sum := List.sum_pos _ hl.2 hl.1
    refine tiles_of (List.length_pos_of_ne_nil hl.1) (by simp) ?_ ?_
    · simp only [div_eq_mul_inv]
      rw [List.sum_map_mul_right, List.map_id', mul_inv_cancel₀ hs.ne']
    · intro x hx
      obtain ⟨y, hy, rfl⟩ := List.mem_map.1 hx
      exact div_pos (hl.2 y hy) hs
  | lobatto d => exact absurd h (by simp [parse1])

/-- **C69, every accepted layout.** One cutting per direction, each from 0 to 1 in steps of positive size. -/
theorem c69_tiles (lob : Nat → List K) (ndim : Nat) (inp : Input K) (Ps : List (Parsed K)) (h : parse lob ndim inp = some Ps) :
    Ps.length = ndim ∧ ∀ P ∈ Ps, Tiles P := by
  unfold parse at h
  obtain ⟨l, hl, hm⟩ := Option.bind_eq_some_iff.1 h
  obtain ⟨h1, h2⟩ := mapM_parse hm
  have hlen : l.length = ndim := by
    cases inp with
    | none =>
      obtain ⟨rfl⟩ := hl
      simp
    | int i =>
      simp only [analyze] at hl
      split at hl
      · obtain ⟨rfl⟩ := hl
        simp
      · exact absurd hl (by simp)
    | list l' =>
      simp only [analyze] at hl
      split at hl
      · rename_i h'
        obtain ⟨rfl⟩ := hl
        simpa using h'
      · exact absurd hl (by simp)
  refine ⟨by omega, ?_⟩
  intro P hP
  obtain ⟨e, _, he⟩ := h2 P hP
  exact parse1_tiles he

/-- an entry that describes at least one element, all of positive size. -/
def EntryOK (lob : Nat → List K) : Entry K → Prop
  | .int n => 1 ≤ n
  | .sizes l => l ≠ [] ∧ ∀ x ∈ l, 0 < x
  | .lobatto d => diffs (lob d) ≠ [] ∧ ∀ x ∈ diffs (lob d), 0 < x

omit [IsStrictOrderedRing K] in
/-- **C69, what is accepted.** Nothing, a positive number, or `ndim` entries that all describe elements of positive size. -/
theorem c69_accepts (lob : Nat → List K) (ndim : Nat) (inp : Input K) :
    (parse lob ndim inp).isSome ↔ match inp with
      | .none => True
      | .int i => 1 ≤ i
      | .list l => l.length = ndim ∧ ∀ e ∈ l, EntryOK lob e := by
  have key : ∀ l : List (Entry K), (l.mapM parse1).isSome ↔ ∀ e ∈ l, (parse1 e).isSome := by
    intro l
    induction l with
    | nil => simp
    | cons e l ih =>
      rw [List.mapM_cons]
      cases he : parse1 e with
      | none => simp [he]
      | some P =>
        cases hl : l.mapM parse1 with
        | none =>
          rw [hl] at ih
          simpa [he] using ih
        | some Q =>
          rw [hl] at ih
          simpa [he] using ih
  cases inp with
  | none =>
    simp only [parse, analyze, Option.bind_some, key, iff_true]
    intro e he
    rw [List.eq_of_mem_replicate he]
    simp [parse1]
  | int i =>
    simp only [parse, analyze]
    split
    · rename_i hi
      simp only [Option.bind_some, key]
      refine ⟨fun _ => hi, fun _ e he => ?_⟩
      rw [List.eq_of_mem_replicate he]
      have : 0 < i := by omega
      simp [parse1, this]
    · rename_i hi
      simpa using hi
  | list l =>
    simp only [parse, analyze]
    split
    · rename_i hl
      simp only [Option.bind_some, key, List.mem_map, forall_exists_index, and_imp, forall_apply_eq_imp_iff₂]
      refine ⟨fun h => ⟨hl, fun e he => ?_⟩, fun h e he => ?_⟩
      · have := h e he
        cases e with
        | int n =>
          by_contra hc
          have : ¬ 0 < n := by unfold EntryOK at hc; omega
          simp_all [parse1]
        | sizes s =>
          by_contra hc
          unfold EntryOK at hc
          simp [parse1, hc] at this
        | lobatto d =>
          by_contra hc
          unfold EntryOK at hc
          simp [parse1, hc] at this
      · have := h.2 e he
        cases e with
        | int n =>
          have : 0 < n := by unfold EntryOK at this; omega
          simp [parse1, this]
        | sizes s =>
          unfold EntryOK at this
          simp only [parse1]
          rw [if_pos this]
          rfl
        | lobatto d =>
          unfold EntryOK at this
          simp only [parse1]
          rw [if_pos this]
          rfl
    · rename_i hl
      simp [hl]

omit [IsStrictOrderedRing K] in
/-- **C69, sizes.** A number means elements of the same size; a list gives the sizes up to a common factor. -/
theorem c69_sizes (e : Entry K) (P : Parsed K) (h : parse1 e = some P) :
    match e with
    | .int n => (P.n : Int) = n ∧ ∀ i < P.n, P.ratio.getD i 0 = 1 / (P.n : K)
    | .sizes l => P.n = l.length ∧ ∀ i < P.n, P.ratio.getD i 0 = l.getD i 0 / l.sum
    | .lobatto _ => False := by
  cases e with
  | int n =>
    obtain ⟨hn, rfl⟩ := parse1_int h
    refine ⟨by dsimp only; omega, ?_⟩
    intro i hi
    dsimp only at hi ⊢
    rw [List.getD_eq_getElem _ _ (by simpa using hi), List.getElem_replicate, mul_one]
  | sizes l =>
    obtain ⟨hl, rfl⟩ := parse1_sizes h
    refine ⟨rfl, ?_⟩
    intro i hi
    dsimp only at hi ⊢
    rw [List.getD_eq_getElem _ _ (by simpa using hi), List.getElem_map, List.getD_eq_getElem _ _ hi]
  | lobatto d => exact absurd h (by simp [parse1])

omit [LinearOrder K] [IsStrictOrderedRing K] in
theorem diffs_length (l : List K) : (diffs l).length = l.length - 1 := by
  simp [diffs]

omit [LinearOrder K] [IsStrictOrderedRing K] in
theorem diffs_take_sum (l : List K) : ∀ j, j < l.length → ((diffs l).take j).sum = l.getD j 0 - l.getD 0 0 := by
  intro j
  induction j with
  | zero => simp
  | succ j ih =>
    intro hj
    have : (diffs l)[j]? = some (l.getD (j + 1) 0 - l.getD j 0) := by
      unfold diffs
      rw [List.getElem?_zipWith, List.getElem?_tail, List.getElem?_eq_getElem (show j < l.length by omega),
        List.getElem?_eq_getElem hj, List.getD_eq_getElem _ _ hj, List.getD_eq_getElem _ _ (show j < l.length by omega)]
    rw [List.take_add_one, List.sum_append, ih (by omega), this]
    simp

/-- **C69, Lobatto layouts.** If the nodes go from -1 to 1, the elements of a direction with layout 'Lobatto:X' end at the
nodes, mapped to `[0, 1]`. -/
theorem c69_lobatto (lob : Nat → List K) (d : Nat) (h2 : 2 ≤ (lob d).length) (hf : (lob d).getD 0 0 = -1)
    (hl : (lob d).getD ((lob d).length - 1) 0 = 1) (P : Parsed K) (h : parse1 (.sizes (diffs (lob d))) = some P) :
    P.n + 1 = (lob d).length ∧ ∀ j ≤ P.n, P.spacing.getD j 0 = ((lob d).getD j 0 + 1) / 2 := by
  have hs : (diffs (lob d)).sum = 2 := by
    have := diffs_take_sum (lob d) ((lob d).length - 1) (by omega)
    rw [← diffs_length, List.take_length, diffs_length, hf, hl] at this
    rw [this]
    norm_num
  have ht := parse1_tiles h
  obtain ⟨hn, hr⟩ := c69_sizes _ _ h
  have hdl := diffs_length (lob d)
  refine ⟨by omega, ?_⟩
  intro j
  induction j with
  | zero =>
    intro _
    rw [ht.first, hf]
    norm_num
  | succ j ih =>
    intro hj
    rw [ht.step j (by omega), ih (by omega), hr j (by omega), hs]
    have h1 := diffs_take_sum (lob d) j (by omega)
    have h3 := diffs_take_sum (lob d) (j + 1) (by omega)
    rw [List.take_add_one, List.sum_append, h1, List.getElem?_eq_getElem (by omega)] at h3
    rw [List.getD_eq_getElem _ _ (show j < (diffs (lob d)).length by omega)]
    simp only [Option.toList_some, List.sum_singleton] at h3
    rw [← sub_eq_iff_eq_add'.2 h3.symm]
    ring

/-! ## Gaps and overlaps -/

theorem tiles_le {P : Parsed K} (h : Tiles P) : ∀ i j, i ≤ j → j ≤ P.n → P.spacing.getD i 0 ≤ P.spacing.getD j 0 := by
  intro i j hij
  induction j, hij using Nat.le_induction with
  | base => intro _; exact le_refl _
  | succ j hij ih =>
    intro hj
    rw [h.step j (by omega)]
    have := h.ratioPos j (by omega)
    have := ih (by omega)
    linarith

/-- **C69, one direction.** Every point of `[0, 1)` lies in exactly one element, at exactly one place `ξ` in `[-1, 1)`. -/
theorem c69_cover {P : Parsed K} (h : Tiles P) (t : K) (h0 : 0 ≤ t) (h1 : t < 1) :
    ∃! x : Nat × K, x.1 < P.n ∧ -1 ≤ x.2 ∧ x.2 < 1 ∧ (x.2 + 1) * (1 / 2) * P.ratio.getD x.1 0 + P.spacing.getD x.1 0 = t := by
  have key : ∀ m ≤ P.n, t < P.spacing.getD m 0 → ∃ i < m, P.spacing.getD i 0 ≤ t ∧ t < P.spacing.getD (i + 1) 0 := by
    intro m
    induction m with
    | zero =>
      intro _ hlt
      rw [h.first] at hlt
      exact absurd h0 (not_le.2 hlt)
    | succ m ih =>
      intro hm hlt
      by_cases hc : t < P.spacing.getD m 0
      · obtain ⟨i, hi, hh⟩ := ih (by omega) hc
        exact ⟨i, by omega, hh⟩
      · exact ⟨m, by omega, not_lt.1 hc, hlt⟩
  obtain ⟨i, hi, hle, hlt⟩ := key P.n (le_refl _) (by rw [h.last]; exact h1)
  have hr := h.ratioPos i hi
  rw [h.step i hi] at hlt
  refine ⟨(i, 2 * (t - P.spacing.getD i 0) / P.ratio.getD i 0 - 1), ⟨hi, ?_, ?_, ?_⟩, ?_⟩
  · dsimp only
    have : 0 ≤ 2 * (t - P.spacing.getD i 0) / P.ratio.getD i 0 := div_nonneg (by linarith) hr.le
    linarith
  · dsimp only
    have : 2 * (t - P.spacing.getD i 0) / P.ratio.getD i 0 < 2 := by
      rw [div_lt_iff₀ hr]
      linarith
    linarith
  · dsimp only
    field_simp
    ring
  · rintro ⟨i', ξ⟩ ⟨hi', ha, hb, he⟩
    dsimp only at hi' ha hb he
    have hr' := h.ratioPos i' hi'
    have hle' : P.spacing.getD i' 0 ≤ t := by
      rw [← he]
      have : 0 ≤ (ξ + 1) * (1 / 2) * P.ratio.getD i' 0 := by
        apply mul_nonneg _ hr'.le
        linarith
      linarith
    have hlt' : t < P.spacing.getD i' 0 + P.ratio.getD i' 0 := by
      rw [← he]
      have : (ξ + 1) * (1 / 2) * P.ratio.getD i' 0 < 1 * P.ratio.getD i' 0 := by
        apply mul_lt_mul_of_pos_right _ hr'
        linarith
      linarith
    have hii : i' = i := by
      rcases Nat.lt_trichotomy i' i with hc | hc | hc
      · have := tiles_le h (i' + 1) i (by omega) (by omega)
        rw [h.step i' hi'] at this
        linarith
      · exact hc
      · have := tiles_le h (i + 1) i' (by omega) (by omega)
        rw [h.step i hi] at this
        linarith
    subst hii
    have : ξ = 2 * (t - P.spacing.getD i' 0) / P.ratio.getD i' 0 - 1 := by
      rw [← he]
      field_simp
      ring
    rw [this]

/-- **C69, a region.** Every point of `[0, 1)^d` belongs to exactly one element of the region. -/
theorem c69_region {d : Nat} {L : Fin d → Parsed K} (h : ∀ j, Tiles (L j)) (x : Fin d → K) (hx : ∀ j, 0 ≤ x j ∧ x j < 1) :
    ∃! y : (Fin d → Nat) × (Fin d → K), ∀ j, y.1 j < (L j).n ∧ -1 ≤ y.2 j ∧ y.2 j < 1 ∧
      (y.2 j + 1) * (1 / 2) * delta L (List.ofFn y.1) j + origin L (List.ofFn y.1) j = x j := by
  have hg : ∀ (i : Fin d → Nat) (j : Fin d), (List.ofFn i).getD j 0 = i j := by
    intro i j
    rw [List.getD_eq_getElem _ _ (by simp), List.getElem_ofFn]
  choose w hw hu using fun j => c69_cover (h j) (x j) (hx j).1 (hx j).2
  refine ⟨(fun j => (w j).1, fun j => (w j).2), ?_, ?_⟩
  · intro j
    dsimp only
    unfold delta origin
    rw [hg]
    exact hw j
  · rintro ⟨i, ξ⟩ hy
    have : ∀ j, (i j, ξ j) = w j := by
      intro j
      apply hu j
      have := hy j
      dsimp only at this
      unfold delta origin at this
      rw [hg] at this
      exact this
    refine Prod.ext (funext fun j => ?_) (funext fun j => ?_)
    · exact congrArg Prod.fst (this j)
    · exact congrArg Prod.snd (this j)

/-- the layout `[[1, 2, 1], 2]` -/
example : parse (K := ℚ) (fun _ => []) 2 (.list [.sizes [1, 2, 1], .int 2]) =
    some [⟨3, [1/4, 1/2, 1/4], [0, 1/4, 3/4, 1]⟩, ⟨2, [1/2, 1/2], [0, 1/2, 1]⟩] := by
  decide +kernel

/-- 'Lobatto:2' -/
example : (parse (K := ℚ) (fun _ => [-1, 0, 1]) 2 (.list [.lobatto 2, .lobatto 2])).isSome = true := by
  decide +kernel

end Mifem.Props
