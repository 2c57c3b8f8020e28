import Verif.Model.NonlinearSystem
import Verif.Lemmas.Assembly
import Verif.Model.Stop
import Mathlib.Algebra.BigOperators.Ring.Finset
import Mathlib.Algebra.BigOperators.Group.Finset.Sigma
import Mathlib.Data.List.GetD
import Mathlib.Data.List.InsertIdx
import Mathlib.Tactic.Ring
import Mathlib.Algebra.BigOperators.Fin
import Mathlib.Tactic.LinearCombination
import Mathlib.Tactic.NormNum

/-!
# C72: multi-dimensional matrices and the linearisation of nonlinear systems
-/

namespace Mifem.Props
open Mifem.NLS Finset

/-! ## Index tuples -/

theorem tuples_length {s t : List Nat} (h : t ∈ tuples s) : t.length = s.length := by
  induction s generalizing t with
  | nil => simp [tuples] at h; simp [h]
  | cons n s ih =>
    simp only [tuples, List.mem_flatMap, List.mem_map, List.mem_range] at h
    obtain ⟨a, _, u, hu, rfl⟩ := h
    simp [ih hu]

theorem tuples_lt {s t : List Nat} (h : t ∈ tuples s) (i : Nat) (hi : i < s.length) : t.getD i 0 < s.getD i 0 := by
  induction s generalizing t i with
  | nil => simp at hi
  | cons n s ih =>
    simp only [tuples, List.mem_flatMap, List.mem_map, List.mem_range] at h
    obtain ⟨a, ha, u, hu, rfl⟩ := h
    cases i with
    | zero => simpa using ha
    | succ i => simpa using ih hu i (by simpa using hi)

theorem tuples_nodup (s : List Nat) : (tuples s).Nodup := by
  induction s with
  | nil => simp [tuples]
  | cons n s ih =>
    simp only [tuples]
    rw [List.nodup_flatMap]
    refine ⟨fun a _ => ih.map (fun _ _ h => by simpa using h), ?_⟩
    refine List.nodup_range.imp ?_
    intro a b hab
    simp only [Function.onFun, List.disjoint_left, List.mem_map]
    rintro _ ⟨u, _, rfl⟩ ⟨w, _, hw⟩
    simp at hw
    exact hab hw.1.symm

theorem tuples_erase {s t : List Nat} (h : t ∈ tuples s) (d : Nat) : t.eraseIdx d ∈ tuples (s.eraseIdx d) := by
  induction s generalizing t d with
  | nil => simp [tuples] at h; simp [h, tuples]
  | cons n s ih =>
    simp only [tuples, List.mem_flatMap, List.mem_map, List.mem_range] at h
    obtain ⟨a, ha, u, hu, rfl⟩ := h
    cases d with
    | zero => simpa using hu
    | succ d =>
      simp only [List.eraseIdx_cons_succ, tuples, List.mem_flatMap, List.mem_map, List.mem_range]
      exact ⟨a, ha, _, ih hu d, rfl⟩

theorem keep_erase (t : List Nat) (d : Nat) :
    ((List.range t.length).filter (· ≠ d)).map (fun i => t.getD i 0) = t.eraseIdx d := by
  induction t generalizing d with
  | nil => simp
  | cons a t ih =>
    rw [List.length_cons, List.range_succ_eq_map]
    cases d with
    | zero =>
      simp only [ne_eq, decide_not, List.filter_cons, decide_true, Bool.not_true, Bool.false_eq_true, if_false,
        List.eraseIdx_cons_zero, List.filter_map, List.map_map]
      have e : List.filter ((fun x => !decide (x = 0)) ∘ Nat.succ) (List.range t.length) = List.range t.length := by
        rw [List.filter_eq_self]; simp
      rw [e]
      apply List.ext_getElem
      · simp
      · intro i h1 h2
        simp at h1
        simp [List.getElem?_eq_getElem h1]
    | succ d =>
      have e : List.filter ((fun x => !decide (x = d + 1)) ∘ Nat.succ) (List.range t.length)
          = (List.range t.length).filter (· ≠ d) := by
        apply List.filter_congr; intro x _; simp
      simp only [ne_eq, decide_not, List.filter_cons, List.eraseIdx_cons_succ, List.filter_map]
      rw [e]
      simp only [show (!decide (0 = d + 1)) = true from by simp, if_true, List.map_cons, List.map_map]
      rw [← ih d]
      simp [Function.comp_def]

section
variable {K : Type} [CommRing K]

theorem sum_tuples (s : List Nat) (F : List Nat → K) :
    ((tuples s).map F).sum = ∑ t ∈ (tuples s).toFinset, F t := (List.sum_toFinset F (tuples_nodup s)).symm

theorem einsum_eq (s : List Nat) (T : List Nat → K) (ops : List (Nat × (Nat → K))) (keep out : List Nat) :
    einsum s T ops keep out = ∑ t ∈ (tuples s).toFinset,
      if keep.map (fun i => t.getD i 0) = out then T t * (ops.map fun p => p.2 (t.getD p.1 0)).prod else 0 := by
  unfold einsum
  rw [← List.sum_toFinset _ ((tuples_nodup s).filter _), ← Finset.sum_filter]
  congr 1
  ext t; simp

/-! ## The specification: the number a multi-dimensional matrix makes of one vector for each axis -/

/-- `Σ T[a, b, ...] x[a] y[b] ...` -/
def multi (s : List Nat) (T : List Nat → K) (xs : List (Nat → K)) : K :=
  ((tuples s).map fun t => T t * ((xs.zip t).map fun p => p.1 p.2).prod).sum

/-- The value of a multi-dimensional matrix in an element, if each form of the correspondence is given a cochain. -/
def value (M : MDM K) (e : Nat) (σ : Form → Vec K) : K := multi M.shape (M.data e) (M.cor.map fun f => σ f e)

theorem zip_insert (xs : List (Nat → K)) (t : List Nat) (d : Nat) (c : Nat → K) (hd : d < t.length)
    (hl : xs.length + 1 = t.length) :
    (((xs.insertIdx d c).zip t).map fun p => p.1 p.2).prod
      = c (t.getD d 0) * ((xs.zip (t.eraseIdx d)).map fun p => p.1 p.2).prod := by
  induction d generalizing xs t with
  | zero =>
    cases t with
    | nil => simp at hd
    | cons a t => simp
  | succ d ih =>
    cases t with
    | nil => simp at hd
    | cons a t =>
      cases xs with
      | nil => simp only [List.length_cons, List.length_nil] at hl hd; omega
      | cons x xs =>
        have := ih xs t (by simpa using hd) (by simpa using hl)
        simp only [List.insertIdx_succ_cons, List.zip_cons_cons, List.map_cons, List.prod_cons, this,
          List.eraseIdx_cons_succ, List.getD_cons_succ]
        ring

/-- Eliminating an axis is putting the cochain there. -/
theorem eliminate_multi (M : MDM K) (d : Nat) (c : Vec K) (hd : d < M.ndim) :
    ∃ M', eliminate M d c = some M' ∧ M'.cor = M.cor.eraseIdx d ∧ ∀ e (xs : List (Nat → K)), xs.length + 1 = M.ndim →
      multi M'.shape (M'.data e) xs = multi M.shape (M.data e) (xs.insertIdx d (c e)) := by
  refine ⟨_, if_pos hd, rfl, fun e xs hx => ?_⟩
  simp only [multi, MDM.shape, sum_tuples, einsum_eq, Finset.sum_mul]
  rw [Finset.sum_comm]
  refine Finset.sum_congr rfl fun t ht => ?_
  rw [List.mem_toFinset] at ht
  have hl : t.length = M.ndim := by rw [tuples_length ht]; simp [MDM.ndim]
  have hk := keep_erase t d
  rw [hl] at hk
  simp only [hk]
  have hm : t.eraseIdx d ∈ (tuples (List.map Form.nb (M.cor.eraseIdx d))).toFinset := by
    rw [List.mem_toFinset, ← List.eraseIdx_map]; exact tuples_erase ht d
  rw [Finset.sum_eq_single_of_mem _ hm]
  · rw [if_pos rfl, zip_insert xs t d (c e) (by omega) (by omega)]
    simp only [List.map_cons, List.map_nil, List.prod_cons, List.prod_nil]
    ring
  · intro b _ hb
    rw [if_neg (fun h => hb h.symm), zero_mul]

theorem zip_prod (xs : List (Nat → K)) (t : List Nat) (hl : xs.length = t.length) :
    ((xs.zip t).map fun p => p.1 p.2).prod
      = ((List.range t.length).map fun i => (xs.getD i 0) (t.getD i 0)).prod := by
  induction t generalizing xs with
  | nil => simp
  | cons a t ih =>
    cases xs with
    | nil => simp at hl
    | cons x xs =>
      rw [List.length_cons, List.range_succ_eq_map]
      simp only [List.zip_cons_cons, List.map_cons, List.prod_cons, ih xs (by simpa using hl), List.map_map,
        Function.comp_def, List.getD_cons_zero, List.getD_cons_succ]

/-! ## evaluate -/

theorem dictSet_spec (d : List (Nat × Vec K)) (i : Nat) (v : Vec K) (hd : (d.map Prod.fst).Nodup) :
    ((dictSet d i v).map Prod.fst).Nodup ∧ (∀ j, j ∈ (dictSet d i v).map Prod.fst ↔ j ∈ d.map Prod.fst ∨ j = i) ∧
      ∀ p ∈ dictSet d i v, p ∈ d ∨ p = (i, v) := by
  unfold dictSet
  split
  · next h =>
    have e : (d.map fun p => if p.1 = i then (i, v) else p).map Prod.fst = d.map Prod.fst := by
      rw [List.map_map]; apply List.map_congr_left; intro p _; simp only [Function.comp]; split <;> simp_all
    rw [e]
    refine ⟨hd, fun j => ⟨Or.inl, ?_⟩, ?_⟩
    · rintro (h' | rfl)
      · exact h'
      · exact h
    · intro p hp
      rw [List.mem_map] at hp
      obtain ⟨q, hq, rfl⟩ := hp
      split
      · right; rfl
      · left; exact hq
  · next h =>
    refine ⟨?_, by simp, ?_⟩
    · rw [List.map_append, List.nodup_append]
      refine ⟨hd, by simp, ?_⟩
      intro a ha b hb hab
      simp at hb
      subst hab hb
      exact h ha
    · intro p hp; simpa using hp

theorem eliminatedDims_spec (M : MDM K) (σ : Form → Vec K) (known : List (Form × Vec K))
    (hσ : ∀ p ∈ known, p.2 = σ p.1) :
    ((eliminatedDims M known).map Prod.fst).Nodup ∧
    (∀ i, i ∈ (eliminatedDims M known).map Prod.fst ↔ ∃ f ∈ known.map Prod.fst, f ∈ M.cor ∧ M.cor.idxOf f = i) ∧
    ∀ p ∈ eliminatedDims M known, ∃ f ∈ M.cor, p = (M.cor.idxOf f, σ f) := by
  suffices H : ∀ d : List (Nat × Vec K), (d.map Prod.fst).Nodup → (∀ p ∈ d, ∃ f ∈ M.cor, p = (M.cor.idxOf f, σ f)) →
      let d' := known.foldl (fun d p => if p.1 ∈ M.cor then dictSet d (M.cor.idxOf p.1) p.2 else d) d
      (d'.map Prod.fst).Nodup ∧
      (∀ i, i ∈ d'.map Prod.fst ↔ i ∈ d.map Prod.fst ∨ ∃ f ∈ known.map Prod.fst, f ∈ M.cor ∧ M.cor.idxOf f = i) ∧
      ∀ p ∈ d', ∃ f ∈ M.cor, p = (M.cor.idxOf f, σ f) by
    have := H [] (by simp) (by simp)
    simpa [eliminatedDims] using this
  induction known with
  | nil => intro d h1 h2; exact ⟨h1, by simp, h2⟩
  | cons p known ih =>
    intro d h1 h2
    rw [List.foldl_cons]
    have hs : ∀ q ∈ known, q.2 = σ q.1 := fun q hq => hσ q (List.mem_cons_of_mem _ hq)
    split
    · next hp =>
      obtain ⟨g1, g2, g3⟩ := dictSet_spec d (M.cor.idxOf p.1) p.2 h1
      obtain ⟨k1, k2, k3⟩ := ih hs (dictSet d (M.cor.idxOf p.1) p.2) g1 (fun q hq => by
        rcases g3 q hq with h | rfl
        · exact h2 q h
        · exact ⟨p.1, hp, by rw [hσ p (List.mem_cons_self ..)]⟩)
      refine ⟨k1, fun i => ?_, k3⟩
      rw [k2 i, g2 i, List.map_cons]
      constructor
      · rintro ((h | rfl) | ⟨f, hf, h⟩)
        · left; exact h
        · right; exact ⟨p.1, List.mem_cons_self .., hp, rfl⟩
        · right; exact ⟨f, List.mem_cons_of_mem _ hf, h⟩
      · rintro (h | ⟨f, hf, h⟩)
        · left; left; exact h
        · rcases List.mem_cons.1 hf with rfl | hf
          · left; right; exact h.2.symm
          · right; exact ⟨f, hf, h⟩
    · next hp =>
      obtain ⟨k1, k2, k3⟩ := ih hs d h1 h2
      refine ⟨k1, fun i => ?_, k3⟩
      rw [k2 i, List.map_cons]
      constructor
      · rintro (h | ⟨f, hf, h⟩)
        · left; exact h
        · right; exact ⟨f, List.mem_cons_of_mem _ hf, h⟩
      · rintro (h | ⟨f, hf, h⟩)
        · left; exact h
        · rcases List.mem_cons.1 hf with rfl | hf
          · exact absurd h.1 hp
          · right; exact ⟨f, hf, h⟩

theorem value_eq (M : MDM K) (e : Nat) (σ : Form → Vec K) :
    value M e σ = ∑ t ∈ (tuples M.shape).toFinset,
      M.data e t * ∏ i ∈ range M.ndim, ((M.cor.map fun f => σ f e).getD i 0) (t.getD i 0) := by
  unfold value multi
  rw [sum_tuples]
  refine Finset.sum_congr rfl fun t ht => ?_
  rw [List.mem_toFinset] at ht
  have hl : t.length = M.ndim := by rw [tuples_length ht]; simp [MDM.shape, MDM.ndim]
  rw [zip_prod _ _ (by simp [hl, MDM.ndim]), hl, ← List.prod_toFinset _ List.nodup_range]
  congr 2
  ext i; simp

theorem cor_getD (M : MDM K) (σ : Form → Vec K) (e : Nat) {f : Form} (hf : f ∈ M.cor) :
    (M.cor.map fun f => σ f e).getD (M.cor.idxOf f) 0 = σ f e := by
  have h : M.cor.idxOf f < M.cor.length := List.idxOf_lt_length_of_mem hf
  rw [List.getD_eq_getElem _ _ (by simpa using h), List.getElem_map, List.getElem_idxOf h]

/-- The product over pairs of axis and cochain is one over the axes. -/
theorem ops_prod (M : MDM K) (σ : Form → Vec K) (d : List (Nat × Vec K)) (e : Nat) (t : List Nat)
    (h1 : (d.map Prod.fst).Nodup) (h3 : ∀ p ∈ d, ∃ f ∈ M.cor, p = (M.cor.idxOf f, σ f)) :
    ((d.map fun p => (p.1, p.2 e)).map fun p => p.2 (t.getD p.1 0)).prod
      = ∏ i ∈ (d.map Prod.fst).toFinset, ((M.cor.map fun f => σ f e).getD i 0) (t.getD i 0) := by
  rw [List.prod_toFinset _ h1, List.map_map, List.map_map]
  congr 1
  apply List.map_congr_left
  intro p hp
  obtain ⟨f, hf, rfl⟩ := h3 p hp
  simp only [Function.comp, cor_getD M σ e hf]

theorem contract (s : List Nat) (T : List Nat → K) (ops : List (Nat × (Nat → K))) (rm : Nat) (hrm : rm < s.length)
    (v : Nat → K) :
    ∑ k ∈ range (s.getD rm 0), v k * einsum s T ops [rm] [k]
      = ∑ t ∈ (tuples s).toFinset, T t * (v (t.getD rm 0) * (ops.map fun p => p.2 (t.getD p.1 0)).prod) := by
  simp only [einsum_eq, Finset.mul_sum]
  rw [Finset.sum_comm]
  refine Finset.sum_congr rfl fun t ht => ?_
  rw [List.mem_toFinset] at ht
  rw [Finset.sum_eq_single_of_mem (t.getD rm 0) (by rw [Finset.mem_range]; exact tuples_lt ht rm hrm)]
  · simp; ring
  · intro b _ hb
    rw [if_neg (by simpa using fun h => hb h.symm), mul_zero]

theorem contract_value (M : MDM K) (hM : M.cor.Nodup) (σ : Form → Vec K) (w : Form) (hw : w ∈ M.cor)
    (d : List (Nat × Vec K)) (h1 : (d.map Prod.fst).Nodup) (h3 : ∀ p ∈ d, ∃ f ∈ M.cor, p = (M.cor.idxOf f, σ f))
    (h2 : (d.map Prod.fst).toFinset = (range M.ndim).erase (M.cor.idxOf w)) (e : Nat) (v : Vec K) :
    ∑ k ∈ range w.nb, v e k * einsum M.shape (M.data e) (d.map fun p => (p.1, p.2 e)) [M.cor.idxOf w] [k]
      = value M e (Function.update σ w v) := by
  have hi : M.cor.idxOf w < M.cor.length := List.idxOf_lt_length_of_mem hw
  have hs : M.shape.getD (M.cor.idxOf w) 0 = w.nb := by
    unfold MDM.shape
    rw [List.getD_eq_getElem _ _ (by simpa using hi), List.getElem_map, List.getElem_idxOf hi]
  have := contract M.shape (M.data e) (d.map fun p => (p.1, p.2 e)) (M.cor.idxOf w)
    (by simpa [MDM.shape] using hi) (v e)
  rw [hs] at this
  rw [this, value_eq]
  refine Finset.sum_congr rfl fun t _ => ?_
  congr 1
  rw [ops_prod M σ d e t h1 h3, h2, ← Finset.mul_prod_erase _ _ (Finset.mem_range.2 hi : M.cor.idxOf w ∈ range M.ndim),
    cor_getD M (Function.update σ w v) e hw, Function.update_self]
  congr 1
  refine Finset.prod_congr rfl fun i hi' => ?_
  rw [Finset.mem_erase, Finset.mem_range] at hi'
  have hlt : i < M.cor.length := hi'.2
  rw [List.getD_eq_getElem (l := M.cor.map fun f => σ f e) _ (by simpa using hlt),
    List.getD_eq_getElem (l := M.cor.map fun f => Function.update σ w v f e) _ (by simpa using hlt), List.getElem_map,
    List.getElem_map, Function.update_of_ne]
  intro h
  apply hi'.1
  rw [← h, hM.idxOf_getElem]

/-- With cochains for all forms but one, `evaluate` returns the vector that represents the remaining linear form. -/
theorem c72_evaluate (M : MDM K) (hM : M.cor.Nodup) (σ : Form → Vec K) (known : List (Form × Vec K))
    (hσ : ∀ p ∈ known, p.2 = σ p.1) (w : Form) (hw : w ∈ M.cor)
    (hk : ∀ f ∈ M.cor, f ∈ known.map Prod.fst ↔ f ≠ w) (els : List Nat) :
    ∃ vec, evaluate M els known = some (.vector vec) ∧
      ∀ e (v : Vec K), ∑ k ∈ range w.nb, v e k * vec e k = value M e (Function.update σ w v) := by
  obtain ⟨h1, h2, h3⟩ := eliminatedDims_spec M σ known hσ
  have hi : M.cor.idxOf w < M.cor.length := List.idxOf_lt_length_of_mem hw
  have hset : ((eliminatedDims M known).map Prod.fst).toFinset = (range M.ndim).erase (M.cor.idxOf w) := by
    ext i
    rw [List.mem_toFinset, h2 i, Finset.mem_erase, Finset.mem_range]
    constructor
    · rintro ⟨f, hf, hfc, rfl⟩
      refine ⟨fun h => (hk f hfc).1 hf ?_, List.idxOf_lt_length_of_mem hfc⟩
      exact (List.idxOf_inj hfc).1 h
    · rintro ⟨hne, hlt⟩
      change i < M.cor.length at hlt
      refine ⟨M.cor[i]'hlt, ?_, List.getElem_mem _, hM.idxOf_getElem i hlt⟩
      rw [hk _ (List.getElem_mem _)]
      intro h
      apply hne; rw [← h, hM.idxOf_getElem]
  have hlen : (eliminatedDims M known).length + 1 = M.ndim := by
    have : ((eliminatedDims M known).map Prod.fst).toFinset.card = (eliminatedDims M known).length := by
      rw [List.toFinset_card_of_nodup h1, List.length_map]
    rw [← this, hset, Finset.card_erase_of_mem (show _ ∈ range M.ndim from Finset.mem_range.2 hi), Finset.card_range]
    unfold MDM.ndim; omega
  have hfind : (List.range M.ndim).find? (fun i => i ∉ (eliminatedDims M known).map Prod.fst)
      = some (M.cor.idxOf w) := by
    have hex : ((List.range M.ndim).find? fun i => i ∉ (eliminatedDims M known).map Prod.fst).isSome := by
      rw [List.find?_isSome]
      refine ⟨M.cor.idxOf w, List.mem_range.2 hi, ?_⟩
      rw [decide_eq_true_iff, ← List.mem_toFinset, hset]; simp
    obtain ⟨i, hi'⟩ := Option.isSome_iff_exists.1 hex
    have hp := List.find?_some hi'
    have hm := List.mem_of_find?_eq_some hi'
    rw [decide_eq_true_iff, ← List.mem_toFinset, hset, Finset.mem_erase, Finset.mem_range] at hp
    rw [List.mem_range] at hm
    rw [hi']
    congr 1
    by_contra hne
    exact hp ⟨hne, hm⟩
  refine ⟨fun e k => einsum M.shape (M.data e) ((eliminatedDims M known).map fun p => (p.1, p.2 e)) [M.cor.idxOf w] [k],
    ?_, ?_⟩
  · unfold evaluate
    simp only [show M.ndim - (eliminatedDims M known).length = 1 from by omega, hfind]
    simp
  · intro e v
    exact contract_value M hM σ w hw _ h1 h3 hset e v

/-- With cochains for all forms `evaluate` returns the sum of the values over the elements. -/
theorem c72_evaluate_all (M : MDM K) (hM : M.cor.Nodup) (σ : Form → Vec K) (known : List (Form × Vec K))
    (hσ : ∀ p ∈ known, p.2 = σ p.1) (hk : ∀ f ∈ M.cor, f ∈ known.map Prod.fst) (els : List Nat) :
    evaluate M els known = some (.number (els.map fun e => value M e σ).sum) := by
  obtain ⟨h1, h2, h3⟩ := eliminatedDims_spec M σ known hσ
  have hset : ((eliminatedDims M known).map Prod.fst).toFinset = range M.ndim := by
    ext i
    rw [List.mem_toFinset, h2 i, Finset.mem_range]
    constructor
    · rintro ⟨f, hf, hfc, rfl⟩
      exact List.idxOf_lt_length_of_mem hfc
    · intro hlt
      change i < M.cor.length at hlt
      exact ⟨M.cor[i]'hlt, hk _ (List.getElem_mem _), List.getElem_mem _, hM.idxOf_getElem i hlt⟩
  have hlen : (eliminatedDims M known).length = M.ndim := by
    have : ((eliminatedDims M known).map Prod.fst).toFinset.card = (eliminatedDims M known).length := by
      rw [List.toFinset_card_of_nodup h1, List.length_map]
    rw [← this, hset, Finset.card_range]
  unfold evaluate
  simp only [hlen, Nat.sub_self, if_true]
  congr 3
  apply List.map_congr_left
  intro e _
  rw [einsum_eq, value_eq]
  refine Finset.sum_congr rfl fun t _ => ?_
  rw [if_pos (by simp), ops_prod M σ _ e t h1 h3, hset]

/-- `reduce_to_vector` gives the same as `evaluate` with the forms' own cochains. -/
theorem c72_reduce (M : MDM K) (hM : M.cor.Nodup) (hn : 2 ≤ M.ndim) (own : Form → Vec K) (w : Form) (hw : w ∈ M.cor) :
    ∃ vec, reduceToVector M own w = some vec ∧
      ∀ e (v : Vec K), ∑ k ∈ range w.nb, v e k * vec e k = value M e (Function.update own w v) := by
  refine ⟨_, if_pos ⟨hn, hw⟩, fun e v => ?_⟩
  have key : ∀ p ∈ M.cor.zipIdx, p.1 ∈ M.cor ∧ M.cor.idxOf p.1 = p.2 := by
    intro p hp
    have := List.mem_zipIdx_iff_getElem?.1 hp
    obtain ⟨h, h'⟩ := List.getElem?_eq_some_iff.1 this
    rw [← h']
    exact ⟨List.getElem_mem _, hM.idxOf_getElem _ _⟩
  have e1 : (M.cor.zipIdx.filter fun p => p.2 ≠ M.cor.idxOf w).map (fun p => (p.2, own p.1 e))
      = ((M.cor.zipIdx.filter fun p => p.2 ≠ M.cor.idxOf w).map fun p => (p.2, own p.1)).map fun p => (p.1, p.2 e) := by
    rw [List.map_map]; rfl
  have e2 : ((M.cor.zipIdx.filter fun p => p.2 ≠ M.cor.idxOf w).map fun p => (p.2, own p.1)).map Prod.fst
      = (List.range M.ndim).filter fun i => i ≠ M.cor.idxOf w := by
    rw [List.map_map, show (Prod.fst ∘ fun p : Form × Nat => (p.2, own p.1)) = Prod.snd from rfl]
    have : List.range M.ndim = M.cor.zipIdx.map Prod.snd := by
      rw [List.zipIdx_map_snd, List.range_eq_range', MDM.ndim]
    rw [this, List.filter_map]; rfl
  rw [e1]
  refine contract_value M hM own w hw _ ?_ ?_ ?_ e v
  · rw [e2]; exact List.nodup_range.filter _
  · intro p hp
    rw [List.mem_map] at hp
    obtain ⟨q, hq, rfl⟩ := hp
    obtain ⟨k1, k2⟩ := key q (List.mem_filter.1 hq).1
    exact ⟨q.1, k1, by rw [k2]⟩
  · rw [e2]; ext i; simp [and_comm]

/-! ## The derivative of a term -/

theorem inhomogeneous_iff (M : MDM K) : inhomogeneous M = true ↔ M.cor.Nodup := by
  unfold inhomogeneous
  rw [List.nodup_iff_getElem?_ne_getElem?]
  simp only [List.all_eq_true, List.mem_range, decide_eq_true_eq, MDM.ndim]
  constructor
  · intro h i j hij hj
    exact h i (by omega) j hj (by omega)
  · intro h i hi j hj hij
    rcases Nat.lt_or_gt_of_ne hij with h' | h'
    · exact h i j h' hj
    · exact (h j i h' hi).symm

theorem sum_map_range72 (n : Nat) (f : Nat → K) : ((List.range n).map f).sum = ∑ i ∈ range n, f i := by
  rw [← List.sum_toFinset _ List.nodup_range]; congr 1; ext; simp

theorem multi2 (m n : Nat) (T : List Nat → K) (p q : Nat → K) :
    multi [m, n] T [p, q] = ∑ a ∈ range m, ∑ b ∈ range n, T [a, b] * (p a * q b) := by
  simp [multi, tuples, List.sum_flatten, List.flatMap, Function.comp_def, sum_map_range72]

theorem sparse_fwd (M2 : MDM K) (a b : Form) (hc : M2.cor = [a, b]) (tr : Bool) :
    ∃ B, sparseMatrix M2 tr = some B ∧ ∀ e (p q : Nat → K),
      ∑ i ∈ range a.nb, ∑ j ∈ range b.nb, p i * (if tr then B e j i else B e i j) * q j
        = multi M2.shape (M2.data e) [p, q] := by
  refine ⟨_, if_pos (by simp [MDM.ndim, hc]), fun e p q => ?_⟩
  rw [MDM.shape, hc]
  simp only [List.map_cons, List.map_nil, multi2]
  refine Finset.sum_congr rfl fun i _ => Finset.sum_congr rfl fun j _ => ?_
  cases tr <;> simp <;> ring

/-- The derivative with respect to one unknown: the matrix with the test variable for its rows, the unknown for its
columns and the known cochain on the third axis, in whatever order the axes are. -/
theorem c72_derivative (M : MDM K) (hM : M.cor.Nodup) (hn : M.ndim = 3) (σ : Form → Vec K) (test unk g : Form)
    (htu : test ≠ unk) (hgt : g ≠ test) (hgu : g ≠ unk) (ht : test ∈ M.cor) (hu : unk ∈ M.cor) (hg : g ∈ M.cor)
    (known : List (Form × Vec K)) (hk : known.filter (fun p => p.1 ∈ M.cor) = [(g, σ g)]) :
    ∃ B, derivativeContribution M test unk known = some (some B) ∧
      ∀ e (v u : Vec K), ∑ r ∈ range test.nb, ∑ c ∈ range unk.nb, v e r * B e r c * u e c
        = value M e (Function.update (Function.update σ test v) unk u) := by
  obtain ⟨M2, he, hc, hv⟩ := eliminate_multi M (M.cor.idxOf g) (σ g) (List.idxOf_lt_length_of_mem hg)
  have hd : derivativeContribution M test unk known =
      if M2.cor = [test, unk] then (sparseMatrix M2 false).map some
            else if M2.cor = [unk, test] then (sparseMatrix M2 true).map some else none := by
    unfold derivativeContribution
    simp only [ht, hu, hn, hk, he, (inhomogeneous_iff M).2 hM, not_true_eq_false, if_false, if_true]
  have step : (M2.cor = [test, unk] ∧ ∀ v u : Nat → K, ∀ w : Form → (Nat → K), w test = v → w unk = u → ∀ s, w g = s →
        M.cor.map w = [v, u].insertIdx (M.cor.idxOf g) s) ∨
      (M2.cor = [unk, test] ∧ ∀ v u : Nat → K, ∀ w : Form → (Nat → K), w test = v → w unk = u → ∀ s, w g = s →
        M.cor.map w = [u, v].insertIdx (M.cor.idxOf g) s) := by
    clear hv hd he
    obtain ⟨cor, data⟩ := M
    simp only [MDM.ndim] at hn
    match cor, hn with
    | [f0, f1, f2], _ =>
      have hne := hM
      simp only [List.nodup_cons, List.mem_cons, List.not_mem_nil, or_false, not_or, not_false_eq_true, List.nodup_nil,
        and_true] at hne
      obtain ⟨⟨h01, h02⟩, h12⟩ := hne
      simp only [List.mem_cons, List.not_mem_nil, or_false] at ht hu hg
      rw [hc]
      clear hc hk hM
      rcases ht with rfl | rfl | rfl <;> rcases hu with rfl | rfl | rfl <;> rcases hg with rfl | rfl | rfl <;>
        first
        | exact absurd rfl htu
        | exact absurd rfl hgt
        | exact absurd rfl hgu
        | (left; simp_all [List.idxOf_cons, cond_eq_ite]; done)
        | (right; simp_all [List.idxOf_cons, cond_eq_ite]; done)
        | skip
  have hval : ∀ e (v u : Vec K), value M e (Function.update (Function.update σ test v) unk u)
      = multi M.shape (M.data e) (M.cor.map fun f => Function.update (Function.update σ test v) unk u f e) :=
    fun _ _ _ => rfl
  rcases step with ⟨h2, hs⟩ | ⟨h2, hs⟩
  · obtain ⟨B, hB, hB'⟩ := sparse_fwd M2 test unk h2 false
    refine ⟨B, by rw [hd, if_pos h2, hB]; rfl, fun e v u => ?_⟩
    have := hB' e (v e) (u e)
    simp only [Bool.false_eq_true, if_false] at this
    rw [this, hv e _ (by simp [hn]), hval]
    congr 1
    rw [hs (v e) (u e) _ _ _ (σ g e)] <;> simp [Function.update_of_ne, htu, hgt, hgu]
  · obtain ⟨B, hB, hB'⟩ := sparse_fwd M2 unk test h2 true
    have hne : M2.cor ≠ [test, unk] := by rw [h2]; simp [htu.symm]
    refine ⟨B, by rw [hd, if_neg hne, if_pos h2, hB]; rfl, fun e v u => ?_⟩
    have := hB' e (u e) (v e)
    simp only [if_true] at this
    rw [hval, hs (v e) (u e) _ _ _ (σ g e), ← hv e _ (by simp [hn]), ← this, Finset.sum_comm]
    · refine Finset.sum_congr rfl fun i _ => Finset.sum_congr rfl fun j _ => ?_
      ring
    all_goals simp [Function.update_of_ne, htu, hgt, hgu]

/-! ## Rows of a nonlinear system -/

theorem multi3 (l m n : Nat) (T : List Nat → K) (p q s : Nat → K) :
    multi [l, m, n] T [p, q, s] = ∑ a ∈ range l, ∑ b ∈ range m, ∑ c ∈ range n, T [a, b, c] * (p a * (q b * s c)) := by
  simp [multi, tuples, List.sum_flatten, List.flatMap, Function.comp_def, sum_map_range72, List.map_flatten]

/-- The unit vector of a dof, in every element. -/
def unitVec (r : Nat) : Vec K := fun _ k => if k = r then 1 else 0

/-- What the constructor asks of a term of the row of `tv`, together with the number of axes for which the derivative
is implemented. -/
structure TermOk (unknown : List Form) (tv : Form) (M : MDM K) : Prop where
  nodup : M.cor.Nodup
  three : M.ndim = 3
  test : tv ∈ M.cor
  rest : ∀ f ∈ M.cor, f = tv ∨ f ∈ unknown

theorem term_eval (unknown : List Form) (tv : Form) (ht : tv ∉ unknown) (M : MDM K) (h : TermOk unknown tv M)
    (x : Form → Vec K) (els : List Nat) :
    ∃ vec, evaluate M els (unknown.map fun f => (f, x f)) = some (.vector vec) ∧
      ∀ e, ∀ r < tv.nb, vec e r = value M e (Function.update x tv (unitVec r)) := by
  obtain ⟨vec, h1, h2⟩ := c72_evaluate M h.nodup x (unknown.map fun f => (f, x f))
    (by intro p hp; rw [List.mem_map] at hp; obtain ⟨f, _, rfl⟩ := hp; rfl) tv h.test
    (by
      intro f hf
      rw [List.map_map, show (Prod.fst ∘ fun f : Form => (f, x f)) = id from rfl, List.map_id]
      constructor
      · rintro h' rfl; exact ht h'
      · intro hne; exact (h.rest f hf).resolve_left hne) els
  refine ⟨vec, h1, fun e r hr => ?_⟩
  rw [← h2 e (unitVec r), Finset.sum_eq_single_of_mem r (Finset.mem_range.2 hr)]
  · simp [unitVec]
  · intro b _ hb; simp [unitVec, hb]

/-- The product of a block, `None` for zero, with a local vector. -/
def blockMul (B : Option (Mat K)) (n : Nat) (d : Vec K) : Vec K := fun e r =>
  match B with
  | none => 0
  | some B => ∑ c ∈ range n, B e r c * d e c

/-- The first variation of a term in the direction of one unknown. -/
def variation (M : MDM K) (tv : Form) (x d : Form → Vec K) (uv : Form) : Vec K := fun e r =>
  if uv ∈ M.cor then value M e (Function.update (Function.update x tv (unitVec r)) uv (d uv)) else 0

theorem third_exists (l : List Form) (a b : Form) (hl : l.Nodup) (h3 : l.length = 3) (ha : a ∈ l) (hb : b ∈ l)
    (hab : a ≠ b) : ∃ g ∈ l, g ≠ a ∧ g ≠ b ∧ ∀ f ∈ l, f = a ∨ f = b ∨ f = g := by
  match l, h3 with
  | [f0, f1, f2], _ =>
    simp only [List.nodup_cons, List.mem_cons, List.not_mem_nil, or_false, not_or, not_false_eq_true, List.nodup_nil,
      and_true] at hl ha hb ⊢
    obtain ⟨⟨h01, h02⟩, h12⟩ := hl
    rcases ha with rfl | rfl | rfl <;> rcases hb with rfl | rfl | rfl <;>
      first
      | exact absurd rfl hab
      | exact ⟨_, Or.inl rfl, by tauto, by tauto, by tauto⟩
      | exact ⟨_, Or.inr (Or.inl rfl), by tauto, by tauto, by tauto⟩
      | exact ⟨_, Or.inr (Or.inr rfl), by tauto, by tauto, by tauto⟩

theorem term_deriv (unknown : List Form) (hu : unknown.Nodup) (tv : Form) (ht : tv ∉ unknown) (M : MDM K)
    (h : TermOk unknown tv M) (x : Form → Vec K) (uv : Form) (huv : uv ∈ unknown) :
    ∃ C, derivativeContribution M tv uv ((unknown.filter (· ≠ uv)).map fun f => (f, x f)) = some C ∧
      ∀ (d : Form → Vec K) e, ∀ r < tv.nb, blockMul C uv.nb (d uv) e r = variation M tv x d uv e r := by
  have htu : tv ≠ uv := fun h' => ht (h' ▸ huv)
  by_cases hc : uv ∈ M.cor
  · obtain ⟨g, hg, g1, g2, g3⟩ := third_exists M.cor tv uv h.nodup h.three h.test hc htu
    have hgu : g ∈ unknown := (h.rest g hg).resolve_left g1
    have hf : (unknown.filter (· ≠ uv)).filter (fun f => f ∈ M.cor) = [g] := by
      have hnd : ((unknown.filter (· ≠ uv)).filter (fun f => f ∈ M.cor)).Nodup := (hu.filter _).filter _
      have hm : ∀ f, f ∈ (unknown.filter (· ≠ uv)).filter (fun f => f ∈ M.cor) ↔ f ∈ [g] := by
        intro f
        simp only [List.mem_filter, decide_eq_true_eq, List.mem_singleton, ne_eq]
        constructor
        · rintro ⟨⟨k1, k2⟩, k3⟩
          rcases g3 f k3 with rfl | rfl | rfl
          · exact absurd k1 ht
          · exact absurd rfl k2
          · rfl
        · rintro rfl; exact ⟨⟨hgu, g2⟩, hg⟩
      have := (List.perm_ext_iff_of_nodup hnd (List.nodup_singleton g)).2 hm
      exact List.perm_singleton.1 this
    have hk : ((unknown.filter (· ≠ uv)).map fun f => (f, x f)).filter (fun p => p.1 ∈ M.cor) = [(g, x g)] := by
      rw [List.filter_map]
      have : ((fun p : Form × Vec K => decide (p.1 ∈ M.cor)) ∘ fun f => (f, x f)) = fun f => decide (f ∈ M.cor) := rfl
      rw [this, hf]; rfl
    obtain ⟨B, hB, hB'⟩ := c72_derivative M h.nodup h.three x tv uv g htu g1 g2 h.test hc hg _ hk
    refine ⟨some B, hB, fun d e r hr => ?_⟩
    unfold variation
    rw [if_pos hc, ← hB' e (unitVec r) (d uv), Finset.sum_eq_single_of_mem r (Finset.mem_range.2 hr)]
    · simp [unitVec, blockMul]
    · intro b _ hb; simp [unitVec, hb]
  · refine ⟨none, ?_, fun d e r _ => ?_⟩
    · unfold derivativeContribution
      simp [h.test, hc]
    · simp [blockMul, variation, hc]

theorem value_expand (unknown : List Form) (hu : unknown.Nodup) (tv : Form) (ht : tv ∉ unknown) (M : MDM K)
    (h : TermOk unknown tv M) (x d : Form → Vec K) (t : K) (e r : Nat) :
    value M e (Function.update (fun f e k => x f e k + t * d f e k) tv (unitVec r))
      = value M e (Function.update x tv (unitVec r)) + t * (unknown.map fun uv => variation M tv x d uv e r).sum
        + t ^ 2 * value M e (Function.update d tv (unitVec r)) := by
  obtain ⟨hnd, h3, hte, hr⟩ := h
  obtain ⟨cor, data⟩ := M
  simp only [MDM.ndim] at h3
  match cor, h3 with
  | [f0, f1, f2], _ =>
    have hne := hnd
    simp only [List.nodup_cons, List.mem_cons, List.not_mem_nil, or_false, not_or, not_false_eq_true, List.nodup_nil,
      and_true] at hne hte
    obtain ⟨⟨h01, h02⟩, h12⟩ := hne
    have h10 := Ne.symm h01
    have h20 := Ne.symm h02
    have h21 := Ne.symm h12
    have z : ∀ a b : Form, (∀ f ∈ [f0, f1, f2], f = tv ∨ f = a ∨ f = b) → tv ∉ [a, b] → ∀ f ∈ unknown, f ≠ a → f ≠ b →
        variation ⟨[f0, f1, f2], data⟩ tv x d f e r = 0 := by
      intro a b hab _ f hfu hfa hfb
      unfold variation
      rw [if_neg]
      intro hf
      rcases hab f hf with rfl | rfl | rfl
      · exact ht hfu
      · exact hfa rfl
      · exact hfb rfl
    have z' : ∀ a b : Form, a ∈ [f0, f1, f2] → b ∈ [f0, f1, f2] → a ≠ b → a ≠ tv → b ≠ tv →
        (∀ f ∈ [f0, f1, f2], f = tv ∨ f = a ∨ f = b) →
        (unknown.map fun uv => variation ⟨[f0, f1, f2], data⟩ tv x d uv e r).sum
          = variation ⟨[f0, f1, f2], data⟩ tv x d a e r + variation ⟨[f0, f1, f2], data⟩ tv x d b e r := by
      intro a b ha hb hab hat hbt hall
      have ha' := (hr a ha).resolve_left hat
      have hb' := (hr b hb).resolve_left hbt
      rw [← List.sum_toFinset _ hu, ← Finset.sum_subset (s₁ := {a, b})]
      · rw [Finset.sum_pair hab]
      · intro f hf; simp at hf; rcases hf with rfl | rfl <;> simpa
      · intro f hf hf'
        simp at hf hf'
        exact z a b hall (by simp [hat.symm, hbt.symm]) f hf hf'.1 hf'.2
    rcases hte with rfl | rfl | rfl
    · rw [z' f1 f2 (by simp) (by simp) h12 h10 h20 (by simp)]
      simp only [variation, value, MDM.shape, List.map_cons, List.map_nil, multi3, List.mem_cons, true_or, or_true,
        if_true, Function.update_self, ne_eq, h10, h20, h12, h21, h01, h02, not_false_eq_true, Function.update_of_ne]
      simp only [Finset.mul_sum, ← Finset.sum_add_distrib, mul_add]
      refine Finset.sum_congr rfl fun a _ => Finset.sum_congr rfl fun b _ => Finset.sum_congr rfl fun c _ => ?_
      ring
    · rw [z' f0 f2 (by simp) (by simp) h02 h01 h21 (by simp)]
      simp only [variation, value, MDM.shape, List.map_cons, List.map_nil, multi3, List.mem_cons, true_or, or_true,
        if_true, Function.update_self, ne_eq, h10, h20, h12, h21, h01, h02, not_false_eq_true, Function.update_of_ne]
      simp only [Finset.mul_sum, ← Finset.sum_add_distrib, mul_add]
      refine Finset.sum_congr rfl fun a _ => Finset.sum_congr rfl fun b _ => Finset.sum_congr rfl fun c _ => ?_
      ring
    · rw [z' f0 f1 (by simp) (by simp) h01 h02 h12 (by simp)]
      simp only [variation, value, MDM.shape, List.map_cons, List.map_nil, multi3, List.mem_cons, true_or, or_true,
        if_true, Function.update_self, ne_eq, h10, h20, h12, h21, h01, h02, not_false_eq_true, Function.update_of_ne]
      simp only [Finset.mul_sum, ← Finset.sum_add_distrib, mul_add]
      refine Finset.sum_congr rfl fun a _ => Finset.sum_congr rfl fun b _ => Finset.sum_congr rfl fun c _ => ?_
      ring

/-- The right hand side as a vector. -/
def _root_.Mifem.NLS.Rhs.val : Rhs K → Vec K
  | .vector v => v
  | _ => fun _ _ => 0

/-- The specification of the residual of one row of equations: the linear blocks applied to the unknowns, plus the
nonlinear terms tested with each basis function, minus the right hand side. -/
def residual (tv : Form) (row : List (Option (Mat K))) (unknown : List Form) (terms : List (MDM K)) (b : Vec K)
    (x : Form → Vec K) : Vec K := fun e r =>
  ((row.zip unknown).map fun p => blockMul p.1 p.2.nb (x p.2) e r).sum
    + (terms.map fun M => value M e (Function.update x tv (unitVec r))).sum - b e r

/-- Row `i` of a system that the constructor has accepted, all terms of which have three axes. -/
structure RowOf (S : System K) (i : Nat) (tv : Form) (row : List (Option (Mat K))) (terms : List (MDM K)) (b : Rhs K) :
    Prop where
  hT : S.test[i]? = some tv
  hA : S.A[i]? = some row
  hN : S.terms[i]? = some terms
  hb : S.b[i]? = some b
  accepted : S.accepted = true
  three : ∀ M ∈ terms, M.ndim = 3

theorem RowOf.props {S : System K} {i : Nat} {tv : Form} {row : List (Option (Mat K))} {terms : List (MDM K)} {b : Rhs K}
    (h : RowOf S i tv row terms b) :
    tv ∉ S.unknown ∧ row.length = S.unknown.length ∧ ∀ M ∈ terms, TermOk S.unknown tv M := by
  obtain ⟨hT, hA, hN, _, hacc, h3⟩ := h
  simp only [System.accepted, Bool.and_eq_true, List.all_eq_true, decide_eq_true_eq, Bool.or_eq_true] at hacc
  obtain ⟨⟨⟨⟨a1, _⟩, a3⟩, _⟩, a5⟩ := hacc
  refine ⟨a1 tv (List.mem_of_getElem? hT), a3 row (List.mem_of_getElem? hA), fun M hM => ?_⟩
  have hz : (tv, terms) ∈ S.test.zip S.terms := by
    apply List.mem_of_getElem? (i := i)
    rw [List.getElem?_zip_eq_some]
    exact ⟨hT, hN⟩
  obtain ⟨⟨b1, b2⟩, b3⟩ := a5 _ hz M hM
  exact ⟨(inhomogeneous_iff M).1 b1, h3 M hM, b2, b3⟩

theorem sumVecs_some (l : List (Vec K)) (hl : l ≠ []) :
    sumVecs (l.map some) = some fun e r => (l.map fun v => v e r).sum := by
  have : (l.map some).mapM (id : Option (Vec K) → Option (Vec K)) = some l := by
    have := Asm.mapM_eq_map (f := (id : Option (Vec K) → Option (Vec K))) (g := fun o => o.getD fun _ _ => 0) (l := l.map some)
      (by intro a ha; rw [List.mem_map] at ha; obtain ⟨v, _, rfl⟩ := ha; rfl)
    rw [this]; simp
  unfold sumVecs
  rw [this]
  cases l with
  | nil => exact absurd rfl hl
  | cons a l => simp

theorem lin_sum (row : List (Option (Mat K))) (unknown : List Form) (x : Form → Vec K) (e r : Nat) :
    (((row.zip unknown).filterMap fun p => p.1.map fun A => matVec A p.2.nb (x p.2)).map fun v => v e r).sum
      = ((row.zip unknown).map fun p => blockMul p.1 p.2.nb (x p.2) e r).sum := by
  induction row.zip unknown with
  | nil => simp
  | cons p l ih =>
    obtain ⟨A, f⟩ := p
    cases A with
    | none => simpa [blockMul] using ih
    | some A => simp [blockMul, matVec, sum_map_range72, ih]

/-- `evaluate_f` of a row is its residual, unless the right hand side is the number 0 or there is nothing to add up. -/
theorem c72_residual {S : System K} {i : Nat} {tv : Form} {row : List (Option (Mat K))} {terms : List (MDM K)} {b : Rhs K}
    (h : RowOf S i tv row terms b) (hb : b ≠ .zero)
    (hne : (∃ A, some A ∈ row) ∨ terms ≠ [] ∨ ∃ v, b = .vector v) (els : List Nat) (x : Form → Vec K) :
    ∃ F, evaluateRow S els x i = some F ∧
      ∀ e, ∀ r < tv.nb, F e r = residual tv row S.unknown terms (b.val) x e r := by
  obtain ⟨ht, hlen, hM⟩ := h.props
  choose! vec hv1 hv2 using fun M (hm : M ∈ terms) => term_eval S.unknown tv ht M (hM M hm) x els
  have hnon : terms.mapM (fun M => asVector (evaluate M els (S.unknown.map fun f => (f, x f))))
      = some (terms.map vec) := by
    apply Asm.mapM_eq_map
    intro M hm
    rw [hv1 M hm]; rfl
  obtain ⟨rb, hrb, hrb'⟩ : ∃ rb : List (Vec K), b.parts = rb.map some ∧
      (∀ e r, (rb.map fun v => v e r).sum = - b.val e r) ∧ ((∃ v, b = .vector v) → rb ≠ []) := by
    cases b with
    | none => exact ⟨[], rfl, by simp [NLS.Rhs.val], by simp⟩
    | zero => exact absurd rfl hb
    | vector v => exact ⟨[fun e r => -v e r], rfl, by simp [NLS.Rhs.val], by simp⟩
  refine ⟨fun e r => ((((row.zip S.unknown).filterMap fun p => p.1.map fun A => matVec A p.2.nb (x p.2))
    ++ terms.map vec ++ rb).map fun v => v e r).sum, ?h1, ?h2⟩
  case h1 =>
    unfold evaluateRow
    simp only [h.hA, h.hN, h.hb, hnon, Option.bind_eq_bind, Option.bind_some, hrb, ← List.map_append]
    apply sumVecs_some
    intro hnil
    rw [List.append_eq_nil_iff, List.append_eq_nil_iff] at hnil
    obtain ⟨⟨n1, n2⟩, n3⟩ := hnil
    rcases hne with ⟨A, hA⟩ | hte | hv
    · obtain ⟨k, hk, hk'⟩ := List.getElem_of_mem hA
      have hz : (some A, S.unknown[k]) ∈ row.zip S.unknown := by
        apply List.mem_of_getElem? (i := k)
        rw [List.getElem?_zip_eq_some]
        exact ⟨by rw [List.getElem?_eq_getElem hk, hk'], List.getElem?_eq_getElem (by omega)⟩
      have := List.filterMap_eq_nil_iff.1 n1 _ hz
      simp at this
    · exact hte (List.map_eq_nil_iff.1 n2)
    · exact hrb'.2 hv n3
  case h2 =>
    intro e r hr
    simp only [List.map_append, List.sum_append, lin_sum, hrb'.1, residual, List.map_map]
    rw [show (terms.map ((fun v => v e r) ∘ vec)) = terms.map fun M => value M e (Function.update x tv (unitVec r)) from
      List.map_congr_left fun M hm => hv2 M hm e r hr]
    ring

/-- A right hand side that is the number 0, which the constructor accepts, makes every evaluation raise. -/
theorem c72_zero_rhs_fails {S : System K} {i : Nat} {tv : Form} {row : List (Option (Mat K))} {terms : List (MDM K)}
    (h : RowOf S i tv row terms .zero) (els : List Nat) (x : Form → Vec K) : evaluateRow S els x i = none := by
  unfold evaluateRow
  simp only [h.hA, h.hN, h.hb, Option.bind_eq_bind, Option.bind_some]
  cases terms.mapM (fun M => asVector (evaluate M els (S.unknown.map fun f => (f, x f)))) with
  | none => rfl
  | some non =>
    rw [Option.bind_some, show (Rhs.zero : Rhs K).parts = [none] from rfl]
    unfold sumVecs
    rw [if_neg (by simp)]
    have : ∀ l : List (Option (Vec K)), (l ++ [none]).mapM (id : Option (Vec K) → Option (Vec K)) = none := by
      intro l
      induction l with
      | nil => rfl
      | cons a l ih =>
        rw [List.cons_append, List.mapM_cons, ih]
        cases a <;> rfl
    rw [this]; rfl

theorem blockMul_sum (l : List (Mat K)) (n : Nat) (d : Vec K) (e r : Nat) :
    blockMul (if l.isEmpty then none else some (sumMats l)) n d e r = (l.map fun B => blockMul (some B) n d e r).sum := by
  have : blockMul (some (sumMats l)) n d e r = (l.map fun B => blockMul (some B) n d e r).sum := by
    induction l with
    | nil => simp [blockMul, sumMats]
    | cons B l ih =>
      simp only [List.map_cons, List.sum_cons, ← ih]
      simp [blockMul, sumMats, add_mul, Finset.sum_add_distrib]
  cases l with
  | nil => simp [blockMul]
  | cons B l => simpa using this

theorem filterMap_sum (l : List (Option (Mat K))) (n : Nat) (d : Vec K) (e r : Nat) :
    ((l.filterMap id).map fun B => blockMul (some B) n d e r).sum = (l.map fun B => blockMul B n d e r).sum := by
  induction l with
  | nil => simp
  | cons B l ih =>
    cases B with
    | none =>
      rw [List.filterMap_cons_none rfl, List.map_cons, List.sum_cons, ih]
      exact (zero_add _).symm
    | some B =>
      rw [List.filterMap_cons_some (f := id) (a := some B) (b := B) rfl, List.map_cons, List.map_cons, List.sum_cons,
        List.sum_cons, ih]

/-- A block of the linearised system: the linear block plus the derivatives of the terms. -/
theorem lhs_block {S : System K} {i : Nat} {tv : Form} {row : List (Option (Mat K))} {terms : List (MDM K)} {b : Rhs K}
    (h : RowOf S i tv row terms b) (hu : S.unknown.Nodup) (x : Form → Vec K) (j : Nat) (hj : j < S.unknown.length) :
    ∃ J, lhsBlock S x i j = some J ∧ ∀ (d : Form → Vec K) e, ∀ r < tv.nb,
      blockMul J (S.unknown[j]).nb (d S.unknown[j]) e r
        = blockMul (row.getD j none) (S.unknown[j]).nb (d S.unknown[j]) e r
          + (terms.map fun M => variation M tv x d S.unknown[j] e r).sum := by
  obtain ⟨ht, hlen, hM⟩ := h.props
  choose! C hC1 hC2 using fun M (hm : M ∈ terms) =>
    term_deriv S.unknown hu tv ht M (hM M hm) x S.unknown[j] (List.getElem_mem _)
  have hcs := Asm.mapM_eq_map (fun M hm => hC1 M hm)
  have hrow : row[j]? = some (row.getD j none) := by
    rw [List.getElem?_eq_getElem (by omega), List.getD_eq_getElem _ _ (by omega)]
  refine ⟨if ((row.getD j none).toList ++ (terms.map C).filterMap id).isEmpty then none
    else some (sumMats ((row.getD j none).toList ++ (terms.map C).filterMap id)), ?h1, ?h2⟩
  case h1 =>
    unfold lhsBlock
    simp only [h.hA, h.hN, h.hT, hrow, List.getElem?_eq_getElem hj, hcs, Option.bind_eq_bind, Option.bind_some]
    rfl
  case h2 =>
    intro d e r hr
    rw [blockMul_sum, List.map_append, List.sum_append, filterMap_sum, List.map_map]
    congr 1
    · cases row.getD j none <;> simp [blockMul]
    · congr 1
      exact List.map_congr_left fun M hm => hC2 M hm d e r hr

/-- The matrix assembled by the Newton-Raphson solver at `x` is the derivative of the residual at `x`: along every
direction `d` the residual is the one at `x`, plus `t` times the matrix applied to `d`, plus `t²` times the nonlinear
terms at `d`. -/
theorem c72_newton {S : System K} {i : Nat} {tv : Form} {row : List (Option (Mat K))} {terms : List (MDM K)} {b : Rhs K}
    (h : RowOf S i tv row terms b) (hu : S.unknown.Nodup) (x d : Form → Vec K) :
    ∃ J : Fin S.unknown.length → Option (Mat K), (∀ j : Fin S.unknown.length, lhsBlock S x i j = some (J j)) ∧
      ∀ (t : K) e, ∀ r < tv.nb,
        residual tv row S.unknown terms (b.val) (fun f e k => x f e k + t * d f e k) e r
          = residual tv row S.unknown terms (b.val) x e r
            + t * ∑ j : Fin S.unknown.length, blockMul (J j) (S.unknown[j]).nb (d S.unknown[j]) e r
            + t ^ 2 * (terms.map fun M => value M e (Function.update d tv (unitVec r))).sum := by
  obtain ⟨ht, hlen, hM⟩ := h.props
  choose J hJ1 hJ2 using fun j : Fin S.unknown.length => lhs_block h hu x j j.2
  refine ⟨J, hJ1, fun t e r hr => ?_⟩
  have hJ3 : ∀ j : Fin S.unknown.length, blockMul (J j) (S.unknown[j]).nb (d S.unknown[j]) e r
        = blockMul (row.getD j none) (S.unknown[j]).nb (d S.unknown[j]) e r
          + (terms.map fun M => variation M tv x d S.unknown[j] e r).sum := fun j => hJ2 j d e r hr
  simp only [hJ3, Finset.sum_add_distrib]
  have e1 : ∑ j : Fin S.unknown.length, blockMul (row.getD j none) (S.unknown[j]).nb (d S.unknown[j]) e r
      = ((row.zip S.unknown).map fun p => blockMul p.1 p.2.nb (d p.2) e r).sum := by
    have : (row.zip S.unknown).map (fun p => blockMul p.1 p.2.nb (d p.2) e r)
        = List.ofFn fun j : Fin S.unknown.length =>
            blockMul (row.getD j none) (S.unknown[j]).nb (d S.unknown[j]) e r := by
      apply List.ext_getElem
      · simp [hlen]
      · intro k k1 k2
        simp only [List.length_ofFn] at k2
        simp [List.getElem?_eq_getElem (show k < row.length by omega)]
    rw [this, List.sum_ofFn]
  have e2 : ∑ j : Fin S.unknown.length, (terms.map fun M => variation M tv x d S.unknown[j] e r).sum
      = (terms.map fun M => (S.unknown.map fun uv => variation M tv x d uv e r).sum).sum := by
    have : ∀ M : MDM K, (S.unknown.map fun uv => variation M tv x d uv e r).sum
        = ∑ j : Fin S.unknown.length, variation M tv x d S.unknown[j] e r := by
      intro M
      rw [← List.sum_ofFn]
      congr 1
      apply List.ext_getElem <;> simp
    simp only [this]
    clear hM hJ2 hJ3 h hJ1
    induction terms with
    | nil => simp
    | cons M l ih => simp only [List.map_cons, List.sum_cons, Finset.sum_add_distrib, ih]
  rw [e1, e2]
  unfold residual
  have e3 : ((row.zip S.unknown).map fun p => blockMul p.1 p.2.nb (fun e k => x p.2 e k + t * d p.2 e k) e r).sum
      = ((row.zip S.unknown).map fun p => blockMul p.1 p.2.nb (x p.2) e r).sum
        + t * ((row.zip S.unknown).map fun p => blockMul p.1 p.2.nb (d p.2) e r).sum := by
    induction row.zip S.unknown with
    | nil => simp
    | cons p l ih =>
      simp only [List.map_cons, List.sum_cons, ih]
      have : blockMul p.1 p.2.nb (fun e k => x p.2 e k + t * d p.2 e k) e r
          = blockMul p.1 p.2.nb (x p.2) e r + t * blockMul p.1 p.2.nb (d p.2) e r := by
        unfold blockMul
        cases p.1 with
        | none => simp
        | some A =>
          simp only [Finset.mul_sum, ← Finset.sum_add_distrib]
          exact Finset.sum_congr rfl fun c _ => by ring
      rw [this]; ring
  have e4 : (terms.map fun M => value M e (Function.update (fun f e k => x f e k + t * d f e k) tv (unitVec r))).sum
      = (terms.map fun M => value M e (Function.update x tv (unitVec r))).sum
        + t * (terms.map fun M => (S.unknown.map fun uv => variation M tv x d uv e r).sum).sum
        + t ^ 2 * (terms.map fun M => value M e (Function.update d tv (unitVec r))).sum := by
    clear e2 hJ2 hJ3 hJ1 h
    induction terms with
    | nil => simp
    | cons M l ih =>
      simp only [List.map_cons, List.sum_cons]
      rw [value_expand S.unknown hu tv ht M (hM M (by simp)) x d t e r, ih (fun M' h' => hM M' (by simp [h']))]
      ring
  rw [e3, e4]
  ring

/-! ## The assembled system -/

/-- Element-wise vectors assembled with the gathering matrices `G` of the test variables. -/
def gatherVec (els : List Nat) (test : List Form) (G : Nat → Nat → Nat → Nat) (F : Fin test.length → Vec K) (n : Nat) : K :=
  (els.map fun e => ∑ i : Fin test.length, ∑ r ∈ range (test[i]).nb, if G i e r = n then F i e r else 0).sum

/-- Element-wise blocks assembled with the gathering matrices `G` of the test variables and `H` of the unknowns. -/
def gatherMat (els : List Nat) (test unknown : List Form) (G H : Nat → Nat → Nat → Nat)
    (J : Fin test.length → Fin unknown.length → Option (Mat K)) (n m : Nat) : K :=
  (els.map fun e => ∑ i : Fin test.length, ∑ r ∈ range (test[i]).nb, if G i e r = n then
    ∑ j : Fin unknown.length, ∑ c ∈ range (unknown[j]).nb,
      if H j e c = m then (match J i j with | none => 0 | some B => B e r c) else 0 else 0).sum

/-- `xi.do.distributed_to(*itmV)`: the global vector read through the gathering matrices. -/
def distributed (unknown : List Form) (H : Nat → Nat → Nat → Nat) (X : Nat → K) (f : Form) : Vec K :=
  fun e c => X (H (unknown.idxOf f) e c)

theorem gatherMat_mul (els : List Nat) (test unknown : List Form) (hu : unknown.Nodup) (G H : Nat → Nat → Nat → Nat) (N : Nat)
    (hN : ∀ j e c, H j e c < N) (J : Fin test.length → Fin unknown.length → Option (Mat K)) (D : Nat → K) (n : Nat) :
    ∑ m ∈ range N, gatherMat els test unknown G H J n m * D m
      = gatherVec els test G (fun i e r => ∑ j : Fin unknown.length,
          blockMul (J i j) (unknown[j]).nb (distributed unknown H D unknown[j]) e r) n := by
  unfold gatherMat gatherVec
  induction els with
  | nil => simp
  | cons e els ih =>
    simp only [List.map_cons, List.sum_cons, add_mul, Finset.sum_add_distrib, ih]
    congr 1
    simp only [Finset.sum_mul]
    rw [Finset.sum_comm]
    refine Finset.sum_congr rfl fun i _ => ?_
    rw [Finset.sum_comm]
    refine Finset.sum_congr rfl fun r _ => ?_
    split
    · simp only [Finset.sum_mul]
      rw [Finset.sum_comm]
      refine Finset.sum_congr rfl fun j _ => ?_
      rw [Finset.sum_comm]
      have hidx : unknown.idxOf unknown[j] = j := hu.idxOf_getElem j j.2
      unfold blockMul distributed
      cases J i j with
      | none => simp
      | some B =>
        refine Finset.sum_congr rfl fun c _ => ?_
        rw [Finset.sum_eq_single_of_mem (H j e c) (Finset.mem_range.2 (hN _ _ _))]
        · rw [if_pos rfl, hidx]
        · intro b _ hb
          rw [if_neg (fun h => hb h.symm), zero_mul]
    · simp

/-- The residual of the assembled system at a global vector. -/
def globalResidual (S : System K) (els : List Nat) (G H : Nat → Nat → Nat → Nat)
    (row : Fin S.test.length → List (Option (Mat K))) (terms : Fin S.test.length → List (MDM K))
    (b : Fin S.test.length → Rhs K) (X : Nat → K) : Nat → K :=
  gatherVec els S.test G fun i => residual S.test[i] (row i) S.unknown (terms i) (b i).val (distributed S.unknown H X)

/-- The assembled matrix of the Newton-Raphson solver is the derivative of the assembled residual. -/
theorem c72_global (S : System K) (hu : S.unknown.Nodup) (row : Fin S.test.length → List (Option (Mat K)))
    (terms : Fin S.test.length → List (MDM K)) (b : Fin S.test.length → Rhs K)
    (h : ∀ i : Fin S.test.length, RowOf S i S.test[i] (row i) (terms i) (b i)) (els : List Nat)
    (G H : Nat → Nat → Nat → Nat) (N : Nat) (hN : ∀ j e c, H j e c < N) (X : Nat → K) :
    ∃ J : Fin S.test.length → Fin S.unknown.length → Option (Mat K),
      (∀ (i : Fin S.test.length) (j : Fin S.unknown.length),
        lhsBlock S (distributed S.unknown H X) i j = some (J i j)) ∧
      ∀ (D : Nat → K) (t : K) n,
        globalResidual S els G H row terms b (fun m => X m + t * D m) n
          = globalResidual S els G H row terms b X n
            + t * ∑ m ∈ range N, gatherMat els S.test S.unknown G H J n m * D m
            + t ^ 2 * gatherVec els S.test G (fun i e r => ((terms i).map fun M =>
                value M e (Function.update (distributed S.unknown H D) S.test[i] (unitVec r))).sum) n := by
  choose J hJ1 hJ2 using fun i => c72_newton (h i) hu (distributed S.unknown H X)
  have hJe : ∀ i d d', J i d = J i d' := by
    intro i d d'; funext j
    have := (hJ1 i d j).symm.trans (hJ1 i d' j)
    exact Option.some.inj this
  refine ⟨fun i => J i fun _ _ _ => 0, fun i j => hJ1 i _ j, fun D t n => ?_⟩
  rw [gatherMat_mul els S.test S.unknown hu G H N hN]
  unfold globalResidual gatherVec
  induction els with
  | nil => simp
  | cons e els ih =>
    simp only [List.map_cons, List.sum_cons]
    rw [ih]
    have key : ∑ i : Fin S.test.length, ∑ r ∈ range (S.test[i]).nb, (if G i e r = n then
        residual S.test[i] (row i) S.unknown (terms i) (b i).val (distributed S.unknown H fun m => X m + t * D m) e r else 0)
        = (∑ i : Fin S.test.length, ∑ r ∈ range (S.test[i]).nb, if G i e r = n then
            residual S.test[i] (row i) S.unknown (terms i) (b i).val (distributed S.unknown H X) e r else 0)
          + t * (∑ i : Fin S.test.length, ∑ r ∈ range (S.test[i]).nb, if G i e r = n then
            ∑ j : Fin S.unknown.length, blockMul (J i (fun _ _ _ => 0) j) (S.unknown[j]).nb
              (distributed S.unknown H D S.unknown[j]) e r else 0)
          + t ^ 2 * (∑ i : Fin S.test.length, ∑ r ∈ range (S.test[i]).nb, if G i e r = n then
            ((terms i).map fun M =>
                value M e (Function.update (distributed S.unknown H D) S.test[i] (unitVec r))).sum else 0) := by
      simp only [Finset.mul_sum, ← Finset.sum_add_distrib]
      refine Finset.sum_congr rfl fun i _ => Finset.sum_congr rfl fun r hr => ?_
      split
      · have := hJ2 i (distributed S.unknown H D) t e r (Finset.mem_range.1 hr)
        rw [hJe i _ fun _ _ _ => 0] at this
        exact this
      · simp
    rw [key]
    ring

/-- If the update solves the linearised system, what is left of the residual is quadratic in the update. -/
theorem c72_step (S : System K) (hu : S.unknown.Nodup) (row : Fin S.test.length → List (Option (Mat K)))
    (terms : Fin S.test.length → List (MDM K)) (b : Fin S.test.length → Rhs K)
    (h : ∀ i : Fin S.test.length, RowOf S i S.test[i] (row i) (terms i) (b i)) (els : List Nat)
    (G H : Nat → Nat → Nat → Nat) (N : Nat) (hN : ∀ j e c, H j e c < N) (X D : Nat → K)
    (J : Fin S.test.length → Fin S.unknown.length → Option (Mat K))
    (hJ : ∀ (i : Fin S.test.length) (j : Fin S.unknown.length),
      lhsBlock S (distributed S.unknown H X) i j = some (J i j)) (n : Nat)
    (hD : ∑ m ∈ range N, gatherMat els S.test S.unknown G H J n m * D m = -globalResidual S els G H row terms b X n) :
    globalResidual S els G H row terms b (fun m => X m + D m) n
      = gatherVec els S.test G (fun i e r => ((terms i).map fun M =>
          value M e (Function.update (distributed S.unknown H D) S.test[i] (unitVec r))).sum) n := by
  obtain ⟨J', h1, h2⟩ := c72_global S hu row terms b h els G H N hN X
  have : J' = J := by
    funext i j; exact Option.some.inj ((h1 i j).symm.trans (hJ i j))
  subst this
  have := h2 D 1 n
  simp only [one_mul, one_pow, hD] at this
  rw [this]; ring

/-- Without nonlinear terms one step solves the system. -/
theorem c72_linear (S : System K) (hu : S.unknown.Nodup) (row : Fin S.test.length → List (Option (Mat K)))
    (b : Fin S.test.length → Rhs K) (h : ∀ i : Fin S.test.length, RowOf S i S.test[i] (row i) [] (b i)) (els : List Nat)
    (G H : Nat → Nat → Nat → Nat) (N : Nat) (hN : ∀ j e c, H j e c < N) (X D : Nat → K)
    (J : Fin S.test.length → Fin S.unknown.length → Option (Mat K))
    (hJ : ∀ (i : Fin S.test.length) (j : Fin S.unknown.length),
      lhsBlock S (distributed S.unknown H X) i j = some (J i j)) (n : Nat)
    (hD : ∑ m ∈ range N, gatherMat els S.test S.unknown G H J n m * D m
      = -globalResidual S els G H row (fun _ => []) b X n) :
    globalResidual S els G H row (fun _ => []) b (fun m => X m + D m) n = 0 := by
  rw [c72_step S hu row (fun _ => []) b h els G H N hN X D J hJ n hD]
  simp [gatherVec]
end

/-! ## Fixed dofs -/

open Mifem.Stop in
/-- `set_no_evaluation(i)` makes row `i` of the matrix that of the identity and entry `i` of the right hand side 0, so
entry `i` of every update is 0.  Then dof `i` of the solution is the one of the initial guess, or the value set by
`set_fixed_solution(i, value)`. -/
theorem c72_fixed (lin : (Nat → Rat) → Nat → Rat) (norm : (Nat → Rat) → Rat) (g : List (Nat × Rat)) (atol : Rat)
    (mx : MaxIter) (i : Nat) (N : Nat) (hi : i < N) (A : (Nat → Rat) → Nat → Nat → Rat) (f : (Nat → Rat) → Nat → Rat)
    (hA : ∀ x m, A x i m = if m = i then 1 else 0) (hf : ∀ x, f x i = 0)
    (hsolve : ∀ x, ∀ n < N, ∑ m ∈ range N, A x n m * lin x m = f x n) (x : Nat → Rat) (fuel : Nat)
    (sol : (Nat → Rat) × Int × Nat × Nat) (h : newtonLoop lin norm g atol mx fuel 0 x [] = some sol) :
    sol.1 i = setGuess g x i := by
  have hl : ∀ x, lin x i = 0 := by
    intro x
    have := hsolve x i hi
    simp only [hA, hf, ite_mul, one_mul, zero_mul, Finset.sum_ite_eq', Finset.mem_range, hi, if_true] at this
    exact this
  have later : ∀ (fuel iter : Nat) (y : Nat → Rat) (B : List Rat) (sol : (Nat → Rat) × Int × Nat × Nat), 0 < iter →
      newtonLoop lin norm g atol mx fuel iter y B = some sol → sol.1 i = y i := by
    intro fuel
    induction fuel with
    | zero => intro iter y B sol _ h; simp [newtonLoop] at h
    | succ fuel ih =>
      intro iter y B sol hp h
      unfold newtonLoop at h
      simp only at h
      rw [if_neg (by omega)] at h
      split at h
      · simp at h
      · simp only [Option.some.injEq] at h
        subst h; simp [hl]
      · have := ih _ _ _ _ (by omega) h
        rw [this]; simp [hl]
  cases fuel with
  | zero => simp [newtonLoop] at h
  | succ fuel =>
    unfold newtonLoop at h
    simp only [Nat.zero_add, if_true] at h
    split at h
    · simp at h
    · simp only [Option.some.injEq] at h
      subst h; simp [hl]
    · have := later _ _ _ _ _ (by omega) h
      rw [this]; simp [hl]

open Mifem.Stop in
/-- But the first linearisation is made before the value is set.  For the equation `x₁ - x₀ = 0` with `x₀` fixed to 1 and
the guess 0, the solver reports success (info 0) with `x₀ = 1` and `x₁ = 0`. -/
theorem c72_fixed_solution_fails (norm : (Nat → Rat) → Rat) (h0 : norm (fun _ => 0) = 0) (atol : Rat) (ha : 0 < atol)
    (n : Nat) (hn : 1 ≤ n) :
    let lin : (Nat → Rat) → Nat → Rat := fun x i => if i = 1 then x 0 - x 1 else 0
    (∀ x, lin x 0 = 0 ∧ lin x 1 - lin x 0 = -(x 1 - x 0)) ∧
      ∃ sol j, newtonLoop lin norm [(0, 1)] atol (.soft n) 1 0 (fun _ => 0) [] = some (sol, 0, 1, j) ∧
        sol 0 = 1 ∧ sol 1 - sol 0 ≠ 0 := by
  intro lin
  have hl : lin (fun _ => 0) = fun _ => 0 := by funext i; simp [lin]
  refine ⟨fun x => by simp [lin], fun i => setGuess [(0, 1)] (fun _ => 0) i + lin (fun _ => 0) i, 1, ?_, ?_, ?_⟩
  · simp [newtonLoop, nlsStop, nlsBeta, last1, hl, h0, ha]
  · simp [setGuess, hl]
  · simp [setGuess, hl]

/-! ## A concrete system -/

/-- Two unknowns `u`, `w` and test variables `v`, `o`, one dof each. -/
def exU : Form := ⟨0, 1⟩
def exW : Form := ⟨1, 1⟩
def exV : Form := ⟨2, 1⟩
def exO : Form := ⟨3, 1⟩
/-- `2 w u v` on one element. -/
def exM : MDM ℚ := ⟨[exW, exU, exV], fun _ _ => 2⟩
/-- `u + 2 w u = 3`, `w = 1`. -/
def exS : System ℚ :=
  { test := [exV, exO], unknown := [exU, exW], A := [[some fun _ _ _ => 1, none], [none, some fun _ _ _ => 1]]
    terms := [[exM], []], b := [.vector fun _ _ => 3, .vector fun _ _ => 1] }

example : RowOf exS 0 exV [some fun _ _ _ => 1, none] [exM] (.vector fun _ _ => 3) :=
  ⟨rfl, rfl, rfl, rfl, by decide, by simp [exM, MDM.ndim]⟩
example : RowOf exS 1 exO [none, some fun _ _ _ => 1] [] (.vector fun _ _ => 1) :=
  ⟨rfl, rfl, rfl, rfl, by decide, by simp⟩
example : exS.unknown.Nodup := by decide
/-- The block of `v` and `w` at `u = 5`: the derivative of `2 w u` with respect to `w` is 10. -/
example : ((lhsBlock exS (fun f _ _ => if f = exU then 5 else 7) 0 1).bind fun o => o.map fun B => B 0 0 0) = some 10 := by
  decide +kernel
/-- The residual of the first row at `u = 5`, `w = 7`: 5 + 70 - 3. -/
example : ((evaluateRow exS [0] (fun f _ _ => if f = exU then 5 else 7) 0).map fun v => v 0 0) = some 72 := by
  decide +kernel
/-- The same system with the number 0 for the right hand side is accepted by the constructor. -/
example : RowOf { exS with b := [.zero, .zero] } 0 exV [some fun _ _ _ => 1, none] [exM] .zero :=
  ⟨rfl, rfl, rfl, rfl, by decide, by simp [exM, MDM.ndim]⟩

end Mifem.Props
