import Verif.Lemmas.NaiveSpec
import Verif.Lemmas.FormLayout
import Verif.Lemmas.TraceRen

/-!
# The naive numbering, element by element

After every element the numbers in use are `0, ..., c - 1`.
-/

namespace Mifem.Naive

variable {σ : Type} [DecidableEq σ]

theorem frees_split (L : Layout σ) (emap : Nat → List (Option Nat)) (m n : Nat) (h : m ≤ n) : ∃ r, frees L emap n = frees L emap m ++ r := by
  obtain ⟨d, rfl⟩ := Nat.exists_eq_add_of_le h
  exact ⟨_, by unfold frees; rw [List.range_add, List.flatMap_append]⟩

/-- what has been computed for the first elements. -/
theorem determined_le {L : Layout σ} {emap : Nat → List (Option Nat)} {n : Nat} {N : Nat → Arr σ} {M : Nat} (h : Determined L emap n N M) (m : Nat)
    (hm : m ≤ n) : Determined L emap m N (frees L emap m).length where
  isSome := fun k hk => h.isSome k (by omega)
  linked := fun k hk => h.linked k (by omega)
  free := by
    obtain ⟨r, hr⟩ := frees_split L emap m n hm
    have h1 := congrArg (List.take (frees L emap m).length) h.free
    rw [hr, List.map_append, List.take_append_of_le_length (by simp), List.take_of_length_le (by simp), ← List.map_take, List.take_range] at h1
    rw [h1]
    have := congrArg List.length h1
    simp only [List.length_map, List.length_range] at this
    rw [← this]

/-- **after every element the numbers met are `0, ..., c - 1`.** -/
theorem block_numbers {L : Layout σ} (hL : Good L) {emap : Nat → List (Option Nat)} {n : Nat} {N : Nat → Arr σ} {M : Nat} (h : Determined L emap n N M)
    (m : Nat) (hm : m ≤ n) (v : Nat) : v < (frees L emap m).length ↔ ∃ k a, k < m ∧ a ∈ L.slots ∧ N k a = some v :=
  numbers_range L hL emap m N _ (determined_le h m hm) v

/-- the vector of an element, the places in the given order. -/
def vec (ord : List σ) (a : Arr σ) : List Nat := ord.map fun x => (a x).getD 0

theorem mem_vec {L : Layout σ} {emap : Nat → List (Option Nat)} {n : Nat} {N : Nat → Arr σ} {M : Nat} (h : Determined L emap n N M)
    {ord : List σ} (ho : ∀ a, a ∈ ord ↔ a ∈ L.slots) (k : Nat) (hk : k < n) (v : Nat) : v ∈ vec ord (N k) ↔ ∃ a ∈ L.slots, N k a = some v := by
  unfold vec
  rw [List.mem_map]
  constructor
  · rintro ⟨a, ha, rfl⟩
    obtain ⟨w, hw⟩ := Option.isSome_iff_exists.1 (h.isSome k hk a ((ho a).1 ha))
    exact ⟨a, (ho a).1 ha, by rw [hw]; rfl⟩
  · rintro ⟨a, ha, hv⟩
    exact ⟨a, (ho a).2 ha, by rw [hv]; rfl⟩

/-- the vectors of the first `t` elements. -/
theorem met_iff {L : Layout σ} (hL : Good L) {emap : Nat → List (Option Nat)} {n : Nat} {N : Nat → Arr σ} {M : Nat} (h : Determined L emap n N M)
    {ord : List σ} (ho : ∀ a, a ∈ ord ↔ a ∈ L.slots) (t : Nat) (d : Nat) :
    (∃ v ∈ (((List.range n).map fun k => vec ord (N k))).take t, d ∈ v) ↔ d < (frees L emap (min t n)).length := by
  rw [block_numbers hL h (min t n) (by omega)]
  rw [← List.map_take, List.take_range]
  constructor
  · rintro ⟨v, hv, hd⟩
    obtain ⟨k, hk, rfl⟩ := List.mem_map.1 hv
    rw [List.mem_range] at hk
    obtain ⟨a, ha, he⟩ := (mem_vec h ho k (by omega) d).1 hd
    exact ⟨k, a, hk, ha, he⟩
  · rintro ⟨k, a, hk, ha, he⟩
    exact ⟨_, List.mem_map.2 ⟨k, List.mem_range.2 hk, rfl⟩, (mem_vec h ho k (by omega) d).2 ⟨a, ha, he⟩⟩

/-- the vectors of the naive numbering are as the renumbering of the trace forms needs them. -/
theorem formVecs {L : Layout σ} (hL : Good L) {emap : Nat → List (Option Nat)} {n : Nat} {N : Nat → Arr σ} {M : Nat} (h : Determined L emap n N M)
    {ord : List σ} (ho : ∀ a, a ∈ ord ↔ a ∈ L.slots) (I : σ → Prop) (hI : ∀ j, ∀ q ∈ L.sides j, ¬I q.1 ∧ ¬I q.2) (ild : List Nat)
    (hild : ∀ i ∈ ild, ∃ a, ord[i]? = some a ∧ I a) (hnd : ∀ k, k < n → (vec ord (N k)).Nodup) :
    TraceNum.FormVecs ord.length ild ((List.range n).map fun k => vec ord (N k)) where
  len := by
    intro v hv
    obtain ⟨k, _, rfl⟩ := List.mem_map.1 hv
    simp [vec]
  nodup := by
    intro v hv
    obtain ⟨k, hk, rfl⟩ := List.mem_map.1 hv
    exact hnd k (List.mem_range.1 hk)
  newAbove := by
    intro t v d d' hv hd hnew hold
    have hold' := (met_iff hL h ho t d').1 hold
    have : ¬ d < (frees L emap (min t n)).length := fun hh => by
      obtain ⟨w, hw, hdw⟩ := (met_iff hL h ho t d).2 hh
      exact hnew w hw hdw
    omega
  own := by
    intro t t' v v' i hi hv hv' hmem
    rw [List.getElem?_map, Option.map_eq_some_iff] at hv hv'
    obtain ⟨k, hk, rfl⟩ := hv
    obtain ⟨k', hk', rfl⟩ := hv'
    replace ⟨hk, he⟩ := List.getElem?_eq_some_iff.1 hk
    replace ⟨hk', he'⟩ := List.getElem?_eq_some_iff.1 hk'
    rw [List.length_range] at hk hk'
    rw [List.getElem_range] at he he'
    subst he he'
    obtain ⟨a, ha, hIa⟩ := hild i hi
    have has := (ho a).1 (List.mem_of_getElem? ha)
    obtain ⟨w, hw⟩ := Option.isSome_iff_exists.1 (h.isSome t hk a has)
    have hval : (vec ord (N t)).getD i 0 = w := by
      rw [List.getD_eq_getElem?_getD, vec, List.getElem?_map, ha]
      simp [hw]
    rw [hval] at hmem
    obtain ⟨b, hb, hbw⟩ := (mem_vec h ho t' hk' w).1 hmem
    classical
    have := (general L hL emap n N M h (fun k a => if I a then some (k, a) else none) (by
      intro o k c a _ _ hl
      obtain ⟨_, j, _, hq⟩ := (mem_links L emap k k a (o, c)).1 hl
      have := hI j _ hq
      simp only at this
      simp only [if_neg this.1, if_neg this.2])).1 t a t' b hk hk' has hb (by rw [hw, hbw])
    simp only [if_pos hIa] at this
    by_cases hIb : I b
    · rw [if_pos hIb] at this
      simp only [Option.some.injEq, Prod.mk.injEq] at this
      exact this.1
    · simp only [if_neg hIb] at this
      exact absurd this (by simp)

/-- the vectors, rank by rank. -/
theorem out_vecs {L : Layout σ} (hL : Good L) {emap : Nat → List (Option Nat)} {n : Nat} {ranks : List (List Nat)} (hr : ranks.flatten = List.range n)
    {out : List (List (Nat × Arr σ))} (hout : naive L emap ranks = some out) :
    ∃ N M, Determined L emap n N M ∧ ∀ ord : List σ, (out.map fun l => l.map fun x => vec ord x.2).flatten = (List.range n).map fun k => vec ord (N k) := by
  obtain ⟨N, M, hd, hv⟩ := naive_spec L hL emap n ranks hr out hout
  refine ⟨N, M, hd, fun ord => ?_⟩
  have hsh := run_shape L emap ranks _ out hout
  rw [← hr, ← hsh, ← List.map_flatten, ← List.map_flatten, List.map_map]
  apply List.map_congr_left
  intro x hx
  simp only [Function.comp]
  rw [(hv x hx).2]

end Mifem.Naive
