import Verif.Model.Hybrid
import Verif.Props.Trace

/-! Lemmas on the tables and the replacements of hybrid pairings. -/

namespace Mifem.Hybrid
open Mifem Mifem.Props

theorem ravelF_get {a b : Nat} {f : Nat → Nat → Nat} {i j : Nat} (hi : i < a) (hj : j < b) :
    (ravelF a b f)[fIdx2 a i j]? = some (f i j) := by
  unfold ravelF fIdx2
  induction b with
  | zero => omega
  | succ b ih =>
    rw [List.range_succ, List.flatMap_append]
    have hlen : ((List.range b).flatMap fun j => (List.range a).map fun i => f i j).length = a * b := by
      simp [List.length_flatMap, Nat.mul_comm]
    by_cases h : j < b
    · rw [List.getElem?_append_left]
      · exact ih h
      · rw [hlen]
        calc i + a * j < a + a * j := by omega
          _ = a * (j+1) := by ring
          _ ≤ a * b := Nat.mul_le_mul_left _ h
    · have : j = b := by omega
      subst this
      rw [List.getElem?_append_right (by rw [hlen]; omega), hlen]
      simp [hi]

theorem fIdx2_lt' {a b i j : Nat} (hi : i < a) (hj : j < b) : fIdx2 a i j < a * b := by
  unfold fIdx2
  calc i + a * j < a + a * j := by omega
    _ = a * (j+1) := by ring
    _ ≤ a * b := Nat.mul_le_mul_left _ hj

/-- entries of a trace matrix, from what it does to cochains. -/
theorem trace_entry {σ : Type} (dofs : σ → List Nat) (signs : List (σ × Int)) {n : Nat}
    (hlt : ∀ s, ∀ d ∈ dofs s, d < n) (i : Nat) (hi : i < signs.length) (k d : Nat)
    (hk : (dofs signs[i].1)[k]? = some d) (c : Nat) (hc : c < n) :
    matOf (traceAux dofs 0 signs) (blockStart dofs signs i + k) c = if c = d then signs[i].2 else 0 := by
  obtain ⟨hk', hd⟩ := List.getElem?_eq_some_iff.1 hk
  have hT := applyM_trace (R := ℤ) dofs signs rfl hlt (fun x => if x = c then 1 else 0)
  have hb := block_of_trace (R := ℤ) rfl hT i hi k hk'
  rw [hd] at hb
  have : applyM n (matOf (traceAux dofs 0 signs)) (fun x => if x = c then (1:ℤ) else 0) (blockStart dofs signs i + k)
      = matOf (traceAux dofs 0 signs) (blockStart dofs signs i + k) c := by
    unfold applyM
    rw [Finset.sum_eq_single c]
    · simp
    · intro x _ hx; simp [hx]
    · intro h; exact absurd (Finset.mem_range.2 hc) h
  rw [← this, hb]
  by_cases h : c = d
  · simp [h]
  · have : d ≠ c := fun e => h e.symm
    simp [h, this]

/-- row `r` of `E` is `v` times the unit vector of `s`, among the first `n` columns. -/
def Unit (E : Nat → Nat → Int) (n : Nat) (v : Int) (r s : Nat) : Prop := ∀ c < n, E r c = if c = s then v else 0

theorem row_unit {E : Nat → Nat → Int} {n : Nat} {v : Int} {f : Nat → Nat → Nat} {a b off i0 : Nat} (h0 : i0 < a)
    (h : ∀ i < a, ∀ j < b, Unit E n v (off + fIdx2 a i j) (f i j)) :
    List.Forall₂ (Unit E n v) ((rowF a b i0).map (· + off)) ((List.range b).map fun j => f i0 j) := by
  rw [rowF, List.map_map, List.forall₂_map_left_iff, List.forall₂_map_right_iff, List.forall₂_same]
  intro j hj
  have := h i0 h0 j (List.mem_range.1 hj)
  rw [Nat.add_comm] at this
  exact this

theorem col_unit {E : Nat → Nat → Int} {n : Nat} {v : Int} {f : Nat → Nat → Nat} {a b off j0 : Nat} (h0 : j0 < b)
    (h : ∀ i < a, ∀ j < b, Unit E n v (off + fIdx2 a i j) (f i j)) :
    List.Forall₂ (Unit E n v) ((colF a b j0).map (· + off)) ((List.range a).map fun i => f i j0) := by
  rw [colF, List.map_map, List.forall₂_map_left_iff, List.forall₂_map_right_iff, List.forall₂_same]
  intro i hi
  have := h i (List.mem_range.1 hi) j0 h0
  rw [Nat.add_comm] at this
  exact this

theorem row_unit2 {E : Nat → Nat → Int} {n : Nat} {v : Int} {f : Nat → Nat → Nat} {a b off off2 i0 : Nat} (h0 : i0 < a)
    (h : ∀ i < a, ∀ j < b, Unit E n v (off + (off2 + fIdx2 a i j)) (f i j)) :
    List.Forall₂ (Unit E n v) (((rowF a b i0).map (· + off2)).map (· + off)) ((List.range b).map fun j => f i0 j) := by
  rw [rowF, List.map_map, List.map_map, List.forall₂_map_left_iff, List.forall₂_map_right_iff, List.forall₂_same]
  intro j hj
  have := h i0 h0 j (List.mem_range.1 hj)
  rw [Nat.add_comm, Nat.add_comm off2] at this
  exact this

/-- rows of the 0-trace belonging to a side. -/
theorem unit0 (p0 p1 p2 : Nat) (s : Three.Side) {a b : Nat} {f : Nat → Nat → Nat}
    (hs : Three.dofs0 p0 p1 p2 s = ravelF a b f) : ∀ i < a, ∀ j < b,
    Unit (Three.trace0 p0 p1 p2) (Three.nb0 p0 p1 p2) (outward3 s)
      (offset (nNS0 p0 p1 p2) (nWE0 p0 p1 p2) (nBF0 p0 p1 p2) s + fIdx2 a i j) (f i j) := by
  intro i hi j hj c hc
  have key := fun (q : Nat) (hq : q < Three.sideSigns.length) (h : (Three.dofs0 p0 p1 p2 Three.sideSigns[q].1)[fIdx2 a i j]?
      = some (f i j)) => trace_entry (Three.dofs0 p0 p1 p2) Three.sideSigns (dofs0_lt p0 p1 p2) q hq (fIdx2 a i j) (f i j) h c hc
  have hg : (Three.dofs0 p0 p1 p2 s)[fIdx2 a i j]? = some (f i j) := by rw [hs]; exact ravelF_get hi hj
  unfold Three.trace0
  cases s
  · have := key 0 (by decide) hg
    simpa [blockStart, offset, Three.sideSigns, outward3] using this
  · have := key 1 (by decide) hg
    simpa [blockStart, offset, Three.sideSigns, outward3, Three.dofs0, ravelF_length, nNS0] using this
  · have := key 2 (by decide) hg
    rw [show blockStart (Three.dofs0 p0 p1 p2) Three.sideSigns 2 = offset (nNS0 p0 p1 p2) (nWE0 p0 p1 p2) (nBF0 p0 p1 p2) .W by
      simp [blockStart, offset, Three.sideSigns, Three.dofs0, ravelF_length, nNS0]; ring] at this
    exact this
  · have := key 3 (by decide) hg
    rw [show blockStart (Three.dofs0 p0 p1 p2) Three.sideSigns 3 = offset (nNS0 p0 p1 p2) (nWE0 p0 p1 p2) (nBF0 p0 p1 p2) .E by
      simp [blockStart, offset, Three.sideSigns, Three.dofs0, ravelF_length, nNS0, nWE0]; ring] at this
    exact this
  · have := key 4 (by decide) hg
    rw [show blockStart (Three.dofs0 p0 p1 p2) Three.sideSigns 4 = offset (nNS0 p0 p1 p2) (nWE0 p0 p1 p2) (nBF0 p0 p1 p2) .B by
      simp [blockStart, offset, Three.sideSigns, Three.dofs0, ravelF_length, nNS0, nWE0]; ring] at this
    exact this
  · have := key 5 (by decide) hg
    rw [show blockStart (Three.dofs0 p0 p1 p2) Three.sideSigns 5 = offset (nNS0 p0 p1 p2) (nWE0 p0 p1 p2) (nBF0 p0 p1 p2) .F by
      simp [blockStart, offset, Three.sideSigns, Three.dofs0, ravelF_length, nNS0, nWE0, nBF0]; ring] at this
    exact this

/-- rows of the 1-trace belonging to a side, by place in the list of its dofs. -/
theorem unit1 (p0 p1 p2 : Nat) (s : Three.Side) (k d : Nat) (hg : (Three.dofs1 p0 p1 p2 s)[k]? = some d) :
    Unit (Three.trace1 p0 p1 p2) (Three.nb1 p0 p1 p2) (outward3 s)
      (offset (nNS1 p0 p1 p2) (nWE1 p0 p1 p2) (nBF1 p0 p1 p2) s + k) d := by
  intro c hc
  have key := fun (q : Nat) (hq : q < Three.sideSigns.length) (h : (Three.dofs1 p0 p1 p2 Three.sideSigns[q].1)[k]?
      = some d) => trace_entry (Three.dofs1 p0 p1 p2) Three.sideSigns (dofs1_lt p0 p1 p2) q hq k d h c hc
  unfold Three.trace1
  cases s
  · have := key 0 (by decide) hg
    simpa [blockStart, offset, Three.sideSigns, outward3] using this
  · have := key 1 (by decide) hg
    simpa [blockStart, offset, Three.sideSigns, outward3, Three.dofs1, ravelF_length, nNS1] using this
  · have := key 2 (by decide) hg
    rw [show blockStart (Three.dofs1 p0 p1 p2) Three.sideSigns 2 = offset (nNS1 p0 p1 p2) (nWE1 p0 p1 p2) (nBF1 p0 p1 p2) .W by
      simp [blockStart, offset, Three.sideSigns, Three.dofs1, ravelF_length, nNS1]; ring] at this
    exact this
  · have := key 3 (by decide) hg
    rw [show blockStart (Three.dofs1 p0 p1 p2) Three.sideSigns 3 = offset (nNS1 p0 p1 p2) (nWE1 p0 p1 p2) (nBF1 p0 p1 p2) .E by
      simp [blockStart, offset, Three.sideSigns, Three.dofs1, ravelF_length, nNS1, nWE1]; ring] at this
    exact this
  · have := key 4 (by decide) hg
    rw [show blockStart (Three.dofs1 p0 p1 p2) Three.sideSigns 4 = offset (nNS1 p0 p1 p2) (nWE1 p0 p1 p2) (nBF1 p0 p1 p2) .B by
      simp [blockStart, offset, Three.sideSigns, Three.dofs1, ravelF_length, nNS1, nWE1]; ring] at this
    exact this
  · have := key 5 (by decide) hg
    rw [show blockStart (Three.dofs1 p0 p1 p2) Three.sideSigns 5 = offset (nNS1 p0 p1 p2) (nWE1 p0 p1 p2) (nBF1 p0 p1 p2) .F by
      simp [blockStart, offset, Three.sideSigns, Three.dofs1, ravelF_length, nNS1, nWE1, nBF1]; ring] at this
    exact this

theorem unit1a (p0 p1 p2 : Nat) (s : Three.Side) {a b : Nat} {f : Nat → Nat → Nat} {l : List Nat}
    (hs : Three.dofs1 p0 p1 p2 s = ravelF a b f ++ l) : ∀ i < a, ∀ j < b,
    Unit (Three.trace1 p0 p1 p2) (Three.nb1 p0 p1 p2) (outward3 s)
      (offset (nNS1 p0 p1 p2) (nWE1 p0 p1 p2) (nBF1 p0 p1 p2) s + fIdx2 a i j) (f i j) := by
  intro i hi j hj
  apply unit1
  rw [hs, List.getElem?_append_left (by rw [ravelF_length]; exact fIdx2_lt' hi hj)]
  exact ravelF_get hi hj

theorem unit1b (p0 p1 p2 : Nat) (s : Three.Side) {a b a' b' : Nat} {f f' : Nat → Nat → Nat}
    (hs : Three.dofs1 p0 p1 p2 s = ravelF a' b' f' ++ ravelF a b f) : ∀ i < a, ∀ j < b,
    Unit (Three.trace1 p0 p1 p2) (Three.nb1 p0 p1 p2) (outward3 s)
      (offset (nNS1 p0 p1 p2) (nWE1 p0 p1 p2) (nBF1 p0 p1 p2) s + (a' * b' + fIdx2 a i j)) (f i j) := by
  intro i hi j hj
  apply unit1
  rw [hs, List.getElem?_append_right (by rw [ravelF_length]; omega), ravelF_length, Nat.add_sub_cancel_left]
  exact ravelF_get hi hj

theorem l01 {p0 p1 p2 i j k i' j' k' : Nat} (hi : i < p0) (hj : j < p1+1) (hk : k < p2+1) (hi' : i' < p0+1) (hj' : j' < p1)
    (hk' : k' < p2+1) (h : Three.ln1c0 p0 p1 p2 i j k = Three.ln1c1 p0 p1 p2 i' j' k') : False := by
  have a := Three.ln1c0_bd hi hj hk
  have b := Three.ln1c1_bd hi' hj' hk'
  omega
theorem l02 {p0 p1 p2 i j k i' j' k' : Nat} (hi : i < p0) (hj : j < p1+1) (hk : k < p2+1) (hi' : i' < p0+1) (hj' : j' < p1+1)
    (hk' : k' < p2) (h : Three.ln1c0 p0 p1 p2 i j k = Three.ln1c2 p0 p1 p2 i' j' k') : False := by
  have a := Three.ln1c0_bd hi hj hk
  have b := Three.ln1c2_bd hi' hj' hk'
  omega
theorem l12 {p0 p1 p2 i j k i' j' k' : Nat} (hi : i < p0+1) (hj : j < p1) (hk : k < p2+1) (hi' : i' < p0+1) (hj' : j' < p1+1)
    (hk' : k' < p2) (h : Three.ln1c1 p0 p1 p2 i j k = Three.ln1c2 p0 p1 p2 i' j' k') : False := by
  have a := Three.ln1c1_bd hi hj hk
  have b := Three.ln1c2_bd hi' hj' hk'
  omega

end Mifem.Hybrid
