import Verif.Model.Assemblers
import Mathlib.Data.List.Perm.Basic
import Mathlib.Data.List.Nodup
import Mathlib.Data.Finset.Card
import Mathlib.Data.Finset.Range
import Mathlib.Algebra.BigOperators.Group.List.Basic

namespace Mifem.Assemblers

variable {κ R : Type} [DecidableEq κ]

/-- what the checker makes sure of. -/
theorem check_spec {G : List (κ × List Nat)} {n : Nat} (h : check G = some n) :
    0 < n ∧ (∀ p ∈ G, p.2 ≠ []) ∧ ∀ k, (∃ p ∈ G, k ∈ p.2) ↔ k < n := by
  unfold check at h
  split at h
  · simp at h
  · next hne =>
    simp only at h
    have hmem : ∀ k, (∃ p ∈ G, k ∈ p.2) ↔ k ∈ G.flatMap Prod.snd := by
      intro k; simp [List.mem_flatMap]
    generalize G.flatMap Prod.snd = all at h hmem
    split at h
    · next M m hM hm =>
      split at h
      · next hc =>
        simp only [Option.some.injEq] at h
        subst h
        refine ⟨by omega, ?_, ?_⟩
        · intro p hp h0
          apply hne
          rw [List.any_eq_true]
          exact ⟨p, hp, by simp [h0]⟩
        · intro k
          rw [hmem]
          have hle : ∀ k ∈ all, k ≤ M := fun k hk => (List.max?_eq_some_iff.mp hM).2 k hk
          constructor
          · intro hk
            have := hle k hk
            omega
          · intro hk
            have hsub : all.toFinset ⊆ Finset.range (M + 1) := by
              intro x hx
              rw [List.mem_toFinset] at hx
              have := hle x hx
              simp; omega
            have hcard : all.toFinset.card = M + 1 := by
              rw [List.card_toFinset]; exact hc.2
            have heq := Finset.eq_of_subset_of_card_le hsub (by rw [Finset.card_range, hcard])
            have : k ∈ all.toFinset := by rw [heq]; simp; omega
            simpa using this
      · simp at h
    · simp at h

theorem foldl_set_length (ps : List (Nat × R)) (out : List R) :
    (ps.foldl (fun o p => o.set p.1 p.2) out).length = out.length := by
  induction ps generalizing out with
  | nil => rfl
  | cons p ps ih => rw [List.foldl_cons, ih, List.length_set]

/-- a place that is not written keeps its value. -/
theorem foldl_set_ne (ps : List (Nat × R)) (out : List R) (k : Nat) (h : ∀ p ∈ ps, p.1 ≠ k) :
    (ps.foldl (fun o p => o.set p.1 p.2) out)[k]? = out[k]? := by
  induction ps generalizing out with
  | nil => rfl
  | cons p ps ih =>
    rw [List.foldl_cons, ih _ (fun q hq => h q (by simp [hq])), List.getElem?_set_ne (h p (by simp))]

/-- if all values written to a place are the same, the place has this value afterwards. -/
theorem foldl_set_eq (ps : List (Nat × R)) (out : List R) (k : Nat) (v : R) (hk : k < out.length)
    (h : ∀ p ∈ ps, p.1 = k → p.2 = v) (hex : ∃ p ∈ ps, p.1 = k) :
    (ps.foldl (fun o p => o.set p.1 p.2) out)[k]? = some v := by
  induction ps generalizing out with
  | nil => simp at hex
  | cons p ps ih =>
    rw [List.foldl_cons]
    by_cases hex' : ∃ q ∈ ps, q.1 = k
    · exact ih _ (by simpa using hk) (fun q hq => h q (by simp [hq])) hex'
    · rw [foldl_set_ne _ _ _ (fun q hq hqk => hex' ⟨q, hq, hqk⟩)]
      obtain ⟨q, hq, hqk⟩ := hex
      rcases List.mem_cons.mp hq with rfl | hq
      · rw [← hqk, List.getElem?_set_self (by omega), h q (by simp) hqk]
      · exact absurd ⟨q, hq, hqk⟩ hex'

theorem bcast_same (n : Nat) (vals : List R) (h : vals.length = n) : bcast n vals = some vals := by
  unfold bcast; rw [if_pos h]

theorem setAt_some (out : List R) (idx : List Nat) (vals : List R) (hb : ∀ k ∈ idx, k < out.length)
    (hl : vals.length = idx.length) : setAt out idx vals = some ((idx.zip vals).foldl (fun o p => o.set p.1 p.2) out) := by
  unfold setAt
  rw [if_pos (by simpa using hb), bcast_same _ _ hl]
  rfl

theorem addAt_some [Add R] [Zero R] (out : List R) (idx : List Nat) (vals : List R) (hb : ∀ k ∈ idx, k < out.length)
    (hl : vals.length = idx.length) :
    addAt out idx vals = some ((idx.zip ((idx.zip vals).map fun p => out.getD p.1 0 + p.2)).foldl
      (fun o p => o.set p.1 p.2) out) := by
  unfold addAt
  rw [bcast_same _ _ hl]
  simp only [Option.bind_some]
  rw [setAt_some out idx _ hb (by simp [hl])]

theorem zip_map_fst_snd {α : Type} (idx : List Nat) (vals : List α) (hl : vals.length = idx.length) (f : Nat × α → α) :
    idx.zip ((idx.zip vals).map f) = (idx.zip vals).map fun p => (p.1, f p) := by
  induction idx generalizing vals with
  | nil => simp
  | cons a idx ih =>
    cases vals with
    | nil => simp at hl
    | cons v vals => simpa using ih vals (by simpa using hl)

/-- the sum of the values at the positions of a number. -/
def contrib [AddCommMonoid R] (idx : List Nat) (vals : List R) (k : Nat) : R :=
  ((idx.zip vals).map fun p => if p.1 = k then p.2 else 0).sum

theorem contrib_not_mem [AddCommMonoid R] (idx : List Nat) (vals : List R) (k : Nat) (h : k ∉ idx) :
    contrib idx vals k = 0 := by
  unfold contrib
  apply List.sum_eq_zero
  intro x hx
  obtain ⟨p, hp, rfl⟩ := List.mem_map.mp hx
  rw [if_neg]
  rintro rfl
  exact h (List.of_mem_zip hp).1

theorem contrib_of_mem [AddCommMonoid R] (idx : List Nat) (vals : List R) (hn : idx.Nodup) (k : Nat) (v : R)
    (h : (k, v) ∈ idx.zip vals) : contrib idx vals k = v := by
  unfold contrib
  induction idx generalizing vals with
  | nil => simp at h
  | cons a idx ih =>
    cases vals with
    | nil => simp at h
    | cons w vals =>
      simp only [List.nodup_cons] at hn
      simp only [List.zip_cons_cons, List.map_cons, List.sum_cons]
      simp only [List.zip_cons_cons, List.mem_cons, Prod.mk.injEq] at h
      rcases h with ⟨rfl, rfl⟩ | h
      · have := contrib_not_mem idx vals k hn.1
        unfold contrib at this
        rw [this]
        simp
      · rw [if_neg, ih vals hn.2 h, zero_add]
        rintro rfl
        exact hn.1 (List.of_mem_zip h).1

theorem addAt_spec [AddCommMonoid R] (out : List R) (idx : List Nat) (vals : List R) (hb : ∀ k ∈ idx, k < out.length)
    (hl : vals.length = idx.length) (hn : idx.Nodup) :
    ∃ o, addAt out idx vals = some o ∧ o.length = out.length ∧
      ∀ k, o.getD k 0 = out.getD k 0 + contrib idx vals k := by
  refine ⟨_, addAt_some out idx vals hb hl, foldl_set_length _ _, ?_⟩
  intro k
  rw [zip_map_fst_snd idx vals hl]
  by_cases hk : k ∈ idx
  · have : k ∈ (idx.zip vals).map Prod.fst := by
      rw [List.map_fst_zip (by omega)]; exact hk
    obtain ⟨⟨k', v⟩, hp, hkk⟩ := List.mem_map.mp this
    simp only at hkk
    subst hkk
    rw [contrib_of_mem idx vals hn k' v hp]
    have huniq : ∀ w, (k', w) ∈ idx.zip vals → w = v := by
      intro w hw
      rw [← contrib_of_mem idx vals hn k' w hw, contrib_of_mem idx vals hn k' v hp]
    have := foldl_set_eq ((idx.zip vals).map fun p => (p.1, out.getD p.1 0 + p.2)) out k' (out.getD k' 0 + v)
      (hb k' hk) (by
        intro p hp' hpk
        obtain ⟨⟨a, w⟩, haw, rfl⟩ := List.mem_map.mp hp'
        simp only at hpk ⊢
        subst hpk
        rw [huniq w haw]) ⟨(k', out.getD k' 0 + v), List.mem_map.mpr ⟨(k', v), hp, rfl⟩, rfl⟩
    rw [List.getD_eq_getElem?_getD, this]
    rfl
  · rw [contrib_not_mem idx vals k hk, add_zero]
    rw [List.getD_eq_getElem?_getD, foldl_set_ne, ← List.getD_eq_getElem?_getD]
    intro p hp
    obtain ⟨q, hq, rfl⟩ := List.mem_map.mp hp
    rintro rfl
    exact hk (List.of_mem_zip hq).1

end Mifem.Assemblers
