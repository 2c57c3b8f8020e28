import Verif.Lemmas.Incidence

/-! Row formulas of the 3D incidence matrices. -/

namespace Mifem.Three
open Mifem

variable {R : Type*} [Ring R] {p0 p1 p2 : Nat}

theorem ln0_bd {i j k : Nat} (hi : i < p0 + 1) (hj : j < p1 + 1) (hk : k < p2 + 1) :
    0 ≤ ln0 p0 p1 p2 i j k ∧ ln0 p0 p1 p2 i j k < nb0 p0 p1 p2 := by
  have := fIdx3_lt (c := p2 + 1) hi hj hk
  unfold ln0 nb0; omega
theorem ln0_inj {i j k i' j' k' : Nat} (hi : i < p0 + 1) (hj : j < p1 + 1) (hi' : i' < p0 + 1) (hj' : j' < p1 + 1)
    (e : ln0 p0 p1 p2 i' j' k' = ln0 p0 p1 p2 i j k) : i' = i ∧ j' = j ∧ k' = k := fIdx3_inj hi hi' hj hj' e
theorem ln1c0_bd {i j k : Nat} (hi : i < p0) (hj : j < p1 + 1) (hk : k < p2 + 1) :
    0 ≤ ln1c0 p0 p1 p2 i j k ∧ ln1c0 p0 p1 p2 i j k < nb1c0 p0 p1 p2 := by
  have := fIdx3_lt (c := p2 + 1) hi hj hk
  unfold ln1c0 nb1c0; omega
theorem ln1c0_inj {i j k i' j' k' : Nat} (hi : i < p0) (hj : j < p1 + 1) (hi' : i' < p0) (hj' : j' < p1 + 1)
    (e : ln1c0 p0 p1 p2 i' j' k' = ln1c0 p0 p1 p2 i j k) : i' = i ∧ j' = j ∧ k' = k := fIdx3_inj hi hi' hj hj' e
theorem ln1c1_bd {i j k : Nat} (hi : i < p0 + 1) (hj : j < p1) (hk : k < p2 + 1) :
    nb1c0 p0 p1 p2 ≤ ln1c1 p0 p1 p2 i j k ∧ ln1c1 p0 p1 p2 i j k < (nb1c0 p0 p1 p2 + nb1c1 p0 p1 p2) := by
  have := fIdx3_lt (c := p2 + 1) hi hj hk
  unfold ln1c1 nb1c1; omega
theorem ln1c1_inj {i j k i' j' k' : Nat} (hi : i < p0 + 1) (hj : j < p1) (hi' : i' < p0 + 1) (hj' : j' < p1)
    (e : ln1c1 p0 p1 p2 i' j' k' = ln1c1 p0 p1 p2 i j k) : i' = i ∧ j' = j ∧ k' = k := fIdx3_inj hi hi' hj hj' (Nat.add_right_cancel e)
theorem ln1c2_bd {i j k : Nat} (hi : i < p0 + 1) (hj : j < p1 + 1) (hk : k < p2) :
    (nb1c0 p0 p1 p2 + nb1c1 p0 p1 p2) ≤ ln1c2 p0 p1 p2 i j k ∧ ln1c2 p0 p1 p2 i j k < nb1 p0 p1 p2 := by
  have := fIdx3_lt (c := p2) hi hj hk
  unfold ln1c2 nb1 nb1c2; omega
theorem ln1c2_inj {i j k i' j' k' : Nat} (hi : i < p0 + 1) (hj : j < p1 + 1) (hi' : i' < p0 + 1) (hj' : j' < p1 + 1)
    (e : ln1c2 p0 p1 p2 i' j' k' = ln1c2 p0 p1 p2 i j k) : i' = i ∧ j' = j ∧ k' = k := fIdx3_inj hi hi' hj hj' (Nat.add_right_cancel e)
theorem ln2c0_bd {i j k : Nat} (hi : i < p0 + 1) (hj : j < p1) (hk : k < p2) :
    0 ≤ ln2c0 p0 p1 p2 i j k ∧ ln2c0 p0 p1 p2 i j k < nb2c0 p0 p1 p2 := by
  have := fIdx3_lt (c := p2) hi hj hk
  unfold ln2c0 nb2c0; omega
theorem ln2c0_inj {i j k i' j' k' : Nat} (hi : i < p0 + 1) (hj : j < p1) (hi' : i' < p0 + 1) (hj' : j' < p1)
    (e : ln2c0 p0 p1 p2 i' j' k' = ln2c0 p0 p1 p2 i j k) : i' = i ∧ j' = j ∧ k' = k := fIdx3_inj hi hi' hj hj' e
theorem ln2c1_bd {i j k : Nat} (hi : i < p0) (hj : j < p1 + 1) (hk : k < p2) :
    nb2c0 p0 p1 p2 ≤ ln2c1 p0 p1 p2 i j k ∧ ln2c1 p0 p1 p2 i j k < (nb2c0 p0 p1 p2 + nb2c1 p0 p1 p2) := by
  have := fIdx3_lt (c := p2) hi hj hk
  unfold ln2c1 nb2c1; omega
theorem ln2c1_inj {i j k i' j' k' : Nat} (hi : i < p0) (hj : j < p1 + 1) (hi' : i' < p0) (hj' : j' < p1 + 1)
    (e : ln2c1 p0 p1 p2 i' j' k' = ln2c1 p0 p1 p2 i j k) : i' = i ∧ j' = j ∧ k' = k := fIdx3_inj hi hi' hj hj' (Nat.add_right_cancel e)
theorem ln2c2_bd {i j k : Nat} (hi : i < p0) (hj : j < p1) (hk : k < p2 + 1) :
    (nb2c0 p0 p1 p2 + nb2c1 p0 p1 p2) ≤ ln2c2 p0 p1 p2 i j k ∧ ln2c2 p0 p1 p2 i j k < nb2 p0 p1 p2 := by
  have := fIdx3_lt (c := p2 + 1) hi hj hk
  unfold ln2c2 nb2 nb2c2; omega
theorem ln2c2_inj {i j k i' j' k' : Nat} (hi : i < p0) (hj : j < p1) (hi' : i' < p0) (hj' : j' < p1)
    (e : ln2c2 p0 p1 p2 i' j' k' = ln2c2 p0 p1 p2 i j k) : i' = i ∧ j' = j ∧ k' = k := fIdx3_inj hi hi' hj hj' (Nat.add_right_cancel e)
theorem ln3_bd {i j k : Nat} (hi : i < p0) (hj : j < p1) (hk : k < p2) :
    0 ≤ ln3 p0 p1 p2 i j k ∧ ln3 p0 p1 p2 i j k < nb3 p0 p1 p2 := by
  have := fIdx3_lt (c := p2) hi hj hk
  unfold ln3 nb3; omega
theorem ln3_inj {i j k i' j' k' : Nat} (hi : i < p0) (hj : j < p1) (hi' : i' < p0) (hj' : j' < p1)
    (e : ln3 p0 p1 p2 i' j' k' = ln3 p0 p1 p2 i j k) : i' = i ∧ j' = j ∧ k' = k := fIdx3_inj hi hi' hj hj' e

theorem ln0_cases {r : Nat} (h : r < nb0 p0 p1 p2) :
    ∃ i j k, i < p0 + 1 ∧ j < p1 + 1 ∧ k < p2 + 1 ∧ ln0 p0 p1 p2 i j k = r := fIdx3_surj h
theorem ln3_cases {r : Nat} (h : r < nb3 p0 p1 p2) :
    ∃ i j k, i < p0 ∧ j < p1 ∧ k < p2 ∧ ln3 p0 p1 p2 i j k = r := fIdx3_surj h
theorem ln1_cases {r : Nat} (h : r < nb1 p0 p1 p2) :
    (∃ i j k, i < p0 ∧ j < p1 + 1 ∧ k < p2 + 1 ∧ ln1c0 p0 p1 p2 i j k = r) ∨
    (∃ i j k, i < p0 + 1 ∧ j < p1 ∧ k < p2 + 1 ∧ ln1c1 p0 p1 p2 i j k = r) ∨
    (∃ i j k, i < p0 + 1 ∧ j < p1 + 1 ∧ k < p2 ∧ ln1c2 p0 p1 p2 i j k = r) := by
  by_cases h0 : r < nb1c0 p0 p1 p2
  · left
    obtain ⟨i, j, k, hi, hj, hk, e⟩ := fIdx3_surj h0
    exact ⟨i, j, k, hi, hj, hk, e⟩
  · by_cases h1 : r < nb1c0 p0 p1 p2 + nb1c1 p0 p1 p2
    · right; left
      have : r - nb1c0 p0 p1 p2 < nb1c1 p0 p1 p2 := by omega
      obtain ⟨i, j, k, hi, hj, hk, e⟩ := fIdx3_surj this
      exact ⟨i, j, k, hi, hj, hk, by unfold ln1c1; omega⟩
    · right; right
      have : r - (nb1c0 p0 p1 p2 + nb1c1 p0 p1 p2) < nb1c2 p0 p1 p2 := by unfold nb1 at h; omega
      obtain ⟨i, j, k, hi, hj, hk, e⟩ := fIdx3_surj this
      exact ⟨i, j, k, hi, hj, hk, by unfold ln1c2; omega⟩
theorem ln2_cases {r : Nat} (h : r < nb2 p0 p1 p2) :
    (∃ i j k, i < p0 + 1 ∧ j < p1 ∧ k < p2 ∧ ln2c0 p0 p1 p2 i j k = r) ∨
    (∃ i j k, i < p0 ∧ j < p1 + 1 ∧ k < p2 ∧ ln2c1 p0 p1 p2 i j k = r) ∨
    (∃ i j k, i < p0 ∧ j < p1 ∧ k < p2 + 1 ∧ ln2c2 p0 p1 p2 i j k = r) := by
  by_cases h0 : r < nb2c0 p0 p1 p2
  · left
    obtain ⟨i, j, k, hi, hj, hk, e⟩ := fIdx3_surj h0
    exact ⟨i, j, k, hi, hj, hk, e⟩
  · by_cases h1 : r < nb2c0 p0 p1 p2 + nb2c1 p0 p1 p2
    · right; left
      have : r - nb2c0 p0 p1 p2 < nb2c1 p0 p1 p2 := by omega
      obtain ⟨i, j, k, hi, hj, hk, e⟩ := fIdx3_surj this
      exact ⟨i, j, k, hi, hj, hk, by unfold ln2c1; omega⟩
    · right; right
      have : r - (nb2c0 p0 p1 p2 + nb2c1 p0 p1 p2) < nb2c2 p0 p1 p2 := by unfold nb2 at h; omega
      obtain ⟨i, j, k, hi, hj, hk, e⟩ := fIdx3_surj this
      exact ⟨i, j, k, hi, hj, hk, by unfold ln2c2; omega⟩

theorem grad_c0 (x : Nat → R) {i j k : Nat} (hi : i < p0) (hj : j < p1 + 1) (hk : k < p2 + 1) :
    applyM (nb0 p0 p1 p2) (grad p0 p1 p2) x (ln1c0 p0 p1 p2 i j k)
      = (x (ln0 p0 p1 p2 (i+1) j k)) - (x (ln0 p0 p1 p2 i j k)) := by
  have hrow : (gradW p0 p1 p2).filter (fun w => w.r = ln1c0 p0 p1 p2 i j k)
      = [⟨ln1c0 p0 p1 p2 i j k, ln0 p0 p1 p2 i j k, -1⟩, ⟨ln1c0 p0 p1 p2 i j k, ln0 p0 p1 p2 (i+1) j k, 1⟩] := by
    have hn1 := fun (i' j' k' : Nat) hi' hj' hk' => ln1c1_bd (p0 := p0) (p1 := p1) (p2 := p2) (i := i') (j := j') (k := k') hi' hj' hk'
    have hn2 := fun (i' j' k' : Nat) hi' hj' hk' => ln1c2_bd (p0 := p0) (p1 := p1) (p2 := p2) (i := i') (j := j') (k := k') hi' hj' hk'
    have hb := ln1c0_bd hi hj hk
    unfold nb1 at *
    unfold gradW
    rw [List.filter_append, List.filter_append, filter_loop3_of (R := fun i j k => ln1c0 p0 p1 p2 i j k) (by simp) hi hj hk
      (fun i' j' k' hi' hj' _ e => ln1c0_inj hi hj hi' hj' e), filter_loop3_nil, filter_loop3_nil, List.append_nil, List.append_nil]
    · intro i' j' k' hi' hj' hk' w hw
      first
      | have := hn1 i' j' k' hi' hj' hk'
        simp at hw; rcases hw with rfl | rfl <;> simp <;> omega
      | have := hn2 i' j' k' hi' hj' hk'
        simp at hw; rcases hw with rfl | rfl <;> simp <;> omega
    · intro i' j' k' hi' hj' hk' w hw
      first
      | have := hn2 i' j' k' hi' hj' hk'
        simp at hw; rcases hw with rfl | rfl <;> simp <;> omega
      | have := hn1 i' j' k' hi' hj' hk'
        simp at hw; rcases hw with rfl | rfl <;> simp <;> omega
  have b0 := ln0_bd (p0 := p0) (p1 := p1) (p2 := p2) (i := i) (j := j) (k := k) (by omega) (by omega) (by omega)
  have b1 := ln0_bd (p0 := p0) (p1 := p1) (p2 := p2) (i := i+1) (j := j) (k := k) (by omega) (by omega) (by omega)
  have e0 : ln0 p0 p1 p2 i j k ≠ ln0 p0 p1 p2 (i+1) j k := by
    intro h; have := ln0_inj (p0 := p0) (p1 := p1) (p2 := p2) (by omega) (by omega) (by omega) (by omega) h; omega
  unfold grad
  rw [applyM_row x hrow (by simp)]
  · simp; abel
  · simp; omega
  · simp; omega

theorem grad_c1 (x : Nat → R) {i j k : Nat} (hi : i < p0 + 1) (hj : j < p1) (hk : k < p2 + 1) :
    applyM (nb0 p0 p1 p2) (grad p0 p1 p2) x (ln1c1 p0 p1 p2 i j k)
      = (x (ln0 p0 p1 p2 i (j+1) k)) - (x (ln0 p0 p1 p2 i j k)) := by
  have hrow : (gradW p0 p1 p2).filter (fun w => w.r = ln1c1 p0 p1 p2 i j k)
      = [⟨ln1c1 p0 p1 p2 i j k, ln0 p0 p1 p2 i j k, -1⟩, ⟨ln1c1 p0 p1 p2 i j k, ln0 p0 p1 p2 i (j+1) k, 1⟩] := by
    have hn0 := fun (i' j' k' : Nat) hi' hj' hk' => ln1c0_bd (p0 := p0) (p1 := p1) (p2 := p2) (i := i') (j := j') (k := k') hi' hj' hk'
    have hn2 := fun (i' j' k' : Nat) hi' hj' hk' => ln1c2_bd (p0 := p0) (p1 := p1) (p2 := p2) (i := i') (j := j') (k := k') hi' hj' hk'
    have hb := ln1c1_bd hi hj hk
    unfold nb1 at *
    unfold gradW
    rw [List.filter_append, List.filter_append, filter_loop3_nil, filter_loop3_of (R := fun i j k => ln1c1 p0 p1 p2 i j k) (by simp) hi hj hk
      (fun i' j' k' hi' hj' _ e => ln1c1_inj hi hj hi' hj' e), filter_loop3_nil, List.nil_append, List.append_nil]
    · intro i' j' k' hi' hj' hk' w hw
      first
      | have := hn0 i' j' k' hi' hj' hk'
        simp at hw; rcases hw with rfl | rfl <;> simp <;> omega
      | have := hn2 i' j' k' hi' hj' hk'
        simp at hw; rcases hw with rfl | rfl <;> simp <;> omega
    · intro i' j' k' hi' hj' hk' w hw
      first
      | have := hn2 i' j' k' hi' hj' hk'
        simp at hw; rcases hw with rfl | rfl <;> simp <;> omega
      | have := hn0 i' j' k' hi' hj' hk'
        simp at hw; rcases hw with rfl | rfl <;> simp <;> omega
  have b0 := ln0_bd (p0 := p0) (p1 := p1) (p2 := p2) (i := i) (j := j) (k := k) (by omega) (by omega) (by omega)
  have b1 := ln0_bd (p0 := p0) (p1 := p1) (p2 := p2) (i := i) (j := j+1) (k := k) (by omega) (by omega) (by omega)
  have e0 : ln0 p0 p1 p2 i j k ≠ ln0 p0 p1 p2 i (j+1) k := by
    intro h; have := ln0_inj (p0 := p0) (p1 := p1) (p2 := p2) (by omega) (by omega) (by omega) (by omega) h; omega
  unfold grad
  rw [applyM_row x hrow (by simp)]
  · simp; abel
  · simp; omega
  · simp; omega

theorem grad_c2 (x : Nat → R) {i j k : Nat} (hi : i < p0 + 1) (hj : j < p1 + 1) (hk : k < p2) :
    applyM (nb0 p0 p1 p2) (grad p0 p1 p2) x (ln1c2 p0 p1 p2 i j k)
      = (x (ln0 p0 p1 p2 i j (k+1))) - (x (ln0 p0 p1 p2 i j k)) := by
  have hrow : (gradW p0 p1 p2).filter (fun w => w.r = ln1c2 p0 p1 p2 i j k)
      = [⟨ln1c2 p0 p1 p2 i j k, ln0 p0 p1 p2 i j k, -1⟩, ⟨ln1c2 p0 p1 p2 i j k, ln0 p0 p1 p2 i j (k+1), 1⟩] := by
    have hn0 := fun (i' j' k' : Nat) hi' hj' hk' => ln1c0_bd (p0 := p0) (p1 := p1) (p2 := p2) (i := i') (j := j') (k := k') hi' hj' hk'
    have hn1 := fun (i' j' k' : Nat) hi' hj' hk' => ln1c1_bd (p0 := p0) (p1 := p1) (p2 := p2) (i := i') (j := j') (k := k') hi' hj' hk'
    have hb := ln1c2_bd hi hj hk
    unfold nb1 at *
    unfold gradW
    rw [List.filter_append, List.filter_append, filter_loop3_nil, filter_loop3_nil, filter_loop3_of (R := fun i j k => ln1c2 p0 p1 p2 i j k) (by simp) hi hj hk
      (fun i' j' k' hi' hj' _ e => ln1c2_inj hi hj hi' hj' e), List.nil_append, List.nil_append]
    · intro i' j' k' hi' hj' hk' w hw
      first
      | have := hn0 i' j' k' hi' hj' hk'
        simp at hw; rcases hw with rfl | rfl <;> simp <;> omega
      | have := hn1 i' j' k' hi' hj' hk'
        simp at hw; rcases hw with rfl | rfl <;> simp <;> omega
    · intro i' j' k' hi' hj' hk' w hw
      first
      | have := hn1 i' j' k' hi' hj' hk'
        simp at hw; rcases hw with rfl | rfl <;> simp <;> omega
      | have := hn0 i' j' k' hi' hj' hk'
        simp at hw; rcases hw with rfl | rfl <;> simp <;> omega
  have b0 := ln0_bd (p0 := p0) (p1 := p1) (p2 := p2) (i := i) (j := j) (k := k) (by omega) (by omega) (by omega)
  have b1 := ln0_bd (p0 := p0) (p1 := p1) (p2 := p2) (i := i) (j := j) (k := k+1) (by omega) (by omega) (by omega)
  have e0 : ln0 p0 p1 p2 i j k ≠ ln0 p0 p1 p2 i j (k+1) := by
    intro h; have := ln0_inj (p0 := p0) (p1 := p1) (p2 := p2) (by omega) (by omega) (by omega) (by omega) h; omega
  unfold grad
  rw [applyM_row x hrow (by simp)]
  · simp; abel
  · simp; omega
  · simp; omega

theorem curl_c0 (x : Nat → R) {i j k : Nat} (hi : i < p0 + 1) (hj : j < p1) (hk : k < p2) :
    applyM (nb1 p0 p1 p2) (curl p0 p1 p2) x (ln2c0 p0 p1 p2 i j k)
      = (x (ln1c1 p0 p1 p2 i j k) + x (ln1c2 p0 p1 p2 i (j+1) k)) - (x (ln1c1 p0 p1 p2 i j (k+1)) + x (ln1c2 p0 p1 p2 i j k)) := by
  have hrow : (curlW p0 p1 p2).filter (fun w => w.r = ln2c0 p0 p1 p2 i j k)
      = [⟨ln2c0 p0 p1 p2 i j k, ln1c1 p0 p1 p2 i j k, 1⟩, ⟨ln2c0 p0 p1 p2 i j k, ln1c1 p0 p1 p2 i j (k+1), -1⟩, ⟨ln2c0 p0 p1 p2 i j k, ln1c2 p0 p1 p2 i j k, -1⟩, ⟨ln2c0 p0 p1 p2 i j k, ln1c2 p0 p1 p2 i (j+1) k, 1⟩] := by
    have hn1 := fun (i' j' k' : Nat) hi' hj' hk' => ln2c1_bd (p0 := p0) (p1 := p1) (p2 := p2) (i := i') (j := j') (k := k') hi' hj' hk'
    have hn2 := fun (i' j' k' : Nat) hi' hj' hk' => ln2c2_bd (p0 := p0) (p1 := p1) (p2 := p2) (i := i') (j := j') (k := k') hi' hj' hk'
    have hb := ln2c0_bd hi hj hk
    unfold nb2 at *
    unfold curlW
    rw [List.filter_append, List.filter_append, filter_loop3_of (R := fun i j k => ln2c0 p0 p1 p2 i j k) (by simp) hi hj hk
      (fun i' j' k' hi' hj' _ e => ln2c0_inj hi hj hi' hj' e), filter_loop3_nil, filter_loop3_nil, List.append_nil, List.append_nil]
    · intro i' j' k' hi' hj' hk' w hw
      first
      | have := hn1 i' j' k' hi' hj' hk'
        simp at hw; rcases hw with rfl | rfl | rfl | rfl <;> simp <;> omega
      | have := hn2 i' j' k' hi' hj' hk'
        simp at hw; rcases hw with rfl | rfl | rfl | rfl <;> simp <;> omega
    · intro i' j' k' hi' hj' hk' w hw
      first
      | have := hn2 i' j' k' hi' hj' hk'
        simp at hw; rcases hw with rfl | rfl | rfl | rfl <;> simp <;> omega
      | have := hn1 i' j' k' hi' hj' hk'
        simp at hw; rcases hw with rfl | rfl | rfl | rfl <;> simp <;> omega
  have b0 := ln1c1_bd (p0 := p0) (p1 := p1) (p2 := p2) (i := i) (j := j) (k := k) (by omega) (by omega) (by omega)
  have b1 := ln1c1_bd (p0 := p0) (p1 := p1) (p2 := p2) (i := i) (j := j) (k := k+1) (by omega) (by omega) (by omega)
  have b2 := ln1c2_bd (p0 := p0) (p1 := p1) (p2 := p2) (i := i) (j := j) (k := k) (by omega) (by omega) (by omega)
  have b3 := ln1c2_bd (p0 := p0) (p1 := p1) (p2 := p2) (i := i) (j := j+1) (k := k) (by omega) (by omega) (by omega)
  have e0 : ln1c1 p0 p1 p2 i j k ≠ ln1c1 p0 p1 p2 i j (k+1) := by
    intro h; have := ln1c1_inj (p0 := p0) (p1 := p1) (p2 := p2) (by omega) (by omega) (by omega) (by omega) h; omega
  have e2 : ln1c2 p0 p1 p2 i j k ≠ ln1c2 p0 p1 p2 i (j+1) k := by
    intro h; have := ln1c2_inj (p0 := p0) (p1 := p1) (p2 := p2) (by omega) (by omega) (by omega) (by omega) h; omega
  unfold curl
  rw [applyM_row x hrow (by simp)]
  · simp; abel
  · simp; unfold nb1 at *; omega
  · simp; omega

theorem curl_c1 (x : Nat → R) {i j k : Nat} (hi : i < p0) (hj : j < p1 + 1) (hk : k < p2) :
    applyM (nb1 p0 p1 p2) (curl p0 p1 p2) x (ln2c1 p0 p1 p2 i j k)
      = (x (ln1c0 p0 p1 p2 i j (k+1)) + x (ln1c2 p0 p1 p2 i j k)) - (x (ln1c0 p0 p1 p2 i j k) + x (ln1c2 p0 p1 p2 (i+1) j k)) := by
  have hrow : (curlW p0 p1 p2).filter (fun w => w.r = ln2c1 p0 p1 p2 i j k)
      = [⟨ln2c1 p0 p1 p2 i j k, ln1c0 p0 p1 p2 i j k, -1⟩, ⟨ln2c1 p0 p1 p2 i j k, ln1c0 p0 p1 p2 i j (k+1), 1⟩, ⟨ln2c1 p0 p1 p2 i j k, ln1c2 p0 p1 p2 i j k, 1⟩, ⟨ln2c1 p0 p1 p2 i j k, ln1c2 p0 p1 p2 (i+1) j k, -1⟩] := by
    have hn0 := fun (i' j' k' : Nat) hi' hj' hk' => ln2c0_bd (p0 := p0) (p1 := p1) (p2 := p2) (i := i') (j := j') (k := k') hi' hj' hk'
    have hn2 := fun (i' j' k' : Nat) hi' hj' hk' => ln2c2_bd (p0 := p0) (p1 := p1) (p2 := p2) (i := i') (j := j') (k := k') hi' hj' hk'
    have hb := ln2c1_bd hi hj hk
    unfold nb2 at *
    unfold curlW
    rw [List.filter_append, List.filter_append, filter_loop3_nil, filter_loop3_of (R := fun i j k => ln2c1 p0 p1 p2 i j k) (by simp) hi hj hk
      (fun i' j' k' hi' hj' _ e => ln2c1_inj hi hj hi' hj' e), filter_loop3_nil, List.nil_append, List.append_nil]
    · intro i' j' k' hi' hj' hk' w hw
      first
      | have := hn0 i' j' k' hi' hj' hk'
        simp at hw; rcases hw with rfl | rfl | rfl | rfl <;> simp <;> omega
      | have := hn2 i' j' k' hi' hj' hk'
        simp at hw; rcases hw with rfl | rfl | rfl | rfl <;> simp <;> omega
    · intro i' j' k' hi' hj' hk' w hw
      first
      | have := hn2 i' j' k' hi' hj' hk'
        simp at hw; rcases hw with rfl | rfl | rfl | rfl <;> simp <;> omega
      | have := hn0 i' j' k' hi' hj' hk'
        simp at hw; rcases hw with rfl | rfl | rfl | rfl <;> simp <;> omega
  have b0 := ln1c0_bd (p0 := p0) (p1 := p1) (p2 := p2) (i := i) (j := j) (k := k) (by omega) (by omega) (by omega)
  have b1 := ln1c0_bd (p0 := p0) (p1 := p1) (p2 := p2) (i := i) (j := j) (k := k+1) (by omega) (by omega) (by omega)
  have b2 := ln1c2_bd (p0 := p0) (p1 := p1) (p2 := p2) (i := i) (j := j) (k := k) (by omega) (by omega) (by omega)
  have b3 := ln1c2_bd (p0 := p0) (p1 := p1) (p2 := p2) (i := i+1) (j := j) (k := k) (by omega) (by omega) (by omega)
  have e0 : ln1c0 p0 p1 p2 i j k ≠ ln1c0 p0 p1 p2 i j (k+1) := by
    intro h; have := ln1c0_inj (p0 := p0) (p1 := p1) (p2 := p2) (by omega) (by omega) (by omega) (by omega) h; omega
  have e2 : ln1c2 p0 p1 p2 i j k ≠ ln1c2 p0 p1 p2 (i+1) j k := by
    intro h; have := ln1c2_inj (p0 := p0) (p1 := p1) (p2 := p2) (by omega) (by omega) (by omega) (by omega) h; omega
  unfold curl
  rw [applyM_row x hrow (by simp)]
  · simp; abel
  · simp; unfold nb1 at *; omega
  · simp; omega

theorem curl_c2 (x : Nat → R) {i j k : Nat} (hi : i < p0) (hj : j < p1) (hk : k < p2 + 1) :
    applyM (nb1 p0 p1 p2) (curl p0 p1 p2) x (ln2c2 p0 p1 p2 i j k)
      = (x (ln1c0 p0 p1 p2 i j k) + x (ln1c1 p0 p1 p2 (i+1) j k)) - (x (ln1c0 p0 p1 p2 i (j+1) k) + x (ln1c1 p0 p1 p2 i j k)) := by
  have hrow : (curlW p0 p1 p2).filter (fun w => w.r = ln2c2 p0 p1 p2 i j k)
      = [⟨ln2c2 p0 p1 p2 i j k, ln1c0 p0 p1 p2 i j k, 1⟩, ⟨ln2c2 p0 p1 p2 i j k, ln1c0 p0 p1 p2 i (j+1) k, -1⟩, ⟨ln2c2 p0 p1 p2 i j k, ln1c1 p0 p1 p2 i j k, -1⟩, ⟨ln2c2 p0 p1 p2 i j k, ln1c1 p0 p1 p2 (i+1) j k, 1⟩] := by
    have hn0 := fun (i' j' k' : Nat) hi' hj' hk' => ln2c0_bd (p0 := p0) (p1 := p1) (p2 := p2) (i := i') (j := j') (k := k') hi' hj' hk'
    have hn1 := fun (i' j' k' : Nat) hi' hj' hk' => ln2c1_bd (p0 := p0) (p1 := p1) (p2 := p2) (i := i') (j := j') (k := k') hi' hj' hk'
    have hb := ln2c2_bd hi hj hk
    unfold nb2 at *
    unfold curlW
    rw [List.filter_append, List.filter_append, filter_loop3_nil, filter_loop3_nil, filter_loop3_of (R := fun i j k => ln2c2 p0 p1 p2 i j k) (by simp) hi hj hk
      (fun i' j' k' hi' hj' _ e => ln2c2_inj hi hj hi' hj' e), List.nil_append, List.nil_append]
    · intro i' j' k' hi' hj' hk' w hw
      first
      | have := hn0 i' j' k' hi' hj' hk'
        simp at hw; rcases hw with rfl | rfl | rfl | rfl <;> simp <;> omega
      | have := hn1 i' j' k' hi' hj' hk'
        simp at hw; rcases hw with rfl | rfl | rfl | rfl <;> simp <;> omega
    · intro i' j' k' hi' hj' hk' w hw
      first
      | have := hn1 i' j' k' hi' hj' hk'
        simp at hw; rcases hw with rfl | rfl | rfl | rfl <;> simp <;> omega
      | have := hn0 i' j' k' hi' hj' hk'
        simp at hw; rcases hw with rfl | rfl | rfl | rfl <;> simp <;> omega
  have b0 := ln1c0_bd (p0 := p0) (p1 := p1) (p2 := p2) (i := i) (j := j) (k := k) (by omega) (by omega) (by omega)
  have b1 := ln1c0_bd (p0 := p0) (p1 := p1) (p2 := p2) (i := i) (j := j+1) (k := k) (by omega) (by omega) (by omega)
  have b2 := ln1c1_bd (p0 := p0) (p1 := p1) (p2 := p2) (i := i) (j := j) (k := k) (by omega) (by omega) (by omega)
  have b3 := ln1c1_bd (p0 := p0) (p1 := p1) (p2 := p2) (i := i+1) (j := j) (k := k) (by omega) (by omega) (by omega)
  have e0 : ln1c0 p0 p1 p2 i j k ≠ ln1c0 p0 p1 p2 i (j+1) k := by
    intro h; have := ln1c0_inj (p0 := p0) (p1 := p1) (p2 := p2) (by omega) (by omega) (by omega) (by omega) h; omega
  have e2 : ln1c1 p0 p1 p2 i j k ≠ ln1c1 p0 p1 p2 (i+1) j k := by
    intro h; have := ln1c1_inj (p0 := p0) (p1 := p1) (p2 := p2) (by omega) (by omega) (by omega) (by omega) h; omega
  unfold curl
  rw [applyM_row x hrow (by simp)]
  · simp; abel
  · simp; unfold nb1 at *; omega
  · simp; omega

theorem div_row (x : Nat → R) {i j k : Nat} (hi : i < p0) (hj : j < p1) (hk : k < p2) :
    applyM (nb2 p0 p1 p2) (div p0 p1 p2) x (ln3 p0 p1 p2 i j k)
      = (x (ln2c0 p0 p1 p2 (i+1) j k) + x (ln2c1 p0 p1 p2 i (j+1) k) + x (ln2c2 p0 p1 p2 i j (k+1))) - (x (ln2c0 p0 p1 p2 i j k) + x (ln2c1 p0 p1 p2 i j k) + x (ln2c2 p0 p1 p2 i j k)) := by
  have hrow : (divW p0 p1 p2).filter (fun w => w.r = ln3 p0 p1 p2 i j k)
      = [⟨ln3 p0 p1 p2 i j k, ln2c0 p0 p1 p2 i j k, -1⟩, ⟨ln3 p0 p1 p2 i j k, ln2c0 p0 p1 p2 (i+1) j k, 1⟩, ⟨ln3 p0 p1 p2 i j k, ln2c1 p0 p1 p2 i j k, -1⟩, ⟨ln3 p0 p1 p2 i j k, ln2c1 p0 p1 p2 i (j+1) k, 1⟩, ⟨ln3 p0 p1 p2 i j k, ln2c2 p0 p1 p2 i j k, -1⟩, ⟨ln3 p0 p1 p2 i j k, ln2c2 p0 p1 p2 i j (k+1), 1⟩] := by
    unfold divW
    rw [filter_loop3_of (R := fun i j k => ln3 p0 p1 p2 i j k) (by simp) hi hj hk
      (fun i' j' k' hi' hj' _ e => ln3_inj hi hj hi' hj' e)]
  have b0 := ln2c0_bd (p0 := p0) (p1 := p1) (p2 := p2) (i := i) (j := j) (k := k) (by omega) (by omega) (by omega)
  have b1 := ln2c0_bd (p0 := p0) (p1 := p1) (p2 := p2) (i := i+1) (j := j) (k := k) (by omega) (by omega) (by omega)
  have b2 := ln2c1_bd (p0 := p0) (p1 := p1) (p2 := p2) (i := i) (j := j) (k := k) (by omega) (by omega) (by omega)
  have b3 := ln2c1_bd (p0 := p0) (p1 := p1) (p2 := p2) (i := i) (j := j+1) (k := k) (by omega) (by omega) (by omega)
  have b4 := ln2c2_bd (p0 := p0) (p1 := p1) (p2 := p2) (i := i) (j := j) (k := k) (by omega) (by omega) (by omega)
  have b5 := ln2c2_bd (p0 := p0) (p1 := p1) (p2 := p2) (i := i) (j := j) (k := k+1) (by omega) (by omega) (by omega)
  have e0 : ln2c0 p0 p1 p2 i j k ≠ ln2c0 p0 p1 p2 (i+1) j k := by
    intro h; have := ln2c0_inj (p0 := p0) (p1 := p1) (p2 := p2) (by omega) (by omega) (by omega) (by omega) h; omega
  have e2 : ln2c1 p0 p1 p2 i j k ≠ ln2c1 p0 p1 p2 i (j+1) k := by
    intro h; have := ln2c1_inj (p0 := p0) (p1 := p1) (p2 := p2) (by omega) (by omega) (by omega) (by omega) h; omega
  have e4 : ln2c2 p0 p1 p2 i j k ≠ ln2c2 p0 p1 p2 i j (k+1) := by
    intro h; have := ln2c2_inj (p0 := p0) (p1 := p1) (p2 := p2) (by omega) (by omega) (by omega) (by omega) h; omega
  unfold div
  rw [applyM_row x hrow (by simp)]
  · simp; abel
  · simp; unfold nb2 at *; omega
  · simp; omega

end Mifem.Three
