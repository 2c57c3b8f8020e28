import Verif.Lemmas.Incidence

/-! Row formulas of the 2D incidence matrices. -/

namespace Mifem.Two
open Mifem

variable {R : Type*} [Ring R] {p0 p1 : Nat}

theorem ln0_lt {i j : Nat} (hi : i < p0 + 1) (hj : j < p1 + 1) : ln0 p0 p1 i j < nb0 p0 p1 := fIdx2_lt hi hj
theorem ln2_lt {i j : Nat} (hi : i < p0) (hj : j < p1) : ln2 p0 p1 i j < nb2 p0 p1 := fIdx2_lt hi hj
theorem lnI1c0_lt {i j : Nat} (hi : i < p0) (hj : j < p1 + 1) : lnI1c0 p0 p1 i j < nbI1c0 p0 p1 := fIdx2_lt hi hj
theorem lnO1c0_lt {i j : Nat} (hi : i < p0 + 1) (hj : j < p1) : lnO1c0 p0 p1 i j < nbO1c0 p0 p1 := fIdx2_lt hi hj
theorem lnI1c1_lt {i j : Nat} (hi : i < p0 + 1) (hj : j < p1) :
    nbI1c0 p0 p1 ≤ lnI1c1 p0 p1 i j ∧ lnI1c1 p0 p1 i j < nbI1 p0 p1 := by
  have := fIdx2_lt (b := p1) hi hj
  unfold lnI1c1 nbI1 nbI1c1; omega
theorem lnO1c1_lt {i j : Nat} (hi : i < p0) (hj : j < p1 + 1) :
    nbO1c0 p0 p1 ≤ lnO1c1 p0 p1 i j ∧ lnO1c1 p0 p1 i j < nbO1 p0 p1 := by
  have := fIdx2_lt (b := p1 + 1) hi hj
  unfold lnO1c1 nbO1 nbO1c1; omega
theorem lnI1c0_lt' {i j : Nat} (hi : i < p0) (hj : j < p1 + 1) : lnI1c0 p0 p1 i j < nbI1 p0 p1 := by
  have := lnI1c0_lt hi hj; unfold nbI1; omega
theorem lnO1c0_lt' {i j : Nat} (hi : i < p0 + 1) (hj : j < p1) : lnO1c0 p0 p1 i j < nbO1 p0 p1 := by
  have := lnO1c0_lt hi hj; unfold nbO1; omega

theorem gradInner_c0 (x : Nat → R) {i j : Nat} (hi : i < p0) (hj : j < p1 + 1) :
    applyM (nb0 p0 p1) (gradInner p0 p1) x (lnI1c0 p0 p1 i j)
      = x (ln0 p0 p1 (i+1) j) - x (ln0 p0 p1 i j) := by
  have hrow : (gradInnerW p0 p1).filter (fun w => w.r = lnI1c0 p0 p1 i j)
      = [⟨lnI1c0 p0 p1 i j, ln0 p0 p1 i j, -1⟩, ⟨lnI1c0 p0 p1 i j, ln0 p0 p1 (i+1) j, 1⟩] := by
    unfold gradInnerW
    rw [List.filter_append, filter_loop2_of (R := fun i j => lnI1c0 p0 p1 i j) (by simp) hi hj
      (fun i' j' hi' _ e => fIdx2_inj hi hi' e), filter_loop2_nil, List.append_nil]
    intro i' j' hi' hj' w hw
    have h1 := lnI1c0_lt (p1 := p1) hi hj
    have h2 := lnI1c1_lt (p0 := p0) hi' hj'
    simp at hw; rcases hw with rfl | rfl <;> simp <;> omega
  unfold gradInner
  rw [applyM_row x hrow (by simp)]
  · simp; abel
  · simp; exact ⟨ln0_lt (by omega) hj, ln0_lt (by omega) hj⟩
  · simp; intro h; have := (fIdx2_inj (a := p0 + 1) (by omega) (by omega) h).1; omega

theorem gradInner_c1 (x : Nat → R) {i j : Nat} (hi : i < p0 + 1) (hj : j < p1) :
    applyM (nb0 p0 p1) (gradInner p0 p1) x (lnI1c1 p0 p1 i j)
      = x (ln0 p0 p1 i (j+1)) - x (ln0 p0 p1 i j) := by
  have hrow : (gradInnerW p0 p1).filter (fun w => w.r = lnI1c1 p0 p1 i j)
      = [⟨lnI1c1 p0 p1 i j, ln0 p0 p1 i j, -1⟩, ⟨lnI1c1 p0 p1 i j, ln0 p0 p1 i (j+1), 1⟩] := by
    unfold gradInnerW
    rw [List.filter_append, filter_loop2_nil, List.nil_append,
      filter_loop2_of (R := fun i j => lnI1c1 p0 p1 i j) (by simp) hi hj
      (fun i' j' hi' _ e => fIdx2_inj hi hi' (Nat.add_right_cancel e))]
    intro i' j' hi' hj' w hw
    have h1 := lnI1c0_lt (p1 := p1) hi' hj'
    have h2 := lnI1c1_lt (p0 := p0) hi hj
    simp at hw; rcases hw with rfl | rfl <;> simp <;> omega
  unfold gradInner
  rw [applyM_row x hrow (by simp)]
  · simp; abel
  · simp; exact ⟨ln0_lt hi (by omega), ln0_lt hi (by omega)⟩
  · simp; intro h; have := (fIdx2_inj (a := p0 + 1) hi hi h).2; omega

theorem rotInner_row (u : Nat → R) {i j : Nat} (hi : i < p0) (hj : j < p1) :
    applyM (nbI1 p0 p1) (rotInner p0 p1) u (ln2 p0 p1 i j)
      = u (lnI1c0 p0 p1 i j) - u (lnI1c0 p0 p1 i (j+1)) - u (lnI1c1 p0 p1 i j) + u (lnI1c1 p0 p1 (i+1) j) := by
  have hrow : (rotInnerW p0 p1).filter (fun w => w.r = ln2 p0 p1 i j)
      = [⟨ln2 p0 p1 i j, lnI1c0 p0 p1 i j, 1⟩, ⟨ln2 p0 p1 i j, lnI1c0 p0 p1 i (j+1), -1⟩,
     ⟨ln2 p0 p1 i j, lnI1c1 p0 p1 i j, -1⟩, ⟨ln2 p0 p1 i j, lnI1c1 p0 p1 (i+1) j, 1⟩] := by
    unfold rotInnerW
    rw [filter_loop2_of (R := fun i j => ln2 p0 p1 i j) (by simp) hi hj
      (fun i' j' hi' _ e => fIdx2_inj hi hi' e)]
  have a1 := lnI1c0_lt (p1 := p1) (j := j) hi (by omega)
  have a2 := lnI1c0_lt (p1 := p1) (j := j+1) hi (by omega)
  have a3 := lnI1c1_lt (p0 := p0) (i := i) (by omega) hj
  have a4 := lnI1c1_lt (p0 := p0) (i := i+1) (by omega) hj
  have e1 : lnI1c0 p0 p1 i j ≠ lnI1c0 p0 p1 i (j+1) := by
    intro h; have := (fIdx2_inj (a := p0) hi hi h).2; omega
  have e2 : lnI1c1 p0 p1 i j ≠ lnI1c1 p0 p1 (i+1) j := by
    intro h; have := (fIdx2_inj (a := p0 + 1) (by omega) (by omega) (Nat.add_right_cancel h)).1; omega
  unfold rotInner
  rw [applyM_row u hrow (by simp)]
  · simp; abel
  · simp; unfold nbI1 at *; omega
  · simp; omega

theorem curlOuter_c0 (x : Nat → R) {i j : Nat} (hi : i < p0 + 1) (hj : j < p1) :
    applyM (nb0 p0 p1) (curlOuter p0 p1) x (lnO1c0 p0 p1 i j)
      = x (ln0 p0 p1 i (j+1)) - x (ln0 p0 p1 i j) := by
  have hrow : (curlOuterW p0 p1).filter (fun w => w.r = lnO1c0 p0 p1 i j)
      = [⟨lnO1c0 p0 p1 i j, ln0 p0 p1 i j, -1⟩, ⟨lnO1c0 p0 p1 i j, ln0 p0 p1 i (j+1), 1⟩] := by
    unfold curlOuterW
    rw [List.filter_append, filter_loop2_of (R := fun i j => lnO1c0 p0 p1 i j) (by simp) hi hj
      (fun i' j' hi' _ e => fIdx2_inj hi hi' e), filter_loop2_nil, List.append_nil]
    intro i' j' hi' hj' w hw
    have h1 := lnO1c0_lt (p0 := p0) hi hj
    have h2 := lnO1c1_lt (p1 := p1) hi' hj'
    simp at hw; rcases hw with rfl | rfl <;> simp <;> omega
  unfold curlOuter
  rw [applyM_row x hrow (by simp)]
  · simp; abel
  · simp; exact ⟨ln0_lt hi (by omega), ln0_lt hi (by omega)⟩
  · simp; intro h; have := (fIdx2_inj (a := p0 + 1) hi hi h).2; omega

theorem curlOuter_c1 (x : Nat → R) {i j : Nat} (hi : i < p0) (hj : j < p1 + 1) :
    applyM (nb0 p0 p1) (curlOuter p0 p1) x (lnO1c1 p0 p1 i j)
      = x (ln0 p0 p1 i j) - x (ln0 p0 p1 (i+1) j) := by
  have hrow : (curlOuterW p0 p1).filter (fun w => w.r = lnO1c1 p0 p1 i j)
      = [⟨lnO1c1 p0 p1 i j, ln0 p0 p1 i j, 1⟩, ⟨lnO1c1 p0 p1 i j, ln0 p0 p1 (i+1) j, -1⟩] := by
    unfold curlOuterW
    rw [List.filter_append, filter_loop2_nil, List.nil_append,
      filter_loop2_of (R := fun i j => lnO1c1 p0 p1 i j) (by simp) hi hj
      (fun i' j' hi' _ e => fIdx2_inj hi hi' (Nat.add_right_cancel e))]
    intro i' j' hi' hj' w hw
    have h1 := lnO1c0_lt (p0 := p0) hi' hj'
    have h2 := lnO1c1_lt (p1 := p1) hi hj
    simp at hw; rcases hw with rfl | rfl <;> simp <;> omega
  unfold curlOuter
  rw [applyM_row x hrow (by simp)]
  · simp; abel
  · simp; exact ⟨ln0_lt (by omega) hj, ln0_lt (by omega) hj⟩
  · simp; intro h; have := (fIdx2_inj (a := p0 + 1) (by omega) (by omega) h).1; omega

theorem divOuter_row (u : Nat → R) {i j : Nat} (hi : i < p0) (hj : j < p1) :
    applyM (nbO1 p0 p1) (divOuter p0 p1) u (ln2 p0 p1 i j)
      = u (lnO1c0 p0 p1 (i+1) j) - u (lnO1c0 p0 p1 i j) + u (lnO1c1 p0 p1 i (j+1)) - u (lnO1c1 p0 p1 i j) := by
  have hrow : (divOuterW p0 p1).filter (fun w => w.r = ln2 p0 p1 i j)
      = [⟨ln2 p0 p1 i j, lnO1c1 p0 p1 i j, -1⟩, ⟨ln2 p0 p1 i j, lnO1c1 p0 p1 i (j+1), 1⟩,
     ⟨ln2 p0 p1 i j, lnO1c0 p0 p1 i j, -1⟩, ⟨ln2 p0 p1 i j, lnO1c0 p0 p1 (i+1) j, 1⟩] := by
    unfold divOuterW
    rw [filter_loop2_of (R := fun i j => ln2 p0 p1 i j) (by simp) hi hj
      (fun i' j' hi' _ e => fIdx2_inj hi hi' e)]
  have a1 := lnO1c1_lt (p1 := p1) (j := j) hi (by omega)
  have a2 := lnO1c1_lt (p1 := p1) (j := j+1) hi (by omega)
  have a3 := lnO1c0_lt (p0 := p0) (i := i) (by omega) hj
  have a4 := lnO1c0_lt (p0 := p0) (i := i+1) (by omega) hj
  have e1 : lnO1c1 p0 p1 i j ≠ lnO1c1 p0 p1 i (j+1) := by
    intro h; have := (fIdx2_inj (a := p0) hi hi (Nat.add_right_cancel h)).2; omega
  have e2 : lnO1c0 p0 p1 i j ≠ lnO1c0 p0 p1 (i+1) j := by
    intro h; have := (fIdx2_inj (a := p0 + 1) (by omega) (by omega) h).1; omega
  unfold divOuter
  rw [applyM_row u hrow (by simp)]
  · simp; abel
  · simp; unfold nbO1 at *; omega
  · simp; omega

/-- every inner 1-form dof is in one of the two components. -/
theorem lnI1_cases {r : Nat} (h : r < nbI1 p0 p1) :
    (∃ i j, i < p0 ∧ j < p1 + 1 ∧ lnI1c0 p0 p1 i j = r) ∨ (∃ i j, i < p0 + 1 ∧ j < p1 ∧ lnI1c1 p0 p1 i j = r) := by
  by_cases h0 : r < nbI1c0 p0 p1
  · left
    obtain ⟨i, j, hi, hj, e⟩ := fIdx2_surj h0
    exact ⟨i, j, hi, hj, e⟩
  · right
    have : r - nbI1c0 p0 p1 < (p0 + 1) * p1 := by unfold nbI1 nbI1c1 at h; omega
    obtain ⟨i, j, hi, hj, e⟩ := fIdx2_surj this
    exact ⟨i, j, hi, hj, by unfold lnI1c1; omega⟩

theorem lnO1_cases {r : Nat} (h : r < nbO1 p0 p1) :
    (∃ i j, i < p0 + 1 ∧ j < p1 ∧ lnO1c0 p0 p1 i j = r) ∨ (∃ i j, i < p0 ∧ j < p1 + 1 ∧ lnO1c1 p0 p1 i j = r) := by
  by_cases h0 : r < nbO1c0 p0 p1
  · left
    obtain ⟨i, j, hi, hj, e⟩ := fIdx2_surj h0
    exact ⟨i, j, hi, hj, e⟩
  · right
    have : r - nbO1c0 p0 p1 < p0 * (p1 + 1) := by unfold nbO1 nbO1c1 at h; omega
    obtain ⟨i, j, hi, hj, e⟩ := fIdx2_surj this
    exact ⟨i, j, hi, hj, by unfold lnO1c1; omega⟩

theorem ln0_cases {r : Nat} (h : r < nb0 p0 p1) : ∃ i j, i < p0 + 1 ∧ j < p1 + 1 ∧ ln0 p0 p1 i j = r :=
  fIdx2_surj h
theorem ln2_cases {r : Nat} (h : r < nb2 p0 p1) : ∃ i j, i < p0 ∧ j < p1 ∧ ln2 p0 p1 i j = r :=
  fIdx2_surj h

end Mifem.Two
