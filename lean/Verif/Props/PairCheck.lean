import Verif.Model.PairCheck
import Mathlib.Data.List.Basic
import Mathlib.Data.List.Nodup

/-!
# C117: check of hybrid pairings

Specification: a row is a *pair* (two entries that cancel, nothing in `D`, zero in `b`), *Neumann* for a dof (the entry 1 there and nothing else), or
*Dirichlet* (nothing in `T`, the entry 1 on the diagonal of `D`).  The system is right if each row is one of these, the Neumann rows are one for each
dof on the Neumann boundary, and the Dirichlet rows are those of the dofs on the Dirichlet boundary.
-/

namespace Mifem.Props.Pair117
open Mifem.PairCheck

def Pair (s : Sys) (i : ℕ) : Prop := ∃ p q, s.T i = [p, q] ∧ p.2 + q.2 = 0 ∧ s.D i = [] ∧ s.b i = 0
def Neumann (s : Sys) (i d : ℕ) : Prop := s.T i = [(d, 1)]
def Dirichlet (s : Sys) (i : ℕ) : Prop := s.T i = [] ∧ s.D i = [(i, 1)]

/-- What the check finds of the right system. -/
structure Right (s : Sys) (rows NB DB : List ℕ) : Prop where
  each : ∀ i ∈ rows, Pair s i ∨ (∃ d ∈ NB, Neumann s i d) ∨ (Dirichlet s i ∧ i ∈ DB)
  dirichlet : ∀ d ∈ DB, d ∈ rows ∧ Dirichlet s d
  neumann : ∀ d ∈ NB, ∃ i ∈ rows, Neumann s i d ∧ ∀ j ∈ rows, Neumann s j d → j = i

/-- Rows of the boundaries have a number in `b`. -/
def Given (s : Sys) (rows : List ℕ) : Prop := ∀ i ∈ rows, ¬ Pair s i → s.b i ≠ 0

theorem pair_length {s : Sys} {i : ℕ} (h : Pair s i) : (s.T i).length = 2 := by
  obtain ⟨p, q, h, _⟩ := h
  rw [h]
  rfl

theorem sound (s : Sys) : ∀ (rows NB DB : List ℕ), rows.Nodup → NB.Nodup → DB.Nodup → check s rows NB DB = true →
    Right s rows NB DB ∧ Given s rows
  | [], NB, DB, _, _, _, h => by
    simp only [check, Bool.and_eq_true, List.isEmpty_iff] at h
    obtain ⟨h1, h2⟩ := h
    subst h1 h2
    exact ⟨⟨fun _ h => (by cases h), fun _ h => (by cases h), fun _ h => (by cases h)⟩, fun _ h => (by cases h)⟩
  | i :: is, NB, DB, hr, hN, hD, h => by
    rw [List.nodup_cons] at hr
    unfold check at h
    split at h
    · rename_i p q hT
      simp only [Bool.and_eq_true, List.isEmpty_iff, beq_iff_eq] at h
      obtain ⟨⟨⟨h1, h2⟩, h3⟩, h4⟩ := h
      obtain ⟨hR, hG⟩ := sound s is NB DB hr.2 hN hD h4
      have hp : Pair s i := ⟨p, q, hT, h3, h1, h2⟩
      refine ⟨⟨?_, ?_, ?_⟩, ?_⟩
      · intro j hj
        rcases List.mem_cons.mp hj with rfl | hj
        · exact Or.inl hp
        · exact hR.each j hj
      · intro d hd
        exact ⟨List.mem_cons_of_mem _ (hR.dirichlet d hd).1, (hR.dirichlet d hd).2⟩
      · intro d hd
        obtain ⟨k, hk, hn, hu⟩ := hR.neumann d hd
        refine ⟨k, List.mem_cons_of_mem _ hk, hn, ?_⟩
        intro j hj hjn
        rcases List.mem_cons.mp hj with rfl | hj
        · rw [Neumann, hT] at hjn
          simp at hjn
        · exact hu j hj hjn
      · intro j hj hnp
        rcases List.mem_cons.mp hj with rfl | hj
        · exact absurd hp hnp
        · exact hG j hj hnp
    · rename_i p hT
      simp only [Bool.and_eq_true, beq_iff_eq, bne_iff_ne, List.contains_iff_mem] at h
      obtain ⟨⟨⟨h1, h2⟩, h3⟩, h4⟩ := h
      obtain ⟨hR, hG⟩ := sound s is (NB.erase p.1) DB hr.2 (hN.erase _) hD h4
      have hn : Neumann s i p.1 := by
        rw [Neumann, hT, ← h1]
      refine ⟨⟨?_, ?_, ?_⟩, ?_⟩
      · intro j hj
        rcases List.mem_cons.mp hj with rfl | hj
        · exact Or.inr (Or.inl ⟨p.1, h3, hn⟩)
        · rcases hR.each j hj with h | ⟨d, hd, h⟩ | h
          · exact Or.inl h
          · exact Or.inr (Or.inl ⟨d, List.mem_of_mem_erase hd, h⟩)
          · exact Or.inr (Or.inr h)
      · intro d hd
        exact ⟨List.mem_cons_of_mem _ (hR.dirichlet d hd).1, (hR.dirichlet d hd).2⟩
      · intro d hd
        by_cases hdp : d = p.1
        · refine ⟨i, List.mem_cons_self .., hdp ▸ hn, ?_⟩
          intro j hj hjn
          rcases List.mem_cons.mp hj with hj | hj
          · exact hj
          · exfalso
            rcases hR.each j hj with h | ⟨d', hd', h⟩ | h
            · have := pair_length h
              rw [hjn] at this
              cases this
            · rw [Neumann, hjn] at h
              have : d' = d := by simpa using h.symm
              rw [this, hdp] at hd'
              exact (hN.mem_erase_iff.mp hd').1 rfl
            · rw [Neumann, h.1.1] at hjn
              cases hjn
        · obtain ⟨k, hk, hkn, hu⟩ := hR.neumann d ((List.mem_erase_of_ne hdp).mpr hd)
          refine ⟨k, List.mem_cons_of_mem _ hk, hkn, ?_⟩
          intro j hj hjn
          rcases List.mem_cons.mp hj with rfl | hj
          · rw [Neumann, hT] at hjn
            exact absurd (by simpa using (congrArg (fun l => l.map Prod.fst) hjn).symm) hdp
          · exact hu j hj hjn
      · intro j hj hnp
        rcases List.mem_cons.mp hj with rfl | hj
        · exact h2
        · exact hG j hj hnp
    · rename_i hT
      simp only [Bool.and_eq_true, beq_iff_eq, bne_iff_ne, List.contains_iff_mem] at h
      obtain ⟨⟨⟨h1, h2⟩, h3⟩, h4⟩ := h
      obtain ⟨hR, hG⟩ := sound s is NB (DB.erase i) hr.2 hN (hD.erase _) h4
      refine ⟨⟨?_, ?_, ?_⟩, ?_⟩
      · intro j hj
        rcases List.mem_cons.mp hj with rfl | hj
        · exact Or.inr (Or.inr ⟨⟨hT, h1⟩, h3⟩)
        · rcases hR.each j hj with h | h | h
          · exact Or.inl h
          · exact Or.inr (Or.inl h)
          · exact Or.inr (Or.inr ⟨h.1, List.mem_of_mem_erase h.2⟩)
      · intro d hd
        by_cases hdi : d = i
        · subst hdi
          exact ⟨List.mem_cons_self .., hT, h1⟩
        · have := hR.dirichlet d ((List.mem_erase_of_ne hdi).mpr hd)
          exact ⟨List.mem_cons_of_mem _ this.1, this.2⟩
      · intro d hd
        obtain ⟨k, hk, hn, hu⟩ := hR.neumann d hd
        refine ⟨k, List.mem_cons_of_mem _ hk, hn, ?_⟩
        intro j hj hjn
        rcases List.mem_cons.mp hj with rfl | hj
        · rw [Neumann, hT] at hjn
          cases hjn
        · exact hu j hj hjn
      · intro j hj hnp
        rcases List.mem_cons.mp hj with rfl | hj
        · exact h2
        · exact hG j hj hnp
    · cases h

theorem complete (s : Sys) : ∀ (rows NB DB : List ℕ), rows.Nodup → NB.Nodup → DB.Nodup → Right s rows NB DB → Given s rows →
    check s rows NB DB = true
  | [], NB, DB, _, _, _, hR, _ => by
    have h1 : DB = [] := by
      rcases DB with _ | ⟨d, l⟩
      · rfl
      · exact absurd (hR.dirichlet d (List.mem_cons_self ..)).1 (List.not_mem_nil)
    have h2 : NB = [] := by
      rcases NB with _ | ⟨d, l⟩
      · rfl
      · obtain ⟨i, hi, _⟩ := hR.neumann d (List.mem_cons_self ..)
        exact absurd hi (List.not_mem_nil)
    subst h1 h2
    rfl
  | i :: is, NB, DB, hr, hN, hD, hR, hG => by
    rw [List.nodup_cons] at hr
    have hG' : Given s is := fun j hj => hG j (List.mem_cons_of_mem _ hj)
    rcases hR.each i (List.mem_cons_self ..) with ⟨p, q, hT, h3, h1, h2⟩ | ⟨d, hd, hn⟩ | ⟨hdir, hdi⟩
    · have hR' : Right s is NB DB := by
        refine ⟨fun j hj => hR.each j (List.mem_cons_of_mem _ hj), ?_, ?_⟩
        · intro d hd
          obtain ⟨hm, hdir⟩ := hR.dirichlet d hd
          refine ⟨(List.mem_cons.mp hm).resolve_left ?_, hdir⟩
          intro he
          subst he
          rw [hdir.1] at hT
          cases hT
        · intro d hd
          obtain ⟨k, hk, hn, hu⟩ := hR.neumann d hd
          refine ⟨k, (List.mem_cons.mp hk).resolve_left ?_, hn, fun j hj => hu j (List.mem_cons_of_mem _ hj)⟩
          intro he
          subst he
          rw [Neumann, hT] at hn
          simp at hn
      unfold check
      rw [hT]
      simp [h1, h2, h3, complete s is NB DB hr.2 hN hD hR' hG']
    · have hnp : ¬ Pair s i := by
        intro hp
        have := pair_length hp
        rw [hn] at this
        cases this
      have huniq : ∀ j ∈ is, ¬ Neumann s j d := by
        intro j hj hjn
        obtain ⟨k, _, _, hu⟩ := hR.neumann d hd
        have e1 := hu j (List.mem_cons_of_mem _ hj) hjn
        have e2 := hu i (List.mem_cons_self ..) hn
        rw [e1, ← e2] at hj
        exact hr.1 hj
      have hR' : Right s is (NB.erase d) DB := by
        refine ⟨?_, ?_, ?_⟩
        · intro j hj
          rcases hR.each j (List.mem_cons_of_mem _ hj) with h | ⟨d', hd', h⟩ | h
          · exact Or.inl h
          · refine Or.inr (Or.inl ⟨d', (List.mem_erase_of_ne ?_).mpr hd', h⟩)
            intro he
            subst he
            exact huniq j hj h
          · exact Or.inr (Or.inr h)
        · intro e he
          obtain ⟨hm, hdir⟩ := hR.dirichlet e he
          refine ⟨(List.mem_cons.mp hm).resolve_left ?_, hdir⟩
          intro hei
          subst hei
          rw [Neumann, hdir.1] at hn
          cases hn
        · intro e he
          obtain ⟨hne, he⟩ := hN.mem_erase_iff.mp he
          obtain ⟨k, hk, hkn, hu⟩ := hR.neumann e he
          refine ⟨k, (List.mem_cons.mp hk).resolve_left ?_, hkn, fun j hj => hu j (List.mem_cons_of_mem _ hj)⟩
          intro hki
          subst hki
          rw [Neumann, hn] at hkn
          exact hne (by simpa using hkn.symm)
      unfold check
      rw [hn]
      simp [hd, hG i (List.mem_cons_self ..) hnp, complete s is (NB.erase d) DB hr.2 (hN.erase _) hD hR' hG']
    · have hnp : ¬ Pair s i := by
        intro hp
        have := pair_length hp
        rw [hdir.1] at this
        cases this
      have hR' : Right s is NB (DB.erase i) := by
        refine ⟨?_, ?_, ?_⟩
        · intro j hj
          rcases hR.each j (List.mem_cons_of_mem _ hj) with h | h | ⟨h, hj'⟩
          · exact Or.inl h
          · exact Or.inr (Or.inl h)
          · refine Or.inr (Or.inr ⟨h, (List.mem_erase_of_ne ?_).mpr hj'⟩)
            intro he
            subst he
            exact hr.1 hj
        · intro e he
          obtain ⟨hne, he⟩ := hD.mem_erase_iff.mp he
          obtain ⟨hm, h⟩ := hR.dirichlet e he
          exact ⟨(List.mem_cons.mp hm).resolve_left hne, h⟩
        · intro e he
          obtain ⟨k, hk, hkn, hu⟩ := hR.neumann e he
          refine ⟨k, (List.mem_cons.mp hk).resolve_left ?_, hkn, fun j hj => hu j (List.mem_cons_of_mem _ hj)⟩
          intro hki
          subst hki
          rw [Neumann, hdir.1] at hkn
          cases hkn
      unfold check
      rw [hdir.1]
      simp [hdir.2, hdi, hG i (List.mem_cons_self ..) hnp, complete s is NB (DB.erase i) hr.2 hN (hD.erase _) hR' hG']

/-- **C117 (check, partial).**  The check accepts exactly the right systems in which all rows of the boundaries have a number in `b`.  Partial: zero
boundary values are refused (`c117_zero_fails`), and Neumann rows may have entries in `D` (`c117_neumann_fails`). -/
theorem c117_check_partial (s : Sys) (n : ℕ) (NB DB : List ℕ) (hN : NB.Nodup) (hD : DB.Nodup) :
    accepts s n NB DB = true ↔ Right s (List.range n) NB DB ∧ Given s (List.range n) :=
  ⟨sound s _ NB DB List.nodup_range hN hD, fun h => complete s _ NB DB List.nodup_range hN hD h.1 h.2⟩

/-- **C117 (complete boundaries).**  A system that is accepted has a row for each dof of both boundaries. -/
theorem c117_boundaries (s : Sys) (n : ℕ) (NB DB : List ℕ) (hN : NB.Nodup) (hD : DB.Nodup) (h : accepts s n NB DB = true) :
    (∀ d ∈ DB, d < n ∧ Dirichlet s d) ∧ ∀ d ∈ NB, ∃ i < n, Neumann s i d := by
  obtain ⟨hR, _⟩ := (c117_check_partial s n NB DB hN hD).mp h
  constructor
  · intro d hd
    exact ⟨List.mem_range.mp (hR.dirichlet d hd).1, (hR.dirichlet d hd).2⟩
  · intro d hd
    obtain ⟨i, hi, hn, _⟩ := hR.neumann d hd
    exact ⟨i, List.mem_range.mp hi, hn⟩

/-- Two cells in a row: Dirichlet at the left side, a pair in the middle, Neumann at the right side (dof 3). -/
def line (v w : Int) (extra : List (ℕ × Int)) : Sys :=
  ⟨fun i => if i = 1 then [(1, 1), (2, -1)] else if i = 2 then [(3, 1)] else [], fun i => if i = 0 then [(0, 1)] else if i = 2 then extra else [],
   fun i => if i = 0 then v else if i = 2 then w else 0⟩

example : accepts (line 5 7 []) 3 [3] [0] = true := by decide
example : accepts (line 5 7 []) 3 [3, 2] [0] = false := by decide

theorem line_right (v w : Int) : Right (line v w []) (List.range 3) [3] [0] := by
  refine ⟨?_, ?_, ?_⟩
  · intro i hi
    have hi := List.mem_range.mp hi
    match i, hi with
    | 0, _ => exact Or.inr (Or.inr ⟨⟨rfl, rfl⟩, by decide⟩)
    | 1, _ => exact Or.inl ⟨(1, 1), (2, -1), rfl, rfl, rfl, rfl⟩
    | 2, _ => exact Or.inr (Or.inl ⟨3, by decide, rfl⟩)
  · intro d hd
    cases List.mem_singleton.mp hd
    exact ⟨by decide, rfl, rfl⟩
  · intro d hd
    cases List.mem_singleton.mp hd
    refine ⟨2, by decide, rfl, ?_⟩
    intro j hj hjn
    have hj := List.mem_range.mp hj
    match j, hj with
    | 0, _ => cases hjn
    | 1, _ => exact absurd (congrArg List.length hjn) (show ¬ (2 = 1) by decide)
    | 2, _ => rfl

/-- **C117 (fails for zero boundary values).**  A right system with the value zero at a boundary is refused. -/
theorem c117_zero_fails : Right (line 0 7 []) (List.range 3) [3] [0] ∧ accepts (line 0 7 []) 3 [3] [0] = false :=
  ⟨line_right 0 7, by decide⟩

/-- **C117 (fails for Neumann rows).**  A Neumann row that has also an entry in `D`, so that the condition is not the boundary condition, is
accepted. -/
theorem c117_neumann_fails : (line 5 7 [(0, 4)]).D 2 ≠ [] ∧ Neumann (line 5 7 [(0, 4)]) 2 3 ∧ accepts (line 5 7 [(0, 4)]) 3 [3] [0] = true :=
  ⟨by decide, rfl, by decide⟩

end Mifem.Props.Pair117
