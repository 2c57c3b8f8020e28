import Verif.Lemmas.Gathering

/-! Helper lemmas about finding the elements that have a dof. -/

namespace Mifem.Gath

theorem collect_none (m : Nat) (l : LocalGM) :
    collect m none l = (l.filter (fun p => m ∈ p.2)).map Prod.fst := by
  induction l with
  | nil => rfl
  | cons p l ih =>
    obtain ⟨e, v⟩ := p
    by_cases h : m ∈ v <;> simp [collect, h, ih]

theorem collect_some (m n : Nat) (l : LocalGM) (hn : 0 < n) :
    collect m (some n) l = ((l.filter (fun p => m ∈ p.2)).map Prod.fst).take n := by
  induction l generalizing n with
  | nil => simp [collect]
  | cons p l ih =>
    obtain ⟨e, v⟩ := p
    by_cases h : m ∈ v
    · rcases n with _ | _ | n
      · omega
      · simp [collect, h]
      · simp [collect, h, ih (n + 1) (by omega)]
    · simp [collect, h, ih n hn]

/-- ranges of consecutive members do not overlap and come in order, all starting from `p` on. -/
def Ordered : Nat → List (Nat × Nat) → Prop
  | _, [] => True
  | p, (lo, hi) :: rest => p ≤ lo ∧ lo < hi ∧ Ordered hi rest

theorem ordered_lo : ∀ (l : List (Nat × Nat)) (p : Nat), Ordered p l → ∀ q ∈ l, p ≤ q.1
  | [], _, _, q, hq => by simp at hq
  | (lo, hi) :: rest, p, h, q, hq => by
    obtain ⟨h1, h2, h3⟩ := h
    rcases List.mem_cons.mp hq with rfl | hq
    · exact h1
    · have := ordered_lo rest hi h3 q hq
      omega

theorem searchWhere_some (m ph i : Nat) (l : List (Nat × Nat)) (hl : l ≠ []) (ho : Ordered ph l) (hm : ph ≤ m) :
    (∃ k, ∃ hk : k < l.length, searchWhere m (some ph) i l = some (some (i + k)) ∧ l[k].1 ≤ m ∧ m < l[k].2) ∨
      (searchWhere m (some ph) i l = some none ∧ ∀ q ∈ l, ¬ (q.1 ≤ m ∧ m < q.2)) := by
  induction l generalizing ph i with
  | nil => exact absurd rfl hl
  | cons q rest ih =>
    obtain ⟨lo, hi⟩ := q
    obtain ⟨h1, h2, h3⟩ := ho
    rw [searchWhere]
    by_cases c1 : m < lo
    · rw [if_pos ⟨hm, c1⟩]
      right
      refine ⟨rfl, ?_⟩
      intro q hq
      rcases List.mem_cons.mp hq with rfl | hq
      · simp only; omega
      · have := ordered_lo rest hi h3 q hq
        omega
    · rw [if_neg (by omega)]
      by_cases c2 : m < hi
      · rw [if_pos (by omega)]
        left
        exact ⟨0, by simp, by simp, by simpa using c1, by simpa using c2⟩
      · rw [if_neg (by omega)]
        by_cases c3 : rest = []
        · subst c3
          rw [if_pos (by simp; omega)]
          right
          refine ⟨rfl, ?_⟩
          intro q hq
          rw [List.mem_singleton] at hq
          subst hq
          simp only
          omega
        · have hne : ¬ (rest.isEmpty = true ∧ hi ≤ m) := by
            simp [c3]
          rw [if_neg hne]
          rcases ih hi (i + 1) c3 h3 (by omega) with ⟨k, hk, e, a, b⟩ | ⟨e, a⟩
          · left
            refine ⟨k + 1, by simp; omega, ?_, by simpa using a, by simpa using b⟩
            rw [e]
            congr 2
            omega
          · right
            refine ⟨e, ?_⟩
            intro q hq
            rcases List.mem_cons.mp hq with rfl | hq
            · simp only; omega
            · exact a q hq

theorem searchWhere_none (m : Nat) (l : List (Nat × Nat)) (hl : 2 ≤ l.length) (ho : Ordered 0 l) :
    (∃ k, ∃ hk : k < l.length, searchWhere m none 0 l = some (some k) ∧ l[k].1 ≤ m ∧ m < l[k].2) ∨
      (searchWhere m none 0 l = some none ∧ ∀ q ∈ l, ¬ (q.1 ≤ m ∧ m < q.2)) := by
  cases l with
  | nil => simp at hl
  | cons q rest =>
    obtain ⟨lo, hi⟩ := q
    obtain ⟨h1, h2, h3⟩ := ho
    rw [searchWhere]
    have hne : rest ≠ [] := by
      intro h
      simp [h] at hl
    by_cases c1 : m < lo
    · rw [if_pos c1]
      right
      refine ⟨rfl, ?_⟩
      intro q hq
      rcases List.mem_cons.mp hq with rfl | hq
      · simp only; omega
      · have := ordered_lo rest hi h3 q hq
        omega
    · rw [if_neg c1]
      by_cases c2 : m < hi
      · rw [if_pos (by omega)]
        left
        exact ⟨0, by simp, by simp, by simpa using c1, by simpa using c2⟩
      · rw [if_neg (by omega)]
        rcases searchWhere_some m hi 1 rest hne h3 (by omega) with ⟨k, hk, e, a, b⟩ | ⟨e, a⟩
        · left
          refine ⟨k + 1, by simp; omega, ?_, by simpa using a, by simpa using b⟩
          simp only [Nat.zero_add]
          rw [e]
          congr 2
          omega
        · right
          refine ⟨e, ?_⟩
          intro q hq
          rcases List.mem_cons.mp hq with rfl | hq
          · simp only; omega
          · exact a q hq

theorem findWhere_many (m : Nat) : ∀ (l : List (Nat × Nat)), 2 ≤ l.length →
    findWhere m l = searchWhere m none 0 l
  | [], h => by simp at h
  | [_], h => by simp at h
  | _ :: _ :: _, _ => rfl

theorem vecMax_isSome {l : List Nat} (h : l ≠ []) : ∃ m, vecMax l = some m := by
  cases l with
  | nil => exact absurd rfl h
  | cons a l => exact ⟨_, rfl⟩

theorem vecMin_isSome {l : List Nat} (h : l ≠ []) : ∃ m, vecMin l = some m := by
  cases l with
  | nil => exact absurd rfl h
  | cons a l => exact ⟨_, rfl⟩

theorem localRange_spec (g : GM) (r : Nat) (hne : g.getD r [] ≠ [])
    (hv : ∀ p ∈ g.getD r [], p.2 ≠ []) :
    ∃ a b, localRange g r = some (some (a, b)) ∧
      (∀ p ∈ g.getD r [], ∀ d ∈ p.2, a ≤ d ∧ d < b) ∧ (∃ p ∈ g.getD r [], a ∈ p.2) ∧
      (∃ p ∈ g.getD r [], ∃ d ∈ p.2, d + 1 = b) := by
  set L := g.getD r [] with hL
  obtain ⟨mi, hmi⟩ := mapM_isSome vecMin (L.map Prod.snd) (by
    intro v hvm
    obtain ⟨p, hp, rfl⟩ := List.mem_map.mp hvm
    exact vecMin_isSome (hv p hp))
  obtain ⟨ma, hma⟩ := mapM_isSome vecMax (L.map Prod.snd) (by
    intro v hvm
    obtain ⟨p, hp, rfl⟩ := List.mem_map.mp hvm
    exact vecMax_isSome (hv p hp))
  obtain ⟨li, gi⟩ := (mapM_some_iff _ _ _).mp hmi
  obtain ⟨la, ga⟩ := (mapM_some_iff _ _ _).mp hma
  have hpos : 0 < L.length := List.length_pos_iff.mpr hne
  have hmine : mi ≠ [] := by
    intro h
    simp [h] at li
    omega
  have hmane : ma ≠ [] := by
    intro h
    simp [h] at la
    omega
  obtain ⟨a, ha⟩ := vecMin_isSome hmine
  obtain ⟨b, hb⟩ := vecMax_isSome hmane
  refine ⟨a, b + 1, ?_, ?_, ?_, ?_⟩
  · unfold localRange
    rw [← hL]
    have : L.isEmpty = false := by simpa using hne
    simp [this, hmi, hma, ha, hb]
  · intro p hp d hd
    obtain ⟨i, hi, rfl⟩ := List.getElem_of_mem hp
    have h1 := gi i (by simpa using hi) (by simp at li; omega)
    have h2 := ga i (by simpa using hi) (by simp at la; omega)
    simp only [List.getElem_map] at h1 h2
    have k1 := (vecMin_le h1).2 d hd
    have k2 := (vecMax_ge h2).2 d hd
    have k3 := (vecMin_le ha).2 _ (List.getElem_mem (by simp at li; omega : i < mi.length))
    have k4 := (vecMax_ge hb).2 _ (List.getElem_mem (by simp at la; omega : i < ma.length))
    omega
  · obtain ⟨i, hi, hia⟩ := List.getElem_of_mem (vecMin_le ha).1
    have hi' : i < L.length := by simp at li; omega
    have h1 := gi i (by simpa using hi') hi
    simp only [List.getElem_map] at h1
    exact ⟨L[i], List.getElem_mem hi', by rw [← hia]; exact (vecMin_le h1).1⟩
  · obtain ⟨i, hi, hib⟩ := List.getElem_of_mem (vecMax_ge hb).1
    have hi' : i < L.length := by simp at la; omega
    have h1 := ga i (by simpa using hi') hi
    simp only [List.getElem_map] at h1
    exact ⟨L[i], List.getElem_mem hi', b, by rw [← hib]; exact (vecMax_ge h1).1, rfl⟩

theorem ordered_of_getElem : ∀ (l : List (Nat × Nat)) (p : Nat),
    (∀ i (h : i < l.length), l[i].1 < l[i].2) → (∀ h : 0 < l.length, p ≤ l[0].1) →
    (∀ i (h : i + 1 < l.length), l[i].2 ≤ l[i + 1].1) → Ordered p l
  | [], _, _, _, _ => trivial
  | (lo, hi) :: rest, p, h1, h2, h3 => by
    refine ⟨h2 (by simp), h1 0 (by simp), ?_⟩
    apply ordered_of_getElem rest hi
    · intro i h
      exact h1 (i + 1) (by simp; omega)
    · intro h
      exact h3 0 (by simp; omega)
    · intro i h
      exact h3 (i + 1) (by simp; omega)

end Mifem.Gath
