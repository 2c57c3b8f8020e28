import Verif.Model.NodeSOS
import Mathlib.Data.Fintype.Basic
import Mathlib.Algebra.BigOperators.Ring.Finset
import Mathlib.Data.Int.Cast.Lemmas
import Mathlib.Tactic.Ring
import Mathlib.Tactic.LinearCombination

/-!
# C110: overcoming the singularity of hybrid 0-forms at an internal node

The specification speaks of the equations that the rows of the four trace dofs at the node give after assembly, and of the column of
the edge dof that is skipped.
-/

namespace Mifem.Props.Node110
open Mifem.NodeSOS

instance : Fintype Corner := ⟨⟨([.EF, .WF, .WB, .EB] : List Corner), by decide⟩, by intro x; cases x <;> decide⟩
instance : Fintype End := ⟨⟨([.E, .F, .W, .B] : List End), by decide⟩, by intro x; cases x <;> decide⟩

/-! ## The dictionaries -/

theorem fold_nodup {α : Type} [DecidableEq α] (l : List α) : ∀ acc : List α, acc.Nodup →
    (l.foldl (fun acc x => if x ∈ acc then acc else acc ++ [x]) acc).Nodup ∧
      ∀ x, x ∈ l.foldl (fun acc x => if x ∈ acc then acc else acc ++ [x]) acc ↔ x ∈ acc ∨ x ∈ l := by
  induction l with
  | nil => intro acc h; simpa using h
  | cons a l ih =>
    intro acc h
    rw [List.foldl_cons]
    by_cases ha : a ∈ acc
    · rw [if_pos ha]
      refine ⟨(ih acc h).1, fun x => ?_⟩
      rw [(ih acc h).2]
      constructor
      · rintro (h | h) <;> simp [h]
      · rintro (h | h)
        · exact Or.inl h
        · rcases List.mem_cons.1 h with h | h
          · exact Or.inl (h ▸ ha)
          · exact Or.inr h
    · rw [if_neg ha]
      have h' : (acc ++ [a]).Nodup := by
        rw [List.nodup_append]
        refine ⟨h, by simp, ?_⟩
        intro x hx y hy
        rw [List.mem_singleton.1 hy]
        rintro rfl
        exact ha hx
      refine ⟨(ih _ h').1, fun x => ?_⟩
      rw [(ih _ h').2]
      simp [or_assoc]

theorem gather_nodup {α : Type} [DecidableEq α] (all : List α) (has : List (α → Bool)) : (gather all has).Nodup :=
  (fold_nodup _ [] List.nodup_nil).1

theorem mem_gather {α : Type} [DecidableEq α] (all : List α) (has : List (α → Bool)) (x : α) :
    x ∈ gather all has ↔ x ∈ all ∧ ∃ h ∈ has, h x = true := by
  unfold gather
  rw [(fold_nodup _ [] List.nodup_nil).2]
  simp only [List.not_mem_nil, false_or, List.mem_flatMap, List.mem_filter]
  constructor
  · rintro ⟨h, h1, h2, h3⟩
    exact ⟨h2, h, h1, h3⟩
  · rintro ⟨h2, h, h1, h3⟩
    exact ⟨h, h1, h2, h3⟩

theorem sos_traces (cores : List (List (Bool × Corner))) (h : ∀ p, ∃ l ∈ cores, p ∈ l) (q : Corner) : q ∈ (sos cores).1 := by
  obtain ⟨l, hl, hp⟩ := h (true, q)
  exact List.mem_flatMap.2 ⟨l, hl, List.mem_flatMap.2 ⟨_, hp, by simp [sosTrace]⟩⟩

theorem sos_edges (cores : List (List (Bool × Corner))) (h : ∀ p, ∃ l ∈ cores, p ∈ l) (d : End) : d ∈ (sos cores).2 := by
  have key : ∃ q, d ∈ sosEdge (true, q) := by cases d <;> decide
  obtain ⟨q, hq⟩ := key
  obtain ⟨l, hl, hp⟩ := h (true, q)
  exact List.mem_flatMap.2 ⟨l, hl, List.mem_flatMap.2 ⟨_, hp, hq⟩⟩

/-! ## The pairing -/

/-- Four different trace dofs, three different edge dofs next to them, the fourth edge dof left. -/
def good : Option (List (Corner × End × Bool) × End) → Bool
  | some ([(q0, d0, false), (q1, e0, true), (q2, d1, false), (q3, d2, false)], d3) =>
    e0 == d0 && decide [q0, q1, q2, q3].Nodup && decide [d0, d1, d2, d3].Nodup && q0.letters.contains d0 && q1.letters.contains d0 &&
      q2.letters.contains d1 && q3.letters.contains d2
  | _ => false

theorem plan_good4 : ∀ a b c d : Corner, [a, b, c, d].Nodup → ∀ e f g h : End, [e, f, g, h].Nodup →
    good (plan [a, b, c, d] [e, f, g, h]) = true := by
  decide +kernel

theorem four {α : Type} [Fintype α] [DecidableEq α] (hc : Fintype.card α = 4) (l : List α) (hn : l.Nodup) (h : ∀ x, x ∈ l) :
    ∃ a b c d, l = [a, b, c, d] := by
  have h1 : l.length = 4 := by
    have h2 : l.toFinset = Finset.univ := by ext x; simp [h x]
    rw [← List.toFinset_card_of_nodup hn, h2, Finset.card_univ, hc]
  match l, h1 with
  | [a, b, c, d], _ => exact ⟨a, b, c, d, rfl⟩

theorem plan_spec (ts : List Corner) (es : List End) (ht : ts.Nodup) (he : es.Nodup) (htm : ∀ q, q ∈ ts) (hem : ∀ d, d ∈ es) :
    ∃ q0 q1 q2 q3 d0 d1 d2 d3,
      plan ts es = some ([(q0, d0, false), (q1, d0, true), (q2, d1, false), (q3, d2, false)], d3) ∧ [q0, q1, q2, q3].Nodup ∧
        [d0, d1, d2, d3].Nodup ∧ d0 ∈ q0.letters ∧ d0 ∈ q1.letters ∧ d1 ∈ q2.letters ∧ d2 ∈ q3.letters := by
  obtain ⟨a, b, c, d, rfl⟩ := four (by decide) ts ht htm
  obtain ⟨e, f, g, h, rfl⟩ := four (by decide) es he hem
  have hg := plan_good4 a b c d ht e f g h he
  generalize plan [a, b, c, d] [e, f, g, h] = r at hg
  unfold good at hg
  split at hg
  · rename_i q0 d0 q1 e0 q2 d1 q3 d2 d3
    simp only [Bool.and_eq_true, beq_iff_eq, decide_eq_true_eq, List.contains_iff_mem] at hg
    obtain ⟨⟨⟨⟨⟨⟨rfl, h1⟩, h2⟩, h3⟩, h4⟩, h5⟩, h6⟩ := hg
    exact ⟨q0, q1, q2, q3, _, d1, d2, d3, rfl, h1, h2, h3, h4, h5, h6⟩
  · cases hg

/-! ## The rows -/

/-- The entries of the row of a trace dof in the mesh element above (`true`) or below. -/
def entry (edof : End → ℕ) (ndof sdof : ℕ) (p : Corner × End × Bool) (b : Bool) (c : ℕ) : ℤ :=
  if b = p.2.2 then (if c = (if p.2.2 then ndof else sdof) then 1 else 0) else (if c = edof p.2.1 then -1 else 0)

theorem connectAt_eq (tdof : Corner → ℕ) (edof : End → ℕ) (ndof sdof : ℕ) (cols : Oct → List ℕ) (p : Corner × End × Bool) (b : Bool)
    (CT : Mat × Mat) (h0 : ∀ c, CT.1 (b, p.1) (tdof p.1) c = 0) (hd : p.2.1 ∈ p.1.letters) :
    ∃ CT', connectAt tdof edof ndof sdof cols p (b, p.1) CT = some CT' ∧
      (∀ c, CT'.1 (b, p.1) (tdof p.1) c = entry edof ndof sdof p b c) ∧ (∀ c, CT'.2 (b, p.1) (tdof p.1) c = 0) ∧
      ∀ o r c, ¬ (o = (b, p.1) ∧ r = tdof p.1) → CT'.1 o r c = CT.1 o r c ∧ CT'.2 o r c = CT.2 o r c := by
  unfold connectAt
  dsimp only
  rw [if_neg (by simp [h0]), if_neg (by simp [hasEdge, hd])]
  refine ⟨_, rfl, ?_, ?_, ?_⟩
  · intro c
    by_cases hb : b = p.2.2
    · simp only [hb, if_true, entry, true_and]
      by_cases hc : c = if p.2.2 = true then ndof else sdof
      · simp [hc]
      · rw [if_neg hc, if_neg hc, ← hb, h0]
    · simp only [hb, if_false, entry, true_and]
      by_cases hc : c = edof p.2.1
      · simp [hc]
      · rw [if_neg hc, if_neg hc, h0]
  · intro c
    simp
  · intro o r c h
    dsimp only
    rw [if_neg h, if_neg (fun h' => h ⟨h'.1, h'.2.1⟩)]
    exact ⟨rfl, rfl⟩

theorem connect_eq (tdof : Corner → ℕ) (edof : End → ℕ) (ndof sdof : ℕ) (cols : Oct → List ℕ) (order : Corner → Bool)
    (p : Corner × End × Bool) (CT : Mat × Mat) (h0 : ∀ b c, CT.1 (b, p.1) (tdof p.1) c = 0) (hd : p.2.1 ∈ p.1.letters) :
    ∃ CT', connect tdof edof ndof sdof cols order p CT = some CT' ∧
      (∀ b c, CT'.1 (b, p.1) (tdof p.1) c = entry edof ndof sdof p b c) ∧ (∀ b c, CT'.2 (b, p.1) (tdof p.1) c = 0) ∧
      ∀ o r c, ¬ (o.2 = p.1 ∧ r = tdof p.1) → CT'.1 o r c = CT.1 o r c ∧ CT'.2 o r c = CT.2 o r c := by
  unfold connect
  generalize order p.1 = b
  obtain ⟨A, h1, h2, h3, h4⟩ := connectAt_eq tdof edof ndof sdof cols p b CT (h0 b) hd
  have hne : ∀ x : Bool, x ≠ b → ¬ (((x, p.1) : Oct) = (b, p.1) ∧ tdof p.1 = tdof p.1) := by
    rintro x hx ⟨h, _⟩
    exact hx (Prod.mk.inj h).1
  have hnb : (!b) ≠ b := by cases b <;> decide
  obtain ⟨B, k1, k2, k3, k4⟩ := connectAt_eq tdof edof ndof sdof cols p (!b) A
    (fun c => by rw [(h4 _ _ c (hne _ hnb)).1, h0]) hd
  have hne' : ¬ (((b, p.1) : Oct) = (!b, p.1) ∧ tdof p.1 = tdof p.1) := by
    rintro ⟨h, _⟩
    exact hnb (Prod.mk.inj h).1.symm
  refine ⟨B, by rw [h1]; exact k1, ?_, ?_, ?_⟩
  · intro x c
    by_cases hx : x = b
    · rw [hx, (k4 _ _ c hne').1, h2]
    · have : x = !b := by cases x <;> cases b <;> simp_all
      rw [this, k2]
  · intro x c
    by_cases hx : x = b
    · rw [hx, (k4 _ _ c hne').2, h3]
    · have : x = !b := by cases x <;> cases b <;> simp_all
      rw [this, k3]
  · intro o r c h
    have g1 : ∀ b', ¬ (o = (b', p.1) ∧ r = tdof p.1) := by
      rintro b' ⟨rfl, h'⟩
      exact h ⟨rfl, h'⟩
    rw [(k4 o r c (g1 _)).1, (k4 o r c (g1 _)).2]
    exact h4 o r c (g1 _)

theorem fold_eq (tdof : Corner → ℕ) (edof : End → ℕ) (ndof sdof : ℕ) (cols : Oct → List ℕ) (order : Corner → Bool) :
    ∀ (ps : List (Corner × End × Bool)) (CT : Mat × Mat), (ps.map (·.1)).Nodup →
      (∀ p ∈ ps, p.2.1 ∈ p.1.letters) → (∀ p ∈ ps, ∀ b c, CT.1 (b, p.1) (tdof p.1) c = 0) →
      ∃ CT', ps.foldlM (fun CT p => connect tdof edof ndof sdof cols order p CT) CT = some CT' ∧
        (∀ p ∈ ps, ∀ b c, CT'.1 (b, p.1) (tdof p.1) c = entry edof ndof sdof p b c ∧ CT'.2 (b, p.1) (tdof p.1) c = 0) ∧
        ∀ o r c, (∀ p ∈ ps, ¬ (o.2 = p.1 ∧ r = tdof p.1)) → CT'.1 o r c = CT.1 o r c ∧ CT'.2 o r c = CT.2 o r c := by
  intro ps
  induction ps with
  | nil => intro CT _ _ _; exact ⟨CT, rfl, by simp, fun _ _ _ _ => ⟨rfl, rfl⟩⟩
  | cons p ps ih =>
    intro CT hn hd h0
    rw [List.map_cons, List.nodup_cons] at hn
    obtain ⟨A, h1, h2, h3, h4⟩ := connect_eq tdof edof ndof sdof cols order p CT (h0 p (by simp)) (hd p (by simp))
    have hsep : ∀ p' ∈ ps, p'.1 ≠ p.1 := fun p' hp' he => hn.1 (he ▸ List.mem_map.2 ⟨p', hp', rfl⟩)
    obtain ⟨B, k1, k2, k3⟩ := ih A hn.2 (fun p' hp' => hd p' (by simp [hp'])) (by
      intro p' hp' b c
      rw [(h4 (b, p'.1) (tdof p'.1) c (fun h => hsep p' hp' h.1)).1]
      exact h0 p' (by simp [hp']) b c)
    refine ⟨B, ?_, ?_, ?_⟩
    · rw [List.foldlM_cons, h1]
      exact k1
    · intro p' hp' b c
      rcases List.mem_cons.1 hp' with rfl | hp'
      · have hk := k3 (b, p'.1) (tdof p'.1) c (fun p'' hp'' h => hsep p'' hp'' h.1.symm)
        rw [hk.1, hk.2]
        exact ⟨h2 b c, h3 b c⟩
      · exact k2 p' hp' b c
    · intro o r c h
      have hk := k3 o r c (fun p' hp' => h p' (by simp [hp']))
      rw [hk.1, hk.2]
      exact h4 o r c (h p (by simp))

open Finset in
theorem row_sum {K : Type} [CommRing K] (edof : End → ℕ) (ndof sdof : ℕ) (p : Corner × End × Bool) (S : Finset ℕ)
    (hn : ndof ∈ S) (hs : sdof ∈ S) (he : edof p.2.1 ∈ S) (x : ℕ → K) :
    ∑ c ∈ S, ((entry edof ndof sdof p true c + entry edof ndof sdof p false c : ℤ) : K) * x c =
      x (if p.2.2 then ndof else sdof) - x (edof p.2.1) := by
  have h : ∀ c, ((entry edof ndof sdof p true c + entry edof ndof sdof p false c : ℤ) : K) * x c =
      (if c = (if p.2.2 then ndof else sdof) then x c else 0) - (if c = edof p.2.1 then x c else 0) := by
    intro c
    unfold entry
    cases p.2.2 <;> simp only [if_true, if_false, Bool.false_eq_true, Bool.true_eq_false] <;>
      split_ifs <;> push_cast <;> ring
  rw [sum_congr rfl (fun c _ => h c), sum_sub_distrib, sum_ite_eq', sum_ite_eq', if_pos he]
  rw [if_pos]
  split_ifs <;> assumption

/-! ## The claims -/

/-- Whatever mesh elements, trace elements and edge elements the cores have (each at least one core), the setting at an internal node
succeeds; after assembly the rows of the four trace dofs say exactly that the dofs of the north and south edge elements and of three of
the four edge elements of the plane have the same value at the node; the column of the fourth, which is the one that is skipped, is
empty in all mesh elements that have it; the rows of `T` are empty; the entries in a mesh element are for dofs that it has; nothing else is changed in other rows and columns. -/
theorem c110_connects {K : Type} [CommRing K] (tdof : Corner → ℕ) (edof : End → ℕ) (ndof sdof : ℕ)
    (hei : Function.Injective edof) (hne : ∀ d, edof d ≠ ndof) (hse : ∀ d, edof d ≠ sdof)
    (cols : Oct → List ℕ) (order : Corner → Bool) (C T : Mat)
    (hC : ∀ b q c, C (b, q) (tdof q) c ≠ 0 → ∃ d ∈ q.letters, c = edof d)
    (cores : List (List (Bool × Corner))) (hcores : ∀ p, ∃ l ∈ cores, p ∈ l)
    (hasT : List (Corner → Bool)) (hT : ∀ q, ∃ h ∈ hasT, h q = true) (hasE : List (End → Bool)) (hE : ∀ d, ∃ h ∈ hasE, h d = true)
    (S : Finset ℕ) (hnS : ndof ∈ S) (hsS : sdof ∈ S) (heS : ∀ d, edof d ∈ S) :
    ∃ C' T' skip, overcome tdof edof ndof sdof cols order (gather (sos cores).1 hasT) (gather (sos cores).2 hasE) C T =
        some ((C', T'), skip) ∧
      (∀ x : ℕ → K, (∀ q, ∑ c ∈ S, ((C' (true, q) (tdof q) c + C' (false, q) (tdof q) c : ℤ) : K) * x c = 0) ↔
        x ndof = x sdof ∧ ∀ d, d ≠ skip → x (edof d) = x sdof) ∧
      (∀ o r, skip ∈ o.2.letters → C' o r (edof skip) = 0) ∧
      (∀ b q c, T' (b, q) (tdof q) c = 0) ∧
      (∀ b q c, C' (b, q) (tdof q) c ≠ 0 → c = (if b then ndof else sdof) ∨ ∃ d ∈ q.letters, c = edof d) ∧
      ∀ o r, r ≠ tdof o.2 → (∀ c, T' o r c = T o r c) ∧ ∀ c, (∀ d, c ≠ edof d) → C' o r c = C o r c := by
  obtain ⟨q0, q1, q2, q3, d0, d1, d2, d3, hp, hq, hd, a0, a1, a2, a3⟩ :=
    plan_spec _ _ (gather_nodup (sos cores).1 hasT) (gather_nodup (sos cores).2 hasE)
      (fun q => (mem_gather _ _ q).2 ⟨sos_traces cores hcores q, hT q⟩)
      (fun d => (mem_gather _ _ d).2 ⟨sos_edges cores hcores d, hE d⟩)
  have hall : ∀ d, d ∈ gather (sos cores).2 hasE := fun d => (mem_gather _ _ d).2 ⟨sos_edges cores hcores d, hE d⟩
  generalize gather (sos cores).2 hasE = es at hp hall
  generalize gather (sos cores).1 hasT = ts at hp
  have hqa : ∀ q, q ∈ [q0, q1, q2, q3] := by
    intro q
    have h : [q0, q1, q2, q3].toFinset = Finset.univ := by
      rw [← Finset.card_eq_iff_eq_univ, List.toFinset_card_of_nodup hq]; rfl
    have : q ∈ [q0, q1, q2, q3].toFinset := by rw [h]; simp
    exact List.mem_toFinset.1 this
  have hda : ∀ d, d ∈ [d0, d1, d2, d3] := by
    intro d
    have h : [d0, d1, d2, d3].toFinset = Finset.univ := by
      rw [← Finset.card_eq_iff_eq_univ, List.toFinset_card_of_nodup hd]; rfl
    have : d ∈ [d0, d1, d2, d3].toFinset := by rw [h]; simp
    exact List.mem_toFinset.1 this
  have hz : ∀ b q c, clear edof es C (b, q) (tdof q) c = 0 := by
    intro b q c
    unfold clear
    split_ifs with h
    · rfl
    · by_contra hne
      obtain ⟨d, h1, h2⟩ := hC b q c hne
      exact h (List.any_eq_true.2 ⟨d, hall d, by simp [h2, hasEdge, h1]⟩)
  obtain ⟨CT', k1, k2, k3⟩ := fold_eq tdof edof ndof sdof cols order
    [(q0, d0, false), (q1, d0, true), (q2, d1, false), (q3, d2, false)] (clear edof es C, T) hq (by simp [a0, a1, a2, a3])
    (fun p _ b c => hz b p.1 c)
  have hd30 : d0 ≠ d3 ∧ d1 ≠ d3 ∧ d2 ≠ d3 := by
    simp only [List.nodup_cons, List.mem_cons, List.not_mem_nil, or_false, not_or] at hd
    exact ⟨hd.1.2.2, hd.2.1.2, hd.2.2.1⟩
  refine ⟨CT'.1, CT'.2, d3, ?_, ?_, ?_, ?_, ?_, ?_⟩
  · unfold overcome
    rw [hp]
    show Option.bind (List.foldlM (fun CT p => connect tdof edof ndof sdof cols order p CT) (clear edof es C, T)
      [(q0, d0, false), (q1, d0, true), (q2, d1, false), (q3, d2, false)]) _ = _
    rw [k1]
    rfl
  · intro x
    have hrow : ∀ p ∈ [(q0, d0, false), (q1, d0, true), (q2, d1, false), (q3, d2, false)],
        ∑ c ∈ S, ((CT'.1 (true, p.1) (tdof p.1) c + CT'.1 (false, p.1) (tdof p.1) c : ℤ) : K) * x c =
          x (if p.2.2 then ndof else sdof) - x (edof p.2.1) := by
      intro p hpm
      rw [← row_sum edof ndof sdof p S hnS hsS (heS _) x]
      refine Finset.sum_congr rfl fun c _ => ?_
      rw [(k2 p hpm true c).1, (k2 p hpm false c).1]
    have r0 := hrow (q0, d0, false) (by simp)
    have r1 := hrow (q1, d0, true) (by simp)
    have r2 := hrow (q2, d1, false) (by simp)
    have r3 := hrow (q3, d2, false) (by simp)
    dsimp only at r0 r1 r2 r3
    constructor
    · intro h
      rw [h] at r0 r1 r2 r3
      simp only [if_true, Bool.false_eq_true, if_false] at r0 r1 r2 r3
      refine ⟨by linear_combination r0 - r1, ?_⟩
      intro d hd'
      rcases List.mem_cons.1 (hda d) with rfl | h1
      · linear_combination r0
      rcases List.mem_cons.1 h1 with rfl | h1
      · linear_combination r2
      rcases List.mem_cons.1 h1 with rfl | h1
      · linear_combination r3
      exact absurd (List.mem_singleton.1 h1) hd'
    · rintro ⟨h1, h2⟩ q
      have hq' := hqa q
      simp only [List.mem_cons, List.not_mem_nil, or_false] at hq'
      rcases hq' with rfl | rfl | rfl | rfl
      · rw [r0, h2 d0 hd30.1]; simp
      · rw [r1, h2 d0 hd30.1]; simp [h1]
      · rw [r2, h2 d1 hd30.2.1]; simp
      · rw [r3, h2 d2 hd30.2.2]; simp
  · intro o r ho
    by_cases hr : r = tdof o.2
    · have hq' := hqa o.2
      have hcol : ∀ p ∈ [(q0, d0, false), (q1, d0, true), (q2, d1, false), (q3, d2, false)], o.2 = p.1 → p.2.1 ≠ d3 →
          CT'.1 o r (edof d3) = 0 := by
        intro p hpm h1 h2
        have := (k2 p hpm o.1 (edof d3)).1
        rw [hr]
        have ho' : o = (o.1, p.1) := by rw [← h1]
        rw [ho', this]
        unfold entry
        have g0 : edof d3 ≠ if p.2.2 = true then ndof else sdof := by
          cases p.2.2
          · exact hse d3
          · exact hne d3
        rw [if_neg g0, if_neg (fun g => h2 (hei g).symm), ite_self]
      simp only [List.mem_cons, List.not_mem_nil, or_false] at hq'
      rcases hq' with h | h | h | h
      · exact hcol (q0, d0, false) (by simp) h hd30.1
      · exact hcol (q1, d0, true) (by simp) h hd30.1
      · exact hcol (q2, d1, false) (by simp) h hd30.2.1
      · exact hcol (q3, d2, false) (by simp) h hd30.2.2
    · rw [(k3 o r _ (fun p _ h => hr (h.1 ▸ h.2))).1]
      show clear edof es C o r (edof d3) = 0
      unfold clear
      rw [if_pos (List.any_eq_true.2 ⟨d3, hall d3, by simp [hasEdge, ho]⟩)]
  · intro b q c
    have hcol : ∀ p ∈ [(q0, d0, false), (q1, d0, true), (q2, d1, false), (q3, d2, false)], q = p.1 →
        CT'.2 (b, q) (tdof q) c = 0 := by
      rintro p hpm rfl
      exact (k2 p hpm b c).2
    have hq' := hqa q
    simp only [List.mem_cons, List.not_mem_nil, or_false] at hq'
    rcases hq' with h | h | h | h
    · exact hcol (q0, d0, false) (by simp) h
    · exact hcol (q1, d0, true) (by simp) h
    · exact hcol (q2, d1, false) (by simp) h
    · exact hcol (q3, d2, false) (by simp) h
  · intro b q c
    have hcol : ∀ p ∈ [(q0, d0, false), (q1, d0, true), (q2, d1, false), (q3, d2, false)], q = p.1 → p.2.1 ∈ p.1.letters →
        CT'.1 (b, q) (tdof q) c ≠ 0 → c = (if b then ndof else sdof) ∨ ∃ d ∈ q.letters, c = edof d := by
      rintro p hpm rfl hd h
      rw [(k2 p hpm b c).1] at h
      unfold entry at h
      by_cases g1 : b = p.2.2
      · rw [if_pos g1] at h
        left
        rw [g1]
        by_contra g2
        exact h (if_neg g2)
      · rw [if_neg g1] at h
        right
        refine ⟨_, hd, ?_⟩
        by_contra g2
        exact h (if_neg g2)
    have hq' := hqa q
    simp only [List.mem_cons, List.not_mem_nil, or_false] at hq'
    rcases hq' with h | h | h | h
    · exact hcol (q0, d0, false) (by simp) h a0
    · exact hcol (q1, d0, true) (by simp) h a1
    · exact hcol (q2, d1, false) (by simp) h a2
    · exact hcol (q3, d2, false) (by simp) h a3
  · intro o r hr
    refine ⟨fun c => (k3 o r c (fun p _ h => hr (h.1 ▸ h.2))).2, fun c hc => ?_⟩
    rw [(k3 o r c (fun p _ h => hr (h.1 ▸ h.2))).1]
    show clear edof es C o r c = C o r c
    unfold clear
    rw [if_neg]
    intro h
    obtain ⟨d, _, h⟩ := List.any_eq_true.1 h
    simp only [Bool.and_eq_true, beq_iff_eq] at h
    exact hc d h.1.symm

/-- Two cores: one with the mesh elements, trace elements and edge elements of the side of `F`, the other with the rest; no entries
in `C` before. -/
example : ∃ C' T' skip, overcome (fun | .EF => 0 | .WF => 1 | .WB => 2 | .EB => 3) (fun | .E => 10 | .F => 11 | .W => 12 | .B => 13)
    14 15 (fun _ => [10, 11, 12, 13, 14, 15]) (fun _ => true)
    (gather (sos [[(true, .WF), (true, .EF), (false, .EF), (false, .WF)], [(true, .EB), (false, .EB), (true, .WB), (false, .WB)]]).1
      [fun | .EF => true | .WF => true | _ => false, fun _ => true])
    (gather (sos [[(true, .WF), (true, .EF), (false, .EF), (false, .WF)], [(true, .EB), (false, .EB), (true, .WB), (false, .WB)]]).2
      [fun | .B => false | _ => true, fun | .F => false | _ => true]) (fun _ _ _ => 0) (fun _ _ _ => 1) = some ((C', T'), skip) ∧
    ∀ b c, T' (b, .WB) 2 c = 0 := by
  obtain ⟨C', T', skip, h1, _, _, h2, _⟩ := c110_connects (K := ℤ) (fun | .EF => 0 | .WF => 1 | .WB => 2 | .EB => 3)
    (fun | .E => 10 | .F => 11 | .W => 12 | .B => 13) 14 15 (by intro a b; cases a <;> cases b <;> decide)
    (by intro d; cases d <;> decide) (by intro d; cases d <;> decide) (fun _ => [10, 11, 12, 13, 14, 15]) (fun _ => true)
    (fun _ _ _ => 0) (fun _ _ _ => 1) (by intro b q c h; exact absurd rfl h)
    [[(true, .WF), (true, .EF), (false, .EF), (false, .WF)], [(true, .EB), (false, .EB), (true, .WB), (false, .WB)]]
    (by rintro ⟨b, q⟩; cases b <;> cases q <;> simp)
    [fun | .EF => true | .WF => true | _ => false, fun _ => true] (by intro q; simp)
    [fun | .B => false | _ => true, fun | .F => false | _ => true] (by intro d; cases d <;> simp)
    (Finset.range 16) (by decide) (by decide) (by intro d; cases d <;> decide)
  exact ⟨C', T', skip, h1, fun b c => h2 b .WB c⟩

/-- Mesh element `WF` above first: the trace dof `WF` comes first and connects the edge dof `F` with the south; the edge dof `E`
(partner of `EF`) is left. -/
example : plan [.WF, .EF, .EB, .WB] [.F, .E, .B, .W] =
    some ([(.WF, .F, false), (.EF, .F, true), (.EB, .B, false), (.WB, .W, false)], .E) := by decide

end Mifem.Props.Node110
