import Verif.Lemmas.Hybrid
import Mathlib.Algebra.BigOperators.Ring.Finset
import Mathlib.Tactic.Ring
import Mathlib.Tactic.LinearCombination
import Mathlib.Data.List.Nodup

/-! Lemmas on `setEntries` and on the sequence of replacements. -/

namespace Mifem.Hybrid
open Finset

variable {K : Type*}

theorem setEntries_cons (M : Nat → Nat → K) (x : (Nat × Nat) × K) (l : List ((Nat × Nat) × K)) :
    setEntries M (x :: l) = setEntries (fun r c => if (r, c) = x.1 then x.2 else M r c) l := rfl

/-- an entry that is not assigned. -/
theorem setEntries_of_notMem {M : Nat → Nat → K} {l : List ((Nat × Nat) × K)} {r c : Nat}
    (h : (r, c) ∉ l.map (·.1)) : setEntries M l r c = M r c := by
  induction l generalizing M with
  | nil => rfl
  | cons x l ih =>
    simp only [List.map_cons, List.mem_cons, not_or] at h
    rw [setEntries_cons, ih h.2]
    simp [h.1]

/-- an entry assigned once. -/
theorem setEntries_of_mem {M : Nat → Nat → K} {l : List ((Nat × Nat) × K)} (hn : (l.map (·.1)).Nodup)
    {r c : Nat} {v : K} (h : ((r, c), v) ∈ l) : setEntries M l r c = v := by
  induction l generalizing M with
  | nil => simp at h
  | cons x l ih =>
    simp only [List.map_cons, List.nodup_cons] at hn
    rw [setEntries_cons]
    rcases List.mem_cons.1 h with e | h
    · rw [setEntries_of_notMem (by rw [← e] at hn; exact hn.1), ← e]; simp
    · exact ih hn.2 h

variable [CommRing K]

/-- a row of a matrix after assignments, applied to a vector. -/
theorem row_setEntries {n : Nat} (u : Nat → K) (r : Nat) (l : List ((Nat × Nat) × K)) (M : Nat → Nat → K)
    (hn : (l.map (·.1)).Nodup) (hb : ∀ x ∈ l, x.1.2 < n) :
    ∑ c ∈ range n, setEntries M l r c * u c
      = ∑ c ∈ range n, M r c * u c + (l.map fun x => if x.1.1 = r then (x.2 - M r x.1.2) * u x.1.2 else 0).sum := by
  induction l generalizing M with
  | nil => simp [setEntries]
  | cons x l ih =>
    simp only [List.map_cons, List.nodup_cons] at hn
    rw [setEntries_cons, ih _ hn.2 (fun y hy => hb y (List.mem_cons_of_mem _ hy)), List.map_cons, List.sum_cons]
    have h1 : ∑ c ∈ range n, (if (r, c) = x.1 then x.2 else M r c) * u c
        = ∑ c ∈ range n, M r c * u c + if x.1.1 = r then (x.2 - M r x.1.2) * u x.1.2 else 0 := by
      by_cases hr : x.1.1 = r
      · have hx : x.1.2 ∈ range n := mem_range.2 (hb x (by simp))
        rw [← Finset.add_sum_erase _ _ hx, ← Finset.add_sum_erase (range n) (fun c => M r c * u c) hx]
        have : ∑ c ∈ (range n).erase x.1.2, (if (r, c) = x.1 then x.2 else M r c) * u c
            = ∑ c ∈ (range n).erase x.1.2, M r c * u c := by
          refine Finset.sum_congr rfl fun c hc => ?_
          rw [if_neg]
          intro e
          exact (Finset.mem_erase.1 hc).1 (by rw [← e])
        rw [this, if_pos hr, if_pos (by rw [← hr])]
        ring
      · rw [if_neg hr, add_zero]
        refine Finset.sum_congr rfl fun c _ => ?_
        rw [if_neg]
        intro e; exact hr (by rw [← e])
    rw [h1, add_assoc]
    congr 2
    congr 1
    refine List.map_congr_left fun y hy => ?_
    by_cases hr : y.1.1 = r
    · rw [if_pos hr, if_pos hr, if_neg]
      intro e
      exact hn.1 (List.mem_map.2 ⟨y, hy, by rw [← e, ← hr]⟩)
    · rw [if_neg hr, if_neg hr]

/-- Moving entries keeps the row sums when the new unknowns equal the old ones. -/
theorem row_move {ns ne : Nat} {u e : Nat → K} {T C : Nat → Nat → K} {tf sf ef : List Nat}
    (hl : sf.length = tf.length) (hl' : tf.length = ef.length)
    (hs : sf.Nodup) (he : ef.Nodup) (hbs : ∀ s ∈ sf, s < ns) (hbe : ∀ x ∈ ef, x < ne)
    (hC : ∀ x ∈ ef, ∀ r, C r x = 0)
    (hue : ef.map e = sf.map u) (r : Nat) :
    ∑ c ∈ range ns, (moveEntries T C tf sf ef).1 r c * u c + ∑ c ∈ range ne, (moveEntries T C tf sf ef).2 r c * e c
      = ∑ c ∈ range ns, T r c * u c + ∑ c ∈ range ne, C r c * e c := by
  have z1 : ((tf.zip sf).map fun rc => (rc, (0:K))).map (·.1) = tf.zip sf := by
    rw [List.map_map]; exact List.map_id _
  have z2 : ((tf.zip ef).zip ((tf.zip sf).map fun rc => T rc.1 rc.2)).map (·.1) = tf.zip ef := by
    rw [List.map_fst_zip]
    simp; omega
  have n1 : (tf.zip sf).Nodup := by
    apply List.Nodup.of_map Prod.snd
    rw [List.map_snd_zip (by omega)]; exact hs
  have n2 : (tf.zip ef).Nodup := by
    apply List.Nodup.of_map Prod.snd
    rw [List.map_snd_zip (by omega)]; exact he
  unfold moveEntries
  rw [row_setEntries u r _ T (by rw [z1]; exact n1), row_setEntries e r _ C (by rw [z2]; exact n2)]
  · suffices h : (List.map (fun x : (Nat × Nat) × K => if x.1.1 = r then (x.2 - T r x.1.2) * u x.1.2 else 0)
        ((tf.zip sf).map fun rc => (rc, 0))).sum
        + (List.map (fun x : (Nat × Nat) × K => if x.1.1 = r then (x.2 - C r x.1.2) * e x.1.2 else 0)
          ((tf.zip ef).zip ((tf.zip sf).map fun rc => T rc.1 rc.2))).sum = 0 by
      linear_combination h
    clear z1 z2 n1 n2 hs he hbs hbe
    induction tf generalizing sf ef with
    | nil => simp
    | cons t tf ih =>
      match sf, ef, hl, hl' with
      | s :: sf, x :: ef, hl, hl' =>
        simp only [List.map_cons, List.cons.injEq] at hue
        have := ih (by simpa using hl) (by simpa using hl')
          (fun y hy => hC y (List.mem_cons_of_mem _ hy)) hue.2
        simp only [List.zip_cons_cons, List.map_cons, List.sum_cons]
        by_cases hr : t = r
        · rw [if_pos hr, if_pos hr, hC x (by simp) r, hue.1, hr]
          linear_combination this
        · rw [if_neg hr, if_neg hr]
          linear_combination this
  · intro x hx
    exact hbe _ (List.of_mem_zip (List.of_mem_zip hx).1).2
  · intro x hx
    obtain ⟨y, hy, rfl⟩ := List.mem_map.1 hx
    exact hbs _ (List.of_mem_zip hy).2

/-- columns of `C` outside `ef` are not touched. -/
theorem move_col {T C : Nat → Nat → K} {tf sf ef : List Nat} {r c : Nat} (h : c ∉ ef) :
    (moveEntries T C tf sf ef).2 r c = C r c := by
  unfold moveEntries
  apply setEntries_of_notMem
  intro hm
  obtain ⟨x, hx, hx'⟩ := List.mem_map.1 hm
  have := (List.of_mem_zip (List.of_mem_zip hx).1).2
  rw [show x.1.2 = c from congrArg Prod.snd hx'] at this
  exact h this

/-! ## all replacements one after the other -/

/-- move `mv` replaces through corner edge `h.2` of element `h.1`. -/
structure Fits (tb : Tables) (h : Nat × CEdge) (mv : Move) : Prop where
  elem : mv.elem = h.1
  sf : mv.sf = tb.sf h.2
  ef : mv.ef = tb.ef h.2
  len1 : mv.sf.length = mv.tf.length
  len2 : mv.tf.length = mv.ef.length

/-- what is needed from the tables: dofs of an edge are different, edge dofs of different edges too. -/
structure TablesOK (tb : Tables) (ns ne : Nat) : Prop where
  sf : ∀ ce, (tb.sf ce).Nodup
  ef : ∀ ce, (tb.ef ce).Nodup
  disj : ∀ ce ce', ce ≠ ce' → ∀ c ∈ tb.ef ce, c ∉ tb.ef ce'
  sf_lt : ∀ ce, ∀ s ∈ tb.sf ce, s < ns
  ef_lt : ∀ ce, ∀ s ∈ tb.ef ce, s < ne

omit [CommRing K] in
theorem setting_some {tb : Tables} {tmap : Nat → List Nat} {e : EdgeElem} {mv : Move} (h : setting tb tmap e = some mv) :
    ∃ hd, e.positions.head? = some hd ∧ Fits tb hd mv := by
  unfold setting at h
  match hp : e.positions, h with
  | [], h => simp at h
  | (m, ce) :: ps, h =>
    refine ⟨(m, ce), rfl, ?_⟩
    simp only [List.find?_cons, BEq.rfl] at h
    split at h
    · simp at h
    · split at h
      · rename_i hf
        simp only [Option.some.injEq] at hf
        split at h
        · simp at h
        · split at h
          · rename_i hl
            simp only [Option.some.injEq] at h
            subst h
            subst hf
            exact ⟨rfl, rfl, rfl, hl.1, hl.2⟩
          · simp at h
      · simp at h

theorem move1_of_ne {TC : (Nat → Nat → Nat → K) × (Nat → Nat → Nat → K)} {mv : Move} {m : Nat} (h : m ≠ mv.elem) :
    (move1 TC mv).1 m = TC.1 m ∧ (move1 TC mv).2 m = TC.2 m := by simp [move1, h]

theorem foldl_value {tb : Tables} {ns ne : Nat} (hok : TablesOK tb ns ne) {u e : Nat → Nat → K}
    (hs : List (Nat × CEdge)) (ms : List Move) (hf : List.Forall₂ (Fits tb) hs ms) (hn : hs.Nodup)
    (hue : ∀ h ∈ hs, (tb.ef h.2).map (e h.1) = (tb.sf h.2).map (u h.1))
    (TC : (Nat → Nat → Nat → K) × (Nat → Nat → Nat → K))
    (hC : ∀ h ∈ hs, ∀ x ∈ tb.ef h.2, ∀ r, TC.2 h.1 r x = 0) (m r : Nat) :
    ∑ c ∈ range ns, (ms.foldl move1 TC).1 m r c * u m c + ∑ c ∈ range ne, (ms.foldl move1 TC).2 m r c * e m c
      = ∑ c ∈ range ns, TC.1 m r c * u m c + ∑ c ∈ range ne, TC.2 m r c * e m c := by
  induction hf generalizing TC with
  | nil => rfl
  | @cons h mv hs ms h1 _ ih =>
    rw [List.nodup_cons] at hn
    rw [List.foldl_cons, ih hn.2 (fun h' hh' => hue h' (List.mem_cons_of_mem _ hh'))]
    · by_cases hm : m = mv.elem
      · have hm' : m = h.1 := hm.trans h1.elem
        simp only [move1, hm, if_pos]
        refine row_move h1.len1 h1.len2 ?_ ?_ ?_ ?_ ?_ ?_ r
        · rw [h1.sf]; exact hok.sf _
        · rw [h1.ef]; exact hok.ef _
        · rw [h1.sf]; exact hok.sf_lt _
        · rw [h1.ef]; exact hok.ef_lt _
        · rw [h1.ef, h1.elem]; exact hC h (by simp)
        · rw [h1.ef, h1.sf, h1.elem]; exact hue h (by simp)
      · rw [(move1_of_ne hm).1, (move1_of_ne hm).2]
    · intro h' hh' x hx r
      by_cases hm : h'.1 = mv.elem
      · simp only [move1, hm, if_pos]
        rw [move_col, ← hm]
        · exact hC h' (List.mem_cons_of_mem _ hh') x hx r
        · rw [h1.ef]
          refine hok.disj _ _ ?_ x hx
          intro e
          exact hn.1 (by rw [show h = h' from Prod.ext (h1.elem.symm.trans hm.symm) e.symm]; exact hh')
      · rw [(move1_of_ne hm).2]; exact hC h' (List.mem_cons_of_mem _ hh') x hx r

/-- places moved by a move, in `T` and in `C`. -/
def Move.atT (mv : Move) (m r c : Nat) : Prop := m = mv.elem ∧ (r, c) ∈ mv.tf.zip mv.sf
@[inherit_doc Move.atT] def Move.atC (mv : Move) (m r c : Nat) : Prop := m = mv.elem ∧ (r, c) ∈ mv.tf.zip mv.ef

omit [CommRing K] in
theorem nodup_zip_right {α β : Type*} {l : List α} {l' : List β} (h : l'.length = l.length) (hn : l'.Nodup) :
    (l.zip l').Nodup := by
  apply List.Nodup.of_map Prod.snd
  rw [List.map_snd_zip (by omega)]; exact hn

theorem move1_T_mem {TC : (Nat → Nat → Nat → K) × (Nat → Nat → Nat → K)} {mv : Move} {m r c : Nat}
    (hl : mv.sf.length = mv.tf.length) (hn : mv.sf.Nodup) (h : mv.atT m r c) : (move1 TC mv).1 m r c = 0 := by
  simp only [move1, h.1, if_pos, moveEntries]
  apply setEntries_of_mem
  · rw [List.map_map]; exact (List.map_id _).symm ▸ nodup_zip_right hl hn
  · exact List.mem_map.2 ⟨(r, c), h.2, rfl⟩

theorem move1_T_notMem {TC : (Nat → Nat → Nat → K) × (Nat → Nat → Nat → K)} {mv : Move} {m r c : Nat}
    (h : ¬ mv.atT m r c) : (move1 TC mv).1 m r c = TC.1 m r c := by
  by_cases hm : m = mv.elem
  · simp only [move1, hm, if_pos, moveEntries]
    apply setEntries_of_notMem
    rw [List.map_map]
    intro hh
    exact h ⟨hm, (List.map_id (mv.tf.zip mv.sf)) ▸ hh⟩
  · rw [(move1_of_ne hm).1]

theorem move1_C_notMem {TC : (Nat → Nat → Nat → K) × (Nat → Nat → Nat → K)} {mv : Move} {m r c : Nat}
    (h : ¬ mv.atC m r c) : (move1 TC mv).2 m r c = TC.2 m r c := by
  by_cases hm : m = mv.elem
  · simp only [move1, hm, if_pos, moveEntries]
    apply setEntries_of_notMem
    intro hh
    obtain ⟨x, hx, hx'⟩ := List.mem_map.1 hh
    exact h ⟨hm, hx' ▸ (List.of_mem_zip hx).1⟩
  · rw [(move1_of_ne hm).2]

theorem move1_C_mem {TC : (Nat → Nat → Nat → K) × (Nat → Nat → Nat → K)} {mv : Move}
    (hl : mv.sf.length = mv.tf.length) (hl' : mv.tf.length = mv.ef.length) (hn : mv.ef.Nodup) (j : Nat)
    (hj : j < mv.tf.length) :
    (move1 TC mv).2 mv.elem mv.tf[j] (mv.ef[j]'(by omega)) = TC.1 mv.elem mv.tf[j] (mv.sf[j]'(by omega)) := by
  simp only [move1, if_pos, moveEntries]
  apply setEntries_of_mem
  · rw [List.map_fst_zip (by simp; omega)]
    exact nodup_zip_right hl'.symm hn
  · rw [List.mem_iff_getElem]
    refine ⟨j, by simp; omega, ?_⟩
    simp

/-- The effect of all moves when no place is moved twice. -/
theorem foldl_moved {tb : Tables} {ns ne : Nat} (hok : TablesOK tb ns ne)
    (hsf : ∀ ce ce', ce ≠ ce' → ∀ c ∈ tb.sf ce, c ∉ tb.sf ce')
    (hs : List (Nat × CEdge)) (ms : List Move) (hf : List.Forall₂ (Fits tb) hs ms) (hn : hs.Nodup)
    (TC : (Nat → Nat → Nat → K) × (Nat → Nat → Nat → K)) :
    (∀ m r c, (∀ mv ∈ ms, ¬ mv.atT m r c) → (ms.foldl move1 TC).1 m r c = TC.1 m r c) ∧
    (∀ m r c, (∀ mv ∈ ms, ¬ mv.atC m r c) → (ms.foldl move1 TC).2 m r c = TC.2 m r c) ∧
    (∀ m r c, ∀ mv ∈ ms, mv.atT m r c → (ms.foldl move1 TC).1 m r c = 0) ∧
    (∀ mv ∈ ms, ∀ j t x s : Nat, mv.tf[j]? = some t → mv.ef[j]? = some x → mv.sf[j]? = some s →
      (ms.foldl move1 TC).2 mv.elem t x = TC.1 mv.elem t s) := by
  induction hf generalizing TC with
  | nil => simp
  | @cons h mv hs ms h1 h2 ih =>
    rw [List.nodup_cons] at hn
    obtain ⟨i1, i2, i3, i4⟩ := ih hn.2 (move1 TC mv)
    have hmem : ∀ mv' ∈ ms, ∃ h' ∈ hs, Fits tb h' mv' := by
      intro mv' hmv'
      obtain ⟨i, hi, rfl⟩ := List.mem_iff_getElem.1 hmv'
      have hl := h2.length_eq
      exact ⟨hs[i], List.getElem_mem _, (List.forall₂_iff_get.1 h2).2 i (by omega) hi⟩
    -- a place of `mv` is no place of another move
    have hT : ∀ mv' ∈ ms, ∀ m r c, mv.atT m r c → ¬ mv'.atT m r c := by
      rintro mv' hmv' m r c ⟨ha, hb⟩ ⟨ha', hb'⟩
      obtain ⟨h', hh', hf'⟩ := hmem mv' hmv'
      have e1 : h.1 = h'.1 := by rw [← h1.elem, ← hf'.elem, ← ha, ← ha']
      have hne : h.2 ≠ h'.2 := fun e => hn.1 (by rw [show h = h' from Prod.ext e1 e]; exact hh')
      have c1 := (List.of_mem_zip hb).2
      have c2 := (List.of_mem_zip hb').2
      rw [h1.sf] at c1
      rw [hf'.sf] at c2
      exact hsf _ _ hne c c1 c2
    have hC : ∀ mv' ∈ ms, ∀ m r c, mv.atC m r c → ¬ mv'.atC m r c := by
      rintro mv' hmv' m r c ⟨ha, hb⟩ ⟨ha', hb'⟩
      obtain ⟨h', hh', hf'⟩ := hmem mv' hmv'
      have e1 : h.1 = h'.1 := by rw [← h1.elem, ← hf'.elem, ← ha, ← ha']
      have hne : h.2 ≠ h'.2 := fun e => hn.1 (by rw [show h = h' from Prod.ext e1 e]; exact hh')
      have c1 := (List.of_mem_zip hb).2
      have c2 := (List.of_mem_zip hb').2
      rw [h1.ef] at c1
      rw [hf'.ef] at c2
      exact hok.disj _ _ hne c c1 c2
    have hnsf : mv.sf.Nodup := by rw [h1.sf]; exact hok.sf _
    have hnef : mv.ef.Nodup := by rw [h1.ef]; exact hok.ef _
    refine ⟨?_, ?_, ?_, ?_⟩
    · intro m r c hh
      rw [List.foldl_cons, i1 m r c (fun mv' hm' => hh mv' (List.mem_cons_of_mem _ hm')), move1_T_notMem (hh mv (by simp))]
    · intro m r c hh
      rw [List.foldl_cons, i2 m r c (fun mv' hm' => hh mv' (List.mem_cons_of_mem _ hm')), move1_C_notMem (hh mv (by simp))]
    · intro m r c mv' hm' ha
      rw [List.foldl_cons]
      rcases List.mem_cons.1 hm' with rfl | hm'
      · rw [i1 m r c (fun mv'' hm'' => hT mv'' hm'' m r c ha), move1_T_mem h1.len1 hnsf ha]
      · exact i3 m r c mv' hm' ha
    · intro mv' hm' j t x s ht hx hs'
      rw [List.foldl_cons]
      rcases List.mem_cons.1 hm' with rfl | hm'
      · obtain ⟨hj, rfl⟩ := List.getElem?_eq_some_iff.1 ht
        obtain ⟨hj2, rfl⟩ := List.getElem?_eq_some_iff.1 hx
        obtain ⟨hj3, rfl⟩ := List.getElem?_eq_some_iff.1 hs'
        have ha : mv'.atC mv'.elem mv'.tf[j] mv'.ef[j] :=
          ⟨rfl, List.mem_iff_getElem.2 ⟨j, by simp; omega, by simp⟩⟩
        rw [i2 _ _ _ (fun mv'' hm'' => hC mv'' hm'' _ _ _ ha), move1_C_mem h1.len1 h1.len2 hnef j hj]
      · rw [i4 mv' hm' j t x s ht hx hs', move1_T_notMem]
        intro ha
        refine hT mv' hm' _ _ _ ha ⟨rfl, ?_⟩
        obtain ⟨hj, rfl⟩ := List.getElem?_eq_some_iff.1 ht
        obtain ⟨hj3, rfl⟩ := List.getElem?_eq_some_iff.1 hs'
        exact List.mem_iff_getElem.2 ⟨j, by simp; omega, by simp⟩

end Mifem.Hybrid
