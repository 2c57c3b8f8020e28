import Verif.Model.TraceNum
import Verif.Lemmas.Gathering
import Verif.Props.TraceRen
import Mathlib.Data.List.Nodup

/-!
# C83: where a dof of a trace form is
-/

namespace Mifem.Props
open Mifem.TraceNum Mifem.Three Mifem.Gath

/-! ## positions -/

theorem vecMin_some {l : List Nat} (h : l ≠ []) : ∃ a, vecMin l = some a ∧ ∀ x ∈ l, a ≤ x := by
  cases l with
  | nil => exact absurd rfl h
  | cons b l =>
    refine ⟨_, rfl, ?_⟩
    have : ∀ (l : List Nat) (b : Nat), l.foldl min b ≤ b ∧ ∀ x ∈ l, l.foldl min b ≤ x := by
      intro l
      induction l with
      | nil => intro b; simp
      | cons c l ih =>
        intro b
        obtain ⟨h1, h2⟩ := ih (min b c)
        rw [List.foldl_cons]
        refine ⟨by omega, ?_⟩
        intro x hx
        rcases List.mem_cons.1 hx with rfl | hx
        · omega
        · exact h2 x hx
    intro x hx
    rcases List.mem_cons.1 hx with rfl | hx
    · exact (this l x).1
    · exact (this l b).2 x hx

theorem vecMax_some {l : List Nat} (h : l ≠ []) : ∃ a, vecMax l = some a ∧ ∀ x ∈ l, x ≤ a := by
  cases l with
  | nil => exact absurd rfl h
  | cons b l =>
    refine ⟨_, rfl, ?_⟩
    have : ∀ (l : List Nat) (b : Nat), b ≤ l.foldl max b ∧ ∀ x ∈ l, x ≤ l.foldl max b := by
      intro l
      induction l with
      | nil => intro b; simp
      | cons c l ih =>
        intro b
        obtain ⟨h1, h2⟩ := ih (max b c)
        rw [List.foldl_cons]
        refine ⟨by omega, ?_⟩
        intro x hx
        rcases List.mem_cons.1 hx with rfl | hx
        · omega
        · exact h2 x hx
    intro x hx
    rcases List.mem_cons.1 hx with rfl | hx
    · exact (this l x).1
    · exact (this l b).2 x hx

theorem mapM_all {α β : Type} {f : α → Option β} {P : α → β → Prop} : ∀ (l : List α), (∀ x ∈ l, ∃ y, f x = some y ∧ P x y) →
    ∃ ys, l.mapM f = some ys ∧ (l ≠ [] → ys ≠ []) ∧ ∀ x ∈ l, ∃ y ∈ ys, f x = some y ∧ P x y := by
  intro l h
  obtain ⟨ys, hys⟩ := mapM_isSome f l fun x hx => by obtain ⟨y, hy, _⟩ := h x hx; exact ⟨y, hy⟩
  obtain ⟨h1, h2⟩ := (mapM_some_iff _ _ _).1 hys
  refine ⟨ys, hys, ?_, ?_⟩
  · rintro hne rfl
    exact hne (List.length_eq_zero_iff.1 (by simpa using h1.symm))
  · intro x hx
    obtain ⟨i, hi, rfl⟩ := List.mem_iff_getElem.1 hx
    obtain ⟨y, hy, hP⟩ := h l[i] hx
    have := h2 i hi (by omega)
    rw [hy] at this
    exact ⟨y, by rw [Option.some.inj this]; exact List.getElem_mem _, hy, hP⟩

/-- the range of a core holds all its dofs. -/
theorem localRange_spec {rows : List (Nat × List Nat)} (hne : rows ≠ []) (hv : ∀ x ∈ rows, x.2 ≠ []) :
    ∃ a b, localRange [rows] 0 = some (some (a, b)) ∧ ∀ x ∈ rows, ∀ d ∈ x.2, a ≤ d ∧ d < b := by
  obtain ⟨mi, hmi, hmi1, hmi2⟩ := mapM_all (f := vecMin) (P := fun v y => ∀ d ∈ v, y ≤ d) (rows.map Prod.snd) (fun v hvm => by
    obtain ⟨x, hx, rfl⟩ := List.mem_map.1 hvm
    exact vecMin_some (hv x hx))
  obtain ⟨ma, hma, hma1, hma2⟩ := mapM_all (f := vecMax) (P := fun v y => ∀ d ∈ v, d ≤ y) (rows.map Prod.snd) (fun v hvm => by
    obtain ⟨x, hx, rfl⟩ := List.mem_map.1 hvm
    exact vecMax_some (hv x hx))
  have hne' : rows.map Prod.snd ≠ [] := by simpa using hne
  obtain ⟨a, ha, ha2⟩ := vecMin_some (hmi1 hne')
  obtain ⟨b, hb, hb2⟩ := vecMax_some (hma1 hne')
  refine ⟨a, b + 1, ?_, ?_⟩
  · unfold localRange
    have hemp : rows.isEmpty = false := by cases rows <;> simp_all
    simp [hemp, hmi, hma, ha, hb]
  · intro x hx d hd
    obtain ⟨y, hy, _, hy2⟩ := hmi2 x.2 (List.mem_map.2 ⟨x, hx, rfl⟩)
    obtain ⟨z, hz, _, hz2⟩ := hma2 x.2 (List.mem_map.2 ⟨x, hx, rfl⟩)
    have h1 := ha2 y hy
    have h2 := hy2 d hd
    have h3 := hb2 z hz
    have h4 := hz2 d hd
    omega

/-- **C83, positions.** If no vector of the core has the dof twice, `positions` are exactly the places in the vectors of the
core where it is. -/
theorem c83_positions (rows : List (Nat × List Nat)) (i : Nat) (hv : ∀ x ∈ rows, x.2 ≠ []) (h1 : ∀ x ∈ rows, x.2.count i ≤ 1) :
    ∃ l, positions rows i = some l ∧ ∀ e t, (e, t) ∈ l ↔ ∃ v, (e, v) ∈ rows ∧ v[t]? = some i := by
  by_cases hne : rows = []
  · subst hne
    exact ⟨[], rfl, by simp⟩
  obtain ⟨a, b, hr, hab⟩ := localRange_spec hne hv
  unfold positions
  simp only [hr]
  by_cases hi : a ≤ i ∧ i < b
  · rw [if_pos hi]
    obtain ⟨l, hl⟩ := mapM_isSome (fun x : Nat × List Nat => if x.2.count i = 1 then some (x.1, x.2.idxOf i) else none) (rows.filter fun x => x.2.contains i)
      (fun x hx => by
        rw [List.mem_filter] at hx
        have h2 : i ∈ x.2 := by simpa using hx.2
        have h3 := List.count_pos_iff.2 h2
        have h4 := h1 x hx.1
        exact ⟨_, if_pos (by omega)⟩)
    refine ⟨l, hl, ?_⟩
    obtain ⟨g1, g2⟩ := (mapM_some_iff _ _ _).1 hl
    have key : ∀ x ∈ rows, ∀ t : Nat, x.2[t]? = some i → t = x.2.idxOf i := by
      intro x hx t ht
      obtain ⟨ht1, ht2⟩ := List.getElem?_eq_some_iff.1 ht
      have hc := h1 x hx
      by_contra hne
      have hlt : x.2.idxOf i < t := by
        have h5 : x.2.idxOf i ≤ t := by
          by_contra hgt
          have h6 := List.not_of_lt_findIdx (p := fun y => y == i) (xs := x.2) (i := t) (show t < x.2.findIdx _ from Nat.lt_of_not_le hgt)
          simp [ht2] at h6
        omega
      have hd : 2 ≤ x.2.count i := by
        rw [← List.duplicate_iff_two_le_count, List.duplicate_iff_exists_distinct_get]
        refine ⟨⟨x.2.idxOf i, by omega⟩, ⟨t, ht1⟩, hlt, ?_, ?_⟩
        · simp
        · simp [ht2]
      omega
    intro e t
    constructor
    · intro hm
      obtain ⟨k, hk, he⟩ := List.mem_iff_getElem.1 hm
      have := g2 k (by omega) hk
      have hmem : (rows.filter fun x => x.2.contains i)[k]'(by omega) ∈ rows.filter fun x => x.2.contains i := List.getElem_mem _
      rw [he] at this
      set x := (rows.filter fun x => x.2.contains i)[k]'(by omega) with hx
      rw [List.mem_filter] at hmem
      have h2 : i ∈ x.2 := by simpa using hmem.2
      have h3 : x.2.count i = 1 := by have h3 := List.count_pos_iff.2 h2; have h4 := h1 x hmem.1; omega
      simp only [h3, if_true, Option.some.injEq, Prod.mk.injEq] at this
      obtain ⟨rfl, rfl⟩ := this
      exact ⟨x.2, hmem.1, by rw [List.getElem?_eq_getElem (List.idxOf_lt_length_iff.2 h2)]; simp⟩
    · rintro ⟨v, hm, ht⟩
      have hiv : i ∈ v := List.mem_of_getElem? ht
      have hf : (e, v) ∈ rows.filter fun x => x.2.contains i := List.mem_filter.2 ⟨hm, by simpa using hiv⟩
      obtain ⟨k, hk, he⟩ := List.mem_iff_getElem.1 hf
      have := g2 k hk (by omega)
      rw [he] at this
      have h3 : v.count i = 1 := by have h3 := List.count_pos_iff.2 hiv; have h4 := h1 _ hm; simp only at h4; omega
      simp only [h3, if_true, Option.some.injEq] at this
      have hkk := key _ hm t ht
      simp only at hkk
      rw [hkk, this]
      exact List.getElem_mem _
  · rw [if_neg hi]
    refine ⟨[], rfl, ?_⟩
    intro e t
    simp only [List.not_mem_nil, false_iff]
    rintro ⟨v, hm, ht⟩
    exact hi (hab _ hm i (List.mem_of_getElem? ht))

/-- **C83, positions, not true of the code.** If an element has the dof twice (a mesh that is periodic with one element in a
direction), asking for the positions raises an exception. -/
theorem c83_positions_counterexample (rows : List (Nat × List Nat)) (i : Nat) (hv : ∀ x ∈ rows, x.2 ≠ []) (x : Nat × List Nat) (hx : x ∈ rows)
    (h2 : 2 ≤ x.2.count i) : positions rows i = none := by
  obtain ⟨a, b, hr, hab⟩ := localRange_spec (List.ne_nil_of_mem hx) hv
  have him : i ∈ x.2 := List.count_pos_iff.1 (by omega)
  unfold positions
  simp only [hr]
  rw [if_pos (hab x hx i him)]
  cases hm : (rows.filter fun x => x.2.contains i).mapM fun x => if x.2.count i = 1 then some (x.1, x.2.idxOf i) else none with
  | none => rfl
  | some l =>
    exfalso
    obtain ⟨g1, g2⟩ := (mapM_some_iff _ _ _).1 hm
    have hf : x ∈ rows.filter fun x => x.2.contains i := List.mem_filter.2 ⟨hx, by simpa using him⟩
    obtain ⟨k, hk, he⟩ := List.mem_iff_getElem.1 hf
    have := g2 k hk (by omega)
    rw [he, if_neg (by omega)] at this
    cases this

example : positions [(3, [0, 1, 2]), (5, [2, 4, 0]), (6, [7, 8, 9])] 2 = some [(3, 2), (5, 0)] := by decide
example : positions [(0, [0, 1, 0, 1])] 1 = none := by decide

/-! ## trace elements -/

theorem mem_argwhere (x : Nat × Nat × Nat) (t : Nat) (ij : Nat × Nat) :
    ij ∈ argwhere x t ↔ ij.1 < x.1 ∧ ij.2 < x.2.1 ∧ ij.1 + x.1 * ij.2 + x.2.2 = t := by
  unfold argwhere
  simp only [List.mem_flatMap, List.mem_range, List.mem_filterMap]
  constructor
  · rintro ⟨i, hi, j, hj, h⟩
    by_cases he : fIdx2 x.1 i j + x.2.2 = t
    · rw [if_pos he] at h
      cases h
      exact ⟨hi, hj, he⟩
    · rw [if_neg he] at h
      cases h
  · rintro ⟨h1, h2, h3⟩
    exact ⟨ij.1, h1, ij.2, h2, if_pos h3⟩

theorem nodup_argwhere (x : Nat × Nat × Nat) (t : Nat) : (argwhere x t).Nodup := by
  unfold argwhere
  rw [List.nodup_flatMap]
  constructor
  · intro i _
    apply List.Nodup.filterMap
    · intro a a' b hb hb'
      split at hb
      · split at hb'
        · cases hb; cases hb'; rfl
        · cases hb'
      · cases hb
    · exact List.nodup_range
  · refine List.nodup_range.imp ?_
    intro i i' hne
    rw [Function.onFun]
    intro z hz hz'
    obtain ⟨j, _, hj⟩ := List.mem_filterMap.1 hz
    obtain ⟨j', _, hj'⟩ := List.mem_filterMap.1 hz'
    split at hj
    · split at hj'
      · cases hj
        cases hj'
        exact hne rfl
      · cases hj'
    · cases hj

theorem argwhere_in (a b off t : Nat) (h1 : off ≤ t) (h2 : t < off + a * b) : argwhere (a, b, off) t = [((t - off) % a, (t - off) / a)] := by
  have ha : 0 < a := by
    rcases Nat.eq_zero_or_pos a with h | h
    · subst h; simp at h2; omega
    · exact h
  rw [← List.perm_singleton]
  rw [List.perm_ext_iff_of_nodup (nodup_argwhere _ _) (List.nodup_singleton _)]
  rintro ⟨i, j⟩
  rw [mem_argwhere, List.mem_singleton, Prod.mk.injEq]
  simp only
  constructor
  · rintro ⟨hi, hj, he⟩
    have : t - off = i + a * j := by omega
    rw [this, Nat.add_mul_mod_self_left, Nat.mod_eq_of_lt hi, Nat.add_mul_div_left _ _ ha, Nat.div_eq_of_lt hi]
    simp
  · rintro ⟨rfl, rfl⟩
    refine ⟨Nat.mod_lt _ ha, ?_, ?_⟩
    · rw [Nat.div_lt_iff_lt_mul ha, Nat.mul_comm]
      omega
    · have := Nat.mod_add_div (t - off) a
      omega

theorem argwhere_out (a b off t : Nat) (h : ¬(off ≤ t ∧ t < off + a * b)) : argwhere (a, b, off) t = [] := by
  rw [List.eq_nil_iff_forall_not_mem]
  rintro ⟨i, j⟩ hm
  rw [mem_argwhere] at hm
  simp only at hm
  obtain ⟨hi, hj, he⟩ := hm
  have h3 : a * j + a ≤ a * b := by
    have := Nat.mul_le_mul_left a (show j + 1 ≤ b from hj)
    rw [Nat.mul_add, Nat.mul_one] at this
    exact this
  omega

/-- the arrays of a side number `lo, lo + 1, ..., hi - 1` one after the other. -/
def ArrTiles : Nat → List (Nat × Nat × Nat) → Nat → Prop
  | lo, [], hi => lo = hi
  | lo, x :: l, hi => x.2.2 = lo ∧ ArrTiles (lo + x.1 * x.2.1) l hi

theorem arrTiles_le : ∀ (l : List (Nat × Nat × Nat)) (lo hi : Nat), ArrTiles lo l hi → lo ≤ hi := by
  intro l
  induction l with
  | nil => intro lo hi h; exact Nat.le_of_eq h
  | cons x l ih => intro lo hi h; have := ih _ _ h.2; omega

theorem findComp_spec : ∀ (l : List (Nat × Nat × Nat)) (lo hi c t : Nat), ArrTiles lo l hi → lo ≤ t → t < hi →
    ∃ k i j a b off, findComp t c l = some (c + k, (i, j)) ∧ l[k]? = some (a, b, off) ∧ i < a ∧ j < b ∧ i + a * j + off = t := by
  intro l
  induction l with
  | nil => intro lo hi c t h h1 h2; have h' : lo = hi := h; omega
  | cons x l ih =>
    intro lo hi c t h h1 h2
    obtain ⟨a, b, off⟩ := x
    have hoff : off = lo := h.1
    subst hoff
    by_cases hin : t < off + a * b
    · have ha := argwhere_in a b off t h1 hin
      have hm : ((t - off) % a, (t - off) / a) ∈ argwhere (a, b, off) t := by rw [ha]; simp
      rw [mem_argwhere] at hm
      refine ⟨0, (t - off) % a, (t - off) / a, a, b, off, ?_, rfl, hm.1, hm.2.1, hm.2.2⟩
      cases l with
      | nil => simp [findComp, ha]
      | cons y l => simp only [findComp, ha]; rfl
    · cases l with
      | nil =>
        exfalso
        have h' : off + a * b = hi := h.2
        omega
      | cons y l =>
        obtain ⟨k, i, j, a', b', off', g1, g2, g3⟩ := ih _ hi (c + 1) t h.2 (show off + a * b ≤ t by omega) h2
        refine ⟨k + 1, i, j, a', b', off', ?_, by simpa using g2, g3⟩
        rw [findComp, argwhere_out a b off t (by omega)]
        rw [g1, Nat.add_assoc, Nat.add_comm 1 k]

/-- how many dofs are before a side, and on it. -/
def before (nNS nWE nBF : Nat) : Side → Nat
  | .N => 0
  | .S => nNS
  | .W => nNS + nNS
  | .E => nNS + nNS + nWE
  | .B => nNS + nNS + nWE + nWE
  | .F => nNS + nNS + nWE + nWE + nBF
@[inherit_doc before] def onThe (nNS nWE nBF : Nat) : Side → Nat
  | .N | .S => nNS
  | .W | .E => nWE
  | .B | .F => nBF

/-- the direction of the trace element of a side. -/
def dirOf : Side → Hybrid.Dir
  | .N | .S => .NS
  | .W | .E => .WE
  | .B | .F => .BF

theorem sideOf_spec (nNS nWE nBF : Nat) (s : Side) (t : Nat) (h : t < onThe nNS nWE nBF s) : sideOf nNS nWE nBF (before nNS nWE nBF s + t) = some (s, t) := by
  have hb : ∃ n, n = before nNS nWE nBF s + t := ⟨_, rfl⟩
  obtain ⟨n, hn⟩ := hb
  rw [← hn]
  unfold sideOf
  cases s <;> simp only [before, onThe] at h hn
  · rw [if_pos (by omega)]; congr 2; omega
  · rw [if_neg (by omega), if_pos (by omega)]; congr 2; omega
  · rw [if_neg (by omega), if_neg (by omega), if_pos (by omega)]; congr 2; omega
  · rw [if_neg (by omega), if_neg (by omega), if_neg (by omega), if_pos (by omega)]; congr 2; omega
  · rw [if_neg (by omega), if_neg (by omega), if_neg (by omega), if_neg (by omega), if_pos (by omega)]; congr 2; omega
  · rw [if_neg (by omega), if_neg (by omega), if_neg (by omega), if_neg (by omega), if_neg (by omega), if_pos (by omega)]; congr 2; omega

theorem six_idx (s : Side) (map : List Nat) (h : map.length = 6) : ∃ te, map[six.idxOf s]? = some te :=
  ⟨_, List.getElem?_eq_getElem (by rw [h]; cases s <;> decide)⟩

/-- where the dofs of the trace element of a side begin in the vector of a mesh element (hybrid). -/
theorem hybridVec_side (nNS nWE nBF : Nat) (dirs : List Hybrid.Dir) (map : Nat → List Nat) (m : Nat) (h6 : (map m).length = 6)
    (hd : ∀ s te, (map m)[six.idxOf s]? = some te → (block nNS nWE nBF dirs te).length = onThe nNS nWE nBF s) (s : Side) (te t : Nat)
    (hte : (map m)[six.idxOf s]? = some te) (ht : t < onThe nNS nWE nBF s) :
    (hybridVec nNS nWE nBF dirs map m)[before nNS nWE nBF s + t]? = (block nNS nWE nBF dirs te)[t]? := by
  unfold hybridVec
  revert hd hte
  generalize map m = l at h6
  match l, h6 with
  | [a, b, c, d, e, f], _ =>
    intro hd hte
    have hN := hd .N a rfl
    have hS := hd .S b rfl
    have hW := hd .W c rfl
    have hE := hd .E d rfl
    have hB := hd .B e rfl
    have hF := hd .F f rfl
    simp only [onThe] at hN hS hW hE hB hF
    simp only [List.flatMap_cons, List.flatMap_nil, List.append_nil]
    cases s <;> simp only [onThe] at ht <;> simp only [before]
    · obtain rfl : a = te := Option.some.inj hte
      rw [List.getElem?_append_left (by omega)]; congr 1; omega
    · obtain rfl : b = te := Option.some.inj hte
      rw [List.getElem?_append_right (by omega), List.getElem?_append_left (by omega)]; congr 1; omega
    · obtain rfl : c = te := Option.some.inj hte
      rw [List.getElem?_append_right (by omega), List.getElem?_append_right (by omega), List.getElem?_append_left (by omega)]; congr 1; omega
    · obtain rfl : d = te := Option.some.inj hte
      rw [List.getElem?_append_right (by omega), List.getElem?_append_right (by omega), List.getElem?_append_right (by omega),
        List.getElem?_append_left (by omega)]; congr 1; omega
    · obtain rfl : e = te := Option.some.inj hte
      rw [List.getElem?_append_right (by omega), List.getElem?_append_right (by omega), List.getElem?_append_right (by omega),
        List.getElem?_append_right (by omega), List.getElem?_append_left (by omega)]; congr 1; omega
    · obtain rfl : f = te := Option.some.inj hte
      rw [List.getElem?_append_right (by omega), List.getElem?_append_right (by omega), List.getElem?_append_right (by omega),
        List.getElem?_append_right (by omega), List.getElem?_append_right (by omega)]; congr 1; omega

/-- **C83, trace elements.** For a hybrid trace form, `trace_element_position` names the trace element, the number `t` on it,
and the component and indices whose local number is `t`; the dof is number `t` of that trace element. -/
theorem c83_te_position (nNS nWE nBF : Nat) (arrays : Side → List (Nat × Nat × Nat)) (harr : ∀ s, ArrTiles 0 (arrays s) (onThe nNS nWE nBF s))
    (dirs : List Hybrid.Dir) (map : Nat → List Nat) (m : Nat) (h6 : (map m).length = 6)
    (hdir : ∀ s te, (map m)[six.idxOf s]? = some te → dirs[te]? = some (dirOf s))
    (idx d : Nat) (hidx : (hybridVec nNS nWE nBF dirs map m)[idx]? = some d) :
    ∃ s te t c i j a b off, tePosition nNS nWE nBF arrays map (m, idx) = some (te, t, c, (i, j)) ∧ (map m)[six.idxOf s]? = some te ∧
      idx = before nNS nWE nBF s + t ∧ t < onThe nNS nWE nBF s ∧ (block nNS nWE nBF dirs te)[t]? = some d ∧
      (arrays s)[c]? = some (a, b, off) ∧ i < a ∧ j < b ∧ i + a * j + off = t := by
  have hd : ∀ s te, (map m)[six.idxOf s]? = some te → (block nNS nWE nBF dirs te).length = onThe nNS nWE nBF s := by
    intro s te h
    have h1 := hdir s te h
    unfold block
    rw [List.length_range', List.getD_eq_getElem?_getD, h1]
    cases s <;> rfl
  have hlen : (hybridVec nNS nWE nBF dirs map m).length = 2 * (nNS + nWE + nBF) := by
    unfold hybridVec
    revert hd
    generalize map m = l at h6
    match l, h6 with
    | [a, b, c, d, e, f], _ =>
      intro hd
      have hN := hd .N a rfl
      have hS := hd .S b rfl
      have hW := hd .W c rfl
      have hE := hd .E d rfl
      have hB := hd .B e rfl
      have hF := hd .F f rfl
      simp only [onThe] at hN hS hW hE hB hF
      simp only [List.flatMap_cons, List.flatMap_nil, List.append_nil, List.length_append, hN, hS, hW, hE, hB, hF]
      omega
  have hlt := (List.getElem?_eq_some_iff.1 hidx).1
  rw [hlen] at hlt
  have hs : ∃ s t, idx = before nNS nWE nBF s + t ∧ t < onThe nNS nWE nBF s := by
    by_cases g1 : idx < nNS
    · exact ⟨.N, idx, by simp [before], g1⟩
    by_cases g2 : idx < nNS + nNS
    · exact ⟨.S, idx - nNS, by simp only [before]; omega, by simp only [onThe]; omega⟩
    by_cases g3 : idx < nNS + nNS + nWE
    · exact ⟨.W, idx - (nNS + nNS), by simp only [before]; omega, by simp only [onThe]; omega⟩
    by_cases g4 : idx < nNS + nNS + nWE + nWE
    · exact ⟨.E, idx - (nNS + nNS + nWE), by simp only [before]; omega, by simp only [onThe]; omega⟩
    by_cases g5 : idx < nNS + nNS + nWE + nWE + nBF
    · exact ⟨.B, idx - (nNS + nNS + nWE + nWE), by simp only [before]; omega, by simp only [onThe]; omega⟩
    · exact ⟨.F, idx - (nNS + nNS + nWE + nWE + nBF), by simp only [before]; omega, by simp only [onThe]; omega⟩
  obtain ⟨s, t, rfl, ht⟩ := hs
  obtain ⟨te, hte⟩ := six_idx s (map m) h6
  obtain ⟨c, i, j, a, b, off, g1, g2, g3⟩ := findComp_spec (arrays s) 0 _ 0 t (harr s) (Nat.zero_le _) ht
  refine ⟨s, te, t, c, i, j, a, b, off, ?_, hte, rfl, ht, ?_, g2, g3⟩
  · unfold tePosition
    simp only [sideOf_spec _ _ _ s t ht, hte, g1, Nat.zero_add]
  · rw [← hybridVec_side nNS nWE nBF dirs map m h6 hd s te t hte ht]
    exact hidx

/-- the arrays of the three kinds of trace forms number the dofs of a side without a hole. -/
theorem c83_side_arrays (px py pz : Nat) :
    (∀ s, ArrTiles 0 (arrays0 px py pz s) (onThe ((py+1)*(pz+1)) ((px+1)*(pz+1)) ((px+1)*(py+1)) s)) ∧
    (∀ s, ArrTiles 0 (arrays1 px py pz s) (onThe (py*(pz+1) + (py+1)*pz) (px*(pz+1) + (px+1)*pz) (px*(py+1) + (px+1)*py) s)) ∧
    ∀ s, ArrTiles 0 (arrays2 px py pz s) (onThe (py*pz) (px*pz) (px*py) s) := by
  refine ⟨?_, ?_, ?_⟩ <;> intro s <;> cases s <;> simp [arrays0, arrays1, arrays2, ArrTiles, onThe]

/-- **C83, trace elements, not true of the code.** In a non-hybrid trace form the sides share dofs, but the position is found as
if they did not: with degree 2, dof 18 of a 0-trace is on side W (its local number is 1 there), but is said to be number 0. -/
theorem c83_te_position_counterexample :
    (localGathering (slices0 2 2 2) (side0 2 2 2)).map (fun lg => (lg.lookup .W).bind fun v => v[1]?) = some (some 18) ∧
    (localGathering (slices0 2 2 2) (side0 2 2 2)).map (fun lg => (lg.lookup .W).bind fun v => v[0]?) = some (some 0) ∧
    sideOf 9 9 9 18 = some (.W, 0) := by decide +kernel

example : tePosition (2*2 + 3*1) (2*2 + 3*1) (2*3 + 3*2) (arrays1 2 2 1) (fun _ => [0, 1, 2, 3, 4, 5]) (0, 12) = some (1, 5, 1, (1, 0)) := by decide
example : ∀ s : Side, ∀ te, [0, 1, 2, 3, 4, 5][six.idxOf s]? = some te → [Hybrid.Dir.NS, .NS, .WE, .WE, .BF, .BF][te]? = some (dirOf s) := by
  intro s te h
  cases s <;> cases h <;> rfl

end Mifem.Props
