import Verif.Model.FieldFile
import Mathlib.Tactic.SplitIfs
import Mathlib.Tactic.Ring
import Mathlib.Data.List.Basic
import Mathlib.Algebra.Order.Ring.Nat

/-!
# C116: files of reconstructed fields

Specification: point `q` of the element at `b` in its region is on the line of the place `(b₁ I + q₁, b₂ J + q₂, b₃ K + q₃)`, and this line
has the coordinates and the value there.
-/

namespace Mifem.Props.Field116
open Mifem.FieldFile

/-- Below in each direction. -/
def Lt (p q : Ix) : Prop := p.1 < q.1 ∧ p.2.1 < q.2.1 ∧ p.2.2 < q.2.2

/-- Place of a point of an element in its region. -/
def place (sh b q : Ix) : Ix := (b.1 * sh.1 + q.1, b.2.1 * sh.2.1 + q.2.1, b.2.2 * sh.2.2 + q.2.2)

theorem mem_blocks (lay b : Ix) : b ∈ blocks lay ↔ Lt b lay := by
  obtain ⟨i, j, k⟩ := b
  unfold blocks Lt
  simp only [List.mem_flatMap, List.mem_map, List.mem_range, Prod.mk.injEq]
  constructor
  · rintro ⟨k', hk, j', hj, i', hi, rfl, rfl, rfl⟩
    exact ⟨hi, hj, hk⟩
  · rintro ⟨hi, hj, hk⟩
    exact ⟨k, hk, j, hj, i, hi, rfl, rfl, rfl⟩

theorem between {s b c q : ℕ} (hq : q < s) (h1 : c * s ≤ b * s + q) (h2 : b * s + q < (c + 1) * s) : c = b := by
  have hs : 0 < s := by omega
  have h3 : c < b + 1 := by
    have : c * s < (b + 1) * s := by rw [Nat.add_mul, Nat.one_mul]; omega
    exact Nat.lt_of_mul_lt_mul_right this
  have h4 : b < c + 1 := by
    have : b * s < (c + 1) * s := by omega
    exact Nat.lt_of_mul_lt_mul_right this
  omega

section
variable {K : Type}

theorem setBlock_same (sh b q : Ix) (hq : Lt q sh) (block A : Ix → K) : setBlock sh b block A (place sh b q) = block q := by
  unfold setBlock place
  obtain ⟨h1, h2, h3⟩ := hq
  rw [if_pos]
  · simp only [Nat.add_sub_cancel_left]
  · simp only [Nat.add_mul, Nat.one_mul]
    omega

theorem setBlock_other (sh b c q : Ix) (hq : Lt q sh) (hne : c ≠ b) (block A : Ix → K) :
    setBlock sh c block A (place sh b q) = A (place sh b q) := by
  unfold setBlock
  rw [if_neg]
  rintro ⟨h1, h2, h3, h4, h5, h6⟩
  apply hne
  obtain ⟨c1, c2, c3⟩ := c
  obtain ⟨b1, b2, b3⟩ := b
  have e1 := between hq.1 h1 h2
  have e2 := between hq.2.1 h3 h4
  have e3 := between hq.2.2 h5 h6
  simp only at e1 e2 e3
  rw [e1, e2, e3]

theorem fold_spec (sh b q : Ix) (hq : Lt q sh) (f : Ix → Ix → K) : ∀ (l : List Ix) (A : Ix → K),
    (b ∈ l ∨ A (place sh b q) = f b q) → l.foldl (fun A c => setBlock sh c (f c) A) A (place sh b q) = f b q
  | [], A, h => by
    rcases h with h | h
    · cases h
    · exact h
  | c :: l, A, h => by
    rw [List.foldl_cons]
    apply fold_spec sh b q hq f l
    by_cases hc : c = b
    · right
      rw [hc, setBlock_same sh b q hq]
    · rw [setBlock_other sh b c q hq hc]
      rcases h with h | h
      · rcases List.mem_cons.mp h with h' | h'
        · exact absurd h'.symm hc
        · exact Or.inl h'
      · exact Or.inr h

/-- **C116 (stacking).**  Point `q` of the element at `b` is at its place in the array of the region. -/
theorem c116_stacked [Zero K] (sh lay : Ix) (num : Ix → ℕ) (nda : ℕ → Ix → K) (b q : Ix) (hb : Lt b lay) (hq : Lt q sh) :
    stack sh lay num nda (place sh b q) = nda (num b) q :=
  fold_spec sh b q hq (fun b => nda (num b)) (blocks lay) _ (Or.inl ((mem_blocks lay b).mpr hb))

/-- Each place of the array is that of one point of one element. -/
theorem c116_places (sh lay p : Ix) (hp : Lt p (sh.1 * lay.1, sh.2.1 * lay.2.1, sh.2.2 * lay.2.2)) :
    ∃ b q, Lt b lay ∧ Lt q sh ∧ place sh b q = p := by
  obtain ⟨h1, h2, h3⟩ := hp
  have pos : ∀ {a s l : ℕ}, a < s * l → 0 < s := by
    intro a s l h
    rcases Nat.eq_zero_or_pos s with h0 | h0
    · rw [h0, Nat.zero_mul] at h
      exact absurd h (Nat.not_lt_zero _)
    · exact h0
  refine ⟨(p.1 / sh.1, p.2.1 / sh.2.1, p.2.2 / sh.2.2), (p.1 % sh.1, p.2.1 % sh.2.1, p.2.2 % sh.2.2), ⟨?_, ?_, ?_⟩, ⟨?_, ?_, ?_⟩, ?_⟩
  · exact Nat.div_lt_of_lt_mul h1
  · exact Nat.div_lt_of_lt_mul h2
  · exact Nat.div_lt_of_lt_mul h3
  · exact Nat.mod_lt _ (pos h1)
  · exact Nat.mod_lt _ (pos h2)
  · exact Nat.mod_lt _ (pos h3)
  · unfold place
    simp only [Nat.div_add_mod', Prod.mk.eta]

/-- Number of the line of a place. -/
def lineOf (sh p : Ix) : ℕ := (p.2.2 * sh.2.1 + p.2.1) * sh.1 + p.1

theorem lineOf_lt (sh p : Ix) (hp : Lt p sh) : lineOf sh p < sh.1 * sh.2.1 * sh.2.2 := by
  obtain ⟨h1, h2, h3⟩ := hp
  unfold lineOf
  have e1 : p.2.2 * sh.2.1 + p.2.1 + 1 ≤ sh.2.2 * sh.2.1 := by
    have := Nat.mul_le_mul_right sh.2.1 (Nat.succ_le_of_lt h3)
    rw [Nat.succ_mul] at this
    omega
  have e2 := Nat.mul_le_mul_right sh.1 e1
  rw [Nat.add_mul (p.2.2 * sh.2.1 + p.2.1) 1 sh.1, Nat.one_mul] at e2
  have e3 : sh.2.2 * sh.2.1 * sh.1 = sh.1 * sh.2.1 * sh.2.2 := by ring
  omega

theorem ravelF_at (sh p : Ix) (hp : Lt p sh) : (ravelF sh)[lineOf sh p]? = some p := by
  have hl := lineOf_lt sh p hp
  unfold ravelF
  rw [List.getElem?_map, List.getElem?_range hl, Option.map_some]
  obtain ⟨h1, h2, h3⟩ := hp
  have d1 : lineOf sh p % sh.1 = p.1 := by
    unfold lineOf
    rw [Nat.add_comm, Nat.add_mul_mod_self_right, Nat.mod_eq_of_lt h1]
  have d2 : lineOf sh p / sh.1 = p.2.2 * sh.2.1 + p.2.1 := by
    unfold lineOf
    rw [Nat.mul_comm, Nat.mul_add_div (by omega), Nat.div_eq_of_lt h1, Nat.add_zero]
  rw [d1, d2]
  have d3 : (p.2.2 * sh.2.1 + p.2.1) % sh.2.1 = p.2.1 := by
    rw [Nat.add_comm, Nat.add_mul_mod_self_right, Nat.mod_eq_of_lt h2]
  have d4 : (p.2.2 * sh.2.1 + p.2.1) / sh.2.1 = p.2.2 := by
    rw [Nat.mul_comm, Nat.mul_add_div (by omega), Nat.div_eq_of_lt h2, Nat.add_zero]
  rw [d3, d4]

/-- **C116 (lines of the file).**  For each element of the region and each of its points there is the line with the coordinates and the value of
the field at this point. -/
theorem c116_file [Zero K] (sh lay : Ix) (num : Ix → ℕ) (x y z v : ℕ → Ix → K) (b q : Ix) (hb : Lt b lay) (hq : Lt q sh) :
    (file sh lay num x y z v)[lineOf (sh.1 * lay.1, sh.2.1 * lay.2.1, sh.2.2 * lay.2.2) (place sh b q)]? =
      some (x (num b) q, y (num b) q, z (num b) q, v (num b) q) := by
  have hp : Lt (place sh b q) (sh.1 * lay.1, sh.2.1 * lay.2.1, sh.2.2 * lay.2.2) := by
    have : ∀ {b l q s : ℕ}, b < l → q < s → b * s + q < s * l := by
      intro b l q s h1 h2
      have := Nat.mul_le_mul_right s (Nat.succ_le_of_lt h1)
      rw [Nat.succ_mul, Nat.mul_comm l s] at this
      omega
    exact ⟨this hb.1 hq.1, this hb.2.1 hq.2.1, this hb.2.2 hq.2.2⟩
  unfold file lines
  have hr := ravelF_at _ _ hp
  simp only [List.getElem?_zip_eq_some, List.getElem?_map, hr, Option.map_some, c116_stacked sh lay num _ b q hb hq, and_self]

/-- **C116 (number of lines).** -/
theorem c116_length [Zero K] (sh lay : Ix) (num : Ix → ℕ) (x y z v : ℕ → Ix → K) :
    (file sh lay num x y z v).length = sh.1 * lay.1 * (sh.2.1 * lay.2.1) * (sh.2.2 * lay.2.2) := by
  simp [file, lines, ravelF]

end

/-! ### Data of all cores -/

section
variable {D : Type}

theorem lookup_rec (inR : ℕ → Bool) (data : ℕ → D) (j : ℕ) : ∀ core : List ℕ,
    (reconstructed inR data core).lookup j = if j ∈ core ∧ inR j = true then some (data j) else none
  | [] => by simp [reconstructed]
  | c :: l => by
    have ih := lookup_rec inR data j l
    unfold reconstructed at ih ⊢
    rw [List.filter_cons]
    by_cases hc : inR c = true
    · rw [if_pos hc, List.map_cons, List.lookup_cons]
      by_cases hj : j = c
      · subst hj
        simp [hc]
      · have : (j == c) = false := by simpa using hj
        rw [this, ih]
        simp [hj]
    · rw [if_neg hc, ih]
      by_cases hj : j = c
      · subst hj
        simp [hc]
      · simp [hj]

theorem own_none (inR : ℕ → Bool) (data : ℕ → D) (core : List ℕ) (j : ℕ) (hj : inR j = false) :
    ∀ (l : List ℕ) (X : ℕ → Option D), j ∈ l → ownData (reconstructed inR data core) l X = none
  | [], _, h => by cases h
  | c :: l, X, h => by
    unfold ownData
    rw [lookup_rec]
    by_cases hc : c ∈ core ∧ inR c = true
    · rw [if_pos hc]
      have hne : j ≠ c := by
        intro he
        subst he
        rw [hc.2] at hj
        cases hj
      exact own_none inR data core j hj l _ ((List.mem_cons.mp h).resolve_left hne)
    · rw [if_neg hc]

theorem own_some (inR : ℕ → Bool) (data : ℕ → D) (core : List ℕ) :
    ∀ (l : List ℕ) (X : ℕ → Option D), (∀ j ∈ l, j ∈ core ∧ inR j = true) →
      ∃ Y, ownData (reconstructed inR data core) l X = some Y ∧ ∀ e, Y e = if e ∈ l then some (data e) else X e
  | [], X, _ => ⟨X, rfl, fun _ => by simp⟩
  | c :: l, X, h => by
    unfold ownData
    rw [lookup_rec, if_pos (h c (List.mem_cons_self ..))]
    obtain ⟨Y, h1, h2⟩ := own_some inR data core l (fun k => if k = c then some (data c) else X k)
      (fun j hj => h j (List.mem_cons_of_mem _ hj))
    refine ⟨Y, h1, ?_⟩
    intro e
    rw [h2 e]
    by_cases he : e ∈ l
    · rw [if_pos he, if_pos (List.mem_cons_of_mem _ he)]
    · rw [if_neg he]
      by_cases hec : e = c
      · subst hec
        simp
      · simp [hec, he]

theorem other_spec (inR : ℕ → Bool) (data : ℕ → D) : ∀ (core : List ℕ) (X : ℕ → Option D) (e : ℕ),
    otherData (reconstructed inR data core) X e = if e ∈ core ∧ inR e = true then some (data e) else X e
  | [], X, e => by simp [otherData, reconstructed]
  | c :: l, X, e => by
    have ih := other_spec inR data l
    unfold otherData reconstructed at ih ⊢
    rw [List.filter_cons]
    by_cases hc : inR c = true
    · rw [if_pos hc, List.map_cons, List.foldl_cons, ih]
      by_cases he : e ∈ l ∧ inR e = true
      · rw [if_pos he, if_pos ⟨List.mem_cons_of_mem _ he.1, he.2⟩]
      · rw [if_neg he]
        by_cases hec : e = c
        · subst hec
          simp [hc]
        · have : ¬ (e ∈ c :: l ∧ inR e = true) := fun h => he ⟨(List.mem_cons.mp h.1).resolve_left hec, h.2⟩
          rw [if_neg this, if_neg hec]
    · rw [if_neg hc, ih]
      by_cases hec : e = c
      · subst hec
        simp [hc]
      · simp [hec]

theorem others_spec (inR : ℕ → Bool) (data : ℕ → D) (e : ℕ) : ∀ (cs : List (List ℕ)) (X : ℕ → Option D),
    cs.foldl (fun X c => otherData (reconstructed inR data c) X) X e = if e ∈ cs.flatten ∧ inR e = true then some (data e) else X e
  | [], X => by simp
  | c :: cs, X => by
    rw [List.foldl_cons, others_spec inR data e cs, other_spec]
    by_cases h1 : e ∈ cs.flatten ∧ inR e = true
    · rw [if_pos h1, if_pos ⟨by simp only [List.flatten_cons, List.mem_append]; exact Or.inr h1.1, h1.2⟩]
    · rw [if_neg h1]
      by_cases h2 : e ∈ c ∧ inR e = true
      · rw [if_pos h2, if_pos ⟨by simp only [List.flatten_cons, List.mem_append]; exact Or.inl h2.1, h2.2⟩]
      · rw [if_neg h2, if_neg]
        rintro ⟨h3, h4⟩
        rw [List.flatten_cons, List.mem_append] at h3
        rcases h3 with h3 | h3
        · exact h2 ⟨h3, h4⟩
        · exact h1 ⟨h3, h4⟩

theorem mapM_some {f : ℕ → Option D} {g : ℕ → D} : ∀ l : List ℕ, (∀ e ∈ l, f e = some (g e)) → l.mapM f = some (l.map g)
  | [], _ => rfl
  | a :: l, h => by
    rw [List.mapM_cons, h a (List.mem_cons_self ..), mapM_some l (fun e he => h e (List.mem_cons_of_mem _ he))]
    rfl

theorem mapM_none {f : ℕ → Option D} {e : ℕ} (hf : f e = none) : ∀ l : List ℕ, e ∈ l → l.mapM f = none
  | a :: l, h => by
    rw [List.mapM_cons]
    by_cases ha : e = a
    · subst ha
      rw [hf]
      rfl
    · rw [mapM_none hf l ((List.mem_cons.mp h).resolve_left ha)]
      cases f a <;> rfl

/-- **C116 (data of all cores, partial).**  When all elements are in the regions: the master has the data of all elements in their order, for any
distribution.  Partial: for some of the regions it raises (`c116_subset_fails`). -/
theorem c116_collect_partial (total : ℕ) (inR : ℕ → Bool) (data : ℕ → D) (master : List ℕ) (slaves : List (List ℕ))
    (hall : ∀ e < total, e ∈ master ++ slaves.flatten) (hm : ∀ e ∈ master, inR e = true) (hin : ∀ e < total, inR e = true) :
    collect total inR data master slaves = some ((List.range total).map data) := by
  unfold collect
  obtain ⟨Y, h1, h2⟩ := own_some inR data master master (fun _ => none) (fun j hj => ⟨hj, hm j hj⟩)
  rw [h1, Option.bind_some]
  apply mapM_some
  intro e he
  have he := List.mem_range.mp he
  rw [others_spec]
  by_cases hs : e ∈ slaves.flatten
  · rw [if_pos ⟨hs, hin e he⟩]
  · rw [if_neg (fun h => hs h.1), h2, if_pos ((List.mem_append.mp (hall e he)).resolve_right hs)]

/-- **C116 (fails for some of the regions).**  If an element is not in the regions that were asked for, nothing is written, for any distribution. -/
theorem c116_subset_fails (total : ℕ) (inR : ℕ → Bool) (data : ℕ → D) (master : List ℕ) (slaves : List (List ℕ)) (e : ℕ) (he : e < total)
    (hout : inR e = false) : collect total inR data master slaves = none := by
  unfold collect
  by_cases hm : ∀ j ∈ master, inR j = true
  · obtain ⟨Y, h1, h2⟩ := own_some inR data master master (fun _ => none) (fun j hj => ⟨hj, hm j hj⟩)
    rw [h1, Option.bind_some]
    apply mapM_none (e := e) _ _ (List.mem_range.mpr he)
    rw [others_spec, if_neg (by simp [hout]), h2, if_neg]
    intro hmem
    rw [hm e hmem] at hout
    cases hout
  · push Not at hm
    obtain ⟨j, hj, hjr⟩ := hm
    rw [own_none inR data master j (by simpa using hjr) master _ hj]
    rfl

end

/-! Two elements of 2 × 1 × 1 points beside each other, numbered 1 and 0. -/

example : (file (2, 1, 1) (2, 1, 1) (fun b => 1 - b.1) (fun e p => 10 * e + p.1) (fun _ _ => 0) (fun _ _ => 0) (fun e p => 100 * e + p.1)).map
    (fun t => (t.1, t.2.2.2)) = [(10, 100), (11, 101), (0, 0), (1, 1)] := by decide

example : Lt (1, 0, 0) (2, 1, 1) ∧ Lt (1, 0, 0) (2, 1, 1) := ⟨⟨by decide, by decide, by decide⟩, ⟨by decide, by decide, by decide⟩⟩
example : collect 4 (fun _ => true) (fun e => 10 * e) [2, 0] [[3], [1]] = some [0, 10, 20, 30] := by decide
example : collect 4 (fun e => e != 1) (fun e => 10 * e) [2, 0] [[3], [1]] = none := by decide

end Mifem.Props.Field116
