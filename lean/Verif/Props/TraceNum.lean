import Verif.Model.TraceNum
import Mathlib.Data.List.Nodup
import Mathlib.Data.List.GetD
import Mathlib.Algebra.Order.Group.Nat
import Mathlib.Algebra.BigOperators.Group.List.Basic

/-!
# C83: the numbering of hybrid trace forms and of edge forms, and where a dof is
-/

namespace Mifem.Props
open Mifem.TraceNum Mifem.Three
open Hybrid (Dir before dp)

/-! ## blocks -/

/-- the amount of numbers in front of member `k` of a list of blocks with the given sizes. -/
def inFront (sizes : List Nat) (k : Nat) : Nat := (sizes.take k).sum

theorem inFront_succ (sizes : List Nat) (k : Nat) (h : k < sizes.length) : inFront sizes (k + 1) = inFront sizes k + sizes[k] := by
  unfold inFront
  rw [List.take_succ_eq_append_getElem h, List.sum_append]
  simp

theorem inFront_mono (sizes : List Nat) {i j : Nat} (h : i ≤ j) : inFront sizes i ≤ inFront sizes j := by
  unfold inFront
  obtain ⟨d, rfl⟩ := Nat.exists_eq_add_of_le h
  rw [List.take_add, List.sum_append]
  omega

theorem inFront_length (sizes : List Nat) : inFront sizes sizes.length = sizes.sum := by simp [inFront]

theorem inFront_find (sizes : List Nat) (d : Nat) (h : d < sizes.sum) :
    ∃ k, ∃ hk : k < sizes.length, inFront sizes k ≤ d ∧ d < inFront sizes k + sizes[k] := by
  have key : ∀ n, n ≤ sizes.length → d < inFront sizes n → ∃ k, ∃ hk : k < sizes.length, inFront sizes k ≤ d ∧ d < inFront sizes k + sizes[k] := by
    intro n
    induction n with
    | zero => intro _ h; simp [inFront] at h
    | succ n ih =>
      intro hn h
      by_cases hd : d < inFront sizes n
      · exact ih (by omega) hd
      · rw [inFront_succ sizes n (by omega)] at h
        exact ⟨n, by omega, by omega, h⟩
  exact key sizes.length le_rfl (by rw [inFront_length]; exact h)

theorem inFront_unique (sizes : List Nat) (i j d : Nat) (hi : i < sizes.length) (hj : j < sizes.length)
    (h1 : inFront sizes i ≤ d) (h2 : d < inFront sizes i + sizes[i]) (h3 : inFront sizes j ≤ d) (h4 : d < inFront sizes j + sizes[j]) : i = j := by
  have a := inFront_succ sizes i hi
  have b := inFront_succ sizes j hj
  rcases Nat.lt_trichotomy i j with h | h | h
  · have := inFront_mono sizes (show i + 1 ≤ j by omega)
    omega
  · exact h
  · have := inFront_mono sizes (show j + 1 ≤ i by omega)
    omega

theorem before_inFront (a b c : Nat) (dirs : List Dir) (i : Nat) : before a b c dirs i = inFront (dirs.map (dp a b c)) i := by
  unfold before inFront
  rw [← List.map_take]
  generalize dirs.take i = l
  induction l with
  | nil => simp
  | cons d l ih =>
    rw [List.map_cons, List.sum_cons, ← ih]
    cases d <;> simp [dp, Nat.add_mul] <;> omega

theorem mem_block (a b c : Nat) (dirs : List Dir) (i d : Nat) (hi : i < dirs.length) :
    d ∈ block a b c dirs i ↔ inFront (dirs.map (dp a b c)) i ≤ d ∧ d < inFront (dirs.map (dp a b c)) i + dp a b c dirs[i] := by
  unfold block
  rw [List.mem_range'_1, before_inFront, List.getD_eq_getElem _ _ hi]

/-- **C83, hybrid.** The numbers of the trace elements (edge elements) are disjoint and together `0, ..., total - 1`; each
has as many as its direction says. -/
theorem c83_blocks (a b c : Nat) (dirs : List Dir) :
    (∀ d, d < (dirs.map (dp a b c)).sum ↔ ∃ i, i < dirs.length ∧ d ∈ block a b c dirs i) ∧
    (∀ i j d, i < dirs.length → j < dirs.length → d ∈ block a b c dirs i → d ∈ block a b c dirs j → i = j) ∧
    ∀ i, ∀ hi : i < dirs.length, (block a b c dirs i).Nodup ∧ (block a b c dirs i).length = dp a b c dirs[i] := by
  refine ⟨?_, ?_, ?_⟩
  · intro d
    constructor
    · intro h
      obtain ⟨k, hk, h1, h2⟩ := inFront_find _ d h
      have hk' : k < dirs.length := by simpa using hk
      refine ⟨k, hk', (mem_block a b c dirs k d hk').2 ⟨h1, ?_⟩⟩
      simpa using h2
    · rintro ⟨i, hi, h⟩
      obtain ⟨h1, h2⟩ := (mem_block a b c dirs i d hi).1 h
      have := inFront_succ (dirs.map (dp a b c)) i (by simpa using hi)
      have h3 := inFront_mono (dirs.map (dp a b c)) (show i + 1 ≤ (dirs.map (dp a b c)).length by simp; omega)
      rw [inFront_length] at h3
      simp only [List.getElem_map] at this
      omega
  · intro i j d hi hj h1 h2
    obtain ⟨a1, a2⟩ := (mem_block a b c dirs i d hi).1 h1
    obtain ⟨b1, b2⟩ := (mem_block a b c dirs j d hj).1 h2
    exact inFront_unique (dirs.map (dp a b c)) i j d (by simpa using hi) (by simpa using hj) a1 (by simpa using a2) b1 (by simpa using b2)
  · intro i hi
    unfold block
    refine ⟨List.nodup_range', ?_⟩
    rw [List.length_range', List.getD_eq_getElem _ _ hi]

/-- entry of a concatenation: part `k`, member `t`. -/
theorem flatMap_entry {α β : Type} (l : List α) (f : α → List β) (k t : Nat) (x : α) (hk : l[k]? = some x) (ht : t < (f x).length) :
    (l.flatMap f)[inFront (l.map fun y => (f y).length) k + t]? = (f x)[t]? := by
  induction l generalizing k with
  | nil => simp at hk
  | cons y l ih =>
    rw [List.flatMap_cons]
    cases k with
    | zero =>
      simp only [List.getElem?_cons_zero, Option.some.injEq] at hk
      subst hk
      simp only [inFront, List.take_zero, List.sum_nil, Nat.zero_add]
      rw [List.getElem?_append_left ht]
    | succ k =>
      simp only [List.getElem?_cons_succ] at hk
      have : inFront ((y :: l).map fun y => (f y).length) (k + 1) = (f y).length + inFront (l.map fun y => (f y).length) k := by
        simp [inFront]
      rw [this, List.getElem?_append_right (by omega), ← ih k hk]
      congr 1
      omega

/-- offset of side `k` (corner edge `k`) in the vector of an element with trace (edge) elements `tes`. -/
def sideStart (a b c : Nat) (dirs : List Dir) (tes : List Nat) (k : Nat) : Nat :=
  inFront (tes.map fun te => dp a b c (dirs.getD te .NS)) k

/-- **C83, hybrid.** In the vector of an element, member `t` of side (corner edge) `k` is member `t` of the numbers of the
trace (edge) element there. -/
theorem c83_hybrid_entry (a b c : Nat) (dirs : List Dir) (map : Nat → List Nat) (m k t te : Nat) (hk : (map m)[k]? = some te)
    (ht : t < dp a b c (dirs.getD te .NS)) :
    (hybridVec a b c dirs map m)[sideStart a b c dirs (map m) k + t]? = (block a b c dirs te)[t]? := by
  have h := flatMap_entry (map m) (block a b c dirs) k t te hk (by unfold block; simpa using ht)
  have e : ((map m).map fun y => (block a b c dirs y).length) = (map m).map fun te => dp a b c (dirs.getD te .NS) := by
    apply List.map_congr_left
    intro y _
    simp [block]
  rw [e] at h
  exact h

/-- **C83, hybrid.** Two places of two elements have the same number exactly when they are the same place of the same
trace (edge) element. -/
theorem c83_hybrid_same (a b c : Nat) (dirs : List Dir) (map : Nat → List Nat) (m k t te m' k' t' te' : Nat)
    (hk : (map m)[k]? = some te) (hte : te < dirs.length) (ht : t < dp a b c (dirs.getD te .NS))
    (hk' : (map m')[k']? = some te') (hte' : te' < dirs.length) (ht' : t' < dp a b c (dirs.getD te' .NS)) :
    (hybridVec a b c dirs map m)[sideStart a b c dirs (map m) k + t]? =
      (hybridVec a b c dirs map m')[sideStart a b c dirs (map m') k' + t']? ↔ te = te' ∧ t = t' := by
  rw [c83_hybrid_entry a b c dirs map m k t te hk ht, c83_hybrid_entry a b c dirs map m' k' t' te' hk' ht']
  constructor
  · intro h
    have e1 : (block a b c dirs te)[t]? = some (before a b c dirs te + t) := by
      unfold block; rw [List.getElem?_range' ht]; simp
    have e2 : (block a b c dirs te')[t']? = some (before a b c dirs te' + t') := by
      unfold block; rw [List.getElem?_range' ht']; simp
    rw [e1, e2] at h
    have h0 := Option.some.inj h
    have hte2 : te = te' := (c83_blocks a b c dirs).2.1 te te' (before a b c dirs te + t) hte hte'
      (List.mem_of_getElem? e1) (h0 ▸ List.mem_of_getElem? e2)
    subst hte2
    exact ⟨rfl, by omega⟩
  · rintro ⟨rfl, rfl⟩
    rfl

/-- **C83, hybrid.** The length of the vector of an element, and the number of dofs of a core (its trace elements are
different from each other): the sizes added up. -/
theorem c83_hybrid_counts (a b c : Nat) (dirs : List Dir) (map : Nat → List Nat) (m : Nat) (own : List Nat) :
    (hybridVec a b c dirs map m).length = ((map m).map fun te => dp a b c (dirs.getD te .NS)).sum ∧
    localNum a b c dirs own = (own.flatMap (block a b c dirs)).length := by
  have key : ∀ (own : List Nat) (n : Nat), own.foldl (fun n i => n + dp a b c (dirs.getD i .NS)) n = n + (own.flatMap (block a b c dirs)).length := by
    intro own
    induction own with
    | nil => intro n; rfl
    | cons i own ih =>
      intro n
      rw [List.foldl_cons, ih, List.flatMap_cons, List.length_append]
      have : (block a b c dirs i).length = dp a b c (dirs.getD i .NS) := by simp [block]
      omega
  constructor
  · unfold hybridVec
    rw [List.length_flatMap]
    congr 1
    apply List.map_congr_left
    intro y _
    simp [block]
  · unfold localNum
    rw [key]
    omega

/-! ### 2D -/

/-- size of a 2D trace element. -/
def size2 (a b : Nat) : Dir2 → Nat
  | .UD => a
  | .LR => b

theorem before2 (a b : Nat) (dirs : List Dir2) (i : Nat) :
    (dirs.take i).count .UD * a + (dirs.take i).count .LR * b = inFront (dirs.map (size2 a b)) i := by
  unfold inFront
  rw [← List.map_take]
  generalize dirs.take i = l
  induction l with
  | nil => simp
  | cons d l ih =>
    rw [List.map_cons, List.sum_cons, ← ih]
    cases d <;> simp [size2, Nat.add_mul] <;> omega

theorem block2_eq (a b : Nat) (dirs : List Dir2) (i : Nat) (hi : i < dirs.length) :
    block2 a b dirs i = List.range' (inFront (dirs.map (size2 a b)) i) (size2 a b dirs[i]) := by
  unfold block2
  rw [before2, List.getD_eq_getElem _ _ hi]
  rfl

/-- **C83, hybrid, 2D.** The numbers of the trace elements are disjoint and together `0, ..., total - 1`; in the vectors of
the elements, places have the same number exactly when they are the same place of the same trace element. -/
theorem c83_blocks2 (a b : Nat) (dirs : List Dir2) :
    (∀ d, d < (dirs.map (size2 a b)).sum ↔ ∃ i, i < dirs.length ∧ d ∈ block2 a b dirs i) ∧
    (∀ i j d, i < dirs.length → j < dirs.length → d ∈ block2 a b dirs i → d ∈ block2 a b dirs j → i = j) ∧
    ∀ (map : Nat → List Nat) (m k t te : Nat), (map m)[k]? = some te → ∀ hte : te < dirs.length, t < size2 a b dirs[te] →
      (hybridVec2 a b dirs map m)[inFront ((map m).map fun te => (block2 a b dirs te).length) k + t]? = (block2 a b dirs te)[t]? := by
  have hm : ∀ i d, ∀ hi : i < dirs.length, d ∈ block2 a b dirs i ↔
      inFront (dirs.map (size2 a b)) i ≤ d ∧ d < inFront (dirs.map (size2 a b)) i + size2 a b dirs[i] := by
    intro i d hi
    rw [block2_eq a b dirs i hi, List.mem_range'_1]
  refine ⟨?_, ?_, ?_⟩
  · intro d
    constructor
    · intro h
      obtain ⟨k, hk, h1, h2⟩ := inFront_find _ d h
      have hk' : k < dirs.length := by simpa using hk
      exact ⟨k, hk', (hm k d hk').2 ⟨h1, by simpa using h2⟩⟩
    · rintro ⟨i, hi, h⟩
      obtain ⟨h1, h2⟩ := (hm i d hi).1 h
      have := inFront_succ (dirs.map (size2 a b)) i (by simpa using hi)
      have h3 := inFront_mono (dirs.map (size2 a b)) (show i + 1 ≤ (dirs.map (size2 a b)).length by simp; omega)
      rw [inFront_length] at h3
      simp only [List.getElem_map] at this
      omega
  · intro i j d hi hj h1 h2
    obtain ⟨a1, a2⟩ := (hm i d hi).1 h1
    obtain ⟨b1, b2⟩ := (hm j d hj).1 h2
    exact inFront_unique (dirs.map (size2 a b)) i j d (by simpa using hi) (by simpa using hj) a1 (by simpa using a2) b1 (by simpa using b2)
  · intro map m k t te hk hte ht
    exact flatMap_entry (map m) (block2 a b dirs) k t te hk (by rw [block2_eq a b dirs te hte]; simpa using ht)

/-- **C83, not true of the code (2D).** The number of dofs in a core is reported as `0`. -/
theorem c83_local_num_2d_counterexample :
    localNum2 2 2 [.UD, .UD, .LR, .LR] [0, 1, 2, 3] ≠ ([0, 1, 2, 3].flatMap (block2 2 2 [.UD, .UD, .LR, .LR])).length := by decide

/-- local traces: every mesh element has its own numbers. -/
theorem c83_local_trace (nb n : Nat) :
    (∀ d, d < n * nb ↔ ∃ m, m < n ∧ d ∈ localTraceVec nb m) ∧
    ∀ m m' d, d ∈ localTraceVec nb m → d ∈ localTraceVec nb m' → m = m' := by
  constructor
  · intro d
    unfold localTraceVec
    simp only [List.mem_range'_1]
    constructor
    · intro h
      have hnb : 0 < nb := by
        rcases Nat.eq_zero_or_pos nb with h0 | h0
        · subst h0; simp at h
        · exact h0
      refine ⟨d / nb, (Nat.div_lt_iff_lt_mul hnb).2 h, ?_, ?_⟩
      · rw [Nat.mul_comm]; exact Nat.mul_div_le d nb
      · have := Nat.lt_mul_div_succ d hnb
        rw [Nat.mul_add, Nat.mul_one, Nat.mul_comm] at this
        exact this
    · rintro ⟨m, hm, h1, h2⟩
      have : (m + 1) * nb ≤ n * nb := Nat.mul_le_mul_right _ hm
      rw [Nat.add_mul, Nat.one_mul] at this
      omega
  · intro m m' d h h'
    unfold localTraceVec at h h'
    rw [List.mem_range'_1] at h h'
    rcases Nat.lt_trichotomy m m' with g | g | g
    · have : (m + 1) * nb ≤ m' * nb := Nat.mul_le_mul_right _ g
      rw [Nat.add_mul, Nat.one_mul] at this
      omega
    · exact g
    · have : (m' + 1) * nb ≤ m * nb := Nat.mul_le_mul_right _ g
      rw [Nat.add_mul, Nat.one_mul] at this
      omega

/-- Two elements side by side, eleven trace elements; the common one is 1. -/
def exDirs : List Dir := [.NS, .NS, .WE, .WE, .BF, .BF, .NS, .WE, .WE, .BF, .BF]
/-- their map. -/
def exMap : Nat → List Nat
  | 0 => [0, 1, 2, 3, 4, 5]
  | 1 => [1, 6, 7, 8, 9, 10]
  | _ => []

example : (hybridVec 2 3 1 exDirs exMap 0) = [0, 1, 2, 3, 4, 5, 6, 7, 8, 9, 10, 11] ∧
    (hybridVec 2 3 1 exDirs exMap 1).take 4 = [2, 3, 12, 13] := by decide
example : (exMap 0)[1]? = some 1 ∧ (exMap 1)[0]? = some 1 ∧ 1 < exDirs.length ∧ 1 < dp 2 3 1 (exDirs.getD 1 .NS) := by decide

/-! ## the amounts numbered before -/

/-- how many trace elements of each direction come before number `i`. -/
def dirsBefore (dirs : List Dir) (i : Nat) : Nat × Nat × Nat :=
  ((dirs.take i).count .NS, (dirs.take i).count .WE, (dirs.take i).count .BF)

theorem dirsBefore_succ (dirs : List Dir) (i : Nat) (h : i < dirs.length) :
    dirsBefore dirs (i + 1) = bump dirs[i] (dirsBefore dirs i) := by
  unfold dirsBefore
  rw [List.take_succ_eq_append_getElem h]
  simp only [List.count_append]
  cases dirs[i] <;> simp [bump]

theorem dirsBefore_sum (dirs : List Dir) (i : Nat) (h : i ≤ dirs.length) :
    (dirsBefore dirs i).1 + (dirsBefore dirs i).2.1 + (dirsBefore dirs i).2.2 = i := by
  induction i with
  | zero => rfl
  | succ i ih =>
    rw [dirsBefore_succ dirs i h]
    have := ih (by omega)
    generalize dirsBefore dirs i = w at this ⊢
    obtain ⟨x, y, z⟩ := w
    cases dirs[i] <;> simp [bump] at this ⊢ <;> omega

/-- what is in the pool is right, and everything is there that is needed in future and whose predecessor is done. -/
def PoolFine (dirs : List Dir) (pool : Pool) (done fut : Nat → Prop) : Prop :=
  (∀ k v, pool k = some v → v = dirsBefore dirs k) ∧ ∀ k, done k → k + 1 < dirs.length → fut (k + 1) → pool (k + 1) ≠ none

theorem poolStep_fine {dirs : List Dir} {shared : Nat → Nat → Option Nat} {r : Nat} {pool : Pool} {done fut fut' : Nat → Prop}
    (hp : PoolFine dirs pool done fut) {i : Nat} (hi : i < dirs.length) (hf : fut i) (h0 : i = 0 ∨ done (i - 1))
    (hsub : ∀ k, fut' k → fut k) (hdel : fut' i → ∃ c, shared r i = some c ∧ r ≤ c) :
    ∃ pool', TraceNum.poolStep dirs shared r pool i = some (pool', dirsBefore dirs i) ∧
      PoolFine dirs pool' (fun k => done k ∨ k = i) fut' := by
  obtain ⟨hv, ha⟩ := hp
  set pool1 : Pool := if i = 0 then fun k => if k = 0 then some (0, 0, 0) else pool k else pool with hpool1
  have a1 : ∀ k v, pool1 k = some v → v = dirsBefore dirs k := by
    intro k v h
    rw [hpool1] at h
    split at h
    · simp only at h
      split at h
      · rename_i h2; subst h2; cases h; rfl
      · exact hv k v h
    · exact hv k v h
  have a2 : ∀ k, done k → k + 1 < dirs.length → fut (k + 1) → pool1 (k + 1) ≠ none := by
    intro k h1 h2 h3
    rw [hpool1]
    split
    · simpa using ha k h1 h2 h3
    · exact ha k h1 h2 h3
  have ai : pool1 i = some (dirsBefore dirs i) := by
    rcases h0 with h0 | h0
    · subst h0; simp [hpool1]; rfl
    · by_cases hz : i = 0
      · subst hz; simp [hpool1]; rfl
      · have e : i - 1 + 1 = i := by omega
        have := a2 (i - 1) h0 (by omega) (by rw [e]; exact hf)
        rw [e] at this
        cases hq : pool1 i with
        | none => exact absurd hq this
        | some v => rw [a1 i v hq]
  -- the pool before the deletion
  have hdele : ∀ pool2 : Pool, (∀ k v, pool2 k = some v → v = dirsBefore dirs k) →
      (∀ k, (done k ∨ k = i) → k + 1 < dirs.length → fut (k + 1) → pool2 (k + 1) ≠ none) →
      PoolFine dirs (if (match shared r i with | none => false | some c => !(decide (c < r))) = true then pool2
        else fun k => if k = i then none else pool2 k) (fun k => done k ∨ k = i) fut' := by
    intro pool2 b1 b2
    cases hs : shared r i with
    | none =>
      simp only [Bool.false_eq_true, if_false]
      refine ⟨?_, ?_⟩
      · intro k v h
        simp only at h
        split at h
        · cases h
        · exact b1 k v h
      · intro k h1 h2 h3
        by_cases hk : k + 1 = i
        · rw [hk] at h3
          obtain ⟨c, hc, _⟩ := hdel h3
          rw [hs] at hc
          cases hc
        · simp only [if_neg hk]
          exact b2 k h1 h2 (hsub _ h3)
    | some c =>
      simp only [Bool.not_eq_true', decide_eq_false_iff_not]
      by_cases hc : c < r
      · rw [if_neg (by simpa using hc)]
        refine ⟨?_, ?_⟩
        · intro k v h
          simp only at h
          split at h
          · cases h
          · exact b1 k v h
        · intro k h1 h2 h3
          by_cases hk : k + 1 = i
          · rw [hk] at h3
            obtain ⟨c', hc', hle⟩ := hdel h3
            rw [hs] at hc'
            cases hc'
            omega
          · simp only [if_neg hk]
            exact b2 k h1 h2 (hsub _ h3)
      · rw [if_pos hc]
        exact ⟨b1, fun k h1 h2 h3 => b2 k h1 h2 (hsub _ h3)⟩
  unfold TraceNum.poolStep
  simp only [← hpool1]
  rw [ai, List.getElem?_eq_getElem hi]
  simp only []
  rw [← dirsBefore_succ dirs i hi]
  cases hn : pool1 (i + 1) with
  | some w =>
    simp only []
    rw [if_pos (a1 _ _ hn).symm]
    refine ⟨_, rfl, hdele pool1 a1 ?_⟩
    rintro k (hk | rfl) h1 h2
    · exact a2 k hk h1 h2
    · rw [hn]; simp
  | none =>
    simp only []
    by_cases hl : i + 1 = dirs.length
    · rw [if_pos hl, if_pos (by rw [dirsBefore_sum dirs (i + 1) (by omega)]; exact hl)]
      refine ⟨_, rfl, hdele pool1 a1 ?_⟩
      rintro k (hk | rfl) h1 h2
      · exact a2 k hk h1 h2
      · omega
    · rw [if_neg hl]
      refine ⟨_, rfl, hdele _ ?_ ?_⟩
      · intro k v h
        split at h
        · rename_i h2; subst h2; cases h; rfl
        · exact a1 k v h
      · intro k hk h1 h2
        split
        · simp
        · rename_i hne
          rcases hk with hk | rfl
          · exact a2 k hk h1 h2
          · exact absurd rfl hne

theorem poolCore_fine {dirs : List Dir} {shared : Nat → Nat → Option Nat} {r : Nat} (later : Nat → Prop) (idx : List Nat) {pool : Pool}
    {done : Nat → Prop} (hp : PoolFine dirs pool done (fun k => k ∈ idx ∨ later k)) (hi : ∀ i ∈ idx, i < dirs.length)
    (hs : idx.Pairwise (· < ·)) (hf : ∀ i ∈ idx, i = 0 ∨ done (i - 1) ∨ i - 1 ∈ idx)
    (hdel : ∀ i ∈ idx, later i → ∃ c, shared r i = some c ∧ r ≤ c) :
    ∃ pool', TraceNum.poolCore dirs shared r pool idx = some (pool', idx.map fun i => (i, dirsBefore dirs i)) ∧
      PoolFine dirs pool' (fun k => done k ∨ k ∈ idx) later := by
  induction idx generalizing pool done with
  | nil =>
    refine ⟨pool, rfl, hp.1, ?_⟩
    intro k h1 h2 h3
    exact hp.2 k (by simpa using h1) h2 (Or.inr h3)
  | cons i idx ih =>
    have hlt : ∀ k ∈ idx, i < k := (List.pairwise_cons.1 hs).1
    have h0 : i = 0 ∨ done (i - 1) := by
      rcases hf i List.mem_cons_self with h | h | h
      · exact Or.inl h
      · exact Or.inr h
      · rcases List.mem_cons.1 h with h | h
        · exact Or.inl (by omega)
        · have := hlt _ h; omega
    obtain ⟨pool', e1, hp'⟩ := poolStep_fine (shared := shared) (r := r) (fut' := fun k => k ∈ idx ∨ later k) hp (hi i List.mem_cons_self)
      (Or.inl List.mem_cons_self) h0 (by
        rintro k (h | h)
        · exact Or.inl (List.mem_cons_of_mem _ h)
        · exact Or.inr h) (by
        rintro (h | h)
        · have := hlt i h; omega
        · exact hdel i List.mem_cons_self h)
    obtain ⟨pool'', e2, hp''⟩ := ih hp' (fun k hk => hi k (List.mem_cons_of_mem _ hk)) (List.pairwise_cons.1 hs).2 (by
      intro k hk
      rcases hf k (List.mem_cons_of_mem _ hk) with h | h | h
      · exact Or.inl h
      · exact Or.inr (Or.inl (Or.inl h))
      · rcases List.mem_cons.1 h with h | h
        · exact Or.inr (Or.inl (Or.inr h))
        · exact Or.inr (Or.inr h)) (fun k hk => hdel k (List.mem_cons_of_mem _ hk))
    refine ⟨pool'', ?_, hp''.1, ?_⟩
    · unfold TraceNum.poolCore
      rw [e1]
      simp only []
      rw [e2]
      rfl
    · intro k h1 h2 h3
      apply hp''.2 k _ h2 h3
      rcases h1 with h1 | h1
      · exact Or.inl (Or.inl h1)
      · rcases List.mem_cons.1 h1 with h1 | h1
        · exact Or.inl (Or.inr h1)
        · exact Or.inr h1

/-- every trace element of a core but number 0 has its predecessor in that core or in an earlier one. -/
def Consecutive (cores : List (List Nat)) : Prop :=
  ∀ r i : Nat, i + 1 ∈ cores.getD r [] → ∃ r' ≤ r, i ∈ cores.getD r' []

/-- `shared r i` is the other core that has trace element `i` of core `r`, if there is one. -/
def SharedRight (cores : List (List Nat)) (shared : Nat → Nat → Option Nat) : Prop :=
  ∀ r i : Nat, i ∈ cores.getD r [] → ∀ c, c ≠ r → (i ∈ cores.getD c [] ↔ shared r i = some c)

/-- **C83, amounts.** Every core gets, for each of its trace elements, how many of each direction are numbered before, and
no assertion fails, although entries of the pool are deleted on the way. -/
theorem c83_amounts (dirs : List Dir) (cores : List (List Nat)) (shared : Nat → Nat → Option Nat)
    (hi : ∀ idx ∈ cores, ∀ i ∈ idx, i < dirs.length) (hs : ∀ idx ∈ cores, idx.Pairwise (· < ·)) (hc : Consecutive cores)
    (hsh : SharedRight cores shared) :
    TraceNum.amounts dirs shared 0 (fun _ => none) cores = some (cores.map fun idx => idx.map fun i => (i, dirsBefore dirs i)) := by
  have key : ∀ (rest : List (List Nat)) (r : Nat) (pool : Pool) , cores.drop r = rest →
      PoolFine dirs pool (fun k => ∃ r' < r, k ∈ cores.getD r' []) (fun k => ∃ c ≥ r, k ∈ cores.getD c []) →
      TraceNum.amounts dirs shared r pool rest = some (rest.map fun idx => idx.map fun i => (i, dirsBefore dirs i)) := by
    intro rest
    induction rest with
    | nil => intro r pool _ _; rfl
    | cons idx rest ih =>
      intro r pool hd hp
      have hr : r < cores.length := by
        by_contra h
        rw [List.drop_eq_nil_of_le (by omega)] at hd
        cases hd
      have hidx : cores.getD r [] = idx := by
        rw [List.getD_eq_getElem _ _ hr]
        have := List.drop_eq_getElem_cons hr
        rw [hd] at this
        exact (List.cons.inj this).1.symm
      have hmem : idx ∈ cores := by
        rw [← hidx, List.getD_eq_getElem _ _ hr]
        exact List.getElem_mem hr
      have hd' : cores.drop (r + 1) = rest := by
        have := List.drop_eq_getElem_cons hr
        rw [hd] at this
        exact (List.cons.inj this).2.symm
      obtain ⟨pool', e1, hp'⟩ := poolCore_fine (shared := shared) (r := r) (fun k => ∃ c ≥ r + 1, k ∈ cores.getD c []) idx (pool := pool)
        (done := fun k => ∃ r' < r, k ∈ cores.getD r' []) ⟨hp.1, by
          intro k h1 h2 h3
          apply hp.2 k h1 h2
          rcases h3 with h3 | ⟨c, hc1, hc2⟩
          · exact ⟨r, le_rfl, by rw [hidx]; exact h3⟩
          · exact ⟨c, by omega, hc2⟩⟩ (hi idx hmem) (hs idx hmem) (by
          intro i hii
          cases i with
          | zero => exact Or.inl rfl
          | succ i =>
            obtain ⟨r', hr', h⟩ := hc r i (by rw [hidx]; exact hii)
            rcases Nat.lt_or_ge r' r with g | g
            · exact Or.inr (Or.inl ⟨r', g, h⟩)
            · have : r' = r := by omega
              subst this
              rw [hidx] at h
              exact Or.inr (Or.inr h)) (by
          rintro i hii ⟨c, hc1, hc2⟩
          exact ⟨c, (hsh r i (by rw [hidx]; exact hii) c (by omega)).1 hc2, by omega⟩)
      unfold TraceNum.amounts
      rw [e1]
      simp only []
      rw [ih (r + 1) pool' hd' ⟨hp'.1, by
        rintro k ⟨r', hr', h⟩ h2 h3
        apply hp'.2 k _ h2 h3
        rcases Nat.lt_or_ge r' r with g | g
        · exact Or.inl ⟨r', g, h⟩
        · have : r' = r := by omega
          subst this
          rw [hidx] at h
          exact Or.inr h⟩]
      rfl
  exact key cores 0 _ rfl ⟨by simp, by simp⟩

/-- Two cores; trace element 1 is on both. -/
def exCores : List (List Nat) := [[0, 1, 2, 3, 4, 5], [1, 6, 7, 8, 9, 10]]
/-- who shares it. -/
def exShared : Nat → Nat → Option Nat
  | 0, 1 => some 1
  | 1, 1 => some 0
  | _, _ => none

example : Consecutive exCores := by
  intro r i h
  match r with
  | 0 =>
    have h' : i + 1 ∈ [0, 1, 2, 3, 4, 5] := h
    refine ⟨0, le_rfl, ?_⟩
    show i ∈ [0, 1, 2, 3, 4, 5]
    simp only [List.mem_cons, List.not_mem_nil, or_false] at h' ⊢
    omega
  | 1 =>
    have h' : i + 1 ∈ [1, 6, 7, 8, 9, 10] := h
    simp only [List.mem_cons, List.not_mem_nil, or_false] at h'
    by_cases hi : i ≤ 5
    · refine ⟨0, by omega, ?_⟩
      show i ∈ [0, 1, 2, 3, 4, 5]
      simp only [List.mem_cons, List.not_mem_nil, or_false]
      omega
    · refine ⟨1, by omega, ?_⟩
      show i ∈ [1, 6, 7, 8, 9, 10]
      simp only [List.mem_cons, List.not_mem_nil, or_false]
      omega
  | r + 2 => exact absurd (show i + 1 ∈ [] from h) (by simp)

example : SharedRight exCores exShared := by
  intro r i h c hc
  match r, c, hc with
  | 0, 0, hc => exact absurd rfl hc
  | 0, 1, _ =>
    have h' : i ∈ [0, 1, 2, 3, 4, 5] := h
    show i ∈ [1, 6, 7, 8, 9, 10] ↔ _
    simp only [List.mem_cons, List.not_mem_nil, or_false] at h'
    rcases h' with rfl | rfl | rfl | rfl | rfl | rfl <;> decide
  | 0, c + 2, _ =>
    have h' : i ∈ [0, 1, 2, 3, 4, 5] := h
    show i ∈ [] ↔ _
    simp only [List.mem_cons, List.not_mem_nil, or_false] at h'
    rcases h' with rfl | rfl | rfl | rfl | rfl | rfl <;> simp [exShared]
  | 1, 1, hc => exact absurd rfl hc
  | 1, 0, _ =>
    have h' : i ∈ [1, 6, 7, 8, 9, 10] := h
    show i ∈ [0, 1, 2, 3, 4, 5] ↔ _
    simp only [List.mem_cons, List.not_mem_nil, or_false] at h'
    rcases h' with rfl | rfl | rfl | rfl | rfl | rfl <;> decide
  | 1, c + 2, _ =>
    have h' : i ∈ [1, 6, 7, 8, 9, 10] := h
    show i ∈ [] ↔ _
    simp only [List.mem_cons, List.not_mem_nil, or_false] at h'
    rcases h' with rfl | rfl | rfl | rfl | rfl | rfl <;> simp [exShared]
  | r + 2, _, _ => exact absurd (show i ∈ [] from h) (by simp)

example : TraceNum.amounts exDirs exShared 0 (fun _ => none) exCores =
    some (exCores.map fun idx => idx.map fun i => (i, dirsBefore exDirs i)) := by decide

end Mifem.Props
