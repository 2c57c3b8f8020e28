import Verif.Model.IrChain
import Mathlib.Tactic.SplitIfs
import Mathlib.Data.List.Basic
import Mathlib.Data.List.Perm.Subperm
import Mathlib.Algebra.BigOperators.Group.List.Basic

/-!
# C113: chains of irregular gathering matrices

Specification: the vector of a cell is the concatenation of the vectors of all matrices, each raised by the numbers of dofs of the matrices
before it; a dof is found in exactly the cells whose vector has it.
-/

namespace Mifem.Props.Ir113
open Mifem.IrChain

/-- The number of dofs of the matrices before matrix `j`. -/
def before (parts : List GM) (j : ℕ) : ℕ := ((parts.take j).map GM.num).sum

/-- `v` is the concatenation of the raised vectors. -/
def Joined (parts : List GM) (e : String) (v : List ℕ) : Prop :=
  ∃ vs : List (List ℕ), vs.length = parts.length ∧ v = vs.flatten ∧
    ∀ (j : ℕ) (g : GM) (w : List ℕ), parts[j]? = some g → vs[j]? = some w → ∃ u, g.rows.lookup e = some u ∧ w = u.map (before parts j + ·)

theorem joined_spec (e : String) : ∀ (parts : List GM) (a : ℕ), (∀ g ∈ parts, (g.rows.lookup e).isSome) →
    ∃ vs : List (List ℕ), vs.length = parts.length ∧ joined parts (offsets a parts) e = some vs.flatten ∧
      ∀ (j : ℕ) (g : GM) (w : List ℕ), parts[j]? = some g → vs[j]? = some w → ∃ u, g.rows.lookup e = some u ∧ w = u.map (a + before parts j + ·)
  | [], a, _ => ⟨[], rfl, rfl, by intro j g w h; simp at h⟩
  | g :: gs, a, h => by
    obtain ⟨vs, h1, h2, h3⟩ := joined_spec e gs (a + g.num) (fun g' hg' => h g' (List.mem_cons_of_mem _ hg'))
    obtain ⟨u, hu⟩ := Option.isSome_iff_exists.mp (h g (List.mem_cons_self ..))
    refine ⟨u.map (· + a) :: vs, by simp [h1], ?_, ?_⟩
    · simp only [offsets, joined, hu, h2]
      rfl
    · intro j g' w hg hw
      cases j with
      | zero =>
        simp only [List.getElem?_cons_zero, Option.some.injEq] at hg hw
        subst hg hw
        exact ⟨u, hu, by simp [before, Nat.add_comm]⟩
      | succ j =>
        simp only [List.getElem?_cons_succ] at hg hw
        obtain ⟨u', hu', hw'⟩ := h3 j g' w hg hw
        refine ⟨u', hu', ?_⟩
        rw [hw']
        congr 1
        funext x
        simp only [before, List.take_succ_cons, List.map_cons, List.sum_cons]
        omega

/-- The matrices of a list of matrices and chains. -/
def allParts (l : List Arg) : List GM := l.flatMap Arg.parts

theorem make_parts (l : List Arg) (c : Chain) (h : make l = some c) : c.parts = allParts l ∧ c.given = l.length := by
  unfold make at h
  dsimp only at h
  by_cases h0 : l.length = 0
  · rw [if_pos h0] at h; cases h
  rw [if_neg h0] at h
  by_cases h1 : l.length = 1
  · rw [if_pos h1] at h; cases h; exact ⟨rfl, rfl⟩
  · rw [if_neg h1] at h
    unfold allParts
    split at h
    · cases h
    · rename_i g gs he
      split_ifs at h
      cases h
      exact ⟨he.symm, rfl⟩

theorem make_cells (l : List Arg) (c : Chain) (h : make l = some c) (hl : 2 ≤ l.length) (g : GM) (gs : List GM)
    (hp : c.parts = g :: gs) (e : String) (he : (g.rows.lookup e).isSome) : ∀ h ∈ c.parts, (h.rows.lookup e).isSome := by
  have hmp := (make_parts l c h).1
  unfold make at h
  rw [if_neg (by omega)] at h
  dsimp only at h
  rw [if_neg (by omega)] at h
  change (match allParts l with | [] => none | g :: gs => if gs.all (sameCells g) then some (Chain.mk l.length (g :: gs)) else none) = some c at h
  rw [← hmp, hp] at h
  dsimp only at h
  split_ifs at h with hall
  rw [hp]
  intro k hk
  rcases List.mem_cons.mp hk with rfl | hk
  · exact he
  · have hs := List.all_eq_true.mp hall k hk
    unfold sameCells at hs
    rw [Bool.and_eq_true] at hs
    obtain ⟨u, hu⟩ := Option.isSome_iff_exists.mp he
    have hmem : (e, u) ∈ g.rows := by
      clear hall hk hs hp h he
      generalize g.rows = r at hu
      induction r with
      | nil => cases hu
      | cons p r ih =>
        obtain ⟨k', v'⟩ := p
        rw [List.lookup_cons] at hu
        by_cases hek : e = k'
        · subst hek
          simp only [beq_self_eq_true, Option.some.injEq] at hu
          subst hu
          exact List.mem_cons_self ..
        · have : (e == k') = false := by simpa using hek
          rw [this] at hu
          exact List.mem_cons_of_mem _ (ih hu)
    exact List.all_eq_true.mp hs.2 (e, u) hmem

/-- **C113 (vectors).**  A chain made of at least two members, or of one matrix, gives the joined vectors.  Missing: a list of one chain
(false, `c113_wrapped_fails`). -/
theorem c113_vector_partial (l : List Arg) (c : Chain) (h : make l = some c) (hl : 2 ≤ l.length ∨ ∃ g, l = [.gm g]) (g : GM)
    (gs : List GM) (hp : c.parts = g :: gs) (e : String) (he : (g.rows.lookup e).isSome) :
    ∃ v, vector c e = some v ∧ Joined (allParts l) e v := by
  obtain ⟨h1, h2⟩ := make_parts l c h
  unfold vector
  rcases hl with hl | ⟨g', rfl⟩
  · rw [if_neg (by omega)]
    obtain ⟨vs, a1, a2, a3⟩ := joined_spec e c.parts 0 (make_cells l c h hl g gs hp e he)
    refine ⟨vs.flatten, a2, vs, by rw [a1, h1], rfl, ?_⟩
    intro j k w hk hw
    rw [← h1] at hk ⊢
    simpa using a3 j k w hk hw
  · rw [if_pos (by simpa using h2)]
    have hg : c.parts = [g'] := h1
    rw [hg] at hp ⊢
    cases hp
    obtain ⟨u, hu⟩ := Option.isSome_iff_exists.mp he
    refine ⟨u, by simp [hu], [u], rfl, by simp, ?_⟩
    intro j k w hk hw
    cases j with
    | zero =>
      simp only [allParts, List.flatMap_cons, Arg.parts, List.flatMap_nil, List.cons_append, List.nil_append,
        List.getElem?_cons_zero, Option.some.injEq] at hk hw
      subst hk hw
      exact ⟨u, hu, by simp [before]⟩
    | succ j => simp at hw

theorem total_parts : ∀ (parts : List GM) (a : ℕ), parts ≠ [] →
    ∃ o g, (offsets a parts).getLast? = some o ∧ parts.getLast? = some g ∧ o + g.num = a + (parts.map GM.num).sum
  | [], _, h => absurd rfl h
  | [g], a, _ => ⟨a, g, rfl, rfl, by simp⟩
  | g :: k :: l, a, _ => by
    obtain ⟨o, x, h1, h2, h3⟩ := total_parts (k :: l) (a + g.num) (by simp)
    refine ⟨o, x, ?_, ?_, ?_⟩
    · rw [← h1]
      simp only [offsets]
      rw [List.getLast?_cons_cons]
    · rw [← h2, List.getLast?_cons_cons]
    · rw [h3]
      simp only [List.map_cons, List.sum_cons]
      omega

/-- **C113 (number of dofs).**  The number of dofs is the sum of those of all matrices. -/
theorem c113_total (l : List Arg) (c : Chain) (h : make l = some c) : total c = ((allParts l).map GM.num).sum := by
  rw [← (make_parts l c h).1]
  unfold total
  cases hp : c.parts with
  | nil => rfl
  | cons g gs =>
    obtain ⟨o, x, h1, h2, h3⟩ := total_parts (g :: gs) 0 (by simp)
    rw [h1, h2]
    dsimp only
    rw [h3, Nat.zero_add]

/-! ## Finding dofs -/

/-- Dictionaries whose vectors have entries, all less than the number of dofs. -/
def good (g : GM) : Prop := (g.rows.map (·.1)).Nodup ∧ ∀ p ∈ g.rows, p.2 ≠ [] ∧ ∀ u ∈ p.2, u < g.num

theorem lookup_iff (r : List (String × List ℕ)) (hn : (r.map (·.1)).Nodup) (e : String) (u : List ℕ) :
    r.lookup e = some u ↔ (e, u) ∈ r := by
  induction r with
  | nil => simp
  | cons p r ih =>
    obtain ⟨k, v⟩ := p
    simp only [List.map_cons, List.nodup_cons] at hn
    rw [List.lookup_cons, List.mem_cons]
    by_cases hek : e = k
    · subst hek
      simp only [beq_self_eq_true, Option.some.injEq, Prod.mk.injEq, true_and]
      constructor
      · intro h; exact Or.inl h.symm
      · rintro (h | h)
        · exact h.symm
        · exact absurd (List.mem_map_of_mem (f := (·.1)) h) hn.1
    · have : (e == k) = false := by simpa using hek
      rw [this]
      dsimp only
      rw [ih hn.2]
      simp [hek]

theorem lookup_key (r : List (String × List ℕ)) (hn : (r.map (·.1)).Nodup) (e : String) :
    (r.lookup e).isSome ↔ e ∈ r.map (·.1) := by
  rw [Option.isSome_iff_exists, List.mem_map]
  constructor
  · rintro ⟨u, hu⟩
    exact ⟨(e, u), (lookup_iff r hn e u).mp hu, rfl⟩
  · rintro ⟨⟨k, u⟩, h1, h2⟩
    cases h2
    exact ⟨u, (lookup_iff r hn _ u).mpr h1⟩

theorem range_spec (g : GM) (hg : good g) (hr : g.rows ≠ []) :
    ∃ lo hi, range g = some (lo, hi) ∧ lo < hi ∧ hi ≤ g.num ∧ ∀ p ∈ g.rows, ∀ u ∈ p.2, lo ≤ u ∧ u < hi := by
  have hany : (g.rows.any fun p => p.2.isEmpty) = false := by
    rw [List.any_eq_false]
    intro p hp
    simpa using (hg.2 p hp).1
  have hne : g.rows.flatMap (·.2) ≠ [] := by
    obtain ⟨p, l, hl⟩ := List.exists_cons_of_ne_nil hr
    rw [hl]
    intro h
    have h1 := (hg.2 p (by rw [hl]; exact List.mem_cons_self ..)).1
    simp only [List.flatMap_cons, List.append_eq_nil_iff] at h
    exact h1 h.1
  obtain ⟨lo, hlo⟩ := Option.isSome_iff_exists.mp (show (g.rows.flatMap (·.2)).min?.isSome by
    rw [Option.isSome_iff_ne_none]; simpa [List.min?_eq_none_iff] using hne)
  obtain ⟨hi, hhi⟩ := Option.isSome_iff_exists.mp (show (g.rows.flatMap (·.2)).max?.isSome by
    rw [Option.isSome_iff_ne_none]; simpa [List.max?_eq_none_iff] using hne)
  have h1 := List.min?_eq_some_iff.mp hlo
  have h2 := List.max?_eq_some_iff.mp hhi
  refine ⟨lo, hi + 1, ?_, ?_, ?_, ?_⟩
  · unfold range
    rw [hany, hlo, hhi]
    rfl
  · have := h1.2 hi h2.1
    omega
  · obtain ⟨p, hp, hu⟩ := List.mem_flatMap.mp h2.1
    have := (hg.2 p hp).2 hi hu
    omega
  · intro p hp u hu
    have hm : u ∈ g.rows.flatMap (·.2) := List.mem_flatMap.mpr ⟨p, hp, hu⟩
    have a := h1.2 u hm
    have b := h2.2 u hm
    omega

/-- Ranges one after the other, from `p` on. -/
def Ordered : ℕ → List (ℕ × ℕ) → Prop
  | _, [] => True
  | p, q :: l => p ≤ q.1 ∧ q.1 < q.2 ∧ Ordered q.2 l

theorem ordered_le : ∀ (l : List (ℕ × ℕ)) (p : ℕ), Ordered p l → ∀ q ∈ l, p ≤ q.1
  | [], _, _, _, h => by cases h
  | q :: l, p, h, q', hq => by
    rcases List.mem_cons.mp hq with rfl | hq
    · exact h.1
    · have h1 := ordered_le l q.2 h.2.2 q' hq
      have h2 := h.1
      have h3 := h.2.1
      omega

theorem ordered_mono (l : List (ℕ × ℕ)) (p p' : ℕ) (h : Ordered p l) (hp : p' ≤ p) : Ordered p' l := by
  cases l with
  | nil => trivial
  | cons q l => exact ⟨Nat.le_trans hp h.1, h.2⟩

theorem ordered_unique (m : ℕ) : ∀ (l : List (ℕ × ℕ)) (p : ℕ), Ordered p l → ∀ (i j : ℕ) (a b : ℕ × ℕ), l[i]? = some a →
    l[j]? = some b → a.1 ≤ m → m < a.2 → b.1 ≤ m → m < b.2 → i = j
  | [], _, _, i, _, a, _, h, _, _, _, _, _ => by simp at h
  | q :: l, p, h, i, j, a, b, ha, hb, h1, h2, h3, h4 => by
    cases i with
    | zero =>
      cases j with
      | zero => rfl
      | succ j =>
        simp only [List.getElem?_cons_zero, Option.some.injEq, List.getElem?_cons_succ] at ha hb
        subst ha
        have := ordered_le l q.2 h.2.2 b (List.mem_of_getElem? hb)
        omega
    | succ i =>
      cases j with
      | zero =>
        simp only [List.getElem?_cons_zero, Option.some.injEq, List.getElem?_cons_succ] at ha hb
        subst hb
        have := ordered_le l q.2 h.2.2 a (List.mem_of_getElem? ha)
        omega
      | succ j =>
        simp only [List.getElem?_cons_succ] at ha hb
        rw [ordered_unique m l q.2 h.2.2 i j a b ha hb h1 h2 h3 h4]

theorem search_spec (m : ℕ) : ∀ (l : List (ℕ × ℕ)) (p i : ℕ), l ≠ [] → Ordered p l → p ≤ m →
    (search m (some p) i l = some none ∧ ∀ q ∈ l, ¬ (q.1 ≤ m ∧ m < q.2)) ∨
      ∃ k q, search m (some p) i l = some (some (i + k)) ∧ l[k]? = some q ∧ q.1 ≤ m ∧ m < q.2
  | [], _, _, h, _, _ => absurd rfl h
  | (lo, hi) :: l, p, i, _, ho, hp => by
    unfold search
    by_cases h1 : m < lo
    · left
      refine ⟨if_pos ⟨hp, h1⟩, ?_⟩
      intro q hq hc
      rcases List.mem_cons.mp hq with rfl | hq
      · dsimp only at hc; omega
      · have := ordered_le l hi ho.2.2 q hq
        have h2 : lo < hi := ho.2.1
        omega
    · rw [if_neg (fun h => h1 h.2)]
      by_cases h2 : m < hi
      · right
        exact ⟨0, (lo, hi), if_pos ⟨by omega, h2⟩, rfl, by dsimp only; omega, h2⟩
      · rw [if_neg (fun h => h2 h.2)]
        cases l with
        | nil =>
          left
          refine ⟨if_pos ⟨rfl, by omega⟩, ?_⟩
          intro q hq hc
          cases List.mem_singleton.mp hq
          dsimp only at hc
          omega
        | cons q' l =>
          rw [if_neg (by simp)]
          rcases search_spec m (q' :: l) hi (i + 1) (by simp) ho.2.2 (by omega) with ⟨a, b⟩ | ⟨k, q, a, b, c⟩
          · left
            refine ⟨a, ?_⟩
            intro q hq hc
            rcases List.mem_cons.mp hq with rfl | hq
            · dsimp only at hc; omega
            · exact b q hq hc
          · right
            exact ⟨k + 1, q, by rw [a]; congr 2; omega, b, c⟩

theorem locate_spec (m : ℕ) (l : List (ℕ × ℕ)) (hl : l ≠ []) (ho : Ordered 0 l) :
    (locate m l = some none ∧ ∀ q ∈ l, ¬ (q.1 ≤ m ∧ m < q.2)) ∨
      ∃ k q, locate m l = some (some k) ∧ l[k]? = some q ∧ q.1 ≤ m ∧ m < q.2 := by
  match l, hl, ho with
  | [(lo, hi)], _, _ =>
    unfold locate
    dsimp only
    by_cases h : lo ≤ m ∧ m < hi
    · right
      exact ⟨0, (lo, hi), if_pos h, rfl, h⟩
    · left
      refine ⟨if_neg h, ?_⟩
      intro q hq
      cases List.mem_singleton.mp hq
      exact h
  | (lo, hi) :: q' :: l, _, ho =>
    have e : locate m ((lo, hi) :: q' :: l) = search m none 0 ((lo, hi) :: q' :: l) := rfl
    rw [e]
    unfold search
    by_cases h1 : m < lo
    · left
      refine ⟨if_pos h1, ?_⟩
      intro q hq hc
      rcases List.mem_cons.mp hq with rfl | hq
      · dsimp only at hc; omega
      · have := ordered_le (q' :: l) hi ho.2.2 q hq
        have h2 : lo < hi := ho.2.1
        omega
    · rw [if_neg h1]
      by_cases h2 : m < hi
      · right
        exact ⟨0, (lo, hi), if_pos ⟨by omega, h2⟩, rfl, by dsimp only; omega, h2⟩
      · rw [if_neg (fun h => h2 h.2)]
        rcases search_spec m (q' :: l) hi 1 (by simp) ho.2.2 (by omega) with ⟨a, b⟩ | ⟨k, q, a, b, c⟩
        · left
          refine ⟨a, ?_⟩
          intro q hq hc
          rcases List.mem_cons.mp hq with rfl | hq
          · dsimp only at hc; omega
          · exact b q hq hc
        · right
          exact ⟨k + 1, q, by rw [Nat.zero_add, a]; congr 2; omega, b, c⟩

theorem offsets_get : ∀ (parts : List GM) (a j : ℕ), j < parts.length → (offsets a parts)[j]? = some (a + before parts j)
  | [], _, _, h => by simp at h
  | g :: gs, a, 0, _ => by simp [offsets, before]
  | g :: gs, a, j + 1, h => by
    simp only [offsets, List.getElem?_cons_succ]
    rw [offsets_get gs (a + g.num) j (by simpa using h)]
    simp only [before, List.take_succ_cons, List.map_cons, List.sum_cons, Nat.add_assoc]

theorem ranges_spec : ∀ (parts : List GM) (a : ℕ), (∀ g ∈ parts, good g ∧ g.rows ≠ []) →
    ∃ lrs, ranges parts (offsets a parts) = some lrs ∧ lrs.length = parts.length ∧ Ordered a lrs ∧
      ∀ (j : ℕ) (g : GM) (q : ℕ × ℕ), parts[j]? = some g → lrs[j]? = some q → ∀ p ∈ g.rows, ∀ u ∈ p.2,
        q.1 ≤ a + before parts j + u ∧ a + before parts j + u < q.2
  | [], a, _ => ⟨[], rfl, rfl, trivial, by intro j g q h; simp at h⟩
  | g :: gs, a, h => by
    obtain ⟨lrs, h1, h2, h3, h4⟩ := ranges_spec gs (a + g.num) (fun k hk => h k (List.mem_cons_of_mem _ hk))
    obtain ⟨hg, hr⟩ := h g (List.mem_cons_self ..)
    obtain ⟨lo, hi, r1, r2, r3, r4⟩ := range_spec g hg hr
    refine ⟨(lo + a, hi + a) :: lrs, ?_, by simp [h2], ⟨by dsimp only; omega, by dsimp only; omega, ?_⟩, ?_⟩
    · simp only [offsets, ranges, r1, h1]
      rfl
    · exact ordered_mono lrs _ _ h3 (by dsimp only; omega)
    · intro j k q hk hq p hp u hu
      cases j with
      | zero =>
        simp only [List.getElem?_cons_zero, Option.some.injEq] at hk hq
        subst hk hq
        have := r4 p hp u hu
        simp only [before, List.take_zero, List.map_nil, List.sum_nil]
        omega
      | succ j =>
        simp only [List.getElem?_cons_succ] at hk hq
        have := h4 j k q hk hq p hp u hu
        simp only [before, List.take_succ_cons, List.map_cons, List.sum_cons] at this ⊢
        omega

theorem lower_end : ∀ (parts : List GM) (a : ℕ) (lrs : List (ℕ × ℕ)), (∀ g ∈ parts, good g ∧ g.rows ≠ []) →
    ranges parts (offsets a parts) = some lrs → ∀ (j : ℕ) (q : ℕ × ℕ), lrs[j]? = some q → a + before parts j ≤ q.1
  | [], a, lrs, _, h, j, q, hq => by
    simp only [ranges, Option.some.injEq] at h
    subst h
    simp at hq
  | g :: gs, a, lrs, h, hr, j, q, hq => by
    obtain ⟨hg, hrw⟩ := h g (List.mem_cons_self ..)
    obtain ⟨lo, hi, r1, -, -, -⟩ := range_spec g hg hrw
    simp only [offsets, ranges, r1] at hr
    cases hrs : ranges gs (offsets (a + g.num) gs) with
    | none => rw [hrs] at hr; cases hr
    | some l =>
      rw [hrs] at hr
      cases hr
      cases j with
      | zero =>
        simp only [List.getElem?_cons_zero, Option.some.injEq] at hq
        subst hq
        simp only [before, List.take_zero, List.map_nil, List.sum_nil]
        omega
      | succ j =>
        simp only [List.getElem?_cons_succ] at hq
        have := lower_end gs (a + g.num) l (fun k hk => h k (List.mem_cons_of_mem _ hk)) hrs j q hq
        simp only [before, List.take_succ_cons, List.map_cons, List.sum_cons] at this ⊢
        omega

theorem joined_mem (parts : List GM) (e : String) (v : List ℕ) (h : Joined parts e v) (m : ℕ) :
    m ∈ v ↔ ∃ (j : ℕ) (g : GM) (u : List ℕ), parts[j]? = some g ∧ g.rows.lookup e = some u ∧ ∃ x ∈ u, m = before parts j + x := by
  obtain ⟨vs, h1, rfl, h3⟩ := h
  rw [List.mem_flatten]
  constructor
  · rintro ⟨w, hw, hm⟩
    obtain ⟨j, hj⟩ := List.getElem?_of_mem hw
    have hlt := (List.getElem?_eq_some_iff.mp hj).1
    have hg : parts[j]? = some parts[j] := List.getElem?_eq_getElem (by omega)
    obtain ⟨u, hu, rfl⟩ := h3 j _ w hg hj
    obtain ⟨x, hx, hxm⟩ := List.mem_map.mp hm
    exact ⟨j, _, u, hg, hu, x, hx, hxm.symm⟩
  · rintro ⟨j, g, u, hg, hu, x, hx, rfl⟩
    have hlt := (List.getElem?_eq_some_iff.mp hg).1
    have hv : vs[j]? = some vs[j] := List.getElem?_eq_getElem (by omega)
    obtain ⟨u', hu', hw⟩ := h3 j g _ hg hv
    rw [hu] at hu'
    cases hu'
    refine ⟨_, List.mem_of_getElem? hv, ?_⟩
    rw [hw]
    exact List.mem_map.mpr ⟨x, hx, rfl⟩

/-- The dof that a number means; negative numbers count from the end. -/
def dofOf (n : ℕ) (m : Int) : ℕ := (if m < 0 then m + n else m).toNat

/-- The cells of all matrices of a chain that is made are the same. -/
theorem same_cells (l : List Arg) (c : Chain) (h : make l = some c) (hl : 2 ≤ l.length ∨ ∃ g, l = [.gm g]) (g : GM)
    (gs : List GM) (hp : c.parts = g :: gs) (hg : ∀ g ∈ c.parts, good g) (k : GM) (hk : k ∈ c.parts) (e : String) :
    (k.rows.lookup e).isSome ↔ (g.rows.lookup e).isSome := by
  have hgg := hg g (by rw [hp]; exact List.mem_cons_self ..)
  rcases hl with hl | ⟨g', rfl⟩
  · constructor
    swap
    · exact fun he => make_cells l c h hl g gs hp e he k hk
    · have hsub : ∀ e, e ∈ g.rows.map (·.1) → e ∈ k.rows.map (·.1) := by
        intro e he
        rw [← lookup_key _ (hg k hk).1]
        exact make_cells l c h hl g gs hp e ((lookup_key _ hgg.1 e).mpr he) k hk
      have hlen : k.rows.length = g.rows.length := by
        have hmp := (make_parts l c h).1
        unfold make at h
        rw [if_neg (by omega)] at h
        dsimp only at h
        rw [if_neg (by omega)] at h
        change (match allParts l with | [] => none | g :: gs => if gs.all (sameCells g) then some (Chain.mk l.length (g :: gs)) else none) = some c at h
        rw [← hmp, hp] at h
        dsimp only at h
        split_ifs at h with hall
        rw [hp] at hk
        rcases List.mem_cons.mp hk with rfl | hk
        · rfl
        · have hs := List.all_eq_true.mp hall k hk
          unfold sameCells at hs
          rw [Bool.and_eq_true] at hs
          simpa using hs.1
      intro he
      rw [lookup_key _ (hg k hk).1] at he
      rw [lookup_key _ hgg.1]
      have hperm := (List.subperm_of_subset hgg.1 hsub).perm_of_length_le (by simp [hlen])
      exact hperm.mem_iff.mpr he
  · have hg' : c.parts = [g'] := (make_parts _ c h).1
    rw [hg'] at hp hk
    cases hp
    cases List.mem_singleton.mp hk
    rfl

/-- **C113 (finding a dof).**  The search never fails for the numbers of dofs there are; it finds exactly the cells whose vector has the
dof, and `None` if there are none.  Missing: a list of one chain. -/
theorem c113_find_partial (l : List Arg) (c : Chain) (h : make l = some c) (hl : 2 ≤ l.length ∨ ∃ g, l = [.gm g])
    (hg : ∀ g ∈ c.parts, good g) (m : Int) (hm : -(total c : Int) ≤ m ∧ m < total c) (hne : c.parts ≠ []) :
    ∃ r, find c m = some r ∧ (∀ es w, r = some (es, w) → es ≠ []) ∧
      ∀ e, (∃ es w, r = some (es, w) ∧ e ∈ es) ↔ ∃ v, vector c e = some v ∧ dofOf (total c) m ∈ v := by
  obtain ⟨g, gs, hp⟩ := List.exists_cons_of_ne_nil hne
  have hmp := (make_parts l c h).1
  have hvec : ∀ e v, vector c e = some v → (g.rows.lookup e).isSome := by
    intro e v hv
    unfold vector at hv
    rw [hp] at hv
    split_ifs at hv
    · simp only [List.head?_cons, Option.bind_some] at hv
      rw [hv]; rfl
    · simp only [offsets, joined] at hv
      cases hlk : g.rows.lookup e with
      | none => rw [hlk] at hv; cases hv
      | some u => rfl
  have key : ∀ e d, (∃ v, vector c e = some v ∧ d ∈ v) ↔ ∃ (j : ℕ) (k : GM) (u : List ℕ), c.parts[j]? = some k ∧
      k.rows.lookup e = some u ∧ ∃ x ∈ u, d = before c.parts j + x := by
    intro e d
    constructor
    · rintro ⟨v, hv, hd⟩
      obtain ⟨v', hv', hj⟩ := c113_vector_partial l c h hl g gs hp e (hvec e v hv)
      rw [hv] at hv'
      cases hv'
      rw [← hmp] at hj
      exact (joined_mem c.parts e v hj d).mp hd
    · rintro ⟨j, k, u, hk, hu, hx⟩
      have he : (g.rows.lookup e).isSome :=
        (same_cells l c h hl g gs hp hg k (List.mem_of_getElem? hk) e).mp (by rw [hu]; rfl)
      obtain ⟨v', hv', hj⟩ := c113_vector_partial l c h hl g gs hp e he
      rw [← hmp] at hj
      exact ⟨v', hv', (joined_mem c.parts e v' hj d).mpr ⟨j, k, u, hk, hu, hx⟩⟩
  unfold find
  rw [if_neg (fun hn => hn hm)]
  change ∃ r, (match c.parts with
    | [] => none
    | g :: _ =>
      if g.rows.isEmpty then some none
      else do
        let lrs ← ranges c.parts (offsets 0 c.parts)
        match ← locate (dofOf (total c) m) lrs with
        | none => return none
        | some w =>
          let h ← c.parts[w]?
          let o ← (offsets 0 c.parts)[w]?
          let es := (h.rows.filter fun p => p.2.contains (dofOf (total c) m - o)).map (·.1)
          if es.isEmpty then return none else return some (es, w)) = some r ∧ _
  generalize dofOf (total c) m = d
  by_cases hr : g.rows = []
  · refine ⟨none, ?_, (by intro es w hc; cases hc), ?_⟩
    · rw [hp]
      dsimp only
      rw [if_pos (by rw [hr]; rfl)]
    · intro e
      constructor
      · rintro ⟨es, w, hc, -⟩; cases hc
      · rintro ⟨v, hv, -⟩
        have := hvec e v hv
        rw [hr] at this
        cases this
  · have hall : ∀ k ∈ c.parts, good k ∧ k.rows ≠ [] := by
      intro k hk
      refine ⟨hg k hk, ?_⟩
      obtain ⟨⟨e, u⟩, t, ht⟩ := List.exists_cons_of_ne_nil hr
      have he : (g.rows.lookup e).isSome := by rw [ht]; simp
      have := (same_cells l c h hl g gs hp hg k hk e).mpr he
      intro h0
      rw [h0] at this
      cases this
    obtain ⟨lrs, r1, r2, r3, r4⟩ := ranges_spec c.parts 0 hall
    have hin : ∀ (j : ℕ) (k : GM) (e : String) (u : List ℕ) (x : ℕ), c.parts[j]? = some k → k.rows.lookup e = some u → x ∈ u →
        ∃ q, lrs[j]? = some q ∧ q.1 ≤ before c.parts j + x ∧ before c.parts j + x < q.2 := by
      intro j k e u x hk hu hx
      have hlt := (List.getElem?_eq_some_iff.mp hk).1
      have hq : lrs[j]? = some lrs[j] := List.getElem?_eq_getElem (by omega)
      have := r4 j k _ hk hq (e, u) ((lookup_iff _ (hg k (List.mem_of_getElem? hk)).1 e u).mp hu) x hx
      rw [Nat.zero_add] at this
      exact ⟨_, hq, this⟩
    have hlne : lrs ≠ [] := by
      intro h0
      rw [h0, hp] at r2
      simp at r2
    have hmatch : ∀ (β : Type) (f : GM → β) (z : β), (match c.parts with | [] => z | g :: _ => f g) = f g := by
      intro β f z; rw [hp]
    rw [hmatch, if_neg (by simpa using hr), r1]
    rcases locate_spec d lrs hlne r3 with ⟨a, b⟩ | ⟨w, q, a, b, b1, b2⟩
    · refine ⟨none, ?_, (by intro es w hc; cases hc), ?_⟩
      · simp only [Option.bind_eq_bind, Option.bind_some, a]
        rfl
      · intro e
        constructor
        · rintro ⟨es, w, hc, -⟩; cases hc
        · intro hv
          obtain ⟨j, k, u, hk, hu, x, hx, hd⟩ := (key e d).mp hv
          obtain ⟨q, hq, h1, h2⟩ := hin j k e u x hk hu hx
          exact absurd ⟨by omega, by omega⟩ (b q (List.mem_of_getElem? hq))
    · have hwlt : w < c.parts.length := by
        have := (List.getElem?_eq_some_iff.mp b).1
        omega
      have hk : c.parts[w]? = some c.parts[w] := List.getElem?_eq_getElem hwlt
      have ho := offsets_get c.parts 0 w hwlt
      rw [Nat.zero_add] at ho
      have hkm := List.mem_of_getElem? hk
      generalize c.parts[w] = k at hk hkm
      have hes : ∀ e, e ∈ (k.rows.filter fun p => p.2.contains (d - before c.parts w)).map (·.1) ↔
          ∃ v, vector c e = some v ∧ d ∈ v := by
        intro e
        rw [key]
        constructor
        · intro he
          obtain ⟨⟨e', u⟩, hf, rfl⟩ := List.mem_map.mp he
          obtain ⟨hf1, hf2⟩ := List.mem_filter.mp hf
          have hx : d - before c.parts w ∈ u := by simpa using hf2
          have hlb : before c.parts w ≤ q.1 := by
            -- the lower end is attained
            have := lower_end c.parts 0 lrs hall r1 w q b
            rwa [Nat.zero_add] at this
          exact ⟨w, k, u, hk, (lookup_iff _ (hg k hkm).1 e' u).mpr hf1, _, hx, by omega⟩
        · rintro ⟨j, k', u, hk', hu, x, hx, hd⟩
          obtain ⟨q', hq', h1, h2⟩ := hin j k' e u x hk' hu hx
          have hjw := ordered_unique d lrs 0 r3 j w q' q hq' b (by omega) (by omega) b1 b2
          subst hjw
          rw [hk] at hk'
          cases hk'
          refine List.mem_map.mpr ⟨(e, u), List.mem_filter.mpr ⟨(lookup_iff _ (hg k hkm).1 e u).mp hu, ?_⟩, rfl⟩
          have : d - before c.parts j = x := by omega
          simpa [this] using hx
      simp only [Option.bind_eq_bind, Option.bind_some, a, hk, ho]
      split_ifs with hemp
      · refine ⟨none, rfl, (by intro es w hc; cases hc), ?_⟩
        intro e
        rw [← hes e]
        constructor
        · rintro ⟨es, w, hc, -⟩; cases hc
        · intro he
          rw [List.isEmpty_iff.mp hemp] at he
          cases he
      · refine ⟨_, rfl, ?_, ?_⟩
        · intro es w' hc
          cases hc
          simpa using hemp
        · intro e
          rw [← hes e]
          constructor
          · rintro ⟨es, w', hc, he⟩
            cases hc
            exact he
          · intro he
            exact ⟨_, _, rfl, he⟩

theorem mapM_all {α β : Type} (f : α → Option β) : ∀ (l : List α), (∀ a ∈ l, (f a).isSome) →
    ∃ r, l.mapM f = some r ∧ r.length = l.length ∧ ∀ (k : ℕ) (a : α) (b : β), l[k]? = some a → r[k]? = some b → f a = some b
  | [], _ => ⟨[], by simp, rfl, by intro k a b h; simp at h⟩
  | a :: l, h => by
    obtain ⟨r, h1, h2, h3⟩ := mapM_all f l (fun x hx => h x (List.mem_cons_of_mem _ hx))
    obtain ⟨b, hb⟩ := Option.isSome_iff_exists.mp (h a (List.mem_cons_self ..))
    refine ⟨b :: r, by simp [List.mapM_cons, hb, h1], by simp [h2], ?_⟩
    intro k x y hx hy
    cases k with
    | zero =>
      simp only [List.getElem?_cons_zero, Option.some.injEq] at hx hy
      subst hx hy
      exact hb
    | succ k =>
      simp only [List.getElem?_cons_succ] at hx hy
      exact h3 k x y hx hy

/-- **C113 (positions of a dof).**  For each cell found, the vector of the cell has the dof at the position returned.  Missing: a list of
one chain (false, `c113_wrapped_fails`). -/
theorem c113_indices_partial (l : List Arg) (c : Chain) (h : make l = some c) (hl : 2 ≤ l.length ∨ ∃ g, l = [.gm g])
    (hg : ∀ g ∈ c.parts, good g) (m : Int) (hm : -(total c : Int) ≤ m ∧ m < total c) (hne : c.parts ≠ []) :
    ∃ r, indices c m = some r ∧ (∀ e, (∃ es is, r = some (es, is) ∧ e ∈ es) ↔ ∃ v, vector c e = some v ∧ dofOf (total c) m ∈ v) ∧
      ∀ es is, r = some (es, is) → is.length = es.length ∧ ∀ (k : ℕ) (e : String) (i : ℕ), es[k]? = some e → is[k]? = some i →
        ∃ v, vector c e = some v ∧ v[i]? = some (dofOf (total c) m) := by
  obtain ⟨r, hf, -, hr⟩ := c113_find_partial l c h hl hg m hm hne
  unfold indices
  rw [hf]
  change ∃ r', (do
    match ← some r with
    | none => return none
    | some (es, _) =>
      let is ← es.mapM fun e => do
        let v ← vector c e
        if v.contains (dofOf (total c) m) then some (v.idxOf (dofOf (total c) m)) else none
      return some (es, is)) = some r' ∧ _
  generalize dofOf (total c) m = d at hr ⊢
  cases r with
  | none =>
    refine ⟨none, rfl, ?_, by intro es is hc; cases hc⟩
    intro e
    rw [← hr e]
    constructor
    · rintro ⟨es, is, hc, -⟩; cases hc
    · rintro ⟨es, is, hc, -⟩; cases hc
  | some p =>
    obtain ⟨es, w⟩ := p
    obtain ⟨is, i1, i2, i3⟩ := mapM_all (fun e => do
        let v ← vector c e
        if v.contains d then some (v.idxOf d) else none) es (by
      intro e he
      obtain ⟨v, hv, hd⟩ := (hr e).mp ⟨es, w, rfl, he⟩
      have : v.contains d = true := by simpa using hd
      simp [hv, hd])
    refine ⟨some (es, is), ?_, ?_, ?_⟩
    · simp only [Option.bind_eq_bind, Option.bind_some] at i1 ⊢
      rw [i1]
      rfl
    · intro e
      rw [← hr e]
      constructor
      · rintro ⟨es', is', hc, he⟩
        cases hc
        exact ⟨es, w, rfl, he⟩
      · rintro ⟨es', is', hc, he⟩
        cases hc
        exact ⟨es, is, rfl, he⟩
    · intro es' is' hc
      cases hc
      refine ⟨i2, ?_⟩
      intro k e i he hi
      have h1 := i3 k e i he hi
      obtain ⟨v, hv, hd⟩ := (hr e).mp ⟨es, w, rfl, List.mem_of_getElem? he⟩
      have hcn : v.contains d = true := by simpa using hd
      rw [hv] at h1
      simp only [Option.bind_eq_bind, Option.bind_some, hcn, if_true, Option.some.injEq] at h1
      subst h1
      exact ⟨v, hv, List.getElem?_idxOf hd⟩

/-! ## Chains of chains -/

/-- **C113, false of the code.**  A list of one chain is accepted and has the dofs of both matrices, but the vectors have those of the first
only. -/
theorem c113_wrapped_fails (g h : GM) (hs : sameCells g h = true) (e : String) (u w : List ℕ) (hu : g.rows.lookup e = some u)
    (hw : h.rows.lookup e = some w) (hne : w ≠ []) :
    ∃ c d, make [.gm g, .gm h] = some c ∧ make [.chain c] = some d ∧ total d = g.num + h.num ∧ vector d e = some u ∧
      ¬ Joined (allParts [.chain c]) e u := by
  refine ⟨⟨2, [g, h]⟩, ⟨1, [g, h]⟩, by simp [make, Arg.parts, hs], by simp [make, Arg.parts], ?_, by simp [vector, hu], ?_⟩
  · simp [total, offsets]
  · rintro ⟨vs, h1, h2, h3⟩
    have hp : allParts [.chain ⟨2, [g, h]⟩] = [g, h] := rfl
    rw [hp] at h1 h3
    match vs, h1 with
    | [a, b], _ =>
      obtain ⟨u', hu', ha⟩ := h3 0 g a rfl rfl
      obtain ⟨w', hw', hb⟩ := h3 1 h b rfl rfl
      rw [hu] at hu'
      rw [hw] at hw'
      cases hu'
      cases hw'
      have hl := congrArg List.length h2
      simp only [List.flatten_cons, List.flatten_nil, List.append_nil, List.length_append, ha, hb, List.length_map] at hl
      have := List.length_pos_iff.mpr hne
      omega

/-- **C113, false of the code.**  A chain by itself is refused, although the documentation allows it. -/
theorem c113_single_fails (c : Chain) : makeOne (.chain c) = none := rfl

/-- **C113, false of the code.**  `==` compares the lengths of the lists given and not the matrices: two matrices equal a chain of them with
any third one, the same turned round is an error, and the same three matrices given in two ways differ. -/
theorem c113_equal_fails (a b k : GM) (h1 : sameCells a b = true) (h2 : sameCells a k = true) (hk : k.num ≠ 0) :
    ∃ c d f, make [.gm a, .gm b] = some c ∧ make [.chain c, .gm k] = some d ∧ make [.gm a, .gm b, .gm k] = some f ∧
      (equal c d = some true ∧ total c ≠ total d) ∧ equal d c = none ∧
      (equal d f = some false ∧ total d = total f ∧ ∀ e, vector d e = vector f e) := by
  refine ⟨⟨2, [a, b]⟩, ⟨2, [a, b, k]⟩, ⟨3, [a, b, k]⟩, by simp [make, Arg.parts, h1], by simp [make, Arg.parts, h1, h2],
    by simp [make, Arg.parts, h1, h2], ⟨by simp [equal, equal.go], ?_⟩, by simp [equal, equal.go], by simp [equal], rfl, ?_⟩
  · simp only [total, offsets, List.getLast?_cons_cons, List.getLast?_singleton]
    omega
  · intro e
    simp [vector]

/-! Two cells with one and two dofs of the first matrix and two and one of the second. -/

def gm1 : GM := ⟨[("0", [0]), ("1", [0, 1])], 2⟩
def gm2 : GM := ⟨[("1", [2]), ("0", [0, 1])], 3⟩

example : make [.gm gm1, .gm gm2] = some ⟨2, [gm1, gm2]⟩ := by decide
example : good gm1 ∧ good gm2 := by simp [good, gm1, gm2]
example : vector ⟨2, [gm1, gm2]⟩ "0" = some [0, 2, 3] ∧ vector ⟨2, [gm1, gm2]⟩ "1" = some [0, 1, 4] := by decide
example : find ⟨2, [gm1, gm2]⟩ 0 = some (some (["0", "1"], 0)) ∧ indices ⟨2, [gm1, gm2]⟩ (-1) = some (some (["1"], [2])) := by
  decide +kernel
example : indices ⟨1, [gm1, gm2]⟩ 4 = none := by decide +kernel
example : sameCells gm1 gm2 = true ∧ gm2.rows.lookup "0" = some [0, 1] := by decide

end Mifem.Props.Ir113
