import Verif.Lemmas.FormLayout
import Verif.Props.Mesh

/-!
# C05, C06: the naive numbering on any mesh
-/

namespace Mifem.Props
open Mifem.Naive Mifem.Mesh

/-- element `k` gets number `v` at place `a`. -/
def Gives {σ : Type} (out : List (List (Nat × Arr σ))) (k : Nat) (a : σ) (v : Nat) : Prop := ∃ x ∈ out.flatten, x.1 = k ∧ x.2 a = some v

/-! ## C06 -/

/-- **C06.** For any distribution of the elements `0..n-1` to ranks in contiguous ascending blocks (empty ones included)
the numbering raises an exception exactly when the serial one does, every rank receives exactly its own elements, and all
ranks together receive the numbers of the serial run. -/
theorem c06_independent_of_ranks {σ : Type} [DecidableEq σ] (L : Layout σ) (emap : Nat → List (Option Nat)) (n : Nat)
    (ranks : List (List Nat)) (hr : ranks.flatten = List.range n) :
    ((naive L emap ranks).isSome ↔ (naive L emap [List.range n]).isSome) ∧
    ∀ out, naive L emap ranks = some out →
      out.map (fun l => l.map Prod.fst) = ranks ∧ naive L emap [List.range n] = some [out.flatten] := by
  have h1 := naive_flatten L emap n ranks hr
  have h2 := naive_flatten L emap n [List.range n] (by simp)
  rw [← h2] at h1
  constructor
  · have e1 : ((naive L emap ranks).map List.flatten).isSome = (naive L emap ranks).isSome := by cases naive L emap ranks <;> rfl
    have e2 : ((naive L emap [List.range n]).map List.flatten).isSome = (naive L emap [List.range n]).isSome := by
      cases naive L emap [List.range n] <;> rfl
    rw [← e1, h1, e2]
  · intro out hout
    refine ⟨run_shape L emap ranks _ out hout, ?_⟩
    rw [hout] at h1
    cases hs : naive L emap [List.range n] with
    | none => rw [hs] at h1; exact absurd h1 (by simp)
    | some out' =>
      rw [hs] at h1
      have hf : out.flatten = out'.flatten := by simpa using h1
      have hshape := run_shape L emap [List.range n] _ out' hs
      have hl : out'.length = 1 := by simpa using congrArg List.length hshape
      obtain ⟨l, rfl⟩ := List.length_eq_one_iff.1 hl
      rw [hf]
      simp

/-- 2 x 2 elements in one region. -/
def emap22 : Nat → List (Option Nat)
  | 0 => [none, some 1, none, some 2]
  | 1 => [some 0, none, none, some 3]
  | 2 => [none, some 3, some 0, none]
  | 3 => [some 2, none, some 1, none]
  | _ => []

/-- three ranks, one of them without elements. -/
example : [[0, 1], [], [2, 3]].flatten = List.range 4 := rfl

example : (naive (formLayout [2, 1] comps2d0) emap22 [[0, 1], [], [2, 3]]).isSome := by decide

/-! ## C05 -/

/-- what the numbering uses of the element map: symmetric, elements are not their own neighbours. -/
def Conforming (n : Nat) (emap : Nat → List (Option Nat)) : Prop :=
  ∀ k j l : Nat, k < n → (emap k)[j]? = some (some l) → l < n ∧ l ≠ k ∧ (emap l)[opp j]? = some (some k)

/-- every component has its nodes in exactly one direction: its dofs sit inside the sides of the elements. -/
def SideDofs (p : List Nat) (comps : List (List Bool)) : Prop :=
  ∀ c ∈ comps, ∃ d, d < p.length ∧ ∀ t, c.getD t false = decide (t = d)

/-- `(k, a)` and `(l, b)` are the two copies of one dof: element `l` is across side `j` of element `k`; `a` lies on side
`j` of `k` and `b` at the same place of the opposite side of `l`. -/
def Copies (p : List Nat) (comps : List (List Bool)) (emap : Nat → List (Option Nat)) (k : Nat) (a : Nat × List Nat) (l : Nat) (b : Nat × List Nat) : Prop :=
  ∃ d side, side < 2 ∧ (emap k)[2 * d + side]? = some (some l) ∧ nodalIn comps a.1 d = true ∧
    a.2.getD d 0 = (if side = 0 then 0 else p.getD d 0) ∧ b = (a.1, a.2.set d (if side = 0 then p.getD d 0 else 0))

/-- the place across side `j`. -/
def across (p : List Nat) (j : Nat) (a : Nat × List Nat) : Nat × List Nat :=
  (a.1, a.2.set (j / 2) (if j % 2 = 0 then p.getD (j / 2) 0 else 0))

/-- `a` lies on side `j`. -/
def onSide (p : List Nat) (comps : List (List Bool)) (j : Nat) (a : Nat × List Nat) : Bool :=
  nodalIn comps a.1 (j / 2) && decide (a.2.getD (j / 2) 0 = if j % 2 = 0 then 0 else p.getD (j / 2) 0)

theorem onSide_iff (p : List Nat) (comps : List (List Bool)) (j : Nat) (a : Nat × List Nat) :
    onSide p comps j a = true ↔ nodalIn comps a.1 (j / 2) = true ∧ a.2.getD (j / 2) 0 = if j % 2 = 0 then 0 else p.getD (j / 2) 0 := by
  simp [onSide]

theorem copies_iff (p : List Nat) (comps : List (List Bool)) (emap : Nat → List (Option Nat)) (k : Nat) (a : Nat × List Nat) (l : Nat) (b : Nat × List Nat) :
    Copies p comps emap k a l b ↔ ∃ j, (emap k)[j]? = some (some l) ∧ onSide p comps j a = true ∧ b = across p j a := by
  constructor
  · rintro ⟨d, side, hs, h1, h2, h3, h4⟩
    have e1 : (2 * d + side) / 2 = d := by omega
    have e2 : (2 * d + side) % 2 = side := by omega
    refine ⟨2 * d + side, h1, ?_, ?_⟩
    · rw [onSide_iff, e1, e2]; exact ⟨h2, h3⟩
    · unfold across; rw [e1, e2]; exact h4
  · rintro ⟨j, h1, h2, h3⟩
    rw [onSide_iff] at h2
    refine ⟨j / 2, j % 2, by omega, ?_, h2.1, h2.2, h3⟩
    rw [Nat.div_add_mod]
    exact h1

theorem nodalIn_of (comps : List (List Bool)) (k d : Nat) (c : List Bool) (h : comps[k]? = some c) : nodalIn comps k d = c.getD d false := by
  unfold nodalIn
  rw [List.getD_eq_getElem?_getD (l := comps), h]
  rfl

/-- a place lies on at most one side. -/
theorem side_unique (p : List Nat) (hp : ∀ d, d < p.length → 0 < p.getD d 0) (comps : List (List Bool)) (hs : SideDofs p comps) (a : Nat × List Nat)
    (ha : IsPlace p comps a) (j j' : Nat) (h : onSide p comps j a = true) (h' : onSide p comps j' a = true) : j = j' := by
  rw [onSide_iff] at h h'
  obtain ⟨c, hc, _⟩ := ha
  obtain ⟨d, hd, hone⟩ := hs c (List.mem_of_getElem? hc)
  rw [nodalIn_of comps _ _ c hc, hone, decide_eq_true_eq] at h h'
  have hpd := hp d hd
  obtain ⟨h1, h2⟩ := h
  obtain ⟨h1', h2'⟩ := h'
  rw [h1] at h2
  rw [h1'] at h2'
  rw [h2] at h2'
  have : j % 2 = j' % 2 := by
    by_cases g : j % 2 = 0 <;> by_cases g' : j' % 2 = 0
    · omega
    · rw [if_pos g, if_neg g'] at h2'; omega
    · rw [if_neg g, if_pos g'] at h2'; omega
    · omega
  omega

theorem across_spec (p : List Nat) (comps : List (List Bool)) (a : Nat × List Nat) (ha : IsPlace p comps a) (j : Nat) (hj : j / 2 < p.length) (h : onSide p comps j a = true) :
    IsPlace p comps (across p j a) ∧ onSide p comps (opp j) (across p j a) = true ∧ across p (opp j) (across p j a) = a := by
  rw [onSide_iff] at h
  obtain ⟨c, hc, hl, hb⟩ := ha
  refine ⟨?_, ?_, ?_⟩
  · apply isPlace_set p comps a _ _ ⟨c, hc, hl, hb⟩ h.1
    split <;> omega
  · rw [onSide_iff]
    unfold across
    simp only [opp_div, opp_mod]
    refine ⟨h.1, ?_⟩
    rw [getD_set _ _ _ _ (by omega), if_pos rfl]
    by_cases g : j % 2 = 0
    · rw [if_pos g, if_neg (by omega)]
    · rw [if_neg g, if_pos (by omega)]
  · unfold across
    simp only [opp_div, opp_mod]
    have : (if 1 - j % 2 = 0 then p.getD (j / 2) 0 else 0) = if j % 2 = 0 then 0 else p.getD (j / 2) 0 := by
      by_cases g : j % 2 = 0
      · rw [if_pos g, if_neg (by omega)]
      · rw [if_neg g, if_pos (by omega)]
    rw [this, set_set_self a.2 _ _ h.2]

theorem onSide_dir (p : List Nat) (comps : List (List Bool)) (hs : SideDofs p comps) (a : Nat × List Nat) (ha : IsPlace p comps a) (j : Nat) (h : onSide p comps j a = true) :
    j / 2 < p.length := by
  rw [onSide_iff] at h
  obtain ⟨c, hc, _⟩ := ha
  obtain ⟨d, hd, hone⟩ := hs c (List.mem_of_getElem? hc)
  have h1 := h.1
  rw [nodalIn_of comps _ _ c hc, hone, decide_eq_true_eq] at h1
  omega

/-- the lower one of the two copies of a dof. -/
def canon (p : List Nat) (comps : List (List Bool)) (emap : Nat → List (Option Nat)) (k : Nat) (a : Nat × List Nat) : Nat × (Nat × List Nat) :=
  match (List.range (2 * p.length)).find? fun j => onSide p comps j a with
  | some j =>
    match (emap k)[j]? with
    | some (some l) => if l < k then (l, across p j a) else (k, a)
    | _ => (k, a)
  | none => (k, a)

theorem canon_side (p : List Nat) (hp : ∀ d, d < p.length → 0 < p.getD d 0) (comps : List (List Bool)) (hs : SideDofs p comps) (emap : Nat → List (Option Nat)) (k : Nat)
    (a : Nat × List Nat) (ha : IsPlace p comps a) (j l : Nat) (h : onSide p comps j a = true) (hl : (emap k)[j]? = some (some l)) :
    canon p comps emap k a = if l < k then (l, across p j a) else (k, a) := by
  have hj := onSide_dir p comps hs a ha j h
  unfold canon
  cases hf : (List.range (2 * p.length)).find? fun j => onSide p comps j a with
  | none =>
    have := List.find?_eq_none.1 hf j (List.mem_range.2 (by omega))
    exact absurd h this
  | some j' =>
    have h' := List.find?_some hf
    have := side_unique p hp comps hs a ha j j' h h'
    subst this
    simp only
    rw [hl]

theorem canon_cases (p : List Nat) (comps : List (List Bool)) (emap : Nat → List (Option Nat)) (k : Nat) (a : Nat × List Nat) :
    canon p comps emap k a = (k, a) ∨ ∃ j l, (emap k)[j]? = some (some l) ∧ l < k ∧ onSide p comps j a = true ∧ canon p comps emap k a = (l, across p j a) := by
  unfold canon
  cases hf : (List.range (2 * p.length)).find? fun j => onSide p comps j a with
  | none => exact Or.inl rfl
  | some j =>
    have h' := List.find?_some hf
    simp only
    cases hm : (emap k)[j]? with
    | none => exact Or.inl rfl
    | some x =>
      cases x with
      | none => exact Or.inl rfl
      | some l =>
        simp only
        by_cases hlk : l < k
        · rw [if_pos hlk]
          exact Or.inr ⟨j, l, hm, hlk, h', rfl⟩
        · rw [if_neg hlk]
          exact Or.inl rfl

/-- **C05 (partial).** For forms with dofs inside the sides of the elements, on every conforming mesh: if the numbering
raises no exception then every place of every element gets exactly one number, two places get the same number exactly if
they are the same place or the two copies of one dof, and the numbers are `0..m-1` without holes.
What is missing for C05: the numbering does raise an exception on some conforming meshes, see
`c05_exception` and `c05_not_always`. -/
theorem c05_side_dofs_partial (p : List Nat) (hp : ∀ d, d < p.length → 0 < p.getD d 0) (comps : List (List Bool)) (hc : Comps p comps) (hs : SideDofs p comps)
    (emap : Nat → List (Option Nat)) (n : Nat) (hmap : Conforming n emap) (ranks : List (List Nat)) (hr : ranks.flatten = List.range n)
    (out : List (List (Nat × Arr (Nat × List Nat)))) (hout : naive (formLayout p comps) emap ranks = some out) :
    (∀ k a, k < n → IsPlace p comps a → ∃! v, Gives out k a v) ∧
    (∀ k a l b v w, k < n → l < n → IsPlace p comps a → IsPlace p comps b → Gives out k a v → Gives out l b w →
      (v = w ↔ (k, a) = (l, b) ∨ Copies p comps emap k a l b)) ∧
    ∃ m, ∀ v, v < m ↔ ∃ k a, k < n ∧ IsPlace p comps a ∧ Gives out k a v := by
  have hg := good_formLayout p comps hc
  obtain ⟨N, m, hdet, hval⟩ := naive_spec _ hg emap n ranks hr out hout
  have hgives : ∀ k a v, k < n → (Gives out k a v ↔ N k a = some v) := by
    intro k a v hk
    constructor
    · rintro ⟨x, hx, rfl, hv⟩
      rw [← (hval x hx).2]
      exact hv
    · intro hv
      have hsh := run_shape _ emap ranks _ out hout
      have hmem : k ∈ out.flatten.map Prod.fst := by
        rw [List.map_flatten, hsh, hr]
        exact List.mem_range.2 hk
      obtain ⟨x, hx, rfl⟩ := List.mem_map.1 hmem
      exact ⟨x, hx, rfl, by rw [(hval x hx).2]; exact hv⟩
  have hlink : ∀ o k c a, o < k → k < n → (o, c) ∈ links (formLayout p comps) emap k k a → canon p comps emap o c = canon p comps emap k a := by
    intro o k c a hok hk hx
    obtain ⟨_, j, hj, hplace, hnod, hown, ha⟩ := (mem_links_form p comps hc emap k a (o, c)).1 hx
    have hon : onSide p comps j c = true := (onSide_iff p comps j c).2 ⟨hnod, hown⟩
    have ha' : a = across p j c := ha
    obtain ⟨g1, g2, g3⟩ := across_spec p comps c hplace j (onSide_dir p comps hs c hplace j hon) hon
    obtain ⟨_, _, hback⟩ := hmap o j k (by omega) hj
    rw [canon_side p hp comps hs emap o c hplace j k hon hj, if_neg (by omega), ha',
      canon_side p hp comps hs emap k _ g1 (opp j) o g2 hback, if_pos hok, g3]
  have hgen := general _ hg emap n N m hdet (canon p comps emap) hlink
  have hfree : ∀ k a, k < n → IsPlace p comps a → links (formLayout p comps) emap k k a = [] → canon p comps emap k a = (k, a) := by
    intro k a hk ha hnil
    rcases canon_cases p comps emap k a with h | ⟨j, l, h1, h2, h3, _⟩
    · exact h
    · exfalso
      obtain ⟨g1, g2, g3⟩ := across_spec p comps a ha j (onSide_dir p comps hs a ha j h3) h3
      obtain ⟨_, _, hback⟩ := hmap k j l hk h1
      have : (l, across p j a) ∈ links (formLayout p comps) emap k k a := by
        rw [mem_links_form p comps hc]
        have := (onSide_iff p comps _ _).1 g2
        exact ⟨h2, opp j, hback, g1, this.1, this.2, g3.symm⟩
      rw [hnil] at this
      exact absurd this (by simp)
  have hback := hgen.2.1 (by
    intro k a l b hk hl ha hb hka hlb he
    rw [mem_slots p comps hc] at ha hb
    rw [hfree k a hk ha hka, hfree l b hl hb hlb] at he
    exact he)
  refine ⟨?_, ?_, ?_⟩
  · intro k a hk ha
    obtain ⟨v, hv⟩ := Option.isSome_iff_exists.1 (hdet.isSome k hk a ((mem_slots p comps hc a).2 ha))
    refine ⟨v, (hgives k a v hk).2 hv, ?_⟩
    intro w hw
    have := (hgives k a w hk).1 hw
    rw [hv] at this
    exact (Option.some.inj this).symm
  · intro k a l b v w hk hl ha hb hv hw
    have hv' := (hgives k a v hk).1 hv
    have hw' := (hgives l b w hl).1 hw
    have hiff : v = w ↔ canon p comps emap k a = canon p comps emap l b := by
      constructor
      · intro hvw
        exact hgen.1 k a l b hk hl ((mem_slots p comps hc a).2 ha) ((mem_slots p comps hc b).2 hb) (by rw [hv', hw', hvw])
      · intro hcan
        have := hback k a l b hk hl ((mem_slots p comps hc a).2 ha) ((mem_slots p comps hc b).2 hb) hcan
        rw [hv', hw'] at this
        exact Option.some.inj this
    rw [hiff, copies_iff]
    constructor
    · intro hcan
      rcases canon_cases p comps emap k a with h | ⟨j, l', h1, h2, h3, h4⟩
      · rcases canon_cases p comps emap l b with h' | ⟨j', k', h1', h2', h3', h4'⟩
        · rw [h, h'] at hcan
          exact Or.inl hcan
        · rw [h, h4'] at hcan
          simp only [Prod.mk.injEq] at hcan
          obtain ⟨rfl, rfl⟩ := hcan
          obtain ⟨g1, g2, g3⟩ := across_spec p comps b hb j' (onSide_dir p comps hs b hb j' h3') h3'
          exact Or.inr ⟨opp j', (hmap l j' k hl h1').2.2, g2, g3.symm⟩
      · rcases canon_cases p comps emap l b with h' | ⟨j', k', h1', h2', h3', h4'⟩
        · rw [h4, h'] at hcan
          simp only [Prod.mk.injEq] at hcan
          obtain ⟨rfl, rfl⟩ := hcan
          exact Or.inr ⟨j, h1, h3, rfl⟩
        · rw [h4, h4'] at hcan
          simp only [Prod.mk.injEq] at hcan
          obtain ⟨rfl, hacr⟩ := hcan
          obtain ⟨g1, g2, g3⟩ := across_spec p comps a ha j (onSide_dir p comps hs a ha j h3) h3
          obtain ⟨f1, f2, f3⟩ := across_spec p comps b hb j' (onSide_dir p comps hs b hb j' h3') h3'
          rw [← hacr] at f2 f3
          have hjj := side_unique p hp comps hs _ g1 _ _ g2 f2
          have e1 := (hmap k j l' hk h1).2.2
          have e2 := (hmap l j' l' hl h1').2.2
          rw [hjj, e2] at e1
          left
          rw [← g3, ← f3, hjj]
          simp only [Option.some.injEq] at e1
          rw [e1]
    · rintro (h | ⟨j, h1, h2, h3⟩)
      · simp only [Prod.mk.injEq] at h
        obtain ⟨rfl, rfl⟩ := h
        rfl
      · obtain ⟨g1, g2, g3⟩ := across_spec p comps a ha j (onSide_dir p comps hs a ha j h2) h2
        obtain ⟨_, hne, hb'⟩ := hmap k j l hk h1
        rw [canon_side p hp comps hs emap k a ha j l h2 h1, h3, canon_side p hp comps hs emap l _ g1 (opp j) k g2 hb', g3]
        by_cases hlk : l < k
        · rw [if_pos hlk, if_neg (by omega)]
        · rw [if_neg hlk, if_pos (by omega)]
  · refine ⟨m, fun v => ?_⟩
    rw [numbers_range _ hg emap n N m hdet v]
    constructor
    · rintro ⟨k, a, hk, ha, hv⟩
      exact ⟨k, a, hk, (mem_slots p comps hc a).1 ha, (hgives k a v hk).2 hv⟩
    · rintro ⟨k, a, hk, ha, hv⟩
      exact ⟨k, a, hk, (mem_slots p comps hc a).2 ha, (hgives k a v hk).1 hv⟩

theorem sideDofs_2d1i (p : List Nat) (hp : p.length = 2) : SideDofs p comps2d1i := by
  intro c hc
  simp only [comps2d1i, List.mem_cons, List.not_mem_nil, or_false] at hc
  rcases hc with rfl | rfl
  · exact ⟨1, by omega, fun t => by match t with | 0 => rfl | 1 => rfl | t + 2 => simp⟩
  · exact ⟨0, by omega, fun t => by match t with | 0 => rfl | 1 => rfl | t + 2 => simp⟩

theorem sideDofs_2d1o (p : List Nat) (hp : p.length = 2) : SideDofs p comps2d1o := by
  intro c hc
  simp only [comps2d1o, List.mem_cons, List.not_mem_nil, or_false] at hc
  rcases hc with rfl | rfl
  · exact ⟨0, by omega, fun t => by match t with | 0 => rfl | 1 => rfl | t + 2 => simp⟩
  · exact ⟨1, by omega, fun t => by match t with | 0 => rfl | 1 => rfl | t + 2 => simp⟩

theorem sideDofs_3d2 (p : List Nat) (hp : p.length = 3) : SideDofs p comps3d2 := by
  intro c hc
  simp only [comps3d2, List.mem_cons, List.not_mem_nil, or_false] at hc
  rcases hc with rfl | rfl | rfl
  · exact ⟨0, by omega, fun t => by match t with | 0 => rfl | 1 => rfl | 2 => rfl | t + 3 => simp⟩
  · exact ⟨1, by omega, fun t => by match t with | 0 => rfl | 1 => rfl | 2 => rfl | t + 3 => simp⟩
  · exact ⟨2, by omega, fun t => by match t with | 0 => rfl | 1 => rfl | 2 => rfl | t + 3 => simp⟩

/-- **C05, when an exception is raised.** The numbering succeeds exactly if every element but the first has a neighbour
with a smaller number. -/
theorem c05_exception (p : List Nat) (comps : List (List Bool)) (hc : Comps p comps) (emap : Nat → List (Option Nat)) (n : Nat)
    (ranks : List (List Nat)) (hr : ranks.flatten = List.range n) :
    (naive (formLayout p comps) emap ranks).isSome ↔ ∀ k, 0 < k → k < n → ∃ o, o < k ∧ some k ∈ emap o :=
  naive_isSome _ (good_formLayout p comps hc) emap n ranks hr

/-- neighbours as given by the mesh. -/
def meshMap (dim : Nat) (M : List EArr) (rmap : Nat → Nat → Att) (ps : List Pair) (e : Nat) : List (Option Nat) :=
  (List.range (2 * dim)).map (neighbour dim M rmap ps e)

/-- the connectivity made by the mesh satisfies the hypothesis of the theorems. `hself`: no region is attached to itself,
and a region that is periodic with itself has more than one element in that direction. -/
theorem meshMap_conforming (dim : Nat) (M : List EArr) (rmap : Nat → Nat → Att) (h : MeshOK dim M rmap)
    (per : List (Nat × Nat × Nat)) (hper : PerOK dim M rmap per) (ps : List Pair) (hps : allPairs M per = some ps)
    (hall : ∀ e, e < total M → (elementMap dim M rmap e).isSome)
    (hself : ∀ e j, e < total M → neighbour dim M rmap ps e j ≠ some e) : Conforming (total M) (meshMap dim M rmap ps) := by
  intro k j l hk hj
  unfold meshMap at hj ⊢
  rw [List.getElem?_map] at hj
  obtain ⟨j', hj', hn⟩ := Option.map_eq_some_iff.1 hj
  have hjlt : j < 2 * dim := by
    by_contra hcon
    rw [List.getElem?_eq_none (by simp; omega)] at hj'
    exact absurd hj' (by simp)
  rw [List.getElem?_range hjlt] at hj'
  have := Option.some.inj hj'
  subst this
  obtain ⟨h1, h2⟩ := c36_symmetric dim M rmap h per hper ps hps hall k j l hk hjlt hn
  refine ⟨h1, ?_, ?_⟩
  · rintro rfl
    exact hself l j hk hn
  · rw [List.getElem?_map, List.getElem?_range (opp_lt dim j hjlt), Option.map_some, h2]

/-- the 2 x 2 mesh is conforming; the hypotheses of `c05_side_dofs_partial` hold for inner and outer 1-forms of any degree. -/
example : Conforming 4 emap22 := by
  intro k j l hk hj
  match k, hk with
  | 0, _ => match j with
    | 0 => simp [emap22] at hj
    | 1 => simp [emap22] at hj; subst hj; decide
    | 2 => simp [emap22] at hj
    | 3 => simp [emap22] at hj; subst hj; decide
    | j + 4 => simp [emap22] at hj
  | 1, _ => match j with
    | 0 => simp [emap22] at hj; subst hj; decide
    | 1 => simp [emap22] at hj
    | 2 => simp [emap22] at hj
    | 3 => simp [emap22] at hj; subst hj; decide
    | j + 4 => simp [emap22] at hj
  | 2, _ => match j with
    | 0 => simp [emap22] at hj
    | 1 => simp [emap22] at hj; subst hj; decide
    | 2 => simp [emap22] at hj; subst hj; decide
    | 3 => simp [emap22] at hj
    | j + 4 => simp [emap22] at hj
  | 3, _ => match j with
    | 0 => simp [emap22] at hj; subst hj; decide
    | 1 => simp [emap22] at hj
    | 2 => simp [emap22] at hj; subst hj; decide
    | 3 => simp [emap22] at hj
    | j + 4 => simp [emap22] at hj

example : (naive (formLayout [2, 1] comps2d1o) emap22 [[0, 1], [], [2, 3]]).isSome := by decide

/-! three regions with one element each, side by side, named such that the middle one comes last. -/

def mesh05 : List EArr := [arangeF 0 [1, 1], arangeF 1 [1, 1], arangeF 2 [1, 1]]

def rmap05 (r j : Nat) : Att :=
  if r = 0 ∧ j = 1 then .other 2
  else if r = 2 ∧ j = 0 then .other 0
  else if r = 2 ∧ j = 1 then .other 1
  else if r = 1 ∧ j = 0 then .other 2
  else .bnd 0

/-- **C05, C04 are false as stated.** On this conforming mesh (its element map is symmetric) every form, of every degree,
fails: element 1 has no neighbour with a smaller number and `KeyError` is raised. -/
theorem c05_not_always : (∀ r j s, r < 3 → j < 4 → rmap05 r j = .other s → s < 3 ∧ rmap05 s (opp j) = .other r) ∧
    (List.range 3).map (meshMap 2 mesh05 rmap05 []) =
      [[none, some 2, none, none], [some 2, none, none, none], [some 0, some 1, none, none]] ∧
    ∀ (p : List Nat) (comps : List (List Bool)), Comps p comps → naive (formLayout p comps) (meshMap 2 mesh05 rmap05 []) [[0, 1, 2]] = none := by
  refine ⟨?_, by decide, ?_⟩
  · intro r j s hr hj hs
    have hs3 : s < 3 := by
      unfold rmap05 at hs
      split at hs
      · have := Att.other.inj hs; omega
      · split at hs
        · have := Att.other.inj hs; omega
        · split at hs
          · have := Att.other.inj hs; omega
          · split at hs
            · have := Att.other.inj hs; omega
            · exact absurd hs (by simp)
    refine ⟨hs3, ?_⟩
    revert hs
    have : ∀ r < 3, ∀ j < 4, ∀ s < 3, rmap05 r j = .other s → rmap05 s (opp j) = .other r := by decide
    exact this r hr j hj s hs3
  · intro p comps hc
    have h := c05_exception p comps hc (meshMap 2 mesh05 rmap05 []) 3 [[0, 1, 2]] rfl
    cases hn : naive (formLayout p comps) (meshMap 2 mesh05 rmap05 []) [[0, 1, 2]] with
    | none => rfl
    | some out =>
      rw [hn] at h
      obtain ⟨o, ho, hmem⟩ := h.1 rfl 1 (by omega) (by omega)
      have : o = 0 := by omega
      subst this
      exact absurd hmem (by decide)

end Mifem.Props
