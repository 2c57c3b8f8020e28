import Verif.Lemmas.Gathering

/-!
# C01: chained numberings

Specification: a chain of gathering matrices is a numbering of the pairs (variable `j`, dof `d` of that variable).
-/

namespace Mifem.Props
open Mifem.Gath

/-- The vector `v` is what the chain must return for element `e` on core `r` when the pair (variable, dof) has the
number `code`: the vectors of the members one after the other, each entry replaced by its number. -/
def ChainedAs (code : Nat → Nat → Nat) (gms : List GM) (r e : Nat) (v : List Nat) : Prop :=
  ∃ ws : List (List Nat), ws.length = gms.length ∧
    (∀ j (h : j < gms.length) (h' : j < ws.length), getVec gms[j] r e = some ws[j]) ∧
    v = (ws.zipIdx.map (fun wj => wj.1.map (code wj.2))).flatten

/-- `num` (the vectors the chain returns) numbers the dofs of all variables: every element has its vector, different
(variable, dof) pairs have different numbers, and the numbers are exactly `0, ..., total-1`. -/
def IsChainNumbering (gms : List GM) (total : Nat) (num : Nat → Nat → Option (List Nat)) : Prop :=
  ∃ code : Nat → Nat → Nat,
    (∀ g ∈ gms, ∀ r e, e ∈ elements g r → ∃ v, num r e = some v ∧ ChainedAs code gms r e v) ∧
    (∀ j j' d d', ∀ (h : j < gms.length) (h' : j' < gms.length), Occurs gms[j] d → Occurs gms[j'] d' →
      code j d = code j' d' → j = j' ∧ d = d') ∧
    (∀ j d, ∀ (h : j < gms.length), Occurs gms[j] d → code j d < total) ∧
    (∀ m, m < total → ∃ j d, ∃ (h : j < gms.length), Occurs gms[j] d ∧ code j d = m)

/-- The gathering matrices are dicts with one part for each of the `nR` cores. -/
def WellFormed (nR : Nat) (gms : List GM) : Prop := ∀ g ∈ gms, DictLike g ∧ g.length = nR

/-- The numbering of one variable has no gap. -/
def NoGap (g : GM) : Prop := ∀ d d', Occurs g d → d' < d → Occurs g d'

theorem c01_get {nR : Nat} {items : List Item} {c : Chain} (h : mkChain nR items = some c)
    (hwf : WellFormed nR c.gms) (g : GM) (hg : g ∈ c.gms) (r e : Nat) (he : e ∈ elements g r) :
    ∃ v, c.get r e = some v ∧ ChainedAs (fun j d => d + (c.ns.take j).sum) c.gms r e v := by
  obtain ⟨_, hse, hns, htba, _⟩ := mkChain_spec h
  have hsame := sameElements_spec hse (fun g hg => (hwf g hg).1) (fun g hg => (hwf g hg).2)
  have hall : ∀ g' ∈ c.gms, ∃ v, getVec g' r e = some v := by
    intro g' hg'
    have : e ∈ elements g' r := (hsame g' hg' r e).mp ((hsame g hg r e).mpr he)
    exact lookup_isSome this
  obtain ⟨ws, hws⟩ := mapM_isSome (fun g => getVec g r e) c.gms hall
  obtain ⟨hlen, hget⟩ := (mapM_some_iff _ _ _).mp hws
  have hnslen : c.ns.length = c.gms.length := ((mapM_some_iff _ _ _).mp hns).1
  have hne : c.gms ≠ [] := List.ne_nil_of_mem hg
  have hnsne : c.ns ≠ [] := by
    intro h0
    rw [h0] at hnslen
    exact hne (List.eq_nil_of_length_eq_zero hnslen.symm)
  refine ⟨(ws.zipIdx.map (fun wj => wj.1.map (fun d => d + (c.ns.take wj.2).sum))).flatten, ?_, ws, hlen, hget, rfl⟩
  unfold Chain.get
  split
  · next h1 =>
    cases hgms : c.gms with
    | nil => exact absurd hgms hne
    | cons g0 rest =>
      rw [hgms] at h1
      have hrest : rest = [] := by
        simpa using h1
      subst hrest
      cases ws with
      | nil => simp [hgms] at hlen
      | cons w ws =>
        have : ws = [] := by
          rw [hgms] at hlen
          simpa using hlen
        subst this
        have := hget 0 (by rw [hgms]; simp) (by simp)
        simp only [hgms, List.getElem_cons_zero] at this
        simp [this]
  · rw [hws]
    simp only [Option.bind_eq_bind, Option.bind_some, Option.pure_def, Option.some.injEq]
    congr 1
    rw [htba, toBeAdded_eq _ hnsne, hnslen, ← hlen]
    apply List.ext_getElem
    · simp [List.length_zip]
    · intro i h1 h2
      simp

/-- **C01.** For any list of gathering matrices (or chains, which are flattened) that `Chain_Gathering_Matrix` accepts
and whose numberings have no gaps, the chained vectors number all (variable, dof) pairs without overlap, and the numbers
are exactly `0, ..., global_num_dofs - 1`; the number of dof `d` of variable `j` is `d` plus the number of dofs of the
variables before. -/
theorem c01_silly_chain {nR : Nat} {items : List Item} {c : Chain} (h : mkChain nR items = some c)
    (hwf : WellFormed nR c.gms) (hgap : ∀ g ∈ c.gms, NoGap g) :
    IsChainNumbering c.gms c.total c.get := by
  obtain ⟨hg, hse, hns, htba, htot⟩ := mkChain_spec h
  obtain ⟨hnslen, hnsget⟩ := (mapM_some_iff _ _ _).mp hns
  have hget := fun g hg r e he => c01_get h hwf g hg r e he
  have hn : ∀ j (hj : j < c.gms.length), c.ns.getD j 0 = c.ns[j]'(by omega) := by
    intro j hj
    simp [List.getD, (by omega : j < c.ns.length)]
  have hspec : ∀ j (hj : j < c.gms.length), 0 < c.ns.getD j 0 ∧ Occurs c.gms[j] (c.ns.getD j 0 - 1) ∧
      ∀ d, Occurs c.gms[j] d → d < c.ns.getD j 0 := by
    intro j hj
    rw [hn j hj]
    exact globalNumDofs_spec (hwf _ (List.getElem_mem hj)).1 (hnsget j hj (by omega))
  have htotal : c.total = c.ns.sum := by
    by_cases h0 : c.ns = []
    · rw [htot, htba, h0]
      simp [toBeAdded]
    · rw [htot, htba, toBeAdded_getLastD _ h0]
  refine ⟨fun j d => d + (c.ns.take j).sum, hget, ?_, ?_, ?_⟩
  · intro j j' d d' hj hj' ho ho' heq
    exact code_inj c.ns j j' d d' (by omega) (by omega) ((hspec j hj).2.2 d ho) ((hspec j' hj').2.2 d' ho') heq
  · intro j d hj ho
    rw [htotal]
    exact code_lt c.ns j d (by omega) ((hspec j hj).2.2 d ho)
  · intro m hm
    rw [htotal] at hm
    obtain ⟨j, d, hj, hd, heq⟩ := code_surj c.ns m hm
    have hj' : j < c.gms.length := by omega
    refine ⟨j, d, hj', ?_, heq⟩
    by_cases hlast : d = c.ns.getD j 0 - 1
    · rw [hlast]
      exact (hspec j hj').2.1
    · exact hgap _ (List.getElem_mem hj') _ d (hspec j hj').2.1 (by omega)

/-- The total is the sum of the numbers of dofs of the members, in particular `global_num_dofs` of a nested chain is
that of the flat chain of its members. -/
theorem c01_total {nR : Nat} {items : List Item} {c : Chain} (h : mkChain nR items = some c) :
    c.total = c.ns.sum ∧ c.gms.mapM globalNumDofs = some c.ns := by
  obtain ⟨_, _, hns, htba, htot⟩ := mkChain_spec h
  refine ⟨?_, hns⟩
  by_cases h0 : c.ns = []
  · rw [htot, htba, h0]
    simp [toBeAdded]
  · rw [htot, htba, toBeAdded_getLastD _ h0]

/-- Chaining chains is the same as chaining their members. -/
theorem c01_flatten (nR : Nat) (c1 c2 : Chain) (g1 g2 : List GM) (m : String)
    (h1 : mkChain nR (g1.map (Item.gm m)) = some c1) (h2 : mkChain nR (g2.map (Item.gm m)) = some c2) :
    mkChain nR [.chain c1, .chain c2] = mkChain nR ((g1 ++ g2).map (Item.gm m)) := by
  have hm : ∀ (g : List GM) (c : Chain), mkChain nR (g.map (Item.gm m)) = some c →
      c.meshType = m ∧ c.gms = g ∧ g ≠ [] := by
    intro g c h
    obtain ⟨hgms, _⟩ := mkChain_spec h
    have hfl : ∀ g : List GM, (g.map (Item.gm m)).flatMap Item.members = g := by
      intro g
      induction g with
      | nil => rfl
      | cons a g ih => simp [Item.members, List.flatMap_cons, ih]
    rw [hfl] at hgms
    cases g with
    | nil => simp [mkChain] at h
    | cons a g =>
      refine ⟨?_, hgms, by simp⟩
      simp only [mkChain, List.map_cons] at h
      split at h
      · split at h
        · rw [Option.bind_eq_bind, Option.bind_eq_some_iff] at h
          obtain ⟨ns, _, h⟩ := h
          simp only [Option.pure_def, Option.some.injEq] at h
          subst h
          rfl
        · simp at h
      · simp at h
  obtain ⟨a1, b1, e1⟩ := hm g1 c1 h1
  obtain ⟨a2, b2, e2⟩ := hm g2 c2 h2
  cases g1 with
  | nil => exact absurd rfl e1
  | cons x xs =>
    have hfl : ∀ g : List GM, (g.map (Item.gm m)).flatMap Item.members = g := by
      intro g
      induction g with
      | nil => rfl
      | cons a g ih => simp [Item.members, List.flatMap_cons, ih]
    have hg : [Item.chain c1, Item.chain c2].flatMap Item.members = x :: xs ++ g2 := by
      simp [Item.members, b1, b2]
    have hg' := hfl (x :: xs ++ g2)
    simp only [List.cons_append, List.map_cons] at hg'
    have hc1 : ([Item.chain c1, Item.chain c2].all fun it => it.meshType == (Item.chain c1).meshType) = true := by
      simp [Item.meshType, a1, a2]
    have hc2 : ((Item.gm m x :: (xs ++ g2).map (Item.gm m)).all fun it => it.meshType == (Item.gm m x).meshType)
        = true := by
      simp [Item.meshType]
    simp only [mkChain, List.cons_append, List.map_cons, hc1, hc2, hg, hg', if_true]
    rw [show (Item.chain c1).meshType = m from a1, show (Item.gm m x).meshType = m from rfl]

/-- Two variables on two elements (one on each of two cores), numbered `0..2` and `0..1`: the hypotheses hold and the
chain is as expected. -/
def exG1 : GM := [[(0, [0, 1])], [(1, [1, 2])]]
def exG2 : GM := [[(0, [0])], [(1, [1])]]

theorem exG1_dict : DictLike exG1 := by unfold DictLike; decide
theorem exG2_dict : DictLike exG2 := by unfold DictLike; decide

example : ∃ c, mkChain 2 [.gm "_2dCSCG" exG1, .gm "_2dCSCG" exG2] = some c ∧ WellFormed 2 c.gms ∧
    (∀ g ∈ c.gms, NoGap g) ∧
    c.total = 5 ∧ c.get 0 0 = some [0, 1, 3] ∧ c.get 1 1 = some [1, 2, 4] := by
  refine ⟨_, rfl, ?_, ?_, rfl, rfl, rfl⟩
  · intro g hg
    simp only [List.flatMap_cons, Item.members, List.flatMap_nil, List.append_nil, List.singleton_append,
      List.mem_cons, List.not_mem_nil, or_false] at hg
    rcases hg with rfl | rfl
    · exact ⟨exG1_dict, rfl⟩
    · exact ⟨exG2_dict, rfl⟩
  · intro g hg
    simp only [List.flatMap_cons, Item.members, List.flatMap_nil, List.append_nil, List.singleton_append,
      List.mem_cons, List.not_mem_nil, or_false] at hg
    rcases hg with rfl | rfl
    · intro d d' h hlt
      rw [occurs_iff exG1_dict] at *
      simp [allVecs, exG1] at *
      omega
    · intro d d' h hlt
      rw [occurs_iff exG2_dict] at *
      simp [allVecs, exG2] at *
      omega

end Mifem.Props
