import Verif.Props.FormOps

/-!
# C104, second part: dofs at the same place, dofs on boundaries, examples
-/

namespace Mifem.Props.Ops104
open Mifem.Gath Mifem.Cochain Mifem.FormOps

/-! ## dofs at the same place -/

theorem insertDof_keys (d : List (Nat × List Nat)) (x : Nat × Nat) (hk : (d.map Prod.fst).Nodup) :
    ((insertDof d x).map Prod.fst).Nodup ∧ ∀ n, n ∈ (insertDof d x).map Prod.fst ↔ n ∈ d.map Prod.fst ∨ n = x.1 := by
  unfold insertDof
  split
  · rename_i h
    have : (d.map fun p => if p.1 = x.1 then (p.1, p.2 ++ [x.2]) else p).map Prod.fst = d.map Prod.fst := by
      rw [List.map_map]
      apply List.map_congr_left
      intro p _
      simp only [Function.comp]
      split <;> rfl
    rw [this]
    refine ⟨hk, fun n => ⟨.inl, fun h' => h'.elim id fun hn => ?_⟩⟩
    subst hn
    obtain ⟨p, hp, he⟩ := List.any_eq_true.1 h
    exact List.mem_map.2 ⟨p, hp, by simpa using he⟩
  · rename_i h
    have hx : x.1 ∉ d.map Prod.fst := by
      intro hm
      obtain ⟨p, hp, he⟩ := List.mem_map.1 hm
      exact h (List.any_eq_true.2 ⟨p, hp, by simp [he]⟩)
    refine ⟨?_, fun n => by simp⟩
    rw [List.map_append, List.nodup_append]
    refine ⟨hk, by simp, ?_⟩
    intro a ha b hb
    simp at hb
    subst hb
    exact fun h' => hx (h' ▸ ha)

/-- the numbers paired with `n`, in order. -/
def with_ (ps : List (Nat × Nat)) (n : Nat) : List Nat := (ps.filter fun q => q.1 == n).map Prod.snd

theorem fold_spec (ps : List (Nat × Nat)) : ((ps.foldl insertDof []).map Prod.fst).Nodup ∧
    ∀ n l, (n, l) ∈ ps.foldl insertDof [] ↔ l = with_ ps n ∧ l ≠ [] := by
  induction ps using List.reverseRecOn with
  | nil => simp [with_]
  | append_singleton ps x ih =>
    obtain ⟨h1, h2⟩ := ih
    rw [List.foldl_append]
    simp only [List.foldl_cons, List.foldl_nil]
    obtain ⟨hk, hk'⟩ := insertDof_keys _ x h1
    refine ⟨hk, ?_⟩
    have hw : ∀ n, with_ (ps ++ [x]) n = with_ ps n ++ if x.1 = n then [x.2] else [] := by
      intro n
      unfold with_
      rw [List.filter_append, List.map_append]
      congr 1
      by_cases h : x.1 = n <;> simp [h]
    intro n l
    rw [show insertDof (ps.foldl insertDof []) x = _ from rfl]
    conv_lhs => rw [insertDof]
    split
    · rename_i h
      obtain ⟨p, hp, he⟩ := List.any_eq_true.1 h
      have hpx : p.1 = x.1 := by simpa using he
      rw [List.mem_map]
      constructor
      · rintro ⟨q, hq, hql⟩
        obtain ⟨hq1, hq2⟩ := (h2 q.1 q.2).1 hq
        split at hql
        · rename_i hqx
          simp only [Prod.mk.injEq] at hql
          obtain ⟨rfl, rfl⟩ := hql
          rw [hw, if_pos hqx.symm, hq1]
          simp
        · rename_i hqx
          subst hql
          rw [hw, if_neg fun h => hqx h.symm]
          simp [← hq1, hq2]
      · rintro ⟨hl, hne⟩
        rw [hw] at hl
        by_cases hn : x.1 = n
        · rw [if_pos hn] at hl
          refine ⟨(x.1, with_ ps x.1), ?_, ?_⟩
          · obtain ⟨a, b⟩ := (h2 p.1 p.2).1 hp
            rw [← hpx]
            exact (h2 p.1 _).2 ⟨rfl, a ▸ b⟩
          · simp [hl, hn]
        · rw [if_neg hn, List.append_nil] at hl
          refine ⟨(n, l), (h2 n l).2 ⟨hl, hne⟩, ?_⟩
          rw [if_neg]
          exact fun h => hn h.symm
    · rename_i h
      have hx : with_ ps x.1 = [] := by
        by_contra hc
        exact h (List.any_eq_true.2 ⟨(x.1, with_ ps x.1), (h2 _ _).2 ⟨rfl, hc⟩, by simp⟩)
      rw [List.mem_append, h2, hw]
      by_cases hn : x.1 = n
      · subst hn
        simp only [hx, if_true, List.nil_append]
        constructor
        · rintro (⟨a, b⟩ | hm)
          · exact absurd a b
          · simp only [List.mem_singleton, Prod.mk.injEq, true_and] at hm
            exact ⟨hm, by simp [hm]⟩
        · rintro ⟨a, _⟩
          exact .inr (by simp [a])
      · simp only [if_neg hn, List.append_nil]
        constructor
        · rintro (a | hm)
          · exact a
          · simp only [List.mem_singleton, Prod.mk.injEq] at hm
            exact absurd hm.1.symm hn
        · exact .inl

/-- the two gathering matrices number the same places: the same elements in the same order on every core, and vectors of the same
lengths; no element twice on a core. -/
def SamePlaces (nh hy : GM) : Prop :=
  List.Forall₂ (List.Forall₂ fun p q => p.1 = q.1 ∧ p.2.length = q.2.length) nh hy ∧ ∀ g ∈ hy, (g.map Prod.fst).Nodup

/-- all numbers, place by place. -/
def numbers (gm : GM) : List Nat := (allVecs gm).flatten

theorem core_zip : ∀ (g h : LocalGM), List.Forall₂ (fun p q => p.1 = q.1 ∧ p.2.length = q.2.length) g h →
    (g.map Prod.snd).flatten.length = (h.map Prod.snd).flatten.length ∧
    (List.zipWith (fun p q => p.2.zip q.2) g h).flatten = (g.map Prod.snd).flatten.zip (h.map Prod.snd).flatten := by
  intro g h hf
  induction hf with
  | nil => simp
  | cons hp _ ih =>
    refine ⟨?_, ?_⟩
    · simp only [List.map_cons, List.flatten_cons, List.length_append, hp.2, ih.1]
    · simp only [List.zipWith_cons_cons, List.map_cons, List.flatten_cons, ih.2]
      rw [List.zip_append hp.2]

theorem core_mapM : ∀ (g h : LocalGM), List.Forall₂ (fun p q => p.1 = q.1 ∧ p.2.length = q.2.length) g h → ∀ (look : Nat → Option (List Nat)),
    (∀ q ∈ h, look q.1 = some q.2) →
    (g.mapM fun p => (look p.1).bind fun gv => if p.2.length ≤ gv.length then some (p.2.zip gv) else none) =
      some (List.zipWith (fun p q => p.2.zip q.2) g h) := by
  intro g h hf
  induction hf with
  | nil => intro look _; rfl
  | @cons p q g h hp _ ih =>
    intro look hl
    rw [List.mapM_cons, ih look fun q hq => hl q (by simp [hq])]
    have := hl q (by simp)
    rw [← hp.1] at this
    simp [this, hp.2]

theorem lookup_nodup : ∀ (h : LocalGM), (h.map Prod.fst).Nodup → ∀ q ∈ h, h.lookup q.1 = some q.2
  | [], _, q, hq => by simp at hq
  | a :: h, hn, q, hq => by
    simp only [List.map_cons, List.nodup_cons] at hn
    rw [List.lookup_cons]
    rcases List.mem_cons.1 hq with rfl | hq
    · simp
    · have : (q.1 == a.1) = false := by
        simp only [beq_eq_false_iff_ne, ne_eq]
        intro he
        exact hn.1 (he ▸ List.mem_map_of_mem hq)
      rw [this]
      exact lookup_nodup h hn.2 q hq

theorem pairs_eq (nh hy : GM) (h : SamePlaces nh hy) :
    (numbers nh).length = (numbers hy).length ∧ pairs nh hy = some ((numbers nh).zip (numbers hy)) := by
  have key : ∀ (a b : GM), List.Forall₂ (List.Forall₂ fun p q => p.1 = q.1 ∧ p.2.length = q.2.length) a b →
      ∀ (nh' hy' : GM), nh'.length = hy'.length → nh = nh' ++ a → hy = hy' ++ b → (∀ g ∈ b, (g.map Prod.fst).Nodup) →
      (numbers a).length = (numbers b).length ∧ ∃ x, ((List.range' nh'.length a.length).mapM fun r => (nh.getD r []).mapM fun p =>
        (getVec hy r p.1).bind fun gv => if p.2.length ≤ gv.length then some (p.2.zip gv) else none) = some x ∧
        x.flatten.flatten = (numbers a).zip (numbers b) := by
    intro a b hf
    induction hf with
    | nil => intro _ _ _ _ _ _; exact ⟨rfl, [], rfl, rfl⟩
    | @cons g h a b hp _ ih =>
      intro nh' hy' hlen h1 h2 hn
      obtain ⟨hl, x, hx, hz⟩ := ih (nh' ++ [g]) (hy' ++ [h]) (by simp [hlen]) (by simp [h1]) (by simp [h2])
        fun g hg => hn g (by simp [hg])
      obtain ⟨c1, c2⟩ := core_zip g h hp
      have e1 : numbers (g :: a) = (g.map Prod.snd).flatten ++ numbers a := by simp [numbers, allVecs]
      have e2 : numbers (h :: b) = (h.map Prod.snd).flatten ++ numbers b := by simp [numbers, allVecs]
      refine ⟨by rw [e1, e2, List.length_append, List.length_append, c1, hl], List.zipWith (fun p q => p.2.zip q.2) g h :: x, ?_, ?_⟩
      · rw [List.length_cons, List.range'_succ, List.mapM_cons]
        have hg : nh.getD nh'.length [] = g := by rw [h1]; simp
        have hh : hy.getD nh'.length [] = h := by rw [h2, hlen]; simp
        have hv : ∀ e, getVec hy nh'.length e = h.lookup e := fun e => by unfold getVec; rw [hh]
        rw [hg]
        rw [core_mapM g h hp (fun e => getVec hy nh'.length e) fun q hq => by
          rw [hv]; exact lookup_nodup h (hn h (by simp)) q hq]
        rw [List.length_append, List.length_singleton] at hx
        rw [hx]; rfl
      · rw [List.flatten_cons, List.flatten_append, c2, hz, e1, e2, List.zip_append c1]
  obtain ⟨hl, x, hx, hz⟩ := key nh hy h.1 [] [] rfl rfl rfl h.2
  refine ⟨hl, ?_⟩
  unfold pairs
  rw [List.range_eq_range']
  rw [List.length_nil] at hx
  rw [hx]
  simp [hz]

theorem mem_with {ps : List (Nat × Nat)} {n d : Nat} : d ∈ with_ ps n ↔ (n, d) ∈ ps := by
  unfold with_
  simp only [List.mem_map, List.mem_filter, beq_iff_eq]
  constructor
  · rintro ⟨q, ⟨hq, rfl⟩, rfl⟩; exact hq
  · intro h; exact ⟨(n, d), ⟨h, rfl⟩, rfl⟩

theorem mem_zip_iff {N H : List Nat} {n d : Nat} : (n, d) ∈ N.zip H ↔ ∃ i : Nat, N[i]? = some n ∧ H[i]? = some d := by
  rw [List.mem_iff_getElem?]
  constructor
  · rintro ⟨i, hi⟩
    rw [List.getElem?_zip_eq_some] at hi
    exact ⟨i, hi⟩
  · rintro ⟨i, hi⟩
    exact ⟨i, List.getElem?_zip_eq_some.2 hi⟩

/-- **C104, dofs at the same place.** Let the numbers of the hybrid form be all different. Then the groups returned have at least
two members, no dof occurs twice, and the dofs of two different places are in one group if and only if the form without
hybridization has the same number at these places. -/
theorem c104_sharing (nh hy : GM) (h : SamePlaces nh hy) (hd : (numbers hy).Nodup) :
    ∃ L, groups nh hy = some L ∧ (∀ G ∈ L, 2 ≤ G.length ∧ G.Nodup) ∧ L.Nodup ∧
      (∀ G ∈ L, ∀ G' ∈ L, ∀ d, d ∈ G → d ∈ G' → G = G') ∧
      ∀ (i j : Nat) (n n' d d' : Nat), i ≠ j → (numbers nh)[i]? = some n → (numbers nh)[j]? = some n' →
        (numbers hy)[i]? = some d → (numbers hy)[j]? = some d' → ((∃ G ∈ L, d ∈ G ∧ d' ∈ G) ↔ n = n') := by
  obtain ⟨hl, hp⟩ := pairs_eq nh hy h
  obtain ⟨f1, f2⟩ := fold_spec ((numbers nh).zip (numbers hy))
  have hinj : ∀ {i j d : Nat}, (numbers hy)[i]? = some d → (numbers hy)[j]? = some d → i = j := by
    intro i j d hi hj
    obtain ⟨hi', hi⟩ := List.getElem?_eq_some_iff.1 hi
    obtain ⟨hj', hj⟩ := List.getElem?_eq_some_iff.1 hj
    exact (List.Nodup.getElem_inj_iff hd).1 (hi.trans hj.symm)
  have huniq : ∀ {n n' d : Nat}, d ∈ with_ ((numbers nh).zip (numbers hy)) n → d ∈ with_ ((numbers nh).zip (numbers hy)) n' → n = n' := by
    intro n n' d h1 h2
    obtain ⟨i, a, b⟩ := mem_zip_iff.1 (mem_with.1 h1)
    obtain ⟨j, a', b'⟩ := mem_zip_iff.1 (mem_with.1 h2)
    obtain rfl := hinj b b'
    rw [a] at a'
    exact Option.some.inj a'
  have hmem : ∀ G, G ∈ (((numbers nh).zip (numbers hy)).foldl insertDof []).map Prod.snd ↔
      ∃ n, G = with_ ((numbers nh).zip (numbers hy)) n ∧ G ≠ [] := by
    intro G
    rw [List.mem_map]
    constructor
    · rintro ⟨p, hp, rfl⟩
      exact ⟨p.1, (f2 p.1 p.2).1 hp⟩
    · rintro ⟨n, h⟩
      exact ⟨(n, G), (f2 n G).2 h, rfl⟩
  have hnd : ∀ n, (with_ ((numbers nh).zip (numbers hy)) n).Nodup := by
    intro n
    unfold with_
    have : (((numbers nh).zip (numbers hy)).map Prod.snd).Nodup := by
      rw [List.map_snd_zip (by omega)]; exact hd
    exact this.sublist (List.Sublist.map _ List.filter_sublist)
  refine ⟨_, by unfold groups; rw [hp]; rfl, ?_, ?_, ?_, ?_⟩
  · intro G hG
    rw [List.mem_filter, hmem] at hG
    obtain ⟨⟨n, rfl, hne⟩, h1⟩ := hG
    refine ⟨?_, hnd n⟩
    have : (with_ ((numbers nh).zip (numbers hy)) n).length ≠ 0 := by simpa using hne
    simp at h1
    omega
  · apply List.Nodup.filter
    apply List.Nodup.map_on _ (List.Nodup.of_map _ f1)
    intro p hp q hq he
    obtain ⟨p1, p2⟩ := (f2 p.1 p.2).1 hp
    obtain ⟨q1, _⟩ := (f2 q.1 q.2).1 hq
    obtain ⟨d, hd'⟩ := List.exists_mem_of_ne_nil _ p2
    have hk : p.1 = q.1 := huniq (d := d) (p1 ▸ hd') (by rw [← q1, ← he]; exact hd')
    exact Prod.ext hk he
  · intro G hG G' hG' d h1 h2
    rw [List.mem_filter, hmem] at hG hG'
    obtain ⟨⟨n, rfl, _⟩, _⟩ := hG
    obtain ⟨⟨n', rfl, _⟩, _⟩ := hG'
    rw [huniq h1 h2]
  · intro i j n n' d d' hij hn hn' hd1 hd2
    constructor
    · rintro ⟨G, hG, h1, h2⟩
      rw [List.mem_filter, hmem] at hG
      obtain ⟨⟨m, rfl, _⟩, _⟩ := hG
      obtain ⟨i', a, b⟩ := mem_zip_iff.1 (mem_with.1 h1)
      obtain ⟨j', a', b'⟩ := mem_zip_iff.1 (mem_with.1 h2)
      obtain rfl := hinj b hd1
      obtain rfl := hinj b' hd2
      rw [a] at hn
      rw [a'] at hn'
      exact (Option.some.inj hn).symm.trans (Option.some.inj hn')
    · rintro rfl
      have m1 : d ∈ with_ ((numbers nh).zip (numbers hy)) n := mem_with.2 (mem_zip_iff.2 ⟨i, hn, hd1⟩)
      have m2 : d' ∈ with_ ((numbers nh).zip (numbers hy)) n := mem_with.2 (mem_zip_iff.2 ⟨j, hn', hd2⟩)
      refine ⟨_, ?_, m1, m2⟩
      rw [List.mem_filter, hmem]
      refine ⟨⟨n, rfl, List.ne_nil_of_mem m1⟩, ?_⟩
      simp only [bne_iff_ne, ne_eq]
      intro h1
      obtain ⟨x, hx⟩ := List.length_eq_one_iff.1 h1
      rw [hx] at m1 m2
      simp only [List.mem_singleton] at m1 m2
      subst m1 m2
      exact hij (hinj hd1 hd2)

/-- the two gathering matrices of two elements sharing a dof, on two cores. -/
def exNh : GM := [[(0, [0, 1])], [(1, [1, 2])]]
@[inherit_doc exNh] def exHy : GM := [[(0, [0, 1])], [(1, [2, 3])]]

example : SamePlaces exNh exHy ∧ (numbers exHy).Nodup ∧ groups exNh exHy = some [[1, 2]] := by
  refine ⟨⟨?_, by decide⟩, by decide, by decide⟩
  exact .cons (.cons ⟨rfl, rfl⟩ .nil) (.cons (.cons ⟨rfl, rfl⟩ .nil) .nil)

/-! ## asking for the dofs at the same place changes what is saved -/

/-- the world of the examples: elements 0 and 1, two coefficients per element. -/
def exW : World := ⟨true, fun _ => [0, 1], fun _ _ _ => 2, fun _ => false⟩

/-- a hybrid form made by the factory. -/
def exA : Obj ℚ := { (create "_3dCSCG_2Form" 0 0 { name := some "a" } : Obj ℚ) with cochain := some [(0, [1, 2]), (1, [3, 4])] }
/-- a form without hybridization. -/
def exB : Obj ℚ :=
  { (create "_3dCSCG_2Form" 0 0 { name := some "b", hybrid := some false } : Obj ℚ) with cochain := some [(0, [1, 5]), (1, [5, 7])] }

/-- **C104 fails: asking changes the form.** A hybrid form that is saved and read is the same form, but if its dofs at the same place
are asked for between creating and saving, a form without hybridization is read. -/
theorem c104_sharing_fails : (save exA).bind (read exW) = some exA ∧ exA.hybrid = true ∧
    ∃ A', sharing exW exNh exHy exA = some ([[1, 2]], A') ∧ A'.hybrid = true ∧
      ∃ R, (save A').bind (read exW) = some R ∧ R.hybrid = false := by
  refine ⟨?_, rfl, { exA with define := some { name := some "a", hybrid := some false } }, ?_, rfl,
    { exA with define := some { name := some "a", hybrid := some false }, hybrid := false }, ?_, rfl⟩
  · simp [save, exA, create, FormOps.read, setLocal, exW]
  · have : groups exNh exHy = some [[1, 2]] := by decide
    simp [sharing, exA, create, exW, this]
  · simp [save, exA, create, FormOps.read, setLocal, exW]

/-- **C104, the only change.** Nothing else of the form changes, and forms without hybridization or of the highest degree do not
change. -/
theorem c104_sharing_partial {K : Type} (W : World) (nh hy : GM) (A A' : Obj K) (L : List (List Nat)) (h : sharing W nh hy A = some (L, A')) :
    A' = { A with define := A'.define } ∧ ((A.hybrid = false ∨ W.top A.cls = true) → L = [] ∧ A' = A) ∧
      (A.hybrid = true → W.top A.cls = false → groups nh hy = some L) := by
  unfold sharing at h
  split at h
  · rename_i h1
    simp only [Option.some.injEq, Prod.mk.injEq] at h
    obtain ⟨rfl, rfl⟩ := h
    refine ⟨rfl, fun _ => ⟨rfl, rfl⟩, fun h => ?_⟩
    simp [h] at h1
  · rename_i h1
    split at h
    · rename_i h2
      simp only [Option.some.injEq, Prod.mk.injEq] at h
      obtain ⟨rfl, rfl⟩ := h
      exact ⟨rfl, fun _ => ⟨rfl, rfl⟩, fun _ h => by rw [h2] at h; simp at h⟩
    · rename_i h2
      cases hk : A.define with
      | none => simp [hk] at h
      | some kw =>
        cases hg : groups nh hy with
        | none => simp [hk, hg] at h
        | some g =>
          simp only [hk, hg, Option.bind_some, Option.map_some, Option.some.injEq, Prod.mk.injEq] at h
          obtain ⟨rfl, rfl⟩ := h
          refine ⟨rfl, fun hh => ?_, fun _ _ => rfl⟩
          rcases hh with hh | hh
          · simp [hh] at h1
          · exact absurd hh h2

/-! ## mixing hybrid and other forms -/

/-- **C104 fails: forms with and without hybridization.** They can be added. The result has the flag of the left form, so that
`b + a` is a form without hybridization whose coefficients do not agree on the common dof, and `a + b` is another kind of form. -/
theorem c104_mixed_fails : ∃ R R', FormOps.add exW exB exA = some R ∧ FormOps.add exW exA exB = some R' ∧
    R.hybrid = false ∧ R'.hybrid = true ∧ R.cochain = some [(0, [2, 7]), (1, [8, 11])] ∧
    (∃ c, Single (exNh.flatten) exB c) ∧ ¬ ∃ c, Single (exNh.flatten) R c := by
  refine ⟨{ fresh exB "b+a" with cochain := some [(0, [2, 7]), (1, [8, 11])] },
    { fresh exA "a+b" with cochain := some [(0, [2, 7]), (1, [8, 11])] }, ?_, ?_, rfl, rfl, rfl, ?_, ?_⟩
  · simp [FormOps.add, binop, exA, exB, create, exW, npOp, setLocal, fresh, List.mapM_cons, List.lookup]
    norm_num
  · simp [FormOps.add, binop, exA, exB, create, exW, npOp, setLocal, fresh, List.mapM_cons, List.lookup]
    norm_num
  · refine ⟨fun d => if d = 0 then 1 else if d = 1 then 5 else 7, ?_⟩
    intro p hp
    simp [exNh] at hp
    rcases hp with rfl | rfl <;> simp [exB, create, List.lookup]
  · rintro ⟨c, hc⟩
    have h0 := hc (0, [0, 1]) (by simp [exNh])
    have h1 := hc (1, [1, 2]) (by simp [exNh])
    simp [List.lookup] at h0 h1
    rw [← h0.2] at h1
    norm_num at h1

end Mifem.Props.Ops104
