import Verif.Model.Cochain
import Verif.Lemmas.Find
import Verif.Lemmas.Assembly
import Mathlib.Data.List.Forall2
import Mathlib.Algebra.CharZero.Defs
import Mathlib.Algebra.Field.Basic
import Mathlib.Data.Rat.Defs
import Mathlib.Data.Rat.Lemmas
import Mathlib.Algebra.Field.Rat
import Mathlib.Tactic.FieldSimp
import Mathlib.Tactic.Ring

/-!
# C38: the global and the local cochain
-/

namespace Mifem.Props
open Mifem.Gath Mifem.Cochain

variable {K : Type} [Field K] [DecidableEq K]

/-- the dof is one of the dofs of this core. -/
def OnCore (g : LocalGM) (d : Nat) : Prop := ∃ p ∈ g, d ∈ p.2

/-- the local cochains of all cores are complete and take their values from one function on the dofs: elements sharing a dof
agree on it. -/
def Agree (gm : GM) (loc : List (Local K)) (c : Nat → K) : Prop :=
  List.Forall₂ (fun g l => ∀ p ∈ g, List.lookup p.1 l = some (p.2.map c)) gm loc

/-- the local cochains that a function on the dofs gives. -/
def localOf (gm : GM) (c : Nat → K) : List (Local K) := gm.map fun g => g.map fun p => (p.1, p.2.map c)

/-- whether a value is stored in the sparse vector. -/
def put (keep : Bool) (x : K) : Option K := if x = 0 && !keep then none else some x

instance (g : LocalGM) (d : Nat) : Decidable (OnCore g d) := inferInstanceAs (Decidable (∃ p ∈ g, d ∈ p.2))

theorem lilSet_map (keep : Bool) (c : Nat → K) (v : SpV K) (idx : List Nat) :
    lilSet keep v idx (idx.map c) = some fun d => if d ∈ idx then put keep (c d) else v d := by
  unfold lilSet
  rw [if_pos (by simp)]
  congr 1
  induction idx generalizing v with
  | nil => funext d; simp
  | cons i idx ih =>
    rw [List.map_cons, List.zip_cons_cons, List.foldl_cons, ih]
    funext d
    by_cases h : d ∈ idx
    · simp [h]
    · by_cases hd : d = i
      · subst hd
        simp [h, put]
      · simp [h, hd]

theorem coreGlobe_agree (keep : Bool) (c : Nat → K) (g : LocalGM) (l : Local K) (h : ∀ p ∈ g, List.lookup p.1 l = some (p.2.map c)) :
    coreGlobe keep g l = some fun d => if OnCore g d then put keep (c d) else none := by
  unfold coreGlobe
  have gen : ∀ (g : LocalGM) (v : SpV K), (∀ p ∈ g, List.lookup p.1 l = some (p.2.map c)) →
      g.foldlM (fun v p => (l.lookup p.1).bind (lilSet keep v p.2)) v = some fun d => if OnCore g d then put keep (c d) else v d := by
    intro g
    induction g with
    | nil =>
      intro v _
      simp [OnCore]
    | cons p g ih =>
      intro v h
      rw [List.foldlM_cons, h p List.mem_cons_self]
      simp only [Option.bind_some, Option.bind_eq_bind]
      rw [lilSet_map, Option.bind_some, ih _ (fun q hq => h q (List.mem_cons_of_mem _ hq))]
      congr 1
      funext d
      by_cases h1 : OnCore g d
      · rw [if_pos h1, if_pos]
        obtain ⟨q, hq, hd⟩ := h1
        exact ⟨q, List.mem_cons_of_mem _ hq, hd⟩
      · rw [if_neg h1]
        by_cases h2 : d ∈ p.2
        · rw [if_pos h2, if_pos ⟨p, List.mem_cons_self, h2⟩]
        · rw [if_neg h2, if_neg]
          rintro ⟨q, hq, hd⟩
          rcases List.mem_cons.1 hq with rfl | hq
          · exact h2 hd
          · exact h1 ⟨q, hq, hd⟩
  exact gen g _ h

theorem cores_agree (keep : Bool) (c : Nat → K) (gm : GM) (loc : List (Local K)) (h : Agree gm loc c) :
    (gm.zip loc).mapM (fun p => coreGlobe keep p.1 p.2) = some (gm.map fun g d => if OnCore g d then put keep (c d) else none) := by
  induction h with
  | nil => rfl
  | cons h _ ih =>
    rw [List.zip_cons_cons, List.mapM_cons, coreGlobe_agree keep c _ _ h, ih]
    rfl

/-- number of cores having the dof. -/
def cores (gm : GM) (d : Nat) : Nat := (gm.filter fun g => decide (OnCore g d)).length

theorem cores_pos (gm : GM) (d : Nat) (h : ∃ g ∈ gm, OnCore g d) : 0 < cores gm d := by
  obtain ⟨g, hg, hd⟩ := h
  exact List.length_pos_of_mem (List.mem_filter.2 ⟨hg, by simpa using hd⟩)

theorem count_agree (keep : Bool) (c : Nat → K) (gm : GM) (d : Nat) :
    count (gm.map fun g d => if OnCore g d then put keep (c d) else none) d = if (put keep (c d)).isSome then cores gm d else 0 := by
  unfold count cores
  induction gm with
  | nil => simp
  | cons g gm ih =>
    rw [List.map_cons, List.filter_cons, List.filter_cons]
    by_cases h : OnCore g d <;> cases hp : put keep (c d) <;> simp_all

theorem total_agree (keep : Bool) (c : Nat → K) (gm : GM) (d : Nat) :
    total (gm.map fun g d => if OnCore g d then put keep (c d) else none) d = (cores gm d : K) * c d := by
  have hp : (put keep (c d)).getD 0 = c d := by
    unfold put
    split
    · rename_i h
      simp only [Bool.and_eq_true, decide_eq_true_eq] at h
      exact h.1.symm
    · rfl
  unfold total cores
  induction gm with
  | nil => simp
  | cons g gm ih =>
    rw [List.map_cons, List.map_cons, List.sum_cons, ih, List.filter_cons]
    show (if OnCore g d then put keep (c d) else none).getD 0 + _ = _
    by_cases h : OnCore g d
    · rw [if_pos h, hp, if_pos (by simpa using h), List.length_cons]
      push_cast
      ring
    · rw [if_neg h, if_neg (by simpa using h)]
      simp

variable [CharZero K]

/-- **C38, reading the global cochain (forms that share dofs).** The result is all on the master, and its value at a dof is
the common value of the elements having it, however many elements and cores share the dof and whether or not it is zero. -/
theorem c38_globe (keep : Bool) (n : Nat) (gm : GM) (loc : List (Local K)) (c : Nat → K) (hne : gm ≠ []) (h : Agree gm loc c) :
    ∃ w : SpV K, globe keep false n gm loc = some (w :: List.replicate (gm.length - 1) fun _ => none) ∧
      ∀ d, d < n → (∃ g ∈ gm, OnCore g d) → (w d).getD 0 = c d := by
  unfold globe
  rw [cores_agree keep c gm loc h]
  obtain ⟨g, rest, rfl⟩ := List.exists_cons_of_ne_nil hne
  rw [List.map_cons, Option.bind_some]
  simp only [Bool.false_eq_true, if_false, List.map_map]
  rw [← List.map_cons (f := fun (g : LocalGM) (d : Nat) => if OnCore g d then put keep (c d) else none)]
  refine ⟨masterGlobe n (List.map (fun g d => if OnCore g d then put keep (c d) else none) (g :: rest)), ?_, ?_⟩
  · unfold mkDistributed
    rw [if_pos]
    · congr 2
      rw [show ((fun x (_ : Nat) => (none : Option K)) ∘ fun (g : LocalGM) (d : Nat) => if OnCore g d then put keep (c d) else none) = fun _ _ => none from rfl,
        List.map_const', List.length_cons, Nat.add_sub_cancel]
    · rw [List.all_eq_true]
      intro i _
      rw [decide_eq_true_eq]
      unfold count
      rw [List.filter_cons]
      have : (List.map ((fun x (_ : Nat) => (none : Option K)) ∘ fun (g : LocalGM) d => if OnCore g d then put keep (c d) else none) rest).filter (fun v => (v i).isSome) = [] := by
        rw [List.filter_eq_nil_iff]
        intro v hv
        rw [List.mem_map] at hv
        obtain ⟨_, _, rfl⟩ := hv
        simp
      rw [this]
      split <;> simp
  · intro d hd hon
    unfold masterGlobe
    rw [if_pos hd, count_agree, total_agree]
    have hpos := cores_pos _ _ hon
    have hK : ((cores (g :: rest) d : Nat) : K) ≠ 0 := Nat.cast_ne_zero.2 (by omega)
    by_cases hc : c d = 0
    · simp [hc]
    · have hs : (put keep (c d)).isSome = true := by simp [put, hc]
      simp only [hs, if_true, if_neg (show ¬ cores (g :: rest) d = 0 by omega)]
      rw [mul_div_cancel_left₀ _ hK, if_neg hc]
      rfl

omit [CharZero K] in
/-- setting the global cochain gives every element the gathered values of its dofs. -/
theorem setGlobe_gathered (mem : Nat → K) (n : Nat) (gm : GM) (hv : ∀ g ∈ gm, ∀ p ∈ g, p.2 ≠ []) (vs : List (SpV K)) (c : Nat → K)
    (hc : ∀ d, (∃ g ∈ gm, OnCore g d) → gathered mem n vs d = c d) : setGlobe mem n gm vs = some (localOf gm c) := by
  unfold setGlobe localOf
  have hr : ∀ r ∈ List.range gm.length, (localRange gm r).map (fun lr => match lr with
      | none => ([] : Local K)
      | some lr => (gm.getD r []).map fun p => (p.1, p.2.map (sent (gathered mem n vs) lr))) =
      some ((gm.getD r []).map fun p => (p.1, p.2.map c)) := by
    intro r hr
    rw [List.mem_range] at hr
    have hmem : gm.getD r [] ∈ gm := by
      rw [List.getD_eq_getElem?_getD, List.getElem?_eq_getElem hr]
      exact List.getElem_mem hr
    by_cases he : gm.getD r [] = []
    · have : localRange gm r = some none := by
        unfold localRange
        rw [he]
        rfl
      rw [this, he]
      rfl
    · obtain ⟨a, b, h1, h2, _, _⟩ := localRange_spec gm r he (fun p hp => hv _ hmem p hp)
      rw [h1]
      simp only [Option.map_some]
      congr 1
      apply List.map_congr_left
      intro p hp
      congr 1
      apply List.map_congr_left
      intro d hd
      unfold sent
      rw [if_pos (h2 p hp d hd)]
      exact hc d ⟨_, hmem, p, hp, hd⟩
  have := Mifem.Asm.mapM_eq_map hr
  refine Eq.trans this ?_
  congr 1
  apply List.ext_getElem
  · simp
  · intro i h1 h2
    simp only [List.getElem_map, List.getElem_range]
    rw [List.getD_eq_getElem?_getD, List.getElem?_eq_getElem (by simpa using h2)]
    rfl

omit [CharZero K] in
theorem localOf_agree (gm : GM) (hd : DictLike gm) (c : Nat → K) : Agree gm (localOf gm c) c := by
  unfold Agree localOf
  rw [List.forall₂_map_right_iff]
  rw [List.forall₂_same]
  intro g hg p hp
  have hn := hd g hg
  clear hd hg
  induction g with
  | nil => exact absurd hp (by simp)
  | cons q g ih =>
    rw [List.map_cons, List.nodup_cons] at hn
    rw [List.map_cons, List.lookup_cons]
    rcases List.mem_cons.1 hp with rfl | hp
    · simp
    · have : p.1 ≠ q.1 := fun hc => hn.1 (hc ▸ List.mem_map_of_mem hp)
      rw [show (p.1 == q.1) = false by simpa using this]
      exact ih hp hn.2

/-- **C38, round trip (forms that share dofs).** Reading the global cochain and assigning it leaves every local cochain as it
was, on any number of cores. -/
theorem c38_roundtrip (keep : Bool) (mem : Nat → K) (n : Nat) (gm : GM) (loc : List (Local K)) (c : Nat → K) (hne : gm ≠ []) (hd : DictLike gm)
    (hv : ∀ g ∈ gm, ∀ p ∈ g, p.2 ≠ []) (hn : globalNumDofs gm = some n) (h : Agree gm loc c) :
    ∃ v loc', globe keep false n gm loc = some v ∧ setGlobe mem n gm v = some loc' ∧ loc' = localOf gm c ∧ Agree gm loc' c := by
  obtain ⟨w, h1, h2⟩ := c38_globe keep n gm loc c hne h
  refine ⟨_, localOf gm c, h1, ?_, rfl, localOf_agree gm hd c⟩
  apply setGlobe_gathered mem n gm hv
  intro d hon
  have hlt : d < n := by
    apply (globalNumDofs_spec hd hn).2.2
    obtain ⟨g, hg, p, hp, hdp⟩ := hon
    exact (occurs_iff hd d).2 ⟨p.2, List.mem_map.2 ⟨p, List.mem_flatten.2 ⟨g, hg, hp⟩, rfl⟩, hdp⟩
  unfold gathered
  have : masterDominating n (w :: List.replicate (gm.length - 1) fun _ => none) = true := by
    unfold masterDominating
    rw [List.drop_succ_cons, List.drop_zero, List.all_eq_true]
    intro v hv
    rw [List.eq_of_mem_replicate hv]
    simp
  rw [if_pos this]
  exact h2 d hlt hon

omit [CharZero K] in
/-- **C38, hybrid forms and forms of the highest degree, partial.** If no two cores share a dof, reading the global cochain and
assigning it leaves the local cochains as they were, provided there is one core only or no value is zero. Missing: zeros, see
`c38_counterexample`. -/
theorem c38_roundtrip_direct_partial (keep : Bool) (mem : Nat → K) (n : Nat) (gm : GM) (loc : List (Local K)) (c : Nat → K) (hne : gm ≠ []) (hd : DictLike gm)
    (hv : ∀ g ∈ gm, ∀ p ∈ g, p.2 ≠ []) (hn : globalNumDofs gm = some n) (h : Agree gm loc c) (hone : ∀ d, cores gm d ≤ 1)
    (hz : keep = true ∨ gm.length = 1 ∨ ∀ d, (∃ g ∈ gm, OnCore g d) → c d ≠ 0) :
    ∃ v loc', globe keep true n gm loc = some v ∧ setGlobe mem n gm v = some loc' ∧ loc' = localOf gm c ∧ Agree gm loc' c := by
  have hget : ∀ x : K, (put keep x).getD 0 = x := by
    intro x
    unfold put
    split
    · rename_i h
      simp only [Bool.and_eq_true, decide_eq_true_eq] at h
      exact h.1.symm
    · rfl
  refine ⟨gm.map fun g d => if OnCore g d then put keep (c d) else none, localOf gm c, ?_, ?_, rfl, localOf_agree gm hd c⟩
  · unfold globe
    rw [cores_agree keep c gm loc h, Option.bind_some, if_pos rfl]
    unfold mkDistributed
    rw [if_pos]
    rw [List.all_eq_true]
    intro i _
    rw [decide_eq_true_eq, count_agree]
    split
    · exact hone i
    · omega
  · apply setGlobe_gathered mem n gm hv
    intro d hon
    have hlt : d < n := by
      apply (globalNumDofs_spec hd hn).2.2
      obtain ⟨g, hg, p, hp, hdp⟩ := hon
      exact (occurs_iff hd d).2 ⟨p.2, List.mem_map.2 ⟨p, List.mem_flatten.2 ⟨g, hg, hp⟩, rfl⟩, hdp⟩
    unfold gathered
    split
    · rename_i hm
      obtain ⟨g0, rest, rfl⟩ := List.exists_cons_of_ne_nil hne
      rw [List.map_cons, List.headD_cons]
      show (if OnCore g0 d then put keep (c d) else none).getD 0 = c d
      by_cases h0 : OnCore g0 d
      · rw [if_pos h0]
        exact hget (c d)
      · rw [if_neg h0]
        obtain ⟨g, hg, hgd⟩ := hon
        rcases List.mem_cons.1 hg with rfl | hg
        · exact absurd hgd h0
        · unfold masterDominating at hm
          rw [List.map_cons, List.drop_succ_cons, List.drop_zero, List.all_eq_true] at hm
          have := hm _ (List.mem_map_of_mem hg)
          rw [List.all_eq_true] at this
          have := this d (List.mem_range.2 hlt)
          rw [if_pos hgd] at this
          have hc := hget (c d)
          rw [Option.isNone_iff_eq_none.1 this] at hc
          exact hc
    · rename_i hm
      have hsome : put keep (c d) = some (c d) := by
        unfold put
        rcases hz with hz | hz | hz
        · simp [hz]
        · exfalso
          apply hm
          unfold masterDominating
          obtain ⟨g0, rfl⟩ := List.length_eq_one_iff.1 hz
          rfl
        · simp [hz d hon]
      have gen : ∀ (gs : GM) (VV : Nat → K), ((∃ g ∈ gs, OnCore g d) ∨ VV d = c d) →
          (gs.map fun g d => if OnCore g d then put keep (c d) else none).foldl (fun VV v i => (v i).getD (VV i)) VV d = c d := by
        intro gs
        induction gs with
        | nil =>
          intro VV hV
          rcases hV with ⟨_, hg, _⟩ | hV
          · exact absurd hg (by simp)
          · exact hV
        | cons g gs ih =>
          intro VV hV
          rw [List.map_cons, List.foldl_cons]
          apply ih
          by_cases hgd : OnCore g d
          · right
            simp [hgd, hsome]
          · rcases hV with ⟨g', hg', hd'⟩ | hV
            · rcases List.mem_cons.1 hg' with rfl | hg'
              · exact absurd hd' hgd
              · exact Or.inl ⟨g', hg', hd'⟩
            · right
              simp [hgd, hV]
      exact gen gm mem (Or.inl hon)

/-- two cores with one element each, no dof shared. -/
def gm38 : GM := [[(0, [0, 1])], [(1, [2, 3])]]

/-- two cores with one element each, dof 1 shared. -/
def gm38s : GM := [[(0, [0, 1])], [(1, [1, 2])]]

example : globalNumDofs gm38s = some 3 ∧ gm38s ≠ [] ∧ DictLike gm38s ∧ (∀ g ∈ gm38s, ∀ p ∈ g, p.2 ≠ []) ∧
    Agree gm38s [[(0, [5, 0])], [(1, [0, (3 : ℚ)])]] (fun d => [5, 0, 3].getD d 0) := by
  refine ⟨rfl, by decide, by unfold DictLike; decide, by decide, ?_⟩
  refine .cons ?_ (.cons ?_ .nil) <;> decide +kernel

/-- **C38, counterexample.** On two cores, a hybrid form with a zero in its cochain: assigning to the form its own global
cochain changes the zero to whatever is in memory (7 here). -/
theorem c38_counterexample :
    Agree gm38 [[(0, [5, 6])], [(1, [0, (3 : ℚ)])]] (fun d => [5, 6, 0, 3].getD d 0) ∧ (∀ d, cores gm38 d ≤ 1) ∧
    ((globe false true 4 gm38 [[(0, [5, 6])], [(1, [0, (3 : ℚ)])]]).bind fun v => setGlobe (fun _ => 7) 4 gm38 v) =
      some [[(0, [5, 6])], [(1, [7, 3])]] := by
  refine ⟨?_, ?_, by decide +kernel⟩
  · refine .cons ?_ (.cons ?_ .nil) <;> decide +kernel
  · intro d
    unfold cores gm38
    simp only [List.filter_cons, OnCore, List.mem_singleton, exists_eq_left, List.mem_cons, List.not_mem_nil, or_false, List.filter_nil]
    have : (if decide (d = 0 ∨ d = 1) = true then 1 else 0) + (if decide (d = 2 ∨ d = 3) = true then 1 else 0) ≤ 1 := by
      split <;> split <;> simp_all <;> omega
    split <;> split <;> simp_all

omit [CharZero K] in
/-- **C38, locally full vectors.** Assigning one gives each element the values at its dofs. -/
theorem c38_locally_full (gm : GM) (hd : DictLike gm) (c : Nat → K) : Agree gm (setLocallyFull gm c) c := localOf_agree gm hd c

/-! ### dofwise -/

omit [Field K] [DecidableEq K] [CharZero K] in
theorem common_const (close : K → K → Bool) (hr : ∀ x, close x x = true) (x : K) : ∀ l : List K, (∀ y ∈ l, y = x) → common close l = some (if l = [] then none else some x)
  | [], _ => rfl
  | y :: l, h => by
    have hy := h y List.mem_cons_self
    subst hy
    have hall : (l.all fun z => close y z) = true := by
      rw [List.all_eq_true]
      intro z hz
      rw [h z (List.mem_cons_of_mem _ hz)]
      exact hr _
    simp [common, hall]

omit [Field K] [DecidableEq K] [CharZero K] in
theorem dofOnCore_agree (close : K → K → Bool) (hr : ∀ x, close x x = true) (g : LocalGM) (l : Local K) (c : Nat → K) (hnd : ∀ p ∈ g, p.2.Nodup)
    (h : ∀ p ∈ g, List.lookup p.1 l = some (p.2.map c)) (i : Nat) : dofOnCore close g l i = some (if OnCore g i then some (c i) else none) := by
  unfold dofOnCore findDof
  have h1 : (g.filter fun p => p.2.contains i).mapM (fun p => if p.2.count i = 1 then some (p.1, p.2.idxOf i) else none) = some ((g.filter fun p => p.2.contains i).map fun p => (p.1, p.2.idxOf i)) := by
    apply Mifem.Asm.mapM_eq_map
    intro p hp
    rw [List.mem_filter] at hp
    rw [if_pos (List.count_eq_one_of_mem (hnd p hp.1) (by simpa using hp.2))]
  rw [h1, Option.bind_some]
  have h2 : ((g.filter fun p => p.2.contains i).map fun p => (p.1, p.2.idxOf i)).mapM (fun p => (l.lookup p.1).bind fun v => v[p.2]?) =
      some (((g.filter fun p => p.2.contains i).map fun p => (p.1, p.2.idxOf i)).map fun _ => c i) := by
    apply Mifem.Asm.mapM_eq_map
    intro q hq
    rw [List.mem_map] at hq
    obtain ⟨p, hp, rfl⟩ := hq
    rw [List.mem_filter] at hp
    have hi : i ∈ p.2 := by simpa using hp.2
    simp only [h p hp.1, Option.bind_some, List.getElem?_map]
    rw [List.getElem?_eq_getElem (List.idxOf_lt_length_of_mem hi), Option.map_some, List.getElem_idxOf]
  rw [h2, Option.bind_some, common_const close hr (c i)]
  · congr 1
    by_cases hon : OnCore g i
    · rw [if_pos hon, if_neg]
      obtain ⟨p, hp, hi⟩ := hon
      intro hc
      rw [List.map_eq_nil_iff, List.map_eq_nil_iff, List.filter_eq_nil_iff] at hc
      exact hc p hp (by simpa using hi)
    · rw [if_neg hon, if_pos]
      rw [List.map_eq_nil_iff, List.map_eq_nil_iff, List.filter_eq_nil_iff]
      intro p hp hi
      exact hon ⟨p, hp, by simpa using hi⟩
  · intro y hy
    rw [List.mem_map] at hy
    obtain ⟨_, _, rfl⟩ := hy
    rfl

omit [Field K] [DecidableEq K] [CharZero K] in
/-- **C38, `dofwise`.** Every core gets the value of the dof, wherever the dof is; negative numbers count from the end. -/
theorem c38_dofwise (close : K → K → Bool) (hr : ∀ x, close x x = true) (n : Nat) (gm : GM) (loc : List (Local K)) (c : Nat → K)
    (hnd : ∀ g ∈ gm, ∀ p ∈ g, p.2.Nodup) (h : Agree gm loc c) (d : Nat) (hd : d < n) (hon : ∃ g ∈ gm, OnCore g d) :
    dofwise close n gm loc d = some (c d) ∧ dofwise close n gm loc ((d : ℤ) - n) = some (c d) := by
  have hcs : (gm.zip loc).mapM (fun p => dofOnCore close p.1 p.2 d) = some (gm.map fun g => if OnCore g d then some (c d) else none) := by
    clear hon
    induction h with
    | nil => rfl
    | cons h1 _ ih =>
      rw [List.zip_cons_cons, List.mapM_cons, dofOnCore_agree close hr _ _ c (hnd _ List.mem_cons_self) h1, ih (fun g hg => hnd g (List.mem_cons_of_mem _ hg))]
      rfl
  have hcom : common close ((gm.map fun g => if OnCore g d then some (c d) else none).filterMap id) = some (some (c d)) := by
    rw [common_const close hr (c d), if_neg]
    · intro hnil
      obtain ⟨g, hg, hgd⟩ := hon
      have : c d ∈ (gm.map fun g => if OnCore g d then some (c d) else none).filterMap id := by
        rw [List.mem_filterMap]
        exact ⟨some (c d), List.mem_map.2 ⟨g, hg, by rw [if_pos hgd]⟩, rfl⟩
      rw [hnil] at this
      exact absurd this (by simp)
    · intro y hy
      rw [List.mem_filterMap] at hy
      obtain ⟨o, ho, hoy⟩ := hy
      rw [List.mem_map] at ho
      obtain ⟨g, _, rfl⟩ := ho
      split at hoy
      · exact (Option.some.inj hoy).symm
      · exact absurd hoy (by simp)
  constructor
  · unfold dofwise
    rw [if_pos (by omega), if_neg (by omega)]
    simp only [Int.toNat_natCast]
    rw [hcs, Option.bind_some, hcom]
    rfl
  · unfold dofwise
    rw [if_pos (by omega), if_pos (by omega)]
    have : ((d : ℤ) - n + n).toNat = d := by omega
    simp only [this]
    rw [hcs, Option.bind_some, hcom]
    rfl

example : dofwise (fun x y => decide (x = y)) 3 gm38s [[(0, [5, 1])], [(1, [1, (3 : ℚ)])]] (-2) = some 1 := by decide +kernel

/-- elements that do not agree are noticed. -/
example : dofwise (fun x y => decide (x = y)) 3 gm38s [[(0, [5, 1])], [(1, [2, (3 : ℚ)])]] 1 = none := by decide +kernel

end Mifem.Props
