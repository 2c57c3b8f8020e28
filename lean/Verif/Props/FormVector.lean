import Verif.Model.FormVector
import Verif.Props.Cochain
import Verif.Props.Sequent
import Verif.Props.GlobalLA

/-!
# C101: vectors made of forms, forms filled from vectors, and solving

* `LocallyFullVector(forms)` is the coefficients of the forms one after the other; a form without cochain counts as zero.
* `x.do.distributed_to(*forms)` gives the forms these coefficients back, on all cores; the vector may be longer than needed,
  and is refused if it is shorter.
* `None` in the place of a form skips the dofs that are left.
* With a chain as method every form receives the entries at its numbers in the chain.
* The forms filled with the result of the direct solver satisfy the assembled system.
-/

namespace Mifem.Props.FV101
open Mifem.Gath Mifem.Cochain Mifem.FV Mifem.Props

variable {K : Type} [Field K] [DecidableEq K]

/-! ## Specification -/

/-- What every form of the library shows: dictionaries, `num.global_dofs` and `num.basis` are right, the numbering has no
gap, and no dof of a hybrid form or of a form of the highest degree is on two cores. -/
structure Proper (f : Form K) : Prop where
  ne : f.gm ≠ []
  dict : DictLike f.gm
  num : globalNumDofs f.gm = some f.n
  gap : NoGap f.gm
  len : ∀ g ∈ f.gm, ∀ p ∈ g, p.2.length = f.nb
  one : f.direct = true → ∀ d, cores f.gm d ≤ 1

/-- The form has the coefficients `c`: all elements agree on them, or the form has no cochain and they are zero. -/
def Coeffs (f : Form K) (c : Nat → K) : Prop :=
  (∃ loc, f.loc = some loc ∧ Agree f.gm loc c) ∨ f.loc = none ∧ ∀ d, c d = 0

/-- The coefficients of a list of forms, one form after the other. -/
def joined : List (Form K) → List (Nat → K) → List K
  | f :: fs, c :: cs => (List.range f.n).map c ++ joined fs cs
  | _, _ => []

/-- The form with new coefficients on all cores. -/
def filled (f : Form K) (c : Nat → K) : Form K := { f with loc := some (localOf f.gm c) }

/-! ## Lemmas -/

theorem on_core {f : Form K} (h : Proper f) {d : Nat} (hd : d < f.n) : ∃ g ∈ f.gm, OnCore g d := by
  obtain ⟨h0, h1, _⟩ := globalNumDofs_spec h.dict h.num
  have ho : Occurs f.gm d := by
    by_cases he : d = f.n - 1
    · rw [he]; exact h1
    · exact h.gap _ _ h1 (by omega)
  obtain ⟨v, hv, hdv⟩ := (occurs_iff h.dict d).1 ho
  obtain ⟨p, hp, rfl⟩ := List.mem_map.1 hv
  obtain ⟨g, hg, hpg⟩ := List.mem_flatten.1 hp
  exact ⟨g, hg, p, hpg, hdv⟩

theorem on_core_lt {f : Form K} (h : Proper f) {d : Nat} (hd : ∃ g ∈ f.gm, OnCore g d) : d < f.n := by
  obtain ⟨g, hg, p, hp, hdp⟩ := hd
  exact (globalNumDofs_spec h.dict h.num).2.2 d
    ((occurs_iff h.dict d).2 ⟨p.2, List.mem_map.2 ⟨p, List.mem_flatten.2 ⟨g, hg, hp⟩, rfl⟩, hdp⟩)

theorem filled_coeffs {f : Form K} (h : Proper f) (c : Nat → K) : Coeffs (filled f c) c :=
  Or.inl ⟨_, rfl, localOf_agree _ h.dict c⟩

theorem filled_proper {f : Form K} (h : Proper f) (c : Nat → K) : Proper (filled f c) :=
  ⟨h.ne, h.dict, h.num, h.gap, h.len, h.one⟩

theorem ofForm_eq [CharZero K] (keep : Bool) {f : Form K} (h : Proper f) {c : Nat → K} (hc : Coeffs f c) :
    ofForm keep f = some ((List.range f.n).map c) := by
  rcases hc with ⟨loc, hl, ha⟩ | ⟨hl, hz⟩
  · unfold ofForm
    rw [hl]
    simp only
    cases hdir : f.direct
    · obtain ⟨w, hw, hv⟩ := c38_globe keep f.n f.gm loc c h.ne ha
      rw [hw, Option.map_some]
      congr 1
      apply List.map_congr_left
      intro d hd
      rw [List.mem_range] at hd
      unfold total
      rw [List.map_cons, List.sum_cons, hv d hd (on_core h hd)]
      simp
    · unfold globe
      rw [cores_agree keep c f.gm loc ha, Option.bind_some, if_pos rfl]
      unfold mkDistributed
      rw [if_pos]
      · rw [Option.map_some]
        congr 1
        apply List.map_congr_left
        intro d hd
        rw [List.mem_range] at hd
        rw [total_agree]
        have h1 := h.one hdir d
        have h2 := cores_pos f.gm d (on_core h hd)
        have : cores f.gm d = 1 := by omega
        rw [this]
        simp
      · rw [List.all_eq_true]
        intro i _
        rw [decide_eq_true_eq, count_agree]
        split
        · exact h.one hdir i
        · omega
  · unfold ofForm
    rw [hl]
    simp only [Option.some.injEq]
    apply List.ext_getElem
    · simp
    · intro i h1 h2
      simp [hz]

theorem ofForms_eq [CharZero K] (keep : Bool) : ∀ {fs : List (Form K)} {cs : List (Nat → K)}, (∀ f ∈ fs, Proper f) →
    List.Forall₂ Coeffs fs cs → ofForms keep fs = some (joined fs cs)
  | _, _, _, .nil => rfl
  | f :: fs, c :: cs, hp, .cons h hs => by
    have ih := ofForms_eq keep (fs := fs) (cs := cs) (fun g hg => hp g (by simp [hg])) hs
    unfold ofForms at ih ⊢
    rw [List.mapM_cons, ofForm_eq keep (hp f (by simp)) h]
    obtain ⟨ls, hls, hfl⟩ := Option.map_eq_some_iff.1 ih
    rw [hls]
    simp only [Option.pure_def, Option.bind_eq_bind, Option.bind_some, Option.map_some, List.flatten_cons, hfl, joined]

theorem setFull_eq {f : Form K} (h : Proper f) (c : Nat → K) {V : List K}
    (hV : ∀ d, d < f.n → V[d]? = some (c d)) : setFull f V = some (filled f c) := by
  unfold setFull
  have h1 : (f.gm.mapM fun g : LocalGM => g.mapM fun p : Nat × List Nat => (p.2.mapM fun k => V[k]?).map fun l => (p.1, l)) =
      some (localOf f.gm c) := by
    apply Mifem.Asm.mapM_eq_map
    intro g hg
    apply Mifem.Asm.mapM_eq_map
    intro p hp
    rw [Mifem.Asm.mapM_eq_map (g := c), Option.map_some]
    intro k hk
    exact hV k (on_core_lt h ⟨g, hg, p, hp, hk⟩)
  rw [h1, Option.bind_some]
  unfold setLocal
  rw [if_pos]
  · rfl
  · rw [List.all_eq_true]
    intro l hl
    obtain ⟨g, hg, rfl⟩ := List.mem_map.1 hl
    rw [List.all_eq_true]
    intro q hq
    obtain ⟨p, hp, rfl⟩ := List.mem_map.1 hq
    simp [h.len g hg p hp]

theorem give_drop (nd : Nat) : ∀ (args : List (Option (Form K))) (V : List K) (i : Nat),
    give V nd i args = give (V.drop i) nd 0 args
  | [], _, _ => rfl
  | none :: as, V, i => by
    rw [give, give, give_drop nd as V, give_drop nd as (V.drop i), List.drop_drop, Nat.zero_add]
  | some f :: as, V, i => by
    rw [give, give, List.drop_zero, give_drop nd as V, give_drop nd as (V.drop i), List.drop_drop, Nat.zero_add]

/-- the forms at the front take their coefficients and leave the rest. -/
theorem give_forms (nd : Nat) (rest : List K) (tail : List (Option (Form K))) :
    ∀ (fs : List (Form K)) (cs : List (Nat → K)), fs.length = cs.length → (∀ f ∈ fs, Proper f) →
      give (joined fs cs ++ rest) nd 0 (fs.map some ++ tail) =
        (give rest nd 0 tail).map fun l => (List.zipWith filled fs cs).map some ++ l
  | [], [], _, _ => by simp [joined]
  | f :: fs, c :: cs, hl, hp => by
    have hf := hp f (by simp)
    have hlen : ((List.range f.n).map c).length = f.n := by simp
    rw [List.map_cons, List.cons_append, give, joined, List.drop_zero, Nat.zero_add, give_drop, List.append_assoc,
      List.take_left' hlen, List.drop_left' hlen, setFull_eq hf c (by intro d hd; simp [hd]), Option.bind_some,
      give_forms nd rest tail fs cs (by simpa using hl) (fun g hg => hp g (by simp [hg]))]
    rw [Option.map_map]
    rfl

theorem joined_length : ∀ (fs : List (Form K)) (cs : List (Nat → K)), fs.length = cs.length →
    (joined fs cs).length = (fs.map Form.n).sum
  | [], [], _ => rfl
  | f :: fs, c :: cs, h => by
    rw [joined, List.length_append, joined_length fs cs (by simpa using h)]
    simp

theorem countP_some (fs : List (Form K)) : (fs.map some).countP Option.isNone = 0 := by
  rw [List.countP_eq_zero]
  intro a ha
  obtain ⟨f, _, rfl⟩ := List.mem_map.1 ha
  simp

/-! ## The method 'silly' -/

/-- `LocallyFullVector(forms).V` is the coefficients of the forms one after the other. -/
theorem c101_vector_of_forms [CharZero K] (keep : Bool) (fs : List (Form K)) (cs : List (Nat → K)) (hp : ∀ f ∈ fs, Proper f)
    (hc : List.Forall₂ Coeffs fs cs) : ofForms keep fs = some (joined fs cs) := ofForms_eq keep hp hc

/-- `distributed_to(*forms)` gives the forms their coefficients; entries beyond the last form are ignored. -/
theorem c101_distributed (fs : List (Form K)) (cs : List (Nat → K)) (hl : fs.length = cs.length) (hp : ∀ f ∈ fs, Proper f)
    (rest : List K) : distSilly (joined fs cs ++ rest) (fs.map some) = some ((List.zipWith filled fs cs).map some) := by
  unfold distSilly
  rw [countP_some]
  have := give_forms 0 rest [] fs cs hl hp
  simp only [List.append_nil] at this
  simp only [this, give, Option.map_some, List.append_nil]

/-- **Round trip from forms.** Distributing the vector of the forms to these forms gives them the coefficients they had. -/
theorem c101_roundtrip_forms [CharZero K] (keep : Bool) (fs : List (Form K)) (cs : List (Nat → K)) (hp : ∀ f ∈ fs, Proper f)
    (hc : List.Forall₂ Coeffs fs cs) : ∃ V fs', ofForms keep fs = some V ∧ distSilly V (fs.map some) = some (fs'.map some) ∧
      List.Forall₂ Coeffs fs' cs := by
  have hl := hc.length_eq
  refine ⟨_, List.zipWith filled fs cs, ofForms_eq keep hp hc, ?_, ?_⟩
  · have := c101_distributed fs cs hl hp []
    rwa [List.append_nil] at this
  · clear hc
    induction fs generalizing cs with
    | nil => cases cs with
      | nil => exact .nil
      | cons _ _ => simp at hl
    | cons f fs ih => cases cs with
      | nil => simp at hl
      | cons c cs =>
        exact .cons (filled_coeffs (hp f (by simp)) c) (ih cs (fun g hg => hp g (by simp [hg])) (by simpa using hl))

/-- every vector of the right length is the coefficients of forms. -/
theorem exists_joined : ∀ (fs : List (Form K)) (V : List K), (fs.map Form.n).sum ≤ V.length →
    ∃ cs : List (Nat → K), fs.length = cs.length ∧ V = joined fs cs ++ V.drop (fs.map Form.n).sum
  | [], V, _ => ⟨[], rfl, by simp [joined]⟩
  | f :: fs, V, h => by
    rw [List.map_cons, List.sum_cons] at h
    obtain ⟨cs, hl, hV⟩ := exists_joined fs (V.drop f.n) (by rw [List.length_drop]; omega)
    refine ⟨(fun d => V.getD d 0) :: cs, by simp [hl], ?_⟩
    have h1 : (List.range f.n).map (fun d => V.getD d 0) = V.take f.n := by
      apply List.ext_getElem
      · rw [List.length_map, List.length_range, List.length_take]; omega
      · intro i h1 h2
        rw [List.getElem_map, List.getElem_range, List.getElem_take]
        have : i < V.length := by rw [List.length_take] at h2; omega
        simp [List.getD, this]
    rw [joined, h1, List.append_assoc, List.map_cons, List.sum_cons, ← List.drop_drop, ← hV, List.take_append_drop]

/-- **Round trip from vectors.** The vector of the forms that a vector was distributed to is this vector. -/
theorem c101_roundtrip_vector [CharZero K] (keep : Bool) (fs : List (Form K)) (hp : ∀ f ∈ fs, Proper f) (V : List K)
    (hV : V.length = (fs.map Form.n).sum) :
    ∃ fs', distSilly V (fs.map some) = some (fs'.map some) ∧ ofForms keep fs' = some V := by
  obtain ⟨cs, hl, h⟩ := exists_joined fs V (by omega)
  rw [← hV, List.drop_length, List.append_nil] at h
  refine ⟨List.zipWith filled fs cs, ?_, ?_⟩
  · have := c101_distributed fs cs hl hp []
    rwa [List.append_nil, ← h] at this
  · have hj : joined (List.zipWith filled fs cs) cs = joined fs cs := by
      clear h hp hV
      induction fs generalizing cs with
      | nil => rfl
      | cons f fs ih => cases cs with
        | nil => simp at hl
        | cons c cs =>
          rw [List.zipWith_cons_cons, joined, joined, ih cs (by simpa using hl)]
          rfl
    rw [h, ← hj]
    apply ofForms_eq
    · intro g hg
      obtain ⟨i, hi, rfl⟩ := List.getElem_of_mem hg
      rw [List.getElem_zipWith]
      exact filled_proper (hp _ (List.getElem_mem _)) _
    · clear h hV hj
      induction fs generalizing cs with
      | nil => cases cs with
        | nil => exact .nil
        | cons _ _ => simp at hl
      | cons f fs ih => cases cs with
        | nil => simp at hl
        | cons c cs =>
          exact .cons (filled_coeffs (hp f (by simp)) c) (ih (fun g hg => hp g (by simp [hg])) cs (by simpa using hl))

theorem setFull_short {f : Form K} (h : Proper f) {V : List K} (hV : V.length < f.n) : setFull f V = none := by
  cases hs : setFull f V with
  | none => rfl
  | some f' =>
    exfalso
    unfold setFull at hs
    obtain ⟨loc, hl, _⟩ := Option.bind_eq_some_iff.1 hs
    obtain ⟨g, hg, p, hp, hd⟩ := on_core h (d := f.n - 1) (by omega)
    obtain ⟨hlen, hget⟩ := (Gath.mapM_some_iff _ _ _).1 hl
    obtain ⟨i, hi, rfl⟩ := List.getElem_of_mem hg
    have h2 := hget i hi (by omega)
    obtain ⟨hlen2, hget2⟩ := (Gath.mapM_some_iff _ _ _).1 h2
    obtain ⟨k, hk, rfl⟩ := List.getElem_of_mem hp
    have h3 := hget2 k hk (by omega)
    obtain ⟨l, hl3, _⟩ := Option.map_eq_some_iff.1 h3
    obtain ⟨hlen4, hget4⟩ := (Gath.mapM_some_iff _ _ _).1 hl3
    obtain ⟨m, hm, he⟩ := List.getElem_of_mem hd
    have h5 := hget4 m hm (by omega)
    rw [he] at h5
    have := (List.getElem?_eq_some_iff.1 h5).1
    omega

/-- A vector is accepted if and only if it is long enough for all forms. -/
theorem c101_accepted (fs : List (Form K)) (hp : ∀ f ∈ fs, Proper f) (V : List K) :
    (distSilly V (fs.map some)).isSome = true ↔ (fs.map Form.n).sum ≤ V.length := by
  unfold distSilly
  rw [countP_some]
  simp only
  induction fs generalizing V with
  | nil => simp [give]
  | cons f fs ih =>
    have hf := hp f (by simp)
    have ih := ih (fun g hg => hp g (by simp [hg])) (V.drop f.n)
    rw [List.length_drop] at ih
    rw [List.map_cons, give, List.drop_zero, Nat.zero_add, List.map_cons, List.sum_cons]
    by_cases hn : f.n ≤ V.length
    · rw [setFull_eq hf (fun d => V.getD d 0) (by
        intro d hd
        have : d < V.length := by omega
        simp [List.getElem?_take, hd, List.getD, this]), Option.bind_some, Option.isSome_map, give_drop, ih]
      omega
    · rw [setFull_short hf (by rw [List.length_take]; omega)]
      simp
      omega

/-! ## `None` -/

/-- One `None`: the forms before it take their coefficients from the front of the vector and those after it from the end;
at least one entry has to be left for `None`. -/
theorem c101_placeholder (fs gs : List (Form K)) (cs ds : List (Nat → K)) (hl : fs.length = cs.length)
    (hl' : gs.length = ds.length) (hp : ∀ f ∈ fs, Proper f) (hq : ∀ g ∈ gs, Proper g) (w : List K) :
    distSilly (joined fs cs ++ w ++ joined gs ds) (fs.map some ++ none :: gs.map some) =
      if w = [] then none
      else some ((List.zipWith filled fs cs).map some ++ none :: (List.zipWith filled gs ds).map some) := by
  have hc : (fs.map some ++ none :: gs.map some).countP Option.isNone = 1 := by
    rw [List.countP_append, List.countP_cons, countP_some, countP_some]
    rfl
  have hd : ∀ l : List (Form K), ((l.map some).map fun a => (a.map Form.n).getD 0) = l.map Form.n := by
    intro l
    rw [List.map_map]
    rfl
  have hdofs : dofsOf (fs.map some ++ none :: gs.map some) = (fs.map Form.n).sum + (gs.map Form.n).sum := by
    unfold dofsOf
    rw [List.map_append, List.map_cons, hd, hd, List.sum_append, List.sum_cons]
    simp
  have hlen : (joined fs cs ++ w ++ joined gs ds).length = (fs.map Form.n).sum + w.length + (gs.map Form.n).sum := by
    rw [List.length_append, List.length_append, joined_length fs cs hl, joined_length gs ds hl']
  unfold distSilly
  rw [hc]
  simp only
  rw [hdofs, hlen]
  by_cases hw : w = []
  · rw [if_pos hw, if_pos (by rw [hw]; simp)]
  · have hw0 : 0 < w.length := List.length_pos_iff.2 hw
    rw [if_neg hw, if_neg (by omega)]
    have hsub : (fs.map Form.n).sum + w.length + (gs.map Form.n).sum - ((fs.map Form.n).sum + (gs.map Form.n).sum) = w.length := by
      omega
    rw [hsub, List.append_assoc, give_forms _ _ _ fs cs hl hp, give, give_drop, Nat.zero_add, List.drop_left' rfl]
    have := give_forms w.length [] [] gs ds hl' hq
    simp only [List.append_nil] at this
    rw [this]
    simp [give]

/-- Two or more `None` are refused. -/
theorem c101_two_placeholders (V : List K) (args : List (Option (Form K))) (h : 2 ≤ args.countP Option.isNone) :
    distSilly V args = none := by
  unfold distSilly
  obtain ⟨k, hk⟩ : ∃ k, args.countP Option.isNone = k + 2 := ⟨_, (Nat.sub_add_cancel h).symm⟩
  rw [hk]
  rfl

/-- With one `None` a vector is accepted if and only if it has more entries than the forms have dofs. -/
theorem c101_placeholder_accepted (fs gs : List (Form K)) (hp : ∀ f ∈ fs, Proper f) (hq : ∀ g ∈ gs, Proper g) (V : List K) :
    (distSilly V (fs.map some ++ none :: gs.map some)).isSome = true ↔
      (fs.map Form.n).sum + (gs.map Form.n).sum < V.length := by
  have hc : (fs.map some ++ none :: gs.map some).countP Option.isNone = 1 := by
    rw [List.countP_append, List.countP_cons, countP_some, countP_some]
    rfl
  have hd : ∀ l : List (Form K), ((l.map some).map fun a => (a.map Form.n).getD 0) = l.map Form.n := by
    intro l
    rw [List.map_map]
    rfl
  have hdofs : dofsOf (fs.map some ++ none :: gs.map some) = (fs.map Form.n).sum + (gs.map Form.n).sum := by
    unfold dofsOf
    rw [List.map_append, List.map_cons, hd, hd, List.sum_append, List.sum_cons]
    simp
  constructor
  · intro h
    by_contra hn
    unfold distSilly at h
    rw [hc] at h
    simp only at h
    rw [hdofs, if_pos (by omega)] at h
    simp at h
  · intro h
    obtain ⟨cs, hl, hV⟩ := exists_joined fs V (by omega)
    obtain ⟨w, hw⟩ : ∃ w, w = V.drop (fs.map Form.n).sum := ⟨_, rfl⟩
    have hwl : w.length = V.length - (fs.map Form.n).sum := by rw [hw, List.length_drop]
    obtain ⟨ds, hl', hW⟩ := exists_joined gs (w.drop (w.length - (gs.map Form.n).sum)) (by rw [List.length_drop]; omega)
    rw [List.drop_drop, List.drop_eq_nil_of_le (by omega : w.length ≤ w.length - (gs.map Form.n).sum + (gs.map Form.n).sum),
      List.append_nil] at hW
    have hV' : V = joined fs cs ++ w.take (w.length - (gs.map Form.n).sum) ++ joined gs ds := by
      rw [← hW, List.append_assoc, List.take_append_drop, hw]
      exact hV
    rw [hV', c101_placeholder fs gs cs ds hl hl' hp hq, if_neg]
    · rfl
    · intro h0
      have := congrArg List.length h0
      rw [List.length_take, List.length_nil] at this
      omega

end Mifem.Props.FV101
