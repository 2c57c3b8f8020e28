import Verif.Model.BC

/-!
# C39: interpreting boundary conditions
-/

namespace Mifem.Props
open Mifem.BC

variable {S B : Type}

/-- the local dofs of an element on the given element parts, side after side; nothing for an element without such parts. -/
def dofsOf (on : S → List Nat) (iep : List (Part S)) (e : Nat) : Option (List Nat) :=
  if e ∈ iep.map Prod.fst then some ((iep.filter fun p => p.1 == e).flatMap fun p => on p.2) else none

theorem extend_lookup (d : List (Nat × List Nat)) (e : Nat) (x : List Nat) (e' : Nat) :
    (extend d e x).lookup e' = if e' = e then some ((d.lookup e).getD [] ++ x) else d.lookup e' := by
  unfold extend
  split
  · rename_i h
    induction d with
    | nil => simp at h
    | cons p d ih =>
      rw [List.map_cons, List.lookup_cons, List.lookup_cons, List.lookup_cons]
      by_cases hp : p.1 = e
      · rw [if_pos (by simpa using hp)]
        by_cases he : e' = e
        · subst he
          simp [hp]
        · have h1 : (e' == p.1) = false := by rw [hp]; simpa using he
          rw [if_neg he]
          simp only [h1]
          by_cases hd : (d.any fun p => p.1 == e) = true
          · have := ih hd
            rw [if_neg he] at this
            exact this
          · have : (d.map fun p => if p.1 == e then (p.1, p.2 ++ x) else p) = d := by
              conv => rhs; rw [← List.map_id d]
              apply List.map_congr_left
              intro y hy
              rw [Bool.not_eq_true, List.any_eq_false] at hd
              rw [if_neg (hd y hy)]
              rfl
            rw [this]
      · rw [if_neg (by simpa using hp)]
        have hd : (d.any fun p => p.1 == e) = true := by simpa [hp] using h
        have he2 : (e == p.1) = false := by simpa using fun hc : e = p.1 => hp hc.symm
        rw [he2]
        by_cases he' : e' = p.1
        · have : ¬ e' = e := fun hc => hp (he' ▸ hc)
          simp [he', hp]
        · have : (e' == p.1) = false := by simpa using he'
          rw [this]
          exact ih hd
  · rename_i h
    rw [List.lookup_append]
    have hn : d.lookup e = none := by
      rw [List.lookup_eq_none_iff]
      intro p hp
      rw [Bool.not_eq_true, List.any_eq_false] at h
      have := h p hp
      simp only [beq_iff_eq] at this ⊢
      simpa using fun hc : e = p.1 => this hc.symm
    by_cases he : e' = e
    · subst he
      simp [hn]
    · rw [if_neg he]
      have : List.lookup e' [(e, x)] = none := by
        rw [List.lookup_cons, show (e' == e) = false by simpa using he]
        rfl
      rw [this]
      cases d.lookup e' <;> rfl

/-- the dict of an interpretation has the dofs of every element, side after side. -/
theorem parse_lookup (on : S → List Nat) (iep : List (Part S)) (e : Nat) : (parse on iep).lookup e = dofsOf on iep e := by
  unfold parse
  have gen : ∀ (iep : List (Part S)) (d : List (Nat × List Nat)), (iep.foldl (fun d p => extend d p.1 (on p.2)) d).lookup e =
      if e ∈ iep.map Prod.fst then some ((d.lookup e).getD [] ++ (iep.filter fun p => p.1 == e).flatMap fun p => on p.2) else d.lookup e := by
    intro iep
    induction iep with
    | nil => intro d; simp
    | cons p iep ih =>
      intro d
      rw [List.foldl_cons, ih, extend_lookup, List.filter_cons, List.map_cons]
      by_cases hp : e = p.1
      · subst hp
        simp only [if_true, List.mem_cons, true_or, beq_self_eq_true, List.flatMap_cons, Option.getD_some]
        by_cases hm : p.1 ∈ iep.map Prod.fst
        · rw [if_pos hm, List.append_assoc]
        · rw [if_neg hm]
          have : (iep.filter fun q => q.1 == p.1) = [] := by
            rw [List.filter_eq_nil_iff]
            intro q hq hc
            simp only [beq_iff_eq] at hc
            exact hm (List.mem_map.2 ⟨q, hq, hc⟩)
          simp [this]
      · have h2 : (p.1 == e) = false := by simpa using fun hc : p.1 = e => hp hc.symm
        simp only [if_neg hp, h2, Bool.false_eq_true, if_false]
        by_cases hm : e ∈ iep.map Prod.fst
        · rw [if_pos hm, if_pos (List.mem_cons_of_mem _ hm)]
        · rw [if_neg hm, if_neg (fun hc => (List.mem_cons.1 hc).elim hp hm)]
  rw [gen]
  simp [dofsOf]

/-- the addresses given to the lists made by the operations. -/
def addresses : List (Op B) → List Nat
  | [] => []
  | .set _ _ a :: ops => a :: addresses ops
  | _ :: ops => addresses ops

/-- the boundaries set for a form after an operation, knowing those before it. -/
def bcAfter (i : Nat) (c : Option (List B)) : Op B → Option (List B)
  | .set j bns _ => if i = j then some bns else c
  | .drop j => if i = j then none else c
  | .interpret _ => c

/-- the boundaries last set for a form (unless it was dropped since). -/
def current (i : Nat) (ops : List (Op B)) : Option (List B) := ops.foldl (bcAfter i) none

/-- state and history agree; `used` are the addresses used so far. -/
structure Inv (forms : Nat → Form S B) (s : State S) (cur : Nat → Option (List B)) (used : List Nat) : Prop where
  iep : ∀ i, (s.iep i).map Prod.snd = (cur i).map fun bns => bns.flatMap (forms i).range
  addr : ∀ i a l, s.iep i = some (a, l) → a ∈ used
  cache : ∀ b d, s.cache = some (b, d) → b ∈ used ∧ ∀ i l, s.iep i = some (b, l) → d = parse (forms i).on l

theorem inv_interpret (forms : Nat → Form S B) (s : State S) (cur : Nat → Option (List B)) (used : List Nat) (h : Inv forms s cur used)
    (hd : ∀ i j a l m, s.iep i = some (a, l) → s.iep j = some (a, m) → i = j) (i : Nat) :
    (interpret forms s i).1 = (cur i).map (fun bns => parse (forms i).on (bns.flatMap (forms i).range)) ∧
    Inv forms (interpret forms s i).2 cur used ∧ (interpret forms s i).2.iep = s.iep := by
  have hi := h.iep i
  unfold interpret
  cases hs : s.iep i with
  | none =>
    rw [hs] at hi
    cases hc : cur i with
    | none => exact ⟨rfl, h, rfl⟩
    | some bns => rw [hc] at hi; exact absurd hi (by simp)
  | some al =>
    obtain ⟨a, l⟩ := al
    rw [hs] at hi
    cases hc : cur i with
    | none => rw [hc] at hi; exact absurd hi (by simp)
    | some bns =>
      rw [hc] at hi
      simp only [Option.map_some, Option.some.injEq] at hi
      have hnew : Inv forms { s with cache := some (a, parse (forms i).on l) } cur used := by
        refine ⟨h.iep, h.addr, ?_⟩
        intro b d hbd
        simp only [Option.some.injEq, Prod.mk.injEq] at hbd
        obtain ⟨rfl, rfl⟩ := hbd
        refine ⟨h.addr i _ _ hs, fun j m hj => ?_⟩
        have hij := hd i j _ _ _ hs hj
        subst hij
        rw [hs] at hj
        simp only [Option.some.injEq, Prod.mk.injEq, true_and] at hj
        rw [hj]
      cases hca : s.cache with
      | none =>
        simp only [Option.map_some, ← hi]
        exact ⟨trivial, hnew, trivial⟩
      | some bd =>
        obtain ⟨b, d⟩ := bd
        simp only [Option.map_some, ← hi]
        by_cases hab : a = b
        · rw [if_pos hab]
          subst hab
          refine ⟨?_, h, rfl⟩
          simp only
          rw [(h.cache a d hca).2 i l hs]
        · rw [if_neg hab]
          exact ⟨rfl, hnew, rfl⟩

/-- the invariant through all operations with new addresses. -/
theorem inv_run (forms : Nat → Form S B) : ∀ (ops : List (Op B)) (s : State S) (cur : Nat → Option (List B)) (used : List Nat), Inv forms s cur used →
    (∀ i j a l m, s.iep i = some (a, l) → s.iep j = some (a, m) → i = j) → (addresses ops).Nodup → (∀ a ∈ addresses ops, a ∉ used) →
    ∃ used', Inv forms (runAll forms s ops) (fun i => ops.foldl (bcAfter i) (cur i)) used' ∧
      (∀ i j a l m, (runAll forms s ops).iep i = some (a, l) → (runAll forms s ops).iep j = some (a, m) → i = j)
  | [], s, cur, used, h, hd, _, _ => ⟨used, h, hd⟩
  | op :: ops, s, cur, used, h, hd, hn, hu => by
    unfold runAll
    rw [List.foldl_cons]
    simp only [List.foldl_cons]
    cases op with
    | interpret i =>
      obtain ⟨_, h2, h3⟩ := inv_interpret forms s cur used h hd i
      exact inv_run forms ops _ cur used h2 (fun i' j a l m => by simp only [step]; rw [h3]; exact hd i' j a l m) hn hu
    | drop i =>
      refine inv_run forms ops _ _ used ?_ ?_ hn hu
      · refine ⟨fun j => ?_, fun j a l hj => ?_, fun b d hb => ?_⟩
        · by_cases hj : j = i
          · subst hj
            simp [step, bcAfter]
          · simp only [step, Function.update_of_ne hj, bcAfter, if_neg hj]
            exact h.iep j
        · by_cases hji : j = i
          · subst hji
            simp [step] at hj
          · simp only [step, Function.update_of_ne hji] at hj
            exact h.addr j a l hj
        · refine ⟨(h.cache b d hb).1, fun j l hj => ?_⟩
          by_cases hji : j = i
          · subst hji
            simp [step] at hj
          · simp only [step, Function.update_of_ne hji] at hj
            exact (h.cache b d hb).2 j l hj
      · intro j k a l m hj hk
        by_cases hji : j = i
        · subst hji
          simp [step] at hj
        · by_cases hki : k = i
          · subst hki
            simp [step] at hk
          · simp only [step, Function.update_of_ne hji] at hj
            simp only [step, Function.update_of_ne hki] at hk
            exact hd j k a l m hj hk
    | set i bns a =>
      have ha : a ∉ used := hu a List.mem_cons_self
      have hn' : a ∉ addresses ops ∧ (addresses ops).Nodup := List.nodup_cons.1 hn
      refine inv_run forms ops _ _ (a :: used) ?_ ?_ hn'.2 ?_
      · refine ⟨fun j => ?_, fun j b l hj => ?_, fun b d hb => ?_⟩
        · by_cases hj : j = i
          · subst hj
            simp [step, bcAfter]
          · simp only [step, Function.update_of_ne hj, bcAfter, if_neg hj]
            exact h.iep j
        · by_cases hji : j = i
          · subst hji
            simp only [step, Function.update_self, Option.some.injEq, Prod.mk.injEq] at hj
            rw [← hj.1]
            exact List.mem_cons_self
          · simp only [step, Function.update_of_ne hji] at hj
            exact List.mem_cons_of_mem _ (h.addr j b l hj)
        · have hb' : s.cache = some (b, d) := hb
          have hbu := (h.cache b d hb').1
          refine ⟨List.mem_cons_of_mem _ hbu, fun j l hj => ?_⟩
          by_cases hji : j = i
          · subst hji
            simp only [step, Function.update_self, Option.some.injEq, Prod.mk.injEq] at hj
            exact absurd (hj.1 ▸ hbu) ha
          · simp only [step, Function.update_of_ne hji] at hj
            exact (h.cache b d hb').2 j l hj
      · intro j k b l m hj hk
        by_cases hji : j = i
        · by_cases hki : k = i
          · rw [hji, hki]
          · subst hji
            simp only [step, Function.update_self, Option.some.injEq, Prod.mk.injEq] at hj
            simp only [step, Function.update_of_ne hki] at hk
            exact absurd (hj.1 ▸ h.addr k b m hk) ha
        · by_cases hki : k = i
          · subst hki
            simp only [step, Function.update_self, Option.some.injEq, Prod.mk.injEq] at hk
            simp only [step, Function.update_of_ne hji] at hj
            exact absurd (hk.1 ▸ h.addr j b l hj) ha
          · simp only [step, Function.update_of_ne hji] at hj
            simp only [step, Function.update_of_ne hki] at hk
            exact hd j k b l m hj hk
      · intro b hb
        rw [List.mem_cons, not_or]
        exact ⟨fun hc => hn'.1 (hc ▸ hb), hu b (List.mem_cons_of_mem _ hb)⟩

/-- **C39, partial.** Whatever boundaries are set for whatever forms and interpreted in whatever order, interpreting a form gives
for every element its local dofs on the boundaries last set for this form, side after side; with no boundaries set it is an
error. Missing: addresses used twice, see `c39_counterexample`. -/
theorem c39_interpret_partial (forms : Nat → Form S B) (ops : List (Op B)) (hn : (addresses ops).Nodup) (i : Nat) :
    match (interpret forms (runAll forms start ops) i).1, current i ops with
    | some d, some bns => ∀ e, d.lookup e = dofsOf (forms i).on (bns.flatMap (forms i).range) e
    | none, none => True
    | _, _ => False := by
  obtain ⟨used, h1, h2⟩ := inv_run forms ops start (fun _ => none) [] ⟨fun _ => rfl, fun _ _ _ h => absurd h (by simp [start]), fun _ _ h => absurd h (by simp [start])⟩
    (fun _ _ _ _ _ h => absurd h (by simp [start])) hn (fun _ _ => by simp)
  obtain ⟨h3, _, _⟩ := inv_interpret forms _ _ used h1 h2 i
  rw [h3]
  unfold current
  cases ops.foldl (bcAfter i) none with
  | none => trivial
  | some bns => exact fun e => parse_lookup _ _ e

/-- a form on a mesh of one element with two boundaries, and its dofs on two sides. -/
def form39 : Form Bool Bool := ⟨fun b => [(0, b)], fun s => if s then [0, 1] else [2, 3]⟩

example : (interpret (fun _ => form39) (runAll (fun _ => form39) start [.set 0 [true] 1, .interpret 0, .set 1 [false, true] 2, .interpret 1]) 0).1 = some [(0, [0, 1])] := by decide

/-- **C39, counterexample.** Set a boundary for a form, interpret it, set another one and then a third time the other one: the
list of the third assignment may be put at the address of the first one, and the interpretation gives the dofs of the first
boundary. -/
theorem c39_counterexample : ∃ ops : List (Op Bool), Valid (fun _ => form39) start ops ∧ current 0 ops = some [false] ∧
    (interpret (fun _ => form39) (runAll (fun _ => form39) start ops) 0).1 = some [(0, [0, 1])] ∧
    dofsOf form39.on ([false].flatMap form39.range) 0 = some [2, 3] := by
  refine ⟨[.set 0 [true] 1, .interpret 0, .set 0 [false] 2, .set 0 [false] 1], ?_, by decide, by decide, by decide⟩
  refine ⟨?_, ?_, ?_, ?_, trivial⟩
  · rintro i bns a h ⟨j, l, hl⟩
    simp [start] at hl
  · intro i bns a h
    exact absurd h (by simp)
  · rintro i bns a h ⟨j, l, hl⟩
    simp only [Op.set.injEq] at h
    obtain ⟨rfl, rfl, rfl⟩ := h
    by_cases hj : j = 0
    · subst hj
      simp [step, interpret, start] at hl
    · simp [step, interpret, start, hj] at hl
  · rintro i bns a h ⟨j, l, hl⟩
    simp only [Op.set.injEq] at h
    obtain ⟨rfl, rfl, rfl⟩ := h
    by_cases hj : j = 0
    · subst hj
      simp [step, interpret, start] at hl
    · simp [step, interpret, start, hj] at hl

/-! ### boundary cochains -/

/-- **C39, the cache of boundary cochains.** If equal identities (of the function, the time and the boundaries) always belong to
equal objects, every use gives what the present objects give. -/
theorem c39_cache {κ C R : Type} [DecidableEq κ] (make : C → R) (l : List (κ × C)) (h : ∀ x ∈ l, ∀ y ∈ l, x.1 = y.1 → x.2 = y.2) :
    uses make none l = l.map fun x => make x.2 := by
  have gen : ∀ (l : List (κ × C)) (s : Option (Cached κ R)), (∀ x ∈ l, ∀ y ∈ l, x.1 = y.1 → x.2 = y.2) →
      (∀ c, s = some c → ∀ x ∈ l, x.1 = c.key → c.value = make x.2) → uses make s l = l.map fun x => make x.2 := by
    intro l
    induction l with
    | nil => intro s _ _; rfl
    | cons x l ih =>
      intro s h hs
      obtain ⟨k, c⟩ := x
      have hrest : ∀ x ∈ l, ∀ y ∈ l, x.1 = y.1 → x.2 = y.2 := fun x hx y hy => h x (List.mem_cons_of_mem _ hx) y (List.mem_cons_of_mem _ hy)
      have hnew : ∀ c', some (Cached.mk k (make c)) = some c' → ∀ x ∈ l, x.1 = c'.key → c'.value = make x.2 := by
        rintro c' hc x hx hk
        rw [← Option.some.inj hc] at hk ⊢
        rw [h x (List.mem_cons_of_mem _ hx) (k, c) List.mem_cons_self hk]
      unfold uses useCache
      cases s with
      | none => simp only [List.map_cons]; rw [ih _ hrest hnew]
      | some s =>
        by_cases hk : s.key = k
        · simp only [if_pos hk, List.map_cons]
          rw [ih _ hrest (fun c' hc x hx => hs c' hc x (List.mem_cons_of_mem _ hx)), hs s rfl (k, c) List.mem_cons_self hk.symm]
        · simp only [if_neg hk, List.map_cons]
          rw [ih _ hrest hnew]
  exact gen l none h (fun _ h => absurd h (by simp))

/-- **C39, counterexample for the cache of boundary cochains.** Assigning to `boundaries` the same list object after a name has
been appended to it: the identities are those of the last use, and the elements of the new boundary are not found. -/
theorem c39_cache_counterexample : uses (fun bns : List Bool => parse form39.on (bns.flatMap form39.range)) none [(5, [true]), (5, [true, false])] ≠
    [[true], [true, false]].map fun bns => parse form39.on (bns.flatMap form39.range) := by decide

theorem assign_map {V : Type} (n : Nat) (f : Nat → V) : ∀ (idx : List Nat) (g : Nat → V),
    assign ((List.range n).map g) idx (idx.map f) = (List.range n).map fun k => if k ∈ idx then f k else g k
  | [], g => by simp [assign]
  | i :: idx, g => by
    have : ((List.range n).map g).set i (f i) = (List.range n).map fun k => if k = i then f i else g k := by
      apply List.ext_getElem
      · simp
      · intro k h1 h2
        rw [List.getElem_set]
        simp only [List.getElem_map, List.getElem_range]
        by_cases hk : i = k
        · rw [if_pos hk, if_pos hk.symm]
        · rw [if_neg hk, if_neg (Ne.symm hk)]
    show assign (((List.range n).map g).set i (f i)) idx (idx.map f) = _
    rw [this, assign_map n f idx]
    apply List.map_congr_left
    intro k _
    by_cases h1 : k ∈ idx
    · rw [if_pos h1, if_pos (List.mem_cons_of_mem _ h1)]
    · rw [if_neg h1]
      by_cases h2 : k = i
      · rw [if_pos h2, if_pos (h2 ▸ List.mem_cons_self), h2]
      · rw [if_neg h2, if_neg (fun hc => (List.mem_cons.1 hc).elim h2 h1)]

/-- **C39, boundary cochains.** If the boundary values of an element's sides come from one value for each local dof, the array of
an element with sides on the boundaries has these values at the dofs on these sides and zeros elsewhere; other elements have
no array. -/
theorem c39_boundary_cochain [DecidableEq S] {V : Type} (zero : V) (basis : Nat) (on : S → List Nat) (lc : Nat → S → Option (List V)) (x : Nat → Nat → V) (iep : List (Part S))
    (hlc : ∀ p ∈ iep, lc p.1 p.2 = some ((on p.2).map (x p.1))) :
    ∃ d, boundaryCochain zero basis on lc iep = some d ∧ ∀ e, d e =
      if e ∈ iep.map Prod.fst then some ((List.range basis).map fun k => if ∃ p ∈ iep, p.1 = e ∧ k ∈ on p.2 then x e k else zero) else none := by
  unfold boundaryCochain
  have gen : ∀ (todo done : List (Part S)) (d : Nat → Option (List V)), (∀ p ∈ todo, lc p.1 p.2 = some ((on p.2).map (x p.1))) →
      (∀ e, d e = if e ∈ done.map Prod.fst then some ((List.range basis).map fun k => if ∃ p ∈ done, p.1 = e ∧ k ∈ on p.2 then x e k else zero) else none) →
      ∃ d', todo.foldlM (bcStep zero basis on lc) d = some d' ∧
      ∀ e, d' e = if e ∈ (done ++ todo).map Prod.fst then some ((List.range basis).map fun k => if ∃ p ∈ done ++ todo, p.1 = e ∧ k ∈ on p.2 then x e k else zero) else none := by
    intro todo
    induction todo with
    | nil =>
      intro done d _ hd
      exact ⟨d, rfl, by rw [List.append_nil]; exact hd⟩
    | cons p todo ih =>
      intro done d hl hd
      rw [List.foldlM_cons, bcStep, hl p List.mem_cons_self]
      simp only [Option.map_some, Option.bind_eq_bind, Option.bind_some]
      have := ih (done ++ [p]) (Function.update d p.1 (some (assign ((d p.1).getD (List.replicate basis zero)) (on p.2) ((on p.2).map (x p.1)))))
        (fun q hq => hl q (List.mem_cons_of_mem _ hq)) ?_
      · rw [List.append_assoc] at this
        exact this
      · intro e
        by_cases he : e = p.1
        · subst he
          rw [Function.update_self, if_pos (by simp)]
          congr 1
          have hold : (d p.1).getD (List.replicate basis zero) = (List.range basis).map fun k => if ∃ q ∈ done, q.1 = p.1 ∧ k ∈ on q.2 then x p.1 k else zero := by
            rw [hd]
            by_cases hm : p.1 ∈ done.map Prod.fst
            · rw [if_pos hm]
              rfl
            · rw [if_neg hm, Option.getD_none]
              apply List.ext_getElem
              · simp
              · intro k _ _
                simp only [List.getElem_replicate, List.getElem_map, List.getElem_range]
                rw [if_neg]
                rintro ⟨q, hq, hq1, _⟩
                exact hm (List.mem_map.2 ⟨q, hq, hq1⟩)
          rw [hold, assign_map]
          apply List.map_congr_left
          intro k _
          by_cases hk : k ∈ on p.2
          · rw [if_pos hk, if_pos ⟨p, by simp, rfl, hk⟩]
          · rw [if_neg hk]
            by_cases h2 : ∃ q ∈ done, q.1 = p.1 ∧ k ∈ on q.2
            · obtain ⟨q, h3, h4⟩ := h2
              rw [if_pos ⟨q, h3, h4⟩, if_pos ⟨q, List.mem_append_left _ h3, h4⟩]
            · rw [if_neg h2, if_neg]
              rintro ⟨q, hq, hq1, hq2⟩
              rcases List.mem_append.1 hq with hq | hq
              · exact h2 ⟨q, hq, hq1, hq2⟩
              · rw [List.mem_singleton.1 hq] at hq2
                exact hk hq2
        · rw [Function.update_of_ne he, hd]
          have hm : e ∈ (done ++ [p]).map Prod.fst ↔ e ∈ done.map Prod.fst := by simp [he]
          by_cases h1 : e ∈ done.map Prod.fst
          · rw [if_pos h1, if_pos (hm.2 h1)]
            congr 1
            apply List.map_congr_left
            intro k _
            have : (∃ q ∈ done ++ [p], q.1 = e ∧ k ∈ on q.2) ↔ ∃ q ∈ done, q.1 = e ∧ k ∈ on q.2 := by
              constructor
              · rintro ⟨q, hq, hq1, hq2⟩
                rcases List.mem_append.1 hq with hq | hq
                · exact ⟨q, hq, hq1, hq2⟩
                · rw [List.mem_singleton.1 hq] at hq1
                  exact absurd hq1.symm he
              · rintro ⟨q, hq, h⟩
                exact ⟨q, List.mem_append_left _ hq, h⟩
            by_cases h2 : ∃ q ∈ done, q.1 = e ∧ k ∈ on q.2
            · rw [if_pos h2, if_pos (this.2 h2)]
            · rw [if_neg h2, if_neg (fun h => h2 (this.1 h))]
          · rw [if_neg h1, if_neg (fun h => h1 (hm.1 h))]
  exact gen iep [] (fun _ => none) hlc (fun e => by simp)

/-- two sides of an element sharing dof 1. -/
example : ((boundaryCochain (0 : Nat) 4 (fun s : Bool => if s then [0, 1] else [1, 2]) (fun e s => some (if s then [10 * e + 5, 7] else [7, 8])) [(3, true), (3, false), (4, true)]).map fun d => [d 3, d 4, d 5]) =
    some [some [35, 7, 8, 0], some [45, 7, 0, 0], none] := by decide

end Mifem.Props
