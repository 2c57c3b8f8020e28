import Verif.Props.Assembly
import Verif.Model.Sides
import Mathlib.Algebra.CharZero.Defs
import Mathlib.Algebra.Field.Basic
import Mathlib.Tactic.FieldSimp

/-!
# C18: strong boundary conditions
-/

namespace Mifem.Props
open Mifem.Gath Mifem.Asm
open Finset (range)

variable {R : Type}

/-- the local dofs of the boundary condition in element `e` (numbered in the whole system: `start` is the first local dof
of the block). -/
def flagged (start : Nat) (bc : BC R) (k e : Nat) : List Nat := (((bc.dofs k).lookup e).getD []).map (· + start)

/-- the prescribed values in element `e`. -/
def prescribed (bc : BC R) (k e : Nat) : List R := ((bc.cochains k).lookup e).getD []

/-- `r` is a global dof with a boundary condition: in some element it is a local dof of the condition. -/
def OnBC {α : Type} (GI : ChainGM) (A : List (List (Nat × α))) (fl : Nat → Nat → List Nat) (r : Nat) : Prop :=
  ∃ k e m p, (k, e, m) ∈ elemsOf A ∧ p ∈ fl k e ∧ (vec GI k e)[p]? = some r

/-- Every element having a dof of the condition lists it among its dofs of the condition. This fails for an element that
touches the boundary without having a side on it. -/
def Saturated {α : Type} (GI : ChainGM) (A : List (List (Nat × α))) (fl : Nat → Nat → List Nat) : Prop :=
  ∀ k e m p r, (k, e, m) ∈ elemsOf A → (vec GI k e)[p]? = some r → OnBC GI A fl r → p ∈ fl k e

theorem filter_lookup {β : Type} (d : List (Nat × β)) (hn : (d.map Prod.fst).Nodup) (e : Nat) :
    d.filter (fun p => p.1 == e) = match d.lookup e with
      | none => []
      | some ds => [(e, ds)] := by
  induction d with
  | nil => rfl
  | cons p d ih =>
    obtain ⟨e', ds⟩ := p
    simp only [List.map_cons, List.nodup_cons] at hn
    rw [List.filter_cons, List.lookup_cons]
    by_cases h : e' = e
    · subst h
      have h0 : d.filter (fun p => p.1 == e') = [] := by
        rw [List.filter_eq_nil_iff]
        intro q hq hqe
        exact hn.1 (List.mem_map.mpr ⟨q, hq, by simpa using hqe⟩)
      simp [h0]
    · have h1 : (e' == e) = false := by simpa using h
      have h2 : (e == e') = false := by simpa using fun h' => h h'.symm
      simp [h1, h2, ih hn.2]

theorem zip_self (l : List Nat) : l.zip l = l.map fun a => (a, a) := by
  induction l with
  | nil => rfl
  | cons a l ih => rw [List.zip_cons_cons, List.map_cons, ih]

theorem contrib_ident [AddCommMonoid R] [One R] {gi gj : List Nat} (hi : gi.Nodup) (hj : gj.Nodup)
    {d : Nat → Nat → R} {prs : List (Nat × Nat)} {p r t : Nat} (hp : gi[p]? = some r)
    (hd : ∀ b, d p b = if (p, b) ∈ prs then 1 else 0) (hex : ∃ q, (p, q) ∈ prs)
    (hall : ∀ q, (p, q) ∈ prs → gj[q]? = some t) (c : Nat) : contrib gi gj d r c = if c = t then 1 else 0 := by
  split
  · next h =>
    subst h
    obtain ⟨q, hq⟩ := hex
    rw [contrib_single gi gj hi hj d hp (hall q hq), hd, if_pos hq]
  · next h =>
    apply contrib_zero
    intro i j hil hjl h1 h2
    have := getD_inj hi hil h1 hp
    subst this
    rw [hd, if_neg]
    intro hm
    have := hall j hm
    apply h
    rw [← h2]
    simp [List.getD, this]

/-- the effect of setting a list of entries of a local vector. -/
def setAll (l : List (Nat × R)) (d : Nat → R) : Nat → R :=
  l.foldl (fun d p => fun a => if a = p.1 then p.2 else d a) d

theorem setAll_not_mem (l : List (Nat × R)) (d : Nat → R) (a : Nat) (h : a ∉ l.map Prod.fst) : setAll l d a = d a := by
  induction l generalizing d with
  | nil => rfl
  | cons p l ih =>
    simp only [List.map_cons, List.mem_cons, not_or] at h
    unfold setAll at ih ⊢
    rw [List.foldl_cons, ih _ h.2, if_neg h.1]

theorem setAll_mem (l : List (Nat × R)) (d : Nat → R) (a : Nat) (v : R) (h : a ∈ l.map Prod.fst)
    (hv : ∀ w, (a, w) ∈ l → w = v) : setAll l d a = v := by
  induction l generalizing d with
  | nil => simp at h
  | cons p l ih =>
    by_cases ha : a ∈ l.map Prod.fst
    · exact ih _ ha fun w hw => hv w (by simp [hw])
    · have hp : a = p.1 := by
        rw [List.map_cons, List.mem_cons] at h
        rcases h with h | h
        · exact h
        · exact absurd h ha
      have := setAll_not_mem l (fun a => if a = p.1 then p.2 else d a) a ha
      unfold setAll at this ⊢
      rw [List.foldl_cons, this, if_pos hp]
      apply hv
      rw [hp]
      simp

theorem elemsOf_keys {α : Type} (A : List (List (Nat × α))) :
    (elemsOf A).map (fun x => (x.1, x.2.1)) = (elsOf A).zipIdx.flatMap fun lk => lk.1.map fun e => (lk.2, e) := by
  unfold elemsOf elsOf
  rw [List.zipIdx_map, List.map_flatMap, List.flatMap_map]
  simp [Function.comp_def, Prod.map]

theorem sum_count {α : Type} [Field R] [CharZero R] (l : List α) (P : α → Prop) [DecidablePred P] (f : α → R) (w : R)
    (h : ∀ x ∈ l, f x = if P x then w else 0) : (l.map f).sum = ((l.countP P : Nat) : R) * w := by
  induction l with
  | nil => simp
  | cons a l ih =>
    rw [List.map_cons, List.sum_cons, ih (fun x hx => h x (by simp [hx])), h a (by simp), List.countP_cons]
    by_cases ha : P a
    · simp [ha]
      ring
    · simp [ha]

/-- The common part: local rows `fl` are replaced by unit rows at the columns `prs`, local entries set by `vs`. -/
theorem bc_core [Field R] [CharZero R] {GI GJ : ChainGM} {A : EWM R} {B : EWV R} {cu cu' : Custs R} {s s' : VSt R}
    (fl : Nat → Nat → List Nat) (prs : Nat → Nat → List (Nat × Nat)) (vs : Nat → Nat → List (Nat × R))
    (τ : Nat → Nat) (val : Nat → R)
    (hels : elsOf B = elsOf A)
    (hI : ∀ k e a, (k, e, a) ∈ elemsOf A → (vec GI k e).Nodup ∧ ∀ d ∈ vec GI k e, d < GI.total)
    (hJ : ∀ k e a, (k, e, a) ∈ elemsOf A → (vec GJ k e).Nodup ∧ ∀ d ∈ vec GJ k e, d < GJ.total)
    (hcu : ∀ k e m, (k, e, m) ∈ elemsOf A → ∀ a b, cd m (cu' k e) a b =
      if a ∈ fl k e then (if (a, b) ∈ prs k e then 1 else 0) else cd m (cu k e) a b)
    (hs : ∀ k e x, (k, e, x) ∈ elemsOf B → vval s' k e x = setAll (vs k e) (vval s k e x))
    (hsat : Saturated GI A fl)
    (hprs : ∀ k e m p, (k, e, m) ∈ elemsOf A → p ∈ fl k e → ∃ q, (p, q) ∈ prs k e)
    (hτ : ∀ k e m p q r, (k, e, m) ∈ elemsOf A → (p, q) ∈ prs k e → (vec GI k e)[p]? = some r →
      (vec GJ k e)[q]? = some (τ r))
    (hvs : ∀ k e m, (k, e, m) ∈ elemsOf A → (vs k e).map Prod.fst = fl k e)
    (hval : ∀ k e m p v r, (k, e, m) ∈ elemsOf A → (p, v) ∈ vs k e → (vec GI k e)[p]? = some r → v = val r) (x : Nat → R) :
    Solves GI.total GJ.total (total GI GJ A cu') (vtotal GI B s') x ↔
      (∀ r, OnBC GI A fl r → x (τ r) = val r) ∧
      ∀ q, q < GI.total → ¬ OnBC GI A fl q → ∑ c ∈ range GJ.total, total GI GJ A cu q c * x c = vtotal GI B s q := by
  -- elements of the vector are those of the matrix
  have hBA : ∀ k e y, (k, e, y) ∈ elemsOf B → ∃ m, (k, e, m) ∈ elemsOf A := by
    intro k e y hy
    have h1 : (k, e) ∈ (elemsOf B).map (fun x => (x.1, x.2.1)) := List.mem_map.mpr ⟨_, hy, rfl⟩
    rw [elemsOf_keys, hels, ← elemsOf_keys] at h1
    obtain ⟨⟨k', e', m⟩, h2, h3⟩ := List.mem_map.mp h1
    simp only [Prod.mk.injEq] at h3
    obtain ⟨rfl, rfl⟩ := h3
    exact ⟨m, h2⟩
  -- rows without condition
  have hfree : ∀ q, ¬ OnBC GI A fl q → (∀ c, total GI GJ A cu' q c = total GI GJ A cu q c) ∧
      vtotal GI B s' q = vtotal GI B s q := by
    intro q hq
    constructor
    · intro c
      unfold total
      congr 1
      apply List.map_congr_left
      rintro ⟨k, e, m⟩ hm
      apply contrib_congr
      intro i j hil _ h1 _
      rw [hcu k e m hm, if_neg]
      intro hif
      exact hq ⟨k, e, m, i, hm, hif, by
        rw [List.getElem?_eq_getElem hil]
        simp only [List.getD, hil, List.getElem?_eq_getElem, Option.getD_some] at h1
        rw [h1]⟩
    · unfold vtotal
      congr 1
      apply List.map_congr_left
      rintro ⟨k, e, y⟩ hy
      obtain ⟨m, hm⟩ := hBA k e y hy
      apply vcontrib_congr
      intro i hil h1
      simp only
      rw [hs k e y hy]
      apply setAll_not_mem
      rw [hvs k e m hm]
      intro hif
      exact hq ⟨k, e, m, i, hm, hif, by
        rw [List.getElem?_eq_getElem hil]
        simp only [List.getD, hil, List.getElem?_eq_getElem, Option.getD_some] at h1
        rw [h1]⟩
  -- rows with condition
  have hbc : ∀ r, OnBC GI A fl r → τ r < GJ.total ∧ r < GI.total ∧ ∃ N : R, N ≠ 0 ∧
      (∀ c, total GI GJ A cu' r c = N * if c = τ r then 1 else 0) ∧ vtotal GI B s' r = N * val r := by
    intro r hr
    obtain ⟨k0, e0, m0, p0, hm0, hp0, hr0⟩ := id hr
    have hmem0 : r ∈ vec GI k0 e0 := List.mem_of_getElem? hr0
    refine ⟨?_, (hI k0 e0 m0 hm0).2 _ hmem0, ?_⟩
    · obtain ⟨q, hq⟩ := hprs k0 e0 m0 p0 hm0 hp0
      exact (hJ k0 e0 m0 hm0).2 _ (List.mem_of_getElem? (hτ k0 e0 m0 p0 q r hm0 hq hr0))
    · refine ⟨(((elemsOf A).countP fun x => decide (r ∈ vec GI x.1 x.2.1) : Nat) : R), ?_, ?_, ?_⟩
      · rw [Nat.cast_ne_zero]
        have : 0 < (elemsOf A).countP fun x => decide (r ∈ vec GI x.1 x.2.1) := by
          rw [List.countP_pos_iff]
          exact ⟨_, hm0, by simpa using hmem0⟩
        omega
      · intro c
        apply sum_count
        rintro ⟨k, e, m⟩ hm
        simp only
        by_cases hin : r ∈ vec GI k e
        · rw [if_pos hin]
          obtain ⟨p, hp⟩ := List.mem_iff_getElem?.mp hin
          have hpf := hsat k e m p r hm hp hr
          exact contrib_ident (hI k e m hm).1 (hJ k e m hm).1 hp (fun b => by rw [hcu k e m hm, if_pos hpf])
            (hprs k e m p hm hpf) (fun q hq => hτ k e m p q r hm hq hp) c
        · rw [if_neg hin]
          exact contrib_not_mem _ _ _ _ _ (Or.inl hin)
      · have hcount : (elemsOf A).countP (fun x => decide (r ∈ vec GI x.1 x.2.1)) =
            (elemsOf B).countP (fun x => decide (r ∈ vec GI x.1 x.2.1)) := by
          have h1 : ∀ {α : Type} (A : List (List (Nat × α))),
              (elemsOf A).countP (fun x => decide (r ∈ vec GI x.1 x.2.1)) =
              ((elemsOf A).map (fun x => (x.1, x.2.1))).countP (fun y => decide (r ∈ vec GI y.1 y.2)) := by
            intro α A
            rw [List.countP_map]
            rfl
          rw [h1 A, h1 B, elemsOf_keys, elemsOf_keys, hels]
        rw [hcount]
        apply sum_count
        rintro ⟨k, e, y⟩ hy
        obtain ⟨m, hm⟩ := hBA k e y hy
        simp only
        by_cases hin : r ∈ vec GI k e
        · rw [if_pos hin]
          obtain ⟨p, hp⟩ := List.mem_iff_getElem?.mp hin
          have hpf := hsat k e m p r hm hp hr
          rw [vcontrib_single _ (hI k e m hm).1 _ hp, hs k e y hy]
          apply setAll_mem
          · rw [hvs k e m hm]
            exact hpf
          · intro w hw
            exact hval k e m p w r hm hw hp
        · rw [if_neg hin]
          exact vcontrib_not_mem _ _ _ hin
  have hrow : ∀ r, OnBC GI A fl r → ((∑ c ∈ range GJ.total, total GI GJ A cu' r c * x c = vtotal GI B s' r) ↔
      x (τ r) = val r) := by
    intro r hr
    obtain ⟨h1, _, N, h2, h3, h4⟩ := hbc r hr
    have : ∀ c ∈ range GJ.total, total GI GJ A cu' r c * x c = if c = τ r then N * x (τ r) else 0 := by
      intro c _
      rw [h3]
      split
      · next h => rw [h]; ring
      · ring
    rw [Finset.sum_congr rfl this, Finset.sum_ite_eq', if_pos (Finset.mem_range.mpr h1), h4]
    exact mul_right_inj' h2
  have hrow' : ∀ q, ¬ OnBC GI A fl q → ((∑ c ∈ range GJ.total, total GI GJ A cu' q c * x c = vtotal GI B s' q) ↔
      ∑ c ∈ range GJ.total, total GI GJ A cu q c * x c = vtotal GI B s q) := by
    intro q hq
    rw [(hfree q hq).2, Finset.sum_congr rfl fun c _ => by rw [(hfree q hq).1 c]]
  constructor
  · intro hx
    exact ⟨fun r hr => (hrow r hr).mp (hx r (hbc r hr).2.1), fun q hq hn => (hrow' q hn).mp (hx q hq)⟩
  · rintro ⟨hx1, hx2⟩ q hq
    by_cases h : OnBC GI A fl q
    · exact (hrow q h).mpr (hx1 q h)
    · exact (hrow' q h).mpr (hx2 q hq h)

/-- The local numbers of a boundary condition are positions of the gathering vectors (at `start` and beyond), dicts have
distinct keys, and there is one value for each dof. -/
structure BCOK {α : Type} (start : Nat) (G : ChainGM) (A : List (List (Nat × α))) (bc co : BC R) : Prop where
  dict : ∀ k, ((bc.dofs k).map Prod.fst).Nodup
  range : ∀ k e m p, (k, e, m) ∈ elemsOf A → p ∈ flagged start bc k e → p < (vec G k e).length
  vals : ∀ k p, p ∈ bc.dofs k → ∃ vs, (co.cochains k).lookup p.1 = some vs ∧ p.2.length = vs.length

theorem setEntriesBC_spec [Zero R] {start nR : Nat} {G : ChainGM} {α : Type} {A : List (List (Nat × α))} {bc co : BC R}
    (h : BCOK start G A bc co) (s : VSt R) : ∃ new, setEntriesBC start nR bc co s = some (s.add new) ∧
      ∀ k e, new k e = match (bc.dofs k).lookup e with
        | none => []
        | some _ => [VCus.slest (flagged start bc k e) (prescribed co k e)] := by
  unfold setEntriesBC
  rw [if_pos]
  · refine ⟨_, rfl, ?_⟩
    intro k e
    rw [filter_lookup _ (h.dict k)]
    cases hl : (bc.dofs k).lookup e with
    | none => rfl
    | some ds => simp [flagged, prescribed, hl]
  · rw [List.all_eq_true]
    intro k _
    rw [List.all_eq_true]
    intro p hp
    obtain ⟨vs, h1, h2⟩ := h.vals k p hp
    simp [h1, h2]

theorem lookup_mem' {β : Type} (d : List (Nat × β)) {e : Nat} {b : β} (h : d.lookup e = some b) : (e, b) ∈ d := by
  induction d with
  | nil => simp at h
  | cons p d ih =>
    obtain ⟨e', b'⟩ := p
    rw [List.lookup_cons] at h
    by_cases he : e = e'
    · subst he
      simp at h
      simp [h]
    · have : (e == e') = false := by simpa using he
      simp only [this] at h
      exact List.mem_cons_of_mem _ (ih h)

theorem set_vval [AddCommMonoid R] {start : Nat} {G : ChainGM} {α : Type} {A : List (List (Nat × α))} {bc co : BC R}
    (h : BCOK start G A bc co) (s : VSt R) (new : Nat → Nat → List (VCus R))
    (hnew : ∀ k e, new k e = match (bc.dofs k).lookup e with
        | none => []
        | some _ => [VCus.slest (flagged start bc k e) (prescribed co k e)]) (k e : Nat) (x : Sv R) :
    vval (s.add new) k e x = setAll ((flagged start bc k e).zip (prescribed co k e)) (vval s k e x) ∧
    ((flagged start bc k e).zip (prescribed co k e)).map Prod.fst = flagged start bc k e := by
  rw [vval_add, hnew]
  cases hl : (bc.dofs k).lookup e with
  | none => simp [flagged, hl, setAll]
  | some ds =>
    refine ⟨rfl, ?_⟩
    obtain ⟨vs, h1, h2⟩ := h.vals k (e, ds) (lookup_mem' _ hl)
    simp only at h1 h2
    rw [List.map_fst_zip]
    simp [flagged, prescribed, hl, h1, h2]

theorem set_ok [Zero R] {start : Nat} {G : ChainGM} {A : EWV R} {bc co : BC R}
    (h : BCOK start G A bc co) {s : VSt R} (hs : VStOK G A s) (new : Nat → Nat → List (VCus R))
    (hnew : ∀ k e, new k e = match (bc.dofs k).lookup e with
        | none => []
        | some _ => [VCus.slest (flagged start bc k e) (prescribed co k e)]) : VStOK G A (s.add new) := by
  apply vstOK_add hs
  intro k e x hm c hc i hi
  rw [hnew] at hc
  cases hl : (bc.dofs k).lookup e with
  | none => rw [hl] at hc; simp at hc
  | some ds =>
    rw [hl] at hc
    simp only [List.mem_singleton] at hc
    subst hc
    simp only [VCus.idx] at hi
    obtain ⟨⟨a, b⟩, hab, rfl⟩ := List.mem_map.mp hi
    exact h.range k e x a hm (List.of_mem_zip hab).1

theorem elems_BA {α β : Type} {A : List (List (Nat × α))} {B : List (List (Nat × β))} (hels : elsOf B = elsOf A)
    {k e : Nat} {y : β} (hy : (k, e, y) ∈ elemsOf B) : ∃ m, (k, e, m) ∈ elemsOf A := by
  have h1 : (k, e) ∈ (elemsOf B).map (fun x => (x.1, x.2.1)) := List.mem_map.mpr ⟨_, hy, rfl⟩
  rw [elemsOf_keys, hels, ← elemsOf_keys] at h1
  obtain ⟨⟨k', e', m⟩, h2, h3⟩ := List.mem_map.mp h1
  simp only [Prod.mk.injEq] at h3
  obtain ⟨rfl, rfl⟩ := h3
  exact ⟨m, h2⟩

/-- **C18, diagonal block (partial).** If every element having a dof of the condition lists it, and the values prescribed
for a dof by different elements agree, then after `apply_strong_BC(i, i, ...)` a vector solves the assembled system iff
it has the prescribed values and satisfies all equations of the original system for dofs without condition. The
gathering vectors of rows and columns are the same here. Missing: see `c18_counterexample`. -/
theorem c18_diagonal_partial [Field R] [CharZero R] (T i start startC : Nat) {G : ChainGM} {A : EWM R} {B : EWV R}
    {cu : Custs R} {s : VSt R} {m0 : Int} {bc : BC R} (hA : IsEWM G G A) (hB : IsEWV G B) (hels : elsOf B = elsOf A)
    (hG : Usable G (elsOf A) m0) (hcu : CusOK G G A cu) (hs : VStOK G B s) (hbc : BCOK start G A bc bc)
    (hsat : Saturated G A (flagged start bc)) (val : Nat → R)
    (hval : ∀ k e m p v r, (k, e, m) ∈ elemsOf A → (p, v) ∈ (flagged start bc k e).zip (prescribed bc k e) →
      (vec G k e)[p]? = some r → v = val r) :
    ∃ cu' s' F b F' b', applyStrongBC i i start startC A.length bc none cu s = some (cu', s') ∧
      assemble T G G A cu = some F ∧ assembleVec G B s = some b ∧
      assemble T G G A cu' = some F' ∧ assembleVec G B s' = some b' ∧
      ∀ x, Solves G.total G.total F' b' x ↔ (∀ r, OnBC G A (flagged start bc) r → x r = val r) ∧
        ∀ q, q < G.total → ¬ OnBC G A (flagged start bc) q → ∑ c ∈ range G.total, F q c * x c = b q := by
  have hok := matOK_of hA hG hG
  have hGB : Usable G (elsOf B) m0 := by rw [hels]; exact hG
  have hokB := vecOK_of hB hGB
  obtain ⟨hv, _⟩ := usable_spec hG
  have hbcB : BCOK start G B bc bc :=
    { dict := hbc.dict
      range := fun k e m p hm hp => by
        obtain ⟨m', hm'⟩ := elems_BA hels hm
        exact hbc.range k e m' p hm' hp
      vals := hbc.vals }
  obtain ⟨new, hset, hnew⟩ := setEntriesBC_spec (nR := A.length) hbc s
  have hidl : ∀ k e, identifyRowsBC start bc cu k e = cu k e ++ match (bc.dofs k).lookup e with
      | none => []
      | some _ => [Cus.ilrs (flagged start bc k e)] := by
    intro k e
    unfold identifyRowsBC
    rw [filter_lookup _ (hbc.dict k)]
    cases hl : (bc.dofs k).lookup e with
    | none => rfl
    | some ds => simp [flagged, hl]
  have hcu' : CusOK G G A (identifyRowsBC start bc cu) := by
    intro k e m hm c hc
    rw [hidl] at hc
    rcases List.mem_append.mp hc with hc | hc
    · exact hcu k e m hm c hc
    · cases hl : (bc.dofs k).lookup e with
      | none => rw [hl] at hc; simp at hc
      | some ds =>
        rw [hl] at hc
        simp only [List.mem_singleton] at hc
        subst hc
        simp only [Cus.ok, List.all_eq_true, Bool.and_eq_true, decide_eq_true_eq]
        intro p hp
        exact ⟨hbc.range k e m p hm hp, hbc.range k e m p hm hp⟩
  refine ⟨identifyRowsBC start bc cu, s.add new, _, _, _, _, ?_, assemble_spec T hok hcu, assembleVec_spec hokB hs,
    assemble_spec T hok hcu', assembleVec_spec hokB (set_ok hbcB hs new hnew), ?_⟩
  · unfold applyStrongBC
    simp [hset]
  · intro x
    refine bc_core (flagged start bc) (fun k e => (flagged start bc k e).zip (flagged start bc k e))
      (fun k e => (flagged start bc k e).zip (prescribed bc k e)) id val hels
      (fun k e a h => (hv k e a h).2) (fun k e a h => (hv k e a h).2) ?_ ?_ hsat ?_ ?_ ?_ hval x
    · intro k e m hm a b
      rw [hidl]
      have hz : (a, b) ∈ (flagged start bc k e).zip (flagged start bc k e) ↔ a ∈ flagged start bc k e ∧ a = b := by
        generalize flagged start bc k e = l
        rw [zip_self, List.mem_map]
        constructor
        · rintro ⟨c, h1, h2⟩
          simp only [Prod.mk.injEq] at h2
          obtain ⟨rfl, rfl⟩ := h2
          exact ⟨h1, rfl⟩
        · rintro ⟨h1, rfl⟩
          exact ⟨a, h1, rfl⟩
      cases hl : (bc.dofs k).lookup e with
      | none => simp [flagged, hl]
      | some ds =>
        unfold cd
        rw [List.foldl_append]
        simp only [List.foldl_cons, List.foldl_nil, Cus.apply]
        by_cases ha : a ∈ flagged start bc k e
        · rw [if_pos ha, if_pos ha]
          simp [hz, ha]
        · rw [if_neg ha, if_neg ha]
    · intro k e y _
      exact (set_vval hbc s new hnew k e y).1
    · intro k e m p _ hp
      refine ⟨p, ?_⟩
      rw [zip_self]
      exact List.mem_map.mpr ⟨p, hp, rfl⟩
    · intro k e m p q r _ hpq hr
      rw [zip_self] at hpq
      obtain ⟨c, _, h2⟩ := List.mem_map.mp hpq
      simp only [Prod.mk.injEq] at h2
      obtain ⟨rfl, rfl⟩ := h2
      exact hr
    · intro k e m _
      exact (set_vval hbc s new hnew k e (⟨0, []⟩ : Sv R)).2

/-- **C18, off-diagonal block (partial).** `apply_strong_BC(i, j, dof, cochain)` with `i ≠ j`: the equations of the dofs of
`dof` are replaced by `x[τ r] = val r`, where `τ` maps a row dof to the column dof at the same place of the lists of
local dofs (of the same length in every element). -/
theorem c18_off_diagonal_partial [Field R] [CharZero R] (T i j start startC : Nat) (hij : i ≠ j) {GI GJ : ChainGM}
    {A : EWM R} {B : EWV R} {cu : Custs R} {s : VSt R} {m0 m1 : Int} {bc co : BC R} (hA : IsEWM GI GJ A) (hB : IsEWV GI B)
    (hels : elsOf B = elsOf A) (hI : Usable GI (elsOf A) m0) (hJ : Usable GJ (elsOf A) m1) (hcu : CusOK GI GJ A cu)
    (hs : VStOK GI B s) (hbc : BCOK start GI A bc co)
    (hcols : ∀ k, (bc.dofs k).length = (co.dofs k).length ∧ ∀ p ∈ bc.dofs k, ∃ ds, (co.dofs k).lookup p.1 = some ds ∧
      p.2.length = ds.length)
    (hcolr : ∀ k e m p, (k, e, m) ∈ elemsOf A → p ∈ flagged startC co k e → p < (vec GJ k e).length)
    (hsat : Saturated GI A (flagged start bc)) (val : Nat → R) (τ : Nat → Nat)
    (hτ : ∀ k e m p q r, (k, e, m) ∈ elemsOf A → (p, q) ∈ (flagged start bc k e).zip (flagged startC co k e) →
      (vec GI k e)[p]? = some r → (vec GJ k e)[q]? = some (τ r))
    (hval : ∀ k e m p v r, (k, e, m) ∈ elemsOf A → (p, v) ∈ (flagged start bc k e).zip (prescribed co k e) →
      (vec GI k e)[p]? = some r → v = val r) :
    ∃ cu' s' F b F' b', applyStrongBC i j start startC A.length bc (some co) cu s = some (cu', s') ∧
      assemble T GI GJ A cu = some F ∧ assembleVec GI B s = some b ∧
      assemble T GI GJ A cu' = some F' ∧ assembleVec GI B s' = some b' ∧
      ∀ x, Solves GI.total GJ.total F' b' x ↔ (∀ r, OnBC GI A (flagged start bc) r → x (τ r) = val r) ∧
        ∀ q, q < GI.total → ¬ OnBC GI A (flagged start bc) q → ∑ c ∈ range GJ.total, F q c * x c = b q := by
  have hok := matOK_of hA hI hJ
  have hGB : Usable GI (elsOf B) m0 := by rw [hels]; exact hI
  have hokB := vecOK_of hB hGB
  obtain ⟨hvI, _⟩ := usable_spec hI
  obtain ⟨hvJ, _⟩ := usable_spec hJ
  have hbcB : BCOK start GI B bc co :=
    { dict := hbc.dict
      range := fun k e m p hm hp => by
        obtain ⟨m', hm'⟩ := elems_BA hels hm
        exact hbc.range k e m' p hm' hp
      vals := hbc.vals }
  obtain ⟨new, hset, hnew⟩ := setEntriesBC_spec (nR := A.length) hbc s
  have hlen : ∀ k e, ((bc.dofs k).lookup e).isSome → (flagged start bc k e).length = (flagged startC co k e).length := by
    intro k e he
    obtain ⟨ds, hds⟩ := Option.isSome_iff_exists.mp he
    obtain ⟨ds', h1, h2⟩ := (hcols k).2 (e, ds) (lookup_mem' _ hds)
    simp only at h1 h2
    simp [flagged, hds, h1, h2]
  have hoff : ∃ cu', offDiagRowsBC start startC A.length bc co cu = some cu' ∧
      ∀ k e, cu' k e = cu k e ++ match (bc.dofs k).lookup e with
        | none => []
        | some _ => [Cus.ilrsac (flagged start bc k e) (flagged startC co k e)] := by
    unfold offDiagRowsBC
    rw [if_pos]
    · refine ⟨_, rfl, ?_⟩
      intro k e
      rw [filter_lookup _ (hbc.dict k)]
      cases hl : (bc.dofs k).lookup e with
      | none => rfl
      | some ds => simp [flagged, hl]
    · rw [List.all_eq_true]
      intro k _
      rw [Bool.and_eq_true]
      refine ⟨by simpa using (hcols k).1, ?_⟩
      rw [List.all_eq_true]
      intro p hp
      obtain ⟨ds, h1, _⟩ := (hcols k).2 p hp
      simp [h1]
  obtain ⟨cu', hoff, hidl⟩ := hoff
  have hcu' : CusOK GI GJ A cu' := by
    intro k e m hm c hc
    rw [hidl] at hc
    rcases List.mem_append.mp hc with hc | hc
    · exact hcu k e m hm c hc
    · cases hl : (bc.dofs k).lookup e with
      | none => rw [hl] at hc; simp at hc
      | some ds =>
        rw [hl] at hc
        simp only [List.mem_singleton] at hc
        subst hc
        simp only [Cus.ok, List.all_eq_true, Bool.and_eq_true, decide_eq_true_eq]
        exact ⟨⟨fun p hp => hbc.range k e m p hm hp, fun p hp => hcolr k e m p hm hp⟩, hlen k e (by rw [hl]; rfl)⟩
  refine ⟨cu', s.add new, _, _, _, _, ?_, assemble_spec T hok hcu, assembleVec_spec hokB hs,
    assemble_spec T hok hcu', assembleVec_spec hokB (set_ok hbcB hs new hnew), ?_⟩
  · unfold applyStrongBC
    simp [hset, hij, hoff]
  · intro x
    have hzip : ∀ k e, ((flagged start bc k e).zip (flagged startC co k e)).map Prod.fst = flagged start bc k e := by
      intro k e
      by_cases h : ((bc.dofs k).lookup e).isSome
      · rw [List.map_fst_zip]
        exact le_of_eq (hlen k e h)
      · rw [Option.not_isSome_iff_eq_none] at h
        simp [flagged, h]
    refine bc_core (flagged start bc) (fun k e => (flagged start bc k e).zip (flagged startC co k e))
      (fun k e => (flagged start bc k e).zip (prescribed co k e)) τ val hels
      (fun k e a h => (hvI k e a h).2) (fun k e a h => (hvJ k e a h).2) ?_ ?_ hsat ?_ hτ ?_ hval x
    · intro k e m hm a b
      rw [hidl]
      cases hl : (bc.dofs k).lookup e with
      | none => simp [flagged, hl]
      | some ds =>
        unfold cd
        rw [List.foldl_append]
        simp only [List.foldl_cons, List.foldl_nil, Cus.apply]
    · intro k e y _
      exact (set_vval hbc s new hnew k e y).1
    · intro k e m p _ hp
      rw [← hzip k e] at hp
      obtain ⟨⟨a, b⟩, h1, rfl⟩ := List.mem_map.mp hp
      exact ⟨b, h1⟩
    · intro k e m _
      exact (set_vval hbc s new hnew k e (⟨0, []⟩ : Sv R)).2

/-! ### the local dofs and values of the interpretation -/

theorem keys_ext {β : Type} (d : List (Nat × β)) (e : Nat) (f : β → β) :
    (d.map fun p => if p.1 = e then (p.1, f p.2) else p).map Prod.fst = d.map Prod.fst := by
  rw [List.map_map]
  apply List.map_congr_left
  intro p _
  simp only [Function.comp_apply]
  split <;> rfl

theorem lookup_ext {β : Type} (d : List (Nat × β)) (e e' : Nat) (f : β → β) :
    (d.map fun p => if p.1 = e then (p.1, f p.2) else p).lookup e' =
      if e' = e then (d.lookup e').map f else d.lookup e' := by
  induction d with
  | nil => simp
  | cons p d ih =>
    obtain ⟨a, b⟩ := p
    by_cases h1 : e' = a
    · subst h1
      by_cases h2 : e' = e
      · simp [h2]
      · simp [h2]
    · have h0 : (e' == a) = false := by simpa using h1
      by_cases h2 : a = e
      · subst h2
        rw [if_neg h1] at ih ⊢
        simp [List.lookup_cons, h0, ih]
      · simp [h2, List.lookup_cons, h0, ih]

/-- The dict of local dofs has distinct keys and its entry for an element is the concatenation of the dofs of all its
sides on the boundary, in order. -/
theorem parseDofs_spec {σ : Type} (sideDofs : σ → List Nat) (parts : List (Nat × σ)) :
    ((parseDofs sideDofs parts).map Prod.fst).Nodup ∧
    ∀ e, (parseDofs sideDofs parts).lookup e =
      if e ∈ parts.map Prod.fst then some (((parts.filter fun p => p.1 == e).map fun p => sideDofs p.2).flatten)
      else none := by
  induction parts using List.reverseRecOn with
  | nil => simp [parseDofs]
  | append_singleton l p ih =>
    obtain ⟨h1, h2⟩ := ih
    obtain ⟨e0, sd⟩ := p
    unfold parseDofs at h1 h2 ⊢
    rw [List.foldl_append]
    generalize l.foldl (fun d es => match d.lookup es.1 with
      | none => d ++ [(es.1, sideDofs es.2)]
      | some _ => d.map fun p => if p.1 = es.1 then (p.1, p.2 ++ sideDofs es.2) else p) [] = d at h1 h2
    simp only [List.foldl_cons, List.foldl_nil]
    cases hl : d.lookup e0 with
    | none =>
      have hnk : e0 ∉ d.map Prod.fst := by
        intro hm
        obtain ⟨⟨a, b⟩, h3, h4⟩ := List.mem_map.mp hm
        simp only at h4
        subst h4
        have : (d.lookup a).isSome := by
          clear h1 h2 hl hm
          induction d with
          | nil => simp at h3
          | cons q d ih =>
            rw [List.lookup_cons]
            by_cases hq : a = q.1
            · simp [hq]
            · have : (a == q.1) = false := by simpa using hq
              simp only [this]
              rcases List.mem_cons.mp h3 with h | h
              · exact absurd (by rw [← h]) hq
              · exact ih h
        rw [hl] at this
        simp at this
      have hnl : e0 ∉ l.map Prod.fst := by
        intro hm
        have := h2 e0
        rw [hl, if_pos hm] at this
        simp at this
      refine ⟨?_, ?_⟩
      · simp only [List.map_append, List.map_cons, List.map_nil]
        rw [List.nodup_append]
        refine ⟨h1, by simp, ?_⟩
        intro a ha b hb
        simp only [List.mem_singleton] at hb
        rintro rfl
        rw [hb] at ha
        exact hnk ha
      · intro e
        rw [List.lookup_append, h2]
        by_cases he : e = e0
        · subst he
          rw [if_neg hnl, if_pos (by simp)]
          have : l.filter (fun p => p.1 == e) = [] := by
            rw [List.filter_eq_nil_iff]
            intro q hq hqe
            exact hnl (List.mem_map.mpr ⟨q, hq, by simpa using hqe⟩)
          simp [this]
        · have hee : (e == e0) = false := by simpa using he
          have hee' : (e0 == e) = false := by simpa using fun h => he h.symm
          have : (e ∈ (l ++ [(e0, sd)]).map Prod.fst) ↔ e ∈ l.map Prod.fst := by simp [he]
          simp only [this, List.filter_append, List.filter_cons, hee', List.filter_nil, List.lookup_cons, hee,
            List.lookup_nil]
          simp
    | some ds =>
      have hml : e0 ∈ l.map Prod.fst := by
        by_contra hm
        have := h2 e0
        rw [hl, if_neg hm] at this
        simp at this
      simp only
      refine ⟨by rw [keys_ext d e0 (fun b => b ++ sideDofs sd)]; exact h1, ?_⟩
      intro e
      rw [lookup_ext d e0 e (fun b => b ++ sideDofs sd), h2]
      by_cases he : e = e0
      · subst he
        rw [if_pos rfl, if_pos hml, if_pos (by simp)]
        simp
      · have hee' : (e0 == e) = false := by simpa using fun h => he h.symm
        have : (e ∈ (l ++ [(e0, sd)]).map Prod.fst) ↔ e ∈ l.map Prod.fst := by simp [he]
        rw [if_neg he]
        simp only [this, List.filter_append, List.filter_cons, hee', List.filter_nil]
        simp

/-- With the 'locally full local cochain' the values are those of the cochain at the local dofs. -/
theorem parseCochains_spec (full : Nat → List R) (dofs : List (Nat × List Nat)) {cs : List (Nat × List R)}
    (h : parseCochains full dofs = some cs) (e : Nat) :
    cs.lookup e = (dofs.lookup e).map fun ds => ds.filterMap fun d => (full e)[d]? := by
  unfold parseCochains at h
  induction dofs generalizing cs with
  | nil =>
    simp at h
    subst h
    rfl
  | cons p dofs ih =>
    obtain ⟨a, ds⟩ := p
    rw [List.mapM_cons] at h
    simp only [Option.bind_eq_bind, Option.bind_eq_some_iff, Option.map_eq_some_iff, Option.pure_def,
      Option.some.injEq] at h
    obtain ⟨⟨a', vs⟩, ⟨vs', h1, h2⟩, cs', h3, rfl⟩ := h
    simp only [Prod.mk.injEq] at h2
    obtain ⟨rfl, rfl⟩ := h2
    rw [List.lookup_cons, List.lookup_cons]
    by_cases he : e = a
    · subst he
      simp only [BEq.rfl, Option.map_some, Option.some.injEq]
      clear ih h3
      induction ds generalizing vs' with
      | nil => simp at h1; simp [h1]
      | cons d ds ih =>
        rw [List.mapM_cons] at h1
        simp only [Option.bind_eq_bind, Option.bind_eq_some_iff, Option.pure_def, Option.some.injEq] at h1
        obtain ⟨v, hv, vs, hvs, rfl⟩ := h1
        rw [List.filterMap_cons, hv, ← ih _ hvs]
    · have hee : (e == a) = false := by simpa using he
      simp only [hee]
      exact ih h3

/-! ### a counterexample: a re-entrant corner -/

/-- 0-forms of degree 1 on an L-shaped domain of three elements: element 0 in the corner, element 1 below it (along the
first axis), element 2 to its right. -/
def lGM : GM := [[(0, [0, 1, 2, 3]), (1, [1, 4, 3, 5]), (2, [2, 3, 6, 7])]]

def lChain : Chain := { meshType := "_2dCSCG", gms := [lGM], tba := [0], total := 8, ns := [8] }

/-- the boundary condition on the re-entrant sides: the right side of element 1 and the lower side of element 2. -/
def lDofs : List (Nat × List Nat) := parseDofs (Two.dofs0 1 1) [(1, .R), (2, .D)]

def lBC : BC Int :=
  { dofs := fun _ => lDofs, cochains := fun _ => (parseCochains (fun _ => [3, 3, 3, 3]) lDofs).getD [] }

def lEye : Sp Int := ⟨true, 4, 4, [[(0, 1)], [(1, 1)], [(2, 1)], [(3, 1)]]⟩

/-- **C18 is false in general.** The value 3 is prescribed on the re-entrant sides; the corner is dof 3. Element 0 has the
corner but no side on the boundary, so its row is not customized. The assembled system has a solution whose value at the
corner is 2. -/
theorem c18_counterexample :
    mkChain 1 [.gm "_2dCSCG" lGM] = some lChain ∧ lDofs = [(1, [2, 3]), (2, [1, 3])] ∧
    lBC.cochains 0 = [(1, [3, 3]), (2, [3, 3])] ∧
    ∃ cu s F b x, applyStrongBC 0 0 0 0 1 lBC none (fun _ _ => []) ⟨fun _ _ => [], fun _ _ => none⟩ = some (cu, s) ∧
      assemble 10000000 (silly lChain) (silly lChain) [[(0, lEye), (1, lEye), (2, lEye)]] cu = some F ∧
      assembleVec (silly lChain) [[(0, ⟨4, []⟩), (1, ⟨4, []⟩), (2, ⟨4, []⟩)]] s = some b ∧
      Solves 8 8 F b x ∧ x 5 = 3 ∧ x 7 = 3 ∧ x 3 = 2 := by
  refine ⟨rfl, by decide, by decide, _, _, _, _, fun c => [0, 0, 0, 2, 0, 3, 0, 3].getD c 0, rfl, rfl, rfl, ?_,
    by decide, by decide, by decide⟩
  unfold Solves
  decide

/-! ### a concrete case -/

/-- the condition on the upper sides of the two elements of `tGM`: value 7 at the dofs 0, 2 and 4. -/
def tBC : BC Rat :=
  { dofs := fun k => if k = 0 then parseDofs (Two.dofs0 1 1) [(0, .U), (1, .U)] else []
    cochains := fun _ => [(0, [7, 7]), (1, [7, 7])] }

theorem tBC_dofs : tBC.dofs 0 = [(0, [0, 2]), (1, [0, 2])] := by decide

example : ∃ cu' s' F b F' b', applyStrongBC 0 0 0 0 1 tBC none (fun _ _ => []) ⟨fun _ _ => [], fun _ _ => none⟩ =
      some (cu', s') ∧
    assemble 10000000 (silly tChain) (silly tChain) [[(0, tMat), (1, tMat)]] (fun _ _ => []) = some F ∧
    assembleVec (silly tChain) [[(0, ⟨4, [(0, 1), (3, 5)]⟩), (1, ⟨4, [(1, 1)]⟩)]] ⟨fun _ _ => [], fun _ _ => none⟩ = some b ∧
    assemble 10000000 (silly tChain) (silly tChain) [[(0, tMat), (1, tMat)]] cu' = some F' ∧
    assembleVec (silly tChain) [[(0, ⟨4, [(0, 1), (3, 5)]⟩), (1, ⟨4, [(1, 1)]⟩)]] s' = some b' ∧
    ∀ x, Solves 6 6 F' b' x ↔
      (∀ r, OnBC (silly tChain) ([[(0, tMat), (1, tMat)]] : EWM Rat) (flagged 0 tBC) r → x r = 7) ∧
      ∀ q, q < 6 → ¬ OnBC (silly tChain) ([[(0, tMat), (1, tMat)]] : EWM Rat) (flagged 0 tBC) q →
        ∑ c ∈ range 6, F q c * x c = b q := by
  have hf0 : flagged 0 tBC 0 0 = [0, 2] := by decide
  have hf1 : flagged 0 tBC 0 1 = [0, 2] := by decide
  have hp0 : prescribed tBC 0 0 = [7, 7] := by decide
  have hp1 : prescribed tBC 0 1 = [7, 7] := by decide
  refine c18_diagonal_partial 10000000 0 0 0 tEWM tEWV rfl (tUsable 0 (by omega)) ?_ ?_ ⟨?_, ?_, ?_⟩ ?_ (fun _ => 7) ?_
  · intro k e m _ c hc
    simp at hc
  · intro k e x _ p hp
    simp [VSt.flush] at hp
  · intro k
    rcases k with _ | k
    · decide
    · simp [tBC]
  · intro k e m p hm hp
    simp [elemsOf] at hm
    rcases hm with ⟨rfl, rfl, rfl⟩ | ⟨rfl, rfl, rfl⟩
    · rw [hf0] at hp
      revert p
      decide
    · rw [hf1] at hp
      revert p
      decide
  · intro k p hp
    rcases k with _ | k
    · rw [tBC_dofs] at hp
      simp at hp
      rcases hp with rfl | rfl
      · exact ⟨[7, 7], rfl, rfl⟩
      · exact ⟨[7, 7], rfl, rfl⟩
    · simp [tBC] at hp
  · intro k e m p r hm hr hbc
    have hr' : r = 0 ∨ r = 2 ∨ r = 4 := by
      obtain ⟨k', e', m', p', hm', hp', hr'⟩ := hbc
      simp [elemsOf] at hm'
      rcases hm' with ⟨rfl, rfl, rfl⟩ | ⟨rfl, rfl, rfl⟩
      · rw [hf0] at hp'
        simp at hp'
        rcases hp' with rfl | rfl
        · left; exact (Option.some.inj hr').symm
        · right; left; exact (Option.some.inj hr').symm
      · rw [hf1] at hp'
        simp at hp'
        rcases hp' with rfl | rfl
        · right; left; exact (Option.some.inj hr').symm
        · right; right; exact (Option.some.inj hr').symm
    simp [elemsOf] at hm
    rcases hm with ⟨rfl, rfl, rfl⟩ | ⟨rfl, rfl, rfl⟩
    · rw [hf0]
      have hv : vec (silly tChain) 0 0 = [0, 1, 2, 3] := by decide
      rw [hv] at hr
      rcases p with _ | _ | _ | _ | p <;> simp at hr ⊢ <;> omega
    · rw [hf1]
      have hv : vec (silly tChain) 0 1 = [2, 3, 4, 5] := by decide
      rw [hv] at hr
      rcases p with _ | _ | _ | _ | p <;> simp at hr ⊢ <;> omega
  · intro k e m p v r hm hpv _
    simp [elemsOf] at hm
    rcases hm with ⟨rfl, rfl, rfl⟩ | ⟨rfl, rfl, rfl⟩
    · rw [hf0, hp0] at hpv
      simp at hpv
      rcases hpv with ⟨_, rfl⟩ | ⟨_, rfl⟩ <;> rfl
    · rw [hf1, hp1] at hpv
      simp at hpv
      rcases hpv with ⟨_, rfl⟩ | ⟨_, rfl⟩ <;> rfl

end Mifem.Props
