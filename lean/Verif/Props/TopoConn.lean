import Verif.Model.TopoConn
import Verif.Props.Trace
import Verif.Props.TraceNaive

/-!
# C93: selective matrices and topological connections
-/

namespace Mifem.TopoConn
open Three TraceNum Props Finset

/-! ## matrices written by fancy indexing -/

/-- the last value written in a row. -/
def lastVal (ws : List Write) (r : Nat) : Int := ws.foldl (fun a w => if w.r = r then w.v else a) 0

theorem lastVal_append (ws : List Write) (w : Write) (r : Nat) :
    lastVal (ws ++ [w]) r = if w.r = r then w.v else lastVal ws r := by simp [lastVal, List.foldl_append]

theorem matOf_one {ws : List Write} {r c0 : Nat} (h : ∀ w ∈ ws, w.r = r → w.c = c0) (c : Nat) :
    matOf ws r c = if c = c0 then lastVal ws r else 0 := by
  induction ws using List.reverseRecOn with
  | nil => simp [matOf, lastVal]
  | append_singleton ws w ih =>
    rw [matOf_append_singleton, lastVal_append, ih fun v hv => h v (by simp [hv])]
    have hw := h w (by simp)
    by_cases hr : w.r = r
    · have := hw hr
      subst this
      by_cases hc : c = w.c <;> simp [hr, hc]
    · have hr' : ¬ r = w.r := fun e => hr e.symm
      simp [hr, hr']

theorem applyM_one {R : Type*} [Ring R] {ws : List Write} {r c0 n : Nat} (h : ∀ w ∈ ws, w.r = r → w.c = c0) (hc : c0 < n) (x : Nat → R) :
    applyM n (matOf ws) x r = (lastVal ws r : R) * x c0 := by
  unfold applyM
  rw [Finset.sum_eq_single c0]
  · rw [matOf_one h, if_pos rfl]
  · intro c _ hne
    rw [matOf_one h, if_neg hne]
    simp
  · intro hn
    exact absurd (Finset.mem_range.2 hc) hn

theorem lastVal_mem {ws : List Write} {r : Nat} (h : ∃ w ∈ ws, w.r = r) : ∃ w ∈ ws, w.r = r ∧ lastVal ws r = w.v := by
  induction ws using List.reverseRecOn with
  | nil => simp at h
  | append_singleton ws w ih =>
    rw [lastVal_append]
    by_cases hr : w.r = r
    · exact ⟨w, by simp, hr, by simp [hr]⟩
    · obtain ⟨v, hv, hvr⟩ := h
      rcases List.mem_append.1 hv with hv | hv
      · obtain ⟨u, hu, hur, he⟩ := ih ⟨v, hv, hvr⟩
        exact ⟨u, by simp [hu], hur, by simp [hr, he]⟩
      · rw [List.mem_singleton] at hv
        subst hv
        exact absurd hvr hr

theorem lastVal_congr {ws ws' : List Write} (h : ws.map (fun w => (w.r, w.v)) = ws'.map (fun w => (w.r, w.v))) (r : Nat) :
    lastVal ws r = lastVal ws' r := by
  have e : ∀ l : List Write, lastVal l r = (l.map fun w => (w.r, w.v)).foldl (fun a q => if q.1 = r then q.2 else a) 0 := by
    intro l
    rw [List.foldl_map]
    rfl
  rw [e, e, h]

/-! ## the six statements -/

/-- the writes of the six statements. -/
def writes (L C : Side → List Nat) : List Write := sideSigns.flatMap fun sv => ((L sv.1).zip (C sv.1)).map fun rc => ⟨rc.1, rc.2, sv.2⟩

theorem fill_eq {nr nc : Nat} {L C : Side → List Nat} (hl : ∀ s, (L s).length = (C s).length) (hr : ∀ s, ∀ r ∈ L s, r < nr)
    (hc : ∀ s, ∀ c ∈ C s, c < nc) : fill nr nc (fun s => some (L s)) (fun s => some (C s)) = some (writes L C) := by
  unfold fill writes
  rw [Props.mapM_eq_some _ (fun sv : Side × Int => ((L sv.1).zip (C sv.1)).map fun rc => (⟨rc.1, rc.2, sv.2⟩ : Write))]
  · rw [List.flatMap_def]
    rfl
  · intro sv _
    show assign nr nc (L sv.1) (C sv.1) sv.2 = _
    rw [assign, if_pos ⟨hl _, hr _, hc _⟩]

theorem mem_writes {L C : Side → List Nat} {w : Write} (h : w ∈ writes L C) :
    (w.v = 1 ∨ w.v = -1) ∧ ∃ s, ∃ q : Nat, (L s)[q]? = some w.r ∧ (C s)[q]? = some w.c := by
  obtain ⟨sv, hsv, hw⟩ := List.mem_flatMap.1 h
  obtain ⟨rc, hrc, rfl⟩ := List.mem_map.1 hw
  refine ⟨?_, sv.1, ?_⟩
  · simp only [sideSigns, List.mem_cons, List.not_mem_nil, or_false] at hsv
    rcases hsv with rfl | rfl | rfl | rfl | rfl | rfl <;> simp
  · obtain ⟨q, hq, he⟩ := List.mem_iff_getElem.1 hrc
    refine ⟨q, ?_⟩
    rw [List.getElem_zip] at he
    rw [List.length_zip] at hq
    rw [List.getElem?_eq_getElem (by omega), List.getElem?_eq_getElem (by omega), ← he]
    exact ⟨rfl, rfl⟩

theorem writes_mem {L C : Side → List Nat} {s : Side} {q r c : Nat} (h1 : (L s)[q]? = some r) (h2 : (C s)[q]? = some c) :
    ∃ w ∈ writes L C, w.r = r ∧ w.c = c := by
  have hm : (r, c) ∈ (L s).zip (C s) := by
    obtain ⟨a, e1⟩ := List.getElem?_eq_some_iff.1 h1
    obtain ⟨b, e2⟩ := List.getElem?_eq_some_iff.1 h2
    rw [List.mem_iff_getElem]
    exact ⟨q, by rw [List.length_zip]; omega, by rw [List.getElem_zip, e1, e2]⟩
  obtain ⟨v, hv⟩ : ∃ v, (s, v) ∈ sideSigns := by cases s <;> simp [sideSigns]
  exact ⟨⟨r, c, v⟩, List.mem_flatMap.2 ⟨_, hv, List.mem_map.2 ⟨_, hm, rfl⟩⟩, rfl, rfl⟩

theorem writes_vals {L C C' : Side → List Nat} (h : ∀ s, (L s).length = (C s).length) (h' : ∀ s, (L s).length = (C' s).length) :
    (writes L C).map (fun w => (w.r, w.v)) = (writes L C').map (fun w => (w.r, w.v)) := by
  have e : ∀ (D : Side → List Nat), (∀ s, (L s).length = (D s).length) →
      (writes L D).map (fun w => (w.r, w.v)) = sideSigns.flatMap fun sv => (L sv.1).map fun r => (r, sv.2) := by
    intro D hD
    unfold writes
    rw [List.map_flatMap]
    congr 1
    funext sv
    rw [List.map_map]
    have : (L sv.1).map (fun r => (r, sv.2)) = (((L sv.1).zip (D sv.1)).map Prod.fst).map (fun r => (r, sv.2)) := by
      rw [List.map_fst_zip (by rw [hD])]
    rw [this, List.map_map]
    rfl
  rw [e C h, e C' h']

theorem lookup_six (L : Side → List Nat) (s : Side) : (six.map fun s => (s, L s)).lookup s = some (L s) := by
  cases s <;> rfl

theorem eq_six {lg : List (Side × List Nat)} (h : lg.map Prod.fst = six) : ∃ L : Side → List Nat, lg = six.map fun s => (s, L s) := by
  refine ⟨fun s => (lg.lookup s).getD [], ?_⟩
  simp only [six] at h ⊢
  have hl : lg.length = 6 := by simpa using congrArg List.length h
  match lg, hl, h with
  | [a, b, c, d, e, f], _, h =>
    obtain ⟨a1, a2⟩ := a
    obtain ⟨b1, b2⟩ := b
    obtain ⟨c1, c2⟩ := c
    obtain ⟨d1, d2⟩ := d
    obtain ⟨e1, e2⟩ := e
    obtain ⟨f1, f2⟩ := f
    simp only [List.map_cons, List.map_nil, List.cons.injEq, and_true] at h
    obtain ⟨rfl, rfl, rfl, rfl, rfl, rfl⟩ := h
    rfl

end Mifem.TopoConn

namespace Mifem.Props
open Mifem.Naive Mifem.Gath Mifem.Mesh
open Mifem.TopoConn Mifem.TraceNum Mifem.Three Mifem.Assemblers

variable {R : Type*} [Ring R]

/-- what the two matrices do: number `k` of the local trace and of the trace is that of dof `i` of the form, so `T_ltf_sf` gives
the value there and `T_ltf_tf` the value of the trace, both with the same sign. -/
def Connects (nbl nbs : Nat) (lg : List (Side × List Nat)) (dofs : Side → List Nat) (Ts Tt : Nat → Nat → Int) : Prop :=
  ∃ sgn : Nat → Int, (∀ k, k < nbl → sgn k = 1 ∨ sgn k = -1) ∧
    ∀ (R : Type) [Ring R] (x t : Nat → R) (s : Side) (L : List Nat) (q k i : Nat), lg.lookup s = some L → L[q]? = some k → (dofs s)[q]? = some i →
      applyM nbs Ts x k = (sgn k : R) * x i ∧ applyM nbl Tt t k = (sgn k : R) * t k

/-- the general step. -/
theorem connection_of {nbl nbs nb : Nat} {ild : List Nat} {lg : List (Side × List Nat)} {dofs : Side → List Nat} (hl : SideLayout nb ild lg dofs)
    (hck : check lg = some nbl) (hd : ∀ s, ∀ d ∈ dofs s, d < nbs) :
    ∃ Ts Tt, connection nbl nbs lg dofs = some (Ts, Tt) ∧ Connects nbl nbs lg dofs Ts Tt := by
  obtain ⟨L, rfl⟩ := eq_six hl.keys
  have hmem : ∀ s, (s, L s) ∈ six.map fun s => (s, L s) := fun s => List.mem_map.2 ⟨s, mem_six s, rfl⟩
  have hlen : ∀ s, (L s).length = (dofs s).length := fun s => hl.len _ (hmem s)
  obtain ⟨_, _, hck⟩ := check_spec hck
  have hr : ∀ s, ∀ r ∈ L s, r < nbl := fun s r h => (hck r).1 ⟨_, hmem s, h⟩
  have hlk : (fun s => (six.map fun s => (s, L s)).lookup s) = fun s => some (L s) := by funext s; exact lookup_six L s
  refine ⟨matOf (writes L dofs), matOf (writes L L), ?_, lastVal (writes L dofs), ?_, ?_⟩
  · unfold connection
    rw [hlk, fill_eq hlen hr hd, fill_eq (fun _ => rfl) hr hr]
    rfl
  · intro k hk
    obtain ⟨p, hp, hkp⟩ := (hck k).2 hk
    obtain ⟨s, _, rfl⟩ := List.mem_map.1 hp
    obtain ⟨q, hq, he⟩ := List.mem_iff_getElem.1 hkp
    simp only at hq he
    obtain ⟨w, hw, hwr, _⟩ := writes_mem (L := L) (C := dofs) (s := s) (q := q) (r := k) (c := (dofs s)[q]'(by rw [← hlen]; exact hq))
      (by rw [List.getElem?_eq_getElem hq, he]) (List.getElem?_eq_getElem _)
    obtain ⟨u, hu, _, he⟩ := lastVal_mem ⟨w, hw, hwr⟩
    rw [he]
    exact (mem_writes hu).1
  · intro R _ x t s L' q k i h1 h2 h3
    rw [lookup_six, Option.some.injEq] at h1
    subst h1
    have hcol : ∀ w ∈ writes L dofs, w.r = k → w.c = i := by
      intro w hw hwr
      obtain ⟨_, s', q', e1, e2⟩ := mem_writes hw
      rw [hwr] at e1
      obtain ⟨a, ea⟩ := List.getElem?_eq_some_iff.1 h2
      obtain ⟨b, eb⟩ := List.getElem?_eq_some_iff.1 e1
      have := (hl.same _ (hmem s) _ (hmem s') q q' a b).1 (by rw [ea, eb])
      simp only at this
      rw [h3, e2, Option.some.injEq] at this
      exact this.symm
    have hcol' : ∀ w ∈ writes L L, w.r = k → w.c = k := by
      intro w hw hwr
      obtain ⟨_, s', q', e1, e2⟩ := mem_writes hw
      rw [hwr] at e1
      rw [e1, Option.some.injEq] at e2
      exact e2.symm
    refine ⟨applyM_one hcol (hd s i (List.mem_of_getElem? h3)) x, ?_⟩
    rw [applyM_one hcol' (hr s k (List.mem_of_getElem? h2)) t, lastVal_congr (writes_vals (fun _ => rfl) hlen)]

/-- **C93, connection.** For 0-forms and 2-forms of any degrees `space.topological_connection` gives the two matrices, in whatever
order the form, the local trace form and the trace form are given. -/
theorem c93_connection (p0 p1 p2 : Nat) (h0 : 0 < p0) (h1 : 0 < p1) (h2 : 0 < p2) :
    (∃ lg Ts Tt, localGathering (slices0 p0 p1 p2) (side0 p0 p1 p2) = some lg ∧ connection0 p0 p1 p2 = some (Ts, Tt) ∧
      Connects (nbNon0 p0 p1 p2).toNat (nb0 p0 p1 p2) lg (dofs0 p0 p1 p2) Ts Tt) ∧
    (∃ Ts Tt, connection2 p0 p1 p2 = some (Ts, Tt) ∧ Connects (nbT2 p0 p1 p2) (nb2 p0 p1 p2) (lg2 p0 p1 p2) (dofs2 p0 p1 p2) Ts Tt) := by
  constructor
  · obtain ⟨lg, n, e1, e2, e3, e4⟩ := c83_layout0 p0 p1 p2 h0 h1 h2
    have hn : (nbNon0 p0 p1 p2).toNat = n := by rw [← e3]; rfl
    obtain ⟨Ts, Tt, e5, e6⟩ := connection_of e4 e2 (dofs0_lt p0 p1 p2)
    refine ⟨lg, Ts, Tt, e1, ?_, ?_⟩
    · rw [connection0, e1, hn]
      exact e5
    · rw [hn]; exact e6
  · obtain ⟨e2, e4⟩ := layout2_all p0 p1 p2 h0 h1 h2
    exact connection_of e4 e2 (dofs2_lt p0 p1 p2)

/-- numbers that are the sign of a side. -/
theorem sgn_cancel {R : Type*} [Ring R] {e : Int} (h : e = 1 ∨ e = -1) {a b : R} : (e : R) * a = (e : R) * b ↔ a = b := by
  rcases h with rfl | rfl <;> simp

/-- **C93, one element.** `T_ltf_sf x = T_ltf_tf t` says exactly that on every side the values of the form `x` are those of the
trace form `t`, dof by dof. -/
theorem c93_local {nbl nbs : Nat} {lg : List (Side × List Nat)} {dofs : Side → List Nat} {Ts Tt : Nat → Nat → Int} (hc : Connects nbl nbs lg dofs Ts Tt)
    (hck : check lg = some nbl) (hkey : lg.map Prod.fst = six) (hlen : ∀ p ∈ lg, p.2.length = (dofs p.1).length) (R : Type) [Ring R] (x t : Nat → R) :
    (∀ k, k < nbl → applyM nbs Ts x k = applyM nbl Tt t k) ↔ ∀ p ∈ lg, p.2.map t = (dofs p.1).map x := by
  obtain ⟨L, rfl⟩ := eq_six hkey
  have hmem : ∀ s, (s, L s) ∈ six.map fun s => (s, L s) := fun s => List.mem_map.2 ⟨s, mem_six s, rfl⟩
  have hlen' : ∀ s, (L s).length = (dofs s).length := fun s => hlen _ (hmem s)
  obtain ⟨_, _, hck⟩ := check_spec hck
  obtain ⟨sgn, hs, hc⟩ := hc
  have key : ∀ s (q : Nat) (hq : q < (L s).length), applyM nbs Ts x (L s)[q] = applyM nbl Tt t (L s)[q] ↔ t (L s)[q] = x ((dofs s)[q]'(by rw [← hlen']; exact hq)) := by
    intro s q hq
    obtain ⟨e1, e2⟩ := hc R x t s (L s) q (L s)[q] ((dofs s)[q]'(by rw [← hlen']; exact hq)) (lookup_six L s) (List.getElem?_eq_getElem _) (List.getElem?_eq_getElem _)
    rw [e1, e2, sgn_cancel (hs _ ((hck _).1 ⟨_, hmem s, List.getElem_mem hq⟩))]
    exact eq_comm
  constructor
  · intro h p hp
    obtain ⟨s, _, rfl⟩ := List.mem_map.1 hp
    apply List.ext_getElem
    · simp [hlen']
    · intro q h1 h2
      rw [List.length_map] at h1
      rw [List.getElem_map, List.getElem_map]
      exact (key s q h1).1 (h _ ((hck _).1 ⟨_, hmem s, List.getElem_mem h1⟩))
  · intro h k hk
    obtain ⟨p, hp, hkp⟩ := (hck k).2 hk
    obtain ⟨s, _, rfl⟩ := List.mem_map.1 hp
    obtain ⟨q, hq, he⟩ := List.mem_iff_getElem.1 hkp
    simp only at hq he
    subst he
    rw [key s q hq]
    have := congrArg (fun l => l[q]?) (h _ hp)
    simp only [List.getElem?_map] at this
    rw [List.getElem?_eq_getElem hq, List.getElem?_eq_getElem (by rw [← hlen']; exact hq)] at this
    simpa using this

/-- **C93, no row too many.** The rows of `T_ltf_sf` are independent: any values on the local trace are met by a form. -/
theorem c93_independent {nbl nbs nb : Nat} {ild : List Nat} {lg : List (Side × List Nat)} {dofs : Side → List Nat} {Ts Tt : Nat → Nat → Int}
    (hc : Connects nbl nbs lg dofs Ts Tt) (hck : check lg = some nbl) (hl : SideLayout nb ild lg dofs) (R : Type) [Ring R] (y : Nat → R) :
    ∃ x : Nat → R, ∀ k, k < nbl → applyM nbs Ts x k = y k := by
  classical
  obtain ⟨sgn, hs, hc⟩ := hc
  obtain ⟨L, rfl⟩ := eq_six hl.keys
  have hmem : ∀ s, (s, L s) ∈ six.map fun s => (s, L s) := fun s => List.mem_map.2 ⟨s, mem_six s, rfl⟩
  have hlen : ∀ s, (L s).length = (dofs s).length := fun s => hl.len _ (hmem s)
  obtain ⟨_, _, hck⟩ := check_spec hck
  let P : Nat → Nat → Prop := fun i k => ∃ s, ∃ q : Nat, (L s)[q]? = some k ∧ (dofs s)[q]? = some i
  refine ⟨fun i => if h : ∃ k, P i k then (sgn h.choose : R) * y h.choose else 0, ?_⟩
  intro k hk
  obtain ⟨p, hp, hkp⟩ := (hck k).2 hk
  obtain ⟨s, _, rfl⟩ := List.mem_map.1 hp
  obtain ⟨q, hq, he⟩ := List.mem_iff_getElem.1 hkp
  simp only at hq he
  have hP : P ((dofs s)[q]'(by rw [← hlen]; exact hq)) k := ⟨s, q, by rw [List.getElem?_eq_getElem hq, he], List.getElem?_eq_getElem _⟩
  rw [(hc R _ y s (L s) q k _ (lookup_six L s) (by rw [List.getElem?_eq_getElem hq, he]) (List.getElem?_eq_getElem (by rw [← hlen]; exact hq))).1]
  have hex : ∃ k, P ((dofs s)[q]'(by rw [← hlen]; exact hq)) k := ⟨k, hP⟩
  have hch : hex.choose = k := by
    obtain ⟨s', q', e1, e2⟩ := hex.choose_spec
    obtain ⟨a, ea⟩ := List.getElem?_eq_some_iff.1 e1
    have := (hl.same _ (hmem s') _ (hmem s) q' q a hq).2 (by
      simp only
      rw [e2]
      exact (List.getElem?_eq_getElem (by rw [← hlen]; exact hq)).symm)
    simp only at this
    rw [ea, he] at this
    exact this
  rw [dif_pos hex, hch, ← mul_assoc]
  rcases hs k hk with h | h <;> rw [h] <;> simp

/-- the entry of element `m` of core `r`. -/
def ofElement {α : Type} (l : List (List α)) (r m : Nat) : Option α := l[r]?.bind fun a => a[m]?

/-- the constraint holds in all elements: `x r m` are the values of the hybrid form in element `m` of core `r`, `t` the values of
the trace form by number, `res` its numbering. -/
def Constrained {R : Type} [Ring R] (nbl nbs : Nat) (Ts Tt : Nat → Nat → Int) (res : List (List (List Int × List (Side × List Int))))
    (x : Nat → Nat → Nat → R) (t : Int → R) : Prop :=
  ∀ r m w sv, ofElement res r m = some (w, sv) → ∀ k, k < nbl → applyM nbs Ts (x r m) k = applyM nbl Tt (fun j => t (w.getD j 0)) k

/-- the hybrid form takes on all sides of all elements the values of the non-hybrid form `g`, numbered by `ranks`. -/
def SidesGlued {R : Type} (dofs : Side → List Nat) (ranks : List (List (List Nat))) (x : Nat → Nat → Nat → R) (g : Nat → R) : Prop :=
  ∀ r m gv, ofElement ranks r m = some gv → ∀ s, ∀ i ∈ dofs s, x r m i = g (gv.getD i 0)

/-- the general step. -/
theorem glue_of {nbl nbs nb nInt gnd : Nat} {ild : List Nat} {lg : List (Side × List Nat)} {dofs : Side → List Nat} {Ts Tt : Nat → Nat → Int}
    (hc : Connects nbl nbs lg dofs Ts Tt) (hck : check lg = some nbl) (hl : SideLayout nb ild lg dofs) {ranks : List (List (List Nat))}
    {res : List (List (List Int × List (Side × List Int)))} (hn : NumbersSurfaces lg dofs nInt gnd ranks res) (R : Type) [Ring R] (x : Nat → Nat → Nat → R) :
    (∃ t, Constrained nbl nbs Ts Tt res x t) ↔ ∃ g, SidesGlued dofs ranks x g := by
  classical
  obtain ⟨num, n, _, hlens, hinj, _, hnum⟩ := hn
  have hcl : ∀ r m (t : Int → R) (w : List Int), (∀ k, k < nbl → applyM nbs Ts (x r m) k = applyM nbl Tt (fun j => t (w.getD j 0)) k) ↔
      ∀ p ∈ lg, p.2.map (fun j => t (w.getD j 0)) = (dofs p.1).map (x r m) := fun r m t w =>
    c93_local hc hck hl.keys hl.len R (x r m) (fun j => t (w.getD j 0))
  obtain ⟨L, rfl⟩ := eq_six hl.keys
  have hmem : ∀ s, (s, L s) ∈ six.map fun s => (s, L s) := fun s => List.mem_map.2 ⟨s, mem_six s, rfl⟩
  have hlen : ∀ s, (L s).length = (dofs s).length := fun s => hl.len _ (hmem s)
  -- entries of the two lists belong to each other
  have hpair : ∀ r m gv, ofElement ranks r m = some gv → ∃ w sv, ofElement res r m = some (w, sv) ∧
      ∀ s (q k i : Nat), (L s)[q]? = some k → (dofs s)[q]? = some i → w.getD k 0 = (num (gv.getD i 0) : Int) := by
    intro r m gv h
    unfold ofElement at h
    obtain ⟨vs, h1, h2⟩ := Option.bind_eq_some_iff.1 h
    obtain ⟨ws, w, sv, e1, e2, e3⟩ := hnum r vs h1 m gv h2
    refine ⟨w, sv, by unfold ofElement; rw [e1]; exact e2, ?_⟩
    intro s q k i hk hi
    obtain ⟨vals, _, _, e4⟩ := e3 _ (hmem s)
    rw [List.getD_eq_getElem?_getD, (e4 q k i hk hi).2]
    rfl
  have hback : ∀ r m w sv, ofElement res r m = some (w, sv) → ∃ gv, ofElement ranks r m = some gv := by
    intro r m w sv h
    unfold ofElement at h
    obtain ⟨ws, h1, h2⟩ := Option.bind_eq_some_iff.1 h
    obtain ⟨a, ea⟩ := List.getElem?_eq_some_iff.1 h1
    obtain ⟨b, eb⟩ := List.getElem?_eq_some_iff.1 h2
    have hra : r < ranks.length := by
      have := congrArg List.length hlens
      simp only [List.length_map] at this
      omega
    have hlr : ws.length = (ranks[r]).length := by
      have := congrArg (fun l => l[r]?) hlens
      simp only [List.getElem?_map, h1, List.getElem?_eq_getElem hra, Option.map_some, Option.some.injEq] at this
      exact this
    exact ⟨(ranks[r])[m]'(by omega), by unfold ofElement; rw [List.getElem?_eq_getElem hra]; exact List.getElem?_eq_getElem (by omega)⟩
  constructor
  · rintro ⟨t, ht⟩
    refine ⟨fun d => t (num d), ?_⟩
    intro r m gv hgv s i hi
    obtain ⟨w, sv, e1, e2⟩ := hpair r m gv hgv
    have h := (hcl r m t w).1 (ht r m w sv e1) _ (hmem s)
    obtain ⟨q, hq, he⟩ := List.mem_iff_getElem.1 hi
    have hqL : q < (L s).length := by rw [hlen]; exact hq
    have := congrArg (fun l => l[q]?) h
    simp only [List.getElem?_map] at this
    rw [List.getElem?_eq_getElem hqL, List.getElem?_eq_getElem hq] at this
    simp only [Option.map_some, Option.some.injEq] at this
    rw [← he, ← this, e2 s q _ _ (List.getElem?_eq_getElem hqL) (List.getElem?_eq_getElem hq)]
  · rintro ⟨g, hg⟩
    obtain ⟨t, htd⟩ : ∃ t : Int → R, ∀ z, t z = if h : ∃ d, OnSurface dofs ranks.flatten d ∧ (num d : Int) = z then g h.choose else 0 :=
      ⟨_, fun _ => rfl⟩
    refine ⟨t, ?_⟩
    intro r m w sv hw
    obtain ⟨gv, hgv⟩ := hback r m w sv hw
    obtain ⟨w', sv', e1, e2⟩ := hpair r m gv hgv
    rw [hw, Option.some.injEq, Prod.mk.injEq] at e1
    obtain ⟨rfl, rfl⟩ := e1
    apply (hcl r m t w).2
    intro p hp
    obtain ⟨s, _, rfl⟩ := List.mem_map.1 hp
    apply List.ext_getElem
    · simp [hlen]
    · intro q h1 h2
      rw [List.length_map] at h1 h2
      rw [List.getElem_map, List.getElem_map]
      simp only at h1 h2 ⊢
      rw [e2 s q _ _ (List.getElem?_eq_getElem h1) (List.getElem?_eq_getElem h2)]
      have hon : OnSurface dofs ranks.flatten (gv.getD (dofs s)[q] 0) := by
        refine ⟨gv, ?_, s, (dofs s)[q], List.getElem_mem h2, rfl⟩
        unfold ofElement at hgv
        obtain ⟨vs, g1, g2⟩ := Option.bind_eq_some_iff.1 hgv
        exact List.mem_flatten.2 ⟨vs, List.mem_of_getElem? g1, List.mem_of_getElem? g2⟩
      have hex : ∃ d, OnSurface dofs ranks.flatten d ∧ (num d : Int) = (num (gv.getD (dofs s)[q] 0) : Int) := ⟨_, hon, rfl⟩
      rw [htd, dif_pos hex]
      have hch : hex.choose = gv.getD (dofs s)[q] 0 := hinj _ _ hex.choose_spec.1 hon (by exact_mod_cast hex.choose_spec.2)
      rw [hch]
      exact (hg r m gv hgv s _ (List.getElem_mem h2)).symm

/-- **C93, gluing by 0-forms.** On any mesh on which the 0-form is numbered naively without a dof twice in an element: values of the
hybrid 0-form in the elements meet the constraint `T_ltf_sf x = T_ltf_tf t` with some trace form exactly if on all sides of all
elements they are the values of one non-hybrid 0-form. -/
theorem c93_glue0 (p0 p1 p2 : Nat) (h0 : 0 < p0) (h1 : 0 < p1) (h2 : 0 < p2) {emap : Nat → List (Option Nat)} {n : Nat} (hn : 0 < n)
    {ranks : List (List Nat)} (hr : ranks.flatten = List.range n) {out : List (List (Nat × Arr (Nat × List Nat)))}
    (hout : naive (formLayout [p0, p1, p2] comps3d0) emap ranks = some out)
    (hnr : NoRepeat (naiveGM (places fOrder [p0, p1, p2] comps3d0) out)) :
    ∃ Ts Tt lg gnd res, connection0 p0 p1 p2 = some (Ts, Tt) ∧ localGathering (slices0 p0 p1 p2) (side0 p0 p1 p2) = some lg ∧
      (∀ d, d < gnd ↔ Occurs (naiveGM (places fOrder [p0, p1, p2] comps3d0) out) d) ∧
      nonHybrid (nb0 p0 p1 p2) lg (dofs0 p0 p1 p2) (internal0 p0 p1 p2) gnd
        ((naiveGM (places fOrder [p0, p1, p2] comps3d0) out).map fun l => l.map Prod.snd) = some res ∧
      ∀ (R : Type) [Ring R] (x : Nat → Nat → Nat → R),
        (∃ t, Constrained (nbNon0 p0 p1 p2).toNat (nb0 p0 p1 p2) Ts Tt res x t) ↔
        ∃ g, SidesGlued (dofs0 p0 p1 p2) ((naiveGM (places fOrder [p0, p1, p2] comps3d0) out).map fun l => l.map Prod.snd) x g := by
  obtain ⟨lg, gnd, res, e1, e2, e3, e4⟩ := c83_nonhybrid_0trace p0 p1 p2 h0 h1 h2 hn hr hout hnr
  obtain ⟨⟨lg', Ts, Tt, f1, f2, f3⟩, _⟩ := c93_connection p0 p1 p2 h0 h1 h2
  obtain ⟨lg'', k, g1, g2, g3, g4⟩ := c83_layout0 p0 p1 p2 h0 h1 h2
  rw [e1, Option.some.injEq] at f1 g1
  subst f1 g1
  refine ⟨Ts, Tt, lg, gnd, res, f2, e1, e2, e3, ?_⟩
  intro R _ x
  exact glue_of f3 (by rw [g2, ← g3]; rfl) g4 e4 R x

/-- **C93, gluing by 2-forms**, unless all degrees are 1 (then the trace form cannot be numbered). -/
theorem c93_glue2 (p0 p1 p2 : Nat) (h0 : 0 < p0) (h1 : 0 < p1) (h2 : 0 < p2) (hone : ¬(p0 = 1 ∧ p1 = 1 ∧ p2 = 1))
    {emap : Nat → List (Option Nat)} {n : Nat} (hn : 0 < n)
    {ranks : List (List Nat)} (hr : ranks.flatten = List.range n) {out : List (List (Nat × Arr (Nat × List Nat)))}
    (hout : naive (formLayout [p0, p1, p2] comps3d2) emap ranks = some out)
    (hnr : NoRepeat (naiveGM (places fOrder [p0, p1, p2] comps3d2) out)) :
    ∃ Ts Tt ild gnd res, connection2 p0 p1 p2 = some (Ts, Tt) ∧ internal2 p0 p1 p2 = some ild ∧
      (∀ d, d < gnd ↔ Occurs (naiveGM (places fOrder [p0, p1, p2] comps3d2) out) d) ∧
      nonHybrid (nb2 p0 p1 p2) (lg2 p0 p1 p2) (dofs2 p0 p1 p2) ild gnd
        ((naiveGM (places fOrder [p0, p1, p2] comps3d2) out).map fun l => l.map Prod.snd) = some res ∧
      ∀ (R : Type) [Ring R] (x : Nat → Nat → Nat → R),
        (∃ t, Constrained (nbT2 p0 p1 p2) (nb2 p0 p1 p2) Ts Tt res x t) ↔
        ∃ g, SidesGlued (dofs2 p0 p1 p2) ((naiveGM (places fOrder [p0, p1, p2] comps3d2) out).map fun l => l.map Prod.snd) x g := by
  obtain ⟨ild, gnd, res, e1, e2, e3, e4⟩ := c83_nonhybrid_2trace p0 p1 p2 h0 h1 h2 hone hn hr hout hnr
  obtain ⟨_, ⟨Ts, Tt, f2, f3⟩⟩ := c93_connection p0 p1 p2 h0 h1 h2
  obtain ⟨g2, g4⟩ := layout2_all p0 p1 p2 h0 h1 h2
  refine ⟨Ts, Tt, ild, gnd, res, f2, e1, e2, e3, ?_⟩
  intro R _ x
  exact glue_of f3 g2 g4 e4 R x

/-- the matrix of the connection of 2-forms is the trace matrix (C43). -/
theorem c93_trace2 (p0 p1 p2 : Nat) (h0 : 0 < p0) (h1 : 0 < p1) (h2 : 0 < p2) :
    ∃ Tt, connection2 p0 p1 p2 = some (trace2 p0 p1 p2, Tt) := by
  obtain ⟨hck, hl⟩ := layout2_all p0 p1 p2 h0 h1 h2
  obtain ⟨L, hL⟩ := eq_six hl.keys
  have hmem : ∀ s, (s, L s) ∈ lg2 p0 p1 p2 := fun s => by rw [hL]; exact List.mem_map.2 ⟨s, mem_six s, rfl⟩
  have hlen : ∀ s, (L s).length = (dofs2 p0 p1 p2 s).length := fun s => hl.len _ (hmem s)
  obtain ⟨_, _, hck⟩ := check_spec hck
  have hr : ∀ s, ∀ r ∈ L s, r < nbT2 p0 p1 p2 := fun s r h => (hck r).1 ⟨_, hmem s, h⟩
  have hlk : (fun s => (lg2 p0 p1 p2).lookup s) = fun s => some (L s) := by funext s; rw [hL]; exact lookup_six L s
  refine ⟨matOf (writes L L), ?_⟩
  unfold connection2 connection
  rw [hlk, fill_eq hlen hr (dofs2_lt p0 p1 p2), fill_eq (fun _ => rfl) hr hr]
  show some (matOf (writes L (dofs2 p0 p1 p2)), _) = _
  have hz : ∀ (l : List Nat) (a : Nat) (v : Int), ((List.range' a l.length).zip l).map (fun rc => (⟨rc.1, rc.2, v⟩ : Write)) = sideW a l v := by
    intro l
    induction l with
    | nil => intro a v; rfl
    | cons x l ih =>
      intro a v
      have := ih (a + 1) v
      simp only [sideW, List.length_cons, List.range'_succ, List.zip_cons_cons, List.map_cons, List.zipIdx_cons, List.cons.injEq, true_and] at this ⊢
      exact this
  simp only [lg2, six, List.map_cons, List.map_nil, List.cons.injEq, Prod.mk.injEq, true_and, and_true] at hL
  obtain ⟨aN, aS, aW, aE, aB, aF⟩ := hL
  have : writes L (dofs2 p0 p1 p2) = traceAux (dofs2 p0 p1 p2) 0 sideSigns := by
    simp only [writes, sideSigns, List.flatMap_cons, List.flatMap_nil, traceAux, ← aN, ← aS, ← aW, ← aE, ← aB, ← aF]
    have lN : (dofs2 p0 p1 p2 .N).length = p1 * p2 := by rw [← hlen, ← aN, List.length_range']
    have lS : (dofs2 p0 p1 p2 .S).length = p1 * p2 := by rw [← hlen, ← aS, List.length_range']
    have lW : (dofs2 p0 p1 p2 .W).length = p0 * p2 := by rw [← hlen, ← aW, List.length_range']
    have lE : (dofs2 p0 p1 p2 .E).length = p0 * p2 := by rw [← hlen, ← aE, List.length_range']
    have lB : (dofs2 p0 p1 p2 .B).length = p0 * p1 := by rw [← hlen, ← aB, List.length_range']
    have lF : (dofs2 p0 p1 p2 .F).length = p0 * p1 := by rw [← hlen, ← aF, List.length_range']
    have zN := hz (dofs2 p0 p1 p2 .N); have zS := hz (dofs2 p0 p1 p2 .S); have zW := hz (dofs2 p0 p1 p2 .W)
    have zE := hz (dofs2 p0 p1 p2 .E); have zB := hz (dofs2 p0 p1 p2 .B); have zF := hz (dofs2 p0 p1 p2 .F)
    rw [lN] at zN; rw [lS] at zS; rw [lW] at zW; rw [lE] at zE; rw [lB] at zB; rw [lF] at zF
    rw [zN, zS, zW, zE, zB, zF, lN, lS, lW, lE, lB]
    simp only [Nat.zero_add]
  rw [this]
  rfl

/-! ## the call -/

/-- **C93, the call.** Any order of a hybrid form, a non-hybrid local trace form and a non-hybrid trace form, of the same degree 0
or 2, on the same mesh and space, gives the same matrices; and nothing else gives any. -/
theorem c93_call (p0 p1 p2 : Nat) (fs : List FormRef) (h : call p0 p1 p2 fs ≠ none) :
    ∃ k sf ltf tf, fs.Perm [sf, ltf, tf] ∧ sf.cls = .form ∧ ltf.cls = .localTrace ∧ tf.cls = .trace ∧ (k = 0 ∨ k = 2) ∧
      (∀ f ∈ fs, f.k = k) ∧ sf.hybrid = true ∧ ltf.hybrid = false ∧ tf.hybrid = false ∧
      (∀ f ∈ fs, ∀ f' ∈ fs, f.space = f'.space ∧ f.mesh = f'.mesh) := by
  match fs with
  | [a, b, c] =>
    have key : ∀ k, isTriple k [a, b, c] = true → ∀ sf ltf tf, pick .form [a, b, c] = some sf → pick .localTrace [a, b, c] = some ltf →
        pick .trace [a, b, c] = some tf → agree sf ltf tf = true → [a, b, c].Perm [sf, ltf, tf] ∧ sf.cls = .form ∧ ltf.cls = .localTrace ∧
          tf.cls = .trace ∧ (∀ f ∈ [a, b, c], f.k = k) ∧ sf.hybrid = true ∧ ltf.hybrid = false ∧ tf.hybrid = false ∧
          (∀ f ∈ [a, b, c], ∀ f' ∈ [a, b, c], f.space = f'.space ∧ f.mesh = f'.mesh) := by
      intro k hk sf ltf tf e1 e2 e3 e4
      have hcls : ∀ cl, ∃ f ∈ [a, b, c], f.cls = cl := by
        simp only [isTriple, Bool.and_eq_true, List.all_eq_true, List.any_eq_true, decide_eq_true_eq] at hk
        intro cl
        cases cl
        · exact hk.2 .form (by simp)
        · exact hk.2 .localTrace (by simp)
        · exact hk.2 .trace (by simp)
      have hkk : ∀ f ∈ [a, b, c], f.k = k := by
        simp only [isTriple, Bool.and_eq_true, List.all_eq_true, decide_eq_true_eq] at hk
        exact hk.1
      have pk : ∀ cl f, pick cl [a, b, c] = some f → f ∈ [a, b, c] ∧ f.cls = cl := by
        intro cl f hf
        have := List.mem_filter.1 (List.mem_of_getLast? hf)
        exact ⟨this.1, by simpa using this.2⟩
      obtain ⟨m1, c1⟩ := pk _ _ e1
      obtain ⟨m2, c2⟩ := pk _ _ e2
      obtain ⟨m3, c3⟩ := pk _ _ e3
      have hnd : [sf, ltf, tf].Nodup := by
        have n1 : sf ≠ ltf := by rintro rfl; rw [c1] at c2; cases c2
        have n2 : sf ≠ tf := by rintro rfl; rw [c1] at c3; cases c3
        have n3 : ltf ≠ tf := by rintro rfl; rw [c2] at c3; cases c3
        simp [n1, n2, n3]
      have hsub : [sf, ltf, tf] ⊆ [a, b, c] := by
        intro f hf
        simp only [List.mem_cons, List.not_mem_nil, or_false] at hf
        rcases hf with rfl | rfl | rfl <;> assumption
      have hperm : [a, b, c].Perm [sf, ltf, tf] := ((List.subperm_of_subset hnd hsub).perm_of_length_le (by simp)).symm
      simp only [agree, Bool.and_eq_true, decide_eq_true_eq, Bool.not_eq_true'] at e4
      obtain ⟨⟨⟨s1, s2⟩, ⟨m1, m2⟩⟩, ⟨⟨h1, h2⟩, h3⟩⟩ := e4
      refine ⟨hperm, c1, c2, c3, hkk, h1, h2, h3, ?_⟩
      have : ∀ f ∈ [a, b, c], f.space = sf.space ∧ f.mesh = sf.mesh := by
        intro f hf
        have := hperm.mem_iff.1 hf
        simp only [List.mem_cons, List.not_mem_nil, or_false] at this
        rcases this with rfl | rfl | rfl
        · exact ⟨rfl, rfl⟩
        · exact ⟨s1.symm, m1.symm⟩
        · exact ⟨(s1.trans s2).symm, (m1.trans m2).symm⟩
      intro f hf f' hf'
      rw [(this f hf).1, (this f hf).2, (this f' hf').1, (this f' hf').2]
      exact ⟨rfl, rfl⟩
    have step : ∀ k (X : Option ((Nat → Nat → Int) × (Nat → Nat → Int))), isTriple k [a, b, c] = true →
        ((pick .form [a, b, c]).bind fun sf => (pick .localTrace [a, b, c]).bind fun ltf => (pick .trace [a, b, c]).bind fun tf =>
          if agree sf ltf tf then X else none) ≠ none →
        ∃ sf ltf tf, pick .form [a, b, c] = some sf ∧ pick .localTrace [a, b, c] = some ltf ∧ pick .trace [a, b, c] = some tf ∧ agree sf ltf tf = true := by
      intro k X _ hne
      cases e1 : pick .form [a, b, c] with
      | none => rw [e1] at hne; simp at hne
      | some sf =>
        cases e2 : pick .localTrace [a, b, c] with
        | none => rw [e1, e2] at hne; simp at hne
        | some ltf =>
          cases e3 : pick .trace [a, b, c] with
          | none => rw [e1, e2, e3] at hne; simp at hne
          | some tf =>
            rw [e1, e2, e3] at hne
            simp only [Option.bind_some] at hne
            split at hne
            · exact ⟨sf, ltf, tf, rfl, rfl, rfl, by assumption⟩
            · exact absurd rfl hne
    unfold call at h
    rw [if_pos (show [a, b, c].length = 3 from rfl)] at h
    split at h
    · next hk =>
      obtain ⟨sf, ltf, tf, e1, e2, e3, e4⟩ := step 0 _ hk h
      obtain ⟨a1, a2, a3, a4, a5, a6⟩ := key 0 hk sf ltf tf e1 e2 e3 e4
      exact ⟨0, sf, ltf, tf, a1, a2, a3, a4, Or.inl rfl, a5, a6⟩
    · split at h
      · next hk =>
        obtain ⟨sf, ltf, tf, e1, e2, e3, e4⟩ := step 2 _ hk h
        obtain ⟨a1, a2, a3, a4, a5, a6⟩ := key 2 hk sf ltf tf e1 e2 e3 e4
        exact ⟨2, sf, ltf, tf, a1, a2, a3, a4, Or.inr rfl, a5, a6⟩
      · exact absurd rfl h
  | [] => simp [call] at h
  | [_] => simp [call] at h
  | [_, _] => simp [call] at h
  | _ :: _ :: _ :: _ :: _ => simp [call] at h

/-- **C93, the call.** The converse: with such forms, in any order, the call gives the matrices of the degree. -/
theorem c93_call_ok (p0 p1 p2 k space mesh : Nat) (hk : k = 0 ∨ k = 2) (fs : List FormRef)
    (hp : fs.Perm [⟨.form, k, true, space, mesh⟩, ⟨.localTrace, k, false, space, mesh⟩, ⟨.trace, k, false, space, mesh⟩]) :
    call p0 p1 p2 fs = if k = 0 then connection0 p0 p1 p2 else connection2 p0 p1 p2 := by
  set sf : FormRef := ⟨.form, k, true, space, mesh⟩
  set ltf : FormRef := ⟨.localTrace, k, false, space, mesh⟩
  set tf : FormRef := ⟨.trace, k, false, space, mesh⟩
  have e1 : pick .form fs = some sf := by
    have : fs.filter (fun f => f.cls = .form) = [sf] := List.perm_singleton.1 (hp.filter _)
    rw [pick, this]; rfl
  have e2 : pick .localTrace fs = some ltf := by
    have : fs.filter (fun f => f.cls = .localTrace) = [ltf] := List.perm_singleton.1 (hp.filter _)
    rw [pick, this]; rfl
  have e3 : pick .trace fs = some tf := by
    have : fs.filter (fun f => f.cls = .trace) = [tf] := List.perm_singleton.1 (hp.filter _)
    rw [pick, this]; rfl
  have e4 : agree sf ltf tf = true := by simp [agree, sf, ltf, tf]
  have hkk : ∀ f ∈ fs, f.k = k := by
    intro f hf
    have := hp.mem_iff.1 hf
    simp only [List.mem_cons, List.not_mem_nil, or_false] at this
    rcases this with rfl | rfl | rfl <;> rfl
  have hany : ∀ c : Cls, fs.any (fun f => f.cls = c) = true := by
    intro c
    rw [List.any_eq_true]
    cases c
    · exact ⟨sf, hp.mem_iff.2 (by simp), rfl⟩
    · exact ⟨ltf, hp.mem_iff.2 (by simp), rfl⟩
    · exact ⟨tf, hp.mem_iff.2 (by simp), rfl⟩
  have ht : ∀ j, isTriple j fs = decide (k = j) := by
    intro j
    have hne : sf ∈ fs := hp.mem_iff.2 (by simp)
    by_cases hj : k = j
    · subst hj
      simp only [isTriple, decide_true, Bool.and_eq_true, List.all_eq_true]
      exact ⟨fun f hf => by simp [hkk f hf], fun c _ => hany c⟩
    · rw [decide_eq_false hj]
      simp only [isTriple, Bool.and_eq_false_iff]
      left
      rw [List.all_eq_false]
      exact ⟨sf, hne, by simpa [sf] using hj⟩
  unfold call
  rw [if_pos (by rw [hp.length_eq]; rfl), ht, ht, e1, e2, e3]
  rcases hk with rfl | rfl
  · simp [e4]
  · simp [e4]

/-! ## selective matrices -/

/-- **C93, selective matrices of trace forms.** Applied to the local dofs of the form they list the dofs of the sides in the
order of the gathering, unsigned; without a matrix are exactly the non-hybrid 0- and 1-traces. -/
theorem c93_trace_selective (p0 p1 p2 : Nat) (R : Type) [CommRing R] (x : Nat → R) :
    (∃ S, traceSelective p0 p1 p2 0 true = some S ∧
      (List.range (nbT0 p0 p1 p2)).map (applyM (nb0 p0 p1 p2) S x) = sides3.flatMap fun s => (dofs0 p0 p1 p2 s).map x) ∧
    (∃ S, traceSelective p0 p1 p2 1 true = some S ∧
      (List.range (nbT1 p0 p1 p2)).map (applyM (nb1 p0 p1 p2) S x) = sides3.flatMap fun s => (dofs1 p0 p1 p2 s).map x) ∧
    (∀ hybrid, ∃ S, traceSelective p0 p1 p2 2 hybrid = some S ∧
      (List.range (nbT2 p0 p1 p2)).map (applyM (nb2 p0 p1 p2) S x) = sides3.flatMap fun s => (dofs2 p0 p1 p2 s).map x) ∧
    traceSelective p0 p1 p2 0 false = none ∧ traceSelective p0 p1 p2 1 false = none := by
  refine ⟨⟨_, rfl, ?_⟩, ⟨_, rfl, ?_⟩, ?_, rfl, rfl⟩
  · rw [applyM_trace _ _ _ (dofs0_lt p0 p1 p2) x]
    · simp [plusSigns, sides3]
    · simp [plusSigns, Three.dofs0, _root_.Mifem.ravelF_length, Three.nbT0]; ring
  · rw [applyM_trace _ _ _ (dofs1_lt p0 p1 p2) x]
    · simp [plusSigns, sides3]
    · simp [plusSigns, Three.dofs1, _root_.Mifem.ravelF_length, Three.nbT1]; ring
  · have : (List.range (nbT2 p0 p1 p2)).map (applyM (nb2 p0 p1 p2) (matOf (traceAux (dofs2 p0 p1 p2) 0 plusSigns)) x)
        = sides3.flatMap fun s => (dofs2 p0 p1 p2 s).map x := by
      rw [applyM_trace _ _ _ (dofs2_lt p0 p1 p2) x]
      · simp [plusSigns, sides3]
      · simp [plusSigns, Three.dofs2, _root_.Mifem.ravelF_length, Three.nbT2]; ring
    intro hybrid
    cases hybrid
    · exact ⟨_, rfl, this⟩
    · exact ⟨_, rfl, this⟩

/-- the two sides that meet in an edge. -/
def edgeSides : Edge → Side × Side
  | .WB => (.W, .B)
  | .EB => (.E, .B)
  | .WF => (.W, .F)
  | .EF => (.E, .F)
  | .NB => (.N, .B)
  | .SB => (.S, .B)
  | .NF => (.N, .F)
  | .SF => (.S, .F)
  | .NW => (.N, .W)
  | .SW => (.S, .W)
  | .NE => (.N, .E)
  | .SE => (.S, .E)

/-- the edges in the documented order. -/
def edges3 : List Edge := [.WB, .EB, .WF, .EF, .NB, .SB, .NF, .SF, .NW, .SW, .NE, .SE]

/-- the places of the 0-form on an edge. -/
def edgePl0 (p0 p1 p2 : Nat) : Edge → List Place
  | .WB => slice 0 (List.range (p0+1)) [0] [0]
  | .EB => slice 0 (List.range (p0+1)) [p1] [0]
  | .WF => slice 0 (List.range (p0+1)) [0] [p2]
  | .EF => slice 0 (List.range (p0+1)) [p1] [p2]
  | .NB => slice 0 [0] (List.range (p1+1)) [0]
  | .SB => slice 0 [p0] (List.range (p1+1)) [0]
  | .NF => slice 0 [0] (List.range (p1+1)) [p2]
  | .SF => slice 0 [p0] (List.range (p1+1)) [p2]
  | .NW => slice 0 [0] [0] (List.range (p2+1))
  | .SW => slice 0 [p0] [0] (List.range (p2+1))
  | .NE => slice 0 [0] [p1] (List.range (p2+1))
  | .SE => slice 0 [p0] [p1] (List.range (p2+1))

theorem edgeDofs0_eq (p0 p1 p2 : Nat) (e : Edge) : edgeDofs0 p0 p1 p2 e = (edgePl0 p0 p1 p2 e).map (enc0 p0 p1 p2) := by
  cases e <;> simp only [edgeDofs0, edgePl0, slice, List.flatMap_cons, List.flatMap_nil, List.append_nil, List.map_cons, List.map_nil, ← List.map_eq_flatMap, List.map_map] <;> rfl

/-- the places of the 1-form on an edge. -/
def edgePl1 (p0 p1 p2 : Nat) : Edge → List Place
  | .WB => slice 0 (List.range p0) [0] [0]
  | .EB => slice 0 (List.range p0) [p1] [0]
  | .WF => slice 0 (List.range p0) [0] [p2]
  | .EF => slice 0 (List.range p0) [p1] [p2]
  | .NB => slice 1 [0] (List.range p1) [0]
  | .SB => slice 1 [p0] (List.range p1) [0]
  | .NF => slice 1 [0] (List.range p1) [p2]
  | .SF => slice 1 [p0] (List.range p1) [p2]
  | .NW => slice 2 [0] [0] (List.range p2)
  | .SW => slice 2 [p0] [0] (List.range p2)
  | .NE => slice 2 [0] [p1] (List.range p2)
  | .SE => slice 2 [p0] [p1] (List.range p2)

theorem edgeDofs1_eq (p0 p1 p2 : Nat) (e : Edge) : edgeDofs1 p0 p1 p2 e = (edgePl1 p0 p1 p2 e).map (enc1 p0 p1 p2) := by
  cases e <;> simp only [edgeDofs1, edgePl1, slice, List.flatMap_cons, List.flatMap_nil, List.append_nil, List.map_cons, List.map_nil, ← List.map_eq_flatMap, List.map_map] <;> rfl

theorem edgePl0_iff (p0 p1 p2 : Nat) (e : Edge) (x : Place) :
    x ∈ edgePl0 p0 p1 p2 e ↔ x ∈ side0 p0 p1 p2 (edgeSides e).1 ∧ x ∈ side0 p0 p1 p2 (edgeSides e).2 := by
  obtain ⟨c, i, j, k⟩ := x
  cases e <;> simp only [edgePl0, side0, edgeSides, mem_slice, List.mem_range, List.mem_singleton] <;> omega

theorem edgePl1_iff (p0 p1 p2 : Nat) (e : Edge) (x : Place) :
    x ∈ edgePl1 p0 p1 p2 e ↔ x ∈ side1 p0 p1 p2 (edgeSides e).1 ∧ x ∈ side1 p0 p1 p2 (edgeSides e).2 := by
  obtain ⟨c, i, j, k⟩ := x
  cases e <;> simp only [edgePl1, side1, edgeSides, mem_slice, List.mem_range, List.mem_singleton, List.mem_append] <;> omega

theorem edge_inter {enc : Place → Nat} {valid : Place → Prop} (hinj : ∀ x y, valid x → valid y → enc x = enc y → x = y)
    {E A B : List Place} (h : ∀ x, x ∈ E ↔ x ∈ A ∧ x ∈ B) (hA : ∀ x ∈ A, valid x) (hB : ∀ x ∈ B, valid x) (d : Nat) :
    d ∈ E.map enc ↔ d ∈ A.map enc ∧ d ∈ B.map enc := by
  constructor
  · intro hd
    obtain ⟨x, hx, rfl⟩ := List.mem_map.1 hd
    exact ⟨List.mem_map.2 ⟨x, ((h x).1 hx).1, rfl⟩, List.mem_map.2 ⟨x, ((h x).1 hx).2, rfl⟩⟩
  · rintro ⟨ha, hb⟩
    obtain ⟨x, hx, rfl⟩ := List.mem_map.1 ha
    obtain ⟨y, hy, he⟩ := List.mem_map.1 hb
    have := hinj y x (hB y hy) (hA x hx) he
    subst this
    exact List.mem_map.2 ⟨y, (h y).2 ⟨hx, hy⟩, rfl⟩

theorem side0_valid (p0 p1 p2 : Nat) (s : Side) : ∀ x ∈ side0 p0 p1 p2 s, valid0 p0 p1 p2 x := fun x hx =>
  ((mem_side0 p0 p1 p2 x).1 ⟨s, hx⟩).1

theorem side1_valid (p0 p1 p2 : Nat) (s : Side) : ∀ x ∈ side1 p0 p1 p2 s, valid1 p0 p1 p2 x := fun x hx =>
  (split1 p0 p1 p2 x).1.2 (Or.inl ((mem_side1 p0 p1 p2 x).1 ⟨s, hx⟩))

/-- **C93, edges.** The dofs of an edge are exactly the dofs the form has on both sides that meet in it. -/
theorem c93_edge_dofs (p0 p1 p2 : Nat) (e : Edge) (d : Nat) :
    (d ∈ edgeDofs0 p0 p1 p2 e ↔ d ∈ dofs0 p0 p1 p2 (edgeSides e).1 ∧ d ∈ dofs0 p0 p1 p2 (edgeSides e).2) ∧
    (d ∈ edgeDofs1 p0 p1 p2 e ↔ d ∈ dofs1 p0 p1 p2 (edgeSides e).1 ∧ d ∈ dofs1 p0 p1 p2 (edgeSides e).2) := by
  rw [edgeDofs0_eq, edgeDofs1_eq, ← dofs0_eq, ← dofs0_eq, ← dofs1_eq, ← dofs1_eq]
  exact ⟨edge_inter (enc0_inj p0 p1 p2) (edgePl0_iff p0 p1 p2 e) (side0_valid p0 p1 p2 _) (side0_valid p0 p1 p2 _) d,
    edge_inter (enc1_inj p0 p1 p2) (edgePl1_iff p0 p1 p2 e) (side1_valid p0 p1 p2 _) (side1_valid p0 p1 p2 _) d⟩

/-- **C93, edges.** In the order of growing local numbers. -/
theorem c93_edge_sorted (p0 p1 p2 : Nat) (e : Edge) :
    (edgeDofs0 p0 p1 p2 e).Pairwise (· < ·) ∧ (edgeDofs1 p0 p1 p2 e).Pairwise (· < ·) := by
  constructor
  · cases e <;> simp only [edgeDofs0, List.pairwise_map] <;> refine List.Pairwise.imp_of_mem ?_ List.pairwise_lt_range <;>
      intro a b ha hb hab <;> simp only [List.mem_range] at ha hb <;> simp only [ln0, fIdx3] <;>
      first | nlinarith | nlinarith [Nat.mul_lt_mul_of_pos_left (Nat.mul_lt_mul_of_pos_left hab (Nat.succ_pos p1)) (Nat.succ_pos p0)]
  · cases e <;> simp only [edgeDofs1, List.pairwise_map] <;> refine List.Pairwise.imp_of_mem ?_ List.pairwise_lt_range <;>
      intro a b ha hb hab <;> simp only [List.mem_range] at ha hb <;> simp only [ln1c0, ln1c1, ln1c2, fIdx3] <;>
      first | nlinarith | nlinarith [Nat.mul_lt_mul_of_pos_left (Nat.mul_lt_mul_of_pos_left hab (Nat.succ_pos p1)) (Nat.succ_pos p0)]

/-- **C93, selective matrices of edge forms.** Applied to the local dofs of the form they list the dofs of the edges. -/
theorem c93_edge_selective (p0 p1 p2 : Nat) (R : Type) [CommRing R] (x : Nat → R) :
    (List.range (nbE0 p0 p1 p2)).map (applyM (nb0 p0 p1 p2) (edgeSel0 p0 p1 p2) x) = edges3.flatMap (fun e => (edgeDofs0 p0 p1 p2 e).map x) ∧
    (List.range (nbE1 p0 p1 p2)).map (applyM (nb1 p0 p1 p2) (edgeSel1 p0 p1 p2) x) = edges3.flatMap (fun e => (edgeDofs1 p0 p1 p2 e).map x) := by
  constructor
  · unfold edgeSel0
    rw [applyM_trace _ _ _ (fun e d hd => dofs0_lt p0 p1 p2 _ d ((c93_edge_dofs p0 p1 p2 e d).1.1 hd).1) x]
    · simp [edgeSigns, edges3]
    · simp [edgeSigns, edgeDofs0, nbE0]; ring
  · unfold edgeSel1
    rw [applyM_trace _ _ _ (fun e d hd => dofs1_lt p0 p1 p2 _ d ((c93_edge_dofs p0 p1 p2 e d).2.1 hd).1) x]
    · simp [edgeSigns, edges3]
    · simp [edgeSigns, edgeDofs1, nbE1]; ring

/-! ## dofs of local trace forms on sides -/

/-- the number of dofs on a side. -/
def onSideN (NS WE BF : Nat) : Side → Nat
  | .N => NS | .S => NS | .W => WE | .E => WE | .B => BF | .F => BF

/-- the dofs before a side. -/
def sideOffset (NS WE BF : Nat) (s : Side) : Nat := ((six.takeWhile (· ≠ s)).map (onSideN NS WE BF)).sum

theorem hybridIndices_eq (NS WE BF : Nat) (s : Side) :
    hybridIndices NS WE BF s = (sideOffset NS WE BF s, sideOffset NS WE BF s + onSideN NS WE BF s) := by
  cases s <;> simp [hybridIndices, sideOffset, six, onSideN] <;> omega

/-- several calls with one cache. -/
def manySides (NS WE BF : Nat) (gv : Nat → List Nat) : Cache → List (Nat × Side) → Cache × List (Option (List Nat))
  | c, [] => (c, [])
  | c, ms :: rest =>
    let r := sideDofs NS WE BF c (gv ms.1) ms.2
    let q := manySides NS WE BF gv r.1 rest
    (q.1, r.2 :: q.2)
@[inherit_doc manySides] def manyLocal (NS WE BF : Nat) : Cache → List Side → Cache × List (List Nat)
  | c, [] => (c, [])
  | c, s :: rest =>
    let r := localDofs NS WE BF c s
    let q := manyLocal NS WE BF r.1 rest
    (q.1, r.2 :: q.2)

/-- what a side should get: the block of the side. -/
def blockOf (NS WE BF : Nat) (v : List Nat) (s : Side) : List Nat := (v.drop (sideOffset NS WE BF s)).take (onSideN NS WE BF s)

theorem drop_take_block (v : List Nat) (a n : Nat) : (v.take (a + n)).drop a = (v.drop a).take n := by
  rw [List.drop_take]; congr 1; omega

theorem manySides_ok (NS WE BF : Nat) (gv : Nat → List Nat) (c : Cache)
    (hc : ∀ s l, c s = some l → l = [(hybridIndices NS WE BF s).1, (hybridIndices NS WE BF s).2]) (calls : List (Nat × Side)) :
    (manySides NS WE BF gv c calls).2 = calls.map fun ms => some (blockOf NS WE BF (gv ms.1) ms.2) := by
  induction calls generalizing c with
  | nil => rfl
  | cons ms rest ih =>
    obtain ⟨m, s⟩ := ms
    have hnew : ∀ t l, (sideDofs NS WE BF c (gv m) s).1 t = some l → l = [(hybridIndices NS WE BF t).1, (hybridIndices NS WE BF t).2] := by
      intro t l h
      unfold sideDofs at h
      cases hcs : c s with
      | some l' => simp only [hcs] at h; exact hc t l h
      | none =>
        simp only [hcs] at h
        by_cases hts : t = s
        · subst hts; simpa using h.symm
        · rw [if_neg hts] at h; exact hc t l h
    simp only [manySides, List.map_cons, ih _ hnew, List.cons.injEq, and_true]
    unfold sideDofs
    cases hcs : c s with
    | some l' =>
      simp only [hcs]
      rw [hc s l' hcs, hybridIndices_eq]
      simp only [blockOf, drop_take_block]
    | none =>
      simp only [if_true]
      rw [hybridIndices_eq]
      simp only [blockOf, drop_take_block]

theorem manyLocal_ok (NS WE BF : Nat) (c : Cache)
    (hc : ∀ s l, c s = some l → l = List.range' (sideOffset NS WE BF s) (onSideN NS WE BF s)) (calls : List Side) :
    (manyLocal NS WE BF c calls).2 = calls.map fun s => List.range' (sideOffset NS WE BF s) (onSideN NS WE BF s) := by
  induction calls generalizing c with
  | nil => rfl
  | cons s rest ih =>
    have hnew : ∀ t l, (localDofs NS WE BF c s).1 t = some l → l = List.range' (sideOffset NS WE BF t) (onSideN NS WE BF t) := by
      intro t l h
      unfold localDofs at h
      cases hcs : c s with
      | some l' => simp only [hcs] at h; exact hc t l h
      | none =>
        simp only [hcs, hybridIndices_eq, Nat.add_sub_cancel_left] at h
        by_cases hts : t = s
        · subst hts; simpa using h.symm
        · rw [if_neg hts] at h; exact hc t l h
    simp only [manyLocal, List.map_cons, ih _ hnew, List.cons.injEq, and_true]
    unfold localDofs
    cases hcs : c s with
    | some l' => exact hc s l' hcs
    | none => simp only [hybridIndices_eq, Nat.add_sub_cancel_left]

/-- **C93, sides of hybrid local traces.** A form asked only for the numbers of dofs on sides of elements, any number of times and
in any order, answers with the part of the numbering of the element that belongs to the side; the six parts are the numbering. -/
theorem c93_side_dofs_partial (NS WE BF : Nat) (n : Nat → Nat) (calls : List (Nat × Side)) :
    (manySides NS WE BF (fun m => localTraceVec (2 * NS + 2 * WE + 2 * BF) (n m)) (fun _ => none) calls).2 =
      (calls.map fun ms => some (blockOf NS WE BF (localTraceVec (2 * NS + 2 * WE + 2 * BF) (n ms.1)) ms.2)) ∧
    ∀ m, six.flatMap (blockOf NS WE BF (localTraceVec (2 * NS + 2 * WE + 2 * BF) m)) = localTraceVec (2 * NS + 2 * WE + 2 * BF) m := by
  refine ⟨manySides_ok NS WE BF _ _ (by simp) calls, ?_⟩
  intro m
  have hb : ∀ s, blockOf NS WE BF (localTraceVec (2 * NS + 2 * WE + 2 * BF) m) s =
      List.range' (m * (2 * NS + 2 * WE + 2 * BF) + sideOffset NS WE BF s) (onSideN NS WE BF s) := by
    intro s
    have hle : sideOffset NS WE BF s + onSideN NS WE BF s ≤ 2 * NS + 2 * WE + 2 * BF := by
      cases s <;> simp [sideOffset, six, onSideN] <;> omega
    unfold blockOf localTraceVec
    apply List.ext_getElem
    · simp; omega
    · intro q h1 h2
      simp
  simp only [hb, six, List.flatMap_cons, List.flatMap_nil, List.append_nil]
  unfold localTraceVec
  generalize m * (2 * NS + 2 * WE + 2 * BF) = a
  have hsplit : ∀ b c d : Nat, b + c = d → List.range' a d = List.range' a b ++ List.range' (a + b) c := by
    rintro b c d rfl
    exact List.range'_append_1.symm
  rw [hsplit (2*NS+2*WE+BF) BF _ (by omega), hsplit (2*NS+2*WE) BF _ rfl, hsplit (2*NS+WE) WE _ (by omega), hsplit (2*NS) WE _ rfl,
    hsplit NS NS _ (by omega)]
  simp only [List.append_assoc]
  have e : ∀ s, sideOffset NS WE BF s = (hybridIndices NS WE BF s).1 := fun s => by rw [hybridIndices_eq]
  simp only [e, hybridIndices, onSideN, Nat.add_zero]

/-- **C93, sides of hybrid local traces.** Asked only for the local numbers of dofs on sides it answers with the local numbers. -/
theorem c93_local_side_dofs_partial (NS WE BF : Nat) (calls : List Side) :
    (manyLocal NS WE BF (fun _ => none) calls).2 = calls.map fun s => List.range' (sideOffset NS WE BF s) (onSideN NS WE BF s) :=
  manyLocal_ok NS WE BF _ (by simp) calls

/-- **C93, sides of hybrid local traces: asked for both.** The two answers share one store but not its contents: asked for the
local numbers first, the numbers of the same side cannot be had if there are not two of them (and are wrong if there are); asked for
the numbers first, the local numbers are two, the first and past-the-last. -/
theorem c93_side_cache_counterexample :
    (∀ (NS WE BF : Nat) (gv : List Nat) (s : Side), onSideN NS WE BF s ≠ 2 →
      (sideDofs NS WE BF (localDofs NS WE BF (fun _ => none) s).1 gv s).2 = none) ∧
    (∀ (NS WE BF : Nat) (gv : List Nat) (s : Side),
      (localDofs NS WE BF (sideDofs NS WE BF (fun _ => none) gv s).1 s).2 = [sideOffset NS WE BF s, sideOffset NS WE BF s + onSideN NS WE BF s]) ∧
    (sideDofs 2 2 4 (localDofs 2 2 4 (fun _ => none) .S).1 (List.range 16) .S).2 = some [2] := by
  refine ⟨?_, ?_, by decide⟩
  · intro NS WE BF gv s h
    have hd : (hybridIndices NS WE BF s).2 - (hybridIndices NS WE BF s).1 = onSideN NS WE BF s := by rw [hybridIndices_eq]; simp
    simp only [localDofs, sideDofs, hd, if_true]
    rcases hn : onSideN NS WE BF s with _ | _ | _ | n
    · rfl
    · rfl
    · exact absurd hn h
    · rfl
  · intro NS WE BF gv s
    simp only [sideDofs, localDofs, if_true]
    rw [hybridIndices_eq]

/-- **C93, sides of non-hybrid local traces.** The numbers of the dofs of a side are the numbers its entries of the local gathering have. -/
theorem c93_side_dofs_nonhybrid {nb nbl m : Nat} {ild : List Nat} {lg : List (Side × List Nat)} {dofs : Side → List Nat}
    (hck : check lg = some nbl) (hl : SideLayout nb ild lg dofs) (s : Side) :
    ∃ idx, (s, idx) ∈ lg ∧ sideDofsNon lg (localTraceVec nbl m) s = some (idx.map (m * nbl + ·)) := by
  obtain ⟨L, rfl⟩ := eq_six hl.keys
  have hmem : (s, L s) ∈ six.map fun s => (s, L s) := List.mem_map.2 ⟨s, mem_six s, rfl⟩
  refine ⟨L s, hmem, ?_⟩
  obtain ⟨_, _, hck⟩ := check_spec hck
  have hr : ∀ r ∈ L s, r < nbl := fun r h => (hck r).1 ⟨_, hmem, h⟩
  unfold sideDofsNon
  rw [lookup_six, Option.bind_some]
  generalize L s = l at hr
  clear hmem
  induction l with
  | nil => rfl
  | cons a l ih =>
    rw [List.mapM_cons, ih fun r h => hr r (by simp [h])]
    have : (localTraceVec nbl m)[a]? = some (m * nbl + a) := by
      unfold localTraceVec
      rw [List.getElem?_range' (hr a (by simp)), Nat.one_mul]
    rw [this]
    rfl

/-! ## examples -/

/-- two elements of degree (2, 2, 1) in a row, on two cores (`exEmap83`): the hypotheses of the gluing theorems hold. -/
example : (∀ comps ∈ [comps3d0, comps3d2], (naive (formLayout [2, 2, 1] comps) exEmap83 [[0], [1]]).isSome) ∧
    (∀ comps ∈ [comps3d0, comps3d2], ∀ l ∈ naiveGM (places fOrder [2, 2, 1] comps) (exOut83 comps), ∀ x ∈ l, x.2.Nodup) ∧
    ¬(2 = 1 ∧ 2 = 1 ∧ 1 = 1) := by decide +kernel

/-- rows 0 to 3 of the connection of 2-forms of degree (1, 1, 2), applied to the numbers of the dofs: minus on the north side. -/
example : (connection2 1 1 2).map (fun TT => (List.range 4).map (applyM 12 TT.1 (fun i => (i : Int)))) = some [0, -2, 1, 3] := by decide +kernel

/-- the call in another order. -/
example : (call 1 1 2 [⟨.trace, 2, false, 0, 7⟩, ⟨.form, 2, true, 0, 7⟩, ⟨.localTrace, 2, false, 0, 7⟩]).isSome ∧
    (call 1 1 2 [⟨.trace, 2, false, 0, 7⟩, ⟨.form, 2, false, 0, 7⟩, ⟨.localTrace, 2, false, 0, 7⟩]).isNone ∧
    (call 1 1 2 [⟨.trace, 1, false, 0, 7⟩, ⟨.form, 1, true, 0, 7⟩, ⟨.localTrace, 1, false, 0, 7⟩]).isNone := by decide +kernel

/-- the edge NE of 0-forms of degree (1, 2, 1). -/
example : edgeDofs0 1 2 1 .NE = [4, 10] ∧ edgeDofs1 1 2 1 .NE = [18] := by decide

/-- degree (2, 1, 2): two dofs on north, four on west, two on back of a 2-local-trace; sides asked for twice. -/
example : (manySides 2 4 2 (fun m => localTraceVec 16 m) (fun _ => none) [(1, .W), (0, .W), (1, .F)]).2 =
    [some [20, 21, 22, 23], some [4, 5, 6, 7], some [30, 31]] := by decide

end Mifem.Props
