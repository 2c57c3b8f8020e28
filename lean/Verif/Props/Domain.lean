import Verif.Lemmas.Domain
import Verif.Lemmas.Periodic
import Mathlib.Tactic.IntervalCases
import Mathlib.Tactic.Ring

/-!
# C80: the region map
-/

namespace Mifem.Props

open Mifem.Domain
open Mifem.Mesh (opp)

/-- Corners of side `j`, in increasing order: corner `t` is at the end of direction `d` if the digit `d` of `t` in base 2 is 1. -/
def sideAt (dim j : ℕ) : List ℕ := (List.range (2 ^ dim)).filter fun t => t / 2 ^ (j / 2) % 2 = j % 2

theorem sideCorners_eq (dim j : ℕ) (hd : dim = 2 ∨ dim = 3) (hj : j < 2 * dim) : sideCorners dim j = sideAt dim j := by
  rcases hd with rfl | rfl <;> interval_cases j <;> decide

/-- Two points are near: some corner is close to both. -/
def Near {C : Type} (close : C → C → Bool) (c d : C) : Prop := ∃ p, close p c = true ∧ close p d = true

/-- The corners of side `j` of a region with corners `c` and those of side `k` of a region with corners `d` are related, each
corner with the corresponding one. -/
def SidesRel {C : Type} (R : C → C → Prop) (dim : ℕ) (c : List C) (j : ℕ) (d : List C) (k : ℕ) : Prop :=
  List.Forall₂ (fun t t' => ∀ a ∈ c[t]?, ∀ b ∈ d[t']?, R a b) (sideAt dim j) (sideAt dim k)

/-- Side `j` of region `r` is in the list of boundary `b`. -/
def Listed {ν : Type} (bnds : List (List (ν × ℕ))) (r : ν) (j b : ℕ) : Prop := ∃ l, bnds[b]? = some l ∧ (r, j) ∈ l

/-! ## Corner numbers -/

/-- **C80**: corners at the same place have the same number in all regions, corners with the same number are near. -/
theorem c80_corners {C ν : Type} [DecidableEq C] (close : C → C → Bool) (hrefl : ∀ c, close c c = true) (regs : List (ν × List C)) :
    ∃ num : C → ℕ, numberRegions close [] regs = (regs.map fun x => (x.1, x.2.map num)) ∧
      ∀ x ∈ regs, ∀ y ∈ regs, ∀ c ∈ x.2, ∀ d ∈ y.2, num c = num d → Near close c d := by
  obtain ⟨pool, h1, h2, h3⟩ := numberRegions_eq close hrefl regs [] List.Pairwise.nil
  simp only [List.nil_append] at h2 h3
  refine ⟨N close pool, h3, fun x hx y hy c hc d hd e => ?_⟩
  have hp : ∀ c, (∃ p ∈ pool, close p c = true) → ∃ hlt : N close pool c < pool.length, close (pool[N close pool c]'hlt) c = true := by
    intro c hc
    have hlt := List.findIdx_lt_length.2 hc
    exact ⟨hlt, List.findIdx_getElem (w := hlt)⟩
  obtain ⟨l1, e1⟩ := hp c (h2 x hx c hc)
  obtain ⟨l2, e2⟩ := hp d (h2 y hy d hd)
  refine ⟨_, e1, ?_⟩
  have : pool[N close pool c]'l1 = pool[N close pool d]'l2 := by congr 1
  rw [this]
  exact e2

/-- With corners that are close only when they are equal: numbers are equal exactly for equal corners. -/
theorem c80_corners_exact {C ν : Type} [DecidableEq C] (close : C → C → Bool) (hrefl : ∀ c, close c c = true) (regs : List (ν × List C))
    (hex : ∀ x ∈ regs, ∀ y ∈ regs, ∀ c ∈ x.2, ∀ d ∈ y.2, close c d = true → c = d) :
    ∃ num : C → ℕ, numberRegions close [] regs = (regs.map fun x => (x.1, x.2.map num)) ∧
      ∀ x ∈ regs, ∀ y ∈ regs, ∀ c ∈ x.2, ∀ d ∈ y.2, num c = num d → c = d := by
  obtain ⟨pool, h1, h2, h3⟩ := numberRegions_eq close hrefl regs [] List.Pairwise.nil
  simp only [List.nil_append] at h2 h3
  refine ⟨N close pool, h3, fun x hx y hy c hc d hd e => ?_⟩
  have hp : ∀ x ∈ regs, ∀ c ∈ x.2, ∃ hlt : N close pool c < pool.length, pool[N close pool c]'hlt = c := by
    intro x hx c hc
    have hlt := List.findIdx_lt_length.2 (h2 x hx c hc)
    have hcl : close (pool[N close pool c]'hlt) c = true := List.findIdx_getElem (w := hlt)
    obtain ⟨y, hy, hcy⟩ := h1 _ (List.getElem_mem hlt)
    exact ⟨hlt, hex y hy x hx _ hcy c hc hcl⟩
  obtain ⟨l1, e1⟩ := hp x hx c hc
  obtain ⟨l2, e2⟩ := hp y hy d hd
  rw [← e1, ← e2]
  congr 1

/-! ## The map -/

theorem sideNumbers_rel {C : Type} (num : C → ℕ) (R : C → C → Prop) (dim : ℕ) (hd : dim = 2 ∨ dim = 3) (c d : List C) (hc : c.length = 2 ^ dim) (hdl : d.length = 2 ^ dim)
    (hR : ∀ a ∈ c, ∀ b ∈ d, num a = num b → R a b) (j k : ℕ) (hj : j < 2 * dim) (hk : k < 2 * dim)
    (h : sideNumbers dim (c.map num) j = sideNumbers dim (d.map num) k) : SidesRel R dim c j d k := by
  unfold sideNumbers at h
  rw [sideCorners_eq dim j hd hj, sideCorners_eq dim k hd hk, ← List.forall₂_eq_eq_eq, List.forall₂_map_left_iff, List.forall₂_map_right_iff] at h
  refine List.Forall₂.imp (fun t t' e a ha b hb => ?_) h
  have ha' := List.getElem?_eq_some_iff.1 ha
  have hb' := List.getElem?_eq_some_iff.1 hb
  obtain ⟨l1, rfl⟩ := ha'
  obtain ⟨l2, rfl⟩ := hb'
  refine hR _ (List.getElem_mem _) _ (List.getElem_mem _) ?_
  rw [List.getD_eq_getElem _ _ (by simpa using l1), List.getD_eq_getElem _ _ (by simpa using l2)] at e
  simpa using e

theorem sideAt_lt (dim j t : ℕ) (h : t ∈ sideAt dim j) : t < 2 ^ dim := by
  unfold sideAt at h
  exact List.mem_range.1 (List.mem_filter.1 h).1

theorem sideNumbers_of_eq {C : Type} (num : C → ℕ) (dim : ℕ) (hd : dim = 2 ∨ dim = 3) (c d : List C) (hc : c.length = 2 ^ dim) (hdl : d.length = 2 ^ dim)
    (j k : ℕ) (hj : j < 2 * dim) (hk : k < 2 * dim) (h : SidesRel (· = ·) dim c j d k) :
    sideNumbers dim (c.map num) j = sideNumbers dim (d.map num) k := by
  unfold sideNumbers
  rw [sideCorners_eq dim j hd hj, sideCorners_eq dim k hd hk, ← List.forall₂_eq_eq_eq, List.forall₂_map_left_iff, List.forall₂_map_right_iff]
  unfold SidesRel at h
  have hl := List.Forall₂.length_eq h
  rw [List.forall₂_iff_get] at h ⊢
  refine ⟨hl, fun i h1 h2 => ?_⟩
  have l1 := sideAt_lt dim j _ (List.get_mem _ ⟨i, h1⟩)
  have l2 := sideAt_lt dim k _ (List.get_mem _ ⟨i, h2⟩)
  have := h.2 i h1 h2 _ (List.getElem?_eq_getElem (by rw [hc]; exact l1)) _ (List.getElem?_eq_getElem (by rw [hdl]; exact l2))
  rw [List.getD_eq_getElem _ _ (by simpa [hc] using l1), List.getD_eq_getElem _ _ (by simpa [hdl] using l2)]
  simp only [List.getElem_map]
  exact congrArg num this

theorem mem_listed {ν : Type} [DecidableEq ν] (bnds : List (List (ν × ℕ))) (r : ν) (j : ℕ) (x : Att ν) :
    x ∈ listed bnds r j ↔ ∃ b, x = .bnd b ∧ Listed bnds r j b := by
  unfold listed Listed
  simp only [List.mem_flatMap]
  constructor
  · rintro ⟨⟨l, b⟩, hl, y, hy, hx⟩
    split_ifs at hx with e
    · subst e
      refine ⟨b, by simpa using hx, l, ?_, hy⟩
      exact List.mem_zipIdx_iff_getElem?.1 hl
    · exact absurd hx List.not_mem_nil
  · rintro ⟨b, rfl, l, hl, hy⟩
    exact ⟨(l, b), List.mem_zipIdx_iff_getElem?.2 hl, _, hy, by simp⟩

theorem mem_found {ν : Type} [DecidableEq ν] (dim : ℕ) (nums : List (ν × List ℕ)) (r : ν) (c : List ℕ) (j : ℕ) (x : Att ν) :
    x ∈ found dim nums r c j ↔ ∃ s d k, x = .reg s ∧ (s, d) ∈ nums ∧ s ≠ r ∧ k < 2 * dim ∧ sideNumbers dim c j = sideNumbers dim d k := by
  unfold found
  simp only [List.mem_flatMap]
  constructor
  · rintro ⟨⟨s, d⟩, hs, hx⟩
    split_ifs at hx with e
    · exact absurd hx List.not_mem_nil
    · obtain ⟨k, hk, hx⟩ := List.mem_flatMap.1 hx
      split_ifs at hx with e2
      · exact ⟨s, d, k, by simpa using hx, hs, e, List.mem_range.1 hk, e2⟩
      · exact absurd hx List.not_mem_nil
  · rintro ⟨s, d, k, rfl, hs, hne, hk, e⟩
    refine ⟨(s, d), hs, ?_⟩
    rw [if_neg hne]
    exact List.mem_flatMap.2 ⟨k, List.mem_range.2 hk, by simp [e]⟩

theorem nodup_unique {α β : Type} {l : List (α × β)} (h : (l.map Prod.fst).Nodup) {a : α} {b b' : β} (h1 : (a, b) ∈ l) (h2 : (a, b') ∈ l) : b = b' := by
  have := List.inj_on_of_nodup_map h h1 h2 rfl
  exact (Prod.mk.inj this).2

theorem initial_eq {ν : Type} [DecidableEq ν] (dim : ℕ) (nums : List (ν × List ℕ)) (hn : (nums.map Prod.fst).Nodup) (bnds : List (List (ν × ℕ))) (r : ν) (c : List ℕ)
    (hr : (r, c) ∈ nums) (j : ℕ) : initial dim nums bnds r j = found dim nums r c j ++ listed bnds r j := by
  unfold initial
  cases hf : nums.find? fun x => x.1 = r with
  | none =>
    have := List.find?_eq_none.1 hf _ hr
    simp at this
  | some x =>
    have h1 := List.mem_of_find?_eq_some hf
    have h2 : x.1 = r := by simpa using List.find?_some hf
    have : x.2 = c := nodup_unique hn (a := r) (by rw [← h2]; exact h1) hr
    rw [← this]

/-- **C80.** The region map, if it is accepted (regions whose common sides do not match raise): a side that is listed in a boundary
has this boundary, and is listed once; any other side has one neighbour, which is another region that has this one at its
opposite side, and the corners of the two sides are at the same places.  (Listed sides: with a side, every side that
coincides with it must be listed, see `c80_listing_needed`.) -/
theorem c80_region_map_partial {C ν : Type} [DecidableEq C] [DecidableEq ν] (dim : ℕ) (hd : dim = 2 ∨ dim = 3) (close : C → C → Bool) (hrefl : ∀ c, close c c = true)
    (regs : List (ν × List C)) (hn : (regs.map Prod.fst).Nodup) (hlen : ∀ x ∈ regs, x.2.length = 2 ^ dim) (bnds : List (List (ν × ℕ)))
    (hcl : ∀ x ∈ regs, ∀ y ∈ regs, ∀ j < 2 * dim, ∀ k < 2 * dim, SidesRel (Near close) dim x.2 j y.2 k → ∀ b, Listed bnds x.1 j b → ∃ b', Listed bnds y.1 k b')
    (rm : ν → ℕ → Entry ν) (h : regionMap dim close regs bnds = some rm) (r : ν) (c : List C) (hr : (r, c) ∈ regs) (j : ℕ) (hj : j < 2 * dim) :
    (∃ b, rm r j = .done (.bnd b) ∧ ∀ b', Listed bnds r j b' ↔ b' = b) ∨
    (∃ s d, (s, d) ∈ regs ∧ s ≠ r ∧ rm r j = .done (.reg s) ∧ rm s (opp j) = .done (.reg r) ∧ (∀ b, ¬ Listed bnds r j b) ∧
      SidesRel (Near close) dim c j d (opp j)) := by
  obtain ⟨num, hnum, hnear⟩ := c80_corners close hrefl regs
  have hnn : ((numberRegions close [] regs).map Prod.fst).Nodup := by
    rw [hnum, List.map_map]; exact hn
  have hmem : ∀ {s d}, (s, d) ∈ regs → (s, d.map num) ∈ numberRegions close [] regs := by
    intro s d hs
    rw [hnum]
    exact List.mem_map.2 ⟨_, hs, rfl⟩
  have hmem' : ∀ {s d'}, (s, d') ∈ numberRegions close [] regs → ∃ d, (s, d) ∈ regs ∧ d' = d.map num := by
    intro s d' hs
    rw [hnum] at hs
    obtain ⟨⟨s', d⟩, h1, e⟩ := List.mem_map.1 hs
    obtain ⟨rfl, rfl⟩ := Prod.mk.inj e
    exact ⟨d, h1, rfl⟩
  have hin : ∀ {s d}, (s, d) ∈ regs → s ∈ regs.map Prod.fst := fun hs => List.mem_map.2 ⟨_, hs, rfl⟩
  have hini : ∀ {s d}, (s, d) ∈ regs → ∀ k, initial dim (numberRegions close [] regs) bnds s k =
      found dim (numberRegions close [] regs) s (d.map num) k ++ listed bnds s k := fun hs k => initial_eq dim _ hnn bnds _ _ (hmem hs) k
  obtain ⟨x, hx, hres, hpair⟩ := regionMap_some dim close regs bnds rm h r (hin hr) j hj
  rw [hini hr] at hres
  cases x with
  | bnd b =>
    left
    refine ⟨b, hx, fun b' => ?_⟩
    have hl : ∀ b', Listed bnds r j b' ↔ Att.bnd b' ∈ found dim (numberRegions close [] regs) r (c.map num) j ++ listed bnds r j := by
      intro b'
      rw [List.mem_append, mem_listed]
      constructor
      · intro h'; exact .inr ⟨b', rfl, h'⟩
      · rintro (h' | ⟨b'', e, h'⟩)
        · obtain ⟨s, d, k, e, -⟩ := (mem_found _ _ _ _ _ _).1 h'
          exact absurd e (by simp)
        · rw [Att.bnd.injEq] at e
          rw [e]; exact h'
    rw [hl]
    rcases hres with e | ⟨b0, s, e | e, hb⟩
    · rw [e]; simp
    · rw [e]; simp at hb; rw [hb]; simp
    · rw [e]; simp at hb; rw [hb]; simp
  | reg s =>
    right
    have e0 : found dim (numberRegions close [] regs) r (c.map num) j ++ listed bnds r j = [.reg s] := by
      rcases hres with e | ⟨b0, s', -, hb⟩
      · exact e
      · exact absurd hb (by simp)
    have hun : ∀ b, ¬ Listed bnds r j b := by
      intro b hb
      have : Att.bnd b ∈ found dim (numberRegions close [] regs) r (c.map num) j ++ listed bnds r j :=
        List.mem_append_right _ ((mem_listed _ _ _ _).2 ⟨b, rfl, hb⟩)
      rw [e0] at this
      simp at this
    have hsm : Att.reg s ∈ found dim (numberRegions close [] regs) r (c.map num) j := by
      have : Att.reg s ∈ found dim (numberRegions close [] regs) r (c.map num) j ++ listed bnds r j := by rw [e0]; simp
      rcases List.mem_append.1 this with h' | h'
      · exact h'
      · obtain ⟨b, e, -⟩ := (mem_listed _ _ _ _).1 h'
        exact absurd e (by simp)
    obtain ⟨s', d', k, e, hs, hne, hk, hside⟩ := (mem_found _ _ _ _ _ _).1 hsm
    rw [Att.reg.injEq] at e
    subst e
    obtain ⟨d, hsd, rfl⟩ := hmem' hs
    have hrel : SidesRel (Near close) dim c j d k :=
      sideNumbers_rel num (Near close) dim hd c d (hlen _ hr) (hlen _ hsd) (fun a ha b hb e => hnear _ hr _ hsd a ha b hb e) j k hj hk hside
    have hrel' : SidesRel (Near close) dim d k c j :=
      sideNumbers_rel num (Near close) dim hd d c (hlen _ hsd) (hlen _ hr) (fun a ha b hb e => hnear _ hsd _ hr a ha b hb e) k j hk hj hside.symm
    -- the other side
    obtain ⟨y, hy, hresy, hpairy⟩ := regionMap_some dim close regs bnds rm h s (hin hsd) k hk
    rw [hini hsd] at hresy
    have hrin : Att.reg r ∈ found dim (numberRegions close [] regs) s (d.map num) k ++ listed bnds s k :=
      List.mem_append_left _ ((mem_found _ _ _ _ _ _).2 ⟨r, c.map num, j, rfl, hmem hr, fun e => hne e.symm, hj, hside.symm⟩)
    have hyr : y = .reg r := by
      rcases hresy with e | ⟨b0, s', e, hb⟩
      · rw [e] at hrin; simp at hrin; exact hrin.symm
      · exfalso
        have : Att.bnd b0 ∈ found dim (numberRegions close [] regs) s (d.map num) k ++ listed bnds s k := by
          rcases e with e | e <;> rw [e] <;> simp
        rcases List.mem_append.1 this with h' | h'
        · obtain ⟨_, _, _, e, -⟩ := (mem_found _ _ _ _ _ _).1 h'
          exact absurd e (by simp)
        · obtain ⟨b, e, hb⟩ := (mem_listed _ _ _ _).1 h'
          obtain ⟨b', hb'⟩ := hcl _ hsd _ hr k hk j hj hrel' b hb
          exact hun b' hb'
    subst hyr
    have f1 := hpair s rfl
    have f2 := hpairy r rfl
    have g1 : rm s (opp j) = .done (.reg r) := by simpa using List.find?_some f1
    have hoj : opp j < 2 * dim := List.mem_range.1 (List.mem_of_find?_eq_some f1)
    obtain ⟨z, hz, -, hpairz⟩ := regionMap_some dim close regs bnds rm h s (hin hsd) (opp j) hoj
    rw [g1] at hz
    simp only [Entry.done.injEq] at hz
    have f3 := hpairz r hz.symm
    rw [f2] at f3
    have hkj : k = opp j := by
      have := congrArg opp (Option.some.inj f3)
      rwa [Mesh.opp_opp, Mesh.opp_opp] at this
    subst hkj
    exact ⟨s, d, hsd, hne, hx, g1, hun, hrel⟩

/-- **C80**, completeness: a side that is not listed and has the corners of the opposite side of another region is attached to
it. -/
theorem c80_neighbour {C ν : Type} [DecidableEq C] [DecidableEq ν] (dim : ℕ) (hd : dim = 2 ∨ dim = 3) (close : C → C → Bool) (hrefl : ∀ c, close c c = true)
    (regs : List (ν × List C)) (hn : (regs.map Prod.fst).Nodup) (hlen : ∀ x ∈ regs, x.2.length = 2 ^ dim) (bnds : List (List (ν × ℕ)))
    (rm : ν → ℕ → Entry ν) (h : regionMap dim close regs bnds = some rm) (r s : ν) (c d : List C) (hr : (r, c) ∈ regs) (hs : (s, d) ∈ regs) (hrs : s ≠ r)
    (j k : ℕ) (hj : j < 2 * dim) (hk : k < 2 * dim) (hsame : SidesRel (· = ·) dim c j d k) (hun : ∀ b, ¬ Listed bnds r j b) : rm r j = .done (.reg s) := by
  obtain ⟨num, hnum, -⟩ := c80_corners close hrefl regs
  have hnn : ((numberRegions close [] regs).map Prod.fst).Nodup := by
    rw [hnum, List.map_map]; exact hn
  have hmem : ∀ {s d}, (s, d) ∈ regs → (s, d.map num) ∈ numberRegions close [] regs := by
    intro s d hs
    rw [hnum]
    exact List.mem_map.2 ⟨_, hs, rfl⟩
  obtain ⟨x, hx, hres, -⟩ := regionMap_some dim close regs bnds rm h r (List.mem_map.2 ⟨_, hr, rfl⟩) j hj
  rw [initial_eq dim _ hnn bnds _ _ (hmem hr)] at hres
  have hin : Att.reg s ∈ found dim (numberRegions close [] regs) r (c.map num) j ++ listed bnds r j :=
    List.mem_append_left _ ((mem_found _ _ _ _ _ _).2 ⟨s, d.map num, k, rfl, hmem hs, hrs, hk,
      sideNumbers_of_eq num dim hd c d (hlen _ hr) (hlen _ hs) j k hj hk hsame⟩)
  rcases hres with e | ⟨b, s', e, -⟩
  · rw [e] at hin
    simp at hin
    rw [hx, hin]
  · exfalso
    have : Att.bnd b ∈ found dim (numberRegions close [] regs) r (c.map num) j ++ listed bnds r j := by
      rcases e with e | e <;> rw [e] <;> simp
    rcases List.mem_append.1 this with h' | h'
    · obtain ⟨_, _, _, e, -⟩ := (mem_found _ _ _ _ _ _).1 h'
      exact absurd e (by simp)
    · obtain ⟨b, -, hb⟩ := (mem_listed _ _ _ _).1 h'
      exact hun b hb

/-! ## Names and positions: the hypotheses of C36 -/

/-- The map with positions in the list of names. -/
def posMap {ν : Type} [DecidableEq ν] (names : List ν) (rm : ν → ℕ → Entry ν) (r j : ℕ) : Mesh.Att :=
  match names[r]? with
  | none => .bnd 0
  | some n => match rm n j with
    | .done (.reg s) => .other (names.idxOf s)
    | .done (.bnd b) => .bnd b
    | .pend _ => .bnd 0

theorem reg_mem {C ν : Type} [DecidableEq C] [DecidableEq ν] (dim : ℕ) (close : C → C → Bool) (hrefl : ∀ c, close c c = true)
    (regs : List (ν × List C)) (bnds : List (List (ν × ℕ))) (r s : ν) (j : ℕ)
    (hres : Res (initial dim (numberRegions close [] regs) bnds r j) (.reg s)) : s ∈ regs.map Prod.fst := by
  obtain ⟨num, hnum, -⟩ := c80_corners close hrefl regs
  rcases hres with e | ⟨_, _, _, e⟩
  · have hs : Att.reg s ∈ initial dim (numberRegions close [] regs) bnds r j := by rw [e]; simp
    unfold initial at hs
    rcases List.mem_append.1 hs with hs | hs
    · split at hs
      · obtain ⟨s', d, k, e, h1, -⟩ := (mem_found _ _ _ _ _ _).1 hs
        rw [Att.reg.injEq] at e
        subst e
        rw [hnum] at h1
        obtain ⟨x, hx, e⟩ := List.mem_map.1 h1
        exact List.mem_map.2 ⟨x, hx, (Prod.mk.inj e).1⟩
      · exact absurd hs List.not_mem_nil
    · obtain ⟨b, e, -⟩ := (mem_listed _ _ _ _).1 hs
      exact absurd e (by simp)
  · exact absurd e (by simp)

/-- **C80**: the map of an accepted domain is symmetric, which is what C36 assumes. -/
theorem c80_symmetric {C ν : Type} [DecidableEq C] [DecidableEq ν] (dim : ℕ) (close : C → C → Bool) (hrefl : ∀ c, close c c = true)
    (regs : List (ν × List C)) (hn : (regs.map Prod.fst).Nodup) (bnds : List (List (ν × ℕ))) (rm : ν → ℕ → Entry ν)
    (h : regionMap dim close regs bnds = some rm) (r j s : ℕ) (hr : r < (regs.map Prod.fst).length) (hj : j < 2 * dim)
    (ho : posMap (regs.map Prod.fst) rm r j = .other s) :
    s < (regs.map Prod.fst).length ∧ posMap (regs.map Prod.fst) rm s (opp j) = .other r := by
  generalize hnames : regs.map Prod.fst = names at *
  obtain ⟨x, hx, hres, hpair⟩ := regionMap_some dim close regs bnds rm h names[r] (by rw [hnames]; exact List.getElem_mem _) j hj
  unfold posMap at ho
  rw [List.getElem?_eq_getElem hr] at ho
  simp only [hx] at ho
  cases x with
  | bnd b => exact absurd ho (by simp)
  | reg n =>
    simp only [Mesh.Att.other.injEq] at ho
    have hm : n ∈ names := by rw [← hnames]; exact reg_mem dim close hrefl regs bnds _ _ _ hres
    have hlt := List.idxOf_lt_length_iff.2 hm
    subst ho
    refine ⟨hlt, ?_⟩
    unfold posMap
    rw [List.getElem?_eq_getElem hlt, List.getElem_idxOf]
    have g1 : rm n (opp j) = .done (.reg names[r]) := by simpa using List.find?_some (hpair n rfl)
    simp only [g1]
    rw [List.Nodup.idxOf_getElem hn]

/-- **C80**: no region side is listed twice (in one boundary or in two) when the map is accepted. -/
theorem c80_listed_once {C ν : Type} [DecidableEq C] [DecidableEq ν] (dim : ℕ) (close : C → C → Bool)
    (regs : List (ν × List C)) (bnds : List (List (ν × ℕ))) (hb : bndsOK dim (regs.map Prod.fst) bnds = true) (rm : ν → ℕ → Entry ν)
    (h : regionMap dim close regs bnds = some rm) : bnds.flatten.Nodup := by
  rw [List.nodup_iff_count_le_one]
  rintro ⟨r, j⟩
  by_cases hm : (r, j) ∈ bnds.flatten
  · obtain ⟨l, hl, hrl⟩ := List.mem_flatten.1 hm
    have := List.all_eq_true.1 (List.all_eq_true.1 hb l hl) _ hrl
    simp only [Bool.and_eq_true, List.contains_iff_mem, decide_eq_true_eq] at this
    obtain ⟨x, -, hres, -⟩ := regionMap_some dim close regs bnds rm h r this.1 j this.2
    rw [← listed_count]
    have hall : ∀ y ∈ listed bnds r j, ∃ b, y = .bnd b := fun y hy => by
      obtain ⟨b, e, -⟩ := (mem_listed _ _ _ _).1 hy
      exact ⟨b, e⟩
    obtain ⟨l1, hl1⟩ : ∃ l1, initial dim (numberRegions close [] regs) bnds r j = l1 ++ listed bnds r j := ⟨_, rfl⟩
    rw [hl1] at hres
    generalize listed bnds r j = l2 at *
    rcases hres with e | ⟨b, s, e | e, -⟩
    · have := congrArg List.length e
      simp at this
      omega
    · by_contra hlen
      have hlen2 := congrArg List.length e
      simp at hlen2
      have : l1 = [] := List.eq_nil_of_length_eq_zero (by omega)
      rw [this, List.nil_append] at e
      obtain ⟨b', eb⟩ := hall (.reg s) (by rw [e]; simp)
      exact absurd eb (by simp)
    · by_contra hlen
      have hlen2 := congrArg List.length e
      simp at hlen2
      have : l1 = [] := List.eq_nil_of_length_eq_zero (by omega)
      rw [this, List.nil_append] at e
      obtain ⟨b', eb⟩ := hall (.reg s) (by rw [e]; simp)
      exact absurd eb (by simp)
  · rw [List.count_eq_zero_of_not_mem hm]
    omega

/-- A listed side has its boundary in the map. -/
theorem c80_listed {C ν : Type} [DecidableEq C] [DecidableEq ν] (dim : ℕ) (close : C → C → Bool)
    (regs : List (ν × List C)) (bnds : List (List (ν × ℕ))) (rm : ν → ℕ → Entry ν)
    (h : regionMap dim close regs bnds = some rm) (r : ν) (hr : r ∈ regs.map Prod.fst) (j : ℕ) (hj : j < 2 * dim) (b : ℕ) (hl : Listed bnds r j b) :
    rm r j = .done (.bnd b) := by
  obtain ⟨x, hx, hres, -⟩ := regionMap_some dim close regs bnds rm h r hr j hj
  have hm : Att.bnd b ∈ initial dim (numberRegions close [] regs) bnds r j :=
    List.mem_append_right _ ((mem_listed _ _ _ _).2 ⟨b, rfl, hl⟩)
  rw [hx]
  rcases hres with e | ⟨b', s, e | e, rfl⟩ <;> rw [e] at hm <;> simp at hm <;> rw [hm]

/-- The sides of the pairs of boundaries. -/
theorem periodic_ends {ν : Type} [DecidableEq ν] (bnds : List (List (ν × ℕ))) (prs : List (ℕ × ℕ)) : ∀ per, periodic bnds prs = some per →
    (per.flatMap fun x => [(x.1, x.2.1), (x.2.2, opp x.2.1)]).Perm ((prs.flatMap fun x => [x.1, x.2]).flatMap fun b => bnds.getD b []) := by
  have hz : ∀ one two : List (ν × ℕ), one.length = two.length → (∀ x ∈ one.zip two, x.2.2 = opp x.1.2) →
      (((one.zip two).map fun x => (x.1.1, x.1.2, x.2.1)).flatMap fun x => [(x.1, x.2.1), (x.2.2, opp x.2.1)]).Perm (one ++ two) := by
    intro one
    induction one with
    | nil =>
      intro two h _
      rw [List.eq_nil_of_length_eq_zero h.symm]
      exact List.Perm.refl _
    | cons x one ih =>
      intro two h ho
      cases two with
      | nil => exact absurd h (by simp)
      | cons y two =>
        have e : y.2 = opp x.2 := ho (x, y) (by simp)
        have := ih two (by simpa using h) fun z hz => ho z (by simp [hz])
        simp only [List.zip_cons_cons, List.map_cons, List.flatMap_cons, List.cons_append, List.nil_append]
        rw [← e]
        refine List.Perm.cons _ ?_
        exact (List.Perm.cons _ this).trans List.perm_middle.symm
  induction prs with
  | nil =>
    intro per h
    obtain rfl := Option.some.inj h
    exact List.Perm.refl _
  | cons x prs ih =>
    intro per h
    obtain ⟨a, b⟩ := x
    unfold periodic at h
    obtain ⟨p, h1, h2⟩ := Option.bind_eq_some_iff.1 h
    obtain ⟨q, h3, rfl⟩ := Option.map_eq_some_iff.1 h2
    unfold sidePairs at h1
    split_ifs at h1 with hc
    obtain rfl := Option.some.inj h1
    have hp := hz _ _ hc.1 fun z hz => by simpa using List.all_eq_true.1 hc.2 z hz
    rw [List.flatMap_append]
    simp only [List.flatMap_cons, List.flatMap_append, List.flatMap_nil, List.append_nil, List.cons_append, List.nil_append]
    rw [← List.append_assoc]
    exact hp.append (ih q h3)

theorem checkPairs_nodup (n : ℕ) (prs : List (ℕ × ℕ)) : ∀ pool, checkPairs n pool prs = true →
    (prs.flatMap fun x => [x.1, x.2]).Nodup ∧ ∀ a ∈ (prs.flatMap fun x => [x.1, x.2]), a < n ∧ a ∉ pool := by
  induction prs with
  | nil => exact fun pool _ => ⟨List.nodup_nil, by simp⟩
  | cons x prs ih =>
    intro pool h
    obtain ⟨a, b⟩ := x
    simp only [checkPairs, Bool.and_eq_true, decide_eq_true_eq, Bool.not_eq_true', List.contains_eq_mem, decide_eq_false_iff_not, bne_iff_ne] at h
    obtain ⟨⟨⟨⟨⟨h1, h2⟩, h3⟩, h4⟩, h5⟩, h6⟩ := h
    obtain ⟨k1, k2⟩ := ih _ h6
    simp only [List.flatMap_cons, List.cons_append, List.nil_append]
    refine ⟨?_, ?_⟩
    · rw [List.nodup_cons, List.nodup_cons]
      refine ⟨?_, fun hb => (k2 b hb).2 (by simp), k1⟩
      intro ha
      rcases List.mem_cons.1 ha with e | ha
      · exact h5 e
      · exact (k2 a ha).2 (by simp)
    · intro c hc
      rcases List.mem_cons.1 hc with rfl | hc
      · exact ⟨h1, h3⟩
      · rcases List.mem_cons.1 hc with rfl | hc
        · exact ⟨h2, h4⟩
        · exact ⟨(k2 c hc).1, fun hp => (k2 c hc).2 (by simp [hp])⟩

/-- **C80**: the periodic pairs of an accepted domain use every region side at most once, and only sides on the boundary: what
C36 assumes. -/
theorem c80_periodic {C ν : Type} [DecidableEq C] [DecidableEq ν] (dim : ℕ) (close : C → C → Bool)
    (regs : List (ν × List C)) (hn : (regs.map Prod.fst).Nodup) (bnds : List (List (ν × ℕ))) (hb : bndsOK dim (regs.map Prod.fst) bnds = true)
    (rm : ν → ℕ → Entry ν) (h : regionMap dim close regs bnds = some rm) (prs : List (ℕ × ℕ)) (hp : checkPairs bnds.length [] prs = true)
    (per : List (ν × ℕ × ν)) (hper : periodic bnds prs = some per) (M : List Mesh.EArr) :
    Mesh.PerOK dim M (posMap (regs.map Prod.fst) rm) (per.map fun x => ((regs.map Prod.fst).idxOf x.1, x.2.1, (regs.map Prod.fst).idxOf x.2.2)) := by
  have hends := periodic_ends bnds prs per hper
  obtain ⟨hnd, hin⟩ := checkPairs_nodup _ prs [] hp
  have hflat := c80_listed_once dim close regs bnds hb rm h
  have hmem : ∀ y ∈ (per.flatMap fun x => [(x.1, x.2.1), (x.2.2, opp x.2.1)]), y.1 ∈ regs.map Prod.fst ∧ y.2 < 2 * dim ∧ ∃ b, Listed bnds y.1 y.2 b := by
    intro y hy
    obtain ⟨b, hb1, hb2⟩ := List.mem_flatMap.1 (hends.mem_iff.1 hy)
    have hlt := (hin b hb1).1
    rw [List.getD_eq_getElem _ _ hlt] at hb2
    have := List.all_eq_true.1 (List.all_eq_true.1 hb _ (List.getElem_mem hlt)) _ hb2
    simp only [Bool.and_eq_true, List.contains_iff_mem, decide_eq_true_eq] at this
    exact ⟨this.1, this.2, b, _, List.getElem?_eq_getElem hlt, hb2⟩
  have hnodup : (per.flatMap fun x => [(x.1, x.2.1), (x.2.2, opp x.2.1)]).Nodup := by
    rw [hends.nodup_iff, List.nodup_flatMap]
    rw [List.nodup_flatten] at hflat
    refine ⟨fun b hb1 => ?_, ?_⟩
    · rw [List.getD_eq_getElem _ _ (hin b hb1).1]
      exact hflat.1 _ (List.getElem_mem _)
    · refine hnd.imp_of_mem fun {a b} ha hb' hab => ?_
      rw [Function.onFun, List.getD_eq_getElem _ _ (hin a ha).1, List.getD_eq_getElem _ _ (hin b hb').1]
      rcases Nat.lt_or_gt_of_ne hab with hlt | hlt
      · exact List.pairwise_iff_getElem.1 hflat.2 a b _ _ hlt
      · exact fun x h1 h2 => List.pairwise_iff_getElem.1 hflat.2 b a _ _ hlt h2 h1
  generalize hnames : regs.map Prod.fst = names at *
  have e1 : Mesh.regionEnds (per.map fun x => (names.idxOf x.1, x.2.1, names.idxOf x.2.2)) =
      (per.flatMap fun x => [(x.1, x.2.1), (x.2.2, opp x.2.1)]).map fun y => (names.idxOf y.1, y.2) := by
    unfold Mesh.regionEnds
    rw [List.flatMap_map, List.map_flatMap]
    rfl
  have hpos : ∀ y ∈ (per.flatMap fun x => [(x.1, x.2.1), (x.2.2, opp x.2.1)]), ∃ b, posMap names rm (names.idxOf y.1) y.2 = .bnd b := by
    intro y hy
    obtain ⟨h1, h2, b, hl⟩ := hmem y hy
    refine ⟨b, ?_⟩
    unfold posMap
    rw [List.getElem?_eq_getElem (List.idxOf_lt_length_iff.2 h1), List.getElem_idxOf]
    simp only [c80_listed dim close regs bnds rm h y.1 (hnames ▸ h1) y.2 h2 b hl]
  have hx1 : ∀ x ∈ per, (x.1, x.2.1) ∈ (per.flatMap fun x => [(x.1, x.2.1), (x.2.2, opp x.2.1)]) := fun x hx => List.mem_flatMap.2 ⟨x, hx, by simp⟩
  have hx2 : ∀ x ∈ per, (x.2.2, opp x.2.1) ∈ (per.flatMap fun x => [(x.1, x.2.1), (x.2.2, opp x.2.1)]) := fun x hx => List.mem_flatMap.2 ⟨x, hx, by simp⟩
  refine ⟨?_, ?_, ?_⟩
  · intro x hx
    obtain ⟨y, hy, rfl⟩ := List.mem_map.1 hx
    exact (hmem _ (hx1 y hy)).2.1
  · rw [e1]
    refine List.Nodup.map_on ?_ hnodup
    intro y hy z hz e
    obtain ⟨e1, e2⟩ := Prod.mk.inj e
    exact Prod.ext ((List.idxOf_inj (hmem y hy).1).1 e1) e2
  · intro x hx
    obtain ⟨y, hy, rfl⟩ := List.mem_map.1 hx
    exact ⟨hpos _ (hx1 y hy), hpos _ (hx2 y hy)⟩

/-! ## Listed and unlisted sides that coincide -/

/-- Two regions that meet at two sides of each, `U`–`L` and `R`–`D`; the sides `R` of the first and `L` of the second are listed
as a boundary, the others are not listed.  (The points are 0–5.) -/
def crossed : List (ℕ × List ℕ) := [(0, [0, 1, 2, 3]), (1, [0, 2, 4, 3])]

/-- The boundaries of `crossed`. -/
def crossedBnds : List (List (ℕ × ℕ)) := [[(0, 3), (1, 2)], [(0, 1), (0, 2), (1, 0), (1, 3)]]

/-- **C80**: the hypothesis on the listed sides in `c80_region_map_partial` is needed.  The domain `crossed` is accepted; side `U` of region
0 is attached to region 1 and side `D` of region 1 to region 0, and these sides do not coincide. -/
theorem c80_listing_needed :
    ((regionMap 2 (fun a b => a == b) crossed crossedBnds).map fun rm => (rm 0 0, rm 1 1)) = some (.done (.reg 1), .done (.reg 0)) ∧
      bndsOK 2 [0, 1] crossedBnds = true ∧ ¬ SidesRel (Near fun a b => a == b) 2 [0, 1, 2, 3] 0 [0, 2, 4, 3] 1 ∧
      SidesRel (· = ·) 2 [0, 1, 2, 3] 0 [0, 2, 4, 3] 2 := by
  refine ⟨by decide, by decide, ?_, ?_⟩
  · intro h
    have e1 : sideAt 2 0 = [0, 2] := by decide
    have e2 : sideAt 2 1 = [1, 3] := by decide
    unfold SidesRel at h
    rw [e1, e2] at h
    cases h with
    | cons h _ =>
      obtain ⟨p, h1, h2⟩ := h 0 rfl 2 rfl
      simp at h1 h2
      omega
  · have e1 : sideAt 2 0 = [0, 2] := by decide
    have e2 : sideAt 2 2 = [0, 1] := by decide
    unfold SidesRel
    rw [e1, e2]
    simp

/-! ## Rectangles and cuboids -/

/-- The region at side `j` of region `v` of a cuboid with `L0 × L1 × L2` regions; `none` at the border. -/
def next3 (L0 L1 L2 : ℕ) (v : ℕ × ℕ × ℕ) (j : ℕ) : Option (ℕ × ℕ × ℕ) :=
  match j with
  | 0 => if v.1 = 0 then none else some (v.1 - 1, v.2.1, v.2.2)
  | 1 => if v.1 + 1 = L0 then none else some (v.1 + 1, v.2.1, v.2.2)
  | 2 => if v.2.1 = 0 then none else some (v.1, v.2.1 - 1, v.2.2)
  | 3 => if v.2.1 + 1 = L1 then none else some (v.1, v.2.1 + 1, v.2.2)
  | 4 => if v.2.2 = 0 then none else some (v.1, v.2.1, v.2.2 - 1)
  | _ => if v.2.2 + 1 = L2 then none else some (v.1, v.2.1, v.2.2 + 1)

/-- The region at side `j` of region `v` of a rectangle with `L0 × L1` regions; `none` at the border. -/
def next2 (L0 L1 : ℕ) (v : ℕ × ℕ) (j : ℕ) : Option (ℕ × ℕ) :=
  match j with
  | 0 => if v.1 = 0 then none else some (v.1 - 1, v.2)
  | 1 => if v.1 + 1 = L0 then none else some (v.1 + 1, v.2)
  | 2 => if v.2 = 0 then none else some (v.1, v.2 - 1)
  | _ => if v.2 + 1 = L1 then none else some (v.1, v.2 + 1)

/-- What is attached, given the neighbour: the boundary with the number of the side at the border. -/
def attOf {ν : Type} (n : Option ν) (j : ℕ) : Att ν :=
  match n with
  | none => .bnd j
  | some w => .reg w

theorem map_eq_inj {α β : Type} (g : α → β) (l1 l2 : List α) (h : ∀ x ∈ l1, ∀ y ∈ l2, g x = g y → x = y) (e : l1.map g = l2.map g) : l1 = l2 := by
  induction l1 generalizing l2 with
  | nil => exact (List.map_eq_nil_iff.1 e.symm).symm
  | cons x l1 ih =>
    cases l2 with
    | nil => exact absurd e (by simp)
    | cons y l2 =>
      simp only [List.map_cons, List.cons.injEq] at e
      rw [h x (by simp) y (by simp) e.1, ih l2 (fun a ha b hb => h a (by simp [ha]) b (by simp [hb])) e.2]

theorem nodup_grid {α : Type} (m n : ℕ) (f : ℕ → ℕ → α) (h : ∀ a b a' b', f a b = f a' b' → a = a' ∧ b = b') :
    ((List.range m).flatMap fun a => (List.range n).map (f a)).Nodup := by
  rw [List.nodup_flatMap]
  refine ⟨fun a _ => List.Nodup.map (fun b b' e => (h _ _ _ _ e).2) List.nodup_range, ?_⟩
  refine List.nodup_range.imp fun {a a'} hne => ?_
  intro x h1 h2
  obtain ⟨_, _, e1⟩ := List.mem_map.1 h1
  obtain ⟨_, _, e2⟩ := List.mem_map.1 h2
  exact hne (h _ _ _ _ (e1.trans e2.symm)).1

/-- Names in the order of `cuboid`. -/
def names3 (L0 L1 L2 : ℕ) : List (ℕ × ℕ × ℕ) :=
  (List.range L2).flatMap fun k => (List.range L1).flatMap fun j => (List.range L0).map fun i => (i, j, k)

theorem mem_names3 (L0 L1 L2 : ℕ) (v : ℕ × ℕ × ℕ) : v ∈ names3 L0 L1 L2 ↔ v.1 < L0 ∧ v.2.1 < L1 ∧ v.2.2 < L2 := by
  obtain ⟨i, j, k⟩ := v
  simp only [names3, List.mem_flatMap, List.mem_map, List.mem_range, Prod.mk.injEq]
  constructor
  · rintro ⟨_, h1, _, h2, _, h3, rfl, rfl, rfl⟩; exact ⟨h3, h2, h1⟩
  · rintro ⟨h3, h2, h1⟩; exact ⟨_, h1, _, h2, _, h3, rfl, rfl, rfl⟩

theorem nodup_names3 (L0 L1 L2 : ℕ) : (names3 L0 L1 L2).Nodup := by
  unfold names3
  rw [List.nodup_flatMap]
  refine ⟨fun k _ => nodup_grid L1 L0 (fun j i => (i, j, k)) (by simp +contextual), ?_⟩
  refine List.nodup_range.imp fun {a a'} hne => ?_
  intro x h1 h2
  simp only [List.mem_flatMap, List.mem_map] at h1 h2
  obtain ⟨_, _, _, _, rfl⟩ := h1
  obtain ⟨_, _, _, _, e⟩ := h2
  simp at e
  exact hne e.2.2.symm

/-- Corner `t` of region `v` in the lattice. -/
def pt3 (v : ℕ × ℕ × ℕ) (t : ℕ) : ℕ × ℕ × ℕ := (v.1 + t % 2, v.2.1 + t / 2 % 2, v.2.2 + t / 4 % 2)

/-- The place of a lattice point. -/
def latPlace3 {K : Type} [Add K] [Mul K] [NatCast K] (x0 y0 z0 hx hy hz : K) (p : ℕ × ℕ × ℕ) : K × K × K :=
  (x0 + (p.1 : K) * hx, y0 + (p.2.1 : K) * hy, z0 + (p.2.2 : K) * hz)

theorem cuboid_eq {K : Type} [CommSemiring K] (x0 y0 z0 hx hy hz : K) (L0 L1 L2 : ℕ) :
    cuboid x0 y0 z0 hx hy hz L0 L1 L2 = (names3 L0 L1 L2).map fun v => (v, ((List.range 8).map (pt3 v)).map (latPlace3 x0 y0 z0 hx hy hz)) := by
  unfold cuboid names3
  simp only [List.map_flatMap, List.map_map]
  congr 1; funext k; congr 1; funext j
  refine List.map_congr_left fun i _ => ?_
  simp only [Function.comp, Prod.mk.injEq, true_and]
  have : List.range 8 = [0, 1, 2, 3, 4, 5, 6, 7] := rfl
  rw [this]
  simp [pt3, latPlace3, add_mul, add_assoc]

theorem sideCorners_lt (dim j t : ℕ) (h : t ∈ sideCorners dim j) : t < 2 ^ (if dim = 2 then 2 else 3) := by
  unfold sideCorners at h
  split_ifs at h ⊢ <;> split at h <;> simp at h <;> omega

theorem sideNumbers3 {C : Type} (g : ℕ × ℕ × ℕ → C) (num : C → ℕ) (v : ℕ × ℕ × ℕ) (j : ℕ) :
    sideNumbers 3 ((((List.range 8).map (pt3 v)).map g).map num) j = ((sideCorners 3 j).map (pt3 v)).map fun p => num (g p) := by
  unfold sideNumbers
  rw [List.map_map, List.map_map (l := sideCorners 3 j)]
  refine List.map_congr_left fun t ht => ?_
  have : t < 8 := sideCorners_lt 3 j t ht
  rw [List.getD_eq_getElem _ _ (by simpa using this)]
  simp

theorem s30 : sideCorners 3 0 = [0, 2, 4, 6] := rfl
theorem s31 : sideCorners 3 1 = [1, 3, 5, 7] := rfl
theorem s32 : sideCorners 3 2 = [0, 1, 4, 5] := rfl
theorem s33 : sideCorners 3 3 = [2, 3, 6, 7] := rfl
theorem s34 : sideCorners 3 4 = [0, 1, 2, 3] := rfl
theorem s35 : sideCorners 3 5 = [4, 5, 6, 7] := rfl

theorem latSides3 (v w : ℕ × ℕ × ℕ) (j k L0 L1 L2 : ℕ) (hj : j < 6) (hk : k < 6) (hne : w ≠ v) (hv : v ∈ names3 L0 L1 L2) (hw : w ∈ names3 L0 L1 L2) :
    (sideCorners 3 j).map (pt3 v) = (sideCorners 3 k).map (pt3 w) ↔ k = opp j ∧ next3 L0 L1 L2 v j = some w := by
  rw [mem_names3] at hv hw
  obtain ⟨a, b, c⟩ := v
  obtain ⟨a', b', c'⟩ := w
  simp only at hv hw
  rw [ne_eq, Prod.mk.injEq, Prod.mk.injEq] at hne
  interval_cases j <;> interval_cases k <;> simp [s30, s31, s32, s33, s34, s35, pt3, next3, opp] <;> omega

theorem next3_mem (L0 L1 L2 : ℕ) (v w : ℕ × ℕ × ℕ) (j : ℕ) (hv : v ∈ names3 L0 L1 L2) (h : next3 L0 L1 L2 v j = some w) : w ∈ names3 L0 L1 L2 ∧ w ≠ v := by
  rw [mem_names3] at *
  obtain ⟨a, b, c⟩ := v
  obtain ⟨a', b', c'⟩ := w
  rw [ne_eq, Prod.mk.injEq, Prod.mk.injEq]
  unfold next3 at h
  dsimp only at h
  split at h <;> split_ifs at h <;> simp at h hv ⊢ <;> omega

theorem next3_opp (L0 L1 L2 : ℕ) (v w : ℕ × ℕ × ℕ) (j k : ℕ) (hv : v ∈ names3 L0 L1 L2) (hj : j < 6) (hk : k < 6) (h : next3 L0 L1 L2 v j = some w) :
    next3 L0 L1 L2 w k = some v ↔ k = opp j := by
  rw [mem_names3] at hv
  obtain ⟨a, b, c⟩ := v
  obtain ⟨a', b', c'⟩ := w
  interval_cases j <;> interval_cases k <;> simp [next3, opp] at h hv ⊢ <;> omega

theorem listed3 (L0 L1 L2 : ℕ) (v : ℕ × ℕ × ℕ) (hv : v ∈ names3 L0 L1 L2) (j : ℕ) (hj : j < 6) :
    listed (cuboidBnds L0 L1 L2) v j = match next3 L0 L1 L2 v j with
      | none => [.bnd j]
      | some _ => [] := by
  rw [mem_names3] at hv
  obtain ⟨a, b, c⟩ := v
  simp only at hv
  have hn := fun (m n : ℕ) (f : ℕ → ℕ → (ℕ × ℕ × ℕ) × ℕ) h => flatMap_ite (β := Att (ℕ × ℕ × ℕ)) _ (nodup_grid m n f h) ((a, b, c), j)
  unfold listed cuboidBnds
  simp only [List.zipIdx_cons, List.zipIdx_nil, List.flatMap_cons, List.flatMap_nil, List.append_nil, Nat.zero_add]
  rw [hn _ _ (fun k j => ((0, j, k), 0)) (by simp +contextual), hn _ _ (fun k j => ((L0 - 1, j, k), 1)) (by simp +contextual),
    hn _ _ (fun k i => ((i, 0, k), 2)) (by simp +contextual), hn _ _ (fun k i => ((i, L1 - 1, k), 3)) (by simp +contextual),
    hn _ _ (fun j i => ((i, j, 0), 4)) (by simp +contextual), hn _ _ (fun j i => ((i, j, L2 - 1), 5)) (by simp +contextual)]
  simp only [List.mem_flatMap, List.mem_map, List.mem_range, Prod.mk.injEq]
  interval_cases j <;> simp [next3] <;> split_ifs <;> first | rfl | (exfalso; omega)

/-- **C80.** The region map of a cuboid, for all numbers of regions (points of the lattice are not close to each other): the neighbour of
region `(i, j, k)` in each of the six directions, boundary 0 to 5 at the border. -/
theorem c80_cuboid {K : Type} [CommSemiring K] [DecidableEq K] (close : K × K × K → K × K × K → Bool) (hrefl : ∀ c, close c c = true)
    (x0 y0 z0 hx hy hz : K) (L0 L1 L2 : ℕ)
    (hap : ∀ p q : ℕ × ℕ × ℕ, p.1 ≤ L0 ∧ p.2.1 ≤ L1 ∧ p.2.2 ≤ L2 → q.1 ≤ L0 ∧ q.2.1 ≤ L1 ∧ q.2.2 ≤ L2 →
      close (latPlace3 x0 y0 z0 hx hy hz p) (latPlace3 x0 y0 z0 hx hy hz q) = true → p = q) :
    ∃ rm, regionMap 3 close (cuboid x0 y0 z0 hx hy hz L0 L1 L2) (cuboidBnds L0 L1 L2) = some rm ∧
      ∀ i j k, i < L0 → j < L1 → k < L2 → ∀ s < 6, rm (i, j, k) s = .done (attOf (next3 L0 L1 L2 (i, j, k) s) s) := by
  have hpt : ∀ v ∈ names3 L0 L1 L2, ∀ t, (pt3 v t).1 ≤ L0 ∧ (pt3 v t).2.1 ≤ L1 ∧ (pt3 v t).2.2 ≤ L2 := by
    intro v hv t
    rw [mem_names3] at hv
    simp only [pt3]
    omega
  have hfst : (cuboid x0 y0 z0 hx hy hz L0 L1 L2).map Prod.fst = names3 L0 L1 L2 := by
    rw [cuboid_eq, List.map_map]
    exact List.map_id _
  obtain ⟨num, hnum, hex⟩ := c80_corners_exact close hrefl (cuboid x0 y0 z0 hx hy hz L0 L1 L2) (by
    rw [cuboid_eq]
    intro x hx y hy c hc d hd e
    obtain ⟨v, hv, rfl⟩ := List.mem_map.1 hx
    obtain ⟨w, hw, rfl⟩ := List.mem_map.1 hy
    simp only [List.map_map, List.mem_map, Function.comp] at hc hd
    obtain ⟨t, -, rfl⟩ := hc
    obtain ⟨t', -, rfl⟩ := hd
    rw [hap _ _ (hpt v hv t) (hpt w hw t') e])
  have hinj : ∀ v ∈ names3 L0 L1 L2, ∀ w ∈ names3 L0 L1 L2, ∀ t < 8, ∀ t' < 8,
      num (latPlace3 x0 y0 z0 hx hy hz (pt3 v t)) = num (latPlace3 x0 y0 z0 hx hy hz (pt3 w t')) → pt3 v t = pt3 w t' := by
    intro v hv w hw t ht t' ht' e
    rw [cuboid_eq] at hex
    have := hex _ (List.mem_map.2 ⟨v, hv, rfl⟩) _ (List.mem_map.2 ⟨w, hw, rfl⟩) _
      (List.mem_map.2 ⟨pt3 v t, List.mem_map.2 ⟨t, List.mem_range.2 ht, rfl⟩, rfl⟩) _
      (List.mem_map.2 ⟨pt3 w t', List.mem_map.2 ⟨t', List.mem_range.2 ht', rfl⟩, rfl⟩) e
    exact hap _ _ (hpt v hv t) (hpt w hw t') (by rw [this]; exact hrefl _)
  have hnum' : numberRegions close [] (cuboid x0 y0 z0 hx hy hz L0 L1 L2) =
      (names3 L0 L1 L2).map fun v => (v, (((List.range 8).map (pt3 v)).map (latPlace3 x0 y0 z0 hx hy hz)).map num) := by
    rw [hnum, cuboid_eq, List.map_map]
    rfl
  have hside : ∀ v ∈ names3 L0 L1 L2, ∀ w ∈ names3 L0 L1 L2, w ≠ v → ∀ j < 6, ∀ k < 6,
      (sideNumbers 3 ((((List.range 8).map (pt3 v)).map (latPlace3 x0 y0 z0 hx hy hz)).map num) j =
        sideNumbers 3 ((((List.range 8).map (pt3 w)).map (latPlace3 x0 y0 z0 hx hy hz)).map num) k ↔ k = opp j ∧ next3 L0 L1 L2 v j = some w) := by
    intro v hv w hw hne j hj k hk
    rw [sideNumbers3, sideNumbers3, ← latSides3 v w j k L0 L1 L2 hj hk hne hv hw]
    constructor
    · refine map_eq_inj _ _ _ ?_
      intro p hp q hq e
      obtain ⟨t, ht, rfl⟩ := List.mem_map.1 hp
      obtain ⟨t', ht', rfl⟩ := List.mem_map.1 hq
      exact hinj v hv w hw t (sideCorners_lt 3 _ t ht) t' (sideCorners_lt 3 _ t' ht') e
    · intro e; rw [e]
  obtain ⟨rm, h1, h2⟩ := regionMap_single 3 close (cuboid x0 y0 z0 hx hy hz L0 L1 L2) (cuboidBnds L0 L1 L2)
    (fun v j => attOf (next3 L0 L1 L2 v j) j) (by rw [hfst]; exact nodup_names3 _ _ _)
    (by
      rw [hfst]
      intro v hv j hj
      have hnn : ((numberRegions close [] (cuboid x0 y0 z0 hx hy hz L0 L1 L2)).map Prod.fst).Nodup := by
        rw [hnum', List.map_map]
        exact (List.map_id (names3 L0 L1 L2)).symm ▸ nodup_names3 _ _ _
      rw [initial_eq 3 _ hnn _ v _ (by rw [hnum']; exact List.mem_map.2 ⟨v, hv, rfl⟩), listed3 L0 L1 L2 v hv j hj, hnum']
      unfold found
      rw [List.flatMap_map]
      cases hnx : next3 L0 L1 L2 v j with
      | none =>
        simp only [attOf]
        rw [List.flatMap_eq_nil_iff.2, List.nil_append]
        intro w hw
        split_ifs with e
        · rfl
        · refine List.flatMap_eq_nil_iff.2 fun k hk => if_neg ?_
          rw [hside v hv w hw e j hj k (List.mem_range.1 hk), hnx]
          simp
      | some u =>
        obtain ⟨hu, hune⟩ := next3_mem L0 L1 L2 v u j hv hnx
        simp only [attOf, List.append_nil]
        rw [flatMap_single _ (nodup_names3 _ _ _) u hu, if_neg hune, flatMap_single _ List.nodup_range (opp j) (List.mem_range.2 (Mesh.opp_lt 3 j hj)), if_pos]
        · exact (hside v hv u hu hune j hj (opp j) (Mesh.opp_lt 3 j hj)).2 ⟨rfl, hnx⟩
        · intro k hk hne
          refine if_neg ?_
          rw [hside v hv u hu hune j hj k (List.mem_range.1 hk)]
          exact fun h => hne h.1
        · intro w hw hne
          split_ifs with e
          · rfl
          · refine List.flatMap_eq_nil_iff.2 fun k hk => if_neg ?_
            rw [hside v hv w hw e j hj k (List.mem_range.1 hk), hnx]
            exact fun h => hne (Option.some.inj h.2).symm)
    (by
      rw [hfst]
      intro v hv j hj u hu
      have hnx : next3 L0 L1 L2 v j = some u := by
        cases hnx : next3 L0 L1 L2 v j with
        | none => rw [hnx] at hu; exact absurd hu (by simp [attOf])
        | some w => rw [hnx] at hu; simp [attOf] at hu; rw [hu]
      refine ⟨(next3_mem L0 L1 L2 v u j hv hnx).1, fun k hk => ?_⟩
      rw [← next3_opp L0 L1 L2 v u j k hv hj hk hnx]
      cases hnu : next3 L0 L1 L2 u k with
      | none => simp [attOf]
      | some w => simp [attOf])
  refine ⟨rm, h1, fun i j k hi hj hk s hs => ?_⟩
  rw [hfst] at h2
  exact h2 (i, j, k) ((mem_names3 _ _ _ _).2 ⟨hi, hj, hk⟩) s hs

/-- Names in the order of `rectangle`. -/
def names2 (L0 L1 : ℕ) : List (ℕ × ℕ) := (List.range L0).flatMap fun i => (List.range L1).map fun j => (i, j)

theorem mem_names2 (L0 L1 : ℕ) (v : ℕ × ℕ) : v ∈ names2 L0 L1 ↔ v.1 < L0 ∧ v.2 < L1 := by
  obtain ⟨i, j⟩ := v
  simp only [names2, List.mem_flatMap, List.mem_map, List.mem_range, Prod.mk.injEq]
  constructor
  · rintro ⟨_, h1, _, h2, rfl, rfl⟩; exact ⟨h1, h2⟩
  · rintro ⟨h1, h2⟩; exact ⟨_, h1, _, h2, rfl, rfl⟩

theorem nodup_names2 (L0 L1 : ℕ) : (names2 L0 L1).Nodup := nodup_grid L0 L1 (fun i j => (i, j)) (by simp +contextual)

/-- Corner `t` of region `v` in the lattice. -/
def pt2 (v : ℕ × ℕ) (t : ℕ) : ℕ × ℕ := (v.1 + t % 2, v.2 + t / 2 % 2)

/-- The place of a lattice point. -/
def latPlace2 {K : Type} [Add K] [Mul K] [NatCast K] (x0 y0 hx hy : K) (p : ℕ × ℕ) : K × K := (x0 + (p.1 : K) * hx, y0 + (p.2 : K) * hy)

theorem rectangle_eq {K : Type} [CommSemiring K] (x0 y0 hx hy : K) (L0 L1 : ℕ) :
    rectangle x0 y0 hx hy L0 L1 = (names2 L0 L1).map fun v => (v, ((List.range 4).map (pt2 v)).map (latPlace2 x0 y0 hx hy)) := by
  unfold rectangle names2
  simp only [List.map_flatMap, List.map_map]
  congr 1; funext i
  refine List.map_congr_left fun j _ => ?_
  simp only [Function.comp, Prod.mk.injEq, true_and]
  have : List.range 4 = [0, 1, 2, 3] := rfl
  rw [this]
  simp [pt2, latPlace2, add_mul, add_assoc]

theorem sideNumbers2 {C : Type} (g : ℕ × ℕ → C) (num : C → ℕ) (v : ℕ × ℕ) (j : ℕ) :
    sideNumbers 2 ((((List.range 4).map (pt2 v)).map g).map num) j = ((sideCorners 2 j).map (pt2 v)).map fun p => num (g p) := by
  unfold sideNumbers
  rw [List.map_map, List.map_map (l := sideCorners 2 j)]
  refine List.map_congr_left fun t ht => ?_
  have : t < 4 := sideCorners_lt 2 j t ht
  rw [List.getD_eq_getElem _ _ (by simpa using this)]
  simp

theorem s20 : sideCorners 2 0 = [0, 2] := rfl
theorem s21 : sideCorners 2 1 = [1, 3] := rfl
theorem s22 : sideCorners 2 2 = [0, 1] := rfl
theorem s23 : sideCorners 2 3 = [2, 3] := rfl

theorem latSides2 (v w : ℕ × ℕ) (j k L0 L1 : ℕ) (hj : j < 4) (hk : k < 4) (hne : w ≠ v) (hv : v ∈ names2 L0 L1) (hw : w ∈ names2 L0 L1) :
    (sideCorners 2 j).map (pt2 v) = (sideCorners 2 k).map (pt2 w) ↔ k = opp j ∧ next2 L0 L1 v j = some w := by
  rw [mem_names2] at hv hw
  obtain ⟨a, b⟩ := v
  obtain ⟨a', b'⟩ := w
  simp only at hv hw
  rw [ne_eq, Prod.mk.injEq] at hne
  interval_cases j <;> interval_cases k <;> simp [s20, s21, s22, s23, pt2, next2, opp] <;> omega

theorem next2_mem (L0 L1 : ℕ) (v w : ℕ × ℕ) (j : ℕ) (hv : v ∈ names2 L0 L1) (h : next2 L0 L1 v j = some w) : w ∈ names2 L0 L1 ∧ w ≠ v := by
  rw [mem_names2] at *
  obtain ⟨a, b⟩ := v
  obtain ⟨a', b'⟩ := w
  rw [ne_eq, Prod.mk.injEq]
  unfold next2 at h
  dsimp only at h
  split at h <;> split_ifs at h <;> simp at h hv ⊢ <;> omega

theorem next2_opp (L0 L1 : ℕ) (v w : ℕ × ℕ) (j k : ℕ) (hv : v ∈ names2 L0 L1) (hj : j < 4) (hk : k < 4) (h : next2 L0 L1 v j = some w) :
    next2 L0 L1 w k = some v ↔ k = opp j := by
  rw [mem_names2] at hv
  obtain ⟨a, b⟩ := v
  obtain ⟨a', b'⟩ := w
  interval_cases j <;> interval_cases k <;> simp [next2, opp] at h hv ⊢ <;> omega

theorem listed2 (L0 L1 : ℕ) (v : ℕ × ℕ) (hv : v ∈ names2 L0 L1) (j : ℕ) (hj : j < 4) :
    listed (rectangleBnds L0 L1) v j = match next2 L0 L1 v j with
      | none => [.bnd j]
      | some _ => [] := by
  rw [mem_names2] at hv
  obtain ⟨a, b⟩ := v
  simp only at hv
  have hn := fun (m : ℕ) (f : ℕ → (ℕ × ℕ) × ℕ) (h : ∀ a a', f a = f a' → a = a') =>
    flatMap_ite (β := Att (ℕ × ℕ)) ((List.range m).map f) (List.Nodup.map (fun a a' => h a a') List.nodup_range) ((a, b), j)
  unfold listed rectangleBnds
  simp only [List.zipIdx_cons, List.zipIdx_nil, List.flatMap_cons, List.flatMap_nil, List.append_nil, Nat.zero_add]
  rw [hn _ (fun j => ((0, j), 0)) (by simp), hn _ (fun j => ((L0 - 1, j), 1)) (by simp),
    hn _ (fun i => ((i, 0), 2)) (by simp), hn _ (fun i => ((i, L1 - 1), 3)) (by simp)]
  simp only [List.mem_map, List.mem_range, Prod.mk.injEq]
  interval_cases j <;> simp [next2] <;> split_ifs <;> first | rfl | (exfalso; omega)

/-- **C80.** The region map of a rectangle, for all numbers of regions (points of the lattice are not close to each other): the neighbour of
region `(i, j)` in each of the four directions, boundary 0 to 3 at the border. -/
theorem c80_rectangle {K : Type} [CommSemiring K] [DecidableEq K] (close : K × K → K × K → Bool) (hrefl : ∀ c, close c c = true)
    (x0 y0 hx hy : K) (L0 L1 : ℕ)
    (hap : ∀ p q : ℕ × ℕ, p.1 ≤ L0 ∧ p.2 ≤ L1 → q.1 ≤ L0 ∧ q.2 ≤ L1 →
      close (latPlace2 x0 y0 hx hy p) (latPlace2 x0 y0 hx hy q) = true → p = q) :
    ∃ rm, regionMap 2 close (rectangle x0 y0 hx hy L0 L1) (rectangleBnds L0 L1) = some rm ∧
      ∀ i j, i < L0 → j < L1 → ∀ s < 4, rm (i, j) s = .done (attOf (next2 L0 L1 (i, j) s) s) := by
  have hpt : ∀ v ∈ names2 L0 L1, ∀ t, (pt2 v t).1 ≤ L0 ∧ (pt2 v t).2 ≤ L1 := by
    intro v hv t
    rw [mem_names2] at hv
    simp only [pt2]
    omega
  have hfst : (rectangle x0 y0 hx hy L0 L1).map Prod.fst = names2 L0 L1 := by
    rw [rectangle_eq, List.map_map]
    exact List.map_id _
  obtain ⟨num, hnum, hex⟩ := c80_corners_exact close hrefl (rectangle x0 y0 hx hy L0 L1) (by
    rw [rectangle_eq]
    intro x hx y hy c hc d hd e
    obtain ⟨v, hv, rfl⟩ := List.mem_map.1 hx
    obtain ⟨w, hw, rfl⟩ := List.mem_map.1 hy
    simp only [List.map_map, List.mem_map, Function.comp] at hc hd
    obtain ⟨t, -, rfl⟩ := hc
    obtain ⟨t', -, rfl⟩ := hd
    rw [hap _ _ (hpt v hv t) (hpt w hw t') e])
  have hinj : ∀ v ∈ names2 L0 L1, ∀ w ∈ names2 L0 L1, ∀ t < 4, ∀ t' < 4,
      num (latPlace2 x0 y0 hx hy (pt2 v t)) = num (latPlace2 x0 y0 hx hy (pt2 w t')) → pt2 v t = pt2 w t' := by
    intro v hv w hw t ht t' ht' e
    rw [rectangle_eq] at hex
    have := hex _ (List.mem_map.2 ⟨v, hv, rfl⟩) _ (List.mem_map.2 ⟨w, hw, rfl⟩) _
      (List.mem_map.2 ⟨pt2 v t, List.mem_map.2 ⟨t, List.mem_range.2 ht, rfl⟩, rfl⟩) _
      (List.mem_map.2 ⟨pt2 w t', List.mem_map.2 ⟨t', List.mem_range.2 ht', rfl⟩, rfl⟩) e
    exact hap _ _ (hpt v hv t) (hpt w hw t') (by rw [this]; exact hrefl _)
  have hnum' : numberRegions close [] (rectangle x0 y0 hx hy L0 L1) =
      (names2 L0 L1).map fun v => (v, (((List.range 4).map (pt2 v)).map (latPlace2 x0 y0 hx hy)).map num) := by
    rw [hnum, rectangle_eq, List.map_map]
    rfl
  have hside : ∀ v ∈ names2 L0 L1, ∀ w ∈ names2 L0 L1, w ≠ v → ∀ j < 4, ∀ k < 4,
      (sideNumbers 2 ((((List.range 4).map (pt2 v)).map (latPlace2 x0 y0 hx hy)).map num) j =
        sideNumbers 2 ((((List.range 4).map (pt2 w)).map (latPlace2 x0 y0 hx hy)).map num) k ↔ k = opp j ∧ next2 L0 L1 v j = some w) := by
    intro v hv w hw hne j hj k hk
    rw [sideNumbers2, sideNumbers2, ← latSides2 v w j k L0 L1 hj hk hne hv hw]
    constructor
    · refine map_eq_inj _ _ _ ?_
      intro p hp q hq e
      obtain ⟨t, ht, rfl⟩ := List.mem_map.1 hp
      obtain ⟨t', ht', rfl⟩ := List.mem_map.1 hq
      exact hinj v hv w hw t (sideCorners_lt 2 _ t ht) t' (sideCorners_lt 2 _ t' ht') e
    · intro e; rw [e]
  obtain ⟨rm, h1, h2⟩ := regionMap_single 2 close (rectangle x0 y0 hx hy L0 L1) (rectangleBnds L0 L1)
    (fun v j => attOf (next2 L0 L1 v j) j) (by rw [hfst]; exact nodup_names2 _ _)
    (by
      rw [hfst]
      intro v hv j hj
      have hnn : ((numberRegions close [] (rectangle x0 y0 hx hy L0 L1)).map Prod.fst).Nodup := by
        rw [hnum', List.map_map]
        exact (List.map_id (names2 L0 L1)).symm ▸ nodup_names2 _ _
      rw [initial_eq 2 _ hnn _ v _ (by rw [hnum']; exact List.mem_map.2 ⟨v, hv, rfl⟩), listed2 L0 L1 v hv j hj, hnum']
      unfold found
      rw [List.flatMap_map]
      cases hnx : next2 L0 L1 v j with
      | none =>
        simp only [attOf]
        rw [List.flatMap_eq_nil_iff.2, List.nil_append]
        intro w hw
        split_ifs with e
        · rfl
        · refine List.flatMap_eq_nil_iff.2 fun k hk => if_neg ?_
          rw [hside v hv w hw e j hj k (List.mem_range.1 hk), hnx]
          simp
      | some u =>
        obtain ⟨hu, hune⟩ := next2_mem L0 L1 v u j hv hnx
        simp only [attOf, List.append_nil]
        rw [flatMap_single _ (nodup_names2 _ _) u hu, if_neg hune, flatMap_single _ List.nodup_range (opp j) (List.mem_range.2 (Mesh.opp_lt 2 j hj)), if_pos]
        · exact (hside v hv u hu hune j hj (opp j) (Mesh.opp_lt 2 j hj)).2 ⟨rfl, hnx⟩
        · intro k hk hne
          refine if_neg ?_
          rw [hside v hv u hu hune j hj k (List.mem_range.1 hk)]
          exact fun h => hne h.1
        · intro w hw hne
          split_ifs with e
          · rfl
          · refine List.flatMap_eq_nil_iff.2 fun k hk => if_neg ?_
            rw [hside v hv w hw e j hj k (List.mem_range.1 hk), hnx]
            exact fun h => hne (Option.some.inj h.2).symm)
    (by
      rw [hfst]
      intro v hv j hj u hu
      have hnx : next2 L0 L1 v j = some u := by
        cases hnx : next2 L0 L1 v j with
        | none => rw [hnx] at hu; exact absurd hu (by simp [attOf])
        | some w => rw [hnx] at hu; simp [attOf] at hu; rw [hu]
      refine ⟨(next2_mem L0 L1 v u j hv hnx).1, fun k hk => ?_⟩
      rw [← next2_opp L0 L1 v u j k hv hj hk hnx]
      cases hnu : next2 L0 L1 u k with
      | none => simp [attOf]
      | some w => simp [attOf])
  refine ⟨rm, h1, fun i j hi hj s hs => ?_⟩
  rw [hfst] at h2
  exact h2 (i, j) ((mem_names2 _ _ _).2 ⟨hi, hj⟩) s hs

/-! ## Names -/

theorem replicate_sep {α : Type} [DecidableEq α] (c u : α) (hu : u ≠ c) : ∀ (m n : ℕ) (x y : List α),
    List.replicate m c ++ u :: x = List.replicate n c ++ u :: y → m = n ∧ x = y := by
  intro m
  induction m with
  | zero =>
    intro n x y h
    cases n with
    | zero => simpa using h
    | succ n =>
      simp only [List.replicate_zero, List.nil_append, List.replicate_succ, List.cons_append, List.cons.injEq] at h
      exact absurd h.1 hu
  | succ m ih =>
    intro n x y h
    cases n with
    | zero =>
      simp only [List.replicate_zero, List.nil_append, List.replicate_succ, List.cons_append, List.cons.injEq] at h
      exact absurd h.1.symm hu
    | succ n =>
      simp only [List.replicate_succ, List.cons_append, List.cons.injEq, true_and] at h
      obtain ⟨e, e'⟩ := ih n x y h
      exact ⟨by omega, e'⟩

/-- **C80**: regions of cuboids and rectangles have different names. -/
theorem c80_names_differ : (∀ i j k i' j' k', name3 i j k = name3 i' j' k' → (i, j, k) = (i', j', k')) ∧
    ∀ i j i' j', name2 i j = name2 i' j' → (i, j) = (i', j') := by
  constructor
  · intro i j k i' j' k' h
    unfold name3 at h
    simp only [List.append_assoc, List.singleton_append, List.append_cancel_left_eq] at h
    obtain ⟨e1, h⟩ := replicate_sep 'i' '_' (by decide) _ _ _ _ h
    obtain ⟨e2, h⟩ := replicate_sep 'j' '_' (by decide) _ _ _ _ h
    have e3 := congrArg List.length h
    simp at e3
    rw [Prod.mk.injEq, Prod.mk.injEq]
    omega
  · intro i j i' j' h
    unfold name2 at h
    simp only [List.append_assoc, List.singleton_append, List.append_cancel_left_eq] at h
    obtain ⟨e1, h⟩ := replicate_sep 'i' '_' (by decide) _ _ _ _ h
    have e3 := congrArg List.length h
    simp at e3
    rw [Prod.mk.injEq]
    omega

/-- **C80**: all these names satisfy the requirements on names of regions. -/
theorem c80_names_ok : (∀ i j k, nameOK (name3 i j k) = true) ∧ ∀ i j, nameOK (name2 i j) = true := by
  have h2 : "R:".toList = ['R', ':'] := rfl
  constructor
  · intro i j k
    simp [nameOK, name3, h2, List.replicate_succ]
  · intro i j
    simp [nameOK, name2, h2, List.replicate_succ]

/-! ## Examples -/

/-- The corners of a side are the same numbers. -/
theorem sidesRel_beq (dim : ℕ) (c d : List ℕ) (hc : c.length = 2 ^ dim) (hd : d.length = 2 ^ dim) (j k : ℕ)
    (h : SidesRel (Near fun a b => a == b) dim c j d k) : (sideAt dim j).map (fun t => c.getD t 0) = (sideAt dim k).map fun t => d.getD t 0 := by
  rw [← List.forall₂_eq_eq_eq, List.forall₂_map_left_iff, List.forall₂_map_right_iff]
  unfold SidesRel at h
  have hl := List.Forall₂.length_eq h
  rw [List.forall₂_iff_get] at h ⊢
  refine ⟨hl, fun i h1 h2 => ?_⟩
  have l1 := sideAt_lt dim j _ (List.get_mem _ ⟨i, h1⟩)
  have l2 := sideAt_lt dim k _ (List.get_mem _ ⟨i, h2⟩)
  obtain ⟨p, e1, e2⟩ := h.2 i h1 h2 _ (List.getElem?_eq_getElem (by rw [hc]; exact l1)) _ (List.getElem?_eq_getElem (by rw [hd]; exact l2))
  rw [List.getD_eq_getElem _ _ (by simpa [hc] using l1), List.getD_eq_getElem _ _ (by simpa [hd] using l2)]
  exact (by simpa using e1 : p = _).symm.trans (by simpa using e2)

/-- Two regions side by side. -/
def twoRegs : List (ℕ × List ℕ) := [(0, [0, 1, 2, 3]), (1, [2, 3, 4, 5])]

/-- Their boundary. -/
def twoBnds : List (List (ℕ × ℕ)) := [[(0, 0), (0, 1), (0, 2), (1, 0), (1, 1), (1, 3)]]

theorem two_closed (x : ℕ × List ℕ) (hx : x ∈ twoRegs) (y : ℕ × List ℕ) (hy : y ∈ twoRegs) (j : ℕ) (hj : j < 4) (k : ℕ) (hk : k < 4)
    (h : (sideAt 2 j).map (fun t => x.2.getD t 0) = (sideAt 2 k).map fun t => y.2.getD t 0)
    (hl : (x.1, j) ∈ twoBnds.flatten) : (y.1, k) ∈ twoBnds.getD 0 [] := by
  have hall : (twoRegs.all fun x => twoRegs.all fun y => (List.range 4).all fun j => (List.range 4).all fun k =>
      !((sideAt 2 j).map (fun t => x.2.getD t 0) == (sideAt 2 k).map fun t => y.2.getD t 0) || !(twoBnds.flatten.contains (x.1, j)) ||
        (twoBnds.getD 0 []).contains (y.1, k)) = true := by decide
  have := List.all_eq_true.1 (List.all_eq_true.1 (List.all_eq_true.1 (List.all_eq_true.1 hall x hx) y hy) j (List.mem_range.2 hj)) k (List.mem_range.2 hk)
  rw [beq_iff_eq.2 h, List.contains_iff_mem.2 hl] at this
  exact List.contains_iff_mem.1 (by simpa using this)

example (rm : ℕ → ℕ → Entry ℕ) (h : regionMap 2 (fun a b => a == b) twoRegs twoBnds = some rm) :
    (∃ b, rm 0 3 = .done (.bnd b) ∧ ∀ b', Listed twoBnds 0 3 b' ↔ b' = b) ∨
    (∃ s d, (s, d) ∈ twoRegs ∧ s ≠ 0 ∧ rm 0 3 = .done (.reg s) ∧ rm s 2 = .done (.reg 0) ∧ (∀ b, ¬ Listed twoBnds 0 3 b) ∧
      SidesRel (Near fun a b => a == b) 2 [0, 1, 2, 3] 3 d 2) := by
  have hlen : ∀ x ∈ twoRegs, x.2.length = 2 ^ 2 := by decide
  refine c80_region_map_partial 2 (.inl rfl) (fun a b => a == b) (by simp) twoRegs (by decide) hlen twoBnds ?_ rm h 0 _ (by decide) 3 (by omega)
  rintro x hx y hy j hj k hk hrel b ⟨l, hl, hm⟩
  exact ⟨0, _, rfl, two_closed x hx y hy j hj k hk (sidesRel_beq 2 _ _ (hlen x hx) (hlen y hy) j k hrel) (List.mem_flatten.2 ⟨l, List.mem_of_getElem? hl, hm⟩)⟩

example : (regionMap 2 (fun a b => a == b) twoRegs twoBnds).isSome = true := by decide

/-- Points that are near each other in the sense of the code on integers. -/
def same3 (a b : ℤ × ℤ × ℤ) : Bool := a == b

example : ∃ rm, regionMap 3 same3 (cuboid 0 0 0 1 1 1 2 3 4) (cuboidBnds 2 3 4) = some rm ∧
    rm (0, 1, 2) 1 = .done (.reg (1, 1, 2)) ∧ rm (0, 1, 2) 0 = .done (.bnd 0) := by
  obtain ⟨rm, h, h2⟩ := c80_cuboid same3 (by simp [same3]) 0 0 0 1 1 1 2 3 4 (by
    intro p q _ _ h
    simp [same3, latPlace3] at h
    exact Prod.ext h.1 (Prod.ext h.2.1 h.2.2))
  exact ⟨rm, h, h2 0 1 2 (by omega) (by omega) (by omega) 1 (by omega), h2 0 1 2 (by omega) (by omega) (by omega) 0 (by omega)⟩

/-- Points of the plane. -/
def same2 (a b : ℤ × ℤ) : Bool := a == b

example : ∃ rm, regionMap 2 same2 (rectangle (-1) 0 2 3 5 4) (rectangleBnds 5 4) = some rm ∧
    rm (4, 1) 0 = .done (.reg (3, 1)) ∧ rm (4, 1) 1 = .done (.bnd 1) := by
  obtain ⟨rm, h, h2⟩ := c80_rectangle same2 (by simp [same2]) (-1) 0 2 3 5 4 (by
    intro p q _ _ h
    simp [same2, latPlace2] at h
    exact Prod.ext h.1 h.2)
  exact ⟨rm, h, h2 4 1 (by omega) (by omega) 0 (by omega), h2 4 1 (by omega) (by omega) 1 (by omega)⟩

/-- The rectangle of two regions with its left and right boundaries paired. -/
example : checkPairs 4 [] [(2, 3)] = true ∧ periodic (rectangleBnds 2 1) [(2, 3)] = some [((0, 0), 2, (0, 0)), ((1, 0), 2, (1, 0))] := by decide

/-- A crack: two regions whose common side is listed on both sides. -/
example : ((regionMap 2 same2 (rectangle 0 0 1 1 1 2) (rectangleBnds 1 2 ++ [[((0, 0), 3), ((0, 1), 2)]])).map fun rm => (rm (0, 0) 3, rm (0, 1) 2)) =
    some (.done (.bnd 4), .done (.bnd 4)) := by decide

/-- A common side that is listed on one side only is refused. -/
example : (regionMap 2 same2 (rectangle 0 0 1 1 1 2) (rectangleBnds 1 2 ++ [[((0, 0), 3)]])).isNone = true := by decide

/-- Two halves of a ring, which meet at both ends, are refused. -/
example : (regionMap 2 (fun a b : ℕ => a == b) [(0, [0, 1, 2, 3]), (1, [2, 3, 0, 1])] [[(0, 0), (1, 0)], [(0, 1), (1, 1)]]).isNone = true := by decide

end Mifem.Props
