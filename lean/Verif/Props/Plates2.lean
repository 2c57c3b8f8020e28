import Mathlib.Tactic.NormNum
import Verif.Props.Plates

/-!
# C106: the regions of the domains with a circular hole are joined as drawn
-/

namespace Mifem.Props.Plate106
open Mifem.Region Mifem.Plates Mifem.Domain

/-! ## Numbers of corners depend on the equality of corners only -/

theorem idxOf_inj {I C : Type} [DecidableEq I] [DecidableEq C] {f : I → C} (hf : Function.Injective f) (c : I) (pool : List I) :
    (pool.map f).idxOf (f c) = pool.idxOf c := by
  induction pool with
  | nil => rfl
  | cons a l ih => simp only [List.map_cons, List.idxOf_cons, ih, beq_eq_decide, hf.eq_iff]

theorem checkDup_map {I C : Type} [DecidableEq I] [DecidableEq C] {f : I → C} (hf : Function.Injective f) {close : C → C → Bool}
    (hc : ∀ i j, close (f i) (f j) = decide (i = j)) (pool : List I) (c : I) :
    checkDup close (pool.map f) (f c) = checkDup (fun i j => decide (i = j)) pool c := by
  unfold checkDup
  have hm : (pool.map f).findIdx? (fun p => close p (f c)) = pool.findIdx? fun p => decide (p = c) := by
    rw [List.findIdx?_map]
    congr 1
    funext p
    exact hc p c
  rw [hm, idxOf_inj hf]
  by_cases h : c ∈ pool
  · rw [if_pos h, if_pos (List.mem_map_of_mem h)]
  · rw [if_neg h, if_neg (fun g => h (by
      obtain ⟨x, hx, e⟩ := List.mem_map.1 g
      exact hf e ▸ hx))]

theorem numberCorners_map {I C : Type} [DecidableEq I] [DecidableEq C] {f : I → C} (hf : Function.Injective f) {close : C → C → Bool}
    (hc : ∀ i j, close (f i) (f j) = decide (i = j)) (cs : List I) : ∀ pool : List I,
    numberCorners close (pool.map f) (cs.map f) =
      ((numberCorners (fun i j => decide (i = j)) pool cs).1, (numberCorners (fun i j => decide (i = j)) pool cs).2.map f) := by
  induction cs with
  | nil => intro pool; rfl
  | cons c cs ih =>
    intro pool
    simp only [List.map_cons, numberCorners, checkDup_map hf hc]
    cases checkDup (fun i j => decide (i = j)) pool c with
    | some k => simp only [ih]
    | none =>
      have := ih (pool ++ [c])
      simp only [List.map_append, List.map_cons, List.map_nil] at this
      simp only [this, List.length_map]

theorem numberRegions_map {I C ν : Type} [DecidableEq I] [DecidableEq C] {f : I → C} (hf : Function.Injective f) {close : C → C → Bool}
    (hc : ∀ i j, close (f i) (f j) = decide (i = j)) (regs : List (ν × List I)) : ∀ pool : List I,
    numberRegions close (pool.map f) (regs.map fun x => (x.1, x.2.map f)) = numberRegions (fun i j => decide (i = j)) pool regs := by
  induction regs with
  | nil => intro pool; rfl
  | cons x l ih =>
    intro pool
    simp only [List.map_cons, numberRegions, numberCorners_map hf hc, ih]

theorem regionMap_map {I C ν : Type} [DecidableEq I] [DecidableEq C] [DecidableEq ν] {f : I → C} (hf : Function.Injective f)
    {close : C → C → Bool} (hc : ∀ i j, close (f i) (f j) = decide (i = j)) (dim : ℕ) (regs : List (ν × List I))
    (bnds : List (List (ν × ℕ))) :
    regionMap dim close (regs.map fun x => (x.1, x.2.map f)) bnds = regionMap dim (fun i j => decide (i = j)) regs bnds := by
  have := numberRegions_map hf hc regs []
  simp only [List.map_nil] at this
  simp only [regionMap, this, List.map_map, Function.comp_def]

/-- The entries of a region map, region by region. -/
def entries {ν : Type} (names : List ν) (rm : ν → ℕ → Entry ν) : List (List (Entry ν)) := names.map fun n => (List.range 4).map (rm n)

/-- Two different corners are told apart (the code compares distances with 1e-9). -/
def Apart {ν : Type} (d : Input ν) (close : ℝ × ℝ → ℝ × ℝ → Bool) : Prop :=
  ∀ n m, ∀ i j, close (d.corners n i) (d.corners m j) = true ↔ d.corners n i = d.corners m j

/-- `tab` says what is attached to the edges U, D, L, R of each region: all regions are joined as drawn. -/
def Joined {ν : Type} [DecidableEq ν] (d : Input ν) (tab : ν → List (Att ν)) : Prop :=
  ∀ [DecidableEq (ℝ × ℝ)] close, Apart d close → ∃ rm, regionMap 2 close d.regions d.listing = some rm ∧
    ∀ n ∈ d.names, ∀ j < 4, (tab n)[j]?.map Entry.done = some (rm n j)

theorem joined_of {ν : Type} [DecidableEq ν] {I : Type} [DecidableEq I] (d : Input ν) (tab : ν → List (Att ν)) (f : I → ℝ × ℝ)
    (hf : Function.Injective f) (c : ν → Fin 4 → I) (hcor : ∀ n i, d.corners n i = f (c n i)) (hsur : ∀ k, ∃ n i, k = c n i)
    (names : List ν) (hn : d.names = names) (l : List (List (ν × ℕ))) (hl : d.listing = l)
    (hfin : (regionMap 2 (fun i j : I => decide (i = j)) (names.map fun n => (n, List.ofFn (c n))) l).map (entries names) =
      some (names.map fun n => (tab n).map Entry.done)) : Joined d tab := by
  subst hn hl
  intro _ close hap
  have hcl : ∀ i j, close (f i) (f j) = decide (i = j) := by
    intro i j
    obtain ⟨n, a, rfl⟩ := hsur i
    obtain ⟨m, b, rfl⟩ := hsur j
    have := hap n m a b
    rw [hcor, hcor, hf.eq_iff] at this
    rw [Bool.eq_iff_iff, this, decide_eq_true_iff]
  have hreg : d.regions = (d.names.map fun n => (n, List.ofFn (c n))).map fun x => (x.1, x.2.map f) := by
    simp only [Input.regions, List.map_map, Function.comp_def, List.map_ofFn]
    refine List.map_congr_left fun n _ => ?_
    rw [show d.corners n = fun i => f (c n i) from funext (hcor n)]
  rw [hreg, regionMap_map hf hcl]
  obtain ⟨rm, h1, h2⟩ := Option.map_eq_some_iff.1 hfin
  refine ⟨rm, h1, fun n hn j hj => ?_⟩
  have h3 : (List.range 4).map (rm n) = (tab n).map Entry.done := by
    have := List.map_inj_left.1 h2 n hn
    exact this
  rw [← List.getElem?_map, ← h3, List.getElem?_map, List.getElem?_range hj]
  rfl

/-! ## The cylinder in a channel -/

/-- The twelve corners of the regions. -/
def cicPts (s a li lo : ℝ) : Fin 12 → ℝ × ℝ :=
  ![(-s, s), (s, s), (-a, a), (a, a), (s, -s), (a, -a), (-s, -s), (-a, -a), (-a - li, -a), (-a - li, a), (a + lo, a), (a + lo, -a)]

theorem cicPts_inj {s a li lo : ℝ} (hs : 0 < s) (ha : s < a) (hi : 0 < li) (ho : 0 < lo) : Function.Injective (cicPts s a li lo) := by
  intro i j h
  fin_cases i <;> fin_cases j <;> first
    | rfl
    | (exfalso
       simp [cicPts] at h
       first | linarith | (obtain ⟨h1, h2⟩ := h; linarith))

/-- The corners by number. -/
def cicIdx : Cic → Fin 4 → Fin 12
  | .Ru => ![0, 1, 2, 3]
  | .Rr => ![1, 4, 3, 5]
  | .Rd => ![4, 6, 5, 7]
  | .Rl => ![6, 0, 7, 2]
  | .Ri => ![7, 2, 8, 9]
  | .Ro => ![3, 5, 10, 11]

/-- Cylinder in a channel: what is attached to the edges U, D, L, R (boundaries: 0 Upper, 1 Down, 2 Left, 3 Right, 4 Internal). -/
def cicTab : Cic → List (Att Cic)
  | .Ru => [.reg .Rl, .reg .Rr, .bnd 4, .bnd 0]
  | .Rr => [.reg .Ru, .reg .Rd, .bnd 4, .reg .Ro]
  | .Rd => [.reg .Rr, .reg .Rl, .bnd 4, .bnd 1]
  | .Rl => [.reg .Rd, .reg .Ru, .bnd 4, .reg .Ri]
  | .Ri => [.bnd 1, .bnd 0, .reg .Rl, .bnd 2]
  | .Ro => [.bnd 0, .bnd 1, .reg .Rr, .bnd 3]

/-- **C106.** Cylinder in a channel: for all parameters the four regions around the cylinder form a ring, the regions of the
inlet and of the outlet are attached to its left and its right one, and every other edge is on one boundary. -/
theorem c106_cylinder_regions {h r li lo : ℝ} (hr : 0 < r) (hh : r < h / 2) (hi : 0 < li) (ho : 0 < lo) :
    ∃ d, cic h r li lo = some d ∧ Joined d cicTab := by
  have s2 : (0 : ℝ) < Real.sqrt 2 := by positivity
  have s1 : 1 < Real.sqrt 2 := by
    rw [show (1 : ℝ) = Real.sqrt (1 ^ 2) by rw [Real.sqrt_sq (by norm_num)]]
    exact Real.sqrt_lt_sqrt (by norm_num) (by norm_num)
  have hs : 0 < r / Real.sqrt 2 := by positivity
  have hs' : r / Real.sqrt 2 < h / 2 := (div_lt_self hr s1).trans hh
  unfold cic
  rw [if_neg (by push Not; exact ⟨by linarith, hr, hr, hr, hh⟩)]
  refine ⟨_, rfl, joined_of _ _ (cicPts (r / Real.sqrt 2) (h / 2) li lo) (cicPts_inj hs hs' hi ho) cicIdx ?_ ?_ _ rfl _ rfl ?_⟩
  · intro n i
    cases n <;> fin_cases i <;> simp [cicIdx, cicPts, neg_div]
  · intro k
    fin_cases k
    exacts [⟨.Ru, 0, rfl⟩, ⟨.Ru, 1, rfl⟩, ⟨.Ru, 2, rfl⟩, ⟨.Ru, 3, rfl⟩, ⟨.Rr, 1, rfl⟩, ⟨.Rr, 3, rfl⟩, ⟨.Rd, 1, rfl⟩, ⟨.Rd, 3, rfl⟩,
      ⟨.Ri, 2, rfl⟩, ⟨.Ri, 3, rfl⟩, ⟨.Ro, 2, rfl⟩, ⟨.Ro, 3, rfl⟩]
  · simp only [Input.listing, List.map_cons, List.map_nil]
    decide +kernel

/-! ## The plates -/

/-- The eight corners of the regions of the first plate. -/
def p1Pts (s a b : ℝ) : Fin 8 → ℝ × ℝ := ![(-s, s), (s, s), (-a, b), (a, b), (s, -s), (a, -b), (-s, -s), (-a, -b)]

theorem p1Pts_inj {s a b : ℝ} (hs : 0 < s) (ha : s < a) (hb : s < b) : Function.Injective (p1Pts s a b) := by
  intro i j h
  fin_cases i <;> fin_cases j <;> first
    | rfl
    | (exfalso
       simp [p1Pts] at h
       first | linarith | (obtain ⟨h1, h2⟩ := h; linarith))

/-- The corners by number. -/
def p1Idx : Chp1 → Fin 4 → Fin 8
  | .Ru => ![0, 1, 2, 3]
  | .Rr => ![1, 4, 3, 5]
  | .Rd => ![4, 6, 5, 7]
  | .Rl => ![6, 0, 7, 2]

/-- First plate: what is attached to the edges U, D, L, R (boundaries as above). -/
def p1Tab : Chp1 → List (Att Chp1)
  | .Ru => [.reg .Rl, .reg .Rr, .bnd 4, .bnd 0]
  | .Rr => [.reg .Ru, .reg .Rd, .bnd 4, .bnd 3]
  | .Rd => [.reg .Rr, .reg .Rl, .bnd 4, .bnd 1]
  | .Rl => [.reg .Rd, .reg .Ru, .bnd 4, .bnd 2]

/-- **C106.** First plate: whenever the corners at the hole are inside the plate, the four regions form a ring. -/
theorem c106_plate1_regions {hx hy r : ℝ} (hr : 0 < r) (h1 : r < hx) (h2 : r < hy) (h3 : r < hx ^ 2) (h4 : r < hy ^ 2) :
    ∃ d, chp1 hx hy r = some d ∧ Joined d p1Tab := by
  have hs : 0 < 0.5 * Real.sqrt r := by positivity
  have ha : 0.5 * Real.sqrt r < hx / 2 := by
    have : Real.sqrt r < hx := (Real.sqrt_lt' (by linarith)).2 h3
    linarith
  have hb : 0.5 * Real.sqrt r < hy / 2 := by
    have : Real.sqrt r < hy := (Real.sqrt_lt' (by linarith)).2 h4
    linarith
  unfold chp1
  rw [if_neg (by push Not; exact ⟨by linarith, by linarith⟩), if_neg (by push Not; exact lt_min h1 h2)]
  refine ⟨_, rfl, joined_of _ _ (p1Pts (0.5 * Real.sqrt r) (hx / 2) (hy / 2)) (p1Pts_inj hs ha hb) p1Idx ?_ ?_ _ rfl _ rfl ?_⟩
  · intro n i
    cases n <;> fin_cases i <;> simp [p1Idx, p1Pts, neg_div]
  · intro k
    fin_cases k
    exacts [⟨.Ru, 0, rfl⟩, ⟨.Ru, 1, rfl⟩, ⟨.Ru, 2, rfl⟩, ⟨.Ru, 3, rfl⟩, ⟨.Rr, 1, rfl⟩, ⟨.Rr, 3, rfl⟩, ⟨.Rd, 1, rfl⟩, ⟨.Rd, 3, rfl⟩]
  · simp only [Input.listing, List.map_cons, List.map_nil]
    decide +kernel

/-- The sixteen corners of the regions of the second plate. -/
def p2Pts (s a b : ℝ) (k : Fin 4 × Fin 4) : ℝ × ℝ := (![-a, -s, s, a] k.1, ![-b, -s, s, b] k.2)

theorem four_inj {s a : ℝ} (hs : 0 < s) (ha : s < a) : Function.Injective ![-a, -s, s, a] := by
  intro i j h
  fin_cases i <;> fin_cases j <;> first
    | rfl
    | (exfalso; simp at h; linarith)

theorem p2Pts_inj {s a b : ℝ} (hs : 0 < s) (ha : s < a) (hb : s < b) : Function.Injective (p2Pts s a b) := by
  rintro ⟨i, j⟩ ⟨i', j'⟩ h
  simp only [p2Pts, Prod.mk.injEq] at h
  exact Prod.ext (four_inj hs ha h.1) (four_inj hs hb h.2)

/-- The corners by number. -/
def p2Idx : Chp2 → Fin 4 → Fin 4 × Fin 4
  | .UL => ![(0, 0), (1, 0), (0, 1), (1, 1)]
  | .L => ![(1, 0), (2, 0), (1, 1), (2, 1)]
  | .DL => ![(2, 0), (3, 0), (2, 1), (3, 1)]
  | .U => ![(0, 1), (1, 1), (0, 2), (1, 2)]
  | .D => ![(2, 1), (3, 1), (2, 2), (3, 2)]
  | .UR => ![(0, 2), (1, 2), (0, 3), (1, 3)]
  | .R => ![(1, 2), (2, 2), (1, 3), (2, 3)]
  | .DR => ![(2, 2), (3, 2), (2, 3), (3, 3)]

/-- Second plate: what is attached to the edges U, D, L, R (boundaries as above). -/
def p2Tab : Chp2 → List (Att Chp2)
  | .UL => [.bnd 0, .reg .L, .bnd 2, .reg .U]
  | .L => [.reg .UL, .reg .DL, .bnd 2, .bnd 4]
  | .DL => [.reg .L, .bnd 1, .bnd 2, .reg .D]
  | .U => [.bnd 0, .bnd 4, .reg .UL, .reg .UR]
  | .D => [.bnd 4, .bnd 1, .reg .DL, .reg .DR]
  | .UR => [.bnd 0, .reg .R, .reg .U, .bnd 3]
  | .R => [.reg .UR, .reg .DR, .bnd 4, .bnd 3]
  | .DR => [.reg .R, .bnd 1, .reg .D, .bnd 3]

/-- **C106.** Second plate: for every hole inside the plate the eight regions are joined as drawn. -/
theorem c106_plate2_regions {hx hy r : ℝ} (hr : 0 < r) (h1 : r < hx / 2) (h2 : r < hy / 2) :
    ∃ d, chp2 hx hy r = some d ∧ Joined d p2Tab := by
  obtain ⟨hs, hs'⟩ := sr_lt hr
  unfold chp2
  rw [if_neg (by push Not; exact ⟨by linarith, by linarith⟩), if_neg (by push Not; exact lt_min (by linarith) (by linarith))]
  refine ⟨_, rfl, joined_of _ _ (p2Pts (Real.sqrt 2 * r / 2) (hx / 2) (hy / 2)) (p2Pts_inj hs (by linarith) (by linarith)) p2Idx
    ?_ ?_ _ rfl _ rfl ?_⟩
  · intro n i
    cases n <;> fin_cases i <;> simp [p2Idx, p2Pts, neg_div]
  · rintro ⟨i, j⟩
    revert i j
    have : ∀ i j : Fin 4, ∃ n ∈ [Chp2.UL, .L, .DL, .U, .D, .UR, .R, .DR], ∃ a : Fin 4, (i, j) = p2Idx n a := by decide
    intro i j
    obtain ⟨n, -, a, e⟩ := this i j
    exact ⟨n, a, e⟩
  · simp only [Input.listing, List.map_cons, List.map_nil]
    decide +kernel

/-- Parameters meeting the hypotheses, with a test of closeness that tells all corners apart. -/
example : (∃ d, cic 1.5 0.5 0.75 2.25 = some d ∧ Joined d cicTab) ∧ (∃ d, chp1 1.5 1.5 0.5 = some d ∧ Joined d p1Tab) ∧
    ∃ d, chp2 2 2 0.5 = some d ∧ Joined d p2Tab :=
  ⟨c106_cylinder_regions (by norm_num) (by norm_num) (by norm_num) (by norm_num),
    c106_plate1_regions (by norm_num) (by norm_num) (by norm_num) (by norm_num) (by norm_num),
    c106_plate2_regions (by norm_num) (by norm_num) (by norm_num)⟩

/-! ## What is accepted -/

/-- **C106.** What is accepted: the lengths of the inlet and the outlet play no role. -/
theorem c106_accepted (h r li lo hx hy : ℝ) :
    ((cic h r li lo).isSome ↔ 0 < r ∧ r < h / 2) ∧ ((chp1 hx hy r).isSome ↔ 0 < hx ∧ 0 < hy ∧ r < hx ∧ r < hy) ∧
    ((chp2 hx hy r).isSome ↔ 0 < hx ∧ 0 < hy ∧ r < hx ∧ r < hy) := by
  refine ⟨?_, ?_, ?_⟩
  · unfold cic
    split_ifs with g
    · simp only [Option.isSome_some, true_iff]
      exact ⟨g.2.1, g.2.2.2.2⟩
    · simp only [Option.isSome_none, Bool.false_eq_true, false_iff]
      rintro ⟨a, b⟩
      exact g ⟨by linarith, a, a, a, b⟩
  · unfold chp1
    split_ifs with g g' <;> simp_all
  · unfold chp2
    split_ifs with g g' <;> simp_all

/-- **C106, false of the code.** Lengths of the inlet and of the outlet that are not positive are accepted, and the left
boundary is then not to the left of the part with the cylinder. -/
theorem c106_lengths_fails (li : ℝ) (hi : li ≤ 0) : ∃ d, cic 1.5 0.5 li 2.25 = some d ∧ ∀ P ∈ curve d "Left", -1.5 / 2 ≤ P.1 := by
  unfold cic
  rw [if_neg (by push Not; norm_num)]
  refine ⟨_, rfl, ?_⟩
  intro P hP
  simp [curve, Input.boundary, Input.edge, Two.ofCorners, EdgeType.geometry, trace_segY] at hP
  have := hP.1
  rw [this]
  linarith

end Mifem.Props.Plate106
