import Mathlib.Tactic.FieldSimp
import Mathlib.Tactic.LinearCombination
import Mathlib.Tactic.Linarith
import Mathlib.Tactic.FinCases
import Verif.Model.BoundaryNormal
import Verif.Props.TraceRec

/-!
# C90: the constant outward normal of a boundary
-/

namespace Mifem.Props
open Mifem.TraceDisc Mifem.Three Mifem.BoundaryNormal

/-- The elements of an orthogonal region are boxes: the map is a dilation along the axes. -/
def BoxEl (e : Disc.Three.El ℝ) : Prop :=
  ∃ c h : Fin 3 → ℝ, (∀ i, 0 < h i) ∧ (∀ v i, e.map v i = c i + h i * v i) ∧ ∀ v j l, e.J v j l = if j = l then h j else 0

/-- The elements marked orthogonal are boxes. -/
def _root_.Mifem.BoundaryNormal.Face.Sound (f : Face) : Prop := f.e.orth = true → BoxEl f.e

/-- The unit vector of an axis. -/
def axis (k : Fin 3) : Fin 3 → ℝ := fun c => if c = k then 1 else 0

theorem box_normal {e : Disc.Three.El ℝ} (h : BoxEl e) (s : Side) (a b : ℝ) : unitNormal e s a b = axis (nrm3 s) := by
  obtain ⟨c, d, hd, -, hJ⟩ := h
  have h0 := hd 0
  have h1 := hd 1
  have h2 := hd 2
  have k : ∀ x y : ℝ, 0 < x → 0 < y → x * y / Real.sqrt ((x * y) ^ 2) = 1 := fun x y hx hy => by
    rw [Real.sqrt_sq (mul_pos hx hy).le]
    exact div_self (mul_pos hx hy).ne'
  funext i
  cases s <;> fin_cases i <;> simp [unitNormal, crossV, jac, hJ, axis, nrm3, k, h0, h1, h2]

theorem outwardNormal_eq (e : Disc.Three.El ℝ) (s : Side) (a b : ℝ) (c : Fin 3) :
    outwardNormal e s a b c = (outward3 s : ℝ) * unitNormal e s a b c := by
  cases s <;> simp [outwardNormal, outward3]

theorem box_outward {e : Disc.Three.El ℝ} (h : BoxEl e) (s : Side) (a b : ℝ) :
    outwardNormal e s a b = fun c => (outward3 s : ℝ) * axis (nrm3 s) c := by
  funext c
  rw [outwardNormal_eq, box_normal h]

theorem box_out {e : Disc.Three.El ℝ} (h : BoxEl e) (s : Side) :
    ∃ x : ℝ, 0 < x ∧ (Face.mk e s).out = fun c => x * ((outward3 s : ℝ) * axis (nrm3 s) c) := by
  obtain ⟨c, d, hd, hm, -⟩ := h
  refine ⟨d (nrm3 s) / 4, by have := hd (nrm3 s); positivity, ?_⟩
  funext i
  cases s <;> fin_cases i <;> simp [Face.out, hm, probe, axis, nrm3, outward3] <;> ring

theorem dot_axis (k l : Fin 3) : dotV (axis k) (axis l) = if k = l then 1 else 0 := by
  fin_cases k <;> fin_cases l <;> simp [dotV, axis]

theorem clamp_pos (x : ℝ) : 0 < (if x > 1 then 1 else if x < -1 then -1 else x) ↔ 0 < x := by
  split_ifs <;> constructor <;> intros <;> linarith

theorem clamp_nonneg (x : ℝ) : 0 ≤ (if x > 1 then 1 else if x < -1 then -1 else x) ↔ 0 ≤ x := by
  split_ifs <;> constructor <;> intros <;> linarith

theorem angle_acute {u v : Fin 3 → ℝ} (hu : 0 < dotV u u) (hv : 0 < dotV v v) : angle u v < Real.pi / 2 ↔ 0 < dotV u v := by
  have := Real.sqrt_pos.2 hu
  have := Real.sqrt_pos.2 hv
  rw [angle, Real.arccos_lt_pi_div_two, clamp_pos, div_pos_iff_of_pos_right (by positivity)]

theorem angle_obtuse {u v : Fin 3 → ℝ} (hu : 0 < dotV u u) (hv : 0 < dotV v v) : angle u v > Real.pi / 2 ↔ dotV u v < 0 := by
  have := Real.sqrt_pos.2 hu
  have := Real.sqrt_pos.2 hv
  rw [gt_iff_lt, ← not_le, angle, Real.arccos_le_pi_div_two, clamp_nonneg, not_le,
    div_neg_iff]
  have hp : 0 < Real.sqrt (dotV u u) * Real.sqrt (dotV v v) := by positivity
  constructor
  · rintro (⟨-, h⟩ | ⟨h, -⟩)
    · linarith
    · exact h
  · exact fun h => Or.inr ⟨h, hp⟩

/-! ## The loops -/

theorem coreVector_some {v : Fin 3 → ℝ} (L : List Face) : ∀ {cV : Option (Fin 3 → ℝ)}, coreVector cV L = some v →
    (cV = none ∨ cV = some v) ∧ (cV = some v ∨ L ≠ []) ∧ ∀ f ∈ L, f.constant = some v := by
  induction L with
  | nil =>
    intro cV h
    rw [coreVector] at h
    exact ⟨Or.inr h, Or.inl h, by simp⟩
  | cons f L ih =>
    intro cV h
    rw [coreVector] at h
    cases hf : f.constant with
    | none => rw [hf] at h; simp at h
    | some w =>
      rw [hf] at h
      cases cV with
      | none =>
        obtain ⟨h1, -, h3⟩ := ih h
        have hw : w = v := by rcases h1 with h1 | h1 <;> simp_all
        subst hw
        exact ⟨Or.inl rfl, Or.inr (by simp), by simpa [hf] using h3⟩
      | some c =>
        simp only at h
        split_ifs at h with hc
        subst hc
        obtain ⟨h1, -, h3⟩ := ih h
        have hw : c = v := by rcases h1 with h1 | h1 <;> simp_all
        subst hw
        exact ⟨Or.inr rfl, Or.inr (by simp), by simpa [hf] using h3⟩

theorem coreVector_const {v : Fin 3 → ℝ} (L : List Face) (h : ∀ f ∈ L, f.constant = some v) :
    coreVector (some v) L = some v := by
  induction L with
  | nil => rfl
  | cons f L ih =>
    rw [coreVector, h f (by simp)]
    simpa using ih fun g hg => h g (by simp [hg])

theorem coreVector_start {v : Fin 3 → ℝ} (L : List Face) (hL : L ≠ []) (h : ∀ f ∈ L, f.constant = some v) :
    coreVector none L = some v := by
  cases L with
  | nil => exact absurd rfl hL
  | cons f L =>
    rw [coreVector, h f (by simp)]
    exact coreVector_const L fun g hg => h g (by simp [hg])

theorem pick_mem {l : List (Option (Fin 3 → ℝ))} {v : Fin 3 → ℝ} (h : firstVector l = some v) : some v ∈ l := by
  rw [firstVector] at h
  cases hf : l.find? Option.isSome with
  | none => rw [hf] at h; simp at h
  | some o =>
    rw [hf] at h
    have : o = some v := by simpa using h
    exact this ▸ List.mem_of_find?_eq_some hf

theorem pick_const {l : List (Option (Fin 3 → ℝ))} {v : Fin 3 → ℝ} (hm : some v ∈ l) (h : ∀ o ∈ l, o = none ∨ o = some v) :
    firstVector l = some v := by
  rw [firstVector]
  cases hf : l.find? Option.isSome with
  | none =>
    rw [List.find?_eq_none] at hf
    simpa using hf _ hm
  | some o =>
    have h1 := List.mem_of_find?_eq_some hf
    have h2 := List.find?_some hf
    rcases h o h1 with rfl | rfl
    · simp at h2
    · rfl

theorem check_oppo (v : Fin 3 → ℝ) (L : List Face) :
    ((coreCheck v L).1 != some false) = true ↔ ∀ f ∈ L, angle f.out v > Real.pi / 2 := by
  rw [coreCheck]
  split_ifs with h
  · simp [bne_iff_ne]
  · have : L = [] := by simpa using h
    simp [this]

theorem check_same (v : Fin 3 → ℝ) (L : List Face) :
    ((coreCheck v L).2 != some false) = true ↔ ∀ f ∈ L, angle f.out v < Real.pi / 2 := by
  rw [coreCheck]
  split_ifs with h
  · simp [bne_iff_ne]
  · have : L = [] := by simpa using h
    simp [this]

open Classical in
theorem orient_eq (C : List (List Face)) (v : Fin 3 → ℝ) : orient C v =
    if ∀ f ∈ C.flatten, angle f.out v > Real.pi / 2 then some (fun c => -v c)
    else if ∀ f ∈ C.flatten, angle f.out v < Real.pi / 2 then some v else none := by
  have h1 : (C.all fun L => (coreCheck v L).1 != some false) = true ↔ ∀ f ∈ C.flatten, angle f.out v > Real.pi / 2 := by
    rw [List.all_eq_true]
    simp only [check_oppo, List.mem_flatten]
    exact ⟨fun h f ⟨L, hL, hf⟩ => h L hL f hf, fun h L hL f hf => h f ⟨L, hL, hf⟩⟩
  have h2 : (C.all fun L => (coreCheck v L).2 != some false) = true ↔ ∀ f ∈ C.flatten, angle f.out v < Real.pi / 2 := by
    rw [List.all_eq_true]
    simp only [check_same, List.mem_flatten]
    exact ⟨fun h f ⟨L, hL, hf⟩ => h L hL f hf, fun h L hL f hf => h f ⟨L, hL, hf⟩⟩
  rw [orient]
  by_cases a : ∀ f ∈ C.flatten, angle f.out v > Real.pi / 2
  · rw [if_pos a, h1.2 a]
    simp
  · have a' := Bool.eq_false_iff.2 fun x => a (h1.1 x)
    rw [if_neg a, a']
    by_cases b : ∀ f ∈ C.flatten, angle f.out v < Real.pi / 2
    · rw [if_pos b, h2.2 b]
      simp
    · have b' := Bool.eq_false_iff.2 fun x => b (h2.1 x)
      rw [if_neg b, b']
      simp

/-! ## The result -/

theorem face_dot {f : Face} (h : BoxEl f.e) (k : Fin 3) : 0 < dotV f.out f.out ∧
    ∃ x : ℝ, 0 < x ∧ dotV f.out (axis k) = if nrm3 f.s = k then x * outward3 f.s else 0 := by
  obtain ⟨x, hx, hf⟩ := box_out h f.s
  have hf' : f.out = fun c => x * ((outward3 f.s : ℝ) * axis (nrm3 f.s) c) := hf
  have e1 : ∀ u, dotV f.out u = x * outward3 f.s * dotV (axis (nrm3 f.s)) u := fun u => by
    rw [hf']; simp only [dotV]; ring
  have e2 : dotV (axis (nrm3 f.s)) f.out = dotV f.out (axis (nrm3 f.s)) := by simp only [dotV]; ring
  refine ⟨?_, x, hx, ?_⟩
  · rw [e1, e2, e1, dot_axis, if_pos rfl]
    have : (outward3 f.s : ℝ) * outward3 f.s = 1 := by cases f.s <;> simp [outward3]
    have : x * outward3 f.s * (x * outward3 f.s * 1) = x * x := by linear_combination x * x * this
    rw [this]
    positivity
  · rw [e1, dot_axis]
    split_ifs <;> simp

theorem axis_ne_neg (k l : Fin 3) : axis k ≠ fun c => -axis l c := fun h => by
  have := congrFun h k
  simp only [axis, if_pos] at this
  split_ifs at this <;> norm_num at this

theorem axis_inj {k l : Fin 3} (h : axis k = axis l) : k = l := by
  by_contra hn
  have := congrFun h k
  simp [axis, hn] at this

theorem outward3_cases (s : Side) : (outward3 s : ℝ) = 1 ∨ (outward3 s : ℝ) = -1 := by
  cases s <;> simp [outward3]

theorem face_constant {f : Face} (h : f.Sound) {v : Fin 3 → ℝ} (hv : f.constant = some v) :
    f.e.orth = true ∧ v = axis (nrm3 f.s) := by
  rw [Face.constant] at hv
  split_ifs at hv with ho
  rw [box_normal (h ho)] at hv
  exact ⟨ho, (Option.some.inj hv).symm⟩

theorem outward_sound {C : List (List Face)} {r : Fin 3 → ℝ} (hs : ∀ f ∈ C.flatten, f.Sound)
    (ho : ∀ f ∈ C.flatten, f.e.orth = true) (h : outward C = some r) :
    C.flatten ≠ [] ∧ ∀ f ∈ C.flatten, ∀ a b, outwardNormal f.e f.s a b = r := by
  classical
  rw [outward] at h
  cases hp : firstVector (C.map (coreVector none)) with
  | none => rw [hp] at h; simp at h
  | some v =>
    rw [hp] at h
    simp only at h
    obtain ⟨L, hL, hv⟩ := List.mem_map.1 (pick_mem hp)
    obtain ⟨-, h2, h3⟩ := coreVector_some L hv
    have hL' : L ≠ [] := by rcases h2 with h2 | h2; · simp at h2
                            · exact h2
    obtain ⟨f0, hf0⟩ := List.exists_mem_of_ne_nil L hL'
    have hm0 : f0 ∈ C.flatten := List.mem_flatten.2 ⟨L, hL, hf0⟩
    obtain ⟨-, rfl⟩ := face_constant (hs f0 hm0) (h3 f0 hf0)
    refine ⟨List.ne_nil_of_mem hm0, fun f hf a b => ?_⟩
    have hb := hs f hf (ho f hf)
    obtain ⟨d1, x, hx, d2⟩ := face_dot hb (nrm3 f0.s)
    have ha : 0 < dotV (axis (nrm3 f0.s)) (axis (nrm3 f0.s)) := by rw [dot_axis, if_pos rfl]; norm_num
    rw [orient_eq] at h
    rw [box_outward hb]
    split_ifs at h with o1 o2
    · have := (angle_obtuse d1 ha).1 (o1 f hf)
      rw [d2] at this
      split_ifs at this with hk
      · rcases outward3_cases f.s with q | q
        · rw [q] at this; linarith
        · rw [q, hk, ← Option.some.inj h]
          funext c
          ring
      · exact absurd this (lt_irrefl _)
    · have := (angle_acute d1 ha).1 (o2 f hf)
      rw [d2] at this
      split_ifs at this with hk
      · rcases outward3_cases f.s with q | q
        · rw [q, hk, ← Option.some.inj h]
          funext c
          ring
        · rw [q] at this; linarith
      · exact absurd this (lt_irrefl _)

theorem outward_complete {C : List (List Face)} {r : Fin 3 → ℝ} (hs : ∀ f ∈ C.flatten, f.Sound)
    (ho : ∀ f ∈ C.flatten, f.e.orth = true) (hne : C.flatten ≠ [])
    (h : ∀ f ∈ C.flatten, ∀ a b, outwardNormal f.e f.s a b = r) : outward C = some r := by
  classical
  obtain ⟨f0, hm0⟩ := List.exists_mem_of_ne_nil _ hne
  have key : ∀ f ∈ C.flatten, nrm3 f.s = nrm3 f0.s ∧ (outward3 f.s : ℝ) = outward3 f0.s := fun f hf => by
    have e1 := h f hf 0 0
    rw [← h f0 hm0 0 0, box_outward (hs f hf (ho f hf)), box_outward (hs f0 hm0 (ho f0 hm0))] at e1
    rcases outward3_cases f.s with q | q <;> rcases outward3_cases f0.s with q' | q' <;> rw [q, q'] at e1
    · exact ⟨axis_inj (by simpa using e1), by rw [q, q']⟩
    · exact absurd (by simpa using e1) (axis_ne_neg (nrm3 f.s) (nrm3 f0.s))
    · exact absurd (by simpa using e1.symm) (axis_ne_neg (nrm3 f0.s) (nrm3 f.s))
    · refine ⟨axis_inj (funext fun c => ?_), by rw [q, q']⟩
      have := congrFun e1 c
      linarith
  have hc : ∀ f ∈ C.flatten, f.constant = some (axis (nrm3 f0.s)) := fun f hf => by
    rw [Face.constant, if_pos (ho f hf), box_normal (hs f hf (ho f hf)), (key f hf).1]
  have hp : firstVector (C.map (coreVector none)) = some (axis (nrm3 f0.s)) := by
    obtain ⟨L0, hL0, hf0⟩ := List.mem_flatten.1 hm0
    refine pick_const (List.mem_map.2 ⟨L0, hL0, coreVector_start L0 (List.ne_nil_of_mem hf0)
      fun f hf => hc f (List.mem_flatten.2 ⟨L0, hL0, hf⟩)⟩) fun o ho' => ?_
    obtain ⟨L, hL, rfl⟩ := List.mem_map.1 ho'
    by_cases hn : L = []
    · left; rw [hn]; rfl
    · exact Or.inr (coreVector_start L hn fun f hf => hc f (List.mem_flatten.2 ⟨L, hL, hf⟩))
  have ha : 0 < dotV (axis (nrm3 f0.s)) (axis (nrm3 f0.s)) := by rw [dot_axis, if_pos rfl]; norm_num
  rw [outward, hp]
  simp only
  rw [orient_eq, ← h f0 hm0 0 0, box_outward (hs f0 hm0 (ho f0 hm0))]
  have sgn : ∀ f ∈ C.flatten, 0 < dotV f.out f.out ∧ ∃ x : ℝ, 0 < x ∧ dotV f.out (axis (nrm3 f0.s)) = x * outward3 f0.s :=
    fun f hf => by
      obtain ⟨d1, x, hx, d2⟩ := face_dot (hs f hf (ho f hf)) (nrm3 f0.s)
      rw [if_pos (key f hf).1, (key f hf).2] at d2
      exact ⟨d1, x, hx, d2⟩
  rcases outward3_cases f0.s with q | q <;> rw [q] at sgn ⊢
  · rw [if_neg, if_pos]
    · simp
    · intro f hf
      obtain ⟨d1, x, hx, d2⟩ := sgn f hf
      exact (angle_acute d1 ha).2 (by rw [d2]; linarith)
    · intro hh
      obtain ⟨d1, x, hx, d2⟩ := sgn f0 hm0
      have := (angle_obtuse d1 ha).1 (hh f0 hm0)
      rw [d2] at this
      linarith
  · rw [if_pos]
    · simp
    · intro f hf
      obtain ⟨d1, x, hx, d2⟩ := sgn f hf
      exact (angle_obtuse d1 ha).2 (by rw [d2]; linarith)

/-- With all faces on one core (and the other cores empty or absent), the answer is right: there is a constant vector exactly if
all faces are orthogonal, and it is the outward unit normal of all of them everywhere.  (A flat boundary of curved elements is
answered by "no constant vector".) -/
theorem c90_serial (L : List Face) (hs : ∀ f ∈ L, f.Sound) (r : Fin 3 → ℝ) : outward [L] = some r ↔
    L ≠ [] ∧ ∀ f ∈ L, f.e.orth = true ∧ ∀ a b, outwardNormal f.e f.s a b = r := by
  have hf : [L].flatten = L := by simp
  constructor
  · intro h
    have ho : ∀ f ∈ L, f.e.orth = true := by
      have h' := h
      rw [outward] at h'
      cases hp : firstVector ([L].map (coreVector none)) with
      | none => rw [hp] at h'; simp at h'
      | some v =>
        have := pick_mem hp
        simp only [List.map_cons, List.map_nil, List.mem_singleton] at this
        exact fun f hf => (face_constant (hs f hf) ((coreVector_some L this.symm).2.2 f hf)).1
    have := outward_sound (C := [L]) (by rwa [hf]) (by rwa [hf]) h
    rw [hf] at this
    exact ⟨this.1, fun f hm => ⟨ho f hm, this.2 f hm⟩⟩
  · rintro ⟨h1, h2⟩
    exact outward_complete (by rwa [hf]) (by rw [hf]; exact fun f hm => (h2 f hm).1) (by rwa [hf])
      (by rw [hf]; exact fun f hm => (h2 f hm).2)

/-- Full claim: however the faces are distributed, the answer is that of one core.  Proved if all faces are orthogonal. -/
theorem c90_cores_partial (C : List (List Face)) (hs : ∀ f ∈ C.flatten, f.Sound) (ho : ∀ f ∈ C.flatten, f.e.orth = true)
    (r : Fin 3 → ℝ) : outward C = some r ↔
    C.flatten ≠ [] ∧ ∀ f ∈ C.flatten, ∀ a b, outwardNormal f.e f.s a b = r :=
  ⟨outward_sound hs ho, fun h => outward_complete hs ho h.1 h.2⟩

theorem c90_cores_same (C : List (List Face)) (hs : ∀ f ∈ C.flatten, f.Sound) (ho : ∀ f ∈ C.flatten, f.e.orth = true) :
    outward C = outward [C.flatten] := by
  have hf : [C.flatten].flatten = C.flatten := by simp
  refine Option.ext fun r => ?_
  rw [c90_cores_partial C hs ho, c90_cores_partial [C.flatten] (by rwa [hf]) (by rwa [hf]), hf]

/-- A box and a sheared box. -/
def cube : Disc.Three.El ℝ := ⟨fun v => v, fun _ j l => if j = l then 1 else 0, true⟩

def sheared : Disc.Three.El ℝ :=
  ⟨fun v => ![v 0 + v 1, v 1, v 2], fun _ => ![![1, 1, 0], ![0, 1, 0], ![0, 0, 1]], false⟩

theorem cube_box : BoxEl cube :=
  ⟨fun _ => 0, fun _ => 1, fun _ => one_pos, fun v i => by simp [cube], fun v j l => rfl⟩

/-- False in general: a core whose faces have no constant normal is passed over.  With the cube on one core and the sheared box
on another, the answer is the normal of the cube, which is not the normal of the other face; with both on one core the answer is
that there is no constant normal. -/
theorem c90_cores_counterexample :
    outward [[⟨cube, .S⟩], [⟨sheared, .S⟩]] = some (axis 0) ∧ outwardNormal sheared .S 0 0 ≠ axis 0 ∧
    outward [[⟨cube, .S⟩, ⟨sheared, .S⟩]] = none := by
  classical
  have hcube : (Face.mk cube .S).constant = some (axis 0) := by
    rw [Face.constant]
    have : (Face.mk cube .S).e.orth = true := rfl
    rw [if_pos this, box_normal cube_box]
    rfl
  have hsh : (Face.mk sheared .S).constant = none := rfl
  have d : ∀ e : Disc.Three.El ℝ, e = cube ∨ e = sheared → (Face.mk e .S).out = fun c => 1 / 4 * axis 0 c := by
    rintro e (rfl | rfl) <;> funext c <;> fin_cases c <;> simp [Face.out, cube, sheared, probe, axis] <;> norm_num
  have ha : 0 < dotV (axis 0) (axis 0) := by rw [dot_axis, if_pos rfl]; norm_num
  have ang : ∀ e : Disc.Three.El ℝ, e = cube ∨ e = sheared → angle (Face.mk e .S).out (axis 0) < Real.pi / 2 := fun e he => by
    rw [angle_acute _ ha, d e he]
    · simp [dotV, axis]
    · rw [d e he]
      simp [dotV, axis]
  refine ⟨?_, fun h => ?_, ?_⟩
  · have hp : firstVector ([[⟨cube, .S⟩], [⟨sheared, .S⟩]].map (coreVector none)) = some (axis 0) := by
      simp [coreVector, hcube, hsh, firstVector]
    rw [outward, hp]
    simp only
    rw [orient_eq, if_neg, if_pos]
    · intro f hf
      simp only [List.flatten_cons, List.flatten_nil, List.singleton_append, List.append_nil, List.mem_cons,
        List.not_mem_nil, or_false] at hf
      rcases hf with rfl | rfl
      · exact ang _ (Or.inl rfl)
      · exact ang _ (Or.inr rfl)
    · intro h
      exact absurd (h ⟨cube, .S⟩ (by simp)) (not_lt.2 (ang _ (Or.inl rfl)).le)
  · have h1 := congrFun h 1
    simp [outwardNormal, unitNormal, crossV, jac, sheared, axis, fullEp] at h1
  · have hp : firstVector ([[⟨cube, .S⟩, ⟨sheared, .S⟩]].map (coreVector none)) = none := by
      simp [coreVector, hcube, hsh, firstVector]
    rw [outward, hp]

/-! ## Components of boundary-wise vectors -/

/-- `T_para` is the part of the vector in the plane: it is perpendicular to the normal, and with the part along the normal it
gives the vector back. -/
theorem c90_parallel (n w : Fin 3 → ℝ) (hn : dotV n n = 1) :
    dotV (tParaBW n w) n = 0 ∧ ∀ c, tParaBW n w c + dotV w n * n c = w c := by
  rw [dotV] at hn
  refine ⟨by simp [dotV, tParaBW]; ring, fun c => ?_⟩
  fin_cases c <;> simp [dotV, tParaBW]
  · linear_combination w 0 * hn
  · linear_combination w 1 * hn
  · linear_combination w 2 * hn

/-- `T_perp` turns `T_para` by a right angle in the plane: both have the same length. -/
theorem c90_perpendicular (n w : Fin 3 → ℝ) (hn : dotV n n = 1) :
    dotV (tPerpBW n w) n = 0 ∧ dotV (tPerpBW n w) (tParaBW n w) = 0 ∧
    dotV (tPerpBW n w) (tPerpBW n w) = dotV (tParaBW n w) (tParaBW n w) := by
  rw [dotV] at hn
  refine ⟨by simp [dotV, tPerpBW]; ring, by simp [dotV, tPerpBW, tParaBW]; ring, ?_⟩
  simp [dotV, tPerpBW, tParaBW]
  linear_combination (-((w 1 * n 2 - w 2 * n 1) ^ 2 + (w 2 * n 0 - w 0 * n 2) ^ 2 + (w 0 * n 1 - w 1 * n 0) ^ 2)) * hn

/-- On a boundary, the boundary-wise `T_para` of a vector is the `T_para` of the standard vector of the same values. -/
theorem c90_para_same (L : List Face) (hs : ∀ f ∈ L, f.Sound) (r : Fin 3 → ℝ) (h : outward [L] = some r) (f : Face) (hf : f ∈ L)
    (w : ℝ → ℝ → Fin 3 → ℝ) (a b : ℝ) : tParaBW r (w a b) = tParaOf f.e f.s w a b := by
  have e1 := (((c90_serial L hs r).1 h).2 f hf).2 a b
  have e2 := fun c => outwardNormal_eq f.e f.s a b c
  funext c
  rw [← e1]
  rcases outward3_cases f.s with q | q <;> rw [q] at e2 <;> fin_cases c <;> simp [tParaBW, tParaOf, crossV, e2] <;> ring

/-- Full claim: the boundary-wise `T_perp` is the `T_perp` of the standard vector of the same values.  Proved on the sides S, E, F,
where the normal of the trace element is outward; on N, W, B the sign is opposite. -/
theorem c90_perp_same_partial (L : List Face) (hs : ∀ f ∈ L, f.Sound) (r : Fin 3 → ℝ) (h : outward [L] = some r) (f : Face)
    (hf : f ∈ L) (w : ℝ → ℝ → Fin 3 → ℝ) (a b : ℝ) (c : Fin 3) :
    tPerpBW r (w a b) c = (outward3 f.s : ℝ) * tPerpOf f.e f.s w a b c := by
  have e1 := (((c90_serial L hs r).1 h).2 f hf).2 a b
  have e2 := fun c => outwardNormal_eq f.e f.s a b c
  rw [← e1]
  rcases outward3_cases f.s with q | q <;> rw [q] at e2 ⊢ <;> fin_cases c <;> simp [tPerpBW, tPerpOf, crossV, e2] <;> ring

theorem cube_N : outward [[⟨cube, .N⟩]] = some fun c => -axis 0 c :=
  (c90_serial _ (by simp [Face.Sound, cube_box]) _).2 ⟨by simp, fun f hf => by
    rw [List.mem_singleton.1 hf]
    refine ⟨rfl, fun a b => ?_⟩
    rw [box_outward cube_box]
    simp [outward3, nrm3]⟩

/-- On the side N of the cube, the boundary-wise `T_perp` of `(0, 1, 0)` is `(0, 0, 1)`, and that of the standard vector
`(0, 0, -1)`. -/
theorem c90_perp_counterexample : ∃ r, outward [[⟨cube, .N⟩]] = some r ∧ tPerpBW r (axis 1) = axis 2 ∧
    tPerpOf cube .N (fun _ _ => axis 1) 0 0 = fun c => -axis 2 c := by
  refine ⟨_, cube_N, ?_, ?_⟩
  · funext c; fin_cases c <;> simp [tPerpBW, axis]
  · rw [tPerpOf, box_normal cube_box]
    funext c; fin_cases c <;> simp [crossV, axis, nrm3]

/-- Two cores and an idle one, the boundary S. -/
example : outward [[⟨cube, .S⟩], [], [⟨cube, .S⟩, ⟨cube, .S⟩]] = some (axis 0) :=
  (c90_cores_partial _ (by simp [Face.Sound, cube_box]) (by simp [cube]) _).2 ⟨by simp, fun f hf a b => by
    have : f = ⟨cube, .S⟩ := by simpa using hf
    rw [this, box_outward cube_box]
    simp [outward3, nrm3]⟩

/-- Opposite boundaries under one name have no constant normal. -/
example : outward [[⟨cube, .S⟩], [⟨cube, .N⟩]] = none := by
  rw [Option.eq_none_iff_forall_ne_some]
  intro r h
  obtain ⟨-, h⟩ := (c90_cores_partial _ (by simp [Face.Sound, cube_box]) (by simp [cube]) _).1 h
  have h1 := congrFun (h ⟨cube, .S⟩ (by simp) 0 0) 0
  have h2 := congrFun (h ⟨cube, .N⟩ (by simp) 0 0) 0
  rw [box_outward cube_box] at h1 h2
  simp [outward3, nrm3, axis] at h1 h2
  linarith

end Mifem.Props
