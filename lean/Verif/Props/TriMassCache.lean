import Verif.Props.TriMassInt
import Verif.Props.TriMassPos
import Verif.Props.Marks
import Verif.Props.EWC
import Verif.Props.TriRecCalc
import Mathlib.Tactic.IntervalCases
import Mathlib.Tactic.FinCases

/-!
# C98: reading the mass matrices of a triangular mesh through their cache
-/

namespace Mifem.Props

open Mifem.Basis Mifem.EWC Mifem.Marks Mifem.Metric Mifem.Tri Mifem.Quadrature Mifem.Disc Finset

theorem minus_not_digit : ¬ IsDigit '-' := by
  rintro ⟨n, hn, h⟩
  interval_cases n <;> simp [Nat.digitChar] at h

theorem fmt_cons (d : Nat) (x : ℚ) : ∃ c r, fmt d x = c :: r ∧ IsDigit c := decimal_cons d _

/-- Signed numbers printed one after the other can be read back up to rounding. -/
theorem fmtS_prefix {d : Nat} {x y : ℚ} {r r' : Key} (h : fmtS d x ++ r <+: fmtS d y ++ r') :
    |x - y| ≤ 1 / 10 ^ d ∧ r <+: r' := by
  unfold fmtS at h
  split_ifs at h with hx hy hy
  · rw [List.cons_append, List.cons_append, List.cons_prefix_cons] at h
    have := fmt_prefix (by linarith) (by linarith) h.2
    refine ⟨?_, this.2.2⟩
    rw [show x - y = -(-x - -y) by ring, abs_neg]
    exact this.1
  · obtain ⟨c, s, he, hc⟩ := fmt_cons d y
    rw [he, List.cons_append, List.cons_append, List.cons_prefix_cons] at h
    exact absurd (h.1 ▸ hc) minus_not_digit
  · obtain ⟨c, s, he, hc⟩ := fmt_cons d x
    rw [he, List.cons_append, List.cons_append, List.cons_prefix_cons] at h
    exact absurd (h.1 ▸ hc) minus_not_digit
  · have := fmt_prefix (by linarith) (by linarith) h
    exact ⟨this.1, this.2.2⟩

/-- The four numbers that tell triangles apart up to a translation. -/
def offsets (p : Fin 3 → ℚ × ℚ) : Fin 4 → ℚ :=
  ![(p 1).1 - (p 0).1, (p 2).1 - (p 0).1, (p 1).2 - (p 0).2, (p 2).2 - (p 0).2]

theorem shapeKey_eq (p : Fin 3 → ℚ × ℚ) (r : Key) :
    shapeKey p ++ r = fmtS 4 (offsets p 0) ++ (fmtS 4 (offsets p 1) ++ (fmtS 4 (offsets p 2) ++ (fmtS 4 (offsets p 3) ++ r))) := by
  simp [shapeKey, offsets]

/-- **C98, keys.**  If the keys of two elements agree up to their lengths, then their vertices relative to the first one differ by no
more than 0.0001. -/
theorem c98_key {p p' : Fin 3 → ℚ × ℚ} {r r' : Key} (h : shapeKey p ++ r <+: shapeKey p' ++ r') :
    (∀ k, |offsets p k - offsets p' k| ≤ 1 / 10 ^ 4) ∧ r <+: r' := by
  rw [shapeKey_eq, shapeKey_eq] at h
  obtain ⟨h0, h⟩ := fmtS_prefix h
  obtain ⟨h1, h⟩ := fmtS_prefix h
  obtain ⟨h2, h⟩ := fmtS_prefix h
  obtain ⟨h3, h⟩ := fmtS_prefix h
  refine ⟨fun k => ?_, h⟩
  fin_cases k
  · exact h0
  · exact h1
  · exact h2
  · exact h3

theorem edgeStr_inj : Function.Injective edgeStr := by decide

/-- What is appended for the edges of a 1-form. -/
def edgeTail (l : List (Fin 3)) : Key := if l = [] then [] else '-' :: l.map edgeStr

theorem edgeTail_inj {l l' : List (Fin 3)} (h : edgeTail l = edgeTail l') : l = l' := by
  unfold edgeTail at h
  split_ifs at h with h1 h2 h2
  · rw [h1, h2]
  · exact List.map_injective_iff.2 edgeStr_inj (List.cons.inj h).2

/-- The keys of 1-forms also tell their edges. -/
theorem c98_one_key {p p' : Fin 3 → ℚ × ℚ} {l l' : List (Fin 3)} (h : shapeKey p ++ edgeTail l = shapeKey p' ++ edgeTail l') :
    (∀ k, |offsets p k - offsets p' k| ≤ 1 / 10 ^ 4) ∧ l = l' := by
  obtain ⟨h1, h2⟩ := c98_key (h ▸ List.prefix_refl (shapeKey p ++ edgeTail l) : shapeKey p ++ edgeTail l <+: shapeKey p' ++ edgeTail l')
  obtain ⟨-, h3⟩ := c98_key (h ▸ List.prefix_refl (shapeKey p ++ edgeTail l) : shapeKey p' ++ edgeTail l' <+: shapeKey p ++ edgeTail l)
  exact ⟨h1, edgeTail_inj (h2.eq_of_length (le_antisymm h2.length_le h3.length_le))⟩

theorem fmtS_cons (d : Nat) (x : ℚ) : ∃ c r, fmtS d x = c :: r ∧ c ≠ '>' := by
  have g : ¬ IsDigit '>' := by
    rintro ⟨n, hn, h⟩
    interval_cases n <;> simp [Nat.digitChar] at h
  unfold fmtS
  split_ifs
  · exact ⟨_, _, rfl, by decide⟩
  · obtain ⟨c, s, he, hc⟩ := fmt_cons d x
    exact ⟨c, s, he, fun h => g (h ▸ hc)⟩

theorem shapeKey_ne_ct (p : Fin 3 → ℚ × ℚ) (r : Key) (m : Nat) :
    shapeKey p ++ r ≠ (List.replicate (m + 1) ">CT<".toList).flatten := by
  rw [shapeKey_eq, List.replicate_succ, List.flatten_cons]
  intro h
  obtain ⟨c, s, he, hc⟩ := fmtS_cons 4 (offsets p 0)
  rw [he] at h
  exact hc (List.cons.inj h).1

/-- A matrix that is the same for elements with the same key is read correctly, for any history of reads; so is one without keys. -/
theorem massObject_own {β : Type} (M : Nat → β) (E : List Nat) (key : Option (Nat → Key))
    (hkey : ∀ k, key = some k → (∀ i ∈ E, ∀ j ∈ E, k i = k j → M i = M j) ∧
      ∀ i ∈ E, ∀ m, k i ≠ (List.replicate (m + 1) ">CT<".toList).flatten)
    (is : List Nat) (his : ∀ i ∈ is, i ∈ E) :
    run [massObject M key] E (is.map fun i => .read 0 i) St.init = some (is.map M) := by
  have hl : ∀ is : List Nat, ExpectedLeaf M (is.map fun i => Event.read 0 i) (fun _ _ b => b) = is.map M := by
    intro is
    induction is with
    | nil => rfl
    | cons i is ih => simp only [List.map_cons, ExpectedLeaf]; rw [ih]
  have hes : ∀ e ∈ is.map (fun i => (Event.read 0 i : Event β)),
      match e with | .read n i => n = 0 ∧ i ∈ E | .customize n _ _ => n = 0 := by
    intro e he
    obtain ⟨i, hi, rfl⟩ := List.mem_map.1 he
    exact ⟨rfl, his i hi⟩
  cases key with
  | none =>
    rw [massObject, ncLeaf, c12_cache_faithful M (fun _ => NC) E (fun i _ j _ _ hn => absurd (List.infix_refl _) hn) ?_ _ hes, hl]
    intro i _ m h
    rw [List.replicate_succ, List.flatten_cons] at h
    simp [NC] at h
  | some k =>
    obtain ⟨h1, h2⟩ := hkey k rfl
    rw [massObject, c12_cache_faithful _ _ _ (fun i hi j hj he _ => h1 i hi j hj he) (fun i hi m h => absurd h (h2 i hi m)) _ hes, hl]

/-- The triangles are translates of each other, or one of the offsets of their vertices differs by more than 0.0001. -/
def Separated (p p' : Fin 3 → ℚ × ℚ) : Prop := (∃ v, p' = fun k => p k + v) ∨ ∃ k, 1 / 10 ^ 4 < |offsets p k - offsets p' k|

/-- **C98, caches.**  If any two elements of the mesh are translates of each other or differ by more than 0.0001 in some offset of their
vertices, then the matrix that is read for an element is the one of its own vertices (and, for 1-forms, of its own edges), for
every history of reads and however many elements are alike.  `M` is any matrix that does not change if the element is moved,
see `c98_translation`.  (Missing: elements which differ by less, see `c98_cache_fails`.) -/
theorem c98_cached_partial {β : Type} (M : (Fin 3 → ℚ × ℚ) → List (Fin 3) → β) (hM : ∀ p v l, M (fun k => p k + v) l = M p l)
    (pts : Nat → Fin 3 → ℚ × ℚ) (ees : Nat → List (Fin 3)) (E : List Nat)
    (hsep : ∀ i ∈ E, ∀ j ∈ E, Separated (pts i) (pts j)) (is : List Nat) (his : ∀ i ∈ is, i ∈ E) :
    run [massObject (fun e => M (pts e) []) (elementKey pts E)] E (is.map fun i => .read 0 i) St.init =
      some (is.map fun e => M (pts e) []) ∧
    run [massObject (fun e => M (pts e) (ees e)) (oneKey pts E ees)] E (is.map fun i => .read 0 i) St.init =
      some (is.map fun e => M (pts e) (ees e)) := by
  have main : ∀ (l : Nat → List (Fin 3)) (i j : Nat), i ∈ E → j ∈ E → shapeKey (pts i) ++ edgeTail (l i) = shapeKey (pts j) ++ edgeTail (l j) →
      M (pts i) (l i) = M (pts j) (l j) := by
    intro l i j hi hj he
    obtain ⟨h1, h2⟩ := c98_one_key he
    rcases hsep i hi j hj with ⟨v, hv⟩ | ⟨k, hk⟩
    · rw [h2, hv, hM]
    · exact absurd (h1 k) (not_le.2 hk)
  have t0 : ∀ p, shapeKey p = shapeKey p ++ edgeTail [] := fun p => by simp [edgeTail]
  refine ⟨massObject_own _ _ _ (fun k hk => ?_) is his, massObject_own _ _ _ (fun k hk => ?_) is his⟩
  · unfold elementKey at hk
    split_ifs at hk
    obtain rfl := (Option.some.inj hk).symm
    exact ⟨fun i hi j hj he => main (fun _ => []) i j hi hj (by rw [← t0, ← t0]; exact he), fun i _ m => by
      beta_reduce; rw [t0]; exact shapeKey_ne_ct _ _ m⟩
  · unfold oneKey elementKey at hk
    split_ifs at hk
    swap
    · simp at hk
    obtain rfl := (Option.some.inj hk).symm
    have e : ∀ i, (if ees i = [] then shapeKey (pts i) else shapeKey (pts i) ++ '-' :: (ees i).map edgeStr) =
        shapeKey (pts i) ++ edgeTail (ees i) := by
      intro i
      unfold edgeTail
      split_ifs <;> simp
    exact ⟨fun i hi j hj he => main ees i j hi hj (by rw [← e, ← e]; exact he), fun i _ m => by
      beta_reduce; rw [e]; exact shapeKey_ne_ct _ _ m⟩

section
variable {K : Type*} [Field K]

theorem gridJ_translate (pts : Fin 3 → K × K) (v : K × K) (xs ys : List K) (m : Nat) :
    gridJ (fun k => pts k + v) xs ys m = gridJ pts xs ys m := by
  funext i j
  fin_cases i <;> fin_cases j <;>
    simp [gridJ, jacobianMatrix, Region.Two.transfiniteJ, Region.Two.mapCr, Region.Two.mapCs, edges] <;> left <;> ring

/-- **C98, translations.**  The mass matrices do not change if the triangle is moved. -/
theorem c98_translation (gauss : Nat → Rule K) (p : Nat) (nodes : List K) (T : Nat → Int) (pts : Fin 3 → K × K) (v : K × K) :
    massZero gauss p nodes (fun k => pts k + v) = massZero gauss p nodes pts ∧
    massOneInner gauss p nodes T (fun k => pts k + v) = massOneInner gauss p nodes T pts ∧
    massOneOuter gauss p nodes T (fun k => pts k + v) = massOneOuter gauss p nodes T pts ∧
    massTwo gauss p nodes (fun k => pts k + v) = massTwo gauss p nodes pts := by
  refine ⟨?_, ?_, ?_, ?_⟩ <;> funext i j <;>
    simp only [massZero, mass0, massOneInner, massInner, massOneOuter, massOuter, massTwo, mass2, gridJ_translate]

end

/-- Rational points as real points. -/
def castPts (p : Fin 3 → ℚ × ℚ) : Fin 3 → ℝ × ℝ := fun k => ((p k).1, (p k).2)

/-- Two triangles of a mesh with sides of length 0.00001. -/
def tinyPts : Nat → Fin 3 → ℚ × ℚ
  | 0 => ![(0, 0), (1 / 10 ^ 5, 0), (1 / 10 ^ 5, 1 / 10 ^ 5)]
  | _ => ![(0, 0), (1 / 10 ^ 5, 1 / 10 ^ 5), (0, 2 / 10 ^ 5)]

theorem collide {β : Type} (M : Nat → β) (k : Nat → Key) (h0 : k 0 = "0.00000.00000.00000.0000".toList)
    (h1 : k 1 = "0.00000.00000.00000.0000".toList) :
    run [Node.leaf M k] [0, 1] [.read 0 0, .read 0 1] St.init = some [M 0, M 0] := by
  have e : run [Node.leaf M k] [0, 1] [.read 0 0, .read 0 1] St.init =
      run [Node.leaf M fun _ => "0.00000.00000.00000.0000".toList] [0, 1] [.read 0 0, .read 0 1] St.init := by
    simp [run, EWC.get, getF, preGet, keyF, dgOf, h0, h1]
  rw [e]
  rfl

/-- **C98, caches, disagreement.**  In a mesh of two triangles with sides of length 0.00001 the second triangle gets the matrix of the first
one if the latter was read before, whatever the matrices are; but the mass matrix of 0-forms of the second is twice that of the
first, and not zero. -/
theorem c98_cache_fails {β : Type} (M : Nat → β) {p : Nat} {nodes : List ℝ} (h : TriNodes p nodes) {gauss : Nat → Rule ℝ}
    (hg : ∀ d, GaussRule (d + 1) (gauss d)) :
    run [massObject M (elementKey tinyPts [0, 1])] [0, 1] [.read 0 0, .read 0 1] St.init = some [M 0, M 0] ∧
    run [massObject M (oneKey tinyPts [0, 1] fun _ => [])] [0, 1] [.read 0 0, .read 0 1] St.init = some [M 0, M 0] ∧
    (∀ i j, massZero gauss p nodes (castPts (tinyPts 1)) i j = 2 * massZero gauss p nodes (castPts (tinyPts 0)) i j) ∧
    0 < massZero gauss p nodes (castPts (tinyPts 0)) 0 0 := by
  have k0 : shapeKey (tinyPts 0) = "0.00000.00000.00000.0000".toList := by decide +kernel
  have k1 : shapeKey (tinyPts 1) = "0.00000.00000.00000.0000".toList := by decide +kernel
  have hs : 1 / 2 ≤ similarity tinyPts [0, 1] := by decide +kernel
  have j2 : ∀ m, Metric.Two.jacobian (gridJ (castPts (tinyPts 1)) (Vortex.rpts (gauss (p + 1))) (Vortex.rpts (gauss (p + 1))) m) =
      2 * Metric.Two.jacobian (gridJ (castPts (tinyPts 0)) (Vortex.rpts (gauss (p + 1))) (Vortex.rpts (gauss (p + 1))) m) := by
    intro m
    rw [two_jacobian, two_jacobian, detAt_eq, detAt_eq]
    simp [cross, castPts, tinyPts]
    ring
  refine ⟨?_, ?_, fun i j => ?_, ?_⟩
  · rw [elementKey, if_pos hs]
    exact collide M _ k0 k1
  · rw [oneKey, elementKey, if_pos hs]
    exact collide M _ (by simpa using k0) (by simpa using k1)
  · simp only [massZero, mass0, j2]
    rw [← List.sum_map_mul_left]
    congr 2
    funext m
    ring
  · have := (c98_positive h (T := fun _ => 1) (fun _ => Or.inl rfl) (pts := castPts (tinyPts 0))
      (by simp [cross, castPts, tinyPts]) hg).1 (fun i => if i = 0 then 1 else 0) ⟨0, by omega, by simp⟩
    simpa [Finset.sum_ite_eq, ite_mul] using this

/-- **C98, intermediate data, disagreement.**  A coordinate transformation computed from intermediate data raises `TypeError` at the first
element that is read, in every mesh in which enough elements are alike. -/
theorem c98_intermediate_fails {β γ : Type} (pts : Nat → Fin 3 → ℚ × ℚ) (E : List Nat) (hE : 1 / 2 ≤ similarity pts E) (f : Nat → β)
    (itm : Nat → γ) (e : Nat) (es : List Nat) : ctReads (elementKey pts E) f (some itm) (e :: es) [] = none := by
  rw [elementKey, if_pos hE]
  rfl

theorem ctReads_own {β γ : Type} (k : Nat → Key) (f : Nat → β) (E : List Nat) (hk : ∀ i ∈ E, ∀ j ∈ E, k i = k j → f i = f j) :
    ∀ (is : List Nat) (c : List (Key × β)), (∀ i ∈ is, i ∈ E) → (∀ x ∈ c, ∃ i ∈ E, x = (k i, f i)) →
      ctReads (γ := γ) (some k) f none is c = some (is.map f) := by
  intro is
  induction is with
  | nil => intros; rfl
  | cons i is ih =>
    intro c his hc
    have hi := his i (by simp)
    simp only [ctReads, ctGet]
    cases hl : c.lookup (k i) with
    | none =>
      simp only [Option.bind_some, List.map_cons]
      rw [ih _ (fun j hj => his j (by simp [hj])) fun x hx => ?_]
      · rfl
      · rcases List.mem_cons.1 hx with rfl | hx
        · exact ⟨i, hi, rfl⟩
        · exact hc x hx
    | some v =>
      simp only [Option.bind_some, List.map_cons]
      rw [ih _ (fun j hj => his j (by simp [hj])) hc]
      obtain ⟨j, hj, e⟩ := hc (k i, v) (by
        obtain ⟨l1, l2, e, -⟩ := List.lookup_eq_some_iff.1 hl
        rw [e]; simp)
      obtain ⟨e1, rfl⟩ := Prod.mk.inj e
      simp [hk i hi j hj e1]

/-- **C98, coordinate transformations.**  Without intermediate data, or if few elements are alike, each element gets its own values under the
same condition on the vertices. -/
theorem c98_transform_partial {β γ : Type} (f : (Fin 3 → ℚ × ℚ) → β) (hf : ∀ p v, f (fun k => p k + v) = f p)
    (pts : Nat → Fin 3 → ℚ × ℚ) (E : List Nat) (hsep : ∀ i ∈ E, ∀ j ∈ E, Separated (pts i) (pts j)) (itm : Option (Nat → γ))
    (hitm : itm = none ∨ similarity pts E < 1 / 2) (is : List Nat) (his : ∀ i ∈ is, i ∈ E) :
    ctReads (elementKey pts E) (fun e => f (pts e)) itm is [] = some (is.map fun e => f (pts e)) := by
  by_cases hE : similarity pts E < 1 / 2
  · rw [elementKey, if_neg (not_le.2 hE)]
    have : ∀ (is : List Nat) (c : List (Key × β)),
        ctReads none (fun e => f (pts e)) itm is c = some (is.map fun e => f (pts e)) := by
      intro is
      induction is with
      | nil => intros; rfl
      | cons i is ih => intro c; simp [ctReads, ctGet, ih]
    exact this _ _
  · obtain rfl := hitm.resolve_right hE
    rw [elementKey, if_pos (not_lt.1 hE)]
    refine ctReads_own _ _ E (fun i hi j hj he => ?_) is [] his (by simp)
    have := (c98_key (p := pts i) (p' := pts j) (r := []) (r' := []) (by rw [List.append_nil, List.append_nil]; exact he ▸ List.prefix_refl _)).1
    rcases hsep i hi j hj with ⟨v, hv⟩ | ⟨k, hk⟩
    · rw [hv, hf]
    · exact absurd (this k) (not_le.2 hk)

/-! ## Examples -/

/-- Rules of Gauss. -/
noncomputable def triGauss (d : Nat) : Rule ℝ := (c70_gauss_exists (d + 1)).choose

theorem triGauss_ok (d : Nat) : GaussRule (d + 1) (triGauss d) := (c70_gauss_exists (d + 1)).choose_spec

/-- A triangle. -/
def somePts : Fin 3 → ℝ × ℝ := ![(0, 0), (2, 0), (1, 3)]

theorem somePts_pos : 0 < cross (somePts 0) (somePts 1) (somePts 2) := by simp [cross, somePts]

example (a b : Nat → ℝ) : ∃ φ ψ : (Fin 2 → ℝ) → ℝ, (∀ v ∈ openSquare, φ (mapping somePts v) = recon0 [-1, 0, 1] [v 0] [v 1] a 0) ∧
    ∑ i ∈ range 7, ∑ j ∈ range 7, a i * massZero triGauss 2 [-1, 0, 1] somePts i j * b j = ∫ x in insideTri somePts, φ x * ψ x := by
  obtain ⟨φ, hφ⟩ := field_exists somePts_pos fun v => recon0 [-1, 0, 1] [v 0] [v 1] a 0
  obtain ⟨ψ, hψ⟩ := field_exists somePts_pos fun v => recon0 [-1, 0, 1] [v 0] [v 1] b 0
  exact ⟨φ, ψ, hφ, c98_zero_forms triNodes2 somePts_pos triGauss_ok a b φ ψ hφ hψ⟩

example (l : List (Fin 3)) (dofs : Fin 3 → List Nat) : PosDefN 10 (massOneInner triGauss 2 [-1, 0, 1] (transition dofs l) somePts) :=
  (c98_positive triNodes2 (fun r => by rw [transition_apply]; split_ifs <;> simp) somePts_pos triGauss_ok).2.1

/-- With `p = 2` there are 2-forms whose density vanishes on the singular side. -/
example (a : Nat → ℝ) :
    ∑ i ∈ range 4, ∑ j ∈ range 4, a i * massTwo triGauss 2 [-1, 0, 1] somePts i j * (fun k => if k < 2 then 1 else 3) j =
      squareInt fun x y => recon2 [-1, 0, 1] somePts [x] [y] a 0 *
        recon2 [-1, 0, 1] somePts [x] [y] (fun k => if k < 2 then 1 else 3) 0 * detAt somePts x y := by
  have e0 : edgeAt ([-1, 0, 1] : List ℝ) 0 (-1) = 3 / 2 := by
    have a := edge_eq_deriv triNodes2 (k := 0) (by omega) (-1)
    have b : (fun t => ∑ i ∈ range (2 + 1), (if 0 < i then (1 : ℝ) else 0) * lagrangeAt ([-1, 0, 1] : List ℝ) i t) =
        fun t => 1 - (t ^ 2 - t) / 2 := by
      funext t
      simp [sum_range_succ, lagrangeAt, node, List.range_succ]
      ring
    rw [b] at a
    have := a.unique (((((hasDerivAt_id (-1 : ℝ)).pow 2).sub (hasDerivAt_id (-1))).div_const 2).const_sub 1)
    rw [this]
    norm_num
  have e1 : edgeAt ([-1, 0, 1] : List ℝ) 1 (-1) = -1 / 2 := by
    have a := edge_eq_deriv triNodes2 (k := 1) (by omega) (-1)
    have b : (fun t => ∑ i ∈ range (2 + 1), (if 1 < i then (1 : ℝ) else 0) * lagrangeAt ([-1, 0, 1] : List ℝ) i t) =
        fun t => (t ^ 2 + t) / 2 := by
      funext t
      simp [sum_range_succ, lagrangeAt, node, List.range_succ]
      ring
    rw [b] at a
    have := a.unique ((((hasDerivAt_id (-1 : ℝ)).pow 2).add (hasDerivAt_id (-1))).div_const 2)
    rw [this]
    norm_num
  refine c98_two_forms_partial triNodes2 somePts_pos triGauss_ok a _ fun x => ?_
  simp [sum_range_succ, ln2, e0, e1]
  ring

/-- With `p = 1` no 2-form has a norm, except 0. -/
example (x : ℝ) : ¬ IntervalIntegrable (fun y => recon2 [-1, 1] somePts [x] [y] (fun _ => 1) 0 * recon2 [-1, 1] somePts [x] [y] (fun _ => 1) 0 *
    detAt somePts x y) MeasureTheory.volume (-1) 1 := by
  refine c98_two_forms_fails triNodes1 somePts_pos _ x ?_
  have h1 : ∀ t, edgeAt ([-1, 1] : List ℝ) 0 t = 1 / 2 := by
    intro t
    have a := edge_eq_deriv triNodes1 (k := 0) (by omega) t
    have b : (fun t => ∑ i ∈ range (1 + 1), (if 0 < i then (1 : ℝ) else 0) * lagrangeAt ([-1, 1] : List ℝ) i t) = fun t => (t + 1) / 2 := by
      funext t
      simp [sum_range_succ, lagrangeAt, node, List.range_succ]
      ring
    rw [b] at a
    exact a.unique (((hasDerivAt_id t).add_const 1).div_const 2)
  simp [h1]

/-- Two equal triangles and a bigger one, which are kept apart. -/
example : let pts : Nat → Fin 3 → ℚ × ℚ := fun i => if i = 0 then ![(0, 0), (1, 0), (0, 1)] else if i = 1 then ![(3, 1), (4, 1), (3, 2)]
      else ![(0, 0), (-2, 0), (0, -2)]
    run [massObject (fun e => massZero triGauss 1 [-1, 1] (castPts (pts e))) (elementKey pts [0, 1, 2])] [0, 1, 2]
      ([1, 2, 0, 1].map fun i => .read 0 i) St.init = some ([1, 2, 0, 1].map fun e => massZero triGauss 1 [-1, 1] (castPts (pts e))) := by
  intro pts
  have hM : ∀ (p : Fin 3 → ℚ × ℚ) (v : ℚ × ℚ) (_ : List (Fin 3)), massZero triGauss 1 [-1, 1] (castPts fun k => p k + v) =
      massZero triGauss 1 [-1, 1] (castPts p) := by
    intro p v _
    rw [← (c98_translation triGauss 1 [-1, 1] (fun _ => 1) (castPts p) ((v.1 : ℝ), (v.2 : ℝ))).1]
    congr 1
    funext k
    simp [castPts]
  refine (c98_cached_partial (fun p _ => massZero triGauss 1 [-1, 1] (castPts p)) hM pts (fun _ => []) [0, 1, 2] ?_ _ (by decide)).1
  have s : ∀ i j, (∃ v, pts j = fun k => pts i k + v) ∨ (∃ k, 1 / 10 ^ 4 < |offsets (pts i) k - offsets (pts j) k|) ↔
      Separated (pts i) (pts j) := fun _ _ => Iff.rfl
  have d : ∀ i ∈ [0, 1, 2], ∀ j ∈ [0, 1, 2], (pts j = fun k => pts i k + (pts j 0 - pts i 0)) ∨
      ∃ k, 1 / 10 ^ 4 < |offsets (pts i) k - offsets (pts j) k| := by decide +kernel
  intro i hi j hj
  exact (d i hi j hj).imp (fun h => ⟨_, h⟩) id

example : 1 / 2 ≤ similarity tinyPts [0, 1] := by decide +kernel

end Mifem.Props
