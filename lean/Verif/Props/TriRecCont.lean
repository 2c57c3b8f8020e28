import Verif.Props.TriRec

/-!
# Property C97: continuity of reconstructed forms across shared edges
-/

namespace Mifem.Props

open Mifem.Tri Mifem.Basis Finset

section
variable {p : Nat} {nodes : List ℝ}

/-! ## Symmetry of the basis functions -/

theorem lagrange_symm (h : TriNodes p nodes) {k : Nat} (hk : k ≤ p) (t : ℝ) :
    lagrangeAt nodes (p - k) (-t) = lagrangeAt nodes k t := by
  have hd := accepted_distinct h.acc
  have hl := h.len
  set f := (lag nodes (p - k)).comp (-Polynomial.X) with hf
  have ev : ∀ t, f.eval t = lagrangeAt nodes (p - k) (-t) := by
    intro t
    rw [lagrangeAt_eq, hf, Polynomial.eval_comp]; simp
  have hdeg : f.degree < nodes.length := by
    have h1 := lag_degree_lt hd (j := p - k) (by omega)
    refine lt_of_le_of_lt Polynomial.degree_le_natDegree ?_
    have h2 : f.natDegree ≤ (lag nodes (p - k)).natDegree := by
      rw [hf]
      refine Polynomial.natDegree_comp_le.trans ?_
      simp
    have h3 : (lag nodes (p - k)).natDegree < nodes.length := by
      rcases eq_or_ne (lag nodes (p - k)) 0 with h0 | h0
      · rw [h0]; simp; omega
      · exact (Polynomial.natDegree_lt_iff_degree_lt h0).2 h1
    exact_mod_cast lt_of_le_of_lt h2 h3
  have := reproduce hd hdeg t
  rw [ev, hl] at this
  rw [← this, sum_eq_single k]
  · rw [ev, ← h.symm k hk, lagrange_node h (by omega) (by omega), if_pos rfl, one_mul]
  · intro i hi hik
    have hi' : i ≤ p := by have := mem_range.1 hi; omega
    rw [ev, ← h.symm i hi', lagrange_node h (by omega) (by omega), if_neg (by omega), zero_mul]
  · intro hk'; exact absurd (mem_range.2 (by omega)) hk'

theorem edge_eq_deriv (h : TriNodes p nodes) {k : Nat} (hk : k < p) (t : ℝ) :
    HasDerivAt (fun t => ∑ i ∈ range (p + 1), (if k < i then (1 : ℝ) else 0) * lagrangeAt nodes i t) (edgeAt nodes k t) t := by
  have := lag_hasDeriv nodes (accepted_distinct h.acc) h.len (fun i => if k < i then (1 : ℝ) else 0) t
  convert this using 1
  rw [sum_eq_single k]
  · simp
  · intro i _ hik
    have : (k < i + 1) = (k < i) := propext ⟨fun _ => by omega, fun _ => by omega⟩
    simp [this]
  · intro hk'; exact absurd (mem_range.2 hk) hk'

theorem edge_symm (h : TriNodes p nodes) {k : Nat} (hk : k < p) (t : ℝ) :
    edgeAt nodes (p - 1 - k) (-t) = edgeAt nodes k t := by
  have h1 := edge_eq_deriv h hk t
  have h2 := (edge_eq_deriv h (k := p - 1 - k) (by omega) (-t)).comp t (hasDerivAt_neg t)
  have h3 := h2.const_sub 1
  have e : (fun t => 1 - ((fun t => ∑ i ∈ range (p + 1), (if p - 1 - k < i then (1 : ℝ) else 0) * lagrangeAt nodes i t) ∘ Neg.neg) t) =
      fun t => ∑ i ∈ range (p + 1), (if k < i then (1 : ℝ) else 0) * lagrangeAt nodes i t := by
    funext t
    simp only [Function.comp_apply]
    have one := lagrange_sum_one h (-t)
    have key : ∑ i ∈ range (p + 1), lagrangeAt nodes i (-t) -
        ∑ i ∈ range (p + 1), (if p - 1 - k < i then (1 : ℝ) else 0) * lagrangeAt nodes i (-t) =
        ∑ i ∈ range (p + 1), (if k < i then (1 : ℝ) else 0) * lagrangeAt nodes i t := by
      rw [← sum_sub_distrib, ← sum_range_reflect]
      refine sum_congr rfl fun i hi => ?_
      have hi' : i ≤ p := by have := mem_range.1 hi; omega
      rw [show p + 1 - 1 - i = p - i by omega, lagrange_symm h hi']
      by_cases q : k < i
      · rw [if_pos q, if_neg (by omega)]; ring
      · rw [if_neg q, if_pos (by omega)]; ring
    rw [one] at key
    exact key
  have h4 : HasDerivAt (fun t => ∑ i ∈ range (p + 1), (if k < i then (1 : ℝ) else 0) * lagrangeAt nodes i t)
      (edgeAt nodes (p - 1 - k) (-t)) t := by
    rw [← e]
    have q : -(edgeAt nodes (p - 1 - k) (-t) * -1) = edgeAt nodes (p - 1 - k) (-t) := by ring
    rw [q] at h3
    exact h3
  exact h4.unique h1

/-! ## Edges -/

/-- The point with parameter `t` of edge `m` of the reference square: edges D, U and R. -/
def edgeRef (m : Fin 3) (t : ℝ) : Fin 2 → ℝ := ![![1, t], ![-1, t], ![t, 1]] m

/-- The parameter of the same point on the same edge of the neighbour. -/
def turned (s : Bool) (t : ℝ) : ℝ := if s then -t else t

/-- The value of a reconstructed 0-form on an edge. -/
noncomputable def onEdge0 (nodes : List ℝ) (w : Nat → ℝ) (m : Fin 3) (t : ℝ) : ℝ :=
  recon0 nodes [edgeRef m t 0] [edgeRef m t 1] w 0

theorem lagrange_first (h : TriNodes p nodes) {i : Nat} (hi : i ≤ p) : lagrangeAt nodes i (-1) = if i = 0 then 1 else 0 := by
  have := lagrange_node h hi (k := 0) (by omega)
  rwa [h.symmetric.first] at this

theorem lagrange_last (h : TriNodes p nodes) {i : Nat} (hi : i ≤ p) : lagrangeAt nodes i 1 = if i = p then 1 else 0 := by
  have := lagrange_node h hi (k := p) le_rfl
  rwa [h.symmetric.last] at this

theorem sum_pick {q : Nat} (hq : q ≤ p) {z : ℝ}
    (hz : ∀ i ≤ p, lagrangeAt nodes i z = if i = q then 1 else 0) (f : Nat → ℝ) :
    ∑ i ∈ range (p + 1), lagrangeAt nodes i z * f i = f q := by
  rw [sum_eq_single q]
  · rw [hz q hq, if_pos rfl, one_mul]
  · intro i hi hiq
    rw [hz i (by have := mem_range.1 hi; omega), if_neg hiq, zero_mul]
  · intro hk'; exact absurd (mem_range.2 (by omega)) hk'

theorem onEdge0_sum (h : TriNodes p nodes) (w : Nat → ℝ) (m : Fin 3) (t : ℝ) :
    onEdge0 nodes w m t = ∑ k ∈ range (p + 1), lagrangeAt nodes k t * w (ln0 p (edgeNode p m k).1 (edgeNode p m k).2) := by
  have hU : ∀ i ≤ p, lagrangeAt nodes i (-1) = if i = 0 then 1 else 0 := fun i hi => lagrange_first h hi
  have hD : ∀ i ≤ p, lagrangeAt nodes i 1 = if i = p then 1 else 0 := fun i hi => lagrange_last h hi
  rw [onEdge0, recon0_sum h]
  fin_cases m <;> simp only [edgeRef, edgeNode, Fin.zero_eta, Fin.mk_one, Fin.reduceFinMk, Matrix.cons_val_zero, Matrix.cons_val_one,
    Matrix.cons_val, Matrix.cons_val_fin_one]
  · refine sum_congr rfl fun j _ => ?_
    simp only [mul_assoc]
    rw [← mul_sum, sum_pick le_rfl hD fun i => w (ln0 p i j)]
  · refine sum_congr rfl fun j _ => ?_
    simp only [mul_assoc]
    rw [← mul_sum, sum_pick (by omega) hU fun i => w (ln0 p i j)]
  · rw [sum_comm]
    refine sum_congr rfl fun i _ => ?_
    rw [← sum_pick le_rfl hD fun j => lagrangeAt nodes i t * w (ln0 p i j)]
    exact sum_congr rfl fun j _ => by ring

/-- A shared edge is mapped to the same place by both elements. -/
theorem edge_place (pt : Nat → ℝ × ℝ) {v w : Cell} {m s e} (h : SameEdge v w m s e) (t : ℝ) :
    mapping (fun a => pt (v a)) (edgeRef m t) = mapping (fun a => pt (w a)) (edgeRef e (turned s t)) := by
  have key : ∀ (v : Cell) (m : Fin 3) (t : ℝ), mapping (fun a => pt (v a)) (edgeRef m t) =
      ![(1 - t) / 2 * (pt (edgeOf v m).1).1 + (1 + t) / 2 * (pt (edgeOf v m).2).1,
        (1 - t) / 2 * (pt (edgeOf v m).1).2 + (1 + t) / 2 * (pt (edgeOf v m).2).2] := by
    intro v m t
    have := c62_edges (fun a => pt (v a)) t
    fin_cases m
    · exact this.1.trans (by funext i; fin_cases i <;> simp [bary, edgeOf])
    · exact this.2.1.trans (by funext i; fin_cases i <;> simp [bary, edgeOf])
    · exact this.2.2.1.trans (by funext i; fin_cases i <;> simp [bary, edgeOf] <;> ring)
  rw [key, key, h]
  cases s
  · simp [turned]
  · simp only [turned, if_true, Prod.fst_swap, Prod.snd_swap]
    funext i
    fin_cases i <;> simp <;> ring

/-- **C97, continuity of 0-forms.**  Local cochains of a global vector give the same values on both sides of a shared edge: at every
point of the edge, for the point is the same one and so is the value. -/
theorem c97_continuous (h : TriNodes p nodes) (pt : Nat → ℝ × ℝ) (cell : Nat → Cell) (n : Nat) (hc : Triangulation cell n)
    (em : EMap) (hem : elementMap cell n = some em) (s0 : St) (h0 : number (form0 p) cell em n = some s0) (x : Nat → Nat → ℝ)
    (hx : FromGlobal n (num0 p) (fun c => gv0 p (s0.done c)) x) (c d : Nat) (hcn : c < n) (hdn : d < n) {m s e}
    (hs : SameEdge (cell c) (cell d) m s e) (t : ℝ) :
    mapping (fun a => pt (cell c a)) (edgeRef m t) = mapping (fun a => pt (cell d a)) (edgeRef e (turned s t)) ∧
    recon0 nodes [edgeRef m t 0] [edgeRef m t 1] (x c) 0 =
      recon0 nodes [edgeRef e (turned s t) 0] [edgeRef e (turned s t) 1] (x d) 0 := by
  refine ⟨edge_place pt hs t, ?_⟩
  have hp := h.one_le
  change onEdge0 nodes (x c) m t = onEdge0 nodes (x d) e (turned s t)
  rw [onEdge0_sum h, onEdge0_sum h]
  have valid : ∀ (m : Fin 3) (k : Nat), k ≤ p → (edgeNode p m k).1 ≤ p ∧ (edgeNode p m k).2 ≤ p := by
    intro m k hk
    fin_cases m <;> simp [edgeNode, hk]
  have eq : ∀ k ≤ p, x c (ln0 p (edgeNode p m k).1 (edgeNode p m k).2) =
      x d (ln0 p (edgeNode p e (if s then p - k else k)).1 (edgeNode p e (if s then p - k else k)).2) := by
    intro k hk
    have v1 := valid m k hk
    have v2 := valid e (if s then p - k else k) (by split_ifs <;> omega)
    exact node_values p hp cell n hc em hem s0 h0 x hx c d hcn hdn _ _ _ _ v1.1 v1.2 v2.1 v2.2
      (node0_shared p hp (hc.inj d hdn) c d hs k hk)
  cases s
  · simp only [turned, Bool.false_eq_true, if_false] at eq ⊢
    exact sum_congr rfl fun k hk => by rw [eq k (by have := mem_range.1 hk; omega)]
  · simp only [turned, if_true] at eq ⊢
    rw [← sum_range_reflect]
    refine sum_congr rfl fun k hk => ?_
    have hk' : k ≤ p := by have := mem_range.1 hk; omega
    rw [eq _ (by omega), show p + 1 - 1 - k = p - k by omega, show p - (p - k) = k by omega, ← lagrange_symm h (k := p - k) (by omega),
      show p - (p - k) = k by omega]

/-! ## 1-forms -/

/-- The edge from its first to its second end point, as a vector. -/
def edgeVec (pt : Nat → ℝ × ℝ) (ab : Nat × Nat) : Fin 2 → ℝ := ![(pt ab.2).1 - (pt ab.1).1, (pt ab.2).2 - (pt ab.1).2]

theorem jac_ne_zero {pts : Fin 3 → ℝ × ℝ} (hpos : 0 < cross (pts 0) (pts 1) (pts 2)) {v : Fin 2 → ℝ} (hv : -1 < v 1) :
    jacobianMatrix pts v 0 0 * jacobianMatrix pts v 1 1 - jacobianMatrix pts v 0 1 * jacobianMatrix pts v 1 0 ≠ 0 := by
  have := jacobian_eq pts v two_ne_zero
  simp only [jacobian] at this
  rw [this]
  have : 0 < (v 1 + 1) / 8 := by linarith
  exact (mul_pos this hpos).ne'

/-- The reference coefficients are recovered from the reconstructed value: `value · J = (U, V)`. -/
theorem inner_pull (h : TriNodes p nodes) (T : Nat → Int) {pts : Fin 3 → ℝ × ℝ} (hpos : 0 < cross (pts 0) (pts 1) (pts 2))
    (w : Nat → ℝ) {x y : ℝ} (hy : -1 < y) :
    let f := reconInner p nodes T pts [x] [y] w 0
    let J := jacobianMatrix pts ![x, y]
    f 0 * J 0 0 + f 1 * J 1 0 = innerU p nodes (fun r => (T r : ℝ) * w r) x y ∧
    f 0 * J 0 1 + f 1 * J 1 1 = innerV p nodes (fun r => (T r : ℝ) * w r) x y := by
  intro f J
  have hd := jac_ne_zero hpos (v := ![x, y]) hy
  simp only [f, reconInner_sum h, Metric.Two.inverse, Matrix.cons_val_zero, Matrix.cons_val_one, Matrix.cons_val_fin_one, J]
  set a := jacobianMatrix pts ![x, y] 0 0
  set b := jacobianMatrix pts ![x, y] 0 1
  set c := jacobianMatrix pts ![x, y] 1 0
  set d := jacobianMatrix pts ![x, y] 1 1
  constructor <;> field_simp <;> ring

/-- The same for outer forms: `det · value = J (U, V)`. -/
theorem outer_pull (h : TriNodes p nodes) (T : Nat → Int) {pts : Fin 3 → ℝ × ℝ} (hpos : 0 < cross (pts 0) (pts 1) (pts 2))
    (w : Nat → ℝ) {x y : ℝ} (hy : -1 < y) :
    let f := reconOuter p nodes T pts [x] [y] w 0
    let J := jacobianMatrix pts ![x, y]
    f 0 * J 1 1 - f 1 * J 0 1 = outerU p nodes (fun r => (T r : ℝ) * w r) x y ∧
    f 1 * J 0 0 - f 0 * J 1 0 = outerV p nodes (fun r => (T r : ℝ) * w r) x y := by
  intro f J
  have hd := jac_ne_zero hpos (v := ![x, y]) hy
  simp only [f, reconOuter_sum h, Metric.Two.inverse, Matrix.cons_val_zero, Matrix.cons_val_one, Matrix.cons_val_fin_one, J]
  set a := jacobianMatrix pts ![x, y] 0 0
  set b := jacobianMatrix pts ![x, y] 0 1
  set c := jacobianMatrix pts ![x, y] 1 0
  set d := jacobianMatrix pts ![x, y] 1 1
  constructor <;> field_simp <;> ring

/-- The component of a vector along an edge, and across it (to the right). -/
def alongDir (f τ : Fin 2 → ℝ) : ℝ := f 0 * τ 0 + f 1 * τ 1
/-- Across. -/
def acrossDir (f τ : Fin 2 → ℝ) : ℝ := f 0 * τ 1 - f 1 * τ 0

theorem inner_along (h : TriNodes p nodes) (T : Nat → Int) (pt : Nat → ℝ × ℝ) (v : Cell)
    (hpos : 0 < cross (pt (v 0)) (pt (v 1)) (pt (v 2))) (w : Nat → ℝ) (m : Fin 3) {t : ℝ} (ht : -1 < t) :
    alongDir (reconInner p nodes T (fun a => pt (v a)) [edgeRef m t 0] [edgeRef m t 1] w 0) (edgeVec pt (edgeOf v m)) =
      2 * ∑ k ∈ range p, edgeAt nodes k t * ((T (segNumInner p (edgeSeg p m k)) : ℝ) * w (segNumInner p (edgeSeg p m k))) := by
  have hU : ∀ i ≤ p, lagrangeAt nodes i (-1) = if i = 0 then 1 else 0 := fun i hi => lagrange_first h hi
  have hD : ∀ i ≤ p, lagrangeAt nodes i 1 = if i = p then 1 else 0 := fun i hi => lagrange_last h hi
  have hp := h.one_le
  have jE := jac_edges (fun a => pt (v a)) t
  fin_cases m
  · have e := (inner_pull h T (pts := fun a => pt (v a)) hpos w (x := 1) ht).2
    rw [jE.1.1, jE.1.2] at e
    have e2 : innerV p nodes (fun r => (T r : ℝ) * w r) 1 t = ∑ k ∈ range p, edgeAt nodes k t * ((T (lnInnerDy p p k) : ℝ) * w (lnInnerDy p p k)) := by
      rw [innerV]
      refine sum_congr rfl fun j _ => ?_
      simp only [mul_assoc]
      rw [← mul_sum, sum_pick le_rfl hD fun i => (T (lnInnerDy p i j) : ℝ) * w (lnInnerDy p i j)]
    rw [e2] at e
    change alongDir (reconInner p nodes T (fun a => pt (v a)) [1] [t] w 0) _ = 2 * ∑ k ∈ range p, edgeAt nodes k t * ((T (lnInnerDy p p k) : ℝ) * w (lnInnerDy p p k))
    rw [← e]
    simp [alongDir, edgeVec, edgeOf]; ring
  · have e := (inner_pull h T (pts := fun a => pt (v a)) hpos w (x := -1) ht).2
    rw [jE.2.1.1, jE.2.1.2] at e
    have e2 : innerV p nodes (fun r => (T r : ℝ) * w r) (-1) t = ∑ k ∈ range p, edgeAt nodes k t * ((T (lnInnerDy p 0 k) : ℝ) * w (lnInnerDy p 0 k)) := by
      rw [innerV]
      refine sum_congr rfl fun j _ => ?_
      simp only [mul_assoc]
      rw [← mul_sum, sum_pick (by omega) hU fun i => (T (lnInnerDy p i j) : ℝ) * w (lnInnerDy p i j)]
    rw [e2] at e
    change alongDir (reconInner p nodes T (fun a => pt (v a)) [-1] [t] w 0) _ = 2 * ∑ k ∈ range p, edgeAt nodes k t * ((T (lnInnerDy p 0 k) : ℝ) * w (lnInnerDy p 0 k))
    rw [← e]
    simp [alongDir, edgeVec, edgeOf]; ring
  · have e := (inner_pull h T (pts := fun a => pt (v a)) hpos w (x := t) (y := 1) (by norm_num)).1
    rw [jE.2.2.1, jE.2.2.2] at e
    have e2 : innerU p nodes (fun r => (T r : ℝ) * w r) t 1 = ∑ k ∈ range p, edgeAt nodes k t * ((T (iDx p k p) : ℝ) * w (iDx p k p)) := by
      rw [innerU, sum_comm]
      refine sum_congr rfl fun i _ => ?_
      have := sum_pick le_rfl hD fun j => edgeAt nodes i t * dxVal (iDx p) (fun r => (T r : ℝ) * w r) i j
      simp only [mul_assoc]
      rw [this, dxVal, if_neg (by omega)]
    rw [e2] at e
    change alongDir (reconInner p nodes T (fun a => pt (v a)) [t] [1] w 0) _ = 2 * ∑ k ∈ range p, edgeAt nodes k t * ((T (iDx p k p) : ℝ) * w (iDx p k p))
    rw [← e]
    simp [alongDir, edgeVec, edgeOf]; ring

theorem outer_across (h : TriNodes p nodes) (T : Nat → Int) (pt : Nat → ℝ × ℝ) (v : Cell)
    (hpos : 0 < cross (pt (v 0)) (pt (v 1)) (pt (v 2))) (w : Nat → ℝ) (m : Fin 3) {t : ℝ} (ht : -1 < t) :
    acrossDir (reconOuter p nodes T (fun a => pt (v a)) [edgeRef m t 0] [edgeRef m t 1] w 0) (edgeVec pt (edgeOf v m)) =
      2 * ∑ k ∈ range p, edgeAt nodes k t *
        (sigmaOuter m * ((T (segNumOuter p (edgeSeg p m k)) : ℝ) * w (segNumOuter p (edgeSeg p m k)))) := by
  have hU : ∀ i ≤ p, lagrangeAt nodes i (-1) = if i = 0 then 1 else 0 := fun i hi => lagrange_first h hi
  have hD : ∀ i ≤ p, lagrangeAt nodes i 1 = if i = p then 1 else 0 := fun i hi => lagrange_last h hi
  have hp := h.one_le
  have jE := jac_edges (fun a => pt (v a)) t
  fin_cases m
  · have e := (outer_pull h T (pts := fun a => pt (v a)) hpos w (x := 1) ht).1
    rw [jE.1.1, jE.1.2] at e
    have e2 : outerU p nodes (fun r => (T r : ℝ) * w r) 1 t = ∑ k ∈ range p, edgeAt nodes k t * (1 * ((T (lnOuterDy p p k) : ℝ) * w (lnOuterDy p p k))) := by
      rw [outerU]
      refine sum_congr rfl fun j _ => ?_
      simp only [mul_assoc]
      rw [← mul_sum, sum_pick le_rfl hD fun i => (T (lnOuterDy p i j) : ℝ) * w (lnOuterDy p i j), one_mul]
    rw [e2] at e
    change acrossDir (reconOuter p nodes T (fun a => pt (v a)) [1] [t] w 0) _ = 2 * ∑ k ∈ range p, edgeAt nodes k t * (1 * ((T (lnOuterDy p p k) : ℝ) * w (lnOuterDy p p k)))
    rw [← e]
    simp [acrossDir, edgeVec, edgeOf]; ring
  · have e := (outer_pull h T (pts := fun a => pt (v a)) hpos w (x := -1) ht).1
    rw [jE.2.1.1, jE.2.1.2] at e
    have e2 : outerU p nodes (fun r => (T r : ℝ) * w r) (-1) t = ∑ k ∈ range p, edgeAt nodes k t * (1 * ((T (lnOuterDy p 0 k) : ℝ) * w (lnOuterDy p 0 k))) := by
      rw [outerU]
      refine sum_congr rfl fun j _ => ?_
      simp only [mul_assoc]
      rw [← mul_sum, sum_pick (by omega) hU fun i => (T (lnOuterDy p i j) : ℝ) * w (lnOuterDy p i j), one_mul]
    rw [e2] at e
    change acrossDir (reconOuter p nodes T (fun a => pt (v a)) [-1] [t] w 0) _ = 2 * ∑ k ∈ range p, edgeAt nodes k t * (1 * ((T (lnOuterDy p 0 k) : ℝ) * w (lnOuterDy p 0 k)))
    rw [← e]
    simp [acrossDir, edgeVec, edgeOf]; ring
  · have e := (outer_pull h T (pts := fun a => pt (v a)) hpos w (x := t) (y := 1) (by norm_num)).2
    rw [jE.2.2.1, jE.2.2.2] at e
    have e2 : -outerV p nodes (fun r => (T r : ℝ) * w r) t 1 = ∑ k ∈ range p, edgeAt nodes k t * ((-1) * ((T (oDx p k p) : ℝ) * w (oDx p k p))) := by
      rw [outerV, sum_comm, ← sum_neg_distrib]
      refine sum_congr rfl fun i _ => ?_
      have := sum_pick le_rfl hD fun j => edgeAt nodes i t * dxVal (oDx p) (fun r => (T r : ℝ) * w r) i j
      simp only [mul_assoc]
      rw [this, dxVal, if_neg (by omega)]; ring
    rw [← e] at e2
    change acrossDir (reconOuter p nodes T (fun a => pt (v a)) [t] [1] w 0) _ = 2 * ∑ k ∈ range p, edgeAt nodes k t * ((-1) * ((T (oDx p k p) : ℝ) * w (oDx p k p)))
    rw [← e2]
    simp [acrossDir, edgeVec, edgeOf]; ring

/-- Sums over the segments of a shared edge. -/
theorem edge_sums (h : TriNodes p nodes) (s : Bool) (f g : Nat → ℝ) (t : ℝ)
    (hfg : ∀ k < p, f k = (if s then -1 else 1) * g (if s then p - 1 - k else k)) :
    ∑ k ∈ range p, edgeAt nodes k t * f k = (if s then -1 else 1) * ∑ k ∈ range p, edgeAt nodes k (turned s t) * g k := by
  cases s
  · simp only [turned, Bool.false_eq_true, if_false, one_mul] at hfg ⊢
    exact sum_congr rfl fun k hk => by rw [hfg k (mem_range.1 hk)]
  · simp only [turned, if_true] at hfg ⊢
    rw [← sum_range_reflect (fun k => edgeAt nodes k (-t) * g k), mul_sum]
    refine sum_congr rfl fun k hk => ?_
    have hk' := mem_range.1 hk
    rw [hfg k hk', edge_symm h hk']; ring

theorem edgeVec_swap (pt : Nat → ℝ × ℝ) {v w : Cell} {m s e} (h : SameEdge v w m s e) :
    edgeVec pt (edgeOf v m) = fun i => (if s then -1 else 1) * edgeVec pt (edgeOf w e) i := by
  rw [h]
  funext i
  cases s <;> fin_cases i <;> simp [edgeVec]

/-- Segments of the same entity have the same dof. -/
theorem inner_values (cell : Nat → Cell) (n : Nat) (hc : Triangulation cell n) (em : EMap) (hem : elementMap cell n = some em)
    (s1 : St) (h1 : number (form1Inner p) cell em n = some s1) (x : Nat → Nat → ℝ)
    (hx : FromGlobal n (num1 p) (fun c => gv1Inner p (s1.done c)) x) (c d : Nat) (hcn : c < n) (hdn : d < n)
    (y z : Bool × Nat × Nat) (hy : ValidSeg p y) (hz : ValidSeg p z) (h : seg p (cell c) c y = seg p (cell d) d z) :
    x c (segNumInner p y) = x d (segNumInner p z) := by
  obtain ⟨X, hX⟩ := hx
  obtain ⟨st, e1, hnum, -, hsh⟩ := c63_one_forms_inner p cell n hc em hem
  rw [h1] at e1
  cases e1
  have g := (hsh ⟨(c, y), hcn, hy⟩ ⟨(d, z), hdn, hz⟩).2 h
  obtain ⟨k, -, hk⟩ := hnum ⟨(c, y), hcn, hy⟩
  have hk' := hk
  rw [g] at hk'
  have key : ∀ (c : Nat) (x : Bool × Nat × Nat), ValidSeg p x → ∀ k : Nat,
      ((lnInner p (c, x)).bind fun k => (gv1Inner p (s1.done c))[k]?) = some (some k) →
      (gv1Inner p (s1.done c))[segNumInner p x]? = some (some k) ∧ segNumInner p x < num1 p := by
    rintro c ⟨b, i, j⟩ hx k hk
    cases b
    · simp only [ValidSeg, Bool.false_eq_true, if_false] at hx
      rw [lnInner] at hk
      simp only [Bool.false_eq_true, if_false] at hk
      rw [lnInnerDx_eq, if_neg (by omega), Option.bind_some] at hk
      refine ⟨hk, ?_⟩
      have : iDx p i j < p * p := pos_lt (by omega) (by omega)
      show iDx p i j < num1 p
      rw [num1]; omega
    · refine ⟨hk, ?_⟩
      simp only [ValidSeg, if_true] at hx
      have : j * (p + 1) + i < p * (p + 1) := pos_lt (by omega) hx.2
      show lnInnerDy p i j < num1 p
      rw [lnInnerDy, num1]; omega
  obtain ⟨a1, a2⟩ := key c y hy k hk
  obtain ⟨b1, b2⟩ := key d z hz k hk'
  rw [hX c hcn _ a2 k a1, hX d hdn _ b2 k b1]

/-- The same for outer forms. -/
theorem outer_values (cell : Nat → Cell) (n : Nat) (hc : Triangulation cell n) (em : EMap) (hem : elementMap cell n = some em)
    (s1 : St) (h1 : number (form1Outer p) cell em n = some s1) (x : Nat → Nat → ℝ)
    (hx : FromGlobal n (num1 p) (fun c => gv1Outer p (s1.done c)) x) (c d : Nat) (hcn : c < n) (hdn : d < n)
    (y z : Bool × Nat × Nat) (hy : ValidSeg p y) (hz : ValidSeg p z) (h : seg p (cell c) c y = seg p (cell d) d z) :
    x c (segNumOuter p y) = x d (segNumOuter p z) := by
  obtain ⟨X, hX⟩ := hx
  obtain ⟨st, e1, hnum, -, hsh⟩ := c63_one_forms_outer p cell n hc em hem
  rw [h1] at e1
  cases e1
  have g := (hsh ⟨(c, y), hcn, hy⟩ ⟨(d, z), hdn, hz⟩).2 h
  obtain ⟨k, -, hk⟩ := hnum ⟨(c, y), hcn, hy⟩
  have hk' := hk
  rw [g] at hk'
  have key : ∀ (c : Nat) (x : Bool × Nat × Nat), ValidSeg p x → ∀ k : Nat,
      ((lnOuter p (c, x)).bind fun k => (gv1Outer p (s1.done c))[k]?) = some (some k) →
      (gv1Outer p (s1.done c))[segNumOuter p x]? = some (some k) ∧ segNumOuter p x < num1 p := by
    rintro c ⟨b, i, j⟩ hx k hk
    cases b
    · simp only [ValidSeg, Bool.false_eq_true, if_false] at hx
      rw [lnOuter] at hk
      simp only [Bool.false_eq_true, if_false] at hk
      rw [lnOuterDx_eq, if_neg (by omega), Option.bind_some] at hk
      refine ⟨hk, ?_⟩
      have : (j - 1) * p + i < p * p := pos_lt (by omega) (by omega)
      show oDx p i j < num1 p
      rw [oDx, num1]; omega
    · refine ⟨hk, ?_⟩
      simp only [ValidSeg, if_true] at hx
      have : j * (p + 1) + i < p * (p + 1) := pos_lt (by omega) hx.2
      show lnOuterDy p i j < num1 p
      rw [lnOuterDy, num1]; omega
  obtain ⟨a1, a2⟩ := key c y hy k hk
  obtain ⟨b1, b2⟩ := key d z hz k hk'
  rw [hX c hcn _ a2 k a1, hX d hdn _ b2 k b1]

/-- The segments of a shared edge are the same. -/
theorem seg_shared (hp : 1 ≤ p) {v w : Cell} (hw : Function.Injective w) (c d : Nat) {m s e} (h : SameEdge v w m s e) (k : Nat)
    (hk : k < p) : seg p v c (edgeSeg p m k) = seg p w d (edgeSeg p e (if s then p - 1 - k else k)) := by
  rw [seg_edge p hp, seg_edge p hp, h]
  cases s
  · simp
  · simp only [if_true]
    exact edgeEnt_swap p _ k (edgeOf_ne hw e) hk

/-- **C97, tangential continuity of inner 1-forms.**  On both sides of a shared edge, away from its end points, the reconstructed
vectors have the same component along the edge. -/
theorem c97_tangential (h : TriNodes p nodes) (pt : Nat → ℝ × ℝ) (cell : Nat → Cell) (n : Nat) (hc : Triangulation cell n)
    (hpos : ∀ c < n, 0 < cross (pt (cell c 0)) (pt (cell c 1)) (pt (cell c 2)))
    (em : EMap) (hem : elementMap cell n = some em) (s1 : St) (h1 : number (form1Inner p) cell em n = some s1) (x : Nat → Nat → ℝ)
    (hx : FromGlobal n (num1 p) (fun c => gv1Inner p (s1.done c)) x) (c d : Nat) (hcn : c < n) (hdn : d < n) (hcd : c ≠ d) {m s e}
    (hs : SameEdge (cell c) (cell d) m s e) (t : ℝ) (ht : -1 < t ∧ t < 1) :
    let f := fun (c : Nat) (v : Fin 2 → ℝ) => reconInner p nodes (transition (edgeDofsInner p) (eesInner em c)) (fun a => pt (cell c a))
      [v 0] [v 1] (x c) 0
    let τ := edgeVec pt (edgeOf (cell c) m)
    alongDir (f c (edgeRef m t)) τ = alongDir (f d (edgeRef e (turned s t))) τ := by
  intro f τ
  have hp := h.one_le
  have ht' : -1 < turned s t := by cases s <;> simp only [turned, Bool.false_eq_true, if_false, if_true] <;> linarith [ht.1, ht.2]
  have e1 := inner_along h (transition (edgeDofsInner p) (eesInner em c)) pt (cell c) (hpos c hcn) (x c) m ht.1
  have e2 := inner_along h (transition (edgeDofsInner p) (eesInner em d)) pt (cell d) (hpos d hdn) (x d) e ht'
  have fl := inner_flips (K := ℝ) (mapAt_of hc hem) c hcn d hdn hcd m s e hs
  have e3 : alongDir (f d (edgeRef e (turned s t))) τ =
      (if s then -1 else 1) * alongDir (f d (edgeRef e (turned s t))) (edgeVec pt (edgeOf (cell d) e)) := by
    simp only [τ, edgeVec_swap pt hs, alongDir]; ring
  rw [e3]
  simp only [f]
  rw [e1, e2, edge_sums h s _ (fun k => (transition (edgeDofsInner p) (eesInner em d) (segNumInner p (edgeSeg p e k)) : ℝ) *
    x d (segNumInner p (edgeSeg p e k))) t]
  · ring
  · intro k hk
    have hk' : (if s then p - 1 - k else k) < p := by split_ifs <;> omega
    rw [transitionInner_edge p hp _ m k hk, transitionInner_edge p hp _ e _ hk',
      inner_values cell n hc em hem s1 h1 x hx c d hcn hdn _ _ (edgeSeg_valid hp m hk) (edgeSeg_valid hp e hk')
        (seg_shared hp (hc.inj d hdn) c d hs k hk), ← mul_assoc]
    congr 1
    have : (if s then (-1 : ℝ) else 1) * (if s then -1 else 1) = 1 := by cases s <;> simp
    push_cast [apply_ite (Int.cast (R := ℝ))]
    linear_combination (if s then (-1 : ℝ) else 1) * fl - (if m ∈ eesInner em c then (-1 : ℝ) else 1) * this

/-- **C97, normal continuity of outer 1-forms.**  On both sides of a shared edge, away from its end points, the reconstructed
vectors have the same component across the edge, if the cells are anticlockwise and on different sides of the edge. -/
theorem c97_normal (h : TriNodes p nodes) (pt : Nat → ℝ × ℝ) (cell : Nat → Cell) (n : Nat) (hc : Triangulation cell n)
    (hpos : ∀ c < n, 0 < cross (pt (cell c 0)) (pt (cell c 1)) (pt (cell c 2))) (ho : OppositeSides pt cell n)
    (em : EMap) (hem : elementMap cell n = some em) (s1 : St) (h1 : number (form1Outer p) cell em n = some s1) (x : Nat → Nat → ℝ)
    (hx : FromGlobal n (num1 p) (fun c => gv1Outer p (s1.done c)) x) (c d : Nat) (hcn : c < n) (hdn : d < n) (hcd : c ≠ d) {m s e}
    (hs : SameEdge (cell c) (cell d) m s e) (t : ℝ) (ht : -1 < t ∧ t < 1) :
    let f := fun (c : Nat) (v : Fin 2 → ℝ) => reconOuter p nodes (transition (edgeDofsOuter p) (eesOuter em c)) (fun a => pt (cell c a))
      [v 0] [v 1] (x c) 0
    let τ := edgeVec pt (edgeOf (cell c) m)
    acrossDir (f c (edgeRef m t)) τ = acrossDir (f d (edgeRef e (turned s t))) τ := by
  intro f τ
  have hp := h.one_le
  have ht' : -1 < turned s t := by cases s <;> simp only [turned, Bool.false_eq_true, if_false, if_true] <;> linarith [ht.1, ht.2]
  have e1 := outer_across h (transition (edgeDofsOuter p) (eesOuter em c)) pt (cell c) (hpos c hcn) (x c) m ht.1
  have e2 := outer_across h (transition (edgeDofsOuter p) (eesOuter em d)) pt (cell d) (hpos d hdn) (x d) e ht'
  have fl := outer_flips (K := ℝ) (mapAt_of hc hem) (fun c hc' d hd hcd m s e h => opposite_sign ho hpos hc' hd hcd h)
    c hcn d hdn hcd m s e hs
  have e3 : acrossDir (f d (edgeRef e (turned s t))) τ =
      (if s then -1 else 1) * acrossDir (f d (edgeRef e (turned s t))) (edgeVec pt (edgeOf (cell d) e)) := by
    simp only [τ, edgeVec_swap pt hs, acrossDir]; ring
  rw [e3]
  simp only [f]
  rw [e1, e2, edge_sums h s _ (fun k => sigmaOuter e * ((transition (edgeDofsOuter p) (eesOuter em d) (segNumOuter p (edgeSeg p e k)) : ℝ) *
    x d (segNumOuter p (edgeSeg p e k)))) t]
  · ring
  · intro k hk
    have hk' : (if s then p - 1 - k else k) < p := by split_ifs <;> omega
    rw [transitionOuter_edge p hp _ m k hk, transitionOuter_edge p hp _ e _ hk',
      outer_values cell n hc em hem s1 h1 x hx c d hcn hdn _ _ (edgeSeg_valid hp m hk) (edgeSeg_valid hp e hk')
        (seg_shared hp (hc.inj d hdn) c d hs k hk), ← mul_assoc, ← mul_assoc, ← mul_assoc]
    congr 1
    have : (if s then (-1 : ℝ) else 1) * (if s then -1 else 1) = 1 := by cases s <;> simp
    push_cast [apply_ite (Int.cast (R := ℝ))]
    linear_combination (if s then (-1 : ℝ) else 1) * fl - (if m ∈ eesOuter em c then (-1 : ℝ) else 1) * sigmaOuter m * this

/-! ## Single values at the points of an export -/

theorem onEdge0_ends (h : TriNodes p nodes) (w : Nat → ℝ) (m : Fin 3) :
    onEdge0 nodes w m (-1) = w (ln0 p (edgeNode p m 0).1 (edgeNode p m 0).2) ∧
    onEdge0 nodes w m 1 = w (ln0 p (edgeNode p m p).1 (edgeNode p m p).2) := by
  rw [onEdge0_sum h, onEdge0_sum h]
  exact ⟨sum_pick (by omega) (fun i hi => lagrange_first h hi) fun k => w (ln0 p (edgeNode p m k).1 (edgeNode p m k).2),
    sum_pick le_rfl (fun i hi => lagrange_last h hi) fun k => w (ln0 p (edgeNode p m k).1 (edgeNode p m k).2)⟩

/-- A node is inside, or on an edge. -/
theorem node_cases {q : Nat} (hq : 1 ≤ q) (v : Cell) (c i j : Nat) (hi : i ≤ q) (hj : j ≤ q) (h : TriNodes p nodes) {y : Nat → ℝ}
    (hy : SymmetricNodes q y) (w : Nat → ℝ) :
    (node0 q v c i j = .inner c 0 ((j - 1) * (q - 1) + (i - 1)) ∧ i ≠ 0 ∧ i ≠ q ∧ j ≠ 0 ∧ j ≠ q) ∨
    ∃ m k, k ≤ q ∧ node0 q v c i j = edgePt q (edgeOf v m) k ∧ recon0 nodes [y i] [y j] w 0 = onEdge0 nodes w m (y k) := by
  by_cases j0 : j = 0
  · subst j0
    refine Or.inr ⟨0, 0, by omega, ?_, ?_⟩
    · simp [node0, edgePt, edgeOf]
    · rw [hy.first, (c97_interpolates h w).2, (onEdge0_ends h w 0).1]
      simp [edgeNode, ln0_eq]
  · by_cases jq : j = q
    · subst jq
      refine Or.inr ⟨2, i, hi, node0_edge j hq v c 2 i, ?_⟩
      simp [onEdge0, edgeRef, hy.last]
    · by_cases i0 : i = 0
      · subst i0
        refine Or.inr ⟨1, j, hj, node0_edge q hq v c 1 j, ?_⟩
        simp [onEdge0, edgeRef, hy.first]
      · by_cases iq : i = q
        · subst iq
          refine Or.inr ⟨0, j, hj, node0_edge i hq v c 0 j, ?_⟩
          simp [onEdge0, edgeRef, hy.last]
        · refine Or.inl ⟨?_, i0, iq, j0, jq⟩
          simp [node0, j0, jq, i0, iq]

theorem edgePt_not_inner (q : Nat) (ab : Nat × Nat) (k c : Nat) (b : Fin 2) (r : Nat) : edgePt q ab k ≠ .inner c b r := by
  intro h
  rw [edgePt] at h
  split_ifs at h
  rw [edgeEnt] at h
  split_ifs at h

/-- **C97, export.**  At points of the elements that share a number in an export (with any number `q` of cells per edge), the
reconstructions of a 0-form in the different elements agree, so that the exported value does not depend on the element. -/
theorem c97_export (h : TriNodes p nodes) (cell : Nat → Cell) (n : Nat) (hc : Triangulation cell n) (em : EMap)
    (hem : elementMap cell n = some em) (s0 : St) (h0 : number (form0 p) cell em n = some s0) (x : Nat → Nat → ℝ)
    (hx : FromGlobal n (num0 p) (fun c => gv0 p (s0.done c)) x) {q : Nat} (hq : 1 ≤ q) {y : Nat → ℝ} (hy : SymmetricNodes q y) :
    ∀ e < n, ∀ i ≤ q, ∀ j ≤ q, ∀ e' < n, ∀ i' ≤ q, ∀ j' ≤ q, node0 q (cell e) e i j = node0 q (cell e') e' i' j' →
      recon0 nodes [y i] [y j] (x e) 0 = recon0 nodes [y i'] [y j'] (x e') 0 := by
  intro e he i hi j hj e' he' i' hi' j' hj' hh
  have hp := h.one_le
  have corner : ∀ (c d : Nat), c < n → d < n → ∀ (m m' : Fin 3) (k k' : Nat), k ≤ p → k' ≤ p →
      edgePt p (edgeOf (cell c) m) k = edgePt p (edgeOf (cell d) m') k' →
      x c (ln0 p (edgeNode p m k).1 (edgeNode p m k).2) = x d (ln0 p (edgeNode p m' k').1 (edgeNode p m' k').2) := by
    intro c d hcn hdn m m' k k' hk hk' hE
    have valid : ∀ (m : Fin 3) (k : Nat), k ≤ p → (edgeNode p m k).1 ≤ p ∧ (edgeNode p m k).2 ≤ p := by
      intro m k hk
      fin_cases m <;> simp [edgeNode, hk]
    exact node_values p hp cell n hc em hem s0 h0 x hx c d hcn hdn _ _ _ _ (valid m k hk).1 (valid m k hk).2 (valid m' k' hk').1 (valid m' k' hk').2
      (by rw [node0_edge p hp, node0_edge p hp, hE])
  rcases node_cases hq (cell e) e i j hi hj h hy (x e) with ⟨a1, a2⟩ | ⟨m, k, hk, a1, a2⟩ <;>
    rcases node_cases hq (cell e') e' i' j' hi' hj' h hy (x e') with ⟨b1, b2⟩ | ⟨m', k', hk', b1, b2⟩
  · rw [a1, b1] at hh
    simp only [Ent.inner.injEq] at hh
    obtain ⟨rfl, -, hh⟩ := hh
    have := pos_inj (m := q - 1) (by omega : i - 1 < q - 1) (by omega : i' - 1 < q - 1) hh
    rw [show i = i' by omega, show j = j' by omega]
  · rw [a1, b1] at hh; exact absurd hh.symm (edgePt_not_inner _ _ _ _ _ _)
  · rw [a1, b1] at hh; exact absurd hh (edgePt_not_inner _ _ _ _ _ _)
  · rw [a1, b1] at hh
    rw [a2, b2]
    -- the ends of the edges
    have ends : ∀ (c : Nat) (m : Fin 3) (k : Nat), k = 0 ∨ k = q → ∃ l ≤ p, onEdge0 nodes (x c) m (y k) =
        x c (ln0 p (edgeNode p m l).1 (edgeNode p m l).2) ∧ edgePt q (edgeOf (cell c) m) k = edgePt p (edgeOf (cell c) m) l := by
      intro c m k hk
      rcases hk with rfl | rfl
      · exact ⟨0, by omega, by rw [hy.first]; exact (onEdge0_ends h (x c) m).1, by simp [edgePt]⟩
      · refine ⟨p, le_rfl, by rw [hy.last]; exact (onEdge0_ends h (x c) m).2, ?_⟩
        simp [edgePt, show k ≠ 0 by omega, show p ≠ 0 by omega]
    have notV : ∀ (ab : Nat × Nat) (k : Nat), ¬ (k = 0 ∨ k = q) → ∀ a, edgePt q ab k ≠ .vertex a := by
      intro ab k hk a hE
      rw [edgePt, if_neg (by omega), if_neg (by omega), edgeEnt] at hE
      split_ifs at hE
    have isV : ∀ (ab : Nat × Nat) (k : Nat), (k = 0 ∨ k = q) → ∃ a, edgePt q ab k = .vertex a := by
      rintro ab k (rfl | rfl)
      · exact ⟨_, by simp [edgePt]; rfl⟩
      · exact ⟨_, by simp [edgePt, show k ≠ 0 by omega]; rfl⟩
    by_cases hk0 : k = 0 ∨ k = q <;> by_cases hk0' : k' = 0 ∨ k' = q
    · obtain ⟨l, hl, c1, c2⟩ := ends e m k hk0
      obtain ⟨l', hl', d1, d2⟩ := ends e' m' k' hk0'
      rw [c1, d1]
      exact corner e e' he he' m m' l l' hl hl' (by rw [← c2, ← d2, hh])
    · obtain ⟨a, ha⟩ := isV (edgeOf (cell e) m) k hk0
      exact absurd (hh.symm.trans ha) (notV _ _ hk0' a)
    · obtain ⟨a, ha⟩ := isV (edgeOf (cell e') m') k' hk0'
      exact absurd (hh.trans ha) (notV _ _ hk0 a)
    · rw [edgePt, edgePt, if_neg (by omega), if_neg (by omega), if_neg (by omega), if_neg (by omega)] at hh
      obtain ⟨s, hs, hkk⟩ := edgeEnt_eq (by omega) (by omega) (edgeOf_ne (hc.inj e' he') m') hh
      have ht : y k' = turned s (y k) := by
        cases s
        · simp only [Bool.false_eq_true, if_false] at hkk
          rw [show k' = k by omega]; rfl
        · simp only [if_true] at hkk
          rw [show k' = q - k by omega, hy.symm k hk]; rfl
      rw [ht]
      exact (c97_continuous h (fun _ => (0, 0)) cell n hc em hem s0 h0 x hx e e' he he' hs (y k)).2

/-- **C97, files.**  The file of a reconstructed 0-form (`export.vtk`) holds at every point the value of the form in every
element that has the point, whatever the order of the elements. -/
theorem c97_file (h : TriNodes p nodes) (cell : Nat → Cell) (n : Nat) (hn : 1 ≤ n) (hc : Triangulation cell n) (em : EMap)
    (hem : elementMap cell n = some em) (s0 : St) (h0 : number (form0 p) cell em n = some s0) (x : Nat → Nat → ℝ)
    (hx : FromGlobal n (num0 p) (fun c => gv0 p (s0.done c)) x) {q : Nat} (hq : 1 ≤ q) (es : List Nat) (hes : ∀ e, e ∈ es ↔ e < n) :
    ∃ sq, number (form0 q) cell em n = some sq ∧ ∃ v,
      vtkExport q n 0 (fun e i j => arr0 q (sq.done e) i j)
        (fun e i j => recon0 nodes [linspace (-1) q i] [linspace (-1) q j] (x e) 0) es = some v ∧
      ∀ e < n, ∀ i ≤ q, ∀ j ≤ q, ∀ k, arr0 q (sq.done e) i j = some k →
        v k = recon0 nodes [linspace (-1) q i] [linspace (-1) q j] (x e) 0 := by
  obtain ⟨sq, e1, e2⟩ := c96_numbers q hq cell n hc em hem
  exact ⟨sq, e1, c96_export hq hn e2 0 _ (c97_export h cell n hc em hem s0 h0 x hx hq (linspace_symmetric hq)) es hes⟩

end

end Mifem.Props
