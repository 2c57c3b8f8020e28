import Verif.Model.TriRec
import Verif.Props.Basis
import Verif.Props.TriCommute
import Verif.Props.TriVtk

/-!
# Property C97: reconstruction of forms on triangular meshes
-/

namespace Mifem.Props

open Mifem.Tri Mifem.Basis Finset

/-! ## The basis functions as sums -/

section
variable {p : Nat} {nodes : List ℝ}

/-- The nodes of the space: `p + 1` accepted nodes, symmetric about 0 (Gauss-Lobatto nodes are). -/
structure TriNodes (p : Nat) (nodes : List ℝ) : Prop where
  acc : accepted nodes = true
  len : nodes.length = p + 1
  symm : ∀ k ≤ p, node nodes (p - k) = - node nodes k

theorem TriNodes.symmetric (h : TriNodes p nodes) : SymmetricNodes p (node nodes) := by
  have hp : nodes.length ≠ 0 := by rw [h.len]; omega
  have h0 : node nodes 0 = -1 := by
    have := h.acc
    simp only [accepted, Bool.and_eq_true, decide_eq_true_eq] at this
    have := this.2
    rw [List.head?_eq_getElem?] at this
    simp [node, List.getD_eq_getElem?_getD, this]
  refine ⟨h0, ?_, h.symm⟩
  have := h.symm 0 (by omega)
  rw [Nat.sub_zero, h0] at this
  simpa using this

theorem TriNodes.one_le (h : TriNodes p nodes) : 1 ≤ p := by
  have := accepted_two h.acc
  rw [h.len] at this; omega

theorem lagrange_node (h : TriNodes p nodes) {i k : Nat} (hi : i ≤ p) (hk : k ≤ p) :
    lagrangeAt nodes i (node nodes k) = if i = k then 1 else 0 :=
  c48_kronecker nodes h.acc i k (by rw [h.len]; omega) (by rw [h.len]; omega)

theorem lagrange_sum_one (h : TriNodes p nodes) (x : ℝ) : ∑ i ∈ range (p + 1), lagrangeAt nodes i x = 1 := by
  have := c48_sum_one nodes h.acc [x] 0
  rw [← h.len]; exact this

theorem sumRows_kron (h : TriNodes p nodes) (x y : ℝ) :
    (sumRows (kron (row0 (nodeBasis nodes [y])) (nodeBasis nodes [x]))).e 0 0 = lagrangeAt nodes 0 y := by
  have hl := h.len
  have : ∀ r ∈ List.range (1 * nodes.length), (kron (row0 (nodeBasis nodes [y])) (nodeBasis nodes [x])).e r 0 =
      lagrangeAt nodes 0 y * lagrangeAt nodes r x := by
    intro r hr
    have hr' : r < nodes.length := by simpa using hr
    simp [kron, row0, nodeBasis, Nat.mod_eq_of_lt hr']
  simp only [sumRows]
  rw [show (kron (row0 (nodeBasis nodes [y])) (nodeBasis nodes [x])).rows = 1 * nodes.length from rfl, List.map_congr_left this,
    range_map_sum, one_mul, ← mul_sum, hl, lagrange_sum_one h, mul_one]

theorem einsum_split (A B : Arr ℝ) (w : Nat → ℝ) (c : Nat) :
    einsum (vstack A B) w c = einsum A w c + einsum B (slice w A.rows) c := by
  simp only [einsum, range_map_sum, vstack, slice]
  rw [sum_range_add]
  congr 1
  · refine sum_congr rfl fun r hr => ?_
    rw [if_pos (mem_range.1 hr)]
  · refine sum_congr rfl fun r hr => ?_
    rw [if_neg (by omega), Nat.add_sub_cancel_left]

/-- 0-forms as a sum over all nodes; the nodes of the first column share one dof. -/
theorem recon0_sum (h : TriNodes p nodes) (w : Nat → ℝ) (x y : ℝ) : recon0 nodes [x] [y] w 0 =
    ∑ j ∈ range (p + 1), ∑ i ∈ range (p + 1), lagrangeAt nodes j y * lagrangeAt nodes i x * w (ln0 p i j) := by
  have hl := h.len
  rw [recon0, basisS0, einsum_split, two_recon _ _ rfl]
  have e1 : (sumRows (kron (row0 (nodeBasis nodes [y])) (nodeBasis nodes [x]))).rows = 1 := rfl
  rw [sum_range_succ' (fun j => ∑ i ∈ range (p + 1), lagrangeAt nodes j y * lagrangeAt nodes i x * w (ln0 p i j)), add_comm]
  congr 1
  · have : (rowsFrom 1 (nodeBasis nodes [y])).rows = p := by simp [rowsFrom, nodeBasis, hl]
    rw [this, show (nodeBasis nodes [x]).rows = p + 1 from hl]
    refine sum_congr rfl fun j _ => sum_congr rfl fun i _ => ?_
    rw [e1, slice, ln0_eq, if_neg (by omega)]
    simp only [rowsFrom, nodeBasis, fIdx2, List.getD_cons_zero, Nat.add_sub_cancel]
    rw [Nat.add_comm 1 j]
    congr 2
    ring
  · rw [einsum, e1]
    simp only [List.range_one, List.map_cons, List.map_nil, List.sum_cons, List.sum_nil, add_zero]
    rw [sumRows_kron h]
    simp only [ln0_eq, if_true]
    rw [← sum_mul, ← mul_sum, lagrange_sum_one h, mul_one]

theorem einsum_dx (h : TriNodes p nodes) (w : Nat → ℝ) (x y : ℝ) : einsum (basisDx nodes [x] [y]) w 0 =
    ∑ j ∈ range (p + 1), ∑ i ∈ range p, lagrangeAt nodes j y * edgeAt nodes i x * dxVal (iDx p) w i j := by
  have hl := h.len
  rw [basisDx, two_recon _ _ rfl]
  rw [sum_range_succ' (fun j => ∑ i ∈ range p, lagrangeAt nodes j y * edgeAt nodes i x * dxVal (iDx p) w i j)]
  have : (rowsFrom 1 (nodeBasis nodes [y])).rows = p := by simp [rowsFrom, nodeBasis, hl]
  rw [this, show (edgeBasis nodes [x]).rows = p by simp [edgeBasis, hl]]
  simp only [dxVal, if_true, mul_zero, sum_const_zero, add_zero]
  refine sum_congr rfl fun j _ => sum_congr rfl fun i _ => ?_
  rw [if_neg (by omega)]
  simp only [rowsFrom, nodeBasis, edgeBasis, fIdx2, iDx, List.getD_cons_zero, Nat.add_sub_cancel]
  rw [Nat.add_comm 1 j]
  congr 2
  ring

theorem einsum_dy (h : TriNodes p nodes) (w : Nat → ℝ) (x y : ℝ) : einsum (basisDy nodes [x] [y]) w 0 =
    ∑ j ∈ range p, ∑ i ∈ range (p + 1), edgeAt nodes j y * lagrangeAt nodes i x * w (j * (p + 1) + i) := by
  have hl := h.len
  rw [basisDy, two_recon _ _ rfl, show (edgeBasis nodes [y]).rows = p by simp [edgeBasis, hl], show (nodeBasis nodes [x]).rows = p + 1 from hl]
  refine sum_congr rfl fun j _ => sum_congr rfl fun i _ => ?_
  simp only [nodeBasis, edgeBasis, fIdx2, List.getD_cons_zero]
  congr 2
  ring

/-- A transition matrix acts on the cochain. -/
theorem einsum_transition (T : Nat → Int) (A B : Arr ℝ) (w : Nat → ℝ) (c : Nat) :
    einsum (withTransition T (A, B)).1 w c = einsum A (fun r => T r * w r) c ∧
    einsum (withTransition T (A, B)).2 (slice w A.rows) c = einsum B (slice (fun r => T r * w r) A.rows) c := by
  constructor
  · simp only [einsum, range_map_sum, withTransition, vstack]
    refine sum_congr rfl fun r hr => ?_
    rw [if_pos (mem_range.1 hr)]; ring
  · simp only [einsum, range_map_sum, withTransition, vstack, rowsFrom, slice, Nat.add_sub_cancel_left]
    refine sum_congr rfl fun r hr => ?_
    rw [if_neg (by omega)]; ring

/-- The two coefficients of an inner 1-form in the reference element. -/
noncomputable def innerU (p : Nat) (nodes : List ℝ) (w : Nat → ℝ) (x y : ℝ) : ℝ :=
  ∑ j ∈ range (p + 1), ∑ i ∈ range p, lagrangeAt nodes j y * edgeAt nodes i x * dxVal (iDx p) w i j
/-- The second. -/
noncomputable def innerV (p : Nat) (nodes : List ℝ) (w : Nat → ℝ) (x y : ℝ) : ℝ :=
  ∑ j ∈ range p, ∑ i ∈ range (p + 1), edgeAt nodes j y * lagrangeAt nodes i x * w (lnInnerDy p i j)
/-- The two coefficients of an outer 1-form in the reference element. -/
noncomputable def outerU (p : Nat) (nodes : List ℝ) (w : Nat → ℝ) (x y : ℝ) : ℝ :=
  ∑ j ∈ range p, ∑ i ∈ range (p + 1), edgeAt nodes j y * lagrangeAt nodes i x * w (lnOuterDy p i j)
/-- The second. -/
noncomputable def outerV (p : Nat) (nodes : List ℝ) (w : Nat → ℝ) (x y : ℝ) : ℝ :=
  ∑ j ∈ range (p + 1), ∑ i ∈ range p, lagrangeAt nodes j y * edgeAt nodes i x * dxVal (oDx p) w i j

theorem reconInner_sum (h : TriNodes p nodes) (T : Nat → Int) (pts : Fin 3 → ℝ × ℝ) (w : Nat → ℝ) (x y : ℝ) :
    let iJ := Metric.Two.inverse (jacobianMatrix pts ![x, y])
    let w' := fun r => (T r : ℝ) * w r
    reconInner p nodes T pts [x] [y] w 0 = fun k => innerU p nodes w' x y * iJ 0 k + innerV p nodes w' x y * iJ 1 k := by
  intro iJ w'
  have hr : (basisDx nodes [x] [y]).rows = p ^ 2 := by simp [basisDx, kron, rowsFrom, nodeBasis, edgeBasis, h.len, sq]
  have e := einsum_transition T (basisDx nodes [x] [y]) (basisDy nodes [x] [y]) w 0
  rw [hr] at e
  have e1 : einsum (basisInner nodes T [x] [y]).1 w 0 = innerU p nodes w' x y := by
    rw [basisInner, e.1, einsum_dx h]; rfl
  have e2 : einsum (basisInner nodes T [x] [y]).2 (slice w (p ^ 2)) 0 = innerV p nodes w' x y := by
    rw [basisInner, e.2, einsum_dy h]
    simp only [slice, innerV, lnInnerDy, sq, w']
  simp only [reconInner, e1, e2]
  funext k
  fin_cases k <;> simp [inverseAt, Basis.Two.meshgrid, iJ]

theorem reconOuter_sum (h : TriNodes p nodes) (T : Nat → Int) (pts : Fin 3 → ℝ × ℝ) (w : Nat → ℝ) (x y : ℝ) :
    let iJ := Metric.Two.inverse (jacobianMatrix pts ![x, y])
    let w' := fun r => (T r : ℝ) * w r
    reconOuter p nodes T pts [x] [y] w 0 = ![outerU p nodes w' x y * iJ 1 1 - outerV p nodes w' x y * iJ 0 1,
      -outerU p nodes w' x y * iJ 1 0 + outerV p nodes w' x y * iJ 0 0] := by
  intro iJ w'
  have hr : (basisDy nodes [x] [y]).rows = p * (p + 1) := by simp [basisDy, kron, nodeBasis, edgeBasis, h.len]
  have e := einsum_transition T (basisDy nodes [x] [y]) (basisDx nodes [x] [y]) w 0
  rw [hr] at e
  have e1 : einsum (basisOuter nodes T [x] [y]).1 w 0 = outerU p nodes w' x y := by
    rw [basisOuter, e.1, einsum_dy h]
    simp only [outerU, lnOuterDy, w']
  have e2 : einsum (basisOuter nodes T [x] [y]).2 (slice w (p * (p + 1))) 0 = outerV p nodes w' x y := by
    rw [basisOuter, e.2, einsum_dx h]
    simp only [slice, outerV, dxVal, iDx, oDx, w']
  simp only [reconOuter, e1, e2]
  simp [inverseAt, Basis.Two.meshgrid, iJ]

theorem recon2_sum (h : TriNodes p nodes) (pts : Fin 3 → ℝ × ℝ) (w : Nat → ℝ) (x y : ℝ) :
    recon2 nodes pts [x] [y] w 0 = Metric.Two.inverseJacobian (Metric.Two.inverse (jacobianMatrix pts ![x, y])) *
      ∑ j ∈ range p, ∑ i ∈ range p, edgeAt nodes j y * edgeAt nodes i x * w (ln2 p i j) := by
  have hl := h.len
  have e := two_recon (edgeBasis nodes [y]) (edgeBasis nodes [x]) rfl w
  have hr : (edgeBasis nodes [y]).rows = p := by simp [edgeBasis, hl]
  have hr' : (edgeBasis nodes [x]).rows = p := by simp [edgeBasis, hl]
  rw [hr, hr'] at e
  rw [recon2, einsum]
  simp only [range_map_sum]
  have : ∀ r, (basisS2 nodes [x] [y]).e r 0 * Metric.Two.inverseJacobian (inverseAt pts [x] [y] 0) * w r =
      Metric.Two.inverseJacobian (inverseAt pts [x] [y] 0) * ((basisS2 nodes [x] [y]).e r 0 * w r) := fun r => by ring
  simp only [this, ← mul_sum]
  have i1 : inverseAt pts [x] [y] 0 = Metric.Two.inverse (jacobianMatrix pts ![x, y]) := by simp [inverseAt, Basis.Two.meshgrid]
  rw [i1]
  congr 1
  rw [einsum, range_map_sum] at e
  refine e.trans (sum_congr rfl fun j _ => sum_congr rfl fun i _ => ?_)
  simp only [edgeBasis, fIdx2, ln2, List.getD_cons_zero]
  congr 2
  ring

/-- **C97, grid.**  Entry `c` of a reconstruction is the value at the `c`-th point of the raveled grid. -/
theorem c97_meshgrid (p : Nat) (nodes xs ys : List ℝ) (T : Nat → Int) (pts : Fin 3 → ℝ × ℝ) (w : Nat → ℝ) (c : Nat) :
    let P := Basis.Two.meshgrid xs ys c
    recon0 nodes xs ys w c = recon0 nodes [P.1] [P.2] w 0 ∧
    reconInner p nodes T pts xs ys w c = reconInner p nodes T pts [P.1] [P.2] w 0 ∧
    reconOuter p nodes T pts xs ys w c = reconOuter p nodes T pts [P.1] [P.2] w 0 ∧
    recon2 nodes pts xs ys w c = recon2 nodes pts [P.1] [P.2] w 0 := by
  intro P
  refine ⟨?_, ?_, ?_, ?_⟩ <;>
    simp [recon0, reconInner, reconOuter, recon2, basisS0, basisInner, basisOuter, withTransition, basisDx, basisDy, basisS2, einsum,
      vstack, sumRows, row0, rowsFrom, kron, nodeBasis, edgeBasis, P, Basis.Two.meshgrid, inverseAt]

/-- **C97, reconstruction matrices** times the cochain give the reconstruction. -/
theorem c97_matrices (h : TriNodes p nodes) (T : Nat → Int) (pts : Fin 3 → ℝ × ℝ) (xs ys : List ℝ) (w : Nat → ℝ) (c : Nat) :
    applyRM (rm0 nodes xs ys) w c = recon0 nodes xs ys w c ∧
    (applyRM (rmInner nodes T pts xs ys).1 w c = reconInner p nodes T pts xs ys w c 0 ∧
      applyRM (rmInner nodes T pts xs ys).2 w c = reconInner p nodes T pts xs ys w c 1) ∧
    (applyRM (rmOuter nodes T pts xs ys).1 w c = reconOuter p nodes T pts xs ys w c 0 ∧
      applyRM (rmOuter nodes T pts xs ys).2 w c = reconOuter p nodes T pts xs ys w c 1) ∧
    applyRM (rm2 nodes pts xs ys) w c = recon2 nodes pts xs ys w c := by
  have hs0 : ∀ (M N : Arr ℝ), applyRM (hstack M N) w c = applyRM M w c + applyRM N (slice w M.cols) c := by
    intro M N
    simp only [applyRM, hstack, range_map_sum, slice]
    rw [sum_range_add]
    congr 1
    · refine sum_congr rfl fun r hr => ?_
      rw [if_pos (mem_range.1 hr)]
    · refine sum_congr rfl fun r hr => ?_
      rw [if_neg (by omega), Nat.add_sub_cancel_left]
  have hs : ∀ (A B : Arr ℝ) (f g : Nat → ℝ), applyRM (hstack (scaledT A f) (scaledT B g)) w c =
      einsum A w c * f c + einsum B (slice w A.rows) c * g c := by
    intro A B f g
    rw [hs0]
    simp only [applyRM, scaledT, einsum, range_map_sum]
    rw [sum_mul, sum_mul]
    congr 1 <;> exact sum_congr rfl fun r hr => by ring
  have h1 : (basisInner nodes T xs ys).1.rows = p ^ 2 := by
    simp [basisInner, withTransition, basisDx, kron, rowsFrom, nodeBasis, edgeBasis, h.len, sq]
  have h2 : (basisOuter nodes T xs ys).1.rows = p * (p + 1) := by
    simp [basisOuter, withTransition, basisDy, kron, nodeBasis, edgeBasis, h.len]
  refine ⟨rfl, ⟨?_, ?_⟩, ⟨?_, ?_⟩, ?_⟩
  · rw [rmInner]; dsimp only; rw [hs, h1]; rfl
  · rw [rmInner]; dsimp only; rw [hs, h1]; rfl
  · rw [rmOuter]; dsimp only; rw [hs, h2]; simp only [reconOuter, Matrix.cons_val_zero]; ring
  · rw [rmOuter]; dsimp only; rw [hs, h2]; simp only [reconOuter, Matrix.cons_val_one, Matrix.cons_val_fin_one]; ring
  · rfl

/-! ## 0-forms -/

/-- **C97, interpolation.**  A reconstructed 0-form has at the nodes the values of its dofs; at the singular vertex it has one value. -/
theorem c97_interpolates (h : TriNodes p nodes) (w : Nat → ℝ) :
    (∀ i ≤ p, ∀ j ≤ p, recon0 nodes [node nodes i] [node nodes j] w 0 = w (ln0 p i j)) ∧
    ∀ x, recon0 nodes [x] [-1] w 0 = w 0 := by
  have col : ∀ x, ∀ k ≤ p, recon0 nodes [x] [node nodes k] w 0 = ∑ i ∈ range (p + 1), lagrangeAt nodes i x * w (ln0 p i k) := by
    intro x k hk
    rw [recon0_sum h, sum_eq_single k]
    · rw [lagrange_node h hk hk, if_pos rfl]; simp
    · intro j hj hjk
      rw [lagrange_node h (by have := mem_range.1 hj; omega) hk, if_neg hjk]; simp
    · intro hk'; exact absurd (mem_range.2 (by omega)) hk'
  constructor
  · intro i hi j hj
    rw [col _ j hj, sum_eq_single i]
    · rw [lagrange_node h hi hi, if_pos rfl, one_mul]
    · intro i' hi' hii
      rw [lagrange_node h (by have := mem_range.1 hi'; omega) hi, if_neg hii, zero_mul]
    · intro hk'; exact absurd (mem_range.2 (by omega)) hk'
  · intro x
    have := col x 0 (by omega)
    rw [h.symmetric.first] at this
    rw [this]
    simp only [ln0_eq, if_true]
    rw [← sum_mul, lagrange_sum_one h, one_mul]

end

end Mifem.Props
