import Verif.Props.TriEnergyFails

/-!
# C99: triple products on triangular meshes
-/

namespace Mifem.Props

open Mifem.Tri Mifem.Basis Mifem.Disc Mifem.Quadrature Mifem.Vortex Finset MeasureTheory

section
variable {pW pU pE : Nat} {nW nU nE : List ℝ}

theorem tri_contract (A B C L : Nat) (W U E : Nat → Nat → ℝ) (c w u e : Nat → ℝ) :
    ∑ i ∈ range A, ∑ j ∈ range B, ∑ k ∈ range C, w i * u j * e k * ∑ l ∈ range L, W l i * U l j * E l k * c l =
      ∑ l ∈ range L, (∑ i ∈ range A, W l i * w i) * (∑ j ∈ range B, U l j * u j) * (∑ k ∈ range C, E l k * e k) * c l := by
  simp only [mul_sum (range L)]
  refine ((sum_congr rfl fun i _ => (sum_congr rfl fun j _ => sum_comm).trans sum_comm).trans sum_comm).trans (sum_congr rfl fun l _ => ?_)
  rw [sum_mul, sum_mul, sum_mul]
  refine sum_congr rfl fun i _ => ?_
  rw [mul_sum (range B), sum_mul, sum_mul]
  refine sum_congr rfl fun j _ => ?_
  rw [mul_sum (range C), sum_mul]
  exact sum_congr rfl fun k _ => by ring

theorem rmOne_cols (h : TriNodes pU nU) (o : Orient) (T : Nat → Int) (pts : Fin 3 → ℝ × ℝ) (xs : List ℝ) :
    (rmOne o nU T pts xs xs).1.cols = oneDofs pU o ∧ (rmOne o nU T pts xs xs).2.cols = oneDofs pU o := by
  cases o with
  | inner =>
    obtain ⟨s1, s2, -, -⟩ := sizes_inner h T xs xs
    simp [rmOne, rmInner, hstack, scaledT, s1, s2, oneDofs]
  | outer =>
    obtain ⟨s1, s2, -, -⟩ := sizes_outer h T xs xs
    simp [rmOne, rmOuter, hstack, scaledT, s1, s2, oneDofs]

theorem rmOne_apply (h : TriNodes pU nU) (o : Orient) (T : Nat → Int) (pts : Fin 3 → ℝ × ℝ) (xs : List ℝ) (u : Nat → ℝ) (l : Nat) :
    ∑ j ∈ range (oneDofs pU o), (rmOne o nU T pts xs xs).1.e l j * u j = reconOne o pU nU T pts xs xs u l 0 ∧
    ∑ j ∈ range (oneDofs pU o), (rmOne o nU T pts xs xs).2.e l j * u j = reconOne o pU nU T pts xs xs u l 1 := by
  obtain ⟨-, ⟨i0, i1⟩, ⟨o0, o1⟩, -⟩ := c97_matrices h T pts xs xs u l
  have c := rmOne_cols h o T pts xs
  simp only [applyRM, range_map_sum] at i0 i1 o0 o1
  cases o with
  | inner =>
    rw [show oneDofs pU .inner = (rmInner nU T pts xs xs).1.cols from c.1.symm]
    refine ⟨i0, ?_⟩
    rw [show (rmInner nU T pts xs xs).1.cols = (rmInner nU T pts xs xs).2.cols from c.1.trans c.2.symm]
    exact i1
  | outer =>
    rw [show oneDofs pU .outer = (rmOuter nU T pts xs xs).1.cols from c.1.symm]
    refine ⟨o0, ?_⟩
    rw [show (rmOuter nU T pts xs xs).1.cols = (rmOuter nU T pts xs xs).2.cols from c.1.trans c.2.symm]
    exact o1

theorem triple_grid (hW : TriNodes pW nW) (hU : TriNodes pU nU) (hE : TriNodes pE nE) (oU oE : Orient) (TU TE : Nat → Int)
    (pts : Fin 3 → ℝ × ℝ) (r : Rule ℝ) (w u e : Nat → ℝ) :
    ∑ i ∈ range (1 + pW * (pW + 1)), ∑ j ∈ range (oneDofs pU oU), ∑ k ∈ range (oneDofs pE oE),
      w i * u j * e k * triple nW nU nE oU oE TU TE pts r i j k =
    gridSum r fun x y => recon0 nW [x] [y] w 0 *
      (reconOne oU pU nU TU pts [x] [y] u 0 0 * reconOne oE pE nE TE pts [x] [y] e 0 1 -
        reconOne oU pU nU TU pts [x] [y] u 0 1 * reconOne oE pE nE TE pts [x] [y] e 0 0) * detAt pts x y := by
  have hr0 : (rm0 nW (rpts r) (rpts r)).rows = r.n * r.n := by
    show (basisS0 nW (rpts r) (rpts r)).cols = _
    rw [cols_zero, rpts_length]
  have hw : ∀ l, ∑ i ∈ range (1 + pW * (pW + 1)), (rm0 nW (rpts r) (rpts r)).e l i * w i = recon0 nW (rpts r) (rpts r) w l := by
    intro l
    rw [← (c97_matrices hW (fun _ => 1) pts (rpts r) (rpts r) w l).1, applyRM, range_map_sum]
    rw [show (rm0 nW (rpts r) (rpts r)).cols = 1 + pW * (pW + 1) from rows_zero hW _ _]
  obtain ⟨A, hA⟩ : ∃ A, A = 1 + pW * (pW + 1) := ⟨_, rfl⟩
  rw [← hA] at hw ⊢
  simp only [triple, range_map_sum, hr0, mul_add, mul_neg, sum_add_distrib, sum_neg_distrib, tri_contract, hw,
    (rmOne_apply hU oU TU pts (rpts r) u _).1, (rmOne_apply hU oU TU pts (rpts r) u _).2,
    (rmOne_apply hE oE TE pts (rpts r) e _).1, (rmOne_apply hE oE TE pts (rpts r) e _).2]
  rw [← sum_neg_distrib, ← sum_add_distrib, ← grid_sum]
  refine sum_congr rfl fun m _ => ?_
  rw [(c97_meshgrid pW nW (rpts r) (rpts r) (fun _ => 1) pts w m).1, reconOne_point oU TU, reconOne_point oE TE, two_jacobian]
  ring

theorem twoM1_bilinear (A B C : Nat) (M : Nat → Nat → Nat → ℝ) (w u e : Nat → ℝ) :
    bilinear C B (twoM1 A M w) e u = ∑ i ∈ range A, ∑ j ∈ range B, ∑ k ∈ range C, w i * u j * e k * M i j k := by
  simp only [bilinear, twoM1, range_map_sum, sum_mul, mul_sum]
  rw [sum_comm, sum_congr rfl fun j _ => sum_comm, sum_comm]
  exact sum_congr rfl fun i _ => sum_congr rfl fun j _ => sum_congr rfl fun k _ => by ring

theorem twoM0_bilinear (A B C : Nat) (M : Nat → Nat → Nat → ℝ) (w u e : Nat → ℝ) :
    bilinear C A (twoM0 B M u) e w = ∑ i ∈ range A, ∑ j ∈ range B, ∑ k ∈ range C, w i * u j * e k * M i j k := by
  simp only [bilinear, twoM0, range_map_sum, sum_mul, mul_sum]
  rw [sum_comm]
  refine sum_congr rfl fun i _ => ?_
  rw [sum_comm]
  exact sum_congr rfl fun j _ => sum_congr rfl fun k _ => by ring

/-- **C99, triple products.**  `cross_inner` of a 0-form `w` with two 1-forms `u`, `e` of any degrees and orientations: both matrices, contracted
with the local cochains, give the integral of `(w × u) · e` over the triangle. -/
theorem c99_triple (hW : TriNodes pW nW) (hU : TriNodes pU nU) (hE : TriNodes pE nE) (oU oE : Orient) (TU TE : Nat → Int)
    {pts : Fin 3 → ℝ × ℝ} (hpos : 0 < cross (pts 0) (pts 1) (pts 2)) {gauss : Nat → Rule ℝ} (hg : ∀ d, GaussRule (d + 1) (gauss d))
    (w u e : Nat → ℝ) (ω : (Fin 2 → ℝ) → ℝ) (υ ε : (Fin 2 → ℝ) → Fin 2 → ℝ)
    (hω : ∀ v ∈ openSquare, ω (mapping pts v) = recon0 nW [v 0] [v 1] w 0)
    (hυ : ∀ v ∈ openSquare, υ (mapping pts v) = reconOne oU pU nU TU pts [v 0] [v 1] u 0)
    (hε : ∀ v ∈ openSquare, ε (mapping pts v) = reconOne oE pE nE TE pts [v 0] [v 1] e 0) :
    let M := triple nW nU nE oU oE TU TE pts (tripleRule gauss pW pU pE)
    bilinear (oneDofs pE oE) (oneDofs pU oU) (twoM1 (1 + pW * (pW + 1)) M w) e u =
      ∫ x in insideTri pts, dotProduct ![-ω x * υ x 1, ω x * υ x 0] (ε x) ∧
    bilinear (oneDofs pE oE) (1 + pW * (pW + 1)) (twoM0 (oneDofs pU oU) M u) e w =
      ∫ x in insideTri pts, dotProduct ![-ω x * υ x 1, ω x * υ x 0] (ε x) := by
  intro M
  rw [twoM1_bilinear, twoM0_bilinear, and_self, triple_grid hW hU hE]
  choose F hF eF using fun k => poly_reconOne hU oU TU hpos u k
  choose G hG eG using fun k => poly_reconOne hE oE TE hpos e k
  have hw := poly_recon0 hW w
  have hP : Poly2 (pW + (pU + pE) + 1) fun x y => recon0 nW [x] [y] w 0 * (F 0 x y * G 1 x y + -1 * (F 1 x y * G 0 x y)) * detAt pts x y :=
    (hw.mul (.add ((hF 0).mul (hG 1)) (((hF 1).mul (hG 0)).smul (-1)))).mul (poly_det pts)
  rw [tripleRule, exact_degree hg hP (by omega) fun x y hy => by simp only [eF _ x y hy, eG _ x y hy]; ring]
  rw [triangle_integral hpos hP _ fun v hv => ?_]
  · exact squareInt_congr fun x y hy => by simp only [eF _ x y hy, eG _ x y hy]; ring
  · simp only [dotProduct, Fin.sum_univ_two, hω v hv, hυ v hv, hε v hv, eF _ _ _ (hv 1).1, eG _ _ _ (hv 1).1]
    simp
    left
    ring

/-- **C99, no work.**  If `u` and `e` are the same form, the matrix `2-M-1` is skew-symmetric (for any quadrature), so that
`(w × u) · u` gives exactly 0. -/
theorem c99_skew (nW nU : List ℝ) (o : Orient) (T : Nat → Int) (pts : Fin 3 → ℝ × ℝ) (r : Rule ℝ) (A n : Nat) (w u : Nat → ℝ) :
    let M := triple nW nU nU o o T T pts r
    (∀ k j, twoM1 A M w k j = -twoM1 A M w j k) ∧ bilinear n n (twoM1 A M w) u u = 0 := by
  intro M
  have sk : ∀ i j k, M i j k = -M i k j := by
    intro i j k
    simp only [M, triple, range_map_sum, neg_add, neg_neg]
    rw [add_comm, ← sum_neg_distrib, ← sum_neg_distrib]
    congr 1 <;> exact sum_congr rfl fun l _ => by ring
  have s1 : ∀ k j, twoM1 A M w k j = -twoM1 A M w j k := by
    intro k j
    simp only [twoM1, range_map_sum]
    rw [← sum_neg_distrib]
    exact sum_congr rfl fun i _ => by rw [sk i j k]; ring
  refine ⟨s1, ?_⟩
  have e : bilinear n n (twoM1 A M w) u u = -bilinear n n (twoM1 A M w) u u := by
    conv_rhs => simp only [bilinear, range_map_sum]; rw [sum_comm]
    simp only [bilinear, range_map_sum]
    rw [← sum_neg_distrib]
    refine sum_congr rfl fun i _ => ?_
    rw [← sum_neg_distrib]
    exact sum_congr rfl fun j _ => by rw [s1 i j]; ring
  linarith

/-! ## The cache -/

theorem oneKey_own {β : Type} (M : (Fin 3 → ℚ × ℚ) → List (Fin 3) → β) (hM : ∀ p v l, M (fun k => p k + v) l = M p l)
    (pts : Nat → Fin 3 → ℚ × ℚ) (ees : Nat → List (Fin 3)) (E : List Nat)
    (hsep : ∀ i ∈ E, ∀ j ∈ E, Separated (pts i) (pts j)) (is : List Nat) (his : ∀ i ∈ is, i ∈ E) :
    tripleReads pts E ees (fun e => M (pts e) (ees e)) is = some (is.map fun e => M (pts e) (ees e)) := by
  have e : ∀ i, (if ees i = [] then shapeKey (pts i) else shapeKey (pts i) ++ '-' :: (ees i).map edgeStr) =
      shapeKey (pts i) ++ edgeTail (ees i) := by
    intro i
    unfold edgeTail
    split_ifs <;> simp
  unfold tripleReads oneKey elementKey
  split_ifs with hs
  · refine ctReads_own _ _ E (fun i hi j hj he => ?_) is [] his (by simp)
    beta_reduce at he
    rw [e, e] at he
    obtain ⟨h1, h2⟩ := c98_one_key he
    rcases hsep i hi j hj with ⟨v, hv⟩ | ⟨k, hk⟩
    · rw [h2, hv, hM]
    · exact absurd (h1 k) (not_le.2 hk)
  · have : ∀ (is : List Nat) (c : List (EWC.Key × β)), ctReads (γ := Unit) none (fun e => M (pts e) (ees e)) none is c =
        some (is.map fun e => M (pts e) (ees e)) := by
      intro is
      induction is with
      | nil => intros; rfl
      | cons i is ih => intro c; simp [ctReads, ctGet, ih]
    exact this _ _

/-- The dofs at the edges of an element. -/
def oneEdgeDofs (p : Nat) : Orient → Fin 3 → List Nat
  | .inner => edgeDofsInner p
  | .outer => edgeDofsOuter p

theorem inverseAt_translate (pts : Fin 3 → ℝ × ℝ) (v : ℝ × ℝ) (xs ys : List ℝ) (m : Nat) :
    inverseAt (fun k => pts k + v) xs ys m = inverseAt pts xs ys m := by
  have := gridJ_translate pts v xs ys m
  simp only [gridJ] at this
  simp only [inverseAt, this]

theorem castPts_translate (p : Fin 3 → ℚ × ℚ) (v : ℚ × ℚ) : castPts (fun k => p k + v) = fun k => castPts p k + ((v.1 : ℝ), (v.2 : ℝ)) := by
  funext k
  simp [castPts]

theorem triple_translate (oU oE : Orient) (TU TE : Nat → Int) (pts : Fin 3 → ℝ × ℝ) (v : ℝ × ℝ) (r : Rule ℝ) :
    triple nW nU nE oU oE TU TE (fun k => pts k + v) r = triple nW nU nE oU oE TU TE pts r := by
  funext i j k
  cases oU <;> cases oE <;>
    simp only [triple, rmOne, rmInner, rmOuter, inverseAt_translate, gridJ_translate]

/-- **C99, cache of triple products.**  If `u` and `e` have the same orientation (and so change sign at the same edges), and the elements are separated as in
C98, then the tensor that is used for an element is its own one, for every sequence of reads.  (Missing: `u` and `e` of different orientations,
see `c99_triple_cache_fails`.) -/
theorem c99_triple_cache_partial (gauss : Nat → Rule ℝ) (o : Orient) (pts : Nat → Fin 3 → ℚ × ℚ) (ees : Nat → List (Fin 3)) (E : List Nat)
    (hsep : ∀ i ∈ E, ∀ j ∈ E, Separated (pts i) (pts j)) (is : List Nat) (his : ∀ i ∈ is, i ∈ E) :
    let M := fun e => triple nW nU nE o o (transition (oneEdgeDofs pU o) (ees e)) (transition (oneEdgeDofs pE o) (ees e)) (castPts (pts e))
      (tripleRule gauss pW pU pE)
    tripleReads pts E ees M is = some (is.map M) :=
  oneKey_own (fun p l => triple nW nU nE o o (transition (oneEdgeDofs pU o) l) (transition (oneEdgeDofs pE o) l) (castPts p)
    (tripleRule gauss pW pU pE)) (fun p v l => by rw [castPts_translate, triple_translate]) pts ees E hsep is his

/-! ## Forms of different orientations -/

/-- Two squares, each cut along its diagonal. -/
def stripCells : Nat → Cell := fun i =>
  if i = 0 then ![0, 1, 4] else if i = 1 then ![3, 0, 4] else if i = 2 then ![1, 2, 5] else ![4, 1, 5]

/-- The six vertices. -/
def stripPoint : Nat → ℚ × ℚ := fun i =>
  if i = 0 then (0, 0) else if i = 1 then (1, 0) else if i = 2 then (2, 0) else if i = 3 then (0, 1) else if i = 4 then (1, 1) else (2, 1)

/-- The vertices of the elements. -/
def stripPts (e : Nat) : Fin 3 → ℚ × ℚ := fun k => stripPoint (stripCells e k)

/-- The product of the constant 0-form with the fields of two dofs at edge 0. -/
theorem edge_product {gauss : Nat → Rule ℝ} (TU TE : Nat → Int) (hU : TU 2 = 1) (pts : Fin 3 → ℝ × ℝ) :
    twoM1 3 (triple [-1, 1] [-1, 1] [-1, 1] .inner .outer TU TE pts (tripleRule gauss 1 1 1)) (fun _ => 1) 1 2 =
      -(TE 1 : ℝ) * massOneInner gauss 1 [-1, 1] TU pts 2 2 := by
  have s : ∀ (M : Nat → Nat → ℝ) (a b : Nat), a < 3 → b < 3 → M a b = bilinear 3 3 M (Pi.single a 1) (Pi.single b 1) := by
    intro M a b ha hb
    simp [bilinear, range_map_sum, Pi.single_apply, ha, hb]
  have s' : ∑ i ∈ range (1 ^ 2 + 1 * (1 + 1)), ∑ j ∈ range (1 ^ 2 + 1 * (1 + 1)),
      (Pi.single 2 1 : Nat → ℝ) i * massOneInner gauss 1 [-1, 1] TU pts i j * (Pi.single 2 1 : Nat → ℝ) j = massOneInner gauss 1 [-1, 1] TU pts 2 2 := by
    simp [Pi.single_apply]
  refine (s _ 1 2 (by omega) (by omega)).trans ?_
  rw [twoM1_bilinear, ← s', form_inner triNodes1]
  have t := triple_grid triNodes1 triNodes1 triNodes1 .inner .outer TU TE pts (tripleRule gauss 1 1 1) (fun _ => 1) (Pi.single 2 1) (Pi.single 1 1)
  refine Eq.trans t ?_
  rw [show tripleRule gauss 1 1 1 = gauss (1 + 1) from rfl, gridSum, gridSum, mul_sum]
  refine sum_congr rfl fun j _ => ?_
  rw [mul_sum]
  refine sum_congr rfl fun i _ => ?_
  have e0 : ∀ x y : ℝ, recon0 ([-1, 1] : List ℝ) [x] [y] (fun _ => 1) 0 = 1 := by
    intro x y
    simp [recon0, einsum, basisS0, vstack, sumRows, kron, row0, rowsFrom, nodeBasis, List.range_succ, lagrangeAt, node]
    ring
  have e1 : ∀ x y : ℝ, reconInner 1 ([-1, 1] : List ℝ) TU pts [x] [y] (Pi.single 2 1) 0 =
      ![(x + 1) / 4 * inverseAt pts [x] [y] 0 1 0, (x + 1) / 4 * inverseAt pts [x] [y] 0 1 1] := by
    intro x y
    simp [reconInner, basisInner, withTransition, basisDx, basisDy, einsum, kron, vstack, rowsFrom, nodeBasis, edgeBasis, slice,
      List.range_succ, Pi.single_apply, edge_half, lagrange_one, hU]
    constructor <;> ring_nf <;> simp
  have e2 : ∀ x y : ℝ, reconOuter 1 ([-1, 1] : List ℝ) TE pts [x] [y] (Pi.single 1 1) 0 =
      ![TE 1 * ((x + 1) / 4) * inverseAt pts [x] [y] 0 1 1, -(TE 1 * ((x + 1) / 4) * inverseAt pts [x] [y] 0 1 0)] := by
    intro x y
    simp [reconOuter, basisOuter, withTransition, basisDx, basisDy, einsum, kron, vstack, rowsFrom, nodeBasis, edgeBasis, slice,
      List.range_succ, Pi.single_apply, edge_half, lagrange_one]
    constructor <;> ring_nf <;> simp
  simp only [reconOne, e0, e1, e2, Fin.sum_univ_two, Matrix.cons_val_zero, Matrix.cons_val_one, Matrix.cons_val_fin_one]
  ring

/-- **C99, cache of triple products, disagreement.**  The tensors are kept under the keys of `u`; with `u` inner and `e` outer the fourth element of a mesh of two
cut squares gets the tensor of the second one if that was used before, although an entry of its own matrix `2-M-1` (for the constant 0-form 1)
has the other sign and is not 0. -/
theorem c99_triple_cache_fails {gauss : Nat → Rule ℝ} (hg : ∀ d, GaussRule (d + 1) (gauss d)) :
    ∃ em, elementMap stripCells 4 = some em ∧
      let M := fun e => triple [-1, 1] [-1, 1] [-1, 1] .inner .outer (transition (edgeDofsInner 1) (eesInner em e))
        (transition (edgeDofsOuter 1) (eesOuter em e)) (castPts (stripPts e)) (tripleRule gauss 1 1 1)
      tripleReads stripPts [0, 1, 2, 3] (eesInner em) M [1, 3] = some [M 1, M 1] ∧
      twoM1 3 (M 3) (fun _ => 1) 1 2 = -twoM1 3 (M 1) (fun _ => 1) 1 2 ∧ twoM1 3 (M 1) (fun _ => 1) 1 2 < 0 := by
  have hem : (elementMap stripCells 4).map (fun em => (eesInner em 1, eesInner em 3, eesOuter em 1, eesOuter em 3)) =
      some ([2], [2], [], [0]) := by decide +kernel
  obtain ⟨em, h1, h2⟩ := Option.map_eq_some_iff.1 hem
  obtain ⟨i1, i3, o1, o3⟩ : eesInner em 1 = [2] ∧ eesInner em 3 = [2] ∧ eesOuter em 1 = [] ∧ eesOuter em 3 = [0] := by simpa using h2
  have hU : transition (edgeDofsInner 1) [2] 2 = 1 := by decide
  have hE1 : transition (edgeDofsOuter 1) [] 1 = 1 := by decide
  have hE3 : transition (edgeDofsOuter 1) [0] 1 = -1 := by decide
  have hp : castPts (stripPts 3) = fun k => castPts (stripPts 1) k + ((1 : ℝ), (0 : ℝ)) := by
    have : stripPts 3 = fun k => stripPts 1 k + (1, 0) := by decide +kernel
    rw [this, castPts_translate]
    simp
  refine ⟨em, h1, ?_⟩
  intro M
  have m1 : twoM1 3 (M 1) (fun _ => 1) 1 2 = -massOneInner gauss 1 [-1, 1] (transition (edgeDofsInner 1) [2]) (castPts (stripPts 1)) 2 2 := by
    simp only [M, i1, o1]
    rw [edge_product _ _ hU, hE1]
    simp
  have m3 : twoM1 3 (M 3) (fun _ => 1) 1 2 = massOneInner gauss 1 [-1, 1] (transition (edgeDofsInner 1) [2]) (castPts (stripPts 1)) 2 2 := by
    simp only [M, i3, o3]
    rw [edge_product _ _ hU, hE3, hp, (c98_translation gauss 1 [-1, 1] _ _ _).2.1]
    simp
  have pos : 0 < massOneInner gauss 1 [-1, 1] (transition (edgeDofsInner 1) [2]) (castPts (stripPts 1)) 2 2 := by
    have := (c98_positive triNodes1 (T := transition (edgeDofsInner 1) [2]) (fun r => by rw [transition_apply]; split_ifs <;> simp)
      (pts := castPts (stripPts 1)) (by simp [cross, castPts, stripPts, stripPoint, stripCells]) hg).2.1 (Pi.single 2 1) ⟨2, by omega, by simp⟩
    simpa [Pi.single_apply] using this
  refine ⟨?_, ?_, ?_⟩
  · have hs : 1 / 2 ≤ similarity stripPts [0, 1, 2, 3] := by decide +kernel
    have hk : shapeKey (stripPts 1) = shapeKey (stripPts 3) := by decide +kernel
    simp only [tripleReads, oneKey, elementKey, if_pos hs, Option.map_some, ctReads, ctGet, i1, i3, hk]
    simp
  · rw [m1, m3, neg_neg]
  · rw [m1]; linarith

end

end Mifem.Props
