import Verif.Model.CrossProduct
import Verif.Props.Metric
import Mathlib.Analysis.Real.Sqrt

/-!
# C71: cross-product matrices
-/

namespace Mifem.Props
open Mifem.Basis Mifem.Metric Mifem.Cross Finset

section form
variable {K : Type*} [Field K]

theorem tri_form (n nw nu ne : Nat) (W U E : Arr K) (hW : W.cols = nw) (hU : U.cols = nu) (hE : E.cols = ne)
    (q w u e : Nat → K) :
    ∑ i ∈ range nw, ∑ j ∈ range nu, ∑ k ∈ range ne, tri n W U E q i j k * w i * u j * e k
      = ∑ l ∈ range n, q l * (mulVec W w l * mulVec U u l * mulVec E e l) := by
  subst hW hU hE
  simp only [tri, mulVec, range_map_sum, Finset.sum_mul]
  calc _ = ∑ i ∈ range W.cols, ∑ j ∈ range U.cols, ∑ l ∈ range n, ∑ k ∈ range E.cols,
        W.e l i * U.e l j * E.e l k * q l * w i * u j * e k :=
        Finset.sum_congr rfl fun i _ => Finset.sum_congr rfl fun j _ => Finset.sum_comm
    _ = ∑ i ∈ range W.cols, ∑ l ∈ range n, ∑ j ∈ range U.cols, ∑ k ∈ range E.cols,
        W.e l i * U.e l j * E.e l k * q l * w i * u j * e k :=
        Finset.sum_congr rfl fun i _ => Finset.sum_comm
    _ = ∑ l ∈ range n, ∑ i ∈ range W.cols, ∑ j ∈ range U.cols, ∑ k ∈ range E.cols,
        W.e l i * U.e l j * E.e l k * q l * w i * u j * e k := Finset.sum_comm
    _ = _ := by
      refine Finset.sum_congr rfl fun l _ => ?_
      rw [Finset.mul_sum]
      refine Finset.sum_congr rfl fun i _ => ?_
      rw [Finset.mul_sum (range U.cols), Finset.sum_mul (range U.cols), Finset.mul_sum (range U.cols)]
      refine Finset.sum_congr rfl fun j _ => ?_
      rw [Finset.mul_sum, Finset.mul_sum]
      refine Finset.sum_congr rfl fun k _ => ?_
      ring

theorem tensor3_form (n nw nu ne : Nat) (W U E : Fin 3 → Arr K) (hW : ∀ x, (W x).cols = nw)
    (hU : ∀ x, (U x).cols = nu) (hE : ∀ x, (E x).cols = ne) (q w u e : Nat → K) :
    ∑ i ∈ range nw, ∑ j ∈ range nu, ∑ k ∈ range ne, tensor3 n W U E q i j k * w i * u j * e k
      = ∑ l ∈ range n, q l * dotProduct (crossProduct (fun x => mulVec (W x) w l) (fun x => mulVec (U x) u l))
          (fun x => mulVec (E x) e l) := by
  have h := fun a b c => tri_form n nw nu ne (W a) (U b) (E c) (hW a) (hU b) (hE c) q w u e
  have e1 : ∀ i j k, tensor3 n W U E q i j k * w i * u j * e k =
      (tri n (W 1) (U 2) (E 0) q i j k * w i * u j * e k - tri n (W 2) (U 1) (E 0) q i j k * w i * u j * e k)
      + (tri n (W 2) (U 0) (E 1) q i j k * w i * u j * e k - tri n (W 0) (U 2) (E 1) q i j k * w i * u j * e k)
      + (tri n (W 0) (U 1) (E 2) q i j k * w i * u j * e k - tri n (W 1) (U 0) (E 2) q i j k * w i * u j * e k) := by
    intro i j k; simp only [tensor3]; ring
  simp only [e1, Finset.sum_add_distrib, Finset.sum_sub_distrib, h]
  rw [← Finset.sum_sub_distrib, ← Finset.sum_sub_distrib, ← Finset.sum_sub_distrib, ← Finset.sum_add_distrib,
    ← Finset.sum_add_distrib]
  refine Finset.sum_congr rfl fun l _ => ?_
  simp only [dotProduct, Fin.sum_univ_three, cross_apply, Matrix.cons_val_zero, Matrix.cons_val_one, Matrix.cons_val]
  ring

theorem tensor2_form (n nw nu ne : Nat) (W : Arr K) (U E : Fin 2 → Arr K) (hW : W.cols = nw)
    (hU : ∀ x, (U x).cols = nu) (hE : ∀ x, (E x).cols = ne) (q w u e : Nat → K) :
    ∑ i ∈ range nw, ∑ j ∈ range nu, ∑ k ∈ range ne, tensor2 n W U E q i j k * w i * u j * e k
      = ∑ l ∈ range n, q l * dotProduct ![-(mulVec W w l * mulVec (U 1) u l), mulVec W w l * mulVec (U 0) u l]
          (fun x => mulVec (E x) e l) := by
  have h := fun b c => tri_form n nw nu ne W (U b) (E c) hW (hU b) (hE c) q w u e
  have e1 : ∀ i j k, tensor2 n W U E q i j k * w i * u j * e k =
      tri n W (U 0) (E 1) q i j k * w i * u j * e k - tri n W (U 1) (E 0) q i j k * w i * u j * e k := by
    intro i j k; simp only [tensor2]; ring
  simp only [e1, Finset.sum_sub_distrib, h]
  rw [← Finset.sum_sub_distrib]
  refine Finset.sum_congr rfl fun l _ => ?_
  simp [dotProduct, Fin.sum_univ_two]
  ring

/-- The matrix of a tensor contracted over its first axis. -/
theorem m21_form (nw nu ne : Nat) (T : Nat → Nat → Nat → K) (w u e : Nat → K) :
    ∑ k ∈ range ne, ∑ j ∈ range nu, e k * m21 nw T w k j * u j
      = ∑ i ∈ range nw, ∑ j ∈ range nu, ∑ k ∈ range ne, T i j k * w i * u j * e k := by
  simp only [m21, range_map_sum, Finset.mul_sum, Finset.sum_mul]
  calc _ = ∑ k ∈ range ne, ∑ i ∈ range nw, ∑ j ∈ range nu, e k * (T i j k * w i) * u j :=
        Finset.sum_congr rfl fun k _ => Finset.sum_comm
    _ = ∑ i ∈ range nw, ∑ k ∈ range ne, ∑ j ∈ range nu, e k * (T i j k * w i) * u j := Finset.sum_comm
    _ = ∑ i ∈ range nw, ∑ j ∈ range nu, ∑ k ∈ range ne, e k * (T i j k * w i) * u j :=
        Finset.sum_congr rfl fun i _ => Finset.sum_comm
    _ = _ := Finset.sum_congr rfl fun i _ => Finset.sum_congr rfl fun j _ => Finset.sum_congr rfl fun k _ => by ring

theorem m20_form (nw nu ne : Nat) (T : Nat → Nat → Nat → K) (w u e : Nat → K) :
    ∑ k ∈ range ne, ∑ i ∈ range nw, e k * m20 nu T u k i * w i
      = ∑ i ∈ range nw, ∑ j ∈ range nu, ∑ k ∈ range ne, T i j k * w i * u j * e k := by
  simp only [m20, range_map_sum, Finset.mul_sum, Finset.sum_mul]
  calc _ = ∑ i ∈ range nw, ∑ k ∈ range ne, ∑ j ∈ range nu, e k * (T i j k * u j) * w i := Finset.sum_comm
    _ = ∑ i ∈ range nw, ∑ j ∈ range nu, ∑ k ∈ range ne, e k * (T i j k * u j) * w i :=
        Finset.sum_congr rfl fun i _ => Finset.sum_comm
    _ = _ := Finset.sum_congr rfl fun i _ => Finset.sum_congr rfl fun j _ => Finset.sum_congr rfl fun k _ => by ring

/-! ### the fields -/

/-- The space of a form has nodes in each direction. -/
def Nodes3.Ok (N : Nodes3 K) : Prop := N.x ≠ [] ∧ N.y ≠ [] ∧ N.z ≠ []

/-- The values of a 1-form or 2-form with cochain `w` at the points of the grid, as given by `reconstruct`. -/
def field3 (orth : Bool) (J : K × K × K → M3 K) (k : Deg) (N : Nodes3 K) (xs ys zs : List K) (w : Nat → K) (m : Nat) :
    Fin 3 → K :=
  let Jm := fun m => J (Basis.Three.meshgrid xs ys zs m)
  match k with
  | .one => Three.reconstruct1 orth Jm N.x N.y N.z xs ys zs w m
  | .two => Three.reconstruct2 orth Jm N.x N.y N.z xs ys zs w m

theorem rm3_cols (orth : Bool) (J : K × K × K → M3 K) (k : Deg) (N : Nodes3 K) (hN : Nodes3.Ok N) (xs ys zs : List K)
    (x : Fin 3) : (rm3 orth J k N xs ys zs x).cols = numBasis k N := by
  obtain ⟨hx, hy, hz⟩ := hN
  cases k with
  | one =>
    obtain ⟨h0, h1, h2⟩ := rows3_1 hx hy hz xs ys zs
    have : ∀ (c : Prop) [Decidable c] (b : Arr K) (f g : Nat → K), (if c then scaleT b f else scaleT b g).cols = b.rows := by
      intro c _ b f g; split <;> rfl
    simp only [rm3, Three.reconMatrix1, Three.hstack3, this, numBasis, Mifem.Three.nb1, h0, h1, h2]
  | two =>
    obtain ⟨h0, h1, h2⟩ := rows3_2 hx hy hz xs ys zs
    have : ∀ (c : Prop) [Decidable c] (b : Arr K) (f g : Nat → K), (if c then scaleT b f else scaleT b g).cols = b.rows := by
      intro c _ b f g; split <;> rfl
    simp only [rm3, Three.reconMatrix2, Three.hstack3, this, numBasis, Mifem.Three.nb2, h0, h1, h2]

theorem rm3_mulVec (orth : Bool) (A : K × K × K → M3 K) (delta : Fin 3 → K) (k : Deg) (N : Nodes3 K) (hN : Nodes3.Ok N)
    (xs ys zs : List K) (w : Nat → K) (m : Nat) :
    (fun x => mulVec (rm3 orth (fun p => Three.jacobianMatrix orth (A p) delta) k N xs ys zs x) w m)
      = field3 orth (fun p => Three.jacobianMatrix orth (A p) delta) k N xs ys zs w m := by
  obtain ⟨hx, hy, hz⟩ := hN
  funext x
  have h := c54_matrix_3d orth (fun m => A (Basis.Three.meshgrid xs ys zs m)) delta N.x N.y N.z xs ys zs hx hy hz w m x
  cases k with
  | one => exact h.1
  | two => exact h.2

/-- All six 3D helpers: with the determinant evaluated at the points `pts`. -/
theorem cp3_form (pts : List K → List K → List K → Nat → K × K × K) (kw ku ke : Deg) (orth : Bool)
    (A : K × K × K → M3 K) (delta : Fin 3 → K) (Nw Nu Ne : Nodes3 K) (hw : Nodes3.Ok Nw) (hu : Nodes3.Ok Nu)
    (he : Nodes3.Ok Ne) (xs ys zs : List K) (q w u e : Nat → K) :
    let J := fun p => Three.jacobianMatrix orth (A p) delta
    ∑ i ∈ range (numBasis kw Nw), ∑ j ∈ range (numBasis ku Nu), ∑ k ∈ range (numBasis ke Ne),
        cp3 pts kw ku ke orth J Nw Nu Ne xs ys zs q i j k * w i * u j * e k
      = ∑ m ∈ range (zs.length * ys.length * xs.length), q m * Matrix.det (Matrix.of (J (pts xs ys zs m))) *
          dotProduct (crossProduct (field3 orth J kw Nw xs ys zs w m) (field3 orth J ku Nu xs ys zs u m))
            (field3 orth J ke Ne xs ys zs e m) := by
  intro J
  unfold cp3
  rw [tensor3_form _ _ _ _ _ _ _ (rm3_cols orth J kw Nw hw xs ys zs) (rm3_cols orth J ku Nu hu xs ys zs)
    (rm3_cols orth J ke Ne he xs ys zs)]
  simp only [J, rm3_mulVec orth A delta _ _ hw, rm3_mulVec orth A delta _ _ hu, rm3_mulVec orth A delta _ _ he, three_det]

/-! ### C71 in 3D -/

/-- The tensor `T` represents `(w × u, e)`: the '2-M-1' matrix `M` of `T` and the cochain of `w` satisfies
`eᵀ M u = ∫ (w × u) · e`, the integral computed with the quadrature rule. -/
def Represents3 (orth : Bool) (J : K × K × K → M3 K) (kw ku ke : Deg) (Nw Nu Ne : Nodes3 K) (xs ys zs : List K)
    (q : Nat → K) (T : Nat → Nat → Nat → K) : Prop :=
  ∀ w u e : Nat → K,
    ∑ k ∈ range (numBasis ke Ne), ∑ j ∈ range (numBasis ku Nu), e k * m21 (numBasis kw Nw) T w k j * u j
      = quad3 (zs.length * ys.length * xs.length) q (fun m => J (Basis.Three.meshgrid xs ys zs m)) fun m =>
          dotProduct (crossProduct (field3 orth J kw Nw xs ys zs w m) (field3 orth J ku Nu xs ys zs u m))
            (field3 orth J ke Ne xs ys zs e m)

theorem cp3_represents (pts : List K → List K → List K → Nat → K × K × K) (kw ku ke : Deg) (orth : Bool)
    (A : K × K × K → M3 K) (delta : Fin 3 → K) (Nw Nu Ne : Nodes3 K) (hw : Nodes3.Ok Nw) (hu : Nodes3.Ok Nu)
    (he : Nodes3.Ok Ne) (xs ys zs : List K) (q : Nat → K)
    (hp : ∀ m < zs.length * ys.length * xs.length,
      Matrix.det (Matrix.of (Three.jacobianMatrix orth (A (pts xs ys zs m)) delta))
        = Matrix.det (Matrix.of (Three.jacobianMatrix orth (A (Basis.Three.meshgrid xs ys zs m)) delta))) :
    let J := fun p => Three.jacobianMatrix orth (A p) delta
    Represents3 orth J kw ku ke Nw Nu Ne xs ys zs q (cp3 pts kw ku ke orth J Nw Nu Ne xs ys zs q) := by
  intro J w u e
  rw [m21_form, cp3_form pts kw ku ke orth A delta Nw Nu Ne hw hu he, quad3]
  refine Finset.sum_congr rfl fun m hm => ?_
  rw [hp m (mem_range.1 hm)]

/-- C71, partial: the matrices of the five 3D cross products represent `(w × u, e)` when the volume factor of the
element does not depend on the order in which the quadrature points are listed, for instance in elements with a
constant Jacobian matrix.  The full claim, without `hp`, is false (`c71_3d_fails`). -/
theorem c71_3d_partial (orth : Bool) (A : K × K × K → M3 K) (delta : Fin 3 → K) (Nw Nu Ne : Nodes3 K)
    (hw : Nodes3.Ok Nw) (hu : Nodes3.Ok Nu) (he : Nodes3.Ok Ne) (xs ys zs : List K) (q : Nat → K)
    (hp : ∀ m < zs.length * ys.length * xs.length,
      Matrix.det (Matrix.of (Three.jacobianMatrix orth (A (ravelC xs ys zs m)) delta))
        = Matrix.det (Matrix.of (Three.jacobianMatrix orth (A (Basis.Three.meshgrid xs ys zs m)) delta))) :
    let J := fun p => Three.jacobianMatrix orth (A p) delta
    Represents3 orth J .one .one .one Nw Nu Ne xs ys zs q (cross_1_1_1 orth J Nw Nu Ne xs ys zs q) ∧
    Represents3 orth J .one .two .two Nw Nu Ne xs ys zs q (cross_1_2_2 orth J Nw Nu Ne xs ys zs q) ∧
    Represents3 orth J .two .two .two Nw Nu Ne xs ys zs q (cross_2_2_2 orth J Nw Nu Ne xs ys zs q) ∧
    Represents3 orth J .two .two .one Nw Nu Ne xs ys zs q (cross_2_2_1 orth J Nw Nu Ne xs ys zs q) ∧
    Represents3 orth J .two .one .two Nw Nu Ne xs ys zs q (cross_2_1_2 orth J Nw Nu Ne xs ys zs q) := by
  refine ⟨?_, ?_, ?_, ?_, ?_⟩ <;> exact cp3_represents ravelC _ _ _ orth A delta Nw Nu Ne hw hu he xs ys zs q hp

/-- C71: `curl_self_cross_product_self__ip_2f` gives the vector of `(w × u, e)` where `w` is the 2-form with cochain
`E u`, in every element. -/
theorem c71_curl1 (orth : Bool) (A : K × K × K → M3 K) (delta : Fin 3 → K) (Nu Ne : Nodes3 K) (hu : Nodes3.Ok Nu)
    (he : Nodes3.Ok Ne) (xs ys zs : List K) (q : Nat → K) (E : Nat → Nat → K) (u e : Nat → K) :
    let J := fun p => Three.jacobianMatrix orth (A p) delta
    ∑ k ∈ range (numBasis .two Ne), e k * curl1Vector (numBasis .two Nu) (numBasis .one Nu)
        (cross_curl1 orth J Nu Nu Ne xs ys zs q) E u k
      = quad3 (zs.length * ys.length * xs.length) q (fun m => J (Basis.Three.meshgrid xs ys zs m)) fun m =>
          dotProduct (crossProduct
            (field3 orth J .two Nu xs ys zs (fun i => ∑ c ∈ range (numBasis .one Nu), E i c * u c) m)
            (field3 orth J .one Nu xs ys zs u m)) (field3 orth J .two Ne xs ys zs e m) := by
  intro J
  rw [← cp3_represents ravelF .two .one .two orth A delta Nu Nu Ne hu hu he xs ys zs q (fun m _ => rfl)
    (fun i => ∑ c ∈ range (numBasis .one Nu), E i c * u c) u e, m21_form]
  simp only [curl1Vector, range_map_sum, Finset.mul_sum (range (numBasis .two Nu)), cross_curl1]
  refine Eq.trans Finset.sum_comm (Finset.sum_congr rfl fun i _ => ?_)
  simp only [Finset.mul_sum (range (numBasis .one Nu))]
  refine Eq.trans Finset.sum_comm (Finset.sum_congr rfl fun j _ => Finset.sum_congr rfl fun k _ => ?_)
  simp only [Finset.sum_mul, Finset.mul_sum]
  refine Finset.sum_congr rfl fun c _ => ?_
  simp only [J]
  ring

/-- C71: when `u` and `e` are in the same space, the matrix of `(w × ·, ·)` is skew-symmetric for every cochain of
`w`, so that `uᵀ M u = 0`; this holds in every element. -/
theorem cp3_skew (pts : List K → List K → List K → Nat → K × K × K) (kw k : Deg) (orth : Bool) (J : K × K × K → M3 K)
    (Nw N : Nodes3 K) (xs ys zs : List K) (q w : Nat → K) (nw : Nat) (a b : Nat) :
    m21 nw (cp3 pts kw k k orth J Nw N N xs ys zs q) w a b
      = -m21 nw (cp3 pts kw k k orth J Nw N N xs ys zs q) w b a := by
  have h : ∀ i, cp3 pts kw k k orth J Nw N N xs ys zs q i b a = -cp3 pts kw k k orth J Nw N N xs ys zs q i a b := by
    intro i
    have t : ∀ (x : Fin 3) (y z : Fin 3) (q : Nat → K) n,
        tri n (rm3 orth J kw Nw xs ys zs x) (rm3 orth J k N xs ys zs y) (rm3 orth J k N xs ys zs z) q i b a
          = tri n (rm3 orth J kw Nw xs ys zs x) (rm3 orth J k N xs ys zs z) (rm3 orth J k N xs ys zs y) q i a b := by
      intro x y z q n
      simp only [tri]
      congr 1
      refine List.map_congr_left fun l _ => ?_
      ring
    simp only [cp3, tensor3, t _ 2 0, t _ 1 0, t _ 0 1, t _ 2 1, t _ 0 2, t _ 1 2]
    ring
  simp only [m21, range_map_sum, h, neg_mul, Finset.sum_neg_distrib]

theorem form_zero_of_skew (n : Nat) (M : Nat → Nat → K) (u : Nat → K) (h2 : (2 : K) ≠ 0)
    (h : ∀ a b, M a b = -M b a) : ∑ k ∈ range n, ∑ j ∈ range n, u k * M k j * u j = 0 := by
  have e : ∑ k ∈ range n, ∑ j ∈ range n, u k * M k j * u j = -∑ k ∈ range n, ∑ j ∈ range n, u k * M k j * u j := by
    conv_lhs => rw [Finset.sum_comm]
    rw [← Finset.sum_neg_distrib]
    refine Finset.sum_congr rfl fun k _ => ?_
    rw [← Finset.sum_neg_distrib]
    refine Finset.sum_congr rfl fun j _ => ?_
    rw [h j k]; ring
  have : (2 : K) * ∑ k ∈ range n, ∑ j ∈ range n, u k * M k j * u j = 0 := by
    rw [two_mul]; nth_rewrite 1 [e]; ring
  exact (mul_eq_zero.1 this).resolve_left h2

theorem c71_skew_3d (orth : Bool) (J : K × K × K → M3 K) (h2 : (2 : K) ≠ 0) (Nw N : Nodes3 K) (xs ys zs : List K)
    (q w : Nat → K) (a b : Nat) (u : Nat → K) :
    let M1 := m21 (numBasis .one Nw) (cross_1_1_1 orth J Nw N N xs ys zs q) w
    let M2 := m21 (numBasis .one Nw) (cross_1_2_2 orth J Nw N N xs ys zs q) w
    let M3 := m21 (numBasis .two Nw) (cross_2_2_2 orth J Nw N N xs ys zs q) w
    (M1 a b = -M1 b a ∧ M2 a b = -M2 b a ∧ M3 a b = -M3 b a) ∧
    ∑ k ∈ range (numBasis .one N), ∑ j ∈ range (numBasis .one N), u k * M1 k j * u j = 0 ∧
    ∑ k ∈ range (numBasis .two N), ∑ j ∈ range (numBasis .two N), u k * M2 k j * u j = 0 ∧
    ∑ k ∈ range (numBasis .two N), ∑ j ∈ range (numBasis .two N), u k * M3 k j * u j = 0 := by
  intro M1 M2 M3
  have s1 : ∀ a b, M1 a b = -M1 b a := fun a b => cp3_skew ravelC .one .one orth J Nw N xs ys zs q w _ a b
  have s2 : ∀ a b, M2 a b = -M2 b a := fun a b => cp3_skew ravelC .one .two orth J Nw N xs ys zs q w _ a b
  have s3 : ∀ a b, M3 a b = -M3 b a := fun a b => cp3_skew ravelC .two .two orth J Nw N xs ys zs q w _ a b
  exact ⟨⟨s1 a b, s2 a b, s3 a b⟩, form_zero_of_skew _ _ _ h2 s1, form_zero_of_skew _ _ _ h2 s2,
    form_zero_of_skew _ _ _ h2 s3⟩

/-- C71: the '2-M-0' matrix (columns `w`) and the '2-M-1' matrix (columns `u`) of one cross product give the same
vector: `M0(u) w = M1(w) u`.  Not so for (1-form × 1-form, 1-form), see `c71_1_1_1_columns_fail`. -/
theorem c71_2m0 (nw nu : Nat) (T : Nat → Nat → Nat → K) (w u : Nat → K) (k : Nat) :
    ∑ i ∈ range nw, m20 nu T u k i * w i = ∑ j ∈ range nu, m21 nw T w k j * u j := by
  simp only [m20, m21, range_map_sum, Finset.sum_mul]
  refine Eq.trans Finset.sum_comm (Finset.sum_congr rfl fun j _ => Finset.sum_congr rfl fun i _ => ?_)
  ring

end form

/-! ### the element where the volume factors are mixed up -/

section witness

/-- The curved element `x = ξ + ξ²/4, y = η, z = σ`. -/
noncomputable def bent71 (p : ℝ × ℝ × ℝ) : M3 ℝ := ![![1 + p.1 / 2, 0, 0], ![0, 1, 0], ![0, 0, 1]]
/-- The straight element `x = ξ, y = η, z = σ`. -/
def straight (_ : ℝ × ℝ × ℝ) : M3 ℝ := ![![1, 0, 0], ![0, 1, 0], ![0, 0, 1]]
/-- Polynomial degree 1. -/
def lin71 : Nodes3 ℝ := ⟨[-1, 1], [-1, 1], [-1, 1]⟩
/-- The cochain of `dξ` (1-form) or `dη dσ` (2-form); of `dη` or `dσ dξ`; of `dσ` or `dξ dη`. -/
def unit71 (k : Deg) (x : Fin 3) (i : Nat) : ℝ :=
  match k with
  | .one => if 4 * x.1 ≤ i ∧ i < 4 * x.1 + 4 then 2 else 0
  | .two => if 2 * x.1 ≤ i ∧ i < 2 * x.1 + 2 then 4 else 0

theorem lag71 (x : ℝ) : lagrangeAt [-1, 1] 0 x = (1 - x) / 2 ∧ lagrangeAt [-1, 1] 1 x = (1 + x) / 2 := by
  constructor <;> simp [lagrangeAt, node, List.range_succ] <;> ring
theorem edge71 (x : ℝ) : edgeAt [-1, 1] 0 x = 1 / 2 := by
  simp [edgeAt, derivAt, derivNodes, Basis.offDiag, cI, xiXj, node, List.range_succ, lag71]
  ring

theorem unit71_one (x : Fin 3) (xs ys zs : List ℝ) (m : Nat) :
    Basis.Three.recon1 [-1, 1] [-1, 1] [-1, 1] xs ys zs (unit71 .one x) m
      = (if x = 0 then 1 else 0, if x = 1 then 1 else 0, if x = 2 then 1 else 0) := by
  have e0 : ∀ y : ℝ, edgeAt [-1, 1] 0 y = 1 / 2 := edge71
  fin_cases x <;>
  · simp [Basis.Three.recon1, einsum, Basis.Three.kron3, kron, nodeBasis, edgeBasis, List.range_succ, unit71, slice,
      Mifem.Three.nb1c0, Mifem.Three.nb1, Mifem.Three.nb1c1, Mifem.Three.nb1c2, (lag71 _).1, (lag71 _).2, e0]
    ring

theorem unit71_two (x : Fin 3) (xs ys zs : List ℝ) (m : Nat) :
    Basis.Three.recon2 [-1, 1] [-1, 1] [-1, 1] xs ys zs (unit71 .two x) m
      = (if x = 0 then 1 else 0, if x = 1 then 1 else 0, if x = 2 then 1 else 0) := by
  have e0 : ∀ y : ℝ, edgeAt [-1, 1] 0 y = 1 / 2 := edge71
  fin_cases x <;>
  · simp [Basis.Three.recon2, einsum, Basis.Three.kron3, kron, nodeBasis, edgeBasis, List.range_succ, unit71, slice,
      Mifem.Three.nb2c0, Mifem.Three.nb2, Mifem.Three.nb2c1, Mifem.Three.nb2c2, (lag71 _).1, (lag71 _).2, e0]
    ring

/-- The Jacobian matrix of the curved element, of size 2 in each direction. -/
noncomputable def bentJ (p : ℝ × ℝ × ℝ) : M3 ℝ := Three.jacobianMatrix false (bent71 p) fun _ => 2
noncomputable def straightJ (p : ℝ × ℝ × ℝ) : M3 ℝ := Three.jacobianMatrix false (straight p) fun _ => 2

theorem bentJ_det (p : ℝ × ℝ × ℝ) : Matrix.det (Matrix.of (bentJ p)) = 1 + p.1 / 2 := by
  rw [← three_det]; simp [Three.jacobian, bentJ, Three.jacobianMatrix, bent71]
theorem straightJ_det (p : ℝ × ℝ × ℝ) : Matrix.det (Matrix.of (straightJ p)) = 1 := by
  rw [← three_det]; simp [Three.jacobian, straightJ, Three.jacobianMatrix, straight]

/-- The factor of component `x` in the curved element. -/
noncomputable def fac71 (k : Deg) (x : Fin 3) (d : ℝ) : ℝ :=
  match k with
  | .one => if x = 0 then 1 / d else 1
  | .two => if x = 0 then 1 else 1 / d

theorem bent_field (k : Deg) (x : Fin 3) (xs ys zs : List ℝ) (m : Nat)
    (hd : 1 + (Basis.Three.meshgrid xs ys zs m).1 / 2 ≠ 0) :
    field3 false bentJ k lin71 xs ys zs (unit71 k x) m
      = fun y => if y = x then fac71 k x (1 + (Basis.Three.meshgrid xs ys zs m).1 / 2) else 0 := by
  cases k with
  | one =>
    simp only [field3, Three.reconstruct1, lin71, unit71_one]
    funext y
    fin_cases x <;> fin_cases y <;>
      simp [Three.value1, Three.inverse, bentJ, Three.jacobianMatrix, bent71, fac71, hd]
  | two =>
    simp only [field3, Three.reconstruct2, lin71, unit71_two]
    funext y
    fin_cases x <;> fin_cases y <;>
      simp [Three.value2, Three.inverse, bentJ, Three.jacobianMatrix, bent71, fac71, hd]

theorem straight_field (x : Fin 3) (xs ys zs : List ℝ) (m : Nat) :
    field3 false straightJ .one lin71 xs ys zs (unit71 .one x) m = fun y => if y = x then 1 else 0 := by
  simp only [field3, Three.reconstruct1, lin71, unit71_one]
  funext y
  fin_cases x <;> fin_cases y <;>
    simp [Three.value1, Three.inverse, straightJ, Three.jacobianMatrix, straight]

theorem lin71_ok : Nodes3.Ok lin71 := by simp [Nodes3.Ok, lin71]

/-- What the matrix of a helper says about `w = dσ`, `u = dξ`, `e = dη` in the curved element. -/
theorem bent_sum (kw ku ke : Deg) {g : ℝ} (h0 : 0 < g) (h1 : g < 1)
    (h : Represents3 false bentJ kw ku ke lin71 lin71 lin71 [-g, g] [-g, g] [-g, g] (fun _ => 1)
      (cp3 ravelC kw ku ke false bentJ lin71 lin71 lin71 [-g, g] [-g, g] [-g, g] fun _ => 1)) :
    let v := fun d => fac71 kw 2 d * fac71 ku 0 d * fac71 ke 1 d
    (g / 2) * (v (1 - g / 2) - v (1 + g / 2)) = 0 := by
  intro v
  have h' := h (unit71 kw 2) (unit71 ku 0) (unit71 ke 1)
  rw [m21_form] at h'
  have e := cp3_form ravelC kw ku ke false bent71 (fun _ => 2) lin71 lin71 lin71 lin71_ok lin71_ok lin71_ok [-g, g] [-g, g]
    [-g, g] (fun _ => 1) (unit71 kw 2) (unit71 ku 0) (unit71 ke 1)
  have e' := e.symm.trans h'
  have hd : ∀ m, 1 + (Basis.Three.meshgrid [-g, g] [-g, g] [-g, g] m).1 / 2 ≠ 0 := by
    intro m
    have : m % 2 = 0 ∨ m % 2 = 1 := by omega
    rcases this with h | h <;> simp [Basis.Three.meshgrid, h] <;> intro hh <;> linarith
  have f := fun k x m => bent_field k x [-g, g] [-g, g] [-g, g] m (hd m)
  change ∑ m ∈ range (2 * 2 * 2), 1 * Matrix.det (Matrix.of (bentJ (ravelC [-g, g] [-g, g] [-g, g] m))) *
      dotProduct (crossProduct (field3 false bentJ kw lin71 [-g, g] [-g, g] [-g, g] (unit71 kw 2) m)
        (field3 false bentJ ku lin71 [-g, g] [-g, g] [-g, g] (unit71 ku 0) m))
        (field3 false bentJ ke lin71 [-g, g] [-g, g] [-g, g] (unit71 ke 1) m) =
    ∑ m ∈ range (2 * 2 * 2), 1 * Matrix.det (Matrix.of (bentJ (Basis.Three.meshgrid [-g, g] [-g, g] [-g, g] m))) *
      dotProduct (crossProduct (field3 false bentJ kw lin71 [-g, g] [-g, g] [-g, g] (unit71 kw 2) m)
        (field3 false bentJ ku lin71 [-g, g] [-g, g] [-g, g] (unit71 ku 0) m))
        (field3 false bentJ ke lin71 [-g, g] [-g, g] [-g, g] (unit71 ke 1) m) at e'
  have hv : ∀ m, dotProduct (crossProduct (field3 false bentJ kw lin71 [-g, g] [-g, g] [-g, g] (unit71 kw 2) m)
        (field3 false bentJ ku lin71 [-g, g] [-g, g] [-g, g] (unit71 ku 0) m))
        (field3 false bentJ ke lin71 [-g, g] [-g, g] [-g, g] (unit71 ke 1) m)
        = v (1 + (Basis.Three.meshgrid [-g, g] [-g, g] [-g, g] m).1 / 2) := by
    intro m
    rw [f, f, f]
    simp [cross_apply, dotProduct, Fin.sum_univ_three, v]
  simp only [hv, bentJ_det] at e'
  simp [Finset.sum_range_succ, ravelC, Basis.Three.meshgrid] at e'
  have a1 : 1 + -g / 2 = 1 - g / 2 := by ring
  rw [a1] at e'
  linear_combination e' / 4

/-- C71 is false of the five 3D cross products: with polynomial degree 1 and a 2 x 2 x 2 quadrature rule (`g` is
`1/√3` for the Gauss rule) the matrix of the curved element `x = ξ + ξ²/4` does not represent `(w × u, e)`, since the
volume factors are listed in another order than the weights and the values of the forms. -/
theorem c71_3d_fails {g : ℝ} (h0 : 0 < g) (h1 : g < 1) :
    (¬ Represents3 false bentJ .one .one .one lin71 lin71 lin71 [-g, g] [-g, g] [-g, g] (fun _ => 1)
      (cross_1_1_1 false bentJ lin71 lin71 lin71 [-g, g] [-g, g] [-g, g] fun _ => 1)) ∧
    (¬ Represents3 false bentJ .one .two .two lin71 lin71 lin71 [-g, g] [-g, g] [-g, g] (fun _ => 1)
      (cross_1_2_2 false bentJ lin71 lin71 lin71 [-g, g] [-g, g] [-g, g] fun _ => 1)) ∧
    (¬ Represents3 false bentJ .two .two .two lin71 lin71 lin71 [-g, g] [-g, g] [-g, g] (fun _ => 1)
      (cross_2_2_2 false bentJ lin71 lin71 lin71 [-g, g] [-g, g] [-g, g] fun _ => 1)) ∧
    (¬ Represents3 false bentJ .two .two .one lin71 lin71 lin71 [-g, g] [-g, g] [-g, g] (fun _ => 1)
      (cross_2_2_1 false bentJ lin71 lin71 lin71 [-g, g] [-g, g] [-g, g] fun _ => 1)) ∧
    (¬ Represents3 false bentJ .two .one .two lin71 lin71 lin71 [-g, g] [-g, g] [-g, g] (fun _ => 1)
      (cross_2_1_2 false bentJ lin71 lin71 lin71 [-g, g] [-g, g] [-g, g] fun _ => 1)) := by
  have p1 : 0 < 1 - g / 2 := by linarith
  have p2 : 0 < 1 + g / 2 := by linarith
  have lt : (1 + g / 2)⁻¹ < (1 - g / 2)⁻¹ := inv_strictAnti₀ p1 (by linarith)
  have l0 : 0 < (1 + g / 2)⁻¹ := inv_pos.2 p2
  refine ⟨?_, ?_, ?_, ?_, ?_⟩ <;> intro h
  · have := bent_sum .one .one .one h0 h1 h
    simp only [fac71] at this; simp at this
    rcases this with h | h <;> linarith
  · have := bent_sum .one .two .two h0 h1 h
    simp only [fac71] at this; simp at this
    rcases this with h | h <;> linarith
  · have := bent_sum .two .two .two h0 h1 h
    simp only [fac71] at this; simp at this
    rcases this with h | h <;> nlinarith
  · have := bent_sum .two .two .one h0 h1 h
    simp only [fac71] at this; simp at this
    rcases this with h | h <;> linarith
  · have := bent_sum .two .one .two h0 h1 h
    simp only [fac71] at this; simp at this
    rcases this with h | h
    · linarith
    · have a := pow_lt_pow_left₀ lt l0.le (n := 3) (by norm_num)
      nlinarith

/-- C71: the five helpers at work: in the straight element `(dσ × dξ, dη)` is the volume 8. -/
theorem straight_eight (g : ℝ) :
    ∑ k ∈ range 12, ∑ j ∈ range 12, unit71 .one 1 k *
      m21 12 (cross_1_1_1 false straightJ lin71 lin71 lin71 [-g, g] [-g, g] [-g, g] fun _ => 1) (unit71 .one 2) k j *
        unit71 .one 0 j = 8 := by
  have h := (c71_3d_partial false straight (fun _ => 2) lin71 lin71 lin71 lin71_ok lin71_ok lin71_ok [-g, g] [-g, g] [-g, g]
    (fun _ => 1) (fun m _ => by simp only [straight])).1 (unit71 .one 2) (unit71 .one 0) (unit71 .one 1)
  refine h.trans ?_
  change ∑ m ∈ range (2 * 2 * 2), 1 * Matrix.det (Matrix.of (straightJ (Basis.Three.meshgrid [-g, g] [-g, g] [-g, g] m))) *
      dotProduct (crossProduct (field3 false straightJ .one lin71 [-g, g] [-g, g] [-g, g] (unit71 .one 2) m)
        (field3 false straightJ .one lin71 [-g, g] [-g, g] [-g, g] (unit71 .one 0) m))
        (field3 false straightJ .one lin71 [-g, g] [-g, g] [-g, g] (unit71 .one 1) m) = 8
  simp only [straight_field, straightJ_det]
  simp [cross_apply, dotProduct, Fin.sum_univ_three]

/-- C71 is false of output '2-M-0' of (1-form × 1-form, 1-form), even in a straight element: the matrix exists, but
applied to `w` it does not give `(w × u, e)`; with `w = dσ`, `u = dξ` and `e = dη` it gives 0 instead of the volume. -/
theorem c71_1_1_1_columns_fail (g : ℝ) :
    let T := cross_1_1_1 false straightJ lin71 lin71 lin71 [-g, g] [-g, g] [-g, g] fun _ => 1
    ∃ M0, m20_1_1_1 (numBasis .one lin71) (numBasis .one lin71) T (unit71 .one 0) = some M0 ∧
      ∑ k ∈ range 12, ∑ i ∈ range 12, unit71 .one 1 k * M0 k i * unit71 .one 2 i = 0 ∧
      ∑ k ∈ range 12, ∑ j ∈ range 12, unit71 .one 1 k * m21 12 T (unit71 .one 2) k j * unit71 .one 0 j = 8 := by
  intro T
  refine ⟨_, if_pos rfl, ?_, straight_eight g⟩
  refine Finset.sum_eq_zero fun k _ => Finset.sum_eq_zero fun i _ => ?_
  have : unit71 .one 0 i * unit71 .one 2 i = 0 := by
    simp only [unit71]
    split_ifs with h1 h2
    · simp at h1 h2; omega
    all_goals simp
  rw [range_map_sum, ← Finset.sum_mul, mul_assoc, mul_assoc, this, mul_zero, mul_zero]

end witness

/-! ### C71 in 2D -/

section two
variable {K : Type*} [Field K]

def Nodes2.Ok (N : Nodes2 K) : Prop := N.x ≠ [] ∧ N.y ≠ []

/-- The values of a 1-form at the points of the grid, as given by `reconstruct`. -/
def field2 (orth : Bool) (J : K × K → M2 K) (s : Side) (N : Nodes2 K) (xs ys : List K) (w : Nat → K) (m : Nat) :
    Fin 2 → K :=
  let Jm := fun m => J (Basis.Two.meshgrid xs ys m)
  match s with
  | .inner => Two.reconstructInner1 orth Jm N.x N.y xs ys w m
  | .outer => Two.reconstructOuter1 orth Jm N.x N.y xs ys w m

theorem rm2_cols (orth : Bool) (J : K × K → M2 K) (s : Side) (N : Nodes2 K) (hN : Nodes2.Ok N) (xs ys : List K)
    (x : Fin 2) : (rm2 orth J s N xs ys x).cols = numBasis1 s N := by
  obtain ⟨hx, hy⟩ := hN
  have : ∀ (c : Prop) [Decidable c] (b : Arr K) (f g : Nat → K), (if c then scaleT b f else scaleT b g).cols = b.rows := by
    intro c _ b f g; split <;> rfl
  cases s with
  | inner =>
    obtain ⟨h0, h1⟩ := rowsI hx hy xs ys
    simp only [rm2, Two.reconMatrixInner1, Two.hstack2, this, numBasis1, Mifem.Two.nbI1, h0, h1]
  | outer =>
    obtain ⟨h0, h1⟩ := rowsO hx hy xs ys
    simp only [rm2, Two.reconMatrixOuter1, Two.hstack2, this, numBasis1, Mifem.Two.nbO1, h0, h1]

theorem rm2_mulVec (orth : Bool) (A : K × K → M2 K) (delta : Fin 2 → K) (s : Side) (N : Nodes2 K) (hN : Nodes2.Ok N)
    (xs ys : List K) (w : Nat → K) (m : Nat) :
    (fun x => mulVec (rm2 orth (fun p => Two.jacobianMatrix orth (A p) delta) s N xs ys x) w m)
      = field2 orth (fun p => Two.jacobianMatrix orth (A p) delta) s N xs ys w m := by
  obtain ⟨hx, hy⟩ := hN
  funext x
  have h := c54_matrix_2d orth (fun m => A (Basis.Two.meshgrid xs ys m)) delta N.x N.y xs ys hx hy w m x
  cases s with
  | inner => exact h.1
  | outer => exact h.2

/-- The tensor `T` represents `(w × u, e)` for a scalar `w` with values `Fw` and `nw` dofs: the '2-M-1' matrix `M`
satisfies `eᵀ M u = ∫ w (u₀ e₁ - u₁ e₀)`. -/
def Represents2 (orth : Bool) (J : K × K → M2 K) (nw : Nat) (Fw : (Nat → K) → Nat → K) (su se : Side)
    (Nu Ne : Nodes2 K) (xs ys : List K) (q : Nat → K) (T : Nat → Nat → Nat → K) : Prop :=
  ∀ w u e : Nat → K,
    ∑ k ∈ range (numBasis1 se Ne), ∑ j ∈ range (numBasis1 su Nu), e k * m21 nw T w k j * u j
      = quad2 (ys.length * xs.length) q (fun m => J (Basis.Two.meshgrid xs ys m)) fun m =>
          let U := field2 orth J su Nu xs ys u m
          let E := field2 orth J se Ne xs ys e m
          Fw w m * (U 0 * E 1 - U 1 * E 0)

theorem cp2_represents (su se : Side) (orth : Bool) (A : K × K → M2 K) (delta : Fin 2 → K) (W : Arr K)
    (Nu Ne : Nodes2 K) (hu : Nodes2.Ok Nu) (he : Nodes2.Ok Ne) (xs ys : List K) (q : Nat → K) :
    let J := fun p => Two.jacobianMatrix orth (A p) delta
    Represents2 orth J W.cols (fun w m => mulVec W w m) su se Nu Ne xs ys q (cp2 su se orth J W Nu Ne xs ys q) := by
  intro J w u e
  unfold cp2
  rw [m21_form, tensor2_form _ _ _ _ _ _ _ rfl (rm2_cols orth J su Nu hu xs ys) (rm2_cols orth J se Ne he xs ys), quad2]
  refine Finset.sum_congr rfl fun m _ => ?_
  have e1 := rm2_mulVec orth A delta su Nu hu xs ys u m
  have e2 := rm2_mulVec orth A delta se Ne he xs ys e m
  simp only [J, ← e1, ← e2, ← two_det]
  simp only [dotProduct, Fin.sum_univ_two, Matrix.cons_val_zero, Matrix.cons_val_one, ravelF2, Basis.Two.meshgrid]
  ring

theorem mulVec_scaleT (b : Arr K) (f w : Nat → K) (m : Nat) : mulVec (scaleT b f) w m = f m * einsum b w m := by
  rw [mulVec, range_map_sum, einsum_eq, Finset.mul_sum]
  exact Finset.sum_congr rfl fun i _ => by simp only [scaleT]; ring

/-- C71 (2D): the matrices of (0-form × 1-form, 1-form) and (2-form × 1-form, 1-form) represent the scalar triple
product, for all orientations of the 1-forms and in all elements. -/
theorem c71_2d (su se : Side) (orth : Bool) (A : K × K → M2 K) (delta : Fin 2 → K) (Nw Nu Ne : Nodes2 K)
    (hu : Nodes2.Ok Nu) (he : Nodes2.Ok Ne) (xs ys : List K) (q : Nat → K) :
    let J := fun p => Two.jacobianMatrix orth (A p) delta
    Represents2 orth J (Nw.y.length * Nw.x.length) (Basis.Two.recon0 Nw.x Nw.y xs ys) su se Nu Ne xs ys q
      (cross2_0 su se orth J Nw Nu Ne xs ys q) ∧
    Represents2 orth J ((Nw.y.length - 1) * (Nw.x.length - 1))
      (Two.reconstruct2 (fun m => J (Basis.Two.meshgrid xs ys m)) Nw.x Nw.y xs ys) su se Nu Ne xs ys q
      (cross2_2 su se orth J Nw Nu Ne xs ys q) := by
  intro J
  constructor
  · have h := cp2_represents su se orth A delta (rm2_0 Nw xs ys) Nu Ne hu he xs ys q
    have e : (fun (w : Nat → K) (m : Nat) => mulVec (rm2_0 Nw xs ys) w m) = Basis.Two.recon0 Nw.x Nw.y xs ys := by
      funext w m; rw [rm2_0, mulVec_scaleT, one_mul]; rfl
    rw [e] at h
    exact h
  · have h := cp2_represents su se orth A delta (rm2_2 J Nw xs ys) Nu Ne hu he xs ys q
    have e : (fun (w : Nat → K) (m : Nat) => mulVec (rm2_2 J Nw xs ys) w m)
        = Two.reconstruct2 (fun m => J (Basis.Two.meshgrid xs ys m)) Nw.x Nw.y xs ys := by
      funext w m
      rw [rm2_2, mulVec_scaleT, Two.reconstruct2, Two.value2, einsum_eq]
      rw [range_map_sum, Finset.mul_sum]
      exact Finset.sum_congr rfl fun i _ => by ring
    rw [e] at h
    exact h

/-- C71 (2D): with `u` and `e` in the same space the matrix is skew-symmetric and `uᵀ M u = 0`. -/
theorem c71_skew_2d (s : Side) (orth : Bool) (J : K × K → M2 K) (h2 : (2 : K) ≠ 0) (Nw N : Nodes2 K) (xs ys : List K)
    (q w : Nat → K) (nw a b : Nat) (u : Nat → K) :
    let M1 := m21 nw (cross2_0 s s orth J Nw N N xs ys q) w
    let M2 := m21 nw (cross2_2 s s orth J Nw N N xs ys q) w
    (M1 a b = -M1 b a ∧ M2 a b = -M2 b a) ∧
    ∑ k ∈ range (numBasis1 s N), ∑ j ∈ range (numBasis1 s N), u k * M1 k j * u j = 0 ∧
    ∑ k ∈ range (numBasis1 s N), ∑ j ∈ range (numBasis1 s N), u k * M2 k j * u j = 0 := by
  have sk : ∀ (W : Arr K) a b, m21 nw (cp2 s s orth J W N N xs ys q) w a b = -m21 nw (cp2 s s orth J W N N xs ys q) w b a := by
    intro W a b
    have h : ∀ i, cp2 s s orth J W N N xs ys q i b a = -cp2 s s orth J W N N xs ys q i a b := by
      intro i
      have t : ∀ (y z : Fin 2) (q : Nat → K) n,
          tri n W (rm2 orth J s N xs ys y) (rm2 orth J s N xs ys z) q i b a
            = tri n W (rm2 orth J s N xs ys z) (rm2 orth J s N xs ys y) q i a b := by
        intro y z q n
        simp only [tri]
        congr 1
        refine List.map_congr_left fun l _ => ?_
        ring
      simp only [cp2, tensor2, t 1 0, t 0 1]
      ring
    simp only [m21, range_map_sum, h, neg_mul, Finset.sum_neg_distrib]
  intro M1 M2
  exact ⟨⟨sk _ a b, sk _ a b⟩, form_zero_of_skew _ _ _ h2 (sk _), form_zero_of_skew _ _ _ h2 (sk _)⟩

/-- C71: `inner_curl__cross_product_2f`: let `z` be the cochain of the projection of `u × B` on the 1-forms of the new
space, that is the solution of `M1 z = r` where `r` is the vector of `(u × B, ·)`.  Then the output contracted with
`u`, `B` and `b` is `bᵀ M (E z)`, the inner product of `b` and the curl of the projection. -/
theorem c71_inner_curl (nu nB nb n1 n2 : Nat) (M E invM M1 : Nat → Nat → K) (cpm : Nat → Nat → Nat → K)
    (hinv : ∀ i < n1, ∀ j < n1, ∑ c ∈ range n1, invM i c * M1 c j = if i = j then 1 else 0)
    (u B b z : Nat → K)
    (hz : ∀ j < n1, ∑ c ∈ range n1, M1 j c * z c = ∑ m ∈ range nu, ∑ n ∈ range nB, cpm m n j * u m * B n) :
    ∑ m ∈ range nu, ∑ n ∈ range nB, ∑ k ∈ range nb, innerCurl n1 n2 M E invM cpm m n k * u m * B n * b k
      = ∑ k ∈ range nb, ∑ j ∈ range n2, b k * M k j * ∑ i ∈ range n1, E j i * z i := by
  have hz' : ∀ i < n1, z i = ∑ j ∈ range n1, invM i j * ∑ m ∈ range nu, ∑ n ∈ range nB, cpm m n j * u m * B n := by
    intro i hi
    have : ∑ j ∈ range n1, invM i j * ∑ m ∈ range nu, ∑ n ∈ range nB, cpm m n j * u m * B n
        = ∑ c ∈ range n1, (∑ j ∈ range n1, invM i j * M1 j c) * z c := by
      rw [Finset.sum_congr rfl fun j hj => by rw [← hz j (mem_range.1 hj)]]
      simp only [Finset.mul_sum, Finset.sum_mul]
      refine Eq.trans Finset.sum_comm (Finset.sum_congr rfl fun c _ => Finset.sum_congr rfl fun j _ => by ring)
    rw [this, Finset.sum_congr rfl fun c hc => by rw [hinv i hi c (mem_range.1 hc)]]
    simp [hi]
  have hE : ∀ j, ∑ i ∈ range n1, E j i * z i = ∑ m ∈ range nu, ∑ n ∈ range nB,
      (∑ i ∈ range n1, E j i * ∑ c ∈ range n1, invM i c * cpm m n c) * u m * B n := by
    intro j
    rw [Finset.sum_congr rfl fun i hi => by rw [hz' i (mem_range.1 hi)]]
    simp only [Finset.mul_sum, Finset.sum_mul]
    calc _ = ∑ i ∈ range n1, ∑ m ∈ range nu, ∑ c ∈ range n1, ∑ n ∈ range nB, E j i * (invM i c * (cpm m n c * u m * B n)) :=
          Finset.sum_congr rfl fun i _ => Finset.sum_comm
      _ = ∑ m ∈ range nu, ∑ i ∈ range n1, ∑ c ∈ range n1, ∑ n ∈ range nB, E j i * (invM i c * (cpm m n c * u m * B n)) :=
          Finset.sum_comm
      _ = ∑ m ∈ range nu, ∑ i ∈ range n1, ∑ n ∈ range nB, ∑ c ∈ range n1, E j i * (invM i c * (cpm m n c * u m * B n)) :=
          Finset.sum_congr rfl fun m _ => Finset.sum_congr rfl fun i _ => Finset.sum_comm
      _ = ∑ m ∈ range nu, ∑ n ∈ range nB, ∑ i ∈ range n1, ∑ c ∈ range n1, E j i * (invM i c * (cpm m n c * u m * B n)) :=
          Finset.sum_congr rfl fun m _ => Finset.sum_comm
      _ = _ := Finset.sum_congr rfl fun m _ => Finset.sum_congr rfl fun n _ => Finset.sum_congr rfl fun i _ =>
          Finset.sum_congr rfl fun c _ => by ring
  simp only [hE, innerCurl, range_map_sum]
  generalize hG : (fun j m n => ∑ i ∈ range n1, E j i * ∑ c ∈ range n1, invM i c * cpm m n c) = G
  have hG' : ∀ j m n, ∑ i ∈ range n1, E j i * ∑ c ∈ range n1, invM i c * cpm m n c = G j m n := by
    intro j m n; rw [← hG]
  simp only [hG']
  simp only [Finset.mul_sum, Finset.sum_mul]
  calc _ = ∑ m ∈ range nu, ∑ k ∈ range nb, ∑ n ∈ range nB, ∑ j ∈ range n2, M k j * G j m n * u m * B n * b k :=
        Finset.sum_congr rfl fun m _ => Finset.sum_comm
    _ = ∑ k ∈ range nb, ∑ m ∈ range nu, ∑ n ∈ range nB, ∑ j ∈ range n2, M k j * G j m n * u m * B n * b k :=
        Finset.sum_comm
    _ = ∑ k ∈ range nb, ∑ m ∈ range nu, ∑ j ∈ range n2, ∑ n ∈ range nB, M k j * G j m n * u m * B n * b k :=
        Finset.sum_congr rfl fun k _ => Finset.sum_congr rfl fun m _ => Finset.sum_comm
    _ = ∑ k ∈ range nb, ∑ j ∈ range n2, ∑ m ∈ range nu, ∑ n ∈ range nB, M k j * G j m n * u m * B n * b k :=
        Finset.sum_congr rfl fun k _ => Finset.sum_comm
    _ = _ := Finset.sum_congr rfl fun k _ => Finset.sum_congr rfl fun j _ => Finset.sum_congr rfl fun m _ =>
        Finset.sum_congr rfl fun n _ => by ring

end two

/-! ### concrete cases -/

/-- The hypotheses of `c71_3d_partial` hold in a skewed element of constant Jacobian matrix. -/
example : ∀ m < 2 * 2 * 2,
    Matrix.det (Matrix.of (Three.jacobianMatrix false
      ((fun _ => ![![1, 1, 0], ![0, 1, 0], ![0, 0, 3]] : ℚ × ℚ × ℚ → M3 ℚ) (ravelC [-1/2, 1/2] [-1/2, 1/2] [-1/2, 1/2] m))
      fun _ => 1))
    = Matrix.det (Matrix.of (Three.jacobianMatrix false
      ((fun _ => ![![1, 1, 0], ![0, 1, 0], ![0, 0, 3]] : ℚ × ℚ × ℚ → M3 ℚ)
        (Basis.Three.meshgrid [-1/2, 1/2] [-1/2, 1/2] [-1/2, 1/2] m)) fun _ => 1)) := fun _ _ => rfl

/-- Non-zero skew-symmetric matrices occur: `straight_eight`.  The Gauss rule meets the hypotheses of
`c71_3d_fails`. -/
example : 0 < 1 / Real.sqrt 3 ∧ 1 / Real.sqrt 3 < 1 := by
  have : 1 < Real.sqrt 3 := by
    rw [Real.lt_sqrt (by norm_num)]; norm_num
  exact ⟨by positivity, by rw [div_lt_one (by linarith)]; exact this⟩

/-- The hypotheses of `c71_inner_curl` with one dof each. -/
example : (∀ i < 1, ∀ j < 1, ∑ c ∈ range 1, (fun _ _ => 1 / 2 : Nat → Nat → ℚ) i c * (fun _ _ => 2) c j
      = if i = j then 1 else 0) ∧
    ∀ j < 1, ∑ c ∈ range 1, (fun _ _ => 2 : Nat → Nat → ℚ) j c * (fun _ => 3) c
      = ∑ m ∈ range 1, ∑ n ∈ range 1, (fun _ _ _ => 6 : Nat → Nat → Nat → ℚ) m n j * (fun _ => 1) m * (fun _ => 1) n := by
  constructor
  · simp
  · simp; norm_num

end Mifem.Props
