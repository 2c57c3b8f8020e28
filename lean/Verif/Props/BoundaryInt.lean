import Verif.Model.BoundaryInt
import Verif.Props.TraceMark

/-! # C89: integrals over the boundary of the mesh -/

namespace Mifem.Props
open Mifem.Basis Mifem.Metric Mifem.TraceDisc Mifem.TraceRec Mifem.TraceMark Mifem.BoundaryInt Finset

/-! ## 1-forms in 3D -/
section
open Mifem.Three

variable (nx ny nz xs ys zs : List ℝ) (q : Side → Nat → ℝ) (e : Disc.Three.El ℝ)

/-- Orthogonal elements have diagonal Jacobian matrices. -/
def DiagEl (e : Disc.Three.El ℝ) : Prop := e.orth = true → ∀ v j l, j ≠ l → e.J v j l = 0

/-- The value of a 1-form with the cochain `w` at one point `p` of the reference element, as `reconstruct` gives it. -/
noncomputable def at1 (w : Nat → ℝ) (p : Fin 3 → ℝ) : Fin 3 → ℝ :=
  Metric.Three.reconstruct1 e.orth (fun _ => e.J p) nx ny nz [p 0] [p 1] [p 2] w 0

/-- The value at point `m` of the grid of a side. -/
noncomputable def onSide1 (w : Nat → ℝ) (s : Side) (m : Nat) : Fin 3 → ℝ := at1 nx ny nz e w (grid xs ys zs s m)

/-- The reconstruction on the three arrays of a side gives the values at the points of the grid of the side. -/
theorem onSide1_eq (w : Nat → ℝ) (s : Side) (m : Nat) (hm : m < pts xs ys zs s) :
    Metric.Three.reconstruct1 e.orth (fun m => e.J (grid xs ys zs s m)) nx ny nz (arrays xs ys zs s 0) (arrays xs ys zs s 1)
      (arrays xs ys zs s 2) w m = onSide1 nx ny nz xs ys zs e w s m := by
  have key : ∀ (X Y Z : List ℝ) (p : Fin 3 → ℝ), X.getD (m % X.length) 0 = p 0 → Y.getD (m / X.length % Y.length) 0 = p 1 →
      Z.getD (m / (Y.length * X.length)) 0 = p 2 → Basis.Three.recon1 nx ny nz X Y Z w m =
        Basis.Three.recon1 nx ny nz [p 0] [p 1] [p 2] w 0 := by
    intro X Y Z p h0 h1 h2
    have h1' : Y.getD (m / X.length % Y.length) 0 = p 1 := h1
    have h2' : Z.getD (m / X.length / Y.length) 0 = p 2 := by rw [Nat.div_div_eq_div_mul, Nat.mul_comm X.length]; exact h2
    simp only [Basis.Three.recon1, einsum, Basis.Three.kron3, kron, nodeBasis, edgeBasis, h0, h1', h2', List.length_singleton,
      Nat.div_one, Nat.mod_one, List.getD_cons_zero, Nat.zero_div, Nat.zero_mod]
  have hg : ∀ a : Fin 3, Metric.Three.reconstruct1 e.orth (fun m => e.J (grid xs ys zs s m)) nx ny nz (arrays xs ys zs s 0)
      (arrays xs ys zs s 1) (arrays xs ys zs s 2) w m a = onSide1 nx ny nz xs ys zs e w s m a := by
    intro a
    simp only [Metric.Three.reconstruct1, onSide1, at1]
    have hB : m < ys.length * xs.length → m / xs.length < ys.length := fun h => Nat.div_lt_of_lt_mul (by rwa [Nat.mul_comm])
    rw [key _ _ _ (grid xs ys zs s m)]
    all_goals cases s <;> simp only [arrays, grid, pts] at hm ⊢
    all_goals simp [Nat.mod_one, Nat.mod_eq_of_lt, hB, hm]
  exact funext hg

/-- The number of basis functions of a 1-form. -/
def num3 (nx ny nz : List ℝ) : Nat :=
  nz.length * ny.length * (nx.length - 1) + nz.length * (ny.length - 1) * nx.length + (nz.length - 1) * ny.length * nx.length

theorem matrices_shape (s : Side) (k : Fin 3) : (matrices nx ny nz xs ys zs e s k).rows = pts xs ys zs s ∧
    (matrices nx ny nz xs ys zs e s k).cols = num3 nx ny nz := by
  have h : ∀ (c : Prop) [Decidable c] (A B : Arr ℝ), A.rows = B.rows → A.cols = B.cols →
      (if c then A else B).rows = B.rows ∧ (if c then A else B).cols = B.cols := by
    intro c _ A B h1 h2; split <;> simp [h1, h2]
  have hs : ∀ (c : Prop) [Decidable c] (b : Arr ℝ) (f g : Nat → ℝ),
      (if c then scaleT b f else scaleT b g).rows = b.cols ∧ (if c then scaleT b f else scaleT b g).cols = b.rows :=
    fun c _ b f g => h c _ _ rfl rfl
  refine ⟨?_, ?_⟩
  · simp only [matrices, Metric.Three.reconMatrix1, Metric.Three.hstack3, (hs _ _ _ _).1]
    cases s <;> simp [arrays, Metric.Three.basis1, Basis.Three.kron3, kron, nodeBasis, edgeBasis, pts]
  · simp only [matrices, Metric.Three.reconMatrix1, Metric.Three.hstack3, (hs _ _ _ _).2]
    cases s <;> simp [arrays, Metric.Three.basis1, Basis.Three.kron3, kron, nodeBasis, edgeBasis, num3]

theorem matrices_value {e : Disc.Three.El ℝ} (hd : DiagEl e) (hx : nx ≠ []) (hy : ny ≠ []) (hz : nz ≠ []) (s : Side) (k : Fin 3)
    (w : Nat → ℝ) (m : Nat) (hm : m < pts xs ys zs s) :
    mulVec (matrices nx ny nz xs ys zs e s k) w m = onSide1 nx ny nz xs ys zs e w s m k := by
  have hJ : ∀ m, Metric.Three.jacobianMatrix e.orth (e.J (grid xs ys zs s m)) (fun _ => 2) = e.J (grid xs ys zs s m) := by
    intro m
    funext j l
    simp only [Metric.Three.jacobianMatrix]
    split_ifs with h1 h2
    · subst h2; ring
    · exact (hd h1 _ _ _ h2).symm
    · ring
  have := (c54_matrix_3d e.orth (fun m => e.J (grid xs ys zs s m)) (fun _ => 2) nx ny nz (arrays xs ys zs s 0)
    (arrays xs ys zs s 1) (arrays xs ys zs s 2) hx hy hz w m k).1
  simp only [hJ] at this
  rw [← onSide1_eq nx ny nz xs ys zs e w s m hm]
  exact this

theorem sideVec1_pair {e : Disc.Three.El ℝ} (hd : DiagEl e) (hx : nx ≠ []) (hy : ny ≠ []) (hz : nz ≠ []) (s : Side)
    (V : (Fin 3 → ℝ) → Fin 3 → ℝ) (j : ℝ) (w : Nat → ℝ) : ∃ v, sideVec1 nx ny nz xs ys zs q e s V (some j) = some v ∧
    ∑ b ∈ range (num3 nx ny nz), v b * w b =
      ∑ m ∈ range (pts xs ys zs s), q s m * j * dotV (V (grid xs ys zs s m)) (onSide1 nx ny nz xs ys zs e w s m) := by
  refine ⟨_, rfl, ?_⟩
  simp only [range_map_sum, (matrices_shape nx ny nz xs ys zs e s _).1, Finset.sum_mul]
  rw [Finset.sum_comm]
  refine Finset.sum_congr rfl fun m hmr => ?_
  have hm : ∀ k, onSide1 nx ny nz xs ys zs e w s m k =
      ∑ b ∈ range (num3 nx ny nz), (matrices nx ny nz xs ys zs e s k).e m b * w b := fun k => by
    rw [← matrices_value nx ny nz xs ys zs hd hx hy hz _ _ _ _ (mem_range.1 hmr), mulVec, range_map_sum, (matrices_shape nx ny nz xs ys zs e s k).2]
  simp only [dotV, hm, Finset.mul_sum, ← Finset.sum_add_distrib]
  exact Finset.sum_congr rfl fun b _ => by ring

theorem fold_sides {σ : Type} (L : List σ) (bn : σ → Option Nat) (F : σ → Nat → Option (Nat → ℝ)) (G : σ → Nat → ℝ) (N : Nat)
    (w acc : Nat → ℝ) (h : ∀ s ∈ L, ∀ n, bn s = some n → ∃ v, F s n = some v ∧ ∑ b ∈ range N, v b * w b = G s n) :
    ∃ v, L.foldlM (fun acc s => match bn s with
      | none => some acc
      | some n => (F s n).map fun v i => acc i + v i) acc = some v ∧
      ∑ b ∈ range N, v b * w b = ∑ b ∈ range N, acc b * w b +
        (L.map fun s => match bn s with | none => 0 | some n => G s n).sum := by
  induction L generalizing acc with
  | nil => exact ⟨acc, rfl, by simp⟩
  | cons s L ih =>
    have hL : ∀ s ∈ L, ∀ n, bn s = some n → ∃ v, F s n = some v ∧ ∑ b ∈ range N, v b * w b = G s n :=
      fun t ht => h t (by simp [ht])
    rw [List.foldlM_cons, List.map_cons, List.sum_cons]
    cases hb : bn s with
    | none =>
      obtain ⟨v, h1, h2⟩ := ih acc hL
      exact ⟨v, by simpa using h1, by rw [h2]; simp⟩
    | some n =>
      obtain ⟨u, hu, hG⟩ := h s (by simp) n hb
      obtain ⟨v, h1, h2⟩ := ih (fun i => acc i + u i) hL
      refine ⟨v, by simpa [hu] using h1, ?_⟩
      simp only []
      rw [h2, ← hG, ← add_assoc, ← Finset.sum_add_distrib]
      congr 1
      exact Finset.sum_congr rfl fun b _ => by ring

theorem fold_none {σ : Type} (L : List σ) (bn : σ → Option Nat) (F : σ → Nat → Option (Nat → ℝ)) (acc : Nat → ℝ)
    (h : ∃ s ∈ L, ∃ n, bn s = some n ∧ F s n = none) : L.foldlM (fun acc s => match bn s with
      | none => some acc
      | some n => (F s n).map fun v i => acc i + v i) acc = none := by
  induction L generalizing acc with
  | nil => obtain ⟨s, hs, -⟩ := h; simp at hs
  | cons s L ih =>
    rw [List.foldlM_cons]
    obtain ⟨t, ht, n, hn, hF⟩ := h
    rcases List.mem_cons.1 ht with rfl | ht
    · simp [hn, hF]
    · cases hb : bn s with
      | none => simpa using ih acc ⟨t, ht, n, hn, hF⟩
      | some n' =>
        cases hF' : F s n' with
        | none => simp [hF']
        | some u => simpa [hF'] using ih _ ⟨t, ht, n, hn, hF⟩

/-- **C89, 1-forms: what is computed.**  The vector of an element exists if the boundary trace elements have constant Jacobians.
Paired with the cochain of a form it gives the sum, over the sides on the boundary, of the quadrature of the product of the
form with the function *at the points of the reference element*, times the constant Jacobian; elements inside give zero. -/
theorem c89_1_values {e : Disc.Three.El ℝ} (hd : DiagEl e) (hx : nx ≠ []) (hy : ny ≠ []) (hz : nz ≠ []) (bn : Side → Option Nat)
    (V : Nat → (Fin 3 → ℝ) → Fin 3 → ℝ) (j : Side → ℝ) (cJ : Side → Option ℝ) (hj : ∀ s n, bn s = some n → cJ s = some (j s))
    (w : Nat → ℝ) : ∃ v, vec1 nx ny nz xs ys zs q e bn V cJ = some v ∧
    ∑ b ∈ range (num3 nx ny nz), v b * w b = (sides6.map fun s => match bn s with
      | none => 0
      | some n => ∑ m ∈ range (pts xs ys zs s),
          q s m * j s * dotV (V n (grid xs ys zs s m)) (onSide1 nx ny nz xs ys zs e w s m)).sum := by
  rw [vec1]
  split_ifs with hi
  · refine ⟨_, rfl, ?_⟩
    simp only [List.all_eq_true, Option.isNone_iff_eq_none] at hi
    rw [List.map_congr_left (g := fun _ => (0 : ℝ)) fun s hs => by simp only [hi s hs]]
    simp
  · obtain ⟨v, h1, h2⟩ := fold_sides sides6 bn (fun s n => sideVec1 nx ny nz xs ys zs q e s (V n) (cJ s))
      (fun s n => ∑ m ∈ range (pts xs ys zs s),
          q s m * j s * dotV (V n (grid xs ys zs s m)) (onSide1 nx ny nz xs ys zs e w s m)) (num3 nx ny nz) w (fun _ => 0) (by
        intro s _ n hn
        rw [hj s n hn]
        exact sideVec1_pair nx ny nz xs ys zs q hd hx hy hz s (V n) (j s) w)
    refine ⟨v, h1, ?_⟩
    rw [h2]
    simp

/-- **C89, 1-forms (partial).**  If the functions have the same values at the points of the reference element as at the mapped
points (for instance, if they are constant on every boundary), and the constant Jacobians are the area elements of the sides, the
vector paired with a cochain is the quadrature, over the sides on the boundary, of the product of form and function.  Missing:
other functions, for which it is false (`c89_1_counterexample`); regions for which the constant Jacobians are wrong (C87); other
elements, for which there is no result (`c89_1_none`). -/
theorem c89_1_partial {e : Disc.Three.El ℝ} (hd : DiagEl e) (hx : nx ≠ []) (hy : ny ≠ []) (hz : nz ≠ []) (bn : Side → Option Nat)
    (V : Nat → (Fin 3 → ℝ) → Fin 3 → ℝ) (j : Side → ℝ) (cJ : Side → Option ℝ) (hj : ∀ s n, bn s = some n → cJ s = some (j s))
    (ha : ∀ s n, bn s = some n → ∀ m < pts xs ys zs s, j s = areaEl e s (grid2 xs ys zs s m).1 (grid2 xs ys zs s m).2)
    (hV : ∀ s n, bn s = some n → ∀ m < pts xs ys zs s, V n (grid xs ys zs s m) = V n (e.map (grid xs ys zs s m)))
    (w : Nat → ℝ) : ∃ v, vec1 nx ny nz xs ys zs q e bn V cJ = some v ∧
    ∑ b ∈ range (num3 nx ny nz), v b * w b = (sides6.map fun s => match bn s with
      | none => 0
      | some n => ∑ m ∈ range (pts xs ys zs s), q s m * areaEl e s (grid2 xs ys zs s m).1 (grid2 xs ys zs s m).2 *
          dotV (V n (e.map (grid xs ys zs s m))) (onSide1 nx ny nz xs ys zs e w s m)).sum := by
  obtain ⟨v, h1, h2⟩ := c89_1_values nx ny nz xs ys zs q hd hx hy hz bn V j cJ hj w
  refine ⟨v, h1, ?_⟩
  rw [h2]
  congr 1
  refine List.map_congr_left fun s _ => ?_
  cases hb : bn s with
  | none => rfl
  | some n =>
    refine Finset.sum_congr rfl fun m hm => ?_
    rw [hV s n hb m (mem_range.1 hm), ha s n hb m (mem_range.1 hm)]

/-- Without a constant Jacobian on some boundary side there is no vector. -/
theorem c89_1_none (bn : Side → Option Nat) (V : Nat → (Fin 3 → ℝ) → Fin 3 → ℝ) (cJ : Side → Option ℝ) {s : Side} {n : Nat}
    (hs : bn s = some n) (hj : cJ s = none) : vec1 nx ny nz xs ys zs q e bn V cJ = none := by
  have hm : s ∈ sides6 := by cases s <;> simp [sides6]
  rw [vec1, if_neg]
  · exact fold_none sides6 bn (fun s n => sideVec1 nx ny nz xs ys zs q e s (V n) (cJ s)) _ ⟨s, hm, n, hs, by rw [hj]; rfl⟩
  · intro hall
    simp only [List.all_eq_true, Option.isNone_iff_eq_none] at hall
    rw [hall s hm] at hs
    exact absurd hs (by simp)

/-- **C89: functions are evaluated at the wrong points.**  The unit cube, degree 1, one point per direction; the function
`(0, x, 0)` is zero on the north side (`x = 0`), but the vector of the element is not. -/
theorem c89_1_counterexample : let V : Nat → (Fin 3 → ℝ) → Fin 3 → ℝ := fun _ x => ![0, x 0, 0]
    (∀ a b, V 0 (unitTe.el.map (twoCoord .N (a, b))) = 0) ∧
    ∃ v, vec1 [-1, 1] [-1, 1] [-1, 1] [0] [0] [0] (fun _ _ => 4) unitTe.el (fun s => if s = .N then some 0 else none) V
      (fun _ => some (1 / 4)) = some v ∧ v 4 = -1 / 2 := by
  intro V
  refine ⟨?_, _, rfl, ?_⟩
  · intro a b
    funext i
    fin_cases i <;> simp [V, unitTe, Te.el, Metric.Three.elementMap, Region.Three.orthogonal, twoCoord]
  · have d : ∀ m, unitTe.el.J m = fun j l => if j = l then 1 / 2 else 0 := by
      intro m
      funext j l
      rw [el_J]
      norm_num [half, unitTe, Te.len, Te.dif]
    simp [matrices, d, V, arrays, grid, Metric.Three.reconMatrix1, Metric.Three.hstack3, Metric.Three.basis1, scaleT,
      Basis.Three.kron3, kron, nodeBasis, edgeBasis, List.range_succ, lagrangeAt, node, Metric.Three.inverse]
    have he : edgeAt ([-1, 1] : List ℝ) 0 0 = 1 / 2 := by
      norm_num [edgeAt, derivAt, derivNodes, Basis.offDiag, cI, xiXj, lagrangeAt, node, List.range_succ]
    rw [he]
    norm_num
end

/-! ## 0-forms in 2D -/
section
open Mifem.Two

variable (nx ny xs ys wx wy : List ℝ)

/-- The number of points of a side, and the weights of the direction along it. -/
def pts2 (xs ys : List ℝ) : Side → Nat
  | .U | .D => ys.length
  | .L | .R => xs.length
@[inherit_doc pts2] def alongW (wx wy : List ℝ) : Side → List ℝ
  | .U | .D => wy
  | .L | .R => wx

/-- The point `m` of a side: the upper side has `ξ = -1`, the lower `ξ = 1`, the left `η = -1`, the right `η = 1`. -/
def sidePt (xs ys : List ℝ) (s : Side) (m : Nat) : Fin 2 → ℝ := fun a =>
  if a = 0 then (if s = .U then -1 else if s = .D then 1 else xs.getD m 0)
  else (if s = .L then -1 else if s = .R then 1 else ys.getD m 0)

/-- The value of a 0-form with the cochain `w` at one point `p` of the reference element, as `reconstruct` gives it. -/
noncomputable def at0 (w : Nat → ℝ) (p : Fin 2 → ℝ) : ℝ := Basis.Two.recon0 nx ny [p 0] [p 1] w 0

/-- The value of a 0-form at point `m` of a side. -/
noncomputable def onSide0 (w : Nat → ℝ) (s : Side) (m : Nat) : ℝ := at0 nx ny w (sidePt xs ys s m)

theorem grid1_eq (s : Side) (m : Nat) : grid1 xs ys s m = sidePt xs ys s m := by
  funext a
  fin_cases a <;> cases s <;> simp [grid1, sidePt]

theorem onSide0_eq (w : Nat → ℝ) (s : Side) (m : Nat) (hm : m < pts2 xs ys s) :
    Basis.Two.recon0 nx ny (arrays2 xs ys s 0) (arrays2 xs ys s 1) w m = onSide0 nx ny xs ys w s m := by
  have key : ∀ (X Y : List ℝ) (p : Fin 2 → ℝ), X.getD (m % X.length) 0 = p 0 → Y.getD (m / X.length) 0 = p 1 →
      Basis.Two.recon0 nx ny X Y w m = Basis.Two.recon0 nx ny [p 0] [p 1] w 0 := by
    intro X Y p h0 h1
    simp only [Basis.Two.recon0, Basis.Two.basis0, einsum, kron, nodeBasis, h0, h1, List.length_singleton,
      Nat.div_one, Nat.mod_one, List.getD_cons_zero]
  rw [onSide0, at0, key _ _ (sidePt xs ys s m)]
  all_goals cases s <;> simp only [arrays2, sidePt, pts2] at hm ⊢
  all_goals simp [Nat.mod_one, Nat.mod_eq_of_lt, hm, Nat.div_eq_of_lt hm]

theorem cols2d (s : Side) : (Basis.Two.basis0 nx ny (arrays2 xs ys s 0) (arrays2 xs ys s 1)).cols = pts2 xs ys s := by
  cases s <;> simp [Basis.Two.basis0, kron, nodeBasis, arrays2, pts2]

/-- **C89, 0-forms in 2D (partial).**  The same rule in both directions: if the functions have the same values at the points of the
reference element as at the mapped points, and the constant Jacobians are the lengths `g s` of the tangents, the vector paired
with a cochain is the quadrature of the product of form and function over the sides on the boundary.  Missing: other functions
(`c89_0_counterexample`); different rules, which raise an exception (`c89_0_degrees`). -/
theorem c89_0_partial (e : Disc.Two.El ℝ) (hr : wx = wy) (hp : xs.length = ys.length) (hw : wx.length = xs.length)
    (bn : Side → Option Nat) (f : Nat → (Fin 2 → ℝ) → ℝ)
    (g : Side → ℝ) (cJ : Side → Option ℝ) (hj : ∀ s n, bn s = some n → cJ s = some (g s))
    (hf : ∀ s n, bn s = some n → ∀ m < pts2 xs ys s, f n (sidePt xs ys s m) = f n (e.map (sidePt xs ys s m))) (w : Nat → ℝ) :
    ∃ v, vec0 nx ny xs ys wx wy bn f cJ = some v ∧
    ∑ b ∈ range (ny.length * nx.length), v b * w b = (sides4.map fun s => match bn s with
      | none => 0
      | some n => ∑ m ∈ range (pts2 xs ys s), (alongW wx wy s).getD m 0 * g s *
          (f n (e.map (sidePt xs ys s m)) * onSide0 nx ny xs ys w s m)).sum := by
  rw [vec0]
  split_ifs with hi
  · refine ⟨_, rfl, ?_⟩
    simp only [List.all_eq_true, Option.isNone_iff_eq_none] at hi
    rw [List.map_congr_left (g := fun _ => (0 : ℝ)) fun s hs => by simp only [hi s hs]]
    simp
  · obtain ⟨v, h1, h2⟩ := fold_sides sides4 bn (fun s n => sideVec0 nx ny xs ys wx wy s (f n) (cJ s))
      (fun s n => ∑ m ∈ range (pts2 xs ys s), (alongW wx wy s).getD m 0 * g s *
          (f n (e.map (sidePt xs ys s m)) * onSide0 nx ny xs ys w s m)) (ny.length * nx.length) w (fun _ => 0) (by
        intro s _ n hn
        have hl : (weights2 wx wy s).length = (Basis.Two.basis0 nx ny (arrays2 xs ys s 0) (arrays2 xs ys s 1)).cols := by
          rw [cols2d]
          subst hr
          cases s <;> simp [weights2, pts2] <;> omega
        have ha : weights2 wx wy s = alongW wx wy s := by subst hr; cases s <;> rfl
        rw [hj s n hn, sideVec0]
        simp only [hl, if_true, Option.map_some, Option.some.injEq, exists_eq_left']
        simp only [range_map_sum, Finset.sum_mul]
        rw [Finset.sum_comm, cols2d]
        refine Finset.sum_congr rfl fun m hm => ?_
        rw [← onSide0_eq nx ny xs ys w s m (mem_range.1 hm), Basis.Two.recon0, einsum, range_map_sum, grid1_eq,
          hf s n hn m (mem_range.1 hm), ha, Finset.mul_sum, Finset.mul_sum]
        exact Finset.sum_congr rfl fun b _ => by ring)
    refine ⟨v, h1, ?_⟩
    rw [h2]
    simp

/-- **C89: different degrees.**  If the rules of the two directions have different numbers of points, the vector of an element on
the boundary cannot be computed: the weights of the sides are exchanged. -/
theorem c89_0_degrees (hx : wx.length = xs.length) (hy : wy.length = ys.length) (h : xs.length ≠ ys.length)
    (bn : Side → Option Nat) (f : Nat → (Fin 2 → ℝ) → ℝ) (cJ : Side → Option ℝ) {s : Side} {n : Nat} (hs : bn s = some n) :
    vec0 nx ny xs ys wx wy bn f cJ = none := by
  have hm : s ∈ sides4 := by cases s <;> simp [sides4]
  rw [vec0, if_neg]
  · refine fold_none sides4 bn (fun s n => sideVec0 nx ny xs ys wx wy s (f n) (cJ s)) _ ⟨s, hm, n, hs, ?_⟩
    refine if_neg ?_
    rw [cols2d]
    cases s <;> simp [weights2, pts2] <;> omega
  · intro hall
    simp only [List.all_eq_true, Option.isNone_iff_eq_none] at hall
    rw [hall s hm] at hs
    exact absurd hs (by simp)

/-- The unit square as one element. -/
noncomputable def unitSquare : Disc.Two.El ℝ where
  map := fun v i => (v i + 1) / 2
  J := fun _ i j => if i = j then 1 / 2 else 0
  orth := true

/-- **C89: functions are evaluated at the wrong points (2D).**  The unit square, degree 1; the function `x` is zero on the upper side
(`x = 0`), but the vector of the element is not. -/
theorem c89_0_counterexample : (∀ b, unitSquare.map ![-1, b] 0 = 0) ∧
    ∃ v, vec0 [-1, 1] [-1, 1] [-1 / 2, 1 / 2] [-1 / 2, 1 / 2] [1, 1] [1, 1] (fun s => if s = .U then some 0 else none)
      (fun _ x => x 0) (fun _ => some (1 / 2)) = some v ∧ v 0 = -1 / 2 := by
  refine ⟨fun b => by simp [unitSquare], ?_⟩
  simp only [vec0, sides4, List.all_cons, if_true, Option.isNone_some, Bool.false_and, Bool.false_eq_true, if_false, List.foldlM_cons]
  rw [sideVec0, if_pos (by simp [weights2, Basis.Two.basis0, kron, nodeBasis, arrays2])]
  refine ⟨_, rfl, ?_⟩
  simp [grid1, weights2, Basis.Two.basis0, kron, nodeBasis, arrays2, List.range_succ, lagrangeAt, node]
  norm_num

/-- The hypotheses are met: constants on two sides of the unit square. -/
example (w : Nat → ℝ) : ∃ v, vec0 [-1, 0, 1] [-1, 1] [-1 / 2, 1 / 2] [-1 / 2, 1 / 2] [1, 1] [1, 1]
      (fun s => if s = .U then some 3 else if s = .R then some 5 else none)
      (fun n _ => n) (fun _ => some (1 / 2)) = some v ∧
    ∑ b ∈ range 6, v b * w b =
      ∑ m ∈ range 2, [1, 1].getD m 0 * (1 / 2) * (3 * onSide0 [-1, 0, 1] [-1, 1] [-1 / 2, 1 / 2] [-1 / 2, 1 / 2] w .U m) +
      ∑ m ∈ range 2, [1, 1].getD m 0 * (1 / 2) * (5 * onSide0 [-1, 0, 1] [-1, 1] [-1 / 2, 1 / 2] [-1 / 2, 1 / 2] w .R m) := by
  obtain ⟨v, h1, h2⟩ := c89_0_partial [-1, 0, 1] [-1, 1] [-1 / 2, 1 / 2] [-1 / 2, 1 / 2] [1, 1] [1, 1] unitSquare rfl rfl rfl
    (fun s => if s = .U then some 3 else if s = .R then some 5 else none) (fun n _ => n) (fun _ => 1 / 2) (fun _ => some (1 / 2))
    (fun _ _ _ => rfl) (fun _ _ _ _ _ => rfl) w
  refine ⟨v, h1, h2.trans ?_⟩
  simp [sides4, pts2, alongW]
end

/-! ## Local traces -/
section
open Mifem.Three

variable (nx ny nz xs ys zs : List ℝ) (e : Disc.Three.El ℝ) (s : Side) (q : Nat → ℝ)

/-- **C89, 0-local-traces.**  If the constant Jacobian is the area element of the side, the vector of the side holds the quadratures
of the products of the function, at the mapped points, with the basis functions. -/
theorem c89_lt0 (f : (Fin 3 → ℝ) → ℝ) (j : ℝ)
    (ha : ∀ m < pts xs ys zs s, j = areaEl e s (grid2 xs ys zs s m).1 (grid2 xs ys zs s m).2) :
    ∃ v, ltSideVec xs ys zs e s q (tb0 nx ny nz xs ys zs s) f (some j) = some v ∧
    ∀ u : Nat → ℝ, ∑ i ∈ range (tb0 nx ny nz xs ys zs s).rows, v i * u i = ∑ m ∈ range (pts xs ys zs s),
      q m * areaEl e s (grid2 xs ys zs s m).1 (grid2 xs ys zs s m).2 *
        (f (e.map (grid xs ys zs s m)) * rec0 nx ny nz xs ys zs s u m) := by
  refine ⟨_, rfl, fun u => ?_⟩
  simp only [range_map_sum, Finset.sum_mul]
  rw [Finset.sum_comm, cols0]
  refine Finset.sum_congr rfl fun m hm => ?_
  have hg : twoCoord s (grid2 xs ys zs s m) = grid xs ys zs s m := by cases s <;> rfl
  rw [← ha m (mem_range.1 hm), rec0, einsum, range_map_sum, Finset.mul_sum, Finset.mul_sum, hg]
  exact Finset.sum_congr rfl fun i _ => by ring

/-- **C89, 2-local-traces (partial).**  For these the vector is the quadrature *times the constant Jacobian*: the basis functions of
2-traces already contain the area.  Missing: the quadrature itself, unless the Jacobian is 1. -/
theorem c89_lt2_partial (f : (Fin 3 → ℝ) → ℝ) (j : ℝ) (hj : j ≠ 0)
    (ha : ∀ m < pts xs ys zs s, j = areaEl e s (grid2 xs ys zs s m).1 (grid2 xs ys zs s m).2) :
    ∃ v, ltSideVec xs ys zs e s q (tb2 nx ny nz xs ys zs s) f (some j) = some v ∧
    ∀ u : Nat → ℝ, ∑ i ∈ range (tb2 nx ny nz xs ys zs s).rows, v i * u i = j * ∑ m ∈ range (pts xs ys zs s),
      q m * areaEl e s (grid2 xs ys zs s m).1 (grid2 xs ys zs s m).2 *
        (f (e.map (grid xs ys zs s m)) * rec2 nx ny nz xs ys zs e s u m) := by
  refine ⟨_, rfl, fun u => ?_⟩
  simp only [range_map_sum, Finset.sum_mul]
  rw [Finset.sum_comm, cols2, Finset.mul_sum]
  refine Finset.sum_congr rfl fun m hm => ?_
  have hg : twoCoord s (grid2 xs ys zs s m) = grid xs ys zs s m := by cases s <;> rfl
  have h := ha m (mem_range.1 hm)
  rw [← h, rec2, ltRec2, range_map_sum, hg, metricAt_grid, metric_area, ← h, Finset.mul_sum, Finset.mul_sum, Finset.mul_sum]
  refine Finset.sum_congr rfl fun i _ => ?_
  field_simp

/-- **C89: 2-local-traces on the unit cube.**  The integral of the function 1 times the form with the single value 1 over a side is
1; the vector says 1/4. -/
theorem c89_lt2_counterexample : unitTe.Ok ∧ (∃ m, teMark 0 (.orthogonal unitTe.len) unitTe.sp unitTe.s = some m ∧
      constJacobian m = some (some (1 / 4))) ∧
    (∃ v, ltSideVec [0] [0] [0] unitTe.el .N (fun _ => 4) (tb2 [-1, 1] [-1, 1] [-1, 1] [0] [0] [0] .N) (fun _ => 1) (some (1 / 4)) = some v ∧
      v 0 = 1 / 4) ∧
    ∑ m ∈ range (pts [0] [0] [0] .N), 4 * areaEl unitTe.el .N (grid2 [0] [0] [0] .N m).1 (grid2 [0] [0] [0] .N m).2 *
        (1 * rec2 [-1, 1] [-1, 1] [-1, 1] [0] [0] [0] unitTe.el .N (fun _ => 1) m) = 1 := by
  have u : unitTe.Ok := ⟨fun _ => by norm_num [unitTe], fun _ => by norm_num [unitTe]⟩
  have he : edgeAt ([-1, 1] : List ℝ) 0 0 = 1 / 2 := by
    norm_num [edgeAt, derivAt, derivNodes, Basis.offDiag, cI, xiXj, lagrangeAt, node, List.range_succ]
  have ar : ∀ σ τ, areaEl unitTe.el .N σ τ = 1 / 4 := fun σ τ => by
    have := te_area u σ τ
    rw [show unitTe.s = Side.N from rfl] at this
    rw [this]
    norm_num [unitTe, Te.len, Te.dif, along]
  refine ⟨u, ?_, ⟨_, rfl, ?_⟩, ?_⟩
  · obtain ⟨m, r, h1, h2, h3⟩ := c87_jacobian_partial 0 u (by norm_num [unitTe, Te.len])
      (fun k => ⟨100000, by norm_num [unitTe, Te.dif]⟩) 0 0
    refine ⟨m, h1, ?_⟩
    rw [h2]
    have : (r : ℝ) = ((1 / 4 : ℚ) : ℝ) := by
      rw [h3, show unitTe.s = Side.N from rfl, ar]; norm_num
    rw [Rat.cast_injective this]
  · simp [tb2, kron, edgeBasis, he]
    norm_num
  · have p : pts [0] [0] [0] .N = 1 := rfl
    rw [p, Finset.sum_range_one, ar, rec2, ltRec2, metricAt_grid, metric_area, ar]
    simp [tb2, kron, edgeBasis, he]
    norm_num

/-- 0-local-traces on the north side of the unit cube. -/
example (f : (Fin 3 → ℝ) → ℝ) : ∃ v, ltSideVec [0] [-1 / 2, 1 / 2] [0] unitTe.el unitTe.s q
      (tb0 [-1, 1] [-1, 0, 1] [-1, 1] [0] [-1 / 2, 1 / 2] [0] unitTe.s) f (some (1 / 4)) = some v := by
  have u : unitTe.Ok := ⟨fun _ => by norm_num [unitTe], fun _ => by norm_num [unitTe]⟩
  obtain ⟨v, hv, -⟩ := c89_lt0 [-1, 1] [-1, 0, 1] [-1, 1] [0] [-1 / 2, 1 / 2] [0] unitTe.el unitTe.s q f (1 / 4) (fun m _ => by
    rw [te_area u]; norm_num [unitTe, Te.len, Te.dif])
  exact ⟨v, hv⟩

/-- A constant on the north side of the unit cube and the vector of a 1-form. -/
example (w : Nat → ℝ) : ∃ v, vec1 [-1, 1] [-1, 1] [-1, 1] [0] [0] [0] (fun _ _ => 4) unitTe.el
      (fun s => if s = .N then some 0 else none) (fun _ _ => ![0, 1, 0]) (fun _ => some (1 / 4)) = some v ∧
    ∑ b ∈ range 12, v b * w b = ∑ m ∈ range 1, 4 * areaEl unitTe.el .N 0 0 *
      dotV ![0, 1, 0] (onSide1 [-1, 1] [-1, 1] [-1, 1] [0] [0] [0] unitTe.el w .N m) := by
  have u : unitTe.Ok := ⟨fun _ => by norm_num [unitTe], fun _ => by norm_num [unitTe]⟩
  obtain ⟨v, h1, h2⟩ := c89_1_partial [-1, 1] [-1, 1] [-1, 1] [0] [0] [0] (fun _ _ => 4) (e := unitTe.el)
    (fun _ v j l h => by rw [el_J, if_neg h]) (by simp) (by simp) (by simp) (fun s => if s = .N then some 0 else none)
    (fun _ _ => ![0, 1, 0]) (fun _ => 1 / 4) (fun _ => some (1 / 4)) (fun _ _ _ => rfl) (fun s n hs m _ => by
      have : s = Side.N := by by_contra h; simp [h] at hs
      subst this
      have := te_area u (grid2 [0] [0] [0] .N m).1 (grid2 [0] [0] [0] .N m).2
      rw [show unitTe.s = Side.N from rfl] at this
      rw [this]
      norm_num [unitTe, Te.len, Te.dif]) (fun _ _ _ _ _ => rfl) w
  refine ⟨v, h1, ?_⟩
  have : num3 [-1, 1] [-1, 1] [-1, 1] = 12 := rfl
  rw [← this, h2]
  simp [sides6, pts, grid2]
end

end Mifem.Props
