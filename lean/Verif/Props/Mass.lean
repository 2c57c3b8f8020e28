import Verif.Props.Metric
import Verif.Lemmas.Unisolvent
import Mathlib.LinearAlgebra.Matrix.DotProduct

/-!
# C59: mass matrices are symmetric positive definite
-/

namespace Mifem.Props
open Mifem.Basis Mifem.Metric Finset

section
variable {K : Type*} [Field K] [LinearOrder K] [IsStrictOrderedRing K]

/-- Enough different quadrature points along one direction: at least as many as nodes. -/
structure Enough (nodes xs : List K) : Prop where
  acc : accepted nodes = true
  nodup : xs.Nodup
  len : nodes.length ≤ xs.length

theorem Enough.ne {nodes xs : List K} (h : Enough nodes xs) : nodes ≠ [] := by
  have := accepted_two h.acc
  rintro rfl; simp at this

theorem Enough.node {nodes xs : List K} (h : Enough nodes xs) : Unisolvent (nodeBasis nodes xs) :=
  unisolvent_node (accepted_distinct h.acc) h.nodup h.len
theorem Enough.edge {nodes xs : List K} (h : Enough nodes xs) : Unisolvent (edgeBasis nodes xs) :=
  unisolvent_edge (accepted_distinct h.acc) h.nodup (by have := h.len; omega)

theorem split_zero3 {R : Fin 3 → Nat} {a : Nat → K} (h : ∀ k, ∀ i < R k, a (off3 R k + i) = 0) :
    ∀ i < R 0 + R 1 + R 2, a i = 0 := by
  intro i hi
  by_cases h0 : i < R 0
  · have := h 0 i h0; simpa [off3] using this
  by_cases h1 : i < R 0 + R 1
  · have := h 1 (i - R 0) (by omega)
    simp only [off3, Matrix.cons_val_one, Matrix.cons_val_zero] at this
    rwa [show R 0 + (i - R 0) = i by omega] at this
  · have := h 2 (i - (R 0 + R 1)) (by omega)
    simp only [off3, Matrix.cons_val] at this
    rwa [show R 0 + R 1 + (i - (R 0 + R 1)) = i by omega] at this

theorem split_zero2 {R : Fin 2 → Nat} {a : Nat → K} (h : ∀ k, ∀ i < R k, a (off2 R k + i) = 0) :
    ∀ i < R 0 + R 1, a i = 0 := by
  intro i hi
  by_cases h0 : i < R 0
  · have := h 0 i h0; simpa [off2] using this
  · have := h 1 (i - R 0) (by omega)
    simp only [off2, Matrix.cons_val_one, Matrix.cons_val_zero] at this
    rwa [show R 0 + (i - R 0) = i by omega] at this

theorem dot_self_nonneg {n : Nat} (v : Fin n → K) : 0 ≤ dotProduct v v :=
  Finset.sum_nonneg fun i _ => mul_self_nonneg _

/-- C59 (3D, 1-forms). -/
theorem c59_1form_3d (orth : Bool) (A : Nat → M3 K) (delta : Fin 3 → K) (q : Nat → K) (nx ny nz xs ys zs : List K)
    (hx : Enough nx xs) (hy : Enough ny ys) (hz : Enough nz zs)
    (hq : ∀ m < zs.length * ys.length * xs.length, 0 < q m)
    (hJ : ∀ m, 0 < Matrix.det (Matrix.of (Three.jacobianMatrix orth (A m) delta))) (a : Nat → K)
    (ha : ∃ i < Mifem.Three.nb1 (nx.length - 1) (ny.length - 1) (nz.length - 1), a i ≠ 0) :
    let J := fun m => Three.jacobianMatrix orth (A m) delta
    0 < ∑ i ∈ range (Mifem.Three.nb1 (nx.length - 1) (ny.length - 1) (nz.length - 1)),
      ∑ j ∈ range (Mifem.Three.nb1 (nx.length - 1) (ny.length - 1) (nz.length - 1)),
        a i * Three.inner1 orth true J q (Three.basis1 nx ny nz xs ys zs) (Three.basis1 nx ny nz xs ys zs) i j * a j := by
  intro J
  rw [c56_1form_3d orth true A delta q nx ny nz nx ny nz xs ys zs hx.ne hy.ne hz.ne hx.ne hy.ne hz.ne
    (fun _ => ⟨rfl, rfl, rfl⟩) a a, quad3]
  refine sum_pos_of (q := fun m => q m * Matrix.det (Matrix.of (J m)))
    (fun m hm => mul_pos (hq m hm) (hJ m)) (fun m _ => dot_self_nonneg _) ?_
  by_contra hcon
  have hzero : ∀ m < zs.length * ys.length * xs.length,
      Three.reconstruct1 orth J nx ny nz xs ys zs a m = 0 := by
    intro m hm
    by_contra hne
    exact hcon ⟨m, hm, fun h => hne (dotProduct_self_eq_zero.1 h)⟩
  have hcomp : ∀ m < zs.length * ys.length * xs.length, Basis.Three.recon1 nx ny nz xs ys zs a m = (0, 0, 0) := by
    intro m hm
    have h1 := fun k => c54_line_3d orth (A m) delta (by rw [three_det]; exact (hJ m).ne')
      ![(Basis.Three.recon1 nx ny nz xs ys zs a m).1, (Basis.Three.recon1 nx ny nz xs ys zs a m).2.1,
        (Basis.Three.recon1 nx ny nz xs ys zs a m).2.2] k
    have h2 := hzero m hm
    simp only [Matrix.cons_val_zero, Matrix.cons_val_one, Matrix.cons_val] at h1
    change ∀ k, dotProduct (Three.reconstruct1 orth J nx ny nz xs ys zs a m) _ = _ at h1
    rw [h2] at h1
    simp only [zero_dotProduct] at h1
    exact Prod.ext (h1 0).symm (Prod.ext (h1 1).symm (h1 2).symm)
  obtain ⟨r0, r1, r2⟩ := rows3_1 hx.ne hy.ne hz.ne xs ys zs
  have hall := split_zero3 (R := fun k => (Three.basis1 nx ny nz xs ys zs k).rows) (a := a) (by
    intro k i hi
    have hm : ∀ m < zs.length * ys.length * xs.length, _ := hcomp
    simp only [recon1_eq hx.ne hy.ne hz.ne, Prod.mk.injEq] at hm
    have u0 : Unisolvent (Three.basis1 nx ny nz xs ys zs 0) :=
      unisolvent_kron (unisolvent_kron hz.node hy.node) hx.edge
    have u1 : Unisolvent (Three.basis1 nx ny nz xs ys zs 1) :=
      unisolvent_kron (unisolvent_kron hz.node hy.edge) hx.node
    have u2 : Unisolvent (Three.basis1 nx ny nz xs ys zs 2) :=
      unisolvent_kron (unisolvent_kron hz.edge hy.node) hx.node
    fin_cases k
    · have := u0 a (fun m h => (hm m (by rwa [cols3_1] at h)).1) i hi
      simpa [off3] using this
    · exact u1 _ (fun m h => (hm m (by rwa [cols3_1] at h)).2.1) i hi
    · exact u2 _ (fun m h => (hm m (by rwa [cols3_1] at h)).2.2) i hi)
  obtain ⟨i, hi, hne⟩ := ha
  refine hne (hall i ?_)
  rw [Mifem.Three.nb1, ← r0, ← r1, ← r2] at hi
  exact hi

/-- C59 (3D, 2-forms). -/
theorem c59_2form_3d (orth : Bool) (A : Nat → M3 K) (delta : Fin 3 → K) (q : Nat → K) (nx ny nz xs ys zs : List K)
    (hx : Enough nx xs) (hy : Enough ny ys) (hz : Enough nz zs)
    (hq : ∀ m < zs.length * ys.length * xs.length, 0 < q m)
    (hJ : ∀ m, 0 < Matrix.det (Matrix.of (Three.jacobianMatrix orth (A m) delta))) (a : Nat → K)
    (ha : ∃ i < Mifem.Three.nb2 (nx.length - 1) (ny.length - 1) (nz.length - 1), a i ≠ 0) :
    let J := fun m => Three.jacobianMatrix orth (A m) delta
    0 < ∑ i ∈ range (Mifem.Three.nb2 (nx.length - 1) (ny.length - 1) (nz.length - 1)),
      ∑ j ∈ range (Mifem.Three.nb2 (nx.length - 1) (ny.length - 1) (nz.length - 1)),
        a i * Three.inner2 orth true J q (Three.basis2 nx ny nz xs ys zs) (Three.basis2 nx ny nz xs ys zs) i j * a j := by
  intro J
  rw [c56_2form_3d orth true A delta q nx ny nz nx ny nz xs ys zs hx.ne hy.ne hz.ne hx.ne hy.ne hz.ne
    (fun _ => ⟨rfl, rfl, rfl⟩) a a, quad3]
  refine sum_pos_of (q := fun m => q m * Matrix.det (Matrix.of (J m)))
    (fun m hm => mul_pos (hq m hm) (hJ m)) (fun m _ => dot_self_nonneg _) ?_
  by_contra hcon
  have hzero : ∀ m < zs.length * ys.length * xs.length,
      Three.reconstruct2 orth J nx ny nz xs ys zs a m = 0 := by
    intro m hm
    by_contra hne
    exact hcon ⟨m, hm, fun h => hne (dotProduct_self_eq_zero.1 h)⟩
  have hcomp : ∀ m < zs.length * ys.length * xs.length, Basis.Three.recon2 nx ny nz xs ys zs a m = (0, 0, 0) := by
    intro m hm
    have h1 := fun k => c54_flux_3d orth (A m) delta (by rw [three_det]; exact (hJ m).ne')
      ![(Basis.Three.recon2 nx ny nz xs ys zs a m).1, (Basis.Three.recon2 nx ny nz xs ys zs a m).2.1,
        (Basis.Three.recon2 nx ny nz xs ys zs a m).2.2] k
    have h2 := hzero m hm
    simp only [Matrix.cons_val_zero, Matrix.cons_val_one, Matrix.cons_val] at h1
    change ∀ k, dotProduct (Three.reconstruct2 orth J nx ny nz xs ys zs a m) _ = _ at h1
    rw [h2] at h1
    simp only [zero_dotProduct] at h1
    exact Prod.ext (h1 0).symm (Prod.ext (h1 1).symm (h1 2).symm)
  obtain ⟨r0, r1, r2⟩ := rows3_2 hx.ne hy.ne hz.ne xs ys zs
  have hall := split_zero3 (R := fun k => (Three.basis2 nx ny nz xs ys zs k).rows) (a := a) (by
    intro k i hi
    have hm : ∀ m < zs.length * ys.length * xs.length, _ := hcomp
    simp only [recon2_eq hx.ne hy.ne hz.ne, Prod.mk.injEq] at hm
    have u0 : Unisolvent (Three.basis2 nx ny nz xs ys zs 0) :=
      unisolvent_kron (unisolvent_kron hz.edge hy.edge) hx.node
    have u1 : Unisolvent (Three.basis2 nx ny nz xs ys zs 1) :=
      unisolvent_kron (unisolvent_kron hz.edge hy.node) hx.edge
    have u2 : Unisolvent (Three.basis2 nx ny nz xs ys zs 2) :=
      unisolvent_kron (unisolvent_kron hz.node hy.edge) hx.edge
    fin_cases k
    · have := u0 a (fun m h => (hm m (by rwa [cols3_2] at h)).1) i hi
      simpa [off3] using this
    · exact u1 _ (fun m h => (hm m (by rwa [cols3_2] at h)).2.1) i hi
    · exact u2 _ (fun m h => (hm m (by rwa [cols3_2] at h)).2.2) i hi)
  obtain ⟨i, hi, hne⟩ := ha
  refine hne (hall i ?_)
  rw [Mifem.Three.nb2, ← r0, ← r1, ← r2] at hi
  exact hi

/-- C59 (2D, inner 1-forms). -/
theorem c59_inner_1form_2d (orth : Bool) (A : Nat → M2 K) (delta : Fin 2 → K) (q : Nat → K) (nx ny xs ys : List K)
    (hx : Enough nx xs) (hy : Enough ny ys) (hq : ∀ m < ys.length * xs.length, 0 < q m)
    (hJ : ∀ m, 0 < Matrix.det (Matrix.of (Two.jacobianMatrix orth (A m) delta))) (a : Nat → K)
    (ha : ∃ i < Mifem.Two.nbI1 (nx.length - 1) (ny.length - 1), a i ≠ 0) :
    let J := fun m => Two.jacobianMatrix orth (A m) delta
    0 < ∑ i ∈ range (Mifem.Two.nbI1 (nx.length - 1) (ny.length - 1)),
      ∑ j ∈ range (Mifem.Two.nbI1 (nx.length - 1) (ny.length - 1)),
        a i * Two.innerInner1 orth true J q (Two.basisInner1 nx ny xs ys) (Two.basisInner1 nx ny xs ys) i j * a j := by
  intro J
  rw [c56_inner_1form_2d orth true A delta q nx ny nx ny xs ys hx.ne hy.ne hx.ne hy.ne
    (fun _ => ⟨rfl, rfl⟩) a a, quad2]
  refine sum_pos_of (q := fun m => q m * Matrix.det (Matrix.of (J m)))
    (fun m hm => mul_pos (hq m hm) (hJ m)) (fun m _ => dot_self_nonneg _) ?_
  by_contra hcon
  have hzero : ∀ m < ys.length * xs.length, Two.reconstructInner1 orth J nx ny xs ys a m = 0 := by
    intro m hm
    by_contra hne
    exact hcon ⟨m, hm, fun h => hne (dotProduct_self_eq_zero.1 h)⟩
  have hcomp : ∀ m < ys.length * xs.length, Basis.Two.reconInner1 nx ny xs ys a m = (0, 0) := by
    intro m hm
    have h1 := fun k => c54_line_2d orth (A m) delta (by rw [two_det]; exact (hJ m).ne')
      ![(Basis.Two.reconInner1 nx ny xs ys a m).1, (Basis.Two.reconInner1 nx ny xs ys a m).2] k
    have h2 := hzero m hm
    simp only [Matrix.cons_val_zero, Matrix.cons_val_one] at h1
    change ∀ k, dotProduct (Two.reconstructInner1 orth J nx ny xs ys a m) _ = _ at h1
    rw [h2] at h1
    simp only [zero_dotProduct] at h1
    exact Prod.ext (h1 0).symm (h1 1).symm
  obtain ⟨r0, r1⟩ := rowsI hx.ne hy.ne xs ys
  have hall := split_zero2 (R := fun k => (Two.basisInner1 nx ny xs ys k).rows) (a := a) (by
    intro k i hi
    have hm : ∀ m < ys.length * xs.length, _ := hcomp
    simp only [reconI_eq hx.ne hy.ne, Prod.mk.injEq] at hm
    have u0 : Unisolvent (Two.basisInner1 nx ny xs ys 0) := unisolvent_kron hy.node hx.edge
    have u1 : Unisolvent (Two.basisInner1 nx ny xs ys 1) := unisolvent_kron hy.edge hx.node
    fin_cases k
    · have := u0 a (fun m h => (hm m (by rwa [colsI] at h)).1) i hi
      simpa [off2] using this
    · exact u1 _ (fun m h => (hm m (by rwa [colsI] at h)).2) i hi)
  obtain ⟨i, hi, hne⟩ := ha
  refine hne (hall i ?_)
  rw [Mifem.Two.nbI1, ← r0, ← r1] at hi
  exact hi

/-- C59 (2D, outer 1-forms). -/
theorem c59_outer_1form_2d (orth : Bool) (A : Nat → M2 K) (delta : Fin 2 → K) (q : Nat → K) (nx ny xs ys : List K)
    (hx : Enough nx xs) (hy : Enough ny ys) (hq : ∀ m < ys.length * xs.length, 0 < q m)
    (hJ : ∀ m, 0 < Matrix.det (Matrix.of (Two.jacobianMatrix orth (A m) delta))) (a : Nat → K)
    (ha : ∃ i < Mifem.Two.nbO1 (nx.length - 1) (ny.length - 1), a i ≠ 0) :
    let J := fun m => Two.jacobianMatrix orth (A m) delta
    0 < ∑ i ∈ range (Mifem.Two.nbO1 (nx.length - 1) (ny.length - 1)),
      ∑ j ∈ range (Mifem.Two.nbO1 (nx.length - 1) (ny.length - 1)),
        a i * Two.innerOuter1 orth true J q (Two.basisOuter1 nx ny xs ys) (Two.basisOuter1 nx ny xs ys) i j * a j := by
  intro J
  rw [c56_outer_1form_2d orth true A delta q nx ny nx ny xs ys hx.ne hy.ne hx.ne hy.ne
    (fun _ => ⟨rfl, rfl⟩) a a, quad2]
  refine sum_pos_of (q := fun m => q m * Matrix.det (Matrix.of (J m)))
    (fun m hm => mul_pos (hq m hm) (hJ m)) (fun m _ => dot_self_nonneg _) ?_
  by_contra hcon
  have hzero : ∀ m < ys.length * xs.length, Two.reconstructOuter1 orth J nx ny xs ys a m = 0 := by
    intro m hm
    by_contra hne
    exact hcon ⟨m, hm, fun h => hne (dotProduct_self_eq_zero.1 h)⟩
  have hcomp : ∀ m < ys.length * xs.length, Basis.Two.reconOuter1 nx ny xs ys a m = (0, 0) := by
    intro m hm
    have h1 := c54_flux_2d orth (A m) delta (by rw [two_det]; exact (hJ m).ne')
      (Basis.Two.reconOuter1 nx ny xs ys a m).1 (Basis.Two.reconOuter1 nx ny xs ys a m).2
    have h2 := hzero m hm
    change dotProduct (Two.reconstructOuter1 orth J nx ny xs ys a m) _ = _ ∧
      dotProduct (Two.reconstructOuter1 orth J nx ny xs ys a m) _ = _ at h1
    rw [h2] at h1
    simp only [zero_dotProduct] at h1
    exact Prod.ext h1.1.symm h1.2.symm
  obtain ⟨r0, r1⟩ := rowsO hx.ne hy.ne xs ys
  have hall := split_zero2 (R := fun k => (Two.basisOuter1 nx ny xs ys k).rows) (a := a) (by
    intro k i hi
    have hm : ∀ m < ys.length * xs.length, _ := hcomp
    simp only [reconO_eq hx.ne hy.ne, Prod.mk.injEq] at hm
    have u0 : Unisolvent (Two.basisOuter1 nx ny xs ys 0) := unisolvent_kron hy.edge hx.node
    have u1 : Unisolvent (Two.basisOuter1 nx ny xs ys 1) := unisolvent_kron hy.node hx.edge
    fin_cases k
    · have := u0 a (fun m h => (hm m (by rwa [colsO] at h)).1) i hi
      simpa [off2] using this
    · exact u1 _ (fun m h => (hm m (by rwa [colsO] at h)).2) i hi)
  obtain ⟨i, hi, hne⟩ := ha
  refine hne (hall i ?_)
  rw [Mifem.Two.nbO1, ← r0, ← r1] at hi
  exact hi

/-- Scalar-valued forms. -/
theorem scalar_pos {B : Arr K} (hB : Unisolvent B) {n : Nat} (hn : B.cols = n) {q : Nat → K} {F : Nat → K}
    (hq : ∀ m < n, 0 < q m) (a : Nat → K) (hF : ∀ m < n, F m = 0 → einsum B a m = 0) (ha : ∃ i < B.rows, a i ≠ 0) :
    0 < ∑ m ∈ range n, q m * (F m * F m) := by
  refine sum_pos_of hq (fun m _ => mul_self_nonneg _) ?_
  by_contra hcon
  obtain ⟨i, hi, hne⟩ := ha
  refine hne (hB a (fun m hm => ?_) i hi)
  rw [hn] at hm
  by_contra h
  exact hcon ⟨m, hm, fun h2 => h (hF m hm (mul_self_eq_zero.1 h2))⟩

/-- C59 (3D, 0-forms). -/
theorem c59_0form_3d (J : Nat → M3 K) (q : Nat → K) (nx ny nz xs ys zs : List K)
    (hx : Enough nx xs) (hy : Enough ny ys) (hz : Enough nz zs)
    (hq : ∀ m < zs.length * ys.length * xs.length, 0 < q m) (hJ : ∀ m, 0 < Matrix.det (Matrix.of (J m)))
    (a : Nat → K) (ha : ∃ i < nz.length * ny.length * nx.length, a i ≠ 0) :
    let B := Three.basis0 nx ny nz xs ys zs
    0 < ∑ i ∈ range (nz.length * ny.length * nx.length), ∑ j ∈ range (nz.length * ny.length * nx.length),
      a i * inner0 (fun m => Three.jacobian (J m)) q B B i j * a j := by
  intro B
  have := c56_0form_3d J q nx ny nz nx ny nz xs ys zs a a
  change ∑ i ∈ range (nz.length * ny.length * nx.length), ∑ j ∈ range (nz.length * ny.length * nx.length), _ = _ at this
  rw [this, quad3]
  exact scalar_pos (B := B) (q := fun m => q m * Matrix.det (Matrix.of (J m)))
    (unisolvent_kron (unisolvent_kron hz.node hy.node) hx.node) rfl
    (fun m hm => mul_pos (hq m hm) (hJ m)) a (fun m _ h => h) ha

/-- C59 (3D, 3-forms). -/
theorem c59_3form_3d (J : Nat → M3 K) (q : Nat → K) (nx ny nz xs ys zs : List K)
    (hx : Enough nx xs) (hy : Enough ny ys) (hz : Enough nz zs)
    (hq : ∀ m < zs.length * ys.length * xs.length, 0 < q m) (hJ : ∀ m, 0 < Matrix.det (Matrix.of (J m)))
    (a : Nat → K) (ha : ∃ i < (nz.length - 1) * (ny.length - 1) * (nx.length - 1), a i ≠ 0) :
    let B := Three.basis3 nx ny nz xs ys zs
    0 < ∑ i ∈ range ((nz.length - 1) * (ny.length - 1) * (nx.length - 1)),
      ∑ j ∈ range ((nz.length - 1) * (ny.length - 1) * (nx.length - 1)),
      a i * innerTop (fun m => Three.jacobian (J m)) q B B i j * a j := by
  intro B
  have := c56_3form_3d J (fun m => (hJ m).ne') q nx ny nz nx ny nz xs ys zs a a
  change ∑ i ∈ range ((nz.length - 1) * (ny.length - 1) * (nx.length - 1)),
    ∑ j ∈ range ((nz.length - 1) * (ny.length - 1) * (nx.length - 1)), _ = _ at this
  rw [this, quad3]
  refine scalar_pos (B := B) (q := fun m => q m * Matrix.det (Matrix.of (J m)))
    (unisolvent_kron (unisolvent_kron hz.edge hy.edge) hx.edge) rfl
    (fun m hm => mul_pos (hq m hm) (hJ m)) a (fun m _ h => ?_) ha
  have e := c54_volume_3d J m (by rw [three_det]; exact (hJ m).ne') nx ny nz xs ys zs a
  rw [h, zero_mul] at e
  exact e.symm

/-- C59 (2D, 0-forms). -/
theorem c59_0form_2d (J : Nat → M2 K) (q : Nat → K) (nx ny xs ys : List K) (hx : Enough nx xs) (hy : Enough ny ys)
    (hq : ∀ m < ys.length * xs.length, 0 < q m) (hJ : ∀ m, 0 < Matrix.det (Matrix.of (J m)))
    (a : Nat → K) (ha : ∃ i < ny.length * nx.length, a i ≠ 0) :
    let B := Basis.Two.basis0 nx ny xs ys
    0 < ∑ i ∈ range (ny.length * nx.length), ∑ j ∈ range (ny.length * nx.length),
      a i * inner0 (fun m => Two.jacobian (J m)) q B B i j * a j := by
  intro B
  have := c56_0form_2d J q nx ny nx ny xs ys a a
  change ∑ i ∈ range (ny.length * nx.length), ∑ j ∈ range (ny.length * nx.length), _ = _ at this
  rw [this, quad2]
  exact scalar_pos (B := B) (q := fun m => q m * Matrix.det (Matrix.of (J m)))
    (unisolvent_kron hy.node hx.node) rfl
    (fun m hm => mul_pos (hq m hm) (hJ m)) a (fun m _ h => h) ha

/-- C59 (2D, 2-forms). -/
theorem c59_2form_2d (J : Nat → M2 K) (q : Nat → K) (nx ny xs ys : List K) (hx : Enough nx xs) (hy : Enough ny ys)
    (hq : ∀ m < ys.length * xs.length, 0 < q m) (hJ : ∀ m, 0 < Matrix.det (Matrix.of (J m)))
    (a : Nat → K) (ha : ∃ i < (ny.length - 1) * (nx.length - 1), a i ≠ 0) :
    let B := Basis.Two.basis2 nx ny xs ys
    0 < ∑ i ∈ range ((ny.length - 1) * (nx.length - 1)), ∑ j ∈ range ((ny.length - 1) * (nx.length - 1)),
      a i * innerTop (fun m => Two.jacobian (J m)) q B B i j * a j := by
  intro B
  have := c56_2form_2d J (fun m => (hJ m).ne') q nx ny nx ny xs ys a a
  change ∑ i ∈ range ((ny.length - 1) * (nx.length - 1)), ∑ j ∈ range ((ny.length - 1) * (nx.length - 1)), _ = _ at this
  rw [this, quad2]
  refine scalar_pos (B := B) (q := fun m => q m * Matrix.det (Matrix.of (J m)))
    (unisolvent_kron hy.edge hx.edge) rfl
    (fun m hm => mul_pos (hq m hm) (hJ m)) a (fun m _ h => ?_) ha
  have e := c54_area_2d J m (by rw [two_det]; exact (hJ m).ne') nx ny xs ys a
  rw [h, zero_mul] at e
  exact e.symm

/-! ### symmetry -/

/-- An entry of a matrix in terms of its bilinear form. -/
theorem entry_form (M : Nat → Nat → K) (n : Nat) {i j : Nat} (hi : i < n) (hj : j < n) :
    ∑ i' ∈ range n, ∑ j' ∈ range n, (if i' = i then 1 else 0) * M i' j' * (if j' = j then 1 else 0) = M i j := by
  rw [Finset.sum_eq_single i]
  · rw [Finset.sum_eq_single j]
    · simp
    · intro b _ hb; simp [hb]
    · intro h; exact absurd (mem_range.2 hj) h
  · intro b _ hb; simp [hb]
  · intro h; exact absurd (mem_range.2 hi) h

/-- A matrix whose bilinear form is symmetric. -/
theorem symm_of_form (M : Nat → Nat → K) (n : Nat)
    (h : ∀ a b : Nat → K, ∑ i ∈ range n, ∑ j ∈ range n, a i * M i j * b j
      = ∑ i ∈ range n, ∑ j ∈ range n, b i * M i j * a j) (i j : Nat) (hi : i < n) (hj : j < n) : M i j = M j i := by
  have := h (fun i' => if i' = i then 1 else 0) (fun j' => if j' = j then 1 else 0)
  rwa [entry_form M n hi hj, entry_form M n hj hi] at this

theorem c59_symmetric_3d (orth same : Bool) (A : Nat → M3 K) (delta : Fin 3 → K) (q : Nat → K)
    (nx ny nz xs ys zs : List K) (hx : accepted nx = true) (hy : accepted ny = true) (hz : accepted nz = true) :
    let J := fun m => Three.jacobianMatrix orth (A m) delta
    let B1 := Three.basis1 nx ny nz xs ys zs
    let B2 := Three.basis2 nx ny nz xs ys zs
    (∀ i j, i < Mifem.Three.nb1 (nx.length - 1) (ny.length - 1) (nz.length - 1) →
      j < Mifem.Three.nb1 (nx.length - 1) (ny.length - 1) (nz.length - 1) →
      Three.inner1 orth same J q B1 B1 i j = Three.inner1 orth same J q B1 B1 j i) ∧
    (∀ i j, i < Mifem.Three.nb2 (nx.length - 1) (ny.length - 1) (nz.length - 1) →
      j < Mifem.Three.nb2 (nx.length - 1) (ny.length - 1) (nz.length - 1) →
      Three.inner2 orth same J q B2 B2 i j = Three.inner2 orth same J q B2 B2 j i) ∧
    (∀ i j, inner0 (fun m => Three.jacobian (J m)) q (Three.basis0 nx ny nz xs ys zs) (Three.basis0 nx ny nz xs ys zs) i j
      = inner0 (fun m => Three.jacobian (J m)) q (Three.basis0 nx ny nz xs ys zs) (Three.basis0 nx ny nz xs ys zs) j i) ∧
    (∀ i j, innerTop (fun m => Three.jacobian (J m)) q (Three.basis3 nx ny nz xs ys zs) (Three.basis3 nx ny nz xs ys zs) i j
      = innerTop (fun m => Three.jacobian (J m)) q (Three.basis3 nx ny nz xs ys zs) (Three.basis3 nx ny nz xs ys zs) j i) := by
  intro J B1 B2
  have ne : ∀ {l : List K}, accepted l = true → l ≠ [] := fun h => by
    have := accepted_two h
    rintro rfl; simp at this
  refine ⟨fun i j hi hj => symm_of_form _ _ (fun a b => ?_) i j hi hj,
    fun i j hi hj => symm_of_form _ _ (fun a b => ?_) i j hi hj, fun i j => ?_, fun i j => ?_⟩
  · rw [c56_1form_3d orth same A delta q nx ny nz nx ny nz xs ys zs (ne hx) (ne hy) (ne hz) (ne hx) (ne hy) (ne hz)
      (fun _ => ⟨rfl, rfl, rfl⟩) a b,
      c56_1form_3d orth same A delta q nx ny nz nx ny nz xs ys zs (ne hx) (ne hy) (ne hz) (ne hx) (ne hy) (ne hz)
      (fun _ => ⟨rfl, rfl, rfl⟩) b a]
    simp only [quad3, dotProduct_comm]
  · rw [c56_2form_3d orth same A delta q nx ny nz nx ny nz xs ys zs (ne hx) (ne hy) (ne hz) (ne hx) (ne hy) (ne hz)
      (fun _ => ⟨rfl, rfl, rfl⟩) a b,
      c56_2form_3d orth same A delta q nx ny nz nx ny nz xs ys zs (ne hx) (ne hy) (ne hz) (ne hx) (ne hy) (ne hz)
      (fun _ => ⟨rfl, rfl, rfl⟩) b a]
    simp only [quad3, dotProduct_comm]
  · simp only [inner0, mul_comm (Arr.e _ i _)]
  · simp only [innerTop, mul_comm (Arr.e _ i _)]

theorem c59_symmetric_2d (orth same : Bool) (A : Nat → M2 K) (delta : Fin 2 → K) (q : Nat → K)
    (nx ny xs ys : List K) (hx : accepted nx = true) (hy : accepted ny = true) :
    let J := fun m => Two.jacobianMatrix orth (A m) delta
    let B1 := Two.basisInner1 nx ny xs ys
    let B2 := Two.basisOuter1 nx ny xs ys
    (∀ i j, i < Mifem.Two.nbI1 (nx.length - 1) (ny.length - 1) → j < Mifem.Two.nbI1 (nx.length - 1) (ny.length - 1) →
      Two.innerInner1 orth same J q B1 B1 i j = Two.innerInner1 orth same J q B1 B1 j i) ∧
    (∀ i j, i < Mifem.Two.nbO1 (nx.length - 1) (ny.length - 1) → j < Mifem.Two.nbO1 (nx.length - 1) (ny.length - 1) →
      Two.innerOuter1 orth same J q B2 B2 i j = Two.innerOuter1 orth same J q B2 B2 j i) ∧
    (∀ i j, inner0 (fun m => Two.jacobian (J m)) q (Basis.Two.basis0 nx ny xs ys) (Basis.Two.basis0 nx ny xs ys) i j
      = inner0 (fun m => Two.jacobian (J m)) q (Basis.Two.basis0 nx ny xs ys) (Basis.Two.basis0 nx ny xs ys) j i) ∧
    (∀ i j, innerTop (fun m => Two.jacobian (J m)) q (Basis.Two.basis2 nx ny xs ys) (Basis.Two.basis2 nx ny xs ys) i j
      = innerTop (fun m => Two.jacobian (J m)) q (Basis.Two.basis2 nx ny xs ys) (Basis.Two.basis2 nx ny xs ys) j i) := by
  intro J B1 B2
  have ne : ∀ {l : List K}, accepted l = true → l ≠ [] := fun h => by
    have := accepted_two h
    rintro rfl; simp at this
  refine ⟨fun i j hi hj => symm_of_form _ _ (fun a b => ?_) i j hi hj,
    fun i j hi hj => symm_of_form _ _ (fun a b => ?_) i j hi hj, fun i j => ?_, fun i j => ?_⟩
  · rw [c56_inner_1form_2d orth same A delta q nx ny nx ny xs ys (ne hx) (ne hy) (ne hx) (ne hy)
      (fun _ => ⟨rfl, rfl⟩) a b,
      c56_inner_1form_2d orth same A delta q nx ny nx ny xs ys (ne hx) (ne hy) (ne hx) (ne hy)
      (fun _ => ⟨rfl, rfl⟩) b a]
    simp only [quad2, dotProduct_comm]
  · rw [c56_outer_1form_2d orth same A delta q nx ny nx ny xs ys (ne hx) (ne hy) (ne hx) (ne hy)
      (fun _ => ⟨rfl, rfl⟩) a b,
      c56_outer_1form_2d orth same A delta q nx ny nx ny xs ys (ne hx) (ne hy) (ne hx) (ne hy)
      (fun _ => ⟨rfl, rfl⟩) b a]
    simp only [quad2, dotProduct_comm]
  · simp only [inner0, mul_comm (Arr.e _ i _)]
  · simp only [innerTop, mul_comm (Arr.e _ i _)]

end

/-- Three nodes and three quadrature points are enough. -/
example : Enough ([-1, 0, 1] : List ℚ) [-3/4, 0, 3/4] := ⟨by decide +kernel, by decide +kernel, by decide⟩
example : ∀ m : Nat, 0 < Matrix.det (Matrix.of (Three.jacobianMatrix false
    ((fun _ => ![![2, 1, 0], ![0, 1, 1], ![1, 0, 3]] : Nat → M3 ℚ) m) ![1, 1 / 2, 1 / 4])) := by
  intro m; rw [Matrix.det_fin_three]; simp [Three.jacobianMatrix]; norm_num

end Mifem.Props
