import Verif.Props.TraceRec

/-! # C86: mass matrices on trace elements -/

namespace Mifem.Props
open Mifem.Basis Mifem.Metric Mifem.TraceDisc Mifem.TraceRec Mifem.Three Finset

/-- The area element of a side: the length of the cross product of its two tangents. -/
noncomputable def areaEl (e : Disc.Three.El ℝ) (s : Side) (σ τ : ℝ) : ℝ :=
  Real.sqrt (crossJ e s σ τ 0 ^ 2 + crossJ e s σ τ 1 ^ 2 + crossJ e s σ τ 2 ^ 2)

/-- The number of points of a grid on a side. -/
def pts (xs ys zs : List ℝ) : Side → Nat
  | .N | .S => zs.length * ys.length
  | .W | .E => zs.length * xs.length
  | .B | .F => ys.length * xs.length

/-- The numbers of values of 0-, 1- and 2-traces on a side. -/
def vals0 (nx ny nz : List ℝ) : Side → Nat
  | .N | .S => nz.length * ny.length
  | .W | .E => nz.length * nx.length
  | .B | .F => ny.length * nx.length
@[inherit_doc vals0] def vals1 (nx ny nz : List ℝ) : Side → Nat
  | .N | .S => nz.length * (ny.length - 1) + (nz.length - 1) * ny.length
  | .W | .E => nz.length * (nx.length - 1) + (nz.length - 1) * nx.length
  | .B | .F => ny.length * (nx.length - 1) + (ny.length - 1) * nx.length
@[inherit_doc vals0] def vals2 (nx ny nz : List ℝ) : Side → Nat
  | .N | .S => (nz.length - 1) * (ny.length - 1)
  | .W | .E => (nz.length - 1) * (nx.length - 1)
  | .B | .F => (ny.length - 1) * (nx.length - 1)

variable (nx ny nz xs ys zs : List ℝ) (e : Disc.Three.El ℝ) (s : Side)

theorem metric_area (a b : ℝ) : Real.sqrt (metric e s a b) = areaEl e s a b := by rw [metric_eq, areaEl]

theorem sizes (hy : ny ≠ []) (hz : nz ≠ []) : (tb0 nx ny nz xs ys zs s).rows = vals0 nx ny nz s ∧
    (tb1 nx ny nz xs ys zs s 0).rows + (tb1 nx ny nz xs ys zs s 1).rows = vals1 nx ny nz s ∧
    (tb1 nx ny nz xs ys zs s 0).rows = num1 nx ny nz s ∧
    (tb2 nx ny nz xs ys zs s).rows = vals2 nx ny nz s := by
  have a := List.length_pos_iff.2 hy
  have b := List.length_pos_iff.2 hz
  have a' : ny.length - 1 + 1 = ny.length := by omega
  have b' : nz.length - 1 + 1 = nz.length := by omega
  cases s <;> refine ⟨rfl, ?_, ?_, rfl⟩ <;> simp [tb1, kron, nodeBasis, edgeBasis, vals1, num1, a', b', Nat.mul_comm]

theorem cols0 : (tb0 nx ny nz xs ys zs s).cols = pts xs ys zs s := by cases s <;> rfl
theorem cols1 (k : Fin 2) : (tb1 nx ny nz xs ys zs s k).cols = pts xs ys zs s := by cases s <;> fin_cases k <;> rfl
theorem cols2 : (tb2 nx ny nz xs ys zs s).cols = pts xs ys zs s := by cases s <;> rfl

theorem wsum_gram {b b' : Arr ℝ} (h : b.cols = b'.cols) (f : Nat → ℝ) (i j : Nat) : wsum b b' f i j = Metric.gram f b b' i j := by
  rw [wsum, range_map_sum, gram_eq, h]
  exact Finset.sum_congr rfl fun m _ => by ring

theorem wsum_form (b : Arr ℝ) (f : Nat → ℝ) (u v : Nat → ℝ) :
    ∑ i ∈ range b.rows, ∑ j ∈ range b.rows, u i * wsum b b f i j * v j = ∑ m ∈ range b.cols, f m * (einsum b u m * einsum b v m) := by
  simp only [wsum_gram rfl]
  exact gram_form f b b u v

/-! ## The inner products -/

/-- **C86, 0-traces.**  The mass matrix gives the quadrature of the product of the two reconstructions over the surface. -/
theorem c86_0 (q u v : Nat → ℝ) :
    ∑ i ∈ range (vals0 nx ny nz s), ∑ j ∈ range (vals0 nx ny nz s), u i * mass0 nx ny nz xs ys zs e s q i j * v j =
      ∑ m ∈ range (pts xs ys zs s), q m * (areaEl e s (grid2 xs ys zs s m).1 (grid2 xs ys zs s m).2 *
        (rec0 nx ny nz xs ys zs s u m * rec0 nx ny nz xs ys zs s v m)) := by
  have h : vals0 nx ny nz s = (tb0 nx ny nz xs ys zs s).rows := by cases s <;> rfl
  rw [h]
  refine (wsum_form _ _ u v).trans ?_
  rw [cols0]
  refine Finset.sum_congr rfl fun m _ => ?_
  rw [metricAt_grid, metric_area, rec0, rec0]
  ring

/-- **C86, 2-traces.** -/
theorem c86_2 (q u v : Nat → ℝ) (hJ : ∀ m < pts xs ys zs s, Metric.Three.jacobian (e.J (grid xs ys zs s m)) ≠ 0) :
    ∑ i ∈ range (vals2 nx ny nz s), ∑ j ∈ range (vals2 nx ny nz s), u i * mass2 nx ny nz xs ys zs e s q i j * v j =
      ∑ m ∈ range (pts xs ys zs s), q m * (areaEl e s (grid2 xs ys zs s m).1 (grid2 xs ys zs s m).2 *
        (rec2 nx ny nz xs ys zs e s u m * rec2 nx ny nz xs ys zs e s v m)) := by
  have h : vals2 nx ny nz s = (tb2 nx ny nz xs ys zs s).rows := by cases s <;> rfl
  rw [h]
  refine (wsum_form _ _ u v).trans ?_
  rw [cols2]
  refine Finset.sum_congr rfl fun m hm => ?_
  have hp : 0 < metric e s (grid2 xs ys zs s m).1 (grid2 xs ys zs s m).2 :=
    side_metric_pos e s (by rw [← grid_eq]; exact hJ m (mem_range.1 hm))
  have hs := (Real.sqrt_pos.2 hp).ne'
  rw [rec2, rec2, ltRec2_eq, ltRec2_eq, metricAt_grid, ← metric_area]
  field_simp

/-- The inverse metric as products of rows of the inverse. -/
theorem iG_rows (x : Fin 3 → ℝ) (k l : Fin 2) : iGAt e s x (fam s k) (fam s l) =
    dotV (Metric.Three.inverse (e.J x) (![fst3 s, snd3 s] k)) (Metric.Three.inverse (e.J x) (![fst3 s, snd3 s] l)) := by
  cases s <;> fin_cases k <;> fin_cases l <;> simp [iGAt, iJAt, fst3, snd3, dotV, fam]

/-- The weight of two families. -/
noncomputable def weight1 (q : Nat → ℝ) (k l : Fin 2) (m : Nat) : ℝ := areaEl e s (grid2 xs ys zs s m).1 (grid2 xs ys zs s m).2 *
    dotV (Metric.Three.inverse (e.J (grid xs ys zs s m)) (![fst3 s, snd3 s] k))
      (Metric.Three.inverse (e.J (grid xs ys zs s m)) (![fst3 s, snd3 s] l)) * q m

theorem weight1_symm (q : Nat → ℝ) (k l : Fin 2) (m : Nat) : weight1 xs ys zs e s q k l m = weight1 xs ys zs e s q l k m := by
  rw [weight1, weight1, dotV_comm]

theorem wsum_weight1 (q : Nat → ℝ) (k l : Fin 2) (i j : Nat) :
    wsum (tb1 nx ny nz xs ys zs s k) (tb1 nx ny nz xs ys zs s l) (fun m =>
      Real.sqrt (metricAt e s (grid xs ys zs s m)) * iGAt e s (grid xs ys zs s m) (fam s k) (fam s l) * q m) i j =
      Metric.gram (weight1 xs ys zs e s q k l) (tb1 nx ny nz xs ys zs s k) (tb1 nx ny nz xs ys zs s l) i j := by
  rw [wsum_gram (by rw [cols1, cols1])]
  refine gram_congr _ _ i j fun m => ?_
  rw [metricAt_grid, metric_area, iG_rows, weight1]

theorem mass1_gram (orth : Bool) (q : Nat → ℝ)
    (ho : orth = true → ∀ m < pts xs ys zs s, dotV (Metric.Three.inverse (e.J (grid xs ys zs s m)) (fst3 s))
      (Metric.Three.inverse (e.J (grid xs ys zs s m)) (snd3 s)) = 0) (i j : Nat) :
    mass1 nx ny nz xs ys zs e s orth q i j =
      bmat2 (tb1 nx ny nz xs ys zs s 0).rows (tb1 nx ny nz xs ys zs s 0).rows (fun k l i j =>
        Metric.gram (weight1 xs ys zs e s q k l) (tb1 nx ny nz xs ys zs s k) (tb1 nx ny nz xs ys zs s l) i j) i j := by
  have hz0 : orth = true → ∀ i j,
      Metric.gram (weight1 xs ys zs e s q 0 1) (tb1 nx ny nz xs ys zs s 0) (tb1 nx ny nz xs ys zs s 1) i j = 0 := by
    intro h i j
    rw [gram_eq, cols1]
    refine Finset.sum_eq_zero fun m hm => ?_
    have h0 : weight1 xs ys zs e s q 0 1 m = 0 := by
      rw [weight1]
      simp only [Matrix.cons_val_zero, Matrix.cons_val_one, ho h m (mem_range.1 hm)]
      ring
    rw [h0]; ring
  have hsw : ∀ i j, Metric.gram (weight1 xs ys zs e s q 1 0) (tb1 nx ny nz xs ys zs s 1) (tb1 nx ny nz xs ys zs s 0) i j =
      Metric.gram (weight1 xs ys zs e s q 0 1) (tb1 nx ny nz xs ys zs s 0) (tb1 nx ny nz xs ys zs s 1) j i := by
    intro i j
    rw [gram_swap _ _ _ (by rw [cols1, cols1])]
    exact gram_congr _ _ j i fun m => weight1_symm xs ys zs e s q 1 0 m
  simp only [mass1, wsum_weight1]
  congr 1
  funext k l i j
  fin_cases k <;> fin_cases l <;> simp only [Fin.zero_eta, Fin.mk_one, reduceIte, Fin.isValue, zero_ne_one, one_ne_zero]
  · split
    · rename_i h; exact (hz0 h i j).symm
    · rfl
  · rw [hsw]
    split
    · rename_i h; exact (hz0 h j i).symm
    · rfl

/-- **C86, 1-traces.**  For elements marked as orthogonal the two directions along the side have to be orthogonal. -/
theorem c86_1 (hy : ny ≠ []) (hz : nz ≠ []) (orth : Bool) (q u v : Nat → ℝ)
    (ho : orth = true → ∀ m < pts xs ys zs s, dotV (Metric.Three.inverse (e.J (grid xs ys zs s m)) (fst3 s))
      (Metric.Three.inverse (e.J (grid xs ys zs s m)) (snd3 s)) = 0) :
    ∑ i ∈ range (vals1 nx ny nz s), ∑ j ∈ range (vals1 nx ny nz s), u i * mass1 nx ny nz xs ys zs e s orth q i j * v j =
      ∑ m ∈ range (pts xs ys zs s), q m * (areaEl e s (grid2 xs ys zs s m).1 (grid2 xs ys zs s m).2 *
        dotV (rec1 nx ny nz xs ys zs e s u m) (rec1 nx ny nz xs ys zs e s v m)) := by
  obtain ⟨_, h1, h2, _⟩ := sizes nx ny nz xs ys zs s hy hz
  rw [← h1]
  simp only [mass1_gram nx ny nz xs ys zs e s orth q ho]
  rw [bmat2_gram (pts xs ys zs s) (tb1 nx ny nz xs ys zs s) (tb1 nx ny nz xs ys zs s) (cols1 nx ny nz xs ys zs s)
    (weight1 xs ys zs e s q) _ (fun _ _ _ _ => rfl) u v]
  refine Finset.sum_congr rfl fun m _ => ?_
  have hr := fun (w : Nat → ℝ) j => rec1_rows nx ny nz xs ys zs e s w m j
  simp only [dotV, hr, Fin.sum_univ_two, off2, weight1, ← h2, Matrix.cons_val_zero, Matrix.cons_val_one, slice_zero]
  generalize einsum (tb1 nx ny nz xs ys zs s 0) u m = u0
  generalize einsum (tb1 nx ny nz xs ys zs s 0) v m = v0
  generalize einsum (tb1 nx ny nz xs ys zs s 1) _ m = u1
  generalize einsum (tb1 nx ny nz xs ys zs s 1) _ m = v1
  ring

/-! ## Symmetric and positive definite -/

/-- Enough points of the quadrature in both directions of a side. -/
def EnoughOn (nx ny nz xs ys zs : List ℝ) : Side → Prop
  | .N | .S => Enough ny ys ∧ Enough nz zs
  | .W | .E => Enough nx xs ∧ Enough nz zs
  | .B | .F => Enough nx xs ∧ Enough ny ys

variable {nx ny nz xs ys zs s}

theorem EnoughOn.uni (h : EnoughOn nx ny nz xs ys zs s) : Unisolvent (tb0 nx ny nz xs ys zs s) ∧
    Unisolvent (tb1 nx ny nz xs ys zs s 0) ∧ Unisolvent (tb1 nx ny nz xs ys zs s 1) ∧ Unisolvent (tb2 nx ny nz xs ys zs s) := by
  cases s <;> exact ⟨unisolvent_kron h.2.node h.1.node, unisolvent_kron h.2.node h.1.edge, unisolvent_kron h.2.edge h.1.node,
    unisolvent_kron h.2.edge h.1.edge⟩

theorem area_pos {e : Disc.Three.El ℝ} {m : Nat} (hJ : Metric.Three.jacobian (e.J (grid xs ys zs s m)) ≠ 0) :
    0 < areaEl e s (grid2 xs ys zs s m).1 (grid2 xs ys zs s m).2 := by
  rw [← metric_area]
  exact Real.sqrt_pos.2 (side_metric_pos e s (by rw [← grid_eq]; exact hJ))

/-- **C86, positive definite, 0-traces.** -/
theorem c86_pos_0 (hE : EnoughOn nx ny nz xs ys zs s) {q : Nat → ℝ} (hq : ∀ m < pts xs ys zs s, 0 < q m)
    (hJ : ∀ m < pts xs ys zs s, Metric.Three.jacobian (e.J (grid xs ys zs s m)) ≠ 0) (u : Nat → ℝ)
    (hu : ∃ i < vals0 nx ny nz s, u i ≠ 0) :
    0 < ∑ i ∈ range (vals0 nx ny nz s), ∑ j ∈ range (vals0 nx ny nz s), u i * mass0 nx ny nz xs ys zs e s q i j * u j := by
  rw [c86_0]
  simp only [← mul_assoc (q _)]
  refine scalar_pos hE.uni.1 (cols0 nx ny nz xs ys zs s) (fun m hm => mul_pos (hq m hm) (area_pos (hJ m hm))) u (fun m _ h => h) ?_
  have h : vals0 nx ny nz s = (tb0 nx ny nz xs ys zs s).rows := by cases s <;> rfl
  rwa [← h]

/-- **C86, positive definite, 2-traces.** -/
theorem c86_pos_2 (hE : EnoughOn nx ny nz xs ys zs s) {q : Nat → ℝ} (hq : ∀ m < pts xs ys zs s, 0 < q m)
    (hJ : ∀ m < pts xs ys zs s, Metric.Three.jacobian (e.J (grid xs ys zs s m)) ≠ 0) (u : Nat → ℝ)
    (hu : ∃ i < vals2 nx ny nz s, u i ≠ 0) :
    0 < ∑ i ∈ range (vals2 nx ny nz s), ∑ j ∈ range (vals2 nx ny nz s), u i * mass2 nx ny nz xs ys zs e s q i j * u j := by
  rw [c86_2 nx ny nz xs ys zs e s q u u hJ]
  simp only [← mul_assoc (q _)]
  refine scalar_pos hE.uni.2.2.2 (cols2 nx ny nz xs ys zs s) (fun m hm => mul_pos (hq m hm) (area_pos (hJ m hm))) u
    (fun m hm h => ?_) ?_
  · rw [rec2, ltRec2_eq, metricAt_grid, metric_area, div_eq_zero_iff] at h
    exact h.resolve_right (area_pos (hJ m hm)).ne'
  · have h : vals2 nx ny nz s = (tb2 nx ny nz xs ys zs s).rows := by cases s <;> rfl
    rwa [← h]

theorem dotV_self_nonneg (v : Fin 3 → ℝ) : 0 ≤ dotV v v := by
  simp only [dotV]; nlinarith [mul_self_nonneg (v 0), mul_self_nonneg (v 1), mul_self_nonneg (v 2)]

theorem dotV_self_zero {v : Fin 3 → ℝ} (h : dotV v v = 0) : v = 0 := by
  simp only [dotV] at h
  funext i
  have h0 : v 0 = 0 := by nlinarith [mul_self_nonneg (v 0), mul_self_nonneg (v 1), mul_self_nonneg (v 2)]
  have h1 : v 1 = 0 := by nlinarith [mul_self_nonneg (v 0), mul_self_nonneg (v 1), mul_self_nonneg (v 2)]
  have h2 : v 2 = 0 := by nlinarith [mul_self_nonneg (v 0), mul_self_nonneg (v 1), mul_self_nonneg (v 2)]
  fin_cases i <;> assumption

/-- The products of a reconstructed 1-trace with the tangents are the sums of the two families. -/
theorem rec1_tangent (w : Nat → ℝ) {m : Nat} (hJ : Metric.Three.jacobian (e.J (grid xs ys zs s m)) ≠ 0) :
    dotV (rec1 nx ny nz xs ys zs e s w m) (fun c => e.J (grid xs ys zs s m) c (fst3 s)) = einsum (tb1 nx ny nz xs ys zs s 0) w m ∧
      dotV (rec1 nx ny nz xs ys zs e s w m) (fun c => e.J (grid xs ys zs s m) c (snd3 s)) =
        einsum (tb1 nx ny nz xs ys zs s 1) (slice w (num1 nx ny nz s)) m := by
  have i00 := inv3_entry _ hJ (fst3 s) (fst3 s)
  have i01 := inv3_entry _ hJ (fst3 s) (snd3 s)
  have i10 := inv3_entry _ hJ (snd3 s) (fst3 s)
  have i11 := inv3_entry _ hJ (snd3 s) (snd3 s)
  have hne : fst3 s ≠ snd3 s := by cases s <;> decide
  rw [if_pos rfl] at i00 i11
  rw [if_neg hne] at i01
  rw [if_neg hne.symm] at i10
  simp only [dotV, rec1_rows]
  generalize einsum (tb1 nx ny nz xs ys zs s 0) w m = a
  generalize einsum (tb1 nx ny nz xs ys zs s 1) (slice w (num1 nx ny nz s)) m = b
  constructor
  · linear_combination a * i00 + b * i10
  · linear_combination a * i01 + b * i11

/-- **C86, positive definite, 1-traces.** -/
theorem c86_pos_1 (hy : ny ≠ []) (hz : nz ≠ []) (hE : EnoughOn nx ny nz xs ys zs s) {q : Nat → ℝ} (hq : ∀ m < pts xs ys zs s, 0 < q m)
    (hJ : ∀ m < pts xs ys zs s, Metric.Three.jacobian (e.J (grid xs ys zs s m)) ≠ 0) (orth : Bool)
    (ho : orth = true → ∀ m < pts xs ys zs s, dotV (Metric.Three.inverse (e.J (grid xs ys zs s m)) (fst3 s))
      (Metric.Three.inverse (e.J (grid xs ys zs s m)) (snd3 s)) = 0) (u : Nat → ℝ)
    (hu : ∃ i < vals1 nx ny nz s, u i ≠ 0) :
    0 < ∑ i ∈ range (vals1 nx ny nz s), ∑ j ∈ range (vals1 nx ny nz s), u i * mass1 nx ny nz xs ys zs e s orth q i j * u j := by
  rw [c86_1 nx ny nz xs ys zs e s hy hz orth q u u ho]
  simp only [← mul_assoc (q _)]
  refine sum_pos_of (fun m hm => mul_pos (hq m hm) (area_pos (hJ m hm))) (fun m _ => dotV_self_nonneg _) ?_
  by_contra hcon
  have hzero : ∀ m < pts xs ys zs s, einsum (tb1 nx ny nz xs ys zs s 0) u m = 0 ∧
      einsum (tb1 nx ny nz xs ys zs s 1) (slice u (num1 nx ny nz s)) m = 0 := by
    intro m hm
    have h0 : rec1 nx ny nz xs ys zs e s u m = 0 := by
      by_contra hne
      exact hcon ⟨m, hm, fun h => hne (dotV_self_zero h)⟩
    obtain ⟨h1, h2⟩ := rec1_tangent (nx := nx) (ny := ny) (nz := nz) e u (hJ m hm)
    rw [h0] at h1 h2
    refine ⟨h1.symm.trans ?_, h2.symm.trans ?_⟩ <;> simp [dotV]
  obtain ⟨_, h1, h2, _⟩ := sizes nx ny nz xs ys zs s hy hz
  obtain ⟨_, u0, u1, _⟩ := hE.uni
  have hall := split_zero2 (R := fun k => (tb1 nx ny nz xs ys zs s k).rows) (a := u) (by
    intro k i hi
    fin_cases k
    · have := u0 u (fun m h => (hzero m (by rwa [cols1] at h)).1) i hi
      simpa [off2] using this
    · have := u1 (slice u (num1 nx ny nz s)) (fun m h => (hzero m (by rwa [cols1] at h)).2) i hi
      simpa [off2, slice, h2] using this)
  obtain ⟨i, hi, hne⟩ := hu
  exact hne (hall i (by rw [← h1] at hi; exact hi))

variable (nx ny nz xs ys zs s)

/-- **C86, symmetric.** -/
theorem c86_symm (q : Nat → ℝ) (orth : Bool) (i j : Nat) :
    mass0 nx ny nz xs ys zs e s q i j = mass0 nx ny nz xs ys zs e s q j i ∧
      mass1 nx ny nz xs ys zs e s orth q i j = mass1 nx ny nz xs ys zs e s orth q j i ∧
      mass2 nx ny nz xs ys zs e s q i j = mass2 nx ny nz xs ys zs e s q j i := by
  have hw : ∀ (b : Arr ℝ) f i j, wsum b b f i j = wsum b b f j i := fun b f i j => by
    rw [wsum_gram rfl, wsum_gram rfl, gram_swap _ _ _ rfl]
  refine ⟨hw _ _ _ _, ?_, hw _ _ _ _⟩
  simp only [mass1, bmat2]
  by_cases hi : i < (tb1 nx ny nz xs ys zs s 0).rows <;> by_cases hj : j < (tb1 nx ny nz xs ys zs s 0).rows <;> simp [hi, hj, hw _ _ i j]
  exact hw _ _ _ _

/-! ## The quadrature -/

/-- **C86, quadrature.**  The sum over the points of a side with the weights of the side is the iterated sum over both
directions: first direction inside. -/
theorem c86_quadrature (wx wy wz : List ℝ) (hx : wx.length = xs.length) (hy : wy.length = ys.length) (F : ℝ × ℝ → ℝ) :
    let two := fun (wa as wb bs : List ℝ) => ∑ k ∈ range bs.length, ∑ j ∈ range as.length,
      wb.getD k 0 * wa.getD j 0 * F (as.getD j 0, bs.getD k 0)
    ∑ m ∈ range (pts xs ys zs s), qw wx wy wz s m * F (grid2 xs ys zs s m) =
      match s with
      | .N | .S => two wy ys wz zs
      | .W | .E => two wx xs wz zs
      | .B | .F => two wx xs wy ys := by
  intro two
  have key : ∀ (wa as wb bs : List ℝ), wa.length = as.length →
      ∑ m ∈ range (bs.length * as.length), wb.getD (m / wa.length) 0 * wa.getD (m % wa.length) 0 *
        F (as.getD (m % as.length) 0, bs.getD (m / as.length) 0) = two wa as wb bs := by
    intro wa as wb bs h
    rw [sum_range_mul]
    refine Finset.sum_congr rfl fun k _ => Finset.sum_congr rfl fun j hj => ?_
    have hj' := mem_range.1 hj
    have hp : 0 < as.length := by omega
    rw [h]
    have h0 : fIdx2 as.length j k = as.length * k + j := by simp only [fIdx2]; ring
    have h1 : fIdx2 as.length j k / as.length = k := by rw [h0, Nat.mul_add_div hp, Nat.div_eq_of_lt hj', Nat.add_zero]
    have h2 : fIdx2 as.length j k % as.length = j := by rw [h0, Nat.mul_add_mod, Nat.mod_eq_of_lt hj']
    rw [h1, h2]
  cases s
  · exact key wy ys wz zs hy
  · exact key wy ys wz zs hy
  · exact key wx xs wz zs hx
  · exact key wx xs wz zs hx
  · exact key wx xs wy ys hx
  · exact key wx xs wy ys hx

/-- Positive weights of the directions give positive weights of the side. -/
theorem qw_pos {wx wy wz : List ℝ} (hx : ∀ i < wx.length, 0 < wx.getD i 0) (hy : ∀ i < wy.length, 0 < wy.getD i 0)
    (hz : ∀ i < wz.length, 0 < wz.getD i 0) {m : Nat} (hm : m < pts wx wy wz s) : 0 < qw wx wy wz s m := by
  have key : ∀ {wa wb : List ℝ}, (∀ i < wa.length, 0 < wa.getD i 0) → (∀ i < wb.length, 0 < wb.getD i 0) →
      m < wb.length * wa.length → 0 < wb.getD (m / wa.length) 0 * wa.getD (m % wa.length) 0 := by
    intro wa wb ha hb h
    have hp : 0 < wa.length := by
      rcases Nat.eq_zero_or_pos wa.length with h0 | h0
      · rw [h0] at h; omega
      · exact h0
    exact mul_pos (hb _ (Nat.div_lt_of_lt_mul (by rwa [Nat.mul_comm]))) (ha _ (Nat.mod_lt _ hp))
  cases s
  · exact key hy hz hm
  · exact key hy hz hm
  · exact key hx hz hm
  · exact key hx hz hm
  · exact key hx hy hm
  · exact key hx hy hm

/-! ## From both elements, and local traces -/

section both
variable {e s} {e' : Disc.Three.El ℝ} {t : Side}

theorem wsum_congr {b : Arr ℝ} {f g : Nat → ℝ} (h : ∀ m < b.cols, f m = g m) (i j : Nat) : wsum b b f i j = wsum b b g i j := by
  rw [wsum, wsum, range_map_sum, range_map_sum]
  exact Finset.sum_congr rfl fun m hm => by rw [h m (mem_range.1 hm)]

/-- **C86.**  The mass matrices of 0- and 2-traces do not depend on the element from which the trace element is looked at.
For 1-traces they do (`c86_1_counterexample`). -/
theorem c86_both (he : SmoothEl3 e) (he' : SmoothEl3 e') (hp : parallel3 s t = true) {c : Fin 3 → ℝ}
    (hm : ∀ σ ∈ Ref, ∀ τ ∈ Ref, e.map (onSide3 s σ τ) = e'.map (onSide3 t σ τ) + c) (q : Nat → ℝ)
    (hg : ∀ m < pts xs ys zs s, (grid2 xs ys zs s m).1 ∈ Ref ∧ (grid2 xs ys zs s m).2 ∈ Ref) (i j : Nat) :
    mass0 nx ny nz xs ys zs e s q i j = mass0 nx ny nz xs ys zs e' t q i j ∧
      mass2 nx ny nz xs ys zs e s q i j = mass2 nx ny nz xs ys zs e' t q i j := by
  obtain ⟨b0, _, b2, g⟩ := tb_parallel nx ny nz xs ys zs hp
  have key : ∀ m < pts xs ys zs s, metricAt e s (grid xs ys zs s m) = metricAt e' t (grid xs ys zs t m) := by
    intro m h
    rw [metricAt_grid, metricAt_grid, ← g, metric_both he he' hp hm (hg m h).1 (hg m h).2]
  constructor
  · rw [mass0, mass0, ltMass0, ltMass0, ← b0]
    exact wsum_congr (fun m h => by rw [key m (by rwa [cols0] at h)]) i j
  · rw [mass2, mass2, ltMass2, ltMass2, ← b2]
    exact wsum_congr (fun m h => by rw [key m (by rwa [cols2] at h)]) i j

/-- **C86, local traces.**  The matrices of side `s` of an element `e`, computed with the metric of a trace element that belongs to
side `t` of the element `e'`, are the mass matrices of the side if the metric of `e'` is the same at both sides `s` and `t`.
Missing: without this the matrices are wrong (`c86_local_counterexample`). -/
theorem c86_local_partial (he : SmoothEl3 e) (he' : SmoothEl3 e') (hp : parallel3 s t = true) {c : Fin 3 → ℝ}
    (hm : ∀ σ ∈ Ref, ∀ τ ∈ Ref, e.map (onSide3 s σ τ) = e'.map (onSide3 t σ τ) + c) (q : Nat → ℝ)
    (hg : ∀ m < pts xs ys zs s, (grid2 xs ys zs s m).1 ∈ Ref ∧ (grid2 xs ys zs s m).2 ∈ Ref)
    (hs : ∀ m < pts xs ys zs s, metricAt e' t (grid xs ys zs s m) = metricAt e' t (grid xs ys zs t m)) (i j : Nat) :
    ltMass0 nx ny nz xs ys zs e' s t q i j = mass0 nx ny nz xs ys zs e s q i j ∧
      ltMass2 nx ny nz xs ys zs e' s t q i j = mass2 nx ny nz xs ys zs e s q i j := by
  obtain ⟨_, _, _, g⟩ := tb_parallel nx ny nz xs ys zs hp
  have key : ∀ m < pts xs ys zs s, metricAt e' t (grid xs ys zs s m) = metricAt e s (grid xs ys zs s m) := by
    intro m h
    rw [hs m h, metricAt_grid, metricAt_grid, ← g, metric_both he he' hp hm (hg m h).1 (hg m h).2]
  constructor
  · exact wsum_congr (fun m h => by rw [key m (by rwa [cols0] at h)]) i j
  · exact wsum_congr (fun m h => by rw [key m (by rwa [cols2] at h)]) i j

/-- **C86, reference computation.**  With the matrix of the reconstruction and the metric at two coordinates, the matrix of a
local 0-trace is always the mass matrix of the side. -/
theorem c86_brutal_0 (he : SmoothEl3 e) (he' : SmoothEl3 e') (hp : parallel3 s t = true) {c : Fin 3 → ℝ}
    (hm : ∀ σ ∈ Ref, ∀ τ ∈ Ref, e.map (onSide3 s σ τ) = e'.map (onSide3 t σ τ) + c) (q : Nat → ℝ)
    (hg : ∀ m < pts xs ys zs s, (grid2 xs ys zs s m).1 ∈ Ref ∧ (grid2 xs ys zs s m).2 ∈ Ref) (i j : Nat) :
    brutal xs ys zs e' s t (recMat0 nx ny nz xs ys zs s) q i j = mass0 nx ny nz xs ys zs e s q i j := by
  rw [brutal, mass0, ltMass0, wsum, range_map_sum, range_map_sum]
  refine Finset.sum_congr rfl fun m h => ?_
  have h' : m < pts xs ys zs s := by rw [← cols0 nx ny nz]; exact mem_range.1 h
  rw [metricAt_grid, metric_both he he' hp hm (hg m h').1 (hg m h').2]
  simp only [recMat0]
  ring

/-- **C86, reference computation, 2-traces.**  The matrix of the reconstruction uses the metric at three coordinates, so the same
restriction as in `c86_local_partial` is needed. -/
theorem c86_brutal_2_partial (he : SmoothEl3 e) (he' : SmoothEl3 e') (hp : parallel3 s t = true) {c : Fin 3 → ℝ}
    (hm : ∀ σ ∈ Ref, ∀ τ ∈ Ref, e.map (onSide3 s σ τ) = e'.map (onSide3 t σ τ) + c) (q : Nat → ℝ)
    (hg : ∀ m < pts xs ys zs s, (grid2 xs ys zs s m).1 ∈ Ref ∧ (grid2 xs ys zs s m).2 ∈ Ref)
    (hJ : ∀ m < pts xs ys zs s, Metric.Three.jacobian (e.J (grid xs ys zs s m)) ≠ 0)
    (hs : ∀ m < pts xs ys zs s, metricAt e' t (grid xs ys zs s m) = metricAt e' t (grid xs ys zs t m)) (i j : Nat) :
    brutal xs ys zs e' s t (recMat2 nx ny nz xs ys zs e' s t) q i j = mass2 nx ny nz xs ys zs e s q i j := by
  obtain ⟨_, _, _, g⟩ := tb_parallel nx ny nz xs ys zs hp
  rw [brutal, mass2, ltMass2, wsum, range_map_sum, range_map_sum]
  refine Finset.sum_congr rfl fun m h => ?_
  have h' : m < pts xs ys zs s := by rw [← cols2 nx ny nz]; exact mem_range.1 h
  have hpos : 0 < metric e s (grid2 xs ys zs s m).1 (grid2 xs ys zs s m).2 :=
    side_metric_pos e s (by rw [← grid_eq]; exact hJ m h')
  have hne := (Real.sqrt_pos.2 hpos).ne'
  simp only [recMat2]
  rw [hs m h', metricAt_grid, metricAt_grid, ← g, ← metric_both he he' hp hm (hg m h').1 (hg m h').2]
  field_simp

end both

/-- On the grid of one point with the skewed elements. -/
theorem skew_mass (e : Disc.Three.El ℝ) (s : Side) (hs : s = .N ∨ s = .S) : mass1 [-1, 1] [-1, 1] [-1, 1] [0] [0] [0] e s false (fun _ => 1) 0 0 =
    1 / 16 * (Real.sqrt (metricAt e s (grid [0] [0] [0] s 0)) * iGAt e s (grid [0] [0] [0] s 0) 0 0) := by
  rcases hs with rfl | rfl <;>
    (simp [mass1, bmat2, wsum, tb1, kron, nodeBasis, edgeBasis, lagrangeAt, edgeAt, derivAt, derivNodes, Basis.offDiag, cI, xiXj, node,
      fam, List.range_succ]; norm_num)

/-- **The mass matrix of 1-traces depends on the element**: two affine elements that share a side, the same values, matrices that
differ by the factor 2. -/
theorem c86_1_counterexample :
    mass1 [-1, 1] [-1, 1] [-1, 1] [0] [0] [0] skewA .S false (fun _ => 1) 0 0 =
      2 * mass1 [-1, 1] [-1, 1] [-1, 1] [0] [0] [0] skewB .N false (fun _ => 1) 0 0 ∧
    mass1 [-1, 1] [-1, 1] [-1, 1] [0] [0] [0] skewB .N false (fun _ => 1) 0 0 ≠ 0 := by
  rw [skew_mass skewA .S (Or.inr rfl), skew_mass skewB .N (Or.inl rfl)]
  have a : metricAt skewA .S (grid [0] [0] [0] .S 0) = 2 := by simp [metricAt, gramAt, jacAt, grid, skewA, affEl]; norm_num
  have b : metricAt skewB .N (grid [0] [0] [0] .N 0) = 2 := by simp [metricAt, gramAt, jacAt, grid, skewB, affEl]; norm_num
  have c : iGAt skewA .S (grid [0] [0] [0] .S 0) 0 0 = 1 := by
    simp [iGAt, iJAt, grid, skewA, affEl, Metric.Three.inverse]
  have d : iGAt skewB .N (grid [0] [0] [0] .N 0) 0 0 = 1 / 2 := by
    simp [iGAt, iJAt, grid, skewB, affEl, Metric.Three.inverse]; norm_num
  rw [a, b, c, d]
  refine ⟨by ring, ?_⟩
  have := Real.sqrt_pos.2 (show (0 : ℝ) < 2 by norm_num)
  positivity

/-- **The matrices of local traces are wrong** on side N of the box behind the tapered element: those of 0-forms a third, those of
2-forms three times (computed directly) or nine times (reference computation) the right ones. -/
theorem c86_local_counterexample (q : Nat → ℝ) (i j : Nat) :
    3 * ltMass0 [-1, 1] [-1, 1] [-1, 1] [0] [0] [0] taper .N .S q i j = mass0 [-1, 1] [-1, 1] [-1, 1] [0] [0] [0] behind .N q i j ∧
    ltMass2 [-1, 1] [-1, 1] [-1, 1] [0] [0] [0] taper .N .S q i j = 3 * mass2 [-1, 1] [-1, 1] [-1, 1] [0] [0] [0] behind .N q i j ∧
    brutal [0] [0] [0] taper .N .S (recMat2 [-1, 1] [-1, 1] [-1, 1] [0] [0] [0] taper .N .S) q i j =
      9 * mass2 [-1, 1] [-1, 1] [-1, 1] [0] [0] [0] behind .N q i j := by
  have h1 : metricAt taper .S (grid [0] [0] [0] .N 0) = 1 := by simp [metricAt, gramAt, jacAt, grid, taper]; norm_num
  have h2 : metricAt behind .N (grid [0] [0] [0] .N 0) = 3 ^ 2 := by simp [metricAt, gramAt, jacAt, grid, behind, affEl]; norm_num
  have h3 : metric taper .S (grid2 [0] [0] [0] .N 0).1 (grid2 [0] [0] [0] .N 0).2 = 3 ^ 2 := by
    rw [← metricAt_side]; simp [metricAt, gramAt, jacAt, onSide3, grid2, taper]; norm_num
  have h4 : Real.sqrt (3 ^ 2 : ℝ) = 3 := Real.sqrt_sq (by norm_num)
  have hc : (tb0 [-1, 1] [-1, 1] [-1, 1] [0] [0] [0] .N).cols = 1 := rfl
  have hc2 : (tb2 [-1, 1] [-1, 1] [-1, 1] [0] [0] [0] .N).cols = 1 := rfl
  have hr : (recMat2 [-1, 1] [-1, 1] [-1, 1] [0] [0] [0] taper .N .S).rows = 1 := rfl
  refine ⟨?_, ?_, ?_⟩
  · simp only [mass0, ltMass0, wsum, hc, List.range_succ, List.range_zero, List.nil_append, List.map_cons, List.map_nil, List.sum_cons,
      List.sum_nil, h1, h2, h4, Real.sqrt_one]; ring
  · simp only [mass2, ltMass2, wsum, hc2, List.range_succ, List.range_zero, List.nil_append, List.map_cons, List.map_nil, List.sum_cons,
      List.sum_nil, h1, h2, h4, Real.sqrt_one]; ring
  · simp only [brutal, mass2, ltMass2, wsum, hr, hc2, List.range_succ, List.range_zero, List.nil_append, List.map_cons, List.map_nil,
      List.sum_cons, List.sum_nil, h3, h4, recMat2, h1, h2, Real.sqrt_one]; ring

/-! ## Six sides, caches -/

/-- The sum of the forms of blocks, one after the other. -/
def blockForm : List (Nat × (Nat → Nat → ℝ)) → (Nat → ℝ) → (Nat → ℝ) → ℝ
  | [], _, _ => 0
  | (n, M) :: L, u, v => ∑ i ∈ range n, ∑ j ∈ range n, u i * M i j * v j + blockForm L (slice u n) (slice v n)

/-- **C86, all sides.**  The matrix of an element is the sum over its sides, each acting on its own values. -/
theorem c86_sides (L : List (Nat × (Nat → Nat → ℝ))) (u v : Nat → ℝ) :
    ∑ i ∈ range (L.map Prod.fst).sum, ∑ j ∈ range (L.map Prod.fst).sum, u i * diag6 L i j * v j = blockForm L u v := by
  induction L generalizing u v with
  | nil => simp [blockForm]
  | cons a L ih =>
    obtain ⟨n, M⟩ := a
    simp only [List.map_cons, List.sum_cons, blockForm, Finset.sum_range_add, ← ih, Finset.sum_add_distrib]
    have h1 : ∀ i ∈ range n, ∀ j ∈ range n, u i * diag6 ((n, M) :: L) i j * v j = u i * M i j * v j := by
      intro i hi j hj
      rw [diag6, if_pos ⟨mem_range.1 hi, mem_range.1 hj⟩]
    have h2 : ∀ i ∈ range n, ∀ j, u i * diag6 ((n, M) :: L) i (n + j) * v (n + j) = 0 := by
      intro i hi j
      have := mem_range.1 hi
      rw [diag6, if_neg (by omega), if_neg (by omega)]; ring
    have h3 : ∀ i, ∀ j ∈ range n, u (n + i) * diag6 ((n, M) :: L) (n + i) j * v j = 0 := by
      intro i j hj
      have := mem_range.1 hj
      rw [diag6, if_neg (by omega), if_neg (by omega)]; ring
    have h4 : ∀ i j, u (n + i) * diag6 ((n, M) :: L) (n + i) (n + j) * v (n + j) = slice u n i * diag6 L i j * slice v n j := by
      intro i j
      rw [diag6, if_neg (by omega), if_pos (by omega), slice, slice, Nat.add_sub_cancel_left, Nat.add_sub_cancel_left]
    rw [Finset.sum_congr rfl fun i hi => Finset.sum_congr rfl fun j hj => h1 i hi j hj,
      Finset.sum_congr (s₁ := range n) rfl fun i hi => Finset.sum_eq_zero fun j _ => h2 i hi j,
      Finset.sum_congr rfl fun i _ => Finset.sum_eq_zero fun j hj => h3 i j hj]
    simp only [h4, Finset.sum_const_zero, add_zero, zero_add]

theorem cached_inv {κ α : Type} [DecidableEq κ] (L : List (Option κ × α)) (d : List (κ × α))
    (h : ∀ k v v', (some k, v) ∈ L → (some k, v') ∈ L → v = v') (hd : ∀ k v v', d.lookup k = some v → (some k, v') ∈ L → v = v') :
    cached L d = L.map Prod.snd := by
  induction L generalizing d with
  | nil => rfl
  | cons a L ih =>
    have hL : ∀ k v v', (some k, v) ∈ L → (some k, v') ∈ L → v = v' := fun k v v' a b => h k v v' (by simp [a]) (by simp [b])
    obtain ⟨mk, v⟩ := a
    cases mk with
    | none => rw [cached, ih d hL fun k v v' a b => hd k v v' a (by simp [b])]; rfl
    | some k =>
      rw [cached]
      split
      · rename_i v' hv
        rw [hd k v' v hv (by simp), ih d hL fun k v v' a b => hd k v v' a (by simp [b])]; rfl
      · rw [ih _ hL]
        · rfl
        · intro k' w w' hw hw'
          rw [List.lookup_cons] at hw
          by_cases hk : k' = k
          · subst hk
            simp at hw
            exact hw ▸ h k' v w' (by simp) (by simp [hw'])
          · have : (k' == k) = false := by simpa using hk
            rw [this] at hw
            exact hd k' w w' hw (by simp [hw'])

/-- **C86, caches.**  Every trace element gets its own matrix if equal marks come with equal matrices. -/
theorem c86_cached {κ α : Type} [DecidableEq κ] (L : List (Option κ × α))
    (h : ∀ k v v', (some k, v) ∈ L → (some k, v') ∈ L → v = v') : cached L [] = L.map Prod.snd :=
  cached_inv L [] h (by simp)

/-! ## Cases that meet the hypotheses -/

theorem enough_three : Enough ([-1, 0, 1] : List ℝ) [-1 / 2, 0, 1 / 2] := by
  refine ⟨accepted_unit.1, ?_, by simp⟩
  norm_num [List.nodup_cons]

/-- Degree 2, three points in every direction, the skewed element: the matrix of 1-traces is positive definite on all sides. -/
example (s : Side) (u : Nat → ℝ) (hu : ∃ i < vals1 [-1, 0, 1] [-1, 0, 1] [-1, 0, 1] s, u i ≠ 0) :
    0 < ∑ i ∈ range (vals1 [-1, 0, 1] [-1, 0, 1] [-1, 0, 1] s), ∑ j ∈ range (vals1 [-1, 0, 1] [-1, 0, 1] [-1, 0, 1] s),
      u i * mass1 [-1, 0, 1] [-1, 0, 1] [-1, 0, 1] [-1 / 2, 0, 1 / 2] [-1 / 2, 0, 1 / 2] [-1 / 2, 0, 1 / 2] skewA s false
        (fun _ => 1) i j * u j :=
  c86_pos_1 skewA (by simp) (by simp) (by cases s <;> exact ⟨enough_three, enough_three⟩) (fun _ _ => one_pos)
    (fun _ _ => by simp [skewA, affEl, Metric.Three.jacobian]) false (by simp) u hu

/-- The matrices of 0- and 2-traces are the same from both skewed elements. -/
example (q : Nat → ℝ) (i j : Nat) :
    mass2 [-1, 0, 1] [-1, 1] [-1, 0, 1] [0] [-1 / 2, 1 / 2] [1 / 4, 1] skewA .S q i j =
      mass2 [-1, 0, 1] [-1, 1] [-1, 0, 1] [0] [-1 / 2, 1 / 2] [1 / 4, 1] skewB .N q i j :=
  (c86_both _ _ _ _ _ _ (affEl_smooth _ _) (affEl_smooth _ _) rfl skew_meet q (by
    intro m hm
    simp only [pts, List.length_cons, List.length_nil] at hm
    interval_cases m <;> simp [grid2, Ref] <;> norm_num) i j).2

/-- A cache with two marks and an element without a mark. -/
example : cached [(some 'x', 1), (none, 5), (some 'y', 2), (some 'x', 1)] [] = [1, 5, 2, 1] ∧
    cached [(some 'x', 1), (some 'x', 4)] [] = [1, 1] := by decide

end Mifem.Props
