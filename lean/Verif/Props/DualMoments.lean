import Verif.Props.DualForm

/-! # C94: the dual coboundary and exact moments

The dual cochain of a function or field is the vector of its integrals against the basis functions (its moments).  If the dual
cochains given to the dual coboundary are the moments of a field and of its trace, the result holds the moments of the
derivative of the field.  Everything is stated in the reference element `[-1,1]³`: products of a form with the pulled back
field do not depend on the metric. -/

namespace Mifem.Props
open Mifem.DualForm Mifem.Stokes Mifem.Basis Mifem.Three Mifem.TraceRec Mifem.TraceDisc Finset MeasureTheory

variable (nx ny nz : List ℝ)

/-- Where the values of a side start among the values of a trace form. -/
def firstT (len : Side → Nat) : Side → Nat
  | .N => 0
  | .S => len .N
  | .W => len .N + len .S
  | .E => len .N + len .S + len .W
  | .B => len .N + len .S + len .W + len .E
  | .F => len .N + len .S + len .W + len .E + len .B

/-- `D` are the moments of the function `f` against the basis functions of 3-forms. -/
def Mom3 (D : Nat → ℝ) (f : (Fin 3 → ℝ) → ℝ) : Prop :=
  ∀ w : Nat → ℝ, ∑ i ∈ range (nb3 (nx.length - 1) (ny.length - 1) (nz.length - 1)), w i * D i = ∫ P in cube, f P * at3 nx ny nz w P
/-- `D` are the moments of the field `g` against the basis functions of 2-forms. -/
def Mom2 (D : Nat → ℝ) (g : Fin 3 → (Fin 3 → ℝ) → ℝ) : Prop :=
  ∀ w : Nat → ℝ, ∑ i ∈ range (nb2 (nx.length - 1) (ny.length - 1) (nz.length - 1)), w i * D i =
    ∫ P in cube, ∑ c, g c P * at2 nx ny nz w P c
/-- `D` are the moments of the field `g` against the basis functions of 1-forms. -/
def Mom1 (D : Nat → ℝ) (g : Fin 3 → (Fin 3 → ℝ) → ℝ) : Prop :=
  ∀ w : Nat → ℝ, ∑ i ∈ range (nb1 (nx.length - 1) (ny.length - 1) (nz.length - 1)), w i * D i =
    ∫ P in cube, ∑ c, g c P * at1 nx ny nz w P c
/-- `D` are the moments of the function `f` against the basis functions of 0-forms. -/
def Mom0 (D : Nat → ℝ) (f : (Fin 3 → ℝ) → ℝ) : Prop :=
  ∀ w : Nat → ℝ, ∑ i ∈ range (nb0 (nx.length - 1) (ny.length - 1) (nz.length - 1)), w i * D i = ∫ P in cube, f P * at0 nx ny nz w P

/-- `D` are the moments of the function `f` against the basis functions of 2-traces, on all sides. -/
def MomT2 (D : Nat → ℝ) (f : (Fin 3 → ℝ) → ℝ) : Prop :=
  ∀ t : Nat → ℝ, ∑ j ∈ range (nbT2 (nx.length - 1) (ny.length - 1) (nz.length - 1)), t j * D j =
    (sides3.map fun s => onS s fun P =>
      f P * einsum (tb2 nx ny nz [P 0] [P 1] [P 2] s) (slice t (firstT (vals2 nx ny nz) s)) 0).sum

/-- `D` are the moments of the component of `g` across the sides against the basis functions of 0-traces. -/
def MomT0 (D : Nat → ℝ) (g : Fin 3 → (Fin 3 → ℝ) → ℝ) : Prop :=
  ∀ t : Nat → ℝ, ∑ j ∈ range (nbT0 (nx.length - 1) (ny.length - 1) (nz.length - 1)), t j * D j =
    (sides3.map fun s => onS s fun P =>
      g (nrm3 s) P * einsum (tb0 nx ny nz [P 0] [P 1] [P 2] s) (slice t (firstT (vals0 nx ny nz) s)) 0).sum

/-- The vector along a side with the two given components. -/
def tanV (s : Side) (a b : ℝ) : Fin 3 → ℝ := fun c => if c = fst3 s then a else if c = snd3 s then b else 0

/-- `D` are the moments of `g × n` against the basis functions `t` of 1-traces, `n` the unit vector across the side in positive
direction: `t · (g × n) = (t × g) · n`. -/
def MomT1 (D : Nat → ℝ) (g : Fin 3 → (Fin 3 → ℝ) → ℝ) : Prop :=
  ∀ t : Nat → ℝ, ∑ j ∈ range (nbT1 (nx.length - 1) (ny.length - 1) (nz.length - 1)), t j * D j =
    (sides3.map fun s => onS s fun P =>
      crossV (tanV s (einsum (tb1 nx ny nz [P 0] [P 1] [P 2] s 0) (slice t (firstT (vals1 nx ny nz) s)) 0)
        (einsum (tb1 nx ny nz [P 0] [P 1] [P 2] s 1) (slice t (firstT (vals1 nx ny nz) s + num1 nx ny nz s)) 0))
        (fun c => g c P) (nrm3 s)).sum

/-- The curl of a field. -/
noncomputable def curlF (g : Fin 3 → (Fin 3 → ℝ) → ℝ) (c : Fin 3) (P : Fin 3 → ℝ) : ℝ :=
  (![pd 1 (g 2) P - pd 2 (g 1) P, pd 2 (g 0) P - pd 0 (g 2) P, pd 0 (g 1) P - pd 1 (g 0) P] : Fin 3 → ℝ) c

/-! ## Traces -/

theorem firstT_block (dofs : Side → List Nat) (s : Side) : ∃ i, ∃ hi : i < sideSigns.length,
    sideSigns[i] = (s, outward3 s) ∧ blockStart dofs sideSigns i = firstT (fun s => (dofs s).length) s := by
  cases s
  · exact ⟨0, by decide, rfl, by simp [blockStart, firstT, sideSigns]⟩
  · exact ⟨1, by decide, rfl, by simp [blockStart, firstT, sideSigns]⟩
  · exact ⟨2, by decide, rfl, by simp [blockStart, firstT, sideSigns]⟩
  · exact ⟨3, by decide, rfl, by simp [blockStart, firstT, sideSigns]; ring⟩
  · exact ⟨4, by decide, rfl, by simp [blockStart, firstT, sideSigns]; ring⟩
  · exact ⟨5, by decide, rfl, by simp [blockStart, firstT, sideSigns]; ring⟩

theorem trace_slice (dofs : Side → List Nat) (n : Nat) (hlt : ∀ s, ∀ d ∈ dofs s, d < n) (v : Nat → ℝ) (s : Side) (k : Nat)
    (hk : k < (dofs s).length) :
    applyM n (matOf (traceAux dofs 0 sideSigns)) v (firstT (fun s => (dofs s).length) s + k) = outward3 s * takeAt (dofs s) v k := by
  obtain ⟨i, hi, h1, h2⟩ := firstT_block dofs s
  have hs : sideSigns[i].1 = s := by rw [h1]
  have := block_of_trace (dofs := dofs) (signs := sideSigns) (N := (sideSigns.map fun sv => (dofs sv.1).length).sum) (n := n)
    (E := matOf (traceAux dofs 0 sideSigns)) (x := v) rfl (applyM_trace dofs sideSigns rfl hlt v) i hi k (by rw [hs]; exact hk)
  rw [← h2, this]
  have e2 : sideSigns[i].2 = outward3 s := by rw [h1]
  rw [e2]
  congr 1
  rw [takeAt, List.getD_eq_getElem?_getD, List.getElem?_eq_getElem hk]
  simp [hs]

theorem einsum_congr (A : Arr ℝ) {u v : Nat → ℝ} (m : Nat) (h : ∀ i < A.rows, u i = v i) : einsum A u m = einsum A v m := by
  rw [einsum, einsum, range_map_sum, range_map_sum]
  exact Finset.sum_congr rfl fun i hi => by rw [h i (mem_range.1 hi)]

theorem einsum_smul (A : Arr ℝ) (c : ℝ) (u : Nat → ℝ) (m : Nat) : einsum A (fun i => c * u i) m = c * einsum A u m := by
  rw [einsum, einsum, range_map_sum, range_map_sum, Finset.mul_sum]
  exact Finset.sum_congr rfl fun i hi => by ring

variable {nx ny nz}

theorem lens (hx : accepted nx = true) (hy : accepted ny = true) (hz : accepted nz = true) (s : Side) :
    (dofs0 (nx.length - 1) (ny.length - 1) (nz.length - 1) s).length = vals0 nx ny nz s ∧
    (dofs1 (nx.length - 1) (ny.length - 1) (nz.length - 1) s).length = vals1 nx ny nz s ∧
    (dofs2 (nx.length - 1) (ny.length - 1) (nz.length - 1) s).length = vals2 nx ny nz s := by
  have ex := accepted_two hx; have ey := accepted_two hy; have ez := accepted_two hz
  have fx : nx.length - 1 + 1 = nx.length := by omega
  have fy : ny.length - 1 + 1 = ny.length := by omega
  have fz : nz.length - 1 + 1 = nz.length := by omega
  cases s <;> simp only [dofs0, dofs1, dofs2, vals0, vals1, vals2, List.length_append, _root_.Mifem.ravelF_length, fx, fy, fz] <;>
    refine ⟨by ring, by ring, by ring⟩

theorem grid_point (s : Side) (a b : ℝ) :
    let P := onSide3 s a b
    grid [P 0] [P 1] [P 2] s 0 = P := by
  cases s <;> simp [grid, onSide3]

theorem slice2 (hx : accepted nx = true) (hy : accepted ny = true) (hz : accepted nz = true) (v : Nat → ℝ) (s : Side) (a b : ℝ) :
    let P := onSide3 s a b
    einsum (tb2 nx ny nz [P 0] [P 1] [P 2] s) (slice (applyM (nb2 (nx.length - 1) (ny.length - 1) (nz.length - 1))
      (trace2 (nx.length - 1) (ny.length - 1) (nz.length - 1)) v) (firstT (vals2 nx ny nz) s)) 0 = outward3 s * at2 nx ny nz v P (nrm3 s) := by
  intro P
  have hl : vals2 nx ny nz = fun s => (dofs2 (nx.length - 1) (ny.length - 1) (nz.length - 1) s).length :=
    funext fun s => (lens hx hy hz s).2.2.symm
  have hr : (tb2 nx ny nz [P 0] [P 1] [P 2] s).rows = (dofs2 (nx.length - 1) (ny.length - 1) (nz.length - 1) s).length := by
    rw [(lens hx hy hz s).2.2]; cases s <;> rfl
  rw [einsum_congr _ (v := fun i => (outward3 s : ℝ) * takeAt (dofs2 (nx.length - 1) (ny.length - 1) (nz.length - 1) s) v i) 0 fun i hi => ?_,
    einsum_smul, comp_2 nx ny nz _ _ _ s hx hy hz v 0]
  · have := grid_point s a b
    simp only [P, this]
    rfl
  · rw [slice, hl]
    exact trace_slice _ _ (dofs2_lt _ _ _) v s i (by rw [← hr]; exact hi)

theorem slice0 (hx : accepted nx = true) (hy : accepted ny = true) (hz : accepted nz = true) (v : Nat → ℝ) (s : Side) (a b : ℝ) :
    let P := onSide3 s a b
    einsum (tb0 nx ny nz [P 0] [P 1] [P 2] s) (slice (applyM (nb0 (nx.length - 1) (ny.length - 1) (nz.length - 1))
      (trace0 (nx.length - 1) (ny.length - 1) (nz.length - 1)) v) (firstT (vals0 nx ny nz) s)) 0 = outward3 s * at0 nx ny nz v P := by
  intro P
  have hl : vals0 nx ny nz = fun s => (dofs0 (nx.length - 1) (ny.length - 1) (nz.length - 1) s).length :=
    funext fun s => (lens hx hy hz s).1.symm
  have hr : (tb0 nx ny nz [P 0] [P 1] [P 2] s).rows = (dofs0 (nx.length - 1) (ny.length - 1) (nz.length - 1) s).length := by
    rw [(lens hx hy hz s).1]; cases s <;> rfl
  rw [einsum_congr _ (v := fun i => (outward3 s : ℝ) * takeAt (dofs0 (nx.length - 1) (ny.length - 1) (nz.length - 1) s) v i) 0 fun i hi => ?_,
    einsum_smul]
  · have h := c85_0 nx ny nz [P 0] [P 1] [P 2] s hx hy hz v 0
    rw [rec0] at h
    rw [h]
    have := grid_point s a b
    simp only [P, this]
    rfl
  · rw [slice, hl]
    exact trace_slice _ _ (dofs0_lt _ _ _) v s i (by rw [← hr]; exact hi)

theorem slice1 (hx : accepted nx = true) (hy : accepted ny = true) (hz : accepted nz = true) (v : Nat → ℝ) (s : Side) (a b : ℝ) :
    let P := onSide3 s a b
    let t := applyM (nb1 (nx.length - 1) (ny.length - 1) (nz.length - 1)) (trace1 (nx.length - 1) (ny.length - 1) (nz.length - 1)) v
    einsum (tb1 nx ny nz [P 0] [P 1] [P 2] s 0) (slice t (firstT (vals1 nx ny nz) s)) 0 = outward3 s * at1 nx ny nz v P (fst3 s) ∧
    einsum (tb1 nx ny nz [P 0] [P 1] [P 2] s 1) (slice t (firstT (vals1 nx ny nz) s + num1 nx ny nz s)) 0 =
      outward3 s * at1 nx ny nz v P (snd3 s) := by
  intro P t
  have hl : vals1 nx ny nz = fun s => (dofs1 (nx.length - 1) (ny.length - 1) (nz.length - 1) s).length :=
    funext fun s => (lens hx hy hz s).2.1.symm
  have ey := accepted_two hy; have ez := accepted_two hz
  obtain ⟨_, r1, r2, _⟩ := sizes nx ny nz [P 0] [P 1] [P 2] s (by rintro rfl; simp at ey) (by rintro rfl; simp at ez)
  have r1' : (tb1 nx ny nz [P 0] [P 1] [P 2] s 0).rows + (tb1 nx ny nz [P 0] [P 1] [P 2] s 1).rows =
      (dofs1 (nx.length - 1) (ny.length - 1) (nz.length - 1) s).length := by rw [(lens hx hy hz s).2.1, ← r1]
  obtain ⟨c0, c1⟩ := comp_1 nx ny nz [P 0] [P 1] [P 2] s hx hy hz v 0
  have hg := grid_point s a b
  constructor
  · rw [einsum_congr _ (v := fun i => (outward3 s : ℝ) * takeAt (dofs1 (nx.length - 1) (ny.length - 1) (nz.length - 1) s) v i) 0 fun i hi => ?_,
      einsum_smul, c0]
    · simp only [P, hg]
      rfl
    · rw [slice, hl]
      exact trace_slice _ _ (dofs1_lt _ _ _) v s i (by omega)
  · rw [einsum_congr _ (v := fun i => (outward3 s : ℝ) *
      slice (takeAt (dofs1 (nx.length - 1) (ny.length - 1) (nz.length - 1) s) v) (num1 nx ny nz s) i) 0 fun i hi => ?_,
      einsum_smul, c1]
    · simp only [P, hg]
      rfl
    · rw [slice, hl, Nat.add_assoc]
      exact trace_slice _ _ (dofs1_lt _ _ _) v s (num1 nx ny nz s + i) (by omega)

/-! ## Derivatives of the reconstructions -/

theorem at1_grad (hx : accepted nx = true) (hy : accepted ny = true) (hz : accepted nz = true) (v : Nat → ℝ) (P : Fin 3 → ℝ)
    (c : Fin 3) :
    at1 nx ny nz (applyM (nb0 (nx.length - 1) (ny.length - 1) (nz.length - 1)) (grad (nx.length - 1) (ny.length - 1) (nz.length - 1)) v) P c =
      pd c (at0 nx ny nz v) P := by
  obtain ⟨h0, h1, h2⟩ := c51_grad hx hy hz v (P 0) (P 1) (P 2)
  have e (d : Fin 3) (x : ℝ) (h : HasDerivAt (fun t => at0 nx ny nz v (Function.update P d t)) x (P d)) :
      pd d (at0 nx ny nz v) P = x := pd_eq (contDiff_at0 nx ny nz v) h
  fin_cases c
  · exact (e 0 _ (by simpa [at0, at1, comp3, Function.update] using h0)).symm
  · exact (e 1 _ (by simpa [at0, at1, comp3, Function.update] using h1)).symm
  · exact (e 2 _ (by simpa [at0, at1, comp3, Function.update] using h2)).symm

theorem at2_curl (hx : accepted nx = true) (hy : accepted ny = true) (hz : accepted nz = true) (v : Nat → ℝ) (P : Fin 3 → ℝ)
    (c : Fin 3) :
    at2 nx ny nz (applyM (nb1 (nx.length - 1) (ny.length - 1) (nz.length - 1)) (curl (nx.length - 1) (ny.length - 1) (nz.length - 1)) v) P c =
      curlF (fun c Q => at1 nx ny nz v Q c) c P := by
  obtain ⟨⟨a0, b0, ha0, hb0, h0⟩, ⟨a1, b1, ha1, hb1, h1⟩, ⟨a2, b2, ha2, hb2, h2⟩⟩ := c51_curl hx hy hz v (P 0) (P 1) (P 2)
  have e (c d : Fin 3) (x : ℝ) (h : HasDerivAt (fun t => at1 nx ny nz v (Function.update P d t) c) x (P d)) :
      pd d (fun Q => at1 nx ny nz v Q c) P = x := pd_eq (contDiff_at1 nx ny nz v c) h
  fin_cases c
  · refine h0.trans ?_
    rw [← e 2 1 a0 (by simpa [at1, comp3, Function.update] using ha0), ← e 1 2 b0 (by simpa [at1, comp3, Function.update] using hb0)]
    rfl
  · refine h1.trans ?_
    rw [← e 0 2 a1 (by simpa [at1, comp3, Function.update] using ha1), ← e 2 0 b1 (by simpa [at1, comp3, Function.update] using hb1)]
    rfl
  · refine h2.trans ?_
    rw [← e 1 0 a2 (by simpa [at1, comp3, Function.update] using ha2), ← e 0 1 b2 (by simpa [at1, comp3, Function.update] using hb2)]
    rfl

theorem at3_div (hx : accepted nx = true) (hy : accepted ny = true) (hz : accepted nz = true) (v : Nat → ℝ) (P : Fin 3 → ℝ) :
    at3 nx ny nz (applyM (nb2 (nx.length - 1) (ny.length - 1) (nz.length - 1)) (Three.div (nx.length - 1) (ny.length - 1) (nz.length - 1)) v) P =
      ∑ c, pd c (fun Q => at2 nx ny nz v Q c) P := by
  obtain ⟨a, b, c, ha, hb, hc, h⟩ := c51_div hx hy hz v (P 0) (P 1) (P 2)
  have e (c d : Fin 3) (x : ℝ) (h : HasDerivAt (fun t => at2 nx ny nz v (Function.update P d t) c) x (P d)) :
      pd d (fun Q => at2 nx ny nz v Q c) P = x := pd_eq (contDiff_at2 nx ny nz v c) h
  refine h.trans ?_
  rw [Fin.sum_univ_three, e 0 0 a (by simpa [at2, comp3, Function.update] using ha), e 1 1 b (by simpa [at2, comp3, Function.update] using hb),
    e 2 2 c (by simpa [at2, comp3, Function.update] using hc)]

theorem onS_congr (s : Side) {g h : (Fin 3 → ℝ) → ℝ} (e : ∀ a b, g (onSide3 s a b) = h (onSide3 s a b)) : onS s g = onS s h := by
  rw [onS, onS]; exact integral_congr_ae (Filter.Eventually.of_forall fun q => e _ _)

theorem onS_smul (s : Side) (c : ℝ) (g : (Fin 3 → ℝ) → ℝ) : onS s (fun P => c * g P) = c * onS s g := by
  rw [onS, onS, integral_const_mul]

theorem integrable_cube {g : (Fin 3 → ℝ) → ℝ} (hg : Continuous g) : Integrable g (volume.restrict cube) :=
  Continuous.integrableOn_Icc hg

theorem integrable_dot {a b : Fin 3 → (Fin 3 → ℝ) → ℝ} (ha : ∀ c, Continuous (a c)) (hb : ∀ c, Continuous (b c)) :
    Integrable (fun P => ∑ c, a c P * b c P) (volume.restrict cube) :=
  integrable_cube (continuous_finsetSum _ fun c _ => (ha c).mul (hb c))

/-! ## The theorems -/

/-- **C94, gradient.**  For a dual 3-form holding the moments of a function `f` and a dual 2-trace holding the moments of `f` on
the sides, the dual coboundary holds the moments of the gradient of `f`. -/
theorem c94_grad (hx : accepted nx = true) (hy : accepted ny = true) (hz : accepted nz = true) (els : List Nat) (df dt : Dual)
    (k : Nat) (l : Local) (h : coboundary (nx.length - 1) (ny.length - 1) (nz.length - 1) els df dt = some (k, l)) (hk : df.k = 3)
    (i : Nat) (hi : i ∈ els) (D T : Nat → ℝ) (hD : df.loc i = some D) (hT : dt.loc i = some T) (f : (Fin 3 → ℝ) → ℝ)
    (hf : ContDiff ℝ 1 f) (mD : Mom3 nx ny nz D f) (mT : MomT2 nx ny nz T f) :
    ∃ u, l.lookup i = some u ∧ Mom2 nx ny nz u fun c => pd c f := by
  obtain ⟨h1, h2⟩ := c94_adjoint _ _ _ _ _ _ _ _ h
  obtain ⟨f', t', u, e1, e2, hu, h3⟩ := h2 i hi
  rw [hD] at e1; rw [hT] at e2
  obtain rfl := Option.some.inj e1
  obtain rfl := Option.some.inj e2
  obtain rfl : k = 2 := by omega
  refine ⟨u, hu, fun v => ?_⟩
  have h4 := h3 v
  simp only [nb, nbT, dOf, trOf, hk] at h4
  rw [h4, mD, mT]
  have hg := gauss (fun c Q => f Q * at2 nx ny nz v Q c) fun c => hf.mul (contDiff_at2 nx ny nz v c)
  simp only [fun c P => pd_mul hf (contDiff_at2 nx ny nz v c) c P, Finset.sum_add_distrib] at hg
  rw [integral_add (integrable_dot (fun c => hf.continuous) fun c => continuous_pd (contDiff_at2 nx ny nz v c) c)
    (integrable_dot (fun c => continuous_pd hf c) fun c => (contDiff_at2 nx ny nz v c).continuous)] at hg
  have e3 : (sides3.map fun s => onS s fun P => f P * einsum (tb2 nx ny nz [P 0] [P 1] [P 2] s)
        (slice (applyM (nb2 (nx.length - 1) (ny.length - 1) (nz.length - 1))
          (trace2 (nx.length - 1) (ny.length - 1) (nz.length - 1)) v) (firstT (vals2 nx ny nz) s)) 0) =
      sides3.map fun s => (outward3 s : ℝ) * onS s fun Q => f Q * at2 nx ny nz v Q (nrm3 s) := by
    refine List.map_congr_left fun s _ => ?_
    rw [← onS_smul]
    refine onS_congr s fun a b => ?_
    have := slice2 hx hy hz v s a b
    simp only at this
    rw [this]; ring
  rw [e3, ← hg]
  simp only [fun P => at3_div hx hy hz v P, Finset.mul_sum]
  ring

/-- **C94, curl.**  For a dual 2-form holding the moments of a field `g` and a dual 1-trace holding the moments of `g × n`, the
dual coboundary holds the moments of the curl of `g`. -/
theorem c94_curl (hx : accepted nx = true) (hy : accepted ny = true) (hz : accepted nz = true) (els : List Nat) (df dt : Dual)
    (k : Nat) (l : Local) (h : coboundary (nx.length - 1) (ny.length - 1) (nz.length - 1) els df dt = some (k, l)) (hk : df.k = 2)
    (i : Nat) (hi : i ∈ els) (D T : Nat → ℝ) (hD : df.loc i = some D) (hT : dt.loc i = some T) (g : Fin 3 → (Fin 3 → ℝ) → ℝ)
    (hg : ∀ c, ContDiff ℝ 1 (g c)) (mD : Mom2 nx ny nz D g) (mT : MomT1 nx ny nz T g) :
    ∃ u, l.lookup i = some u ∧ Mom1 nx ny nz u (curlF g) := by
  obtain ⟨h1, h2⟩ := c94_adjoint _ _ _ _ _ _ _ _ h
  obtain ⟨f', t', u, e1, e2, hu, h3⟩ := h2 i hi
  rw [hD] at e1; rw [hT] at e2
  obtain rfl := Option.some.inj e1
  obtain rfl := Option.some.inj e2
  obtain rfl : k = 1 := by omega
  refine ⟨u, hu, fun v => ?_⟩
  have h4 := h3 v
  simp only [nb, nbT, dOf, trOf, hk] at h4
  rw [h4, mD, mT]
  have hv (c : Fin 3) := contDiff_at1 nx ny nz v c
  have hG := gauss (fun c Q => crossV (at1 nx ny nz v Q) (fun c => g c Q) c) fun c => by
    fin_cases c
    · exact ((hv 1).mul (hg 2)).sub ((hv 2).mul (hg 1))
    · exact ((hv 2).mul (hg 0)).sub ((hv 0).mul (hg 2))
    · exact ((hv 0).mul (hg 1)).sub ((hv 1).mul (hg 0))
  have e3 : (sides3.map fun s => onS s fun P =>
      crossV (tanV s (einsum (tb1 nx ny nz [P 0] [P 1] [P 2] s 0) (slice (applyM (nb1 (nx.length - 1) (ny.length - 1) (nz.length - 1))
          (trace1 (nx.length - 1) (ny.length - 1) (nz.length - 1)) v) (firstT (vals1 nx ny nz) s)) 0)
        (einsum (tb1 nx ny nz [P 0] [P 1] [P 2] s 1) (slice (applyM (nb1 (nx.length - 1) (ny.length - 1) (nz.length - 1))
          (trace1 (nx.length - 1) (ny.length - 1) (nz.length - 1)) v) (firstT (vals1 nx ny nz) s + num1 nx ny nz s)) 0))
        (fun c => g c P) (nrm3 s)) =
      sides3.map fun s => (outward3 s : ℝ) * onS s fun Q => crossV (at1 nx ny nz v Q) (fun c => g c Q) (nrm3 s) := by
    refine List.map_congr_left fun s _ => ?_
    rw [← onS_smul]
    refine onS_congr s fun a b => ?_
    have := slice1 hx hy hz v s a b
    simp only at this
    rw [this.1, this.2]
    cases s <;> simp [crossV, tanV, nrm3, fst3, snd3] <;> ring
  rw [e3, ← hG, pow_two]
  have e4 (P : Fin 3 → ℝ) : ∑ c, pd c (fun Q => crossV (at1 nx ny nz v Q) (fun c => g c Q) c) P =
      (∑ c, g c P * curlF (fun c Q => at1 nx ny nz v Q c) c P) - ∑ c, curlF g c P * at1 nx ny nz v P c := by
    have q0 : pd 0 (fun Q => crossV (at1 nx ny nz v Q) (fun c => g c Q) 0) P = _ :=
      (pd_sub ((hv 1).mul (hg 2)) ((hv 2).mul (hg 1)) 0 P)
    have q1 : pd 1 (fun Q => crossV (at1 nx ny nz v Q) (fun c => g c Q) 1) P = _ :=
      (pd_sub ((hv 2).mul (hg 0)) ((hv 0).mul (hg 2)) 1 P)
    have q2 : pd 2 (fun Q => crossV (at1 nx ny nz v Q) (fun c => g c Q) 2) P = _ :=
      (pd_sub ((hv 0).mul (hg 1)) ((hv 1).mul (hg 0)) 2 P)
    rw [Fin.sum_univ_three, Fin.sum_univ_three, Fin.sum_univ_three, q0, q1, q2]
    simp only [pd_mul (hv _) (hg _)]
    simp [curlF]
    ring
  simp only [e4]
  have hc (w : Fin 3 → (Fin 3 → ℝ) → ℝ) (hw : ∀ c, ContDiff ℝ 1 (w c)) (c : Fin 3) : Continuous (curlF w c) := by
    fin_cases c
    · exact (continuous_pd (hw 2) 1).sub (continuous_pd (hw 1) 2)
    · exact (continuous_pd (hw 0) 2).sub (continuous_pd (hw 2) 0)
    · exact (continuous_pd (hw 1) 0).sub (continuous_pd (hw 0) 1)
  rw [integral_sub (integrable_dot (fun c => (hg c).continuous) (hc _ hv)) (integrable_dot (hc _ hg) fun c => (hv c).continuous)]
  simp only [fun P c => at2_curl hx hy hz v P c]
  ring

/-- **C94, divergence.**  For a dual 1-form holding the moments of a field `g` and a dual 0-trace holding the moments of its
components across the sides, the dual coboundary holds the moments of the divergence of `g`. -/
theorem c94_div (hx : accepted nx = true) (hy : accepted ny = true) (hz : accepted nz = true) (els : List Nat) (df dt : Dual)
    (k : Nat) (l : Local) (h : coboundary (nx.length - 1) (ny.length - 1) (nz.length - 1) els df dt = some (k, l)) (hk : df.k = 1)
    (i : Nat) (hi : i ∈ els) (D T : Nat → ℝ) (hD : df.loc i = some D) (hT : dt.loc i = some T) (g : Fin 3 → (Fin 3 → ℝ) → ℝ)
    (hg : ∀ c, ContDiff ℝ 1 (g c)) (mD : Mom1 nx ny nz D g) (mT : MomT0 nx ny nz T g) :
    ∃ u, l.lookup i = some u ∧ Mom0 nx ny nz u fun P => ∑ c, pd c (g c) P := by
  obtain ⟨h1, h2⟩ := c94_adjoint _ _ _ _ _ _ _ _ h
  obtain ⟨f', t', u, e1, e2, hu, h3⟩ := h2 i hi
  rw [hD] at e1; rw [hT] at e2
  obtain rfl := Option.some.inj e1
  obtain rfl := Option.some.inj e2
  obtain rfl : k = 0 := by omega
  refine ⟨u, hu, fun v => ?_⟩
  have h4 := h3 v
  simp only [nb, nbT, dOf, trOf, hk] at h4
  rw [h4, mD, mT]
  have hv := contDiff_at0 nx ny nz v
  have hG := gauss (fun c Q => g c Q * at0 nx ny nz v Q) fun c => (hg c).mul hv
  simp only [fun c P => pd_mul (hg c) hv c P, Finset.sum_add_distrib] at hG
  rw [integral_add (integrable_dot (fun c => (hg c).continuous) fun c => continuous_pd hv c)
    (integrable_dot (fun c => continuous_pd (hg c) c) fun _ => hv.continuous)] at hG
  have e3 : (sides3.map fun s => onS s fun P => g (nrm3 s) P * einsum (tb0 nx ny nz [P 0] [P 1] [P 2] s)
        (slice (applyM (nb0 (nx.length - 1) (ny.length - 1) (nz.length - 1))
          (trace0 (nx.length - 1) (ny.length - 1) (nz.length - 1)) v) (firstT (vals0 nx ny nz) s)) 0) =
      sides3.map fun s => (outward3 s : ℝ) * onS s fun Q => g (nrm3 s) Q * at0 nx ny nz v Q := by
    refine List.map_congr_left fun s _ => ?_
    rw [← onS_smul]
    refine onS_congr s fun a b => ?_
    have := slice0 hx hy hz v s a b
    simp only at this
    rw [this]; ring
  rw [e3, ← hG]
  simp only [fun P c => at1_grad hx hy hz v P c, Finset.sum_mul]
  ring

/-! ## Moments exist -/

/-- `F w P` is linear in the first `n` values of `w` and continuous in `P`. -/
def Rep (n : Nat) (F : (Nat → ℝ) → (Fin 3 → ℝ) → ℝ) : Prop :=
  (∀ w, Continuous (F w)) ∧ ∀ P, ∃ β : Nat → ℝ, ∀ w, F w P = ∑ i ∈ range n, w i * β i

theorem Rep.eq {n : Nat} {F : (Nat → ℝ) → (Fin 3 → ℝ) → ℝ} (h : Rep n F) (w : Nat → ℝ) (P : Fin 3 → ℝ) :
    F w P = ∑ i ∈ range n, w i * F (Pi.single i 1) P := by
  obtain ⟨β, hβ⟩ := h.2 P
  rw [hβ]
  refine Finset.sum_congr rfl fun i hi => ?_
  rw [hβ, Finset.sum_eq_single_of_mem i hi fun j _ hj => by simp [Pi.single_apply, hj]]
  simp

theorem Rep.add {n : Nat} {F G : (Nat → ℝ) → (Fin 3 → ℝ) → ℝ} (hF : Rep n F) (hG : Rep n G) : Rep n fun w P => F w P + G w P := by
  refine ⟨fun w => (hF.1 w).add (hG.1 w), fun P => ?_⟩
  obtain ⟨a, ha⟩ := hF.2 P
  obtain ⟨b, hb⟩ := hG.2 P
  exact ⟨fun i => a i + b i, fun w => by simp only [ha, hb, mul_add, Finset.sum_add_distrib]⟩

theorem Rep.mul {n : Nat} {F : (Nat → ℝ) → (Fin 3 → ℝ) → ℝ} (hF : Rep n F) {g : (Fin 3 → ℝ) → ℝ} (hg : Continuous g) :
    Rep n fun w P => g P * F w P := by
  refine ⟨fun w => hg.mul (hF.1 w), fun P => ?_⟩
  obtain ⟨a, ha⟩ := hF.2 P
  exact ⟨fun i => g P * a i, fun w => by simp only [ha, Finset.mul_sum]; exact Finset.sum_congr rfl fun i _ => by ring⟩

theorem slice0_eq (w : Nat → ℝ) : slice w 0 = w := funext fun i => by simp [slice]

theorem Rep.ein {n : Nat} (A : (Fin 3 → ℝ) → Arr ℝ) (off : Nat) (hc : ∀ w, Continuous fun P => einsum (A P) w 0)
    (hr : ∀ P, off + (A P).rows ≤ n) : Rep n fun w P => einsum (A P) (slice w off) 0 := by
  refine ⟨fun w => hc _, fun P => ⟨fun i => if off ≤ i ∧ i < off + (A P).rows then (A P).e (i - off) 0 else 0, fun w => ?_⟩⟩
  obtain ⟨k, hk⟩ := Nat.exists_eq_add_of_le (hr P)
  beta_reduce
  rw [einsum, range_map_sum, hk, sum_split, sum_split, Finset.sum_eq_zero (s := range off), Finset.sum_eq_zero (s := range k)]
  · rw [zero_add, add_zero]
    refine Finset.sum_congr rfl fun i hi => ?_
    have := mem_range.1 hi
    rw [if_pos (by omega), slice, show off + i - off = i by omega, mul_comm]
  · intro i hi
    rw [if_neg (by omega), mul_zero]
  · intro i hi
    have := mem_range.1 hi
    rw [if_neg (by omega), mul_zero]

theorem continuous_kron {B A : ℝ → Arr ℝ} (hB : Smooth1 B) (hA : Smooth1 A) (b a : Fin 3) (w : Nat → ℝ) :
    Continuous fun P : Fin 3 → ℝ => einsum (kron (B (P b)) (A (P a))) w 0 := by
  obtain ⟨nb, hb⟩ := hB
  obtain ⟨na, ha⟩ := hA
  have e : (fun P : Fin 3 → ℝ => einsum (kron (B (P b)) (A (P a))) w 0) = fun P : Fin 3 → ℝ =>
      ∑ r ∈ range (nb * na), (B (P b)).e (r / na) 0 * (A (P a)).e (r % na) 0 * w r := by
    funext P
    rw [einsum, range_map_sum]
    simp only [kron, (ha _).1, (hb _).1, (ha _).2.1, Nat.zero_div, Nat.zero_mod]
  rw [e]
  refine continuous_finsetSum _ fun r _ => ((Continuous.mul ?_ ?_).mul continuous_const)
  · exact ((hb 0).2.2 _).continuous.comp (continuous_apply b)
  · exact ((ha 0).2.2 _).continuous.comp (continuous_apply a)

theorem rep_moment {n : Nat} {F : (Nat → ℝ) → (Fin 3 → ℝ) → ℝ} (h : Rep n F) :
    ∃ D : Nat → ℝ, ∀ w, ∑ i ∈ range n, w i * D i = ∫ P in cube, F w P := by
  refine ⟨fun i => ∫ P in cube, F (Pi.single i 1) P, fun w => ?_⟩
  simp only [fun P => h.eq w P]
  rw [integral_finsetSum _ fun i _ => (integrable_cube (h.1 (Pi.single i 1))).const_mul (w i)]
  simp only [integral_const_mul]

theorem continuous_onSide3 (s : Side) : Continuous fun q : Fin 2 → ℝ => onSide3 s (q 0) (q 1) := by
  refine continuous_pi fun c => ?_
  cases s <;> fin_cases c <;> simp [onSide3] <;> fun_prop

theorem rep_moment_sides {n : Nat} {F : Side → (Nat → ℝ) → (Fin 3 → ℝ) → ℝ} (h : ∀ s, Rep n (F s)) :
    ∃ D : Nat → ℝ, ∀ w, ∑ i ∈ range n, w i * D i = (sides3.map fun s => onS s (F s w)).sum := by
  refine ⟨fun i => (sides3.map fun s => onS s (F s (Pi.single i 1))).sum, fun w => ?_⟩
  have e (s : Side) : onS s (F s w) = ∑ i ∈ range n, w i * onS s (F s (Pi.single i 1)) := by
    have : F s w = fun P => ∑ i ∈ range n, w i * F s (Pi.single i 1) P := funext fun P => (h s).eq w P
    rw [this, onS]
    have hi (i : Nat) : Integrable (fun q : Fin 2 → ℝ => F s (Pi.single i 1) (onSide3 s (q 0) (q 1))) (volume.restrict square) :=
      Continuous.integrableOn_Icc (((h s).1 _).comp (continuous_onSide3 s))
    rw [integral_finsetSum _ fun i _ => (hi i).const_mul (w i)]
    simp only [integral_const_mul, onS]
  simp only [e, sides3, List.map_cons, List.map_nil, List.sum_cons, List.sum_nil, add_zero, ← Finset.sum_add_distrib]
  exact Finset.sum_congr rfl fun i _ => by ring

section
variable (hx : accepted nx = true) (hy : accepted ny = true) (hz : accepted nz = true)
include hx hy hz

theorem rep0 : Rep (nb0 (nx.length - 1) (ny.length - 1) (nz.length - 1)) (at0 nx ny nz) := by
  have ex := accepted_two hx; have ey := accepted_two hy; have ez := accepted_two hz
  have := Rep.ein (n := nb0 (nx.length - 1) (ny.length - 1) (nz.length - 1))
    (fun P => Basis.Three.kron3 (nodeBasis nz [P 2]) (nodeBasis ny [P 1]) (nodeBasis nx [P 0])) 0
    (fun w => (contDiff_at0 nx ny nz w).continuous) fun P => by
      simp only [Basis.Three.kron3, kron, nodeBasis, nb0, Nat.sub_add_cancel (show 1 ≤ nx.length by omega),
        Nat.sub_add_cancel (show 1 ≤ ny.length by omega), Nat.sub_add_cancel (show 1 ≤ nz.length by omega)]
      exact le_of_eq (by ring)
  simp only [slice0_eq] at this
  exact this

theorem rep1 (c : Fin 3) : Rep (nb1 (nx.length - 1) (ny.length - 1) (nz.length - 1)) fun w P => at1 nx ny nz w P c := by
  have ex := accepted_two hx; have ey := accepted_two hy; have ez := accepted_two hz
  have fx := Nat.sub_add_cancel (show 1 ≤ nx.length by omega)
  have fy := Nat.sub_add_cancel (show 1 ≤ ny.length by omega)
  have fz := Nat.sub_add_cancel (show 1 ≤ nz.length by omega)
  have r0 : (nz.length * ny.length) * (nx.length - 1) = nb1c0 (nx.length - 1) (ny.length - 1) (nz.length - 1) := by
    rw [nb1c0, fy, fz]; ring
  have r1 : (nz.length * (ny.length - 1)) * nx.length = nb1c1 (nx.length - 1) (ny.length - 1) (nz.length - 1) := by
    rw [nb1c1, fx, fz]; ring
  have r2 : ((nz.length - 1) * ny.length) * nx.length = nb1c2 (nx.length - 1) (ny.length - 1) (nz.length - 1) := by
    rw [nb1c2, fx, fy]; ring
  fin_cases c
  · have := Rep.ein (n := nb1 (nx.length - 1) (ny.length - 1) (nz.length - 1))
      (fun P => Basis.Three.kron3 (nodeBasis nz [P 2]) (nodeBasis ny [P 1]) (edgeBasis nx [P 0])) 0
      (fun w => (contDiff_kron3 (smooth_node nz) (smooth_node ny) (smooth_edge nx) w).continuous) fun P => by
        simp only [Basis.Three.kron3, kron, nodeBasis, edgeBasis, nb1, r0]; omega
    simpa [slice0_eq, at1, Basis.Three.recon1, comp3] using this
  · have := Rep.ein (n := nb1 (nx.length - 1) (ny.length - 1) (nz.length - 1))
      (fun P => Basis.Three.kron3 (nodeBasis nz [P 2]) (edgeBasis ny [P 1]) (nodeBasis nx [P 0]))
      (nb1c0 (nx.length - 1) (ny.length - 1) (nz.length - 1))
      (fun w => (contDiff_kron3 (smooth_node nz) (smooth_edge ny) (smooth_node nx) w).continuous) fun P => by
        simp only [Basis.Three.kron3, kron, nodeBasis, edgeBasis, nb1, r1]; omega
    simpa [at1, Basis.Three.recon1, comp3] using this
  · have := Rep.ein (n := nb1 (nx.length - 1) (ny.length - 1) (nz.length - 1))
      (fun P => Basis.Three.kron3 (edgeBasis nz [P 2]) (nodeBasis ny [P 1]) (nodeBasis nx [P 0]))
      (nb1 (nx.length - 1) (ny.length - 1) (nz.length - 1) - nb1c2 (nx.length - 1) (ny.length - 1) (nz.length - 1))
      (fun w => (contDiff_kron3 (smooth_edge nz) (smooth_node ny) (smooth_node nx) w).continuous) fun P => by
        simp only [Basis.Three.kron3, kron, nodeBasis, edgeBasis, nb1, r2]; omega
    simpa [at1, Basis.Three.recon1, comp3] using this

theorem rep2 (c : Fin 3) : Rep (nb2 (nx.length - 1) (ny.length - 1) (nz.length - 1)) fun w P => at2 nx ny nz w P c := by
  have ex := accepted_two hx; have ey := accepted_two hy; have ez := accepted_two hz
  have fx := Nat.sub_add_cancel (show 1 ≤ nx.length by omega)
  have fy := Nat.sub_add_cancel (show 1 ≤ ny.length by omega)
  have fz := Nat.sub_add_cancel (show 1 ≤ nz.length by omega)
  have r0 : ((nz.length - 1) * (ny.length - 1)) * nx.length = nb2c0 (nx.length - 1) (ny.length - 1) (nz.length - 1) := by
    rw [nb2c0, fx]; ring
  have r1 : ((nz.length - 1) * ny.length) * (nx.length - 1) = nb2c1 (nx.length - 1) (ny.length - 1) (nz.length - 1) := by
    rw [nb2c1, fy]; ring
  have r2 : (nz.length * (ny.length - 1)) * (nx.length - 1) = nb2c2 (nx.length - 1) (ny.length - 1) (nz.length - 1) := by
    rw [nb2c2, fz]; ring
  fin_cases c
  · have := Rep.ein (n := nb2 (nx.length - 1) (ny.length - 1) (nz.length - 1))
      (fun P => Basis.Three.kron3 (edgeBasis nz [P 2]) (edgeBasis ny [P 1]) (nodeBasis nx [P 0])) 0
      (fun w => (contDiff_kron3 (smooth_edge nz) (smooth_edge ny) (smooth_node nx) w).continuous) fun P => by
        simp only [Basis.Three.kron3, kron, nodeBasis, edgeBasis, nb2, r0]; omega
    simpa [slice0_eq, at2, Basis.Three.recon2, comp3] using this
  · have := Rep.ein (n := nb2 (nx.length - 1) (ny.length - 1) (nz.length - 1))
      (fun P => Basis.Three.kron3 (edgeBasis nz [P 2]) (nodeBasis ny [P 1]) (edgeBasis nx [P 0]))
      (nb2c0 (nx.length - 1) (ny.length - 1) (nz.length - 1))
      (fun w => (contDiff_kron3 (smooth_edge nz) (smooth_node ny) (smooth_edge nx) w).continuous) fun P => by
        simp only [Basis.Three.kron3, kron, nodeBasis, edgeBasis, nb2, r1]; omega
    simpa [at2, Basis.Three.recon2, comp3] using this
  · have := Rep.ein (n := nb2 (nx.length - 1) (ny.length - 1) (nz.length - 1))
      (fun P => Basis.Three.kron3 (nodeBasis nz [P 2]) (edgeBasis ny [P 1]) (edgeBasis nx [P 0]))
      (nb2 (nx.length - 1) (ny.length - 1) (nz.length - 1) - nb2c2 (nx.length - 1) (ny.length - 1) (nz.length - 1))
      (fun w => (contDiff_kron3 (smooth_node nz) (smooth_edge ny) (smooth_edge nx) w).continuous) fun P => by
        simp only [Basis.Three.kron3, kron, nodeBasis, edgeBasis, nb2, r2]; omega
    simpa [at2, Basis.Three.recon2, comp3] using this

omit hx hy hz in
theorem rep3 : Rep (nb3 (nx.length - 1) (ny.length - 1) (nz.length - 1)) (at3 nx ny nz) := by
  have := Rep.ein (n := nb3 (nx.length - 1) (ny.length - 1) (nz.length - 1))
    (fun P => Basis.Three.kron3 (edgeBasis nz [P 2]) (edgeBasis ny [P 1]) (edgeBasis nx [P 0])) 0
    (fun w => (contDiff_at3 nx ny nz w).continuous) fun P => by
      simp only [Basis.Three.kron3, kron, edgeBasis, nb3]
      exact le_of_eq (by ring)
  simp only [slice0_eq] at this
  exact this

omit hx hy hz in
/-- The values of all sides. -/
theorem total (len : Side → Nat) (s : Side) : firstT len s + len s ≤ len .N + len .S + len .W + len .E + len .B + len .F := by
  cases s <;> simp only [firstT] <;> omega

theorem totals : vals0 nx ny nz .N + vals0 nx ny nz .S + vals0 nx ny nz .W + vals0 nx ny nz .E + vals0 nx ny nz .B + vals0 nx ny nz .F =
      nbT0 (nx.length - 1) (ny.length - 1) (nz.length - 1) ∧
    vals1 nx ny nz .N + vals1 nx ny nz .S + vals1 nx ny nz .W + vals1 nx ny nz .E + vals1 nx ny nz .B + vals1 nx ny nz .F =
      nbT1 (nx.length - 1) (ny.length - 1) (nz.length - 1) ∧
    vals2 nx ny nz .N + vals2 nx ny nz .S + vals2 nx ny nz .W + vals2 nx ny nz .E + vals2 nx ny nz .B + vals2 nx ny nz .F =
      nbT2 (nx.length - 1) (ny.length - 1) (nz.length - 1) := by
  have ex := accepted_two hx; have ey := accepted_two hy; have ez := accepted_two hz
  have fx := Nat.sub_add_cancel (show 1 ≤ nx.length by omega)
  have fy := Nat.sub_add_cancel (show 1 ≤ ny.length by omega)
  have fz := Nat.sub_add_cancel (show 1 ≤ nz.length by omega)
  simp only [vals0, vals1, vals2, nbT0, nbT1, nbT2, fx, fy, fz]
  refine ⟨by ring, by ring, by ring⟩

/-- **C94, moments.**  Every continuous function and field has moments of all kinds. -/
theorem c94_moments (f : (Fin 3 → ℝ) → ℝ) (hf : Continuous f) (g : Fin 3 → (Fin 3 → ℝ) → ℝ) (hg : ∀ c, Continuous (g c)) :
    (∃ D, Mom3 nx ny nz D f) ∧ (∃ D, Mom2 nx ny nz D g) ∧ (∃ D, Mom1 nx ny nz D g) ∧ (∃ D, Mom0 nx ny nz D f) ∧
      (∃ D, MomT2 nx ny nz D f) ∧ (∃ D, MomT1 nx ny nz D g) ∧ ∃ D, MomT0 nx ny nz D g := by
  obtain ⟨t0, t1, t2⟩ := totals hx hy hz
  have ey := accepted_two hy; have ez := accepted_two hz
  have hs (s : Side) (P : Fin 3 → ℝ) := sizes nx ny nz [P 0] [P 1] [P 2] s (by rintro rfl; simp at ey) (by rintro rfl; simp at ez)
  refine ⟨rep_moment (rep3.mul hf), ?_, ?_, rep_moment ((rep0 hx hy hz).mul hf), ?_, ?_, ?_⟩
  · obtain ⟨D, h⟩ := rep_moment ((((rep2 hx hy hz 0).mul (hg 0)).add ((rep2 hx hy hz 1).mul (hg 1))).add ((rep2 hx hy hz 2).mul (hg 2)))
    exact ⟨D, fun w => by rw [h w]; simp only [Fin.sum_univ_three]⟩
  · obtain ⟨D, h⟩ := rep_moment ((((rep1 hx hy hz 0).mul (hg 0)).add ((rep1 hx hy hz 1).mul (hg 1))).add ((rep1 hx hy hz 2).mul (hg 2)))
    exact ⟨D, fun w => by rw [h w]; simp only [Fin.sum_univ_three]⟩
  · refine rep_moment_sides fun s => Rep.mul (Rep.ein _ _ (fun w => ?_) fun P => ?_) hf
    · cases s
      · exact continuous_kron (smooth_edge nz) (smooth_edge ny) 2 1 w
      · exact continuous_kron (smooth_edge nz) (smooth_edge ny) 2 1 w
      · exact continuous_kron (smooth_edge nz) (smooth_edge nx) 2 0 w
      · exact continuous_kron (smooth_edge nz) (smooth_edge nx) 2 0 w
      · exact continuous_kron (smooth_edge ny) (smooth_edge nx) 1 0 w
      · exact continuous_kron (smooth_edge ny) (smooth_edge nx) 1 0 w
    · rw [(hs s P).2.2.2, ← t2]; exact total _ s
  · have c1 (s : Side) : Rep (nbT1 (nx.length - 1) (ny.length - 1) (nz.length - 1)) fun t P =>
        einsum (tb1 nx ny nz [P 0] [P 1] [P 2] s 0) (slice t (firstT (vals1 nx ny nz) s)) 0 := by
      refine Rep.ein _ _ (fun w => ?_) fun P => ?_
      · cases s
        · exact continuous_kron (smooth_node nz) (smooth_edge ny) 2 1 w
        · exact continuous_kron (smooth_node nz) (smooth_edge ny) 2 1 w
        · exact continuous_kron (smooth_node nz) (smooth_edge nx) 2 0 w
        · exact continuous_kron (smooth_node nz) (smooth_edge nx) 2 0 w
        · exact continuous_kron (smooth_node ny) (smooth_edge nx) 1 0 w
        · exact continuous_kron (smooth_node ny) (smooth_edge nx) 1 0 w
      · have := total (vals1 nx ny nz) s
        have := (hs s P).2.1
        omega
    have c2 (s : Side) : Rep (nbT1 (nx.length - 1) (ny.length - 1) (nz.length - 1)) fun t P =>
        einsum (tb1 nx ny nz [P 0] [P 1] [P 2] s 1) (slice t (firstT (vals1 nx ny nz) s + num1 nx ny nz s)) 0 := by
      refine Rep.ein _ _ (fun w => ?_) fun P => ?_
      · cases s
        · exact continuous_kron (smooth_edge nz) (smooth_node ny) 2 1 w
        · exact continuous_kron (smooth_edge nz) (smooth_node ny) 2 1 w
        · exact continuous_kron (smooth_edge nz) (smooth_node nx) 2 0 w
        · exact continuous_kron (smooth_edge nz) (smooth_node nx) 2 0 w
        · exact continuous_kron (smooth_edge ny) (smooth_node nx) 1 0 w
        · exact continuous_kron (smooth_edge ny) (smooth_node nx) 1 0 w
      · have := total (vals1 nx ny nz) s
        have := (hs s P).2.1
        have := (hs s P).2.2.1
        omega
    obtain ⟨D, h⟩ := rep_moment_sides fun s =>
      ((c1 s).mul (g := fun P => crossV (Pi.single (fst3 s) 1) (fun c => g c P) (nrm3 s)) (by
        cases s <;> simp [crossV, fst3, nrm3] <;> first | exact hg _ | exact (hg _).neg)).add
      ((c2 s).mul (g := fun P => crossV (Pi.single (snd3 s) 1) (fun c => g c P) (nrm3 s)) (by
        cases s <;> simp [crossV, snd3, nrm3] <;> first | exact hg _ | exact (hg _).neg))
    refine ⟨D, fun t => (h t).trans ?_⟩
    congr 1
    refine List.map_congr_left fun s _ => onS_congr s fun a b => ?_
    cases s <;> simp [crossV, tanV, fst3, snd3, nrm3] <;> ring
  · refine rep_moment_sides fun s => Rep.mul (Rep.ein _ _ (fun w => ?_) fun P => ?_) (hg _)
    · cases s
      · exact continuous_kron (smooth_node nz) (smooth_node ny) 2 1 w
      · exact continuous_kron (smooth_node nz) (smooth_node ny) 2 1 w
      · exact continuous_kron (smooth_node nz) (smooth_node nx) 2 0 w
      · exact continuous_kron (smooth_node nz) (smooth_node nx) 2 0 w
      · exact continuous_kron (smooth_node ny) (smooth_node nx) 1 0 w
      · exact continuous_kron (smooth_node ny) (smooth_node nx) 1 0 w
    · rw [(hs s P).1, ← t0]; exact total _ s
end

/-! ## Examples -/

/-- For every smooth function there are forms meeting the hypotheses of `c94_grad`; here for three nodes in every direction. -/
example : ∃ (df dt : Dual) (k : Nat) (l : Local) (D T : Nat → ℝ), coboundary 2 2 2 [0] df dt = some (k, l) ∧ df.k = 3 ∧
    df.loc 0 = some D ∧ dt.loc 0 = some T ∧
    Mom3 [-1, 0, 1] [-1, 0, 1] [-1, 0, 1] D (fun P => P 0 * P 1) ∧ MomT2 [-1, 0, 1] [-1, 0, 1] [-1, 0, 1] T fun P => P 0 * P 1 := by
  obtain ⟨⟨D, hD⟩, -, -, -, ⟨T, hT⟩, -⟩ := c94_moments enough_three.acc enough_three.acc enough_three.acc (fun P => P 0 * P 1)
    (by fun_prop) (fun _ _ => 0) (by fun_prop)
  have h := (c94_coboundary_ok 2 2 2 [0] ⟨false, 3, 0, 0, fun _ => some D⟩ ⟨true, 2, 0, 0, fun _ => some T⟩).2 (by simp)
  obtain ⟨⟨k, l⟩, hl⟩ := Option.isSome_iff_exists.1 h
  exact ⟨_, _, k, l, D, T, hl, rfl, rfl, rfl, hD, hT⟩

example : ∃ (df dt : Dual) (k : Nat) (l : Local) (D T : Nat → ℝ), coboundary 2 2 2 [0] df dt = some (k, l) ∧ df.k = 2 ∧
    df.loc 0 = some D ∧ dt.loc 0 = some T ∧
    Mom2 [-1, 0, 1] [-1, 0, 1] [-1, 0, 1] D (fun c P => P c * P 1) ∧
    MomT1 [-1, 0, 1] [-1, 0, 1] [-1, 0, 1] T fun c P => P c * P 1 := by
  obtain ⟨-, ⟨D, hD⟩, -, -, -, ⟨T, hT⟩, -⟩ := c94_moments enough_three.acc enough_three.acc enough_three.acc (fun _ => 0)
    (by fun_prop) (fun c P => P c * P 1) (by fun_prop)
  have h := (c94_coboundary_ok 2 2 2 [0] ⟨false, 2, 0, 0, fun _ => some D⟩ ⟨true, 1, 0, 0, fun _ => some T⟩).2 (by simp)
  obtain ⟨⟨k, l⟩, hl⟩ := Option.isSome_iff_exists.1 h
  exact ⟨_, _, k, l, D, T, hl, rfl, rfl, rfl, hD, hT⟩

example : ∃ (df dt : Dual) (k : Nat) (l : Local) (D T : Nat → ℝ), coboundary 2 2 2 [0] df dt = some (k, l) ∧ df.k = 1 ∧
    df.loc 0 = some D ∧ dt.loc 0 = some T ∧
    Mom1 [-1, 0, 1] [-1, 0, 1] [-1, 0, 1] D (fun c P => P c * P 1) ∧
    MomT0 [-1, 0, 1] [-1, 0, 1] [-1, 0, 1] T fun c P => P c * P 1 := by
  obtain ⟨-, -, ⟨D, hD⟩, -, -, -, ⟨T, hT⟩⟩ := c94_moments enough_three.acc enough_three.acc enough_three.acc (fun _ => 0)
    (by fun_prop) (fun c P => P c * P 1) (by fun_prop)
  have h := (c94_coboundary_ok 2 2 2 [0] ⟨false, 1, 0, 0, fun _ => some D⟩ ⟨true, 0, 0, 0, fun _ => some T⟩).2 (by simp)
  obtain ⟨⟨k, l⟩, hl⟩ := Option.isSome_iff_exists.1 h
  exact ⟨_, _, k, l, D, T, hl, rfl, rfl, rfl, hD, hT⟩

end Mifem.Props
