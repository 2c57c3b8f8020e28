import Verif.Model.DualForm
import Verif.Lemmas.Stokes
import Verif.Props.TraceMass
import Verif.Props.Incidence
import Mathlib.LinearAlgebra.Matrix.ToLinearEquiv

/-! # C94: algebraic dual forms and the dual coboundary -/

namespace Mifem.Props
open Mifem.DualForm Mifem.Stokes Mifem.Basis Mifem.Three Mifem.TraceRec Mifem.TraceDisc Finset MeasureTheory

/-! ## Cochains of dual forms -/

/-- The matrix of size `n` is positive definite. -/
def PosDefN (n : Nat) (M : Nat → Nat → ℝ) : Prop :=
  ∀ a : Nat → ℝ, (∃ i < n, a i ≠ 0) → 0 < ∑ i ∈ range n, ∑ j ∈ range n, a i * M i j * a j

theorem mul_eq (n : Nat) (M : Nat → Nat → ℝ) (v : Nat → ℝ) (r : Nat) : mul n M v r = ∑ j ∈ range n, M r j * v j := by
  rw [mul, range_map_sum]

/-- At most one solution. -/
theorem PosDefN.unique {n : Nat} {M : Nat → Nat → ℝ} (h : PosDefN n M) {x y : Nat → ℝ}
    (hxy : ∀ r < n, mul n M x r = mul n M y r) : ∀ r < n, x r = y r := by
  by_contra hcon
  push Not at hcon
  obtain ⟨r, hr, hne⟩ := hcon
  have := h (fun i => x i - y i) ⟨r, hr, sub_ne_zero.2 hne⟩
  refine absurd this (not_lt.2 (le_of_eq ?_))
  refine Finset.sum_eq_zero fun i hi => ?_
  have e := hxy i (mem_range.1 hi)
  rw [mul_eq, mul_eq] at e
  have : ∑ j ∈ range n, (x i - y i) * M i j * (x j - y j) =
      (x i - y i) * (∑ j ∈ range n, M i j * x j - ∑ j ∈ range n, M i j * y j) := by
    rw [← Finset.sum_sub_distrib, Finset.mul_sum]
    exact Finset.sum_congr rfl fun j _ => by ring
  rw [this, e, sub_self, mul_zero]

theorem PosDefN.det {n : Nat} {M : Nat → Nat → ℝ} (h : PosDefN n M) : IsUnit (sq n M).det := by
  rw [isUnit_iff_ne_zero]
  intro h0
  obtain ⟨v, hv, hm⟩ := Matrix.exists_mulVec_eq_zero_iff.2 h0
  refine hv (funext fun i => ?_)
  have := h.unique (x := fun i => if hi : i < n then v ⟨i, hi⟩ else 0) (y := fun _ => 0) (fun r hr => ?_) i.1 i.2
  · simpa using this
  · rw [mul_eq, mul_eq]
    have e := congrFun hm ⟨r, hr⟩
    rw [Matrix.mulVec, dotProduct] at e
    simp only [mul_zero, Finset.sum_const_zero]
    rw [← Fin.sum_univ_eq_sum_range (fun j => M r j * if hi : j < n then v ⟨j, hi⟩ else 0)]
    simpa [DualForm.sq] using e

/-- The inverse solves the system. -/
theorem mul_inv_mul {n : Nat} {M : Nat → Nat → ℝ} (h : PosDefN n M) (v : Nat → ℝ) :
    ∀ r < n, mul n M (mul n (inv n M) v) r = v r := by
  intro r hr
  have e := Matrix.mulVec_mulVec (fun i : Fin n => v i) (sq n M) (sq n M)⁻¹
  rw [Matrix.mul_nonsing_inv _ h.det, Matrix.one_mulVec] at e
  have e' := congrFun e ⟨r, hr⟩
  simp only [Matrix.mulVec, dotProduct] at e'
  rw [mul_eq, ← Fin.sum_univ_eq_sum_range]
  refine Eq.trans (Finset.sum_congr rfl fun j _ => ?_) e'
  rw [mul_eq, ← Fin.sum_univ_eq_sum_range]
  refine congrArg _ (Finset.sum_congr rfl fun c _ => ?_)
  simp only [inv]
  rw [dif_pos ⟨j.2, c.2⟩]

theorem mapM_some_iff {α β : Type} {f : α → Option β} {l : List α} : (l.mapM f).isSome ↔ ∀ a ∈ l, (f a).isSome := by
  induction l with
  | nil => simp
  | cons a l ih =>
    rw [List.mapM_cons]
    cases h : f a with
    | none => simp [h]
    | some b =>
      cases h2 : l.mapM f with
      | none => rw [h2] at ih; simpa [h] using ih
      | some c => rw [h2] at ih; simpa [h] using ih

theorem lookup_mapM {β : Type} {f : Nat → Option β} {l : List Nat} {r : List (Nat × β)}
    (h : l.mapM (fun i => (f i).map fun b => (i, b)) = some r) (i : Nat) :
    r.lookup i = if i ∈ l then f i else none := by
  induction l generalizing r with
  | nil => obtain rfl : r = [] := by simpa using h.symm
           rfl
  | cons a l ih =>
    rw [List.mapM_cons] at h
    cases h1 : f a with
    | none => simp [h1] at h
    | some b =>
      cases h2 : l.mapM (fun i => (f i).map fun b => (i, b)) with
      | none => simp [h1, h2] at h
      | some c =>
        obtain rfl : r = (a, b) :: c := by simpa [h1, h2] using h.symm
        by_cases hi : i = a
        · subst hi; simp [h1]
        · rw [List.lookup_cons]
          have : (i == a) = false := by simpa using hi
          rw [this, ih h2]
          simp [hi]

/-- **C94, when the setter works.**  Exactly when there are as many vectors as elements and every element has one. -/
theorem c94_set_ok (n : Nat) (els : List Nat) (M : Nat → Nat → Nat → ℝ) (l : Local) :
    (setLocal n els M l).isSome ↔ l.length = els.length ∧ ∀ i ∈ els, (l.lookup i).isSome := by
  unfold setLocal
  split
  · rename_i h
    rw [mapM_some_iff]
    simp [h]
  · rename_i h
    simp [h]

/-- **C94, set and get.**  After setting the cochain of a dual form, reading it gives the values that were set, and the cochain
of the prime form is the only one with these dual values. -/
theorem c94_set_get (n : Nat) (els : List Nat) (M : Nat → Nat → Nat → ℝ) (hM : ∀ i ∈ els, PosDefN n (M i)) (l prime : Local)
    (h : setLocal n els M l = some prime) (i : Nat) (hi : i ∈ els) :
    ∃ v x u, l.lookup i = some v ∧ prime.lookup i = some x ∧ getLocal n M prime i = some u ∧ (∀ r < n, u r = v r) ∧
      ∀ y, (∀ r < n, mul n (M i) y r = v r) → ∀ r < n, x r = y r := by
  unfold setLocal at h
  split at h
  swap
  · exact absurd h (by simp)
  have hl := lookup_mapM (f := fun i => (l.lookup i).map (mul n (inv n (M i)))) (by simpa [Function.comp_def] using h) i
  rw [if_pos hi] at hl
  have hs : ((l.lookup i).map fun v => (i, mul n (inv n (M i)) v)).isSome :=
    mapM_some_iff.1 (by rw [h]; rfl) i hi
  cases hv : l.lookup i with
  | none => simp [hv] at hs
  | some v =>
    rw [hv] at hl
    refine ⟨v, _, _, rfl, hl, by rw [getLocal, hl]; rfl, mul_inv_mul (hM i hi) v, fun y hy => ?_⟩
    exact (hM i hi).unique fun r hr => by rw [mul_inv_mul (hM i hi) v r hr, hy r hr]

/-- **C94, get and set.**  Setting the values that are read leaves the cochain of the prime form as it is. -/
theorem c94_get_set (n : Nat) (els : List Nat) (M : Nat → Nat → Nat → ℝ) (hM : ∀ i ∈ els, PosDefN n (M i)) (prime l prime' : Local)
    (hl : ∀ i ∈ els, l.lookup i = getLocal n M prime i) (h : setLocal n els M l = some prime') (i : Nat) (hi : i ∈ els) :
    ∃ x x', prime.lookup i = some x ∧ prime'.lookup i = some x' ∧ ∀ r < n, x' r = x r := by
  obtain ⟨v, x', u, h1, h2, _, _, h4⟩ := c94_set_get n els M hM l prime' h i hi
  rw [hl i hi] at h1
  unfold getLocal at h1
  cases hx : prime.lookup i with
  | none => simp [hx] at h1
  | some x =>
    rw [hx] at h1
    obtain rfl : mul n (M i) x = v := by simpa using h1
    exact ⟨x, x', rfl, h2, h4 x fun _ _ => rfl⟩

/-! ## The matrices can be inverted -/

section mass
variable {nx ny nz xs ys zs : List ℝ} {q : Nat → ℝ}

/-- **C94.**  The mass matrices of the four standard forms are positive definite, so all of the above applies. -/
theorem c94_mass (hx : Enough nx xs) (hy : Enough ny ys) (hz : Enough nz zs)
    (hq : ∀ m < zs.length * ys.length * xs.length, 0 < q m) (orth : Bool) (A : Nat → Metric.M3 ℝ) (delta : Fin 3 → ℝ) :
    let J := fun m => Metric.Three.jacobianMatrix orth (A m) delta
    let p0 := nx.length - 1; let p1 := ny.length - 1; let p2 := nz.length - 1
    (∀ m, 0 < Matrix.det (Matrix.of (J m))) →
    PosDefN (nb0 p0 p1 p2) (Metric.inner0 (fun m => Metric.Three.jacobian (J m)) q (Metric.Three.basis0 nx ny nz xs ys zs)
      (Metric.Three.basis0 nx ny nz xs ys zs)) ∧
    PosDefN (nb1 p0 p1 p2) (Metric.Three.inner1 orth true J q (Metric.Three.basis1 nx ny nz xs ys zs)
      (Metric.Three.basis1 nx ny nz xs ys zs)) ∧
    PosDefN (nb2 p0 p1 p2) (Metric.Three.inner2 orth true J q (Metric.Three.basis2 nx ny nz xs ys zs)
      (Metric.Three.basis2 nx ny nz xs ys zs)) ∧
    PosDefN (nb3 p0 p1 p2) (Metric.innerTop (fun m => Metric.Three.jacobian (J m)) q (Metric.Three.basis3 nx ny nz xs ys zs)
      (Metric.Three.basis3 nx ny nz xs ys zs)) := by
  intro J p0 p1 p2 hJ
  have ex := accepted_two hx.acc; have ey := accepted_two hy.acc; have ez := accepted_two hz.acc
  have n0 : nb0 p0 p1 p2 = nz.length * ny.length * nx.length := by
    rw [nb0, show p0 + 1 = nx.length by omega, show p1 + 1 = ny.length by omega, show p2 + 1 = nz.length by omega]; ring
  have n3 : nb3 p0 p1 p2 = (nz.length - 1) * (ny.length - 1) * (nx.length - 1) := by rw [nb3]; ring
  refine ⟨fun a ha => ?_, fun a ha => c59_1form_3d orth A delta q nx ny nz xs ys zs hx hy hz hq hJ a ha,
    fun a ha => c59_2form_3d orth A delta q nx ny nz xs ys zs hx hy hz hq hJ a ha, fun a ha => ?_⟩
  · rw [n0] at ha ⊢
    exact c59_0form_3d J q nx ny nz xs ys zs hx hy hz hq hJ a ha
  · rw [n3] at ha ⊢
    exact c59_3form_3d J q nx ny nz xs ys zs hx hy hz hq hJ a ha

end mass

/-- The number of rows of six blocks. -/
def size6 (L : List (Nat × (Nat → Nat → ℝ))) : Nat := (L.map Prod.fst).sum

theorem sum_split (n m : Nat) (f : Nat → ℝ) : ∑ i ∈ range (n + m), f i = ∑ i ∈ range n, f i + ∑ i ∈ range m, f (n + i) :=
  Finset.sum_range_add f n m

theorem diag_rows (n : Nat) (M : Nat → Nat → ℝ) (L : List (Nat × (Nat → Nat → ℝ))) (x : Nat → ℝ) :
    (∀ r < n, mul (size6 ((n, M) :: L)) (diag6 ((n, M) :: L)) x r = mul n M x r) ∧
    (∀ r, mul (size6 ((n, M) :: L)) (diag6 ((n, M) :: L)) x (n + r) = mul (size6 L) (diag6 L) (fun i => x (n + i)) r) := by
  have e : size6 ((n, M) :: L) = n + size6 L := by simp [size6]
  refine ⟨fun r hr => ?_, fun r => ?_⟩
  · rw [mul_eq, mul_eq, e, sum_split]
    have h0 : ∑ i ∈ range (size6 L), diag6 ((n, M) :: L) r (n + i) * x (n + i) = 0 := by
      refine Finset.sum_eq_zero fun i _ => ?_
      rw [diag6, if_neg (by omega), if_neg (by omega), zero_mul]
    rw [h0, add_zero]
    refine Finset.sum_congr rfl fun i hi => ?_
    rw [diag6, if_pos ⟨hr, mem_range.1 hi⟩]
  · rw [mul_eq, mul_eq, e, sum_split]
    have h0 : ∑ i ∈ range n, diag6 ((n, M) :: L) (n + r) i * x i = 0 := by
      refine Finset.sum_eq_zero fun i hi => ?_
      have := mem_range.1 hi
      rw [diag6, if_neg (by omega), if_neg (by omega), zero_mul]
    rw [h0, zero_add]
    refine Finset.sum_congr rfl fun i hi => ?_
    rw [diag6, if_neg (by omega), if_pos (by omega), Nat.add_sub_cancel_left, Nat.add_sub_cancel_left]

theorem quad_eq (n : Nat) (M : Nat → Nat → ℝ) (a : Nat → ℝ) :
    ∑ i ∈ range n, ∑ j ∈ range n, a i * M i j * a j = ∑ i ∈ range n, a i * mul n M a i := by
  refine Finset.sum_congr rfl fun i _ => ?_
  rw [mul_eq, Finset.mul_sum]
  exact Finset.sum_congr rfl fun j _ => by ring

/-- **C94, traces.**  The mass matrix of a dual trace form is positive definite if those of the six sides are. -/
theorem c94_trace_mass (L : List (Nat × (Nat → Nat → ℝ))) (h : ∀ b ∈ L, PosDefN b.1 b.2) : PosDefN (size6 L) (diag6 L) := by
  induction L with
  | nil => rintro a ⟨i, hi, _⟩; exact absurd hi (by simp [size6])
  | cons b L ih =>
    obtain ⟨n, M⟩ := b
    have ih' := ih fun b hb => h b (List.mem_cons_of_mem _ hb)
    have hM := h (n, M) List.mem_cons_self
    intro a ⟨i, hi, ha⟩
    have e : size6 ((n, M) :: L) = n + size6 L := by simp [size6]
    rw [quad_eq]
    rw [show ∑ i ∈ range (size6 ((n, M) :: L)), a i * mul (size6 ((n, M) :: L)) (diag6 ((n, M) :: L)) a i =
      ∑ i ∈ range n, a i * mul n M a i + ∑ i ∈ range (size6 L), a (n + i) * mul (size6 L) (diag6 L) (fun i => a (n + i)) i from ?_]
    · rw [← quad_eq, ← quad_eq (size6 L) (diag6 L) fun i => a (n + i)]
      have nn : ∀ (m : Nat) (N : Nat → Nat → ℝ) (b : Nat → ℝ), PosDefN m N →
          0 ≤ ∑ i ∈ range m, ∑ j ∈ range m, b i * N i j * b j := by
        intro m N b hN
        by_cases hb : ∃ i < m, b i ≠ 0
        · exact (hN b hb).le
        · push Not at hb
          refine le_of_eq (Eq.symm (Finset.sum_eq_zero fun i hi => Finset.sum_eq_zero fun j _ => ?_))
          rw [hb i (mem_range.1 hi), zero_mul, zero_mul]
      by_cases hin : i < n
      · exact add_pos_of_pos_of_nonneg (hM a ⟨i, hin, ha⟩) (nn _ _ _ ih')
      · refine add_pos_of_nonneg_of_pos (nn _ _ _ hM) (ih' _ ⟨i - n, by omega, ?_⟩)
        rwa [show n + (i - n) = i by omega]
    · rw [e, sum_split, ← e]
      congr 1
      · exact Finset.sum_congr rfl fun r hr => by rw [(diag_rows n M L a).1 r (mem_range.1 hr)]
      · exact Finset.sum_congr rfl fun r _ => by rw [(diag_rows n M L a).2 r]

/-- Row `r` of block `b` of the matrix of six blocks. -/
theorem diag_block (L : List (Nat × (Nat → Nat → ℝ))) (b : Nat) (hb : b < L.length) (x : Nat → ℝ) (r : Nat) (hr : r < L[b].1) :
    mul (size6 L) (diag6 L) x (size6 (L.take b) + r) = mul L[b].1 L[b].2 (fun i => x (size6 (L.take b) + i)) r := by
  induction L generalizing b x with
  | nil => simp at hb
  | cons c L ih =>
    obtain ⟨n, M⟩ := c
    cases b with
    | zero =>
      simp only [List.take_zero, size6, List.map_nil, List.sum_nil, Nat.zero_add, List.getElem_cons_zero] at hr ⊢
      exact (diag_rows n M L x).1 r hr
    | succ b =>
      have e : size6 (((n, M) :: L).take (b + 1)) = n + size6 (L.take b) := by simp [size6]
      rw [e, Nat.add_assoc, (diag_rows n M L x).2]
      have := ih b (by simpa using hb) (fun i => x (n + i)) (by simpa using hr)
      rw [this]
      simp only [List.getElem_cons_succ, Nat.add_assoc]

theorem block_le (L : List (Nat × (Nat → Nat → ℝ))) (b : Nat) (hb : b < L.length) : size6 (L.take b) + L[b].1 ≤ size6 L := by
  induction L generalizing b with
  | nil => simp at hb
  | cons c L ih =>
    cases b with
    | zero => simp [size6]
    | succ b =>
      have := ih b (by simpa using hb)
      simp only [size6, List.take_succ_cons, List.map_cons, List.sum_cons, List.getElem_cons_succ] at this ⊢
      omega

theorem lookup_map_own {β : Type} (f : Nat → β) {l : List Nat} {i : Nat} (hi : i ∈ l) :
    (l.map fun i => (i, f i)).lookup i = some (f i) := by
  induction l with
  | nil => simp at hi
  | cons a l ih =>
    rw [List.map_cons, List.lookup_cons]
    by_cases hia : i = a
    · subst hia; simp
    · have : (i == a) = false := by simpa using hia
      rw [this]
      exact ih (by simpa [hia] using hi)

/-- **C94, one value on both sides.**  The cochain of a dual trace form, set from one global vector: if side `b` of element `i` and side
`b'` of element `i'` are the same trace element (same matrix, same numbers of the dofs), then the prime form has the same
values on this side in both elements. -/
theorem c94_trace_sides (els : List Nat) (L : Nat → List (Nat × (Nat → Nat → ℝ))) (n : Nat) (hn : ∀ i ∈ els, size6 (L i) = n)
    (hL : ∀ i ∈ els, ∀ b ∈ L i, PosDefN b.1 b.2) (gv : Nat → Nat → Nat) (V : Nat → ℝ) (prime : Local)
    (h : setGlobe n els (fun i => diag6 (L i)) gv V = some prime) (i i' : Nat) (hi : i ∈ els) (hi' : i' ∈ els)
    (b b' : Nat) (hb : b < (L i).length) (hb' : b' < (L i').length) (hsame : (L i)[b] = (L i')[b'])
    (hg : ∀ r < (L i)[b].1, gv i (size6 ((L i).take b) + r) = gv i' (size6 ((L i').take b') + r)) :
    ∃ x x', prime.lookup i = some x ∧ prime.lookup i' = some x' ∧
      ∀ r < (L i)[b].1, x (size6 ((L i).take b) + r) = x' (size6 ((L i').take b') + r) := by
  have hM : ∀ i ∈ els, PosDefN n (diag6 (L i)) := fun i hi => by rw [← hn i hi]; exact c94_trace_mass _ (hL i hi)
  have key : ∀ i ∈ els, ∃ x, prime.lookup i = some x ∧ ∀ r < n, mul n (diag6 (L i)) x r = V (gv i r) := by
    intro i hi
    obtain ⟨v, x, u, h1, h2, h3, h4, _⟩ := c94_set_get n els _ hM _ prime h i hi
    have hv := lookup_map_own (fun i => fun a => V (gv i a)) hi
    rw [hv] at h1
    obtain rfl : (fun a => V (gv i a)) = v := by simpa using h1
    rw [getLocal, h2] at h3
    obtain rfl : mul n (diag6 (L i)) x = u := by simpa using h3
    exact ⟨x, h2, h4⟩
  obtain ⟨x, hx, ex⟩ := key i hi
  obtain ⟨x', hx', ex'⟩ := key i' hi'
  refine ⟨x, x', hx, hx', ?_⟩
  refine (hL i hi _ (List.getElem_mem hb)).unique fun r hr => ?_
  have hr' : r < (L i')[b'].1 := by rw [← hsame]; exact hr
  have l1 := block_le (L i) b hb
  have l2 := block_le (L i') b' hb'
  have h1 := diag_block (L i) b hb x r hr
  have h2 := diag_block (L i') b' hb' x' r hr'
  rw [← h1]
  rw [← hsame] at h2
  rw [← h2, hn i hi, hn i' hi', ex _ (by have := hn i hi; omega), ex' _ (by have := hn i' hi'; omega), hg r hr]

/-! ## The dual coboundary -/

/-- The incidence matrix of a `k`-form (gradient, curl, divergence), and its trace matrix. -/
def dOf (p0 p1 p2 : Nat) : Nat → Nat → Nat → Int
  | 0 => grad p0 p1 p2
  | 1 => curl p0 p1 p2
  | _ => Three.div p0 p1 p2
@[inherit_doc dOf] def trOf (p0 p1 p2 : Nat) : Nat → Nat → Nat → Int
  | 0 => trace0 p0 p1 p2
  | 1 => trace1 p0 p1 p2
  | _ => trace2 p0 p1 p2

theorem mul_transposed (N m : Nat) (E : Nat → Nat → Int) (a : Int) (f v : Nat → ℝ) :
    ∑ r ∈ range N, v r * mul m (fun r c => ((a * E c r : Int) : ℝ)) f r = a * ∑ i ∈ range m, applyM N E v i * f i := by
  simp only [mul_eq, applyM, Finset.mul_sum, Finset.sum_mul]
  rw [Finset.sum_comm]
  refine Finset.sum_congr rfl fun i _ => Finset.sum_congr rfl fun r _ => ?_
  push_cast
  ring

theorem nextAt_pair (N m m' : Nat) (E T : Nat → Nat → Int) (a b : Int) (f t v : Nat → ℝ) :
    ∑ r ∈ range N, v r * nextAt m m' E T a b f t r =
      a * ∑ i ∈ range m, applyM N E v i * f i + b * ∑ j ∈ range m', applyM N T v j * t j := by
  simp only [nextAt, mul_add, Finset.sum_add_distrib]
  rw [mul_transposed, mul_transposed]

theorem lookup_mapM2 {β : Type} {g : Nat → Option (Nat × β)} {f : Nat → Option β} (hg : ∀ i, g i = (f i).map fun b => (i, b))
    {l : List Nat} {r : List (Nat × β)} (h : l.mapM g = some r) {i : Nat} (hi : i ∈ l) : ∃ b, f i = some b ∧ r.lookup i = some b := by
  obtain rfl : g = fun i => (f i).map fun b => (i, b) := funext hg
  have h1 := lookup_mapM h i
  have hs : ((f i).map fun b => (i, b)).isSome := by
    have := mapM_some_iff (f := fun i => (f i).map fun b => (i, b)) (l := l)
    exact this.1 (by rw [h]; rfl) i hi
  rw [if_pos hi] at h1
  cases hf : f i with
  | none => simp [hf] at hs
  | some b => exact ⟨b, rfl, by rw [h1, hf]⟩

/-- The local vectors of `coboundary`. -/
noncomputable def nextLoc (m m' : Nat) (E T : Nat → Nat → Int) (a b : Int) (df dt : Dual) (i : Nat) : Option (Nat → ℝ) := do
  let f ← df.loc i
  let t ← dt.loc i
  pure (nextAt m m' E T a b f t)

/-- What `coboundary` computes. -/
theorem coboundary_eq (p0 p1 p2 : Nat) (els : List Nat) (df dt : Dual) :
    coboundary p0 p1 p2 els df dt =
      if (df.k = 1 ∨ df.k = 2 ∨ df.k = 3) ∧ dt.isTrace = true ∧ df.mesh = dt.mesh ∧ df.space = dt.space ∧ dt.k + 1 = df.k then
        (els.mapM fun i => (nextLoc (nb p0 p1 p2 df.k) (nbT p0 p1 p2 dt.k) (dOf p0 p1 p2 dt.k) (trOf p0 p1 p2 dt.k)
          ((-1) ^ df.k) (-(-1) ^ df.k) df dt i).map fun b => (i, b)).map fun l => (dt.k, l)
      else none := by
  have hm : ∀ (m m' : Nat) (E T : Nat → Nat → Int) (a b : Int), (fun i => do
      let f ← df.loc i
      let t ← dt.loc i
      (pure (i, nextAt m m' E T a b f t) : Option (Nat × (Nat → ℝ)))) =
      fun i => (nextLoc m m' E T a b df dt i).map fun b => (i, b) := by
    intro m m' E T a b
    funext i
    unfold nextLoc
    cases df.loc i <;> cases dt.loc i <;> rfl
  unfold coboundary
  by_cases hk : df.k = 1 ∨ df.k = 2 ∨ df.k = 3
  swap
  · rw [if_neg hk, if_neg (by tauto)]
  rw [if_pos hk]
  by_cases hc : dt.isTrace = true ∧ df.mesh = dt.mesh ∧ df.space = dt.space
  swap
  · rw [if_neg hc, if_neg (by tauto)]
  rw [if_pos hc]
  simp only [hm]
  obtain ⟨c1, c2, c3⟩ := hc
  by_cases hd : dt.k + 1 = df.k
  swap
  · rw [if_neg (by tauto)]
    rcases hk with h | h | h <;> simp only [h, incidence, rule] <;> rw [h] at hd <;>
      cases traceMatrix p0 p1 p2 dt.k <;> simp <;> omega
  rw [if_pos ⟨hk, c1, c2, c3, hd⟩]
  rcases hk with h | h | h
  · have hd' : dt.k = 0 := by omega
    simp [h, hd', incidence, traceMatrix, rule, dOf, trOf, Option.map_eq_bind]
  · have hd' : dt.k = 1 := by omega
    simp [h, hd', incidence, traceMatrix, rule, dOf, trOf, Option.map_eq_bind]
  · have hd' : dt.k = 2 := by omega
    simp [h, hd', incidence, traceMatrix, rule, dOf, trOf, Option.map_eq_bind]

/-- **C94, when the dual coboundary works.**  For dual 1-, 2- and 3-forms with a dual trace form of one degree less on the same mesh
and space, both with cochains in all elements. -/
theorem c94_coboundary_ok (p0 p1 p2 : Nat) (els : List Nat) (df dt : Dual) :
    (coboundary p0 p1 p2 els df dt).isSome ↔
      (df.k = 1 ∨ df.k = 2 ∨ df.k = 3) ∧ dt.isTrace = true ∧ df.mesh = dt.mesh ∧ df.space = dt.space ∧ dt.k + 1 = df.k ∧
        ∀ i ∈ els, (df.loc i).isSome ∧ (dt.loc i).isSome := by
  rw [coboundary_eq]
  by_cases h : (df.k = 1 ∨ df.k = 2 ∨ df.k = 3) ∧ dt.isTrace = true ∧ df.mesh = dt.mesh ∧ df.space = dt.space ∧ dt.k + 1 = df.k
  · rw [if_pos h, Option.isSome_map, mapM_some_iff]
    have : ∀ i, ((nextLoc (nb p0 p1 p2 df.k) (nbT p0 p1 p2 dt.k) (dOf p0 p1 p2 dt.k) (trOf p0 p1 p2 dt.k)
          ((-1) ^ df.k) (-(-1) ^ df.k) df dt i).map fun b => (i, b)).isSome ↔ (df.loc i).isSome ∧ (dt.loc i).isSome := by
      intro i
      unfold nextLoc
      cases df.loc i <;> cases dt.loc i <;> simp
    simp only [this]
    exact ⟨fun h' => ⟨h.1, h.2.1, h.2.2.1, h.2.2.2.1, h.2.2.2.2, h'⟩, fun h' => h'.2.2.2.2.2⟩
  · rw [if_neg h]
    simp only [Option.isSome_none, Bool.false_eq_true, false_iff]
    exact fun h' => h ⟨h'.1, h'.2.1, h'.2.2.1, h'.2.2.2.1, h'.2.2.2.2.1⟩

/-- **C94, integration by parts.**  The result has one degree less; its dual cochain `u` pairs with every cochain `v` of this degree
like the given one (`f`) pairs with the derivative of `v`, and the dual trace (`t`) with the trace of `v`. -/
theorem c94_adjoint (p0 p1 p2 : Nat) (els : List Nat) (df dt : Dual) (k : Nat) (l : Local)
    (h : coboundary p0 p1 p2 els df dt = some (k, l)) :
    k + 1 = df.k ∧ ∀ i ∈ els, ∃ f t u, df.loc i = some f ∧ dt.loc i = some t ∧ l.lookup i = some u ∧
      ∀ v : Nat → ℝ, ∑ r ∈ range (nb p0 p1 p2 k), v r * u r = (-1) ^ df.k *
        (∑ i ∈ range (nb p0 p1 p2 (k + 1)), applyM (nb p0 p1 p2 k) (dOf p0 p1 p2 k) v i * f i -
          ∑ j ∈ range (nbT p0 p1 p2 k), applyM (nb p0 p1 p2 k) (trOf p0 p1 p2 k) v j * t j) := by
  rw [coboundary_eq] at h
  split at h
  swap
  · exact absurd h (by simp)
  rename_i hc
  obtain ⟨_, _, _, _, hk⟩ := hc
  cases hl : els.mapM fun i => (nextLoc (nb p0 p1 p2 df.k) (nbT p0 p1 p2 dt.k) (dOf p0 p1 p2 dt.k) (trOf p0 p1 p2 dt.k)
          ((-1) ^ df.k) (-(-1) ^ df.k) df dt i).map fun b => (i, b) with
  | none => simp [hl] at h
  | some l' =>
    simp only [hl, Option.map_some, Option.some.injEq, Prod.mk.injEq] at h
    obtain ⟨rfl, rfl⟩ := h
    refine ⟨hk, fun i hi => ?_⟩
    obtain ⟨u, hu, hlu⟩ := lookup_mapM2 (fun i => rfl) hl hi
    unfold nextLoc at hu
    cases hf : df.loc i with
    | none => simp [hf] at hu
    | some f =>
      cases ht : dt.loc i with
      | none => simp [hf, ht] at hu
      | some t =>
        simp only [hf, ht] at hu
        obtain rfl := Option.some.inj hu
        refine ⟨f, t, _, rfl, rfl, hlu, fun v => ?_⟩
        rw [nextAt_pair, hk]
        push_cast
        ring

theorem dd_zero (p0 p1 p2 k : Nat) (hk : k = 0 ∨ k = 1) (v : Nat → ℝ) :
    ∀ r < nb p0 p1 p2 (k + 2), applyM (nb p0 p1 p2 (k + 1)) (dOf p0 p1 p2 (k + 1)) (applyM (nb p0 p1 p2 k) (dOf p0 p1 p2 k) v) r = 0 := by
  have key : ∀ (a b c : Nat) (E F : Nat → Nat → Int), toMat a b E * toMat b c F = 0 →
      ∀ r < a, applyM b E (applyM c F v) r = 0 := by
    intro a b c E F h r hr
    simp only [applyM, Finset.mul_sum]
    rw [Finset.sum_comm]
    refine Finset.sum_eq_zero fun j hj => ?_
    have e := congrFun (congrFun h ⟨r, hr⟩) ⟨j, mem_range.1 hj⟩
    rw [Matrix.mul_apply] at e
    have e' : ∑ i ∈ range b, E r i * F i j = 0 := by
      rw [← Fin.sum_univ_eq_sum_range (fun i => E r i * F i j)]
      simpa [toMat] using e
    have : ∑ i ∈ range b, (E r i : ℝ) * ((F i j : ℝ) * v j) = ((∑ i ∈ range b, E r i * F i j : Int) : ℝ) * v j := by
      push_cast
      rw [Finset.sum_mul]
      exact Finset.sum_congr rfl fun i _ => by ring
    rw [this, e', Int.cast_zero, zero_mul]
  rcases hk with rfl | rfl
  · exact key _ _ _ _ _ (c08_curl_grad_eq_zero p0 p1 p2)
  · exact key _ _ _ _ _ (c08_div_curl_eq_zero p0 p1 p2)

/-- `g` is a dual form with the local vectors `l` (as after `cochain.local = l`, see `c94_set_get`). -/
def Holds (els : List Nat) (n : Nat) (l : Local) (g : Dual) : Prop :=
  ∀ i ∈ els, ∃ a b, l.lookup i = some a ∧ g.loc i = some b ∧ ∀ r < n, b r = a r

/-- **C94, twice.**  After two dual coboundaries nothing of the first form is left: the result depends on the two dual traces only. -/
theorem c94_twice (p0 p1 p2 : Nat) (els : List Nat) (df df' dt dt1 g g' : Dual) (k k' m m' : Nat) (l l' w w' : Local)
    (h : coboundary p0 p1 p2 els df dt = some (k, l)) (h' : coboundary p0 p1 p2 els df' dt = some (k', l'))
    (hg : Holds els (nb p0 p1 p2 k) l g) (hgk : g.k = k) (hg' : Holds els (nb p0 p1 p2 k') l' g') (hgk' : g'.k = k')
    (hw : coboundary p0 p1 p2 els g dt1 = some (m, w)) (hw' : coboundary p0 p1 p2 els g' dt1 = some (m', w')) :
    m = m' ∧ ∀ i ∈ els, ∃ u u', w.lookup i = some u ∧ w'.lookup i = some u' ∧ ∀ r < nb p0 p1 p2 m, u r = u' r := by
  have a1 := c94_adjoint _ _ _ _ _ _ _ _ h
  have a1' := c94_adjoint _ _ _ _ _ _ _ _ h'
  have a2 := c94_adjoint _ _ _ _ _ _ _ _ hw
  have a2' := c94_adjoint _ _ _ _ _ _ _ _ hw'
  have hk : ∀ (df : Dual) (k : Nat) (l : Local), coboundary p0 p1 p2 els df dt = some (k, l) → k = dt.k ∧ df.k ≤ 3 := by
    intro df k l h
    rw [coboundary_eq] at h
    split at h
    · rename_i hc
      rw [Option.map_eq_some_iff] at h
      obtain ⟨_, _, e⟩ := h
      exact ⟨(congrArg Prod.fst e).symm, by omega⟩
    · exact absurd h (by simp)
  have hk1 := hk _ _ _ h
  have hk2 := hk _ _ _ h'
  have ekk : k = k' := hk1.1.trans hk2.1.symm
  subst ekk
  have em : m = m' := by have := a2.1; have := a2'.1; omega
  subst em
  have em : m + 1 = k := by have := a2.1; omega
  subst em
  refine ⟨rfl, fun i hi => ?_⟩
  obtain ⟨f, t, u, -, ht, hl, e⟩ := a1.2 i hi
  obtain ⟨f', t', u', -, ht', hl', e'⟩ := a1'.2 i hi
  obtain ⟨b, t1, x, hb, ht1, hx, e1⟩ := a2.2 i hi
  obtain ⟨b', t1', x', hb', ht1', hx', e1'⟩ := a2'.2 i hi
  obtain ⟨c, d, c1, c2, c3⟩ := hg i hi
  obtain ⟨c', d', c1', c2', c3'⟩ := hg' i hi
  obtain rfl : t = t' := Option.some.inj (ht.symm.trans ht')
  obtain rfl : t1 = t1' := Option.some.inj (ht1.symm.trans ht1')
  obtain rfl : d = b := Option.some.inj (c2.symm.trans hb)
  obtain rfl : d' = b' := Option.some.inj (c2'.symm.trans hb')
  obtain rfl : c = u := Option.some.inj (c1.symm.trans hl)
  obtain rfl : c' = u' := Option.some.inj (c1'.symm.trans hl')
  refine ⟨x, x', hx, hx', fun r hr => ?_⟩
  have hm : m = 0 ∨ m = 1 := by have := a1.1; omega
  have key : ∀ (c d f : Nat → ℝ) (s : ℝ), (∀ r < nb p0 p1 p2 (m + 1), d r = c r) →
      (∀ v : Nat → ℝ, ∑ r ∈ range (nb p0 p1 p2 (m + 1)), v r * c r = s *
        (∑ i ∈ range (nb p0 p1 p2 (m + 1 + 1)), applyM (nb p0 p1 p2 (m + 1)) (dOf p0 p1 p2 (m + 1)) v i * f i -
          ∑ j ∈ range (nbT p0 p1 p2 (m + 1)), applyM (nb p0 p1 p2 (m + 1)) (trOf p0 p1 p2 (m + 1)) v j * t j)) →
      ∀ v : Nat → ℝ, ∑ i ∈ range (nb p0 p1 p2 (m + 1)), applyM (nb p0 p1 p2 m) (dOf p0 p1 p2 m) v i * d i =
        s * - ∑ j ∈ range (nbT p0 p1 p2 (m + 1)),
          applyM (nb p0 p1 p2 (m + 1)) (trOf p0 p1 p2 (m + 1)) (applyM (nb p0 p1 p2 m) (dOf p0 p1 p2 m) v) j * t j := by
    intro c d f s hcd he v
    rw [Finset.sum_congr rfl fun i hi => by rw [hcd i (mem_range.1 hi)], he]
    rw [Finset.sum_eq_zero (s := range (nb p0 p1 p2 (m + 1 + 1))) fun i hi => by
      rw [dd_zero p0 p1 p2 m hm v i (mem_range.1 hi), zero_mul], zero_sub]
  have k1 := key _ _ _ _ c3 e
  have k2 := key _ _ _ _ c3' e'
  have pick : ∀ x : Nat → ℝ, ∑ r' ∈ range (nb p0 p1 p2 m), (if r' = r then (1 : ℝ) else 0) * x r' = x r := by
    intro x
    rw [Finset.sum_eq_single r (fun b _ hb => by rw [if_neg hb, zero_mul]) (fun h => absurd (mem_range.2 hr) h), if_pos rfl, one_mul]
  have f1 := e1 fun r' => if r' = r then 1 else 0
  have f2 := e1' fun r' => if r' = r then 1 else 0
  rw [pick, k1] at f1
  rw [pick, k2] at f2
  have hdk : df.k = df'.k := by have := a1.1; have := a1'.1; omega
  rw [f1, f2, hgk, hgk', hdk]

/-! ## Examples -/

theorem posDef_two : PosDefN 2 fun i j => if i = j then (i : ℝ) + 1 else 0 := by
  rintro a ⟨i, hi, ha⟩
  simp only [Finset.sum_range_succ, Finset.sum_range_zero]
  norm_num
  interval_cases i
  · have := mul_self_pos.2 ha
    nlinarith [mul_self_nonneg (a 1)]
  · have := mul_self_pos.2 ha
    nlinarith [mul_self_nonneg (a 0)]

/-- Two elements, two values each. -/
example : ∃ (prime : Local), setLocal 2 [0, 1] (fun _ i j => if i = j then (i : ℝ) + 1 else 0) [(1, fun _ => 4), (0, fun i => i)] = some prime ∧
    ∀ i ∈ [0, 1], PosDefN 2 fun i j => if i = j then (i : ℝ) + 1 else 0 := by
  have h := (c94_set_ok 2 [0, 1] (fun _ i j => if i = j then (i : ℝ) + 1 else 0) [(1, fun _ => 4), (0, fun i => i)]).2 (by decide)
  obtain ⟨prime, hp⟩ := Option.isSome_iff_exists.1 h
  exact ⟨prime, hp, fun _ _ => posDef_two⟩

/-- Too few vectors. -/
example : setLocal 2 [0, 1] (fun _ _ _ => 1) [(1, fun _ => 4)] = none := by
  simp [setLocal]

example := c94_mass enough_three enough_three enough_three (q := fun _ => 1) (fun _ _ => by norm_num) false
  (fun _ i j => if i = j then 1 else 0) (fun _ => 1)

/-- Two elements that share a side: side 1 of element 0 is side 0 of element 1. -/
example : ∃ prime, setGlobe 4 [0, 1] (fun _ => diag6 [(2, fun i j => if i = j then (i : ℝ) + 1 else 0), (2, fun i j => if i = j then (i : ℝ) + 1 else 0)])
    (fun i a => 2 * i + a) (fun n => n) = some prime := by
  refine Option.isSome_iff_exists.1 ((c94_set_ok _ _ _ _).2 ?_)
  simp

/-- A form and a trace with the same values in all elements. -/
example : (coboundary 1 1 1 [0, 1] ⟨false, 3, 0, 0, fun i => some fun _ => i⟩ ⟨true, 2, 0, 0, fun _ => some fun _ => 1⟩).isSome ∧
    ¬ (coboundary 1 1 1 [0, 1] ⟨false, 3, 0, 0, fun i => some fun _ => i⟩ ⟨true, 1, 0, 0, fun _ => some fun _ => 1⟩).isSome ∧
    ¬ (coboundary 1 1 1 [0, 1] ⟨false, 3, 0, 0, fun i => some fun _ => i⟩ ⟨true, 2, 1, 0, fun _ => some fun _ => 1⟩).isSome := by
  refine ⟨(c94_coboundary_ok _ _ _ _ _ _).2 (by simp), ?_, ?_⟩
  · rw [c94_coboundary_ok]; simp
  · rw [c94_coboundary_ok]; simp

/-- Different 3-forms, same traces: the hypotheses of `c94_twice` can be met. -/
example : ∃ (df df' dt dt1 g g' : Dual) (k k' m m' : Nat) (l l' w w' : Local), df.loc 0 ≠ df'.loc 0 ∧
    coboundary 1 1 1 [0] df dt = some (k, l) ∧ coboundary 1 1 1 [0] df' dt = some (k', l') ∧
    Holds [0] (nb 1 1 1 k) l g ∧ g.k = k ∧ Holds [0] (nb 1 1 1 k') l' g' ∧ g'.k = k' ∧
    coboundary 1 1 1 [0] g dt1 = some (m, w) ∧ coboundary 1 1 1 [0] g' dt1 = some (m', w') := by
  obtain ⟨⟨k, l⟩, hl⟩ := Option.isSome_iff_exists.1 ((c94_coboundary_ok 1 1 1 [0] ⟨false, 3, 0, 0, fun _ => some fun _ => 0⟩
    ⟨true, 2, 0, 0, fun _ => some fun _ => 1⟩).2 (by simp))
  obtain ⟨⟨k', l'⟩, hl'⟩ := Option.isSome_iff_exists.1 ((c94_coboundary_ok 1 1 1 [0] ⟨false, 3, 0, 0, fun _ => some fun _ => 1⟩
    ⟨true, 2, 0, 0, fun _ => some fun _ => 1⟩).2 (by simp))
  obtain ⟨e, h⟩ := c94_adjoint _ _ _ _ _ _ _ _ hl
  obtain ⟨e', h'⟩ := c94_adjoint _ _ _ _ _ _ _ _ hl'
  obtain ⟨_, _, u, _, _, hu, _⟩ := h 0 (by simp)
  obtain ⟨_, _, u', _, _, hu', _⟩ := h' 0 (by simp)
  obtain rfl : k = 2 := by simpa using e
  obtain rfl : k' = 2 := by simpa using e'
  obtain ⟨⟨m, w⟩, hw⟩ := Option.isSome_iff_exists.1 ((c94_coboundary_ok 1 1 1 [0] ⟨false, 2, 0, 0, fun _ => some u⟩
    ⟨true, 1, 0, 0, fun _ => some fun _ => 1⟩).2 (by simp))
  obtain ⟨⟨m', w'⟩, hw'⟩ := Option.isSome_iff_exists.1 ((c94_coboundary_ok 1 1 1 [0] ⟨false, 2, 0, 0, fun _ => some u'⟩
    ⟨true, 1, 0, 0, fun _ => some fun _ => 1⟩).2 (by simp))
  refine ⟨_, _, _, _, _, _, 2, 2, m, m', l, l', w, w', ?_, hl, hl', ?_, rfl, ?_, rfl, hw, hw'⟩
  · intro h
    have := congrFun (Option.some.inj h) 0
    norm_num at this
  · intro i hi
    obtain rfl : i = 0 := by simpa using hi
    exact ⟨u, u, hu, rfl, fun _ _ => rfl⟩
  · intro i hi
    obtain rfl : i = 0 := by simpa using hi
    exact ⟨u', u', hu', rfl, fun _ _ => rfl⟩

end Mifem.Props
