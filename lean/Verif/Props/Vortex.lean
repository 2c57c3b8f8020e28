import Verif.Model.Vortex
import Verif.Props.DualForm
import Verif.Props.Quadrature
import Mathlib.LinearAlgebra.Matrix.Charpoly.Coeff
import Mathlib.Analysis.Matrix.Spectrum
import Mathlib.Tactic.NormNum

/-!
# C95: projections of 1-forms and 2-forms, criteria for vortices
-/

namespace Mifem.Props
open Mifem.Vortex Mifem.Basis Mifem.Disc Mifem.Quadrature Finset Polynomial

/-! ## Functions that are polynomials in every variable -/

/-- Sums of products of polynomials of degrees at most `dx`, `dy`, `dz`. -/
inductive Poly3 (dx dy dz : Nat) : (ℝ → ℝ → ℝ → ℝ) → Prop
  | prod (f g h : ℝ[X]) (hf : f.natDegree ≤ dx) (hg : g.natDegree ≤ dy) (hh : h.natDegree ≤ dz) :
      Poly3 dx dy dz fun x y z => f.eval x * g.eval y * h.eval z
  | add {F G : ℝ → ℝ → ℝ → ℝ} (hF : Poly3 dx dy dz F) (hG : Poly3 dx dy dz G) : Poly3 dx dy dz fun x y z => F x y z + G x y z
  | smul {F : ℝ → ℝ → ℝ → ℝ} (c : ℝ) (hF : Poly3 dx dy dz F) : Poly3 dx dy dz fun x y z => c * F x y z

theorem Poly3.zero (dx dy dz : Nat) : Poly3 dx dy dz fun _ _ _ => 0 := by
  have := Poly3.prod (dx := dx) (dy := dy) (dz := dz) 0 0 0 (by simp) (by simp) (by simp)
  simpa using this

theorem Poly3.sum {dx dy dz : Nat} {ι : Type*} (s : Finset ι) (F : ι → ℝ → ℝ → ℝ → ℝ) (h : ∀ i ∈ s, Poly3 dx dy dz (F i)) :
    Poly3 dx dy dz fun x y z => ∑ i ∈ s, F i x y z := by
  classical
  induction s using Finset.induction_on with
  | empty => simpa using Poly3.zero dx dy dz
  | insert a s ha ih =>
    simp only [Finset.sum_insert ha]
    exact .add (h a (by simp)) (ih fun i hi => h i (by simp [hi]))

/-- The two bases in one direction: `true` for the edge basis. -/
noncomputable def bas (k : Bool) (n xs : List ℝ) : Arr ℝ := if k then edgeBasis n xs else nodeBasis n xs
/-- The number of basis functions. -/
def basRows (k : Bool) (n : List ℝ) : Nat := if k then n.length - 1 else n.length
/-- Their degree. -/
def basDeg (k : Bool) (n : List ℝ) : Nat := if k then n.length - 2 else n.length - 1

theorem bas_rows (k : Bool) (n xs : List ℝ) : (bas k n xs).rows = basRows k n := by cases k <;> rfl
theorem bas_cols (k : Bool) (n xs : List ℝ) : (bas k n xs).cols = xs.length := by cases k <;> rfl
theorem bas_grid (k : Bool) (n xs : List ℝ) (i m : Nat) : (bas k n xs).e i m = (bas k n [xs.getD m 0]).e i 0 := by
  cases k <;> simp [bas, nodeBasis, edgeBasis]

theorem natDegree_le_of_lt {f : ℝ[X]} {n : Nat} (h : f.degree < n) : f.natDegree ≤ n - 1 :=
  natDegree_le_iff_coeff_eq_zero.2 fun N hN => coeff_eq_zero_of_degree_lt (lt_of_lt_of_le h (by exact_mod_cast (by omega)))

/-- The basis functions are polynomials. -/
theorem bas_within {n : List ℝ} (h : accepted n = true) (k : Bool) {i : Nat} (hi : i < basRows k n) :
    ∃ f : ℝ[X], f.natDegree ≤ basDeg k n ∧ ∀ x, (bas k n [x]).e i 0 = f.eval x := by
  have hd := accepted_distinct h
  have h2 := accepted_two h
  cases k with
  | false =>
    exact ⟨lag n i, natDegree_le_of_lt (lag_degree_lt hd hi), fun x => lagrangeAt_eq n i x⟩
  | true =>
    have hi : i < n.length - 1 := hi
    refine ⟨edg n i, ?_, fun x => edgeAt_eq hd (by omega) x⟩
    rw [edg, natDegree_neg]
    refine natDegree_sum_le_of_forall_le _ _ fun j hj => ?_
    have := natDegree_le_of_lt (lag_degree_lt hd (j := j) (by have := mem_range.1 hj; omega))
    refine (natDegree_derivative_le _).trans ?_
    change _ ≤ n.length - 2
    omega

/-- They give all polynomials of their degree. -/
theorem bas_gives {n : List ℝ} (h : accepted n = true) (k : Bool) {f : ℝ[X]} (hf : f.natDegree ≤ basDeg k n) :
    ∃ c : Nat → ℝ, ∀ x, f.eval x = ∑ i ∈ range (basRows k n), c i * (bas k n [x]).e i 0 := by
  have h2 := accepted_two h
  cases k with
  | false =>
    have hf : f.natDegree ≤ n.length - 1 := hf
    exact ⟨fun i => f.eval (node n i), fun x => (c48_reproduces n h f
      (lt_of_le_of_lt degree_le_natDegree (by exact_mod_cast (by omega))) [x] 0).symm⟩
  | true =>
    have hf : f.natDegree ≤ n.length - 2 := hf
    exact ⟨_, fun x => (c49_reproduces n h f (by omega) x).symm⟩

/-- Reconstructions in the reference element are polynomials. -/
theorem poly3_einsum {nx ny nz : List ℝ} (hx : accepted nx = true) (hy : accepted ny = true) (hz : accepted nz = true)
    (kx ky kz : Bool) (w : Nat → ℝ) :
    Poly3 (basDeg kx nx) (basDeg ky ny) (basDeg kz nz)
      fun x y z => einsum (Three.kron3 (bas kz nz [z]) (bas ky ny [y]) (bas kx nx [x])) w 0 := by
  have e : ∀ x y z, einsum (Three.kron3 (bas kz nz [z]) (bas ky ny [y]) (bas kx nx [x])) w 0
      = ∑ k ∈ range (basRows kz nz), ∑ j ∈ range (basRows ky ny), ∑ i ∈ range (basRows kx nx),
        w (fIdx3 (basRows kx nx) (basRows ky ny) i j k) * ((bas kx nx [x]).e i 0 * (bas ky ny [y]).e j 0 * (bas kz nz [z]).e k 0) := by
    intro x y z
    rw [three_recon _ _ _ (bas_cols kx nx [x]) (bas_cols ky ny [y]), bas_rows, bas_rows, bas_rows]
    exact Finset.sum_congr rfl fun k _ => Finset.sum_congr rfl fun j _ => Finset.sum_congr rfl fun i _ => by ring
  simp only [e]
  refine Poly3.sum _ _ fun k hk => Poly3.sum _ _ fun j hj => Poly3.sum _ _ fun i hi => .smul _ ?_
  obtain ⟨f, hf, ef⟩ := bas_within hx kx (mem_range.1 hi)
  obtain ⟨g, hg, eg⟩ := bas_within hy ky (mem_range.1 hj)
  obtain ⟨h, hh, eh⟩ := bas_within hz kz (mem_range.1 hk)
  simp only [ef, eg, eh]
  exact .prod f g h hf hg hh

theorem fIdx3_parts {a b i j k : Nat} (hi : i < a) (hj : j < b) : fIdx3 a b i j k % a = i ∧ fIdx3 a b i j k / a % b = j ∧
    fIdx3 a b i j k / a / b = k := by
  unfold fIdx3
  rw [Nat.add_mul_mod_self_left, Nat.add_mul_div_left _ _ (by omega), Nat.div_eq_of_lt hi, Nat.zero_add, Nat.add_mul_mod_self_left,
    Nat.add_mul_div_left _ _ (by omega), Nat.div_eq_of_lt hj, Nat.zero_add]
  exact ⟨Nat.mod_eq_of_lt hi, Nat.mod_eq_of_lt hj, rfl⟩

/-- All polynomials of the right degrees are reconstructions. -/
theorem Poly3.gives {nx ny nz : List ℝ} (hx : accepted nx = true) (hy : accepted ny = true) (hz : accepted nz = true)
    {kx ky kz : Bool} {F : ℝ → ℝ → ℝ → ℝ} (hF : Poly3 (basDeg kx nx) (basDeg ky ny) (basDeg kz nz) F) :
    ∃ v : Nat → ℝ, ∀ x y z, F x y z = einsum (Three.kron3 (bas kz nz [z]) (bas ky ny [y]) (bas kx nx [x])) v 0 := by
  have e : ∀ v x y z, einsum (Three.kron3 (bas kz nz [z]) (bas ky ny [y]) (bas kx nx [x])) v 0
      = ∑ k ∈ range (basRows kz nz), ∑ j ∈ range (basRows ky ny), ∑ i ∈ range (basRows kx nx),
        (bas kz nz [z]).e k 0 * (bas ky ny [y]).e j 0 * (bas kx nx [x]).e i 0 * v (fIdx3 (basRows kx nx) (basRows ky ny) i j k) := by
    intro v x y z
    rw [three_recon _ _ _ (bas_cols kx nx [x]) (bas_cols ky ny [y]), bas_rows, bas_rows, bas_rows]
  simp only [e]
  induction hF with
  | prod f g h hf hg hh =>
    obtain ⟨a, ha⟩ := bas_gives hx kx hf
    obtain ⟨b, hb⟩ := bas_gives hy ky hg
    obtain ⟨c, hc⟩ := bas_gives hz kz hh
    refine ⟨fun m => a (m % basRows kx nx) * b (m / basRows kx nx % basRows ky ny) * c (m / basRows kx nx / basRows ky ny),
      fun x y z => ?_⟩
    beta_reduce
    rw [ha, hb, hc]
    have : ∀ k ∈ range (basRows kz nz), ∀ j ∈ range (basRows ky ny), ∀ i ∈ range (basRows kx nx),
        (bas kz nz [z]).e k 0 * (bas ky ny [y]).e j 0 * (bas kx nx [x]).e i 0 *
          (a (fIdx3 (basRows kx nx) (basRows ky ny) i j k % basRows kx nx) *
            b (fIdx3 (basRows kx nx) (basRows ky ny) i j k / basRows kx nx % basRows ky ny) *
            c (fIdx3 (basRows kx nx) (basRows ky ny) i j k / basRows kx nx / basRows ky ny))
        = c k * (bas kz nz [z]).e k 0 * (b j * (bas ky ny [y]).e j 0 * (a i * (bas kx nx [x]).e i 0)) := by
      intro k _ j hj i hi
      obtain ⟨h1, h2, h3⟩ := fIdx3_parts (k := k) (mem_range.1 hi) (mem_range.1 hj)
      rw [h1, h2, h3]
      ring
    rw [Finset.sum_congr rfl fun k hk => Finset.sum_congr rfl fun j hj => Finset.sum_congr rfl fun i hi => this k hk j hj i hi]
    simp only [← Finset.mul_sum, ← Finset.sum_mul]
    ring
  | add _ _ ih1 ih2 =>
    obtain ⟨a, ha⟩ := ih1
    obtain ⟨b, hb⟩ := ih2
    refine ⟨fun m => a m + b m, fun x y z => ?_⟩
    simp only [ha, hb, mul_add, Finset.sum_add_distrib]
  | smul c _ ih =>
    obtain ⟨a, ha⟩ := ih
    refine ⟨fun m => c * a m, fun x y z => ?_⟩
    simp only [ha, Finset.mul_sum]
    exact Finset.sum_congr rfl fun k _ => Finset.sum_congr rfl fun j _ => Finset.sum_congr rfl fun i _ => by ring

theorem Poly3.mono {dx dy dz ex ey ez : Nat} {F : ℝ → ℝ → ℝ → ℝ} (h : Poly3 dx dy dz F) (hx : dx ≤ ex) (hy : dy ≤ ey) (hz : dz ≤ ez) :
    Poly3 ex ey ez F := by
  induction h with
  | prod f g h hf hg hh => exact .prod f g h (hf.trans hx) (hg.trans hy) (hh.trans hz)
  | add _ _ a b => exact .add a b
  | smul c _ a => exact .smul c a

/-! ## Quadrature of products of basis functions -/

/-- The sum of one rule. -/
noncomputable def sum1 (r : Rule ℝ) (k k' : Bool) (n n' : List ℝ) (i j : Nat) : ℝ :=
  ∑ q ∈ range r.n, r.w q * (bas k n [r.x q]).e i 0 * (bas k' n' [r.x q]).e j 0

theorem rpts_length (r : Rule ℝ) : (rpts r).length = r.n := by simp [rpts]
theorem rpts_getD (r : Rule ℝ) {q : Nat} (hq : q < r.n) : (rpts r).getD q 0 = r.x q := by
  simp [rpts, List.getD_eq_getElem?_getD, List.getElem?_map, List.getElem?_range, hq]

theorem ravel3 (rx ry rz : Rule ℝ) {i j k : Nat} (hi : i < rx.n) (hj : j < ry.n) (hk : k < rz.n) :
    ravelWeight [rx, ry, rz] (fIdx3 rx.n ry.n i j k) = rx.w i * ry.w j * rz.w k := by
  obtain ⟨h1, h2, h3⟩ := fIdx3_parts (k := k) hi hj
  simp [ravelWeight, unravelF, tensorWeights, weightLoop, tensordot, h1, h2, h3, Nat.mod_eq_of_lt hk]

theorem kron3_e (D B A : Arr ℝ) (r c : Nat) : (Three.kron3 D B A).e r c =
    D.e (r / A.rows / B.rows) (c / A.cols / B.cols) * B.e (r / A.rows % B.rows) (c / A.cols % B.cols) *
      A.e (r % A.rows) (c % A.cols) := rfl

/-- The quadrature of products of basis functions is a product of quadratures. -/
theorem gram_kron3 (rx ry rz : Rule ℝ) (kx ky kz lx ly lz : Bool) (nx ny nz ox oy oz : List ℝ) (r c : Nat) :
    Metric.gram (ravelWeight [rx, ry, rz])
      (Three.kron3 (bas kz nz (rpts rz)) (bas ky ny (rpts ry)) (bas kx nx (rpts rx)))
      (Three.kron3 (bas lz oz (rpts rz)) (bas ly oy (rpts ry)) (bas lx ox (rpts rx))) r c
    = sum1 rz kz lz nz oz (r / basRows kx nx / basRows ky ny) (c / basRows lx ox / basRows ly oy) *
      sum1 ry ky ly ny oy (r / basRows kx nx % basRows ky ny) (c / basRows lx ox % basRows ly oy) *
      sum1 rx kx lx nx ox (r % basRows kx nx) (c % basRows lx ox) := by
  have hc : (Three.kron3 (bas lz oz (rpts rz)) (bas ly oy (rpts ry)) (bas lx ox (rpts rx))).cols = rz.n * ry.n * rx.n := by
    simp only [Three.kron3, kron, bas_cols, rpts_length]
  rw [Metric.gram, range_map_sum, hc, sum_range_mul, sum_range_mul]
  have key : ∀ k ∈ range rz.n, ∀ j ∈ range ry.n, ∀ i ∈ range rx.n,
      ravelWeight [rx, ry, rz] (fIdx2 rx.n i (fIdx2 ry.n j k)) *
        (Three.kron3 (bas kz nz (rpts rz)) (bas ky ny (rpts ry)) (bas kx nx (rpts rx))).e r (fIdx2 rx.n i (fIdx2 ry.n j k)) *
        (Three.kron3 (bas lz oz (rpts rz)) (bas ly oy (rpts ry)) (bas lx ox (rpts rx))).e c (fIdx2 rx.n i (fIdx2 ry.n j k))
      = (rz.w k * (bas kz nz [rz.x k]).e (r / basRows kx nx / basRows ky ny) 0 * (bas lz oz [rz.x k]).e (c / basRows lx ox / basRows ly oy) 0) *
        ((ry.w j * (bas ky ny [ry.x j]).e (r / basRows kx nx % basRows ky ny) 0 * (bas ly oy [ry.x j]).e (c / basRows lx ox % basRows ly oy) 0) *
        (rx.w i * (bas kx nx [rx.x i]).e (r % basRows kx nx) 0 * (bas lx ox [rx.x i]).e (c % basRows lx ox) 0)) := by
    intro k hk j hj i hi
    have hk := mem_range.1 hk; have hj := mem_range.1 hj; have hi := mem_range.1 hi
    rw [← fIdx3_eq, ravel3 rx ry rz hi hj hk]
    obtain ⟨h1, h2, h3⟩ := fIdx3_parts (k := k) hi hj
    simp only [kron3_e, bas_rows, bas_cols, rpts_length, h1, h2, h3]
    rw [bas_grid kz nz, bas_grid ky ny, bas_grid kx nx, bas_grid lz oz, bas_grid ly oy, bas_grid lx ox,
      rpts_getD rx hi, rpts_getD ry hj, rpts_getD rz hk]
    ring
  rw [Finset.sum_congr rfl fun k hk => Finset.sum_congr rfl fun j hj => Finset.sum_congr rfl fun i hi => key k hk j hj i hi]
  simp only [← Finset.mul_sum, ← Finset.sum_mul, sum1]
  ring

/-- Two exact rules give the same. -/
theorem sum1_exact {r s : Rule ℝ} {d : Nat} (hr : Integrates r d) (hs : Integrates s d) {n n' : List ℝ} (hn : accepted n = true)
    (hn' : accepted n' = true) {k k' : Bool} (hd : basDeg k n + basDeg k' n' ≤ d) {i j : Nat} (hi : i < basRows k n)
    (hj : j < basRows k' n') : sum1 r k k' n n' i j = sum1 s k k' n n' i j := by
  obtain ⟨f, hf, ef⟩ := bas_within hn k hi
  obtain ⟨g, hg, eg⟩ := bas_within hn' k' hj
  have e : ∀ t : Rule ℝ, sum1 t k k' n n' i j = ∑ q ∈ range t.n, t.w q * (f * g).eval (t.x q) := fun t =>
    Finset.sum_congr rfl fun q _ => by rw [ef, eg, eval_mul]; ring
  have hfg : (f * g).natDegree ≤ d := natDegree_mul_le.trans (by omega)
  rw [e, e, hr _ hfg, hs _ hfg]

/-- The weights of the Gauss rules are positive. -/
theorem gauss_pos {n : Nat} {r : Rule ℝ} (h : GaussRule n r) {q : Nat} (hq : q < n) : 0 < r.w q := by
  obtain ⟨k, rfl⟩ : ∃ k, n = k + 1 := ⟨n - 1, by omega⟩
  have hi := gauss_integrates h
  have hinj := gauss_inj h
  have hL : (Lagrange.basis (range (k + 1)) r.x q).natDegree ≤ k := by
    refine natDegree_le_of_degree_le ?_
    rw [Lagrange.degree_basis hinj (mem_range.2 hq), card_range]
    simp
  have e := hi (Lagrange.basis (range (k + 1)) r.x q ^ 2) ((natDegree_pow_le).trans (by omega))
  rw [h.1, Finset.sum_eq_single q, eval_pow, Lagrange.eval_basis_self hinj (mem_range.2 hq), one_pow, mul_one] at e
  · rw [e]
    obtain ⟨h1, h2, _⟩ := h.2.1 q hq
    refine intervalIntegral.integral_pos (by norm_num) (Polynomial.continuous _).continuousOn (fun x _ => ?_)
      ⟨r.x q, ⟨h1.le, h2.le⟩, ?_⟩
    · rw [eval_pow]; positivity
    · rw [eval_pow, Lagrange.eval_basis_self hinj (mem_range.2 hq)]; norm_num
  · intro j hj hne
    rw [eval_pow, Lagrange.eval_basis_of_ne hne.symm hj]
    ring
  · intro hc; exact absurd (mem_range.2 hq) hc

theorem ravel3_pos {a b c : Nat} {rx ry rz : Rule ℝ} (hx : GaussRule a rx) (hy : GaussRule b ry) (hz : GaussRule c rz) {m : Nat}
    (hm : m < rz.n * ry.n * rx.n) : 0 < ravelWeight [rx, ry, rz] m := by
  have h1 : 0 < rx.n := Nat.pos_of_ne_zero fun h => by simp [h] at hm
  have h2 : 0 < ry.n := Nat.pos_of_ne_zero fun h => by simp [h] at hm
  have e : m = fIdx3 rx.n ry.n (m % rx.n) (m / rx.n % ry.n) (m / rx.n / ry.n) := by
    rw [fIdx3, Nat.mod_add_div, Nat.mod_add_div]
  have b1 := Nat.mod_lt m h1
  have b2 := Nat.mod_lt (m / rx.n) h2
  have b3 : m / rx.n / ry.n < rz.n := by
    rw [Nat.div_div_eq_div_mul, Nat.div_lt_iff_lt_mul (Nat.mul_pos h1 h2)]
    rwa [Nat.mul_comm rx.n, ← Nat.mul_assoc]
  rw [e, ravel3 rx ry rz b1 b2 b3]
  exact mul_pos (mul_pos (gauss_pos hx (hx.1 ▸ b1)) (gauss_pos hy (hy.1 ▸ b2))) (gauss_pos hz (hz.1 ▸ b3))

/-- The Gauss rule has enough nodes. -/
theorem gauss_enough {n : List ℝ} (hn : accepted n = true) {k : Nat} {r : Rule ℝ} (h : GaussRule k r) (hk : n.length ≤ k) :
    Enough n (rpts r) := by
  refine ⟨hn, ?_, by rw [rpts_length, h.1]; exact hk⟩
  rw [rpts, List.nodup_map_iff_inj_on List.nodup_range]
  intro i hi j hj hij
  rw [h.1] at hi hj
  exact gauss_inj h (by simpa using hi) (by simpa using hj) hij

/-! ## Projection of a 1-form to a 2-form -/

theorem basis2_bas (nx ny nz xs ys zs : List ℝ) (a : Fin 3) : Metric.Three.basis2 nx ny nz xs ys zs a =
    Three.kron3 (bas (a ≠ 2) nz zs) (bas (a ≠ 1) ny ys) (bas (a ≠ 0) nx xs) := by
  fin_cases a <;> rfl
theorem basis1_bas (nx ny nz xs ys zs : List ℝ) (a : Fin 3) : Metric.Three.basis1 nx ny nz xs ys zs a =
    Three.kron3 (bas (a = 2) nz zs) (bas (a = 1) ny ys) (bas (a = 0) nx xs) := by
  fin_cases a <;> rfl

/-- The block and the index in the block. -/
theorem bmat3_congr {r0 r1 r2 c0 c1 c2 : Nat} {B C : Fin 3 → Fin 3 → Nat → Nat → ℝ} {i j : Nat} (hi : i < r0 + r1 + r2)
    (hj : j < c0 + c1 + c2)
    (h : ∀ a b i' j', i' < (![r0, r1, r2] : Fin 3 → Nat) a → j' < (![c0, c1, c2] : Fin 3 → Nat) b → B a b i' j' = C a b i' j') :
    Metric.bmat3 r0 r1 c0 c1 B i j = Metric.bmat3 r0 r1 c0 c1 C i j := by
  unfold Metric.bmat3
  dsimp only
  split <;> split <;> (try split) <;> (try split) <;> apply h <;> simp <;> omega

theorem kron3_rows (kx ky kz : Bool) (nx ny nz xs ys zs : List ℝ) :
    (Three.kron3 (bas kz nz zs) (bas ky ny ys) (bas kx nx xs)).rows = basRows kz nz * basRows ky ny * basRows kx nx := by
  simp only [Three.kron3, kron, bas_rows]

/-- Two exact rules give the same wedge product. -/
theorem wedge_exact {nx ny nz ox oy oz : List ℝ} (hx : accepted nx = true) (hy : accepted ny = true) (hz : accepted nz = true)
    (hox : accepted ox = true) (hoy : accepted oy = true) (hoz : accepted oz = true) (lx : ox.length = nx.length + 1)
    (ly : oy.length = ny.length + 1) (lz : oz.length = nz.length + 1) {rx ry rz sx sy sz : Rule ℝ}
    (hrx : Integrates rx (2 * (nx.length - 1))) (hry : Integrates ry (2 * (ny.length - 1))) (hrz : Integrates rz (2 * (nz.length - 1)))
    (hsx : Integrates sx (2 * (nx.length - 1))) (hsy : Integrates sy (2 * (ny.length - 1))) (hsz : Integrates sz (2 * (nz.length - 1)))
    {i j : Nat} (hi : i < Mifem.Three.nb2 (ox.length - 1) (oy.length - 1) (oz.length - 1))
    (hj : j < Mifem.Three.nb1 (nx.length - 1) (ny.length - 1) (nz.length - 1)) :
    Metric.Three.wedge12 (ravelWeight [rx, ry, rz]) (Metric.Three.basis2 ox oy oz (rpts rx) (rpts ry) (rpts rz))
      (Metric.Three.basis1 nx ny nz (rpts rx) (rpts ry) (rpts rz)) i j =
    Metric.Three.wedge12 (ravelWeight [sx, sy, sz]) (Metric.Three.basis2 ox oy oz (rpts sx) (rpts sy) (rpts sz))
      (Metric.Three.basis1 nx ny nz (rpts sx) (rpts sy) (rpts sz)) i j := by
  have ax := accepted_two hx; have ay := accepted_two hy; have az := accepted_two hz
  have ne : ∀ {l : List ℝ}, 2 ≤ l.length → l ≠ [] := fun h h0 => by simp [h0] at h
  have nx' := ne ax; have ny' := ne ay; have nz' := ne az
  have ox' : ox ≠ [] := ne (by omega)
  have oy' : oy ≠ [] := ne (by omega)
  have oz' : oz ≠ [] := ne (by omega)
  obtain ⟨o0, o1, o2⟩ := rows3_2 ox' oy' oz' (rpts rx) (rpts ry) (rpts rz)
  obtain ⟨r0, r1, r2⟩ := rows3_1 nx' ny' nz' (rpts rx) (rpts ry) (rpts rz)
  obtain ⟨o0', o1', o2'⟩ := rows3_2 ox' oy' oz' (rpts sx) (rpts sy) (rpts sz)
  obtain ⟨r0', r1', r2'⟩ := rows3_1 nx' ny' nz' (rpts sx) (rpts sy) (rpts sz)
  have eo : ∀ a, (Metric.Three.basis2 ox oy oz (rpts rx) (rpts ry) (rpts rz) a).rows =
      (![Mifem.Three.nb2c0 (ox.length - 1) (oy.length - 1) (oz.length - 1), Mifem.Three.nb2c1 (ox.length - 1) (oy.length - 1) (oz.length - 1),
        Mifem.Three.nb2c2 (ox.length - 1) (oy.length - 1) (oz.length - 1)] : Fin 3 → Nat) a := by
    intro a; fin_cases a; exacts [o0, o1, o2]
  have er : ∀ a, (Metric.Three.basis1 nx ny nz (rpts rx) (rpts ry) (rpts rz) a).rows =
      (![Mifem.Three.nb1c0 (nx.length - 1) (ny.length - 1) (nz.length - 1), Mifem.Three.nb1c1 (nx.length - 1) (ny.length - 1) (nz.length - 1),
        Mifem.Three.nb1c2 (nx.length - 1) (ny.length - 1) (nz.length - 1)] : Fin 3 → Nat) a := by
    intro a; fin_cases a; exacts [r0, r1, r2]
  unfold Metric.Three.wedge12
  rw [o0, o1, r0, r1, o0', o1', r0', r1']
  refine bmat3_congr hi hj fun a b i' j' hi' hj' => ?_
  rw [← eo a, basis2_bas, kron3_rows] at hi'
  rw [← er b, basis1_bas, kron3_rows] at hj'
  by_cases hab : a = b
  · subst hab
    rw [if_pos rfl, if_pos rfl]
    simp only [basis2_bas, basis1_bas]
    rw [gram_kron3, gram_kron3]
    have part : ∀ {u v w t : Nat}, t < w * v * u → t % u < u ∧ t / u % v < v ∧ t / u / v < w := by
      intro u v w t ht
      have h1 : 0 < u := Nat.pos_of_ne_zero fun h => by simp [h] at ht
      have h2 : 0 < v := Nat.pos_of_ne_zero fun h => by simp [h] at ht
      refine ⟨Nat.mod_lt _ h1, Nat.mod_lt _ h2, ?_⟩
      rw [Nat.div_div_eq_div_mul, Nat.div_lt_iff_lt_mul (Nat.mul_pos h1 h2)]
      rwa [Nat.mul_comm u, ← Nat.mul_assoc]
    obtain ⟨i1, i2, i3⟩ := part hi'
    obtain ⟨j1, j2, j3⟩ := part hj'
    rw [sum1_exact hrx hsx hox hx _ i1 j1, sum1_exact hry hsy hoy hy _ i2 j2, sum1_exact hrz hsz hoz hz _ i3 j3] <;>
      fin_cases a <;> simp [basDeg] <;> omega
  · rw [if_neg hab, if_neg hab]

/-- Reconstructions read the cochain below the number of basis functions. -/
theorem recon2_below {nx ny nz : List ℝ} (hx : nx ≠ []) (hy : ny ≠ []) (hz : nz ≠ []) (xs ys zs : List ℝ) {v w : Nat → ℝ}
    (h : ∀ r < Mifem.Three.nb2 (nx.length - 1) (ny.length - 1) (nz.length - 1), v r = w r) (m : Nat) :
    Three.recon2 nx ny nz xs ys zs v m = Three.recon2 nx ny nz xs ys zs w m := by
  obtain ⟨o0, o1, o2⟩ := rows3_2 hx hy hz xs ys zs
  rw [Mifem.Three.nb2, ← o0, ← o1, ← o2] at h
  rw [recon2_eq hx hy hz, recon2_eq hx hy hz]
  have e : ∀ (A : Arr ℝ) (s : Nat), s + A.rows ≤ (Metric.Three.basis2 nx ny nz xs ys zs 0).rows +
      (Metric.Three.basis2 nx ny nz xs ys zs 1).rows + (Metric.Three.basis2 nx ny nz xs ys zs 2).rows →
      einsum A (slice v s) m = einsum A (slice w s) m := by
    intro A s hs
    rw [einsum, einsum, range_map_sum, range_map_sum]
    exact Finset.sum_congr rfl fun i hi => by rw [slice, slice, h _ (by have := mem_range.1 hi; omega)]
  have e0 := e (Metric.Three.basis2 nx ny nz xs ys zs 0) 0 (by omega)
  have s0 : ∀ u : Nat → ℝ, slice u 0 = u := fun u => funext fun i => by rw [slice, Nat.zero_add]
  rw [s0, s0] at e0
  rw [e0, e _ _ (by omega), e _ _ (by omega)]

theorem mul_mul (n n1 : Nat) (A W : Nat → Nat → ℝ) (b : Nat → ℝ) (r : Nat) :
    DualForm.mul n1 (fun r c => DualForm.mul n A (fun k => W k c) r) b r = DualForm.mul n A (DualForm.mul n1 W b) r := by
  simp only [mul_eq, Finset.mul_sum, Finset.sum_mul]
  rw [Finset.sum_comm]
  exact Finset.sum_congr rfl fun i _ => Finset.sum_congr rfl fun j _ => by ring

/-- What a space of nodes must satisfy. -/
def GoodNodes (lobatto : Nat → List ℝ) : Prop := ∀ p, 1 ≤ p → accepted (lobatto p) = true ∧ (lobatto p).length = p + 1

section project
variable {gauss : Nat → Rule ℝ} (hg : ∀ p, GaussRule (p + 1) (gauss p)) {lobatto : Nat → List ℝ} (hl : GoodNodes lobatto)
  {orth : Bool} {A : ℝ → ℝ → ℝ → Metric.M3 ℝ} {delta : Fin 3 → ℝ}
  (hJ : ∀ x y z, 0 < Matrix.det (Matrix.of (Metric.Three.jacobianMatrix orth (A x y z) delta)))
  {nx ny nz : List ℝ} (hx : accepted nx = true) (hy : accepted ny = true) (hz : accepted nz = true)

include hl in
theorem newNodes_good {n : List ℝ} (hn : accepted n = true) :
    accepted (newNodes lobatto n) = true ∧ (newNodes lobatto n).length = n.length + 1 := by
  have h2 := accepted_two hn
  obtain ⟨h, e⟩ := hl (n.length - 1 + 1) (by omega)
  exact ⟨h, by rw [newNodes, e]; omega⟩

include hg in
theorem mass_rule (n : List ℝ) : GaussRule (massDegree orth (n.length - 1) + 1) (gauss (massDegree orth (n.length - 1))) ∧
    n.length ≤ massDegree orth (n.length - 1) + 1 := by
  refine ⟨hg _, ?_⟩
  unfold massDegree
  split <;> omega

include hg hJ in
theorem mass2_posDef {ox oy oz : List ℝ} (hox : accepted ox = true) (hoy : accepted oy = true) (hoz : accepted oz = true) :
    PosDefN (Mifem.Three.nb2 (ox.length - 1) (oy.length - 1) (oz.length - 1)) (mass2 gauss orth A delta ox oy oz) := by
  obtain ⟨gx, lx⟩ := mass_rule hg (orth := orth) ox
  obtain ⟨gy, ly⟩ := mass_rule hg (orth := orth) oy
  obtain ⟨gz, lz⟩ := mass_rule hg (orth := orth) oz
  exact (c94_mass (gauss_enough hox gx lx) (gauss_enough hoy gy ly) (gauss_enough hoz gz lz)
    (fun m hm => ravel3_pos gx gy gz (by simpa only [rpts_length] using hm)) orth _ delta (fun m => hJ _ _ _)).2.2.1

include hg hl hJ hx hy hz in
/-- The system that is solved. -/
theorem standard2form_system (b : Nat → ℝ) :
    let ox := newNodes lobatto nx; let oy := newNodes lobatto ny; let oz := newNodes lobatto nz
    let n2 := Mifem.Three.nb2 (ox.length - 1) (oy.length - 1) (oz.length - 1)
    let n1 := Mifem.Three.nb1 (nx.length - 1) (ny.length - 1) (nz.length - 1)
    ∀ r < n2, DualForm.mul n2 (mass2 gauss orth A delta ox oy oz) (standard2form gauss lobatto orth A delta nx ny nz b) r =
      DualForm.mul n1 (wedge21 gauss nx ny nz ox oy oz) b r := by
  intro ox oy oz n2 n1 r hr
  have hp := mass2_posDef hg hJ (newNodes_good hl hx).1 (newNodes_good hl hy).1 (newNodes_good hl hz).1
  have e : standard2form gauss lobatto orth A delta nx ny nz b
      = DualForm.mul n2 (DualForm.inv n2 (mass2 gauss orth A delta ox oy oz)) (DualForm.mul n1 (wedge21 gauss nx ny nz ox oy oz) b) :=
    funext fun r => mul_mul _ _ _ _ _ _
  rw [e]
  exact mul_inv_mul hp _ r hr

include hg hl hJ hx hy hz in
/-- **C95, the projection of a 1-form.**  The 2-form has the same products with all 2-forms of its space as the 1-form, each side
with the quadrature the code uses for it. -/
theorem c95_moments (b v : Nat → ℝ) :
    let ox := newNodes lobatto nx; let oy := newNodes lobatto ny; let oz := newNodes lobatto nz
    let u := standard2form gauss lobatto orth A delta nx ny nz b
    let mx := gauss (massDegree orth nx.length); let my := gauss (massDegree orth ny.length)
    let mz := gauss (massDegree orth nz.length)
    let wx := gauss nx.length; let wy := gauss ny.length; let wz := gauss nz.length
    let J := fun (rx ry rz : Rule ℝ) m => Metric.Three.jacobianMatrix orth (onGrid A (rpts rx) (rpts ry) (rpts rz) m) delta
    quad3 (mz.n * my.n * mx.n) (ravelWeight [mx, my, mz]) (J mx my mz) (fun m =>
      dotProduct (Metric.Three.reconstruct2 orth (J mx my mz) ox oy oz (rpts mx) (rpts my) (rpts mz) v m)
        (Metric.Three.reconstruct2 orth (J mx my mz) ox oy oz (rpts mx) (rpts my) (rpts mz) u m))
    = quad3 (wz.n * wy.n * wx.n) (ravelWeight [wx, wy, wz]) (J wx wy wz) (fun m =>
      dotProduct (Metric.Three.reconstruct2 orth (J wx wy wz) ox oy oz (rpts wx) (rpts wy) (rpts wz) v m)
        (Metric.Three.reconstruct1 orth (J wx wy wz) nx ny nz (rpts wx) (rpts wy) (rpts wz) b m)) := by
  intro ox oy oz u mx my mz wx wy wz J
  have lx : ox.length = nx.length + 1 := (newNodes_good hl hx).2
  have ly : oy.length = ny.length + 1 := (newNodes_good hl hy).2
  have lz : oz.length = nz.length + 1 := (newNodes_good hl hz).2
  have ax := accepted_two hx; have ay := accepted_two hy; have az := accepted_two hz
  have ne : ∀ {l : List ℝ}, 2 ≤ l.length → l ≠ [] := fun h h0 => by simp [h0] at h
  have box : ox ≠ [] := ne (by omega)
  have boy : oy ≠ [] := ne (by omega)
  have boz : oz ≠ [] := ne (by omega)
  have h56 := c56_2form_3d orth true (onGrid A (rpts mx) (rpts my) (rpts mz)) delta (ravelWeight [mx, my, mz]) ox oy oz ox oy oz
    (rpts mx) (rpts my) (rpts mz) box boy boz box boy boz (fun _ => ⟨rfl, rfl, rfl⟩) v u
  have h57 := c57_wedge_12_3d orth (onGrid A (rpts wx) (rpts wy) (rpts wz)) delta (fun m => (hJ _ _ _).ne') (ravelWeight [wx, wy, wz])
    ox oy oz nx ny nz (rpts wx) (rpts wy) (rpts wz) box boy boz (ne ax) (ne ay) (ne az) v b
  simp only [rpts_length] at h56 h57
  rw [← h56, ← h57]
  have sys := standard2form_system hg hl hJ hx hy hz b
  have em : mass2 gauss orth A delta ox oy oz = Metric.Three.inner2 orth true (J mx my mz) (ravelWeight [mx, my, mz])
      (Metric.Three.basis2 ox oy oz (rpts mx) (rpts my) (rpts mz)) (Metric.Three.basis2 ox oy oz (rpts mx) (rpts my) (rpts mz)) := by
    have e1 : ox.length - 1 = nx.length := by omega
    have e2 : oy.length - 1 = ny.length := by omega
    have e3 : oz.length - 1 = nz.length := by omega
    simp only [mass2, e1, e2, e3]
    rfl
  have ew : wedge21 gauss nx ny nz ox oy oz = Metric.Three.wedge12 (ravelWeight [wx, wy, wz])
      (Metric.Three.basis2 ox oy oz (rpts wx) (rpts wy) (rpts wz)) (Metric.Three.basis1 nx ny nz (rpts wx) (rpts wy) (rpts wz)) := by
    have e1 : wedgeDegree (nx.length - 1) (ox.length - 1) = nx.length := by unfold wedgeDegree; omega
    have e2 : wedgeDegree (ny.length - 1) (oy.length - 1) = ny.length := by unfold wedgeDegree; omega
    have e3 : wedgeDegree (nz.length - 1) (oz.length - 1) = nz.length := by unfold wedgeDegree; omega
    simp only [wedge21, e1, e2, e3]
    rfl
  refine Finset.sum_congr rfl fun i hi => ?_
  have := sys i (mem_range.1 hi)
  rw [mul_eq, mul_eq] at this
  simp only [mul_assoc, ← Finset.mul_sum]
  rw [em, ew] at this
  exact congrArg _ this

/-! ### Exactness on affine elements -/

/-- Values that combine polynomials with fixed coefficients are values of a 2-form. -/
theorem value1_poly (nx ny nz : List ℝ) (hx : accepted nx = true) (hy : accepted ny = true) (hz : accepted nz = true) (b : Nat → ℝ) :
    Poly3 (nx.length - 1) (ny.length - 1) (nz.length - 1) (fun x y z => (Three.recon1 nx ny nz [x] [y] [z] b 0).1) ∧
    Poly3 (nx.length - 1) (ny.length - 1) (nz.length - 1) (fun x y z => (Three.recon1 nx ny nz [x] [y] [z] b 0).2.1) ∧
    Poly3 (nx.length - 1) (ny.length - 1) (nz.length - 1) (fun x y z => (Three.recon1 nx ny nz [x] [y] [z] b 0).2.2) := by
  have m : ∀ (k : Bool) (n : List ℝ), basDeg k n ≤ n.length - 1 := fun k n => by cases k <;> simp [basDeg]; omega
  exact ⟨(poly3_einsum hx hy hz true false false b).mono (m _ _) (m _ _) (m _ _),
    (poly3_einsum hx hy hz false true false _).mono (m _ _) (m _ _) (m _ _),
    (poly3_einsum hx hy hz false false true _).mono (m _ _) (m _ _) (m _ _)⟩

theorem value2_poly (nx ny nz : List ℝ) (hx : accepted nx = true) (hy : accepted ny = true) (hz : accepted nz = true) (b : Nat → ℝ) :
    Poly3 (nx.length - 1) (ny.length - 1) (nz.length - 1) (fun x y z => (Three.recon2 nx ny nz [x] [y] [z] b 0).1) ∧
    Poly3 (nx.length - 1) (ny.length - 1) (nz.length - 1) (fun x y z => (Three.recon2 nx ny nz [x] [y] [z] b 0).2.1) ∧
    Poly3 (nx.length - 1) (ny.length - 1) (nz.length - 1) (fun x y z => (Three.recon2 nx ny nz [x] [y] [z] b 0).2.2) := by
  have m : ∀ (k : Bool) (n : List ℝ), basDeg k n ≤ n.length - 1 := fun k n => by cases k <;> simp [basDeg]; omega
  exact ⟨(poly3_einsum hx hy hz false true true b).mono (m _ _) (m _ _) (m _ _),
    (poly3_einsum hx hy hz true false true _).mono (m _ _) (m _ _) (m _ _),
    (poly3_einsum hx hy hz true true false _).mono (m _ _) (m _ _) (m _ _)⟩

theorem Poly3.lin {dx dy dz : Nat} {F G H : ℝ → ℝ → ℝ → ℝ} (hF : Poly3 dx dy dz F) (hG : Poly3 dx dy dz G) (hH : Poly3 dx dy dz H)
    (a b c : ℝ) : Poly3 dx dy dz fun x y z => a * F x y z + b * G x y z + c * H x y z :=
  .add (.add (.smul a hF) (.smul b hG)) (.smul c hH)

/-- Three polynomials are the components of a 2-form in the reference element. -/
theorem recon2_gives {nx ny nz ox oy oz : List ℝ} (hx : accepted nx = true) (hy : accepted ny = true) (hz : accepted nz = true)
    (hox : accepted ox = true) (hoy : accepted oy = true) (hoz : accepted oz = true) (lx : ox.length = nx.length + 1)
    (ly : oy.length = ny.length + 1) (lz : oz.length = nz.length + 1) {F G H : ℝ → ℝ → ℝ → ℝ}
    (hF : Poly3 (nx.length - 1) (ny.length - 1) (nz.length - 1) F) (hG : Poly3 (nx.length - 1) (ny.length - 1) (nz.length - 1) G)
    (hH : Poly3 (nx.length - 1) (ny.length - 1) (nz.length - 1) H) :
    ∃ v, ∀ x y z, Three.recon2 ox oy oz [x] [y] [z] v 0 = (F x y z, G x y z, H x y z) := by
  have ax := accepted_two hx; have ay := accepted_two hy; have az := accepted_two hz
  have ne : ∀ {l : List ℝ}, 2 ≤ l.length → l ≠ [] := fun h h0 => by simp [h0] at h
  have box : ox ≠ [] := ne (by omega)
  have boy : oy ≠ [] := ne (by omega)
  have boz : oz ≠ [] := ne (by omega)
  have m : ∀ (k : Bool) {n o : List ℝ}, o.length = n.length + 1 → n.length - 1 ≤ basDeg k o :=
    fun k n o h => by cases k <;> simp [basDeg] <;> omega
  obtain ⟨a, ha⟩ := (hF.mono (m false lx) (m true ly) (m true lz)).gives hox hoy hoz
  obtain ⟨b, hb⟩ := (hG.mono (m true lx) (m false ly) (m true lz)).gives hox hoy hoz
  obtain ⟨c, hc⟩ := (hH.mono (m true lx) (m true ly) (m false lz)).gives hox hoy hoz
  refine ⟨fun r => if r < Mifem.Three.nb2c0 (ox.length - 1) (oy.length - 1) (oz.length - 1) then a r
    else if r < Mifem.Three.nb2c0 (ox.length - 1) (oy.length - 1) (oz.length - 1) + Mifem.Three.nb2c1 (ox.length - 1) (oy.length - 1) (oz.length - 1)
    then b (r - Mifem.Three.nb2c0 (ox.length - 1) (oy.length - 1) (oz.length - 1))
    else c (r - (Mifem.Three.nb2c0 (ox.length - 1) (oy.length - 1) (oz.length - 1) + Mifem.Three.nb2c1 (ox.length - 1) (oy.length - 1) (oz.length - 1))),
    fun x y z => ?_⟩
  obtain ⟨o0, o1, o2⟩ := rows3_2 box boy boz [x] [y] [z]
  rw [recon2_eq box boy boz, ha, hb, hc]
  refine Prod.ext ?_ (Prod.ext ?_ ?_)
  all_goals
    dsimp only
    rw [einsum, einsum, range_map_sum, range_map_sum]
  · refine Finset.sum_congr rfl fun i hi => ?_
    have hi : i < (Metric.Three.basis2 ox oy oz [x] [y] [z] 0).rows := mem_range.1 hi
    rw [if_pos (by omega)]
    rfl
  · refine Finset.sum_congr rfl fun i hi => ?_
    have hi : i < (Metric.Three.basis2 ox oy oz [x] [y] [z] 1).rows := mem_range.1 hi
    rw [slice, o0, if_neg (by omega), if_pos (by omega), Nat.add_sub_cancel_left]
    rfl
  · refine Finset.sum_congr rfl fun i hi => ?_
    rw [slice, o0, o1, if_neg (by omega), if_neg (by omega), Nat.add_sub_cancel_left]
    rfl

include hg hl in
/-- **C95, exactness.**  On an element with a constant Jacobian matrix (boxes, and all other affine elements) the projected 2-form has
the values of the 1-form at every point. -/
theorem c95_exact {A₀ : Metric.M3 ℝ} (hJ₀ : 0 < Matrix.det (Matrix.of (Metric.Three.jacobianMatrix orth A₀ delta)))
    (hx : accepted nx = true) (hy : accepted ny = true) (hz : accepted nz = true) (b : Nat → ℝ) (x y z : ℝ) :
    let J := fun _ : Nat => Metric.Three.jacobianMatrix orth A₀ delta
    Metric.Three.reconstruct2 orth J (newNodes lobatto nx) (newNodes lobatto ny) (newNodes lobatto nz) [x] [y] [z]
      (standard2form gauss lobatto orth (fun _ _ _ => A₀) delta nx ny nz b) 0
    = Metric.Three.reconstruct1 orth J nx ny nz [x] [y] [z] b 0 := by
  intro J
  have ax := accepted_two hx; have ay := accepted_two hy; have az := accepted_two hz
  have ne : ∀ {l : List ℝ}, 2 ≤ l.length → l ≠ [] := fun h h0 => by simp [h0] at h
  generalize eox : newNodes lobatto nx = ox
  generalize eoy : newNodes lobatto ny = oy
  generalize eoz : newNodes lobatto nz = oz
  obtain ⟨aox, lx⟩ := newNodes_good hl hx
  obtain ⟨aoy, ly⟩ := newNodes_good hl hy
  obtain ⟨aoz, lz⟩ := newNodes_good hl hz
  have sys := standard2form_system (A := fun _ _ _ => A₀) hg hl (fun _ _ _ => hJ₀) hx hy hz b
  have pd := mass2_posDef (A := fun _ _ _ => A₀) hg (fun _ _ _ => hJ₀) aox aoy aoz
  rw [eox] at aox lx
  rw [eoy] at aoy ly
  rw [eoz] at aoz lz
  simp only [eox, eoy, eoz] at sys pd
  have box : ox ≠ [] := ne (by omega)
  have boy : oy ≠ [] := ne (by omega)
  have boz : oz ≠ [] := ne (by omega)
  -- a 2-form with the same values
  obtain ⟨p0, p1, p2⟩ := value1_poly nx ny nz hx hy hz b
  have hJ1 : Metric.Three.jacobian (J 0) ≠ 0 := by rw [Metric.three_det]; exact hJ₀.ne'
  have hd := Metric.three_diag_inv (Metric.three_diag_jac orth A₀ delta)
  obtain ⟨v, hv⟩ : ∃ v, ∀ x y z, Metric.Three.reconstruct2 orth J ox oy oz [x] [y] [z] v 0 =
      Metric.Three.reconstruct1 orth J nx ny nz [x] [y] [z] b 0 := by
    let I := Metric.Three.inverse (J 0)
    let d := Metric.Three.jacobian (J 0)
    let g := fun a c : Fin 3 => d * (I a 0 * I c 0 + I a 1 * I c 1 + I a 2 * I c 2)
    obtain ⟨v, hv⟩ := recon2_gives hx hy hz aox aoy aoz lx ly lz (p0.lin p1 p2 (g 0 0) (g 0 1) (g 0 2))
      (p0.lin p1 p2 (g 1 0) (g 1 1) (g 1 2)) (p0.lin p1 p2 (g 2 0) (g 2 1) (g 2 2))
    refine ⟨v, fun x y z => funext fun k => ?_⟩
    unfold Metric.Three.reconstruct2 Metric.Three.reconstruct1
    rw [hv]
    dsimp only
    rw [Metric.value2_eq hd, Metric.value2_piola _ hJ1, Metric.value1_eq hd]
    have h1 := inv_mul_cancel₀ hJ1
    have hR : ∀ l, J 0 k 0 * I 0 l + J 0 k 1 * I 1 l + J 0 k 2 * I 2 l = if k = l then 1 else 0 := by
      intro l
      have hm : Matrix.of (J 0) * Matrix.of (Metric.Three.inverse (J 0)) = 1 := mul_eq_one_comm.1 (Metric.three_inv_mul (J 0) hJ1)
      have := congrFun (congrFun hm k) l
      simpa [Matrix.mul_apply, Fin.sum_univ_three, Matrix.one_apply] using this
    have r0 := hR 0; have r1 := hR 1; have r2 := hR 2
    generalize (Three.recon1 nx ny nz [x] [y] [z] b 0).1 = s0
    generalize (Three.recon1 nx ny nz [x] [y] [z] b 0).2.1 = s1
    generalize (Three.recon1 nx ny nz [x] [y] [z] b 0).2.2 = s2
    change d⁻¹ * (J 0 k 0 * (g 0 0 * s0 + g 0 1 * s1 + g 0 2 * s2) + J 0 k 1 * (g 1 0 * s0 + g 1 1 * s1 + g 1 2 * s2) +
      J 0 k 2 * (g 2 0 * s0 + g 2 1 * s1 + g 2 2 * s2)) = s0 * I 0 k + s1 * I 1 k + s2 * I 2 k
    change d⁻¹ * d = 1 at h1
    simp only [g]
    have T : ∀ t0 t1 t2 : ℝ, (if k = 0 then 1 else 0) * t0 + (if k = 1 then 1 else 0) * t1 + (if k = 2 then 1 else 0) * t2 =
        (![t0, t1, t2] : Fin 3 → ℝ) k := by
      intro t0 t1 t2
      fin_cases k <;> simp
    have T' := T (I 0 0 * s0 + I 1 0 * s1 + I 2 0 * s2) (I 0 1 * s0 + I 1 1 * s1 + I 2 1 * s2) (I 0 2 * s0 + I 1 2 * s1 + I 2 2 * s2)
    rw [← r0, ← r1, ← r2] at T'
    have T2 : (![I 0 0 * s0 + I 1 0 * s1 + I 2 0 * s2, I 0 1 * s0 + I 1 1 * s1 + I 2 1 * s2, I 0 2 * s0 + I 1 2 * s1 + I 2 2 * s2] :
        Fin 3 → ℝ) k = s0 * I 0 k + s1 * I 1 k + s2 * I 2 k := by
      fin_cases k <;> simp <;> ring
    rw [T2] at T'
    generalize d⁻¹ = r at h1 ⊢
    linear_combination (r * d) * T' + (s0 * I 0 k + s1 * I 1 k + s2 * I 2 k) * h1
  -- it solves the same system
  let mx := gauss (massDegree orth (ox.length - 1)); let my := gauss (massDegree orth (oy.length - 1))
  let mz := gauss (massDegree orth (oz.length - 1))
  have dg : ∀ {n o : List ℝ}, o.length = n.length + 1 → 2 ≤ n.length → Integrates (gauss (massDegree orth (o.length - 1))) (2 * (n.length - 1)) ∧
      Integrates (gauss (wedgeDegree (n.length - 1) (o.length - 1))) (2 * (n.length - 1)) := by
    intro n o h h2
    have lo : ∀ {r : Rule ℝ} {c d : Nat}, d ≤ c → Integrates r c → Integrates r d := fun h hr f hf => hr f (hf.trans h)
    refine ⟨lo ?_ (gauss_integrates (hg _)), lo ?_ (gauss_integrates (hg _))⟩
    · unfold massDegree; split <;> omega
    · unfold wedgeDegree; omega
  have solves : ∀ r < Mifem.Three.nb2 (ox.length - 1) (oy.length - 1) (oz.length - 1),
      DualForm.mul (Mifem.Three.nb2 (ox.length - 1) (oy.length - 1) (oz.length - 1)) (mass2 gauss orth (fun _ _ _ => A₀) delta ox oy oz) v r =
      DualForm.mul (Mifem.Three.nb1 (nx.length - 1) (ny.length - 1) (nz.length - 1)) (wedge21 gauss nx ny nz ox oy oz) b r := by
    intro r hr
    have h56 := c56_2form_3d orth true (fun _ => A₀) delta (ravelWeight [mx, my, mz]) ox oy oz ox oy oz
      (rpts mx) (rpts my) (rpts mz) box boy boz box boy boz (fun _ => ⟨rfl, rfl, rfl⟩) (fun i => if i = r then 1 else 0) v
    have h57 := c57_wedge_12_3d orth (fun _ => A₀) delta (fun m => hJ₀.ne') (ravelWeight [mx, my, mz])
      ox oy oz nx ny nz (rpts mx) (rpts my) (rpts mz) box boy boz (ne ax) (ne ay) (ne az) (fun i => if i = r then 1 else 0) b
    have same : ∀ m, Metric.Three.reconstruct2 orth J ox oy oz (rpts mx) (rpts my) (rpts mz) v m =
        Metric.Three.reconstruct1 orth J nx ny nz (rpts mx) (rpts my) (rpts mz) b m := by
      intro m
      have := hv (Three.meshgrid (rpts mx) (rpts my) (rpts mz) m).1 (Three.meshgrid (rpts mx) (rpts my) (rpts mz) m).2.1
        (Three.meshgrid (rpts mx) (rpts my) (rpts mz) m).2.2
      unfold Metric.Three.reconstruct2 Metric.Three.reconstruct1 at this ⊢
      rw [(c51_meshgrid ox oy oz (rpts mx) (rpts my) (rpts mz) v m).2.2.1, (c51_meshgrid nx ny nz (rpts mx) (rpts my) (rpts mz) b m).2.1]
      exact this
    dsimp only at h56 h57
    simp only [show (fun _ : Nat => Metric.Three.jacobianMatrix orth A₀ delta) = J from rfl, same] at h56 h57
    have e := h56.trans h57.symm
    simp only [ite_mul, one_mul, zero_mul, Finset.sum_ite_irrel, Finset.sum_const_zero] at e
    rw [Finset.sum_ite_eq' , Finset.sum_ite_eq', if_pos (mem_range.2 hr), if_pos (mem_range.2 hr)] at e
    rw [mul_eq, mul_eq]
    refine Eq.trans e (Finset.sum_congr rfl fun j hj => ?_)
    exact congrArg (· * b j) (wedge_exact hx hy hz aox aoy aoz lx ly lz (dg lx ax).1 (dg ly ay).1 (dg lz az).1 (dg lx ax).2 (dg ly ay).2
      (dg lz az).2 hr (mem_range.1 hj))
  have uniq := pd.unique fun r hr => (sys r hr).trans (solves r hr).symm
  rw [← hv]
  unfold Metric.Three.reconstruct2
  rw [recon2_below box boy boz [x] [y] [z] uniq]

end project

end Mifem.Props
