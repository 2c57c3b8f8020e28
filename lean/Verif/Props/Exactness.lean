import Verif.Props.Incidence
import Verif.Lemmas.Exactness

/-!
# C09: local exactness of the discrete de Rham complex of one element

With `D E : (Fin n → R) → (Fin m → R)` the linear map of an incidence matrix over a coefficient ring `R`
(the reals in the code), the sequence `0 → const → 0-forms → 1-forms → ... → top forms → 0` is exact.
-/

namespace Mifem.Props
open Mifem Finset

variable {R : Type*} [Ring R]

/-- The linear map of the `m × n` incidence matrix with entries `E` over the coefficients `R`. -/
def D (m n : Nat) (E : Nat → Nat → Int) (x : Fin n → R) : Fin m → R :=
  ((toMat m n E).map (fun z : ℤ => (z : R))).mulVec x

/-- extend a finite cochain by zero. -/
def extend {n : Nat} (x : Fin n → R) (k : Nat) : R := if h : k < n then x ⟨k, h⟩ else 0

theorem D_apply (m n : Nat) (E : Nat → Nat → Int) (x : Fin n → R) (r : Fin m) :
    D m n E x r = applyM n E (extend x) r := by
  simp only [D, Matrix.mulVec, dotProduct, Matrix.map_apply, toMat, applyM]
  rw [← Fin.sum_univ_eq_sum_range (fun c => ((E r c : ℤ) : R) * extend x c) n]
  refine Finset.sum_congr rfl fun c _ => ?_
  simp [extend]

theorem D_apply' (m n : Nat) (E : Nat → Nat → Int) (x : Nat → R) (r : Fin m) :
    D m n E (fun c : Fin n => x c) r = applyM n E x r := by
  rw [D_apply]
  refine applyM_congr (fun c hc => ?_) r
  simp [extend, hc]

theorem D_eq_zero {m n : Nat} {E : Nat → Nat → Int} {x : Fin n → R} :
    D m n E x = 0 ↔ ∀ r < m, applyM n E (extend x) r = 0 := by
  constructor
  · intro h r hr
    have := congrFun h ⟨r, hr⟩
    rwa [D_apply] at this
  · intro h
    funext r
    rw [D_apply, h r r.2]; rfl

theorem mem_range_D {m n : Nat} {E : Nat → Nat → Int} {u : Fin m → R} :
    (∃ x, D m n E x = u) ↔ ∃ x : Nat → R, ∀ r < m, applyM n E x r = extend u r := by
  constructor
  · rintro ⟨x, rfl⟩
    refine ⟨extend x, fun r hr => ?_⟩
    simp only [extend, hr, dif_pos]
    rw [D_apply]
  · rintro ⟨x, h⟩
    refine ⟨fun c => x c, ?_⟩
    funext r
    rw [D_apply', h r r.2]
    simp [extend]

/-! ### 2D, inner orientation -/

theorem c09_2d_grad_kernel (p0 p1 : Nat) (x : Fin (Two.nb0 p0 p1) → R) :
    D (Two.nbI1 p0 p1) (Two.nb0 p0 p1) (Two.gradInner p0 p1) x = 0 ↔ ∀ r s, x r = x s := by
  rw [D_eq_zero]
  have hext : ∀ r : Fin (Two.nb0 p0 p1), x r = extend x r.1 := fun r => by simp [extend]
  constructor
  · intro h
    have hi : ∀ i j, i < p0 → j < p1 + 1 → extend x (Two.ln0 p0 p1 (i+1) j) = extend x (Two.ln0 p0 p1 i j) := by
      intro i j hi hj
      have := h _ (Two.lnI1c0_lt' hi hj)
      rwa [Two.gradInner_c0 _ hi hj, sub_eq_zero] at this
    have hj : ∀ i j, i < p0 + 1 → j < p1 → extend x (Two.ln0 p0 p1 i (j+1)) = extend x (Two.ln0 p0 p1 i j) := by
      intro i j hi hj
      have := h _ (Two.lnI1c1_lt hi hj).2
      rwa [Two.gradInner_c1 _ hi hj, sub_eq_zero] at this
    have h0 : ∀ i j, i < p0 + 1 → j < p1 + 1 → extend x (Two.ln0 p0 p1 i j) = extend x (Two.ln0 p0 p1 0 0) := by
      intro i j
      induction i with
      | zero =>
        intro _ 
        induction j with
        | zero => intro _; rfl
        | succ j ih => intro hj'; rw [hj 0 j (by omega) (by omega)]; exact ih (by omega)
      | succ i ih => intro hi' hj'; rw [hi i j (by omega) hj']; exact ih (by omega) hj'
    intro r s
    obtain ⟨i, j, a, b, e⟩ := Two.ln0_cases r.2
    obtain ⟨i', j', a', b', e'⟩ := Two.ln0_cases s.2
    rw [hext, hext, ← e, ← e', h0 _ _ a b, h0 _ _ a' b']
  · intro h r hr
    rcases Two.lnI1_cases hr with ⟨i, j, hi, hj, rfl⟩ | ⟨i, j, hi, hj, rfl⟩
    · rw [Two.gradInner_c0 _ hi hj]
      have := h ⟨_, Two.ln0_lt (p0 := p0) (i := i+1) (by omega) hj⟩ ⟨_, Two.ln0_lt (p0 := p0) (i := i) (by omega) hj⟩
      rw [hext, hext] at this
      rw [this, sub_self]
    · rw [Two.gradInner_c1 _ hi hj]
      have := h ⟨_, Two.ln0_lt (p1 := p1) (j := j+1) hi (by omega)⟩ ⟨_, Two.ln0_lt (p1 := p1) (j := j) hi (by omega)⟩
      rw [hext, hext] at this
      rw [this, sub_self]

theorem c09_2d_rot_kernel (p0 p1 : Nat) (u : Fin (Two.nbI1 p0 p1) → R) :
    D (Two.nb2 p0 p1) (Two.nbI1 p0 p1) (Two.rotInner p0 p1) u = 0 ↔
      ∃ x, D (Two.nbI1 p0 p1) (Two.nb0 p0 p1) (Two.gradInner p0 p1) x = u := by
  rw [D_eq_zero, mem_range_D]
  constructor
  · intro h
    obtain ⟨φ, h0, h1⟩ := poincare2 (p0 := p0) (p1 := p1) (fun i j => extend u (Two.lnI1c0 p0 p1 i j))
      (fun i j => extend u (Two.lnI1c1 p0 p1 i j))
      (fun i j hi hj => by have := h _ (Two.ln2_lt hi hj); rwa [Two.rotInner_row _ hi hj] at this)
    obtain ⟨x, hx⟩ := exists_fIdx2 (a := p0 + 1) φ
    refine ⟨x, fun r hr => ?_⟩
    rcases Two.lnI1_cases hr with ⟨i, j, hi, hj, rfl⟩ | ⟨i, j, hi, hj, rfl⟩
    · rw [Two.gradInner_c0 _ hi hj]; unfold Two.ln0
      rw [hx _ _ (by omega), hx _ _ (by omega)]; exact h0 i j hi hj
    · rw [Two.gradInner_c1 _ hi hj]; unfold Two.ln0
      rw [hx _ _ (by omega), hx _ _ (by omega)]; exact h1 i j hi hj
  · rintro ⟨x, hx⟩ r hr
    obtain ⟨i, j, hi, hj, rfl⟩ := Two.ln2_cases hr
    rw [Two.rotInner_row _ hi hj, ← hx _ (Two.lnI1c0_lt' hi (by omega)), ← hx _ (Two.lnI1c0_lt' hi (by omega)),
      ← hx _ (Two.lnI1c1_lt (by omega) hj).2, ← hx _ (Two.lnI1c1_lt (by omega) hj).2,
      Two.gradInner_c0 _ hi (by omega), Two.gradInner_c0 _ hi (by omega),
      Two.gradInner_c1 _ (by omega) hj, Two.gradInner_c1 _ (by omega) hj]
    abel

theorem c09_2d_rot_onto (p0 p1 : Nat) (f : Fin (Two.nb2 p0 p1) → R) :
    ∃ u, D (Two.nb2 p0 p1) (Two.nbI1 p0 p1) (Two.rotInner p0 p1) u = f := by
  rw [mem_range_D]
  obtain ⟨x, hx⟩ := exists_fIdx2 (a := p0 + 1) (fun i j => ∑ a ∈ range i, extend f (Two.ln2 p0 p1 a j))
  refine ⟨fun r => if r < Two.nbI1c0 p0 p1 then 0 else x (r - Two.nbI1c0 p0 p1), fun r hr => ?_⟩
  obtain ⟨i, j, hi, hj, rfl⟩ := Two.ln2_cases hr
  have a1 := Two.lnI1c0_lt (p1 := p1) (j := j) hi (by omega)
  have a2 := Two.lnI1c0_lt (p1 := p1) (j := j+1) hi (by omega)
  rw [Two.rotInner_row _ hi hj]
  simp only [a1, a2, if_true, Two.lnI1c1, Nat.add_sub_cancel]
  rw [if_neg (by omega), if_neg (by omega), hx _ _ (by omega), hx _ _ (by omega), Finset.sum_range_succ]
  abel

/-! ### 2D, outer orientation -/

theorem c09_2d_curl_kernel (p0 p1 : Nat) (x : Fin (Two.nb0 p0 p1) → R) :
    D (Two.nbO1 p0 p1) (Two.nb0 p0 p1) (Two.curlOuter p0 p1) x = 0 ↔ ∀ r s, x r = x s := by
  rw [← c09_2d_grad_kernel, D_eq_zero, D_eq_zero]
  constructor
  · intro h r hr
    rcases Two.lnI1_cases hr with ⟨i, j, hi, hj, rfl⟩ | ⟨i, j, hi, hj, rfl⟩
    · have := h _ (Two.lnO1c1_lt hi hj).2
      rw [Two.curlOuter_c1 _ hi hj] at this
      rw [Two.gradInner_c0 _ hi hj, ← neg_sub, this, neg_zero]
    · have := h _ (Two.lnO1c0_lt' hi hj)
      rw [Two.curlOuter_c0 _ hi hj] at this
      rw [Two.gradInner_c1 _ hi hj, this]
  · intro h r hr
    rcases Two.lnO1_cases hr with ⟨i, j, hi, hj, rfl⟩ | ⟨i, j, hi, hj, rfl⟩
    · have := h _ (Two.lnI1c1_lt hi hj).2
      rw [Two.gradInner_c1 _ hi hj] at this
      rw [Two.curlOuter_c0 _ hi hj, this]
    · have := h _ (Two.lnI1c0_lt' hi hj)
      rw [Two.gradInner_c0 _ hi hj] at this
      rw [Two.curlOuter_c1 _ hi hj, ← neg_sub, this, neg_zero]

theorem c09_2d_div_kernel (p0 p1 : Nat) (u : Fin (Two.nbO1 p0 p1) → R) :
    D (Two.nb2 p0 p1) (Two.nbO1 p0 p1) (Two.divOuter p0 p1) u = 0 ↔
      ∃ x, D (Two.nbO1 p0 p1) (Two.nb0 p0 p1) (Two.curlOuter p0 p1) x = u := by
  rw [D_eq_zero, mem_range_D]
  constructor
  · intro h
    obtain ⟨φ, h0, h1⟩ := poincare2 (p0 := p0) (p1 := p1) (fun i j => - extend u (Two.lnO1c1 p0 p1 i j))
      (fun i j => extend u (Two.lnO1c0 p0 p1 i j))
      (fun i j hi hj => by
        have := h _ (Two.ln2_lt hi hj); rw [Two.divOuter_row _ hi hj] at this; rw [← this]; abel)
    obtain ⟨x, hx⟩ := exists_fIdx2 (a := p0 + 1) φ
    refine ⟨x, fun r hr => ?_⟩
    rcases Two.lnO1_cases hr with ⟨i, j, hi, hj, rfl⟩ | ⟨i, j, hi, hj, rfl⟩
    · rw [Two.curlOuter_c0 _ hi hj]; unfold Two.ln0
      rw [hx _ _ (by omega), hx _ _ (by omega)]; exact h1 i j hi hj
    · rw [Two.curlOuter_c1 _ hi hj]; unfold Two.ln0
      rw [hx _ _ (by omega), hx _ _ (by omega), ← neg_sub, h0 i j hi hj, neg_neg]
  · rintro ⟨x, hx⟩ r hr
    obtain ⟨i, j, hi, hj, rfl⟩ := Two.ln2_cases hr
    rw [Two.divOuter_row _ hi hj, ← hx _ (Two.lnO1c0_lt' (by omega) hj), ← hx _ (Two.lnO1c0_lt' (by omega) hj),
      ← hx _ (Two.lnO1c1_lt hi (by omega)).2, ← hx _ (Two.lnO1c1_lt hi (by omega)).2,
      Two.curlOuter_c0 _ (by omega) hj, Two.curlOuter_c0 _ (by omega) hj,
      Two.curlOuter_c1 _ hi (by omega), Two.curlOuter_c1 _ hi (by omega)]
    abel

theorem c09_2d_div_onto (p0 p1 : Nat) (f : Fin (Two.nb2 p0 p1) → R) :
    ∃ u, D (Two.nb2 p0 p1) (Two.nbO1 p0 p1) (Two.divOuter p0 p1) u = f := by
  rw [mem_range_D]
  obtain ⟨x, hx⟩ := exists_fIdx2 (a := p0 + 1) (fun i j => ∑ a ∈ range i, extend f (Two.ln2 p0 p1 a j))
  refine ⟨fun r => if r < Two.nbO1c0 p0 p1 then x r else 0, fun r hr => ?_⟩
  obtain ⟨i, j, hi, hj, rfl⟩ := Two.ln2_cases hr
  have a1 := Two.lnO1c0_lt (p0 := p0) (i := i) (by omega) hj
  have a2 := Two.lnO1c0_lt (p0 := p0) (i := i+1) (by omega) hj
  have b1 := Two.lnO1c1_lt (p1 := p1) (j := j) hi (by omega)
  have b2 := Two.lnO1c1_lt (p1 := p1) (j := j+1) hi (by omega)
  rw [Two.divOuter_row _ hi hj]
  simp only [a1, a2, if_true]
  rw [if_neg (by omega), if_neg (by omega)]
  unfold Two.lnO1c0
  rw [hx _ _ (by omega), hx _ _ (by omega), Finset.sum_range_succ]
  abel

/-! ### 3D -/

theorem c09_3d_grad_kernel (p0 p1 p2 : Nat) (x : Fin (Three.nb0 p0 p1 p2) → R) :
    D (Three.nb1 p0 p1 p2) (Three.nb0 p0 p1 p2) (Three.grad p0 p1 p2) x = 0 ↔ ∀ r s, x r = x s := by
  rw [D_eq_zero]
  have hext : ∀ r : Fin (Three.nb0 p0 p1 p2), x r = extend x r.1 := fun r => by simp [extend]
  have lt0 : ∀ {i j k}, i < p0 → j < p1 + 1 → k < p2 + 1 → Three.ln1c0 p0 p1 p2 i j k < Three.nb1 p0 p1 p2 := by
    intro i j k hi hj hk; have := Three.ln1c0_bd hi hj hk; unfold Three.nb1; omega
  have lt1 : ∀ {i j k}, i < p0 + 1 → j < p1 → k < p2 + 1 → Three.ln1c1 p0 p1 p2 i j k < Three.nb1 p0 p1 p2 := by
    intro i j k hi hj hk; have := Three.ln1c1_bd hi hj hk; unfold Three.nb1; omega
  constructor
  · intro h
    have hi : ∀ i j k, i < p0 → j < p1 + 1 → k < p2 + 1 →
        extend x (Three.ln0 p0 p1 p2 (i+1) j k) = extend x (Three.ln0 p0 p1 p2 i j k) := by
      intro i j k hi hj hk
      have := h _ (lt0 hi hj hk)
      rwa [Three.grad_c0 _ hi hj hk, sub_eq_zero] at this
    have hj : ∀ i j k, i < p0 + 1 → j < p1 → k < p2 + 1 →
        extend x (Three.ln0 p0 p1 p2 i (j+1) k) = extend x (Three.ln0 p0 p1 p2 i j k) := by
      intro i j k hi hj hk
      have := h _ (lt1 hi hj hk)
      rwa [Three.grad_c1 _ hi hj hk, sub_eq_zero] at this
    have hk : ∀ i j k, i < p0 + 1 → j < p1 + 1 → k < p2 →
        extend x (Three.ln0 p0 p1 p2 i j (k+1)) = extend x (Three.ln0 p0 p1 p2 i j k) := by
      intro i j k hi hj hk
      have := h _ (Three.ln1c2_bd hi hj hk).2
      rwa [Three.grad_c2 _ hi hj hk, sub_eq_zero] at this
    have h0 : ∀ i j k, i < p0 + 1 → j < p1 + 1 → k < p2 + 1 →
        extend x (Three.ln0 p0 p1 p2 i j k) = extend x (Three.ln0 p0 p1 p2 0 0 0) := by
      intro i j k
      induction i with
      | zero =>
        intro _
        induction j with
        | zero =>
          intro _
          induction k with
          | zero => intro _; rfl
          | succ k ih => intro hk'; rw [hk 0 0 k (by omega) (by omega) (by omega)]; exact ih (by omega)
        | succ j ih => intro hj' hk'; rw [hj 0 j k (by omega) (by omega) hk']; exact ih (by omega) hk'
      | succ i ih => intro hi' hj' hk'; rw [hi i j k (by omega) hj' hk']; exact ih (by omega) hj' hk'
    intro r s
    obtain ⟨i, j, k, a, b, c, e⟩ := Three.ln0_cases r.2
    obtain ⟨i', j', k', a', b', c', e'⟩ := Three.ln0_cases s.2
    rw [hext, hext, ← e, ← e', h0 _ _ _ a b c, h0 _ _ _ a' b' c']
  · intro h r hr
    have hc : ∀ {a b}, a < Three.nb0 p0 p1 p2 → b < Three.nb0 p0 p1 p2 → extend x a - extend x b = 0 := by
      intro a b ha hb
      have := h ⟨a, ha⟩ ⟨b, hb⟩
      rw [hext, hext] at this
      rw [this, sub_self]
    rcases Three.ln1_cases hr with ⟨i, j, k, hi, hj, hk, rfl⟩ | ⟨i, j, k, hi, hj, hk, rfl⟩ | ⟨i, j, k, hi, hj, hk, rfl⟩
    · rw [Three.grad_c0 _ hi hj hk]
      exact hc (Three.ln0_bd (by omega) (by omega) (by omega)).2 (Three.ln0_bd (by omega) (by omega) (by omega)).2
    · rw [Three.grad_c1 _ hi hj hk]
      exact hc (Three.ln0_bd (by omega) (by omega) (by omega)).2 (Three.ln0_bd (by omega) (by omega) (by omega)).2
    · rw [Three.grad_c2 _ hi hj hk]
      exact hc (Three.ln0_bd (by omega) (by omega) (by omega)).2 (Three.ln0_bd (by omega) (by omega) (by omega)).2

theorem lt1c0 {p0 p1 p2 i j k : Nat} (hi : i < p0) (hj : j < p1 + 1) (hk : k < p2 + 1) :
    Three.ln1c0 p0 p1 p2 i j k < Three.nb1 p0 p1 p2 := by
  have := Three.ln1c0_bd hi hj hk; unfold Three.nb1; omega
theorem lt1c1 {p0 p1 p2 i j k : Nat} (hi : i < p0 + 1) (hj : j < p1) (hk : k < p2 + 1) :
    Three.ln1c1 p0 p1 p2 i j k < Three.nb1 p0 p1 p2 := by
  have := Three.ln1c1_bd hi hj hk; unfold Three.nb1; omega
theorem lt2c0 {p0 p1 p2 i j k : Nat} (hi : i < p0 + 1) (hj : j < p1) (hk : k < p2) :
    Three.ln2c0 p0 p1 p2 i j k < Three.nb2 p0 p1 p2 := by
  have := Three.ln2c0_bd hi hj hk; unfold Three.nb2; omega
theorem lt2c1 {p0 p1 p2 i j k : Nat} (hi : i < p0) (hj : j < p1 + 1) (hk : k < p2) :
    Three.ln2c1 p0 p1 p2 i j k < Three.nb2 p0 p1 p2 := by
  have := Three.ln2c1_bd hi hj hk; unfold Three.nb2; omega

theorem c09_3d_curl_kernel (p0 p1 p2 : Nat) (u : Fin (Three.nb1 p0 p1 p2) → R) :
    D (Three.nb2 p0 p1 p2) (Three.nb1 p0 p1 p2) (Three.curl p0 p1 p2) u = 0 ↔
      ∃ x, D (Three.nb1 p0 p1 p2) (Three.nb0 p0 p1 p2) (Three.grad p0 p1 p2) x = u := by
  rw [D_eq_zero, mem_range_D]
  constructor
  · intro h
    obtain ⟨φ, h0, h1, h2⟩ := poincare3_1 (p0 := p0) (p1 := p1) (p2 := p2)
      (fun i j k => extend u (Three.ln1c0 p0 p1 p2 i j k)) (fun i j k => extend u (Three.ln1c1 p0 p1 p2 i j k))
      (fun i j k => extend u (Three.ln1c2 p0 p1 p2 i j k))
      (fun i j k hi hj hk => by
        have := h _ (lt2c0 hi hj hk); rwa [Three.curl_c0 _ hi hj hk] at this)
      (fun i j k hi hj hk => by
        have := h _ (lt2c1 hi hj hk); rwa [Three.curl_c1 _ hi hj hk] at this)
      (fun i j k hi hj hk => by
        have := h _ (Three.ln2c2_bd hi hj hk).2; rwa [Three.curl_c2 _ hi hj hk] at this)
    obtain ⟨x, hx⟩ := exists_fIdx3 (a := p0 + 1) (b := p1 + 1) φ
    refine ⟨x, fun r hr => ?_⟩
    rcases Three.ln1_cases hr with ⟨i, j, k, hi, hj, hk, rfl⟩ | ⟨i, j, k, hi, hj, hk, rfl⟩ | ⟨i, j, k, hi, hj, hk, rfl⟩
    · rw [Three.grad_c0 _ hi hj hk]; unfold Three.ln0
      rw [hx _ _ _ (by omega) (by omega), hx _ _ _ (by omega) (by omega)]; exact h0 i j k hi hj hk
    · rw [Three.grad_c1 _ hi hj hk]; unfold Three.ln0
      rw [hx _ _ _ (by omega) (by omega), hx _ _ _ (by omega) (by omega)]; exact h1 i j k hi hj hk
    · rw [Three.grad_c2 _ hi hj hk]; unfold Three.ln0
      rw [hx _ _ _ (by omega) (by omega), hx _ _ _ (by omega) (by omega)]; exact h2 i j k hi hj hk
  · rintro ⟨x, hx⟩ r hr
    rcases Three.ln2_cases hr with ⟨i, j, k, hi, hj, hk, rfl⟩ | ⟨i, j, k, hi, hj, hk, rfl⟩ | ⟨i, j, k, hi, hj, hk, rfl⟩
    · rw [Three.curl_c0 _ hi hj hk, ← hx _ (lt1c1 (by omega) (by omega) (by omega)),
        ← hx _ (lt1c1 (by omega) (by omega) (by omega)), ← hx _ (Three.ln1c2_bd (by omega) (by omega) (by omega)).2,
        ← hx _ (Three.ln1c2_bd (by omega) (by omega) (by omega)).2,
        Three.grad_c1 _ (by omega) (by omega) (by omega), Three.grad_c1 _ (by omega) (by omega) (by omega),
        Three.grad_c2 _ (by omega) (by omega) (by omega), Three.grad_c2 _ (by omega) (by omega) (by omega)]
      abel
    · rw [Three.curl_c1 _ hi hj hk, ← hx _ (lt1c0 (by omega) (by omega) (by omega)),
        ← hx _ (lt1c0 (by omega) (by omega) (by omega)), ← hx _ (Three.ln1c2_bd (by omega) (by omega) (by omega)).2,
        ← hx _ (Three.ln1c2_bd (by omega) (by omega) (by omega)).2,
        Three.grad_c0 _ (by omega) (by omega) (by omega), Three.grad_c0 _ (by omega) (by omega) (by omega),
        Three.grad_c2 _ (by omega) (by omega) (by omega), Three.grad_c2 _ (by omega) (by omega) (by omega)]
      abel
    · rw [Three.curl_c2 _ hi hj hk, ← hx _ (lt1c0 (by omega) (by omega) (by omega)),
        ← hx _ (lt1c0 (by omega) (by omega) (by omega)), ← hx _ (lt1c1 (by omega) (by omega) (by omega)),
        ← hx _ (lt1c1 (by omega) (by omega) (by omega)),
        Three.grad_c0 _ (by omega) (by omega) (by omega), Three.grad_c0 _ (by omega) (by omega) (by omega),
        Three.grad_c1 _ (by omega) (by omega) (by omega), Three.grad_c1 _ (by omega) (by omega) (by omega)]
      abel

theorem c09_3d_div_kernel (p0 p1 p2 : Nat) (w : Fin (Three.nb2 p0 p1 p2) → R) :
    D (Three.nb3 p0 p1 p2) (Three.nb2 p0 p1 p2) (Three.div p0 p1 p2) w = 0 ↔
      ∃ u, D (Three.nb2 p0 p1 p2) (Three.nb1 p0 p1 p2) (Three.curl p0 p1 p2) u = w := by
  rw [D_eq_zero, mem_range_D]
  constructor
  · intro h
    obtain ⟨u0, u1, u2, h0, h1, h2⟩ := poincare3_2 (p0 := p0) (p1 := p1) (p2 := p2)
      (fun i j k => extend w (Three.ln2c0 p0 p1 p2 i j k)) (fun i j k => extend w (Three.ln2c1 p0 p1 p2 i j k))
      (fun i j k => extend w (Three.ln2c2 p0 p1 p2 i j k))
      (fun i j k hi hj hk => by
        have := h _ (Three.ln3_bd hi hj hk).2; rwa [Three.div_row _ hi hj hk] at this)
    obtain ⟨x0, hx0⟩ := exists_fIdx3 (a := p0) (b := p1 + 1) u0
    obtain ⟨x1, hx1⟩ := exists_fIdx3 (a := p0 + 1) (b := p1) u1
    obtain ⟨x2, hx2⟩ := exists_fIdx3 (a := p0 + 1) (b := p1 + 1) u2
    let x : Nat → R := fun r => if r < Three.nb1c0 p0 p1 p2 then x0 r else
      if r < Three.nb1c0 p0 p1 p2 + Three.nb1c1 p0 p1 p2 then x1 (r - Three.nb1c0 p0 p1 p2)
      else x2 (r - (Three.nb1c0 p0 p1 p2 + Three.nb1c1 p0 p1 p2))
    have e0 : ∀ i j k, i < p0 → j < p1 + 1 → k < p2 + 1 → x (Three.ln1c0 p0 p1 p2 i j k) = u0 i j k := by
      intro i j k hi hj hk
      have := Three.ln1c0_bd hi hj hk
      simp only [x]; rw [if_pos this.2]; exact hx0 i j k hi hj
    have e1 : ∀ i j k, i < p0 + 1 → j < p1 → k < p2 + 1 → x (Three.ln1c1 p0 p1 p2 i j k) = u1 i j k := by
      intro i j k hi hj hk
      have := Three.ln1c1_bd hi hj hk
      simp only [x]; rw [if_neg (by omega), if_pos this.2]; unfold Three.ln1c1
      rw [Nat.add_sub_cancel]; exact hx1 i j k hi hj
    have e2 : ∀ i j k, i < p0 + 1 → j < p1 + 1 → k < p2 → x (Three.ln1c2 p0 p1 p2 i j k) = u2 i j k := by
      intro i j k hi hj hk
      have := Three.ln1c2_bd hi hj hk
      simp only [x]; rw [if_neg (by omega), if_neg (by omega)]; unfold Three.ln1c2
      rw [Nat.add_sub_cancel]; exact hx2 i j k hi hj
    refine ⟨x, fun r hr => ?_⟩
    rcases Three.ln2_cases hr with ⟨i, j, k, hi, hj, hk, rfl⟩ | ⟨i, j, k, hi, hj, hk, rfl⟩ | ⟨i, j, k, hi, hj, hk, rfl⟩
    · rw [Three.curl_c0 _ hi hj hk, e1 _ _ _ (by omega) (by omega) (by omega), e1 _ _ _ (by omega) (by omega) (by omega),
        e2 _ _ _ (by omega) (by omega) (by omega), e2 _ _ _ (by omega) (by omega) (by omega)]
      exact h0 i j k hi hj hk
    · rw [Three.curl_c1 _ hi hj hk, e0 _ _ _ (by omega) (by omega) (by omega), e0 _ _ _ (by omega) (by omega) (by omega),
        e2 _ _ _ (by omega) (by omega) (by omega), e2 _ _ _ (by omega) (by omega) (by omega)]
      exact h1 i j k hi hj hk
    · rw [Three.curl_c2 _ hi hj hk, e0 _ _ _ (by omega) (by omega) (by omega), e0 _ _ _ (by omega) (by omega) (by omega),
        e1 _ _ _ (by omega) (by omega) (by omega), e1 _ _ _ (by omega) (by omega) (by omega)]
      exact h2 i j k hi hj hk
  · rintro ⟨x, hx⟩ r hr
    obtain ⟨i, j, k, hi, hj, hk, rfl⟩ := Three.ln3_cases hr
    rw [Three.div_row _ hi hj hk, ← hx _ (lt2c0 (by omega) (by omega) (by omega)),
      ← hx _ (lt2c0 (by omega) (by omega) (by omega)), ← hx _ (lt2c1 (by omega) (by omega) (by omega)),
      ← hx _ (lt2c1 (by omega) (by omega) (by omega)), ← hx _ (Three.ln2c2_bd (by omega) (by omega) (by omega)).2,
      ← hx _ (Three.ln2c2_bd (by omega) (by omega) (by omega)).2,
      Three.curl_c0 _ (by omega) (by omega) (by omega), Three.curl_c0 _ (by omega) (by omega) (by omega),
      Three.curl_c1 _ (by omega) (by omega) (by omega), Three.curl_c1 _ (by omega) (by omega) (by omega),
      Three.curl_c2 _ (by omega) (by omega) (by omega), Three.curl_c2 _ (by omega) (by omega) (by omega)]
    abel

theorem c09_3d_div_onto (p0 p1 p2 : Nat) (f : Fin (Three.nb3 p0 p1 p2) → R) :
    ∃ w, D (Three.nb3 p0 p1 p2) (Three.nb2 p0 p1 p2) (Three.div p0 p1 p2) w = f := by
  rw [mem_range_D]
  obtain ⟨x, hx⟩ := exists_fIdx3 (a := p0 + 1) (b := p1)
    (fun i j k => ∑ a ∈ range i, extend f (Three.ln3 p0 p1 p2 a j k))
  refine ⟨fun r => if r < Three.nb2c0 p0 p1 p2 then x r else 0, fun r hr => ?_⟩
  obtain ⟨i, j, k, hi, hj, hk, rfl⟩ := Three.ln3_cases hr
  have a1 := Three.ln2c0_bd (p0 := p0) (i := i) (by omega) hj hk
  have a2 := Three.ln2c0_bd (p0 := p0) (i := i+1) (by omega) hj hk
  have b1 := Three.ln2c1_bd (p1 := p1) (j := j) hi (by omega) hk
  have b2 := Three.ln2c1_bd (p1 := p1) (j := j+1) hi (by omega) hk
  have d1 := Three.ln2c2_bd (p2 := p2) (k := k) hi hj (by omega)
  have d2 := Three.ln2c2_bd (p2 := p2) (k := k+1) hi hj (by omega)
  rw [Three.div_row _ hi hj hk]
  rw [if_pos a2.2, if_neg (by omega), if_neg (by omega), if_pos a1.2, if_neg (by omega), if_neg (by omega)]
  unfold Three.ln2c0
  rw [hx _ _ _ (by omega) hj, hx _ _ _ (by omega) hj, Finset.sum_range_succ]
  abel

/-- a non-trivial kernel element: the gradient of the third coordinate function is closed and not zero. -/
example : ∃ u : Fin (Three.nb1 1 1 2) → ℤ, u ≠ 0 ∧
    D (Three.nb2 1 1 2) (Three.nb1 1 1 2) (Three.curl 1 1 2) u = 0 := by
  refine ⟨D _ (Three.nb0 1 1 2) (Three.grad 1 1 2) (fun r => if r.1 = 0 then 1 else 0), ?_, ?_⟩
  · intro h
    have := (c09_3d_grad_kernel 1 1 2 _).1 h ⟨0, by decide⟩ ⟨1, by decide⟩
    simp at this
  · exact (c09_3d_curl_kernel 1 1 2 _).2 ⟨_, rfl⟩

end Mifem.Props
