import Verif.Lemmas.Incidence2D
import Verif.Lemmas.Incidence3D
import Mathlib.LinearAlgebra.Matrix.Notation
import Mathlib.Data.Matrix.Mul

/-!
# Properties C07, C08 (complex property), C09 (exactness), C10 (local numbering)

The matrices returned by `space.incidence_matrix.*` are regarded as integer matrices of the advertised shape
(`num_basis` of the target times `num_basis` of the source); the statements are about matrix products, kernels
and images of those matrices.
-/

namespace Mifem.Props
open Mifem Finset

/-- The `m × n` integer matrix with entries `E r c`. -/
def toMat (m n : Nat) (E : Nat → Nat → Int) : Matrix (Fin m) (Fin n) ℤ := fun r c => E r c

theorem toMat_mulVec {m n : Nat} (E : Nat → Nat → Int) (x : Nat → ℤ) (r : Fin m) :
    (toMat m n E).mulVec (fun c => x c) r = applyM n E x r := by
  simp only [Matrix.mulVec, dotProduct, toMat, applyM, Int.cast_id]
  exact Fin.sum_univ_eq_sum_range (fun c => E r c * x c) n

theorem toMat_mul_eq_zero {l m n : Nat} {A B : Nat → Nat → Int}
    (h : ∀ x : Nat → ℤ, ∀ r < l, applyM m A (applyM n B x) r = 0) : toMat l m A * toMat m n B = 0 := by
  ext r c
  have h1 := h (fun k => if k = c.1 then 1 else 0) r r.2
  change _ = (0 : ℤ)
  rw [← h1]
  simp only [Matrix.mul_apply, toMat, applyM, Int.cast_id]
  rw [← Fin.sum_univ_eq_sum_range (fun k => A r k * _) m]
  refine Finset.sum_congr rfl fun k _ => ?_
  congr 1
  simp

/-! ## C07: in 2D the product of the two incidence matrices is the zero matrix -/

theorem c07_rot_grad_eq_zero (p0 p1 : Nat) :
    toMat (Two.nb2 p0 p1) (Two.nbI1 p0 p1) (Two.rotInner p0 p1)
      * toMat (Two.nbI1 p0 p1) (Two.nb0 p0 p1) (Two.gradInner p0 p1) = 0 := by
  apply toMat_mul_eq_zero
  intro x r hr
  obtain ⟨i, j, hi, hj, rfl⟩ := Two.ln2_cases hr
  rw [Two.rotInner_row _ hi hj, Two.gradInner_c0 _ hi (by omega), Two.gradInner_c0 _ hi (by omega),
    Two.gradInner_c1 _ (by omega) hj, Two.gradInner_c1 _ (by omega) hj]
  ring

theorem c07_div_curl_eq_zero (p0 p1 : Nat) :
    toMat (Two.nb2 p0 p1) (Two.nbO1 p0 p1) (Two.divOuter p0 p1)
      * toMat (Two.nbO1 p0 p1) (Two.nb0 p0 p1) (Two.curlOuter p0 p1) = 0 := by
  apply toMat_mul_eq_zero
  intro x r hr
  obtain ⟨i, j, hi, hj, rfl⟩ := Two.ln2_cases hr
  rw [Two.divOuter_row _ hi hj, Two.curlOuter_c0 _ (by omega) hj, Two.curlOuter_c0 _ (by omega) hj,
    Two.curlOuter_c1 _ hi (by omega), Two.curlOuter_c1 _ hi (by omega)]
  ring

/-- the matrices are not trivially zero: a degree (2,3) entry of each. -/
example : Two.gradInner 2 3 0 1 = 1 ∧ Two.rotInner 2 3 0 0 = 1 ∧ Two.curlOuter 2 3 0 0 = -1 ∧
    Two.divOuter 2 3 0 1 = 1 := by decide

/-! ## C08: in 3D both products are zero -/

theorem c08_curl_grad_eq_zero (p0 p1 p2 : Nat) :
    toMat (Three.nb2 p0 p1 p2) (Three.nb1 p0 p1 p2) (Three.curl p0 p1 p2)
      * toMat (Three.nb1 p0 p1 p2) (Three.nb0 p0 p1 p2) (Three.grad p0 p1 p2) = 0 := by
  apply toMat_mul_eq_zero
  intro x r hr
  rcases Three.ln2_cases hr with ⟨i, j, k, hi, hj, hk, rfl⟩ | ⟨i, j, k, hi, hj, hk, rfl⟩ | ⟨i, j, k, hi, hj, hk, rfl⟩
  · rw [Three.curl_c0 _ hi hj hk, Three.grad_c1 _ (by omega) (by omega) (by omega),
      Three.grad_c1 _ (by omega) (by omega) (by omega), Three.grad_c2 _ (by omega) (by omega) (by omega),
      Three.grad_c2 _ (by omega) (by omega) (by omega)]
    ring
  · rw [Three.curl_c1 _ hi hj hk, Three.grad_c0 _ (by omega) (by omega) (by omega),
      Three.grad_c0 _ (by omega) (by omega) (by omega), Three.grad_c2 _ (by omega) (by omega) (by omega),
      Three.grad_c2 _ (by omega) (by omega) (by omega)]
    ring
  · rw [Three.curl_c2 _ hi hj hk, Three.grad_c0 _ (by omega) (by omega) (by omega),
      Three.grad_c0 _ (by omega) (by omega) (by omega), Three.grad_c1 _ (by omega) (by omega) (by omega),
      Three.grad_c1 _ (by omega) (by omega) (by omega)]
    ring

theorem c08_div_curl_eq_zero (p0 p1 p2 : Nat) :
    toMat (Three.nb3 p0 p1 p2) (Three.nb2 p0 p1 p2) (Three.div p0 p1 p2)
      * toMat (Three.nb2 p0 p1 p2) (Three.nb1 p0 p1 p2) (Three.curl p0 p1 p2) = 0 := by
  apply toMat_mul_eq_zero
  intro x r hr
  obtain ⟨i, j, k, hi, hj, hk, rfl⟩ := Three.ln3_cases hr
  rw [Three.div_row _ hi hj hk, Three.curl_c0 _ (by omega) (by omega) (by omega),
    Three.curl_c0 _ (by omega) (by omega) (by omega), Three.curl_c1 _ (by omega) (by omega) (by omega),
    Three.curl_c1 _ (by omega) (by omega) (by omega), Three.curl_c2 _ (by omega) (by omega) (by omega),
    Three.curl_c2 _ (by omega) (by omega) (by omega)]
  ring

example : Three.grad 1 2 1 0 1 = 1 ∧ Three.curl 1 1 1 0 4 = 1 ∧ Three.div 1 2 1 0 0 = -1 := by decide

/-! ## C10: the local numbering is a bijection onto `0 .. num_basis - 1` -/

/-- index sets of the components, written down independently of the code: a component of a form of degree `p` has, in
each direction, `p` entries (edge type) or `p+1` entries (node type). -/
abbrev Cells2 (a b : Nat) := Fin a × Fin b
@[inherit_doc Cells2] abbrev Cells3 (a b c : Nat) := Fin a × Fin b × Fin c

theorem c10_2d_form0 (p0 p1 : Nat) :
    ∃ f : Cells2 (p0+1) (p1+1) → Fin (Two.nb0 p0 p1), f.Bijective ∧ ∀ q, (f q).1 = Two.ln0 p0 p1 q.1 q.2 := by
  refine ⟨fun q => ⟨Two.ln0 p0 p1 q.1 q.2, Two.ln0_lt q.1.2 q.2.2⟩, ⟨?_, ?_⟩, fun _ => rfl⟩
  · rintro ⟨⟨i, hi⟩, ⟨j, hj⟩⟩ ⟨⟨i', hi'⟩, ⟨j', hj'⟩⟩ h
    have : i = i' ∧ j = j' := fIdx2_inj hi' hi (congrArg Fin.val h)
    simp [this]
  · rintro ⟨r, hr⟩
    obtain ⟨i, j, hi, hj, e⟩ := Two.ln0_cases hr
    exact ⟨(⟨i, hi⟩, ⟨j, hj⟩), Fin.ext e⟩

theorem c10_2d_form2 (p0 p1 : Nat) :
    ∃ f : Cells2 p0 p1 → Fin (Two.nb2 p0 p1), f.Bijective ∧ ∀ q, (f q).1 = Two.ln2 p0 p1 q.1 q.2 := by
  refine ⟨fun q => ⟨Two.ln2 p0 p1 q.1 q.2, Two.ln2_lt q.1.2 q.2.2⟩, ⟨?_, ?_⟩, fun _ => rfl⟩
  · rintro ⟨⟨i, hi⟩, ⟨j, hj⟩⟩ ⟨⟨i', hi'⟩, ⟨j', hj'⟩⟩ h
    have : i = i' ∧ j = j' := fIdx2_inj hi' hi (congrArg Fin.val h)
    simp [this]
  · rintro ⟨r, hr⟩
    obtain ⟨i, j, hi, hj, e⟩ := Two.ln2_cases hr
    exact ⟨(⟨i, hi⟩, ⟨j, hj⟩), Fin.ext e⟩

theorem c10_2d_inner1 (p0 p1 : Nat) :
    ∃ f : Cells2 p0 (p1+1) ⊕ Cells2 (p0+1) p1 → Fin (Two.nbI1 p0 p1), f.Bijective ∧
      (∀ q, (f (.inl q)).1 = Two.lnI1c0 p0 p1 q.1 q.2) ∧ (∀ q, (f (.inr q)).1 = Two.lnI1c1 p0 p1 q.1 q.2) := by
  refine ⟨fun q => match q with
      | .inl q => ⟨Two.lnI1c0 p0 p1 q.1 q.2, Two.lnI1c0_lt' q.1.2 q.2.2⟩
      | .inr q => ⟨Two.lnI1c1 p0 p1 q.1 q.2, (Two.lnI1c1_lt q.1.2 q.2.2).2⟩, ⟨?_, ?_⟩, fun _ => rfl, fun _ => rfl⟩
  · rintro (⟨⟨i, hi⟩, ⟨j, hj⟩⟩ | ⟨⟨i, hi⟩, ⟨j, hj⟩⟩) (⟨⟨i', hi'⟩, ⟨j', hj'⟩⟩ | ⟨⟨i', hi'⟩, ⟨j', hj'⟩⟩) h
    · have : i = i' ∧ j = j' := fIdx2_inj hi' hi (congrArg Fin.val h)
      simp [this]
    · have h1 := Two.lnI1c0_lt hi hj
      have h2 := Two.lnI1c1_lt hi' hj'
      have := congrArg Fin.val h
      simp at this; omega
    · have h1 := Two.lnI1c0_lt hi' hj'
      have h2 := Two.lnI1c1_lt hi hj
      have := congrArg Fin.val h
      simp at this; omega
    · have : i = i' ∧ j = j' := fIdx2_inj hi' hi (Nat.add_right_cancel (congrArg Fin.val h))
      simp [this]
  · rintro ⟨r, hr⟩
    rcases Two.lnI1_cases hr with ⟨i, j, hi, hj, e⟩ | ⟨i, j, hi, hj, e⟩
    · exact ⟨.inl (⟨i, hi⟩, ⟨j, hj⟩), Fin.ext e⟩
    · exact ⟨.inr (⟨i, hi⟩, ⟨j, hj⟩), Fin.ext e⟩

theorem c10_2d_outer1 (p0 p1 : Nat) :
    ∃ f : Cells2 (p0+1) p1 ⊕ Cells2 p0 (p1+1) → Fin (Two.nbO1 p0 p1), f.Bijective ∧
      (∀ q, (f (.inl q)).1 = Two.lnO1c0 p0 p1 q.1 q.2) ∧ (∀ q, (f (.inr q)).1 = Two.lnO1c1 p0 p1 q.1 q.2) := by
  refine ⟨fun q => match q with
      | .inl q => ⟨Two.lnO1c0 p0 p1 q.1 q.2, Two.lnO1c0_lt' q.1.2 q.2.2⟩
      | .inr q => ⟨Two.lnO1c1 p0 p1 q.1 q.2, (Two.lnO1c1_lt q.1.2 q.2.2).2⟩, ⟨?_, ?_⟩, fun _ => rfl, fun _ => rfl⟩
  · rintro (⟨⟨i, hi⟩, ⟨j, hj⟩⟩ | ⟨⟨i, hi⟩, ⟨j, hj⟩⟩) (⟨⟨i', hi'⟩, ⟨j', hj'⟩⟩ | ⟨⟨i', hi'⟩, ⟨j', hj'⟩⟩) h
    · have : i = i' ∧ j = j' := fIdx2_inj hi' hi (congrArg Fin.val h)
      simp [this]
    · have h1 := Two.lnO1c0_lt hi hj
      have h2 := Two.lnO1c1_lt hi' hj'
      have := congrArg Fin.val h
      simp at this; omega
    · have h1 := Two.lnO1c0_lt hi' hj'
      have h2 := Two.lnO1c1_lt hi hj
      have := congrArg Fin.val h
      simp at this; omega
    · have : i = i' ∧ j = j' := fIdx2_inj hi' hi (Nat.add_right_cancel (congrArg Fin.val h))
      simp [this]
  · rintro ⟨r, hr⟩
    rcases Two.lnO1_cases hr with ⟨i, j, hi, hj, e⟩ | ⟨i, j, hi, hj, e⟩
    · exact ⟨.inl (⟨i, hi⟩, ⟨j, hj⟩), Fin.ext e⟩
    · exact ⟨.inr (⟨i, hi⟩, ⟨j, hj⟩), Fin.ext e⟩

theorem c10_3d_form0 (p0 p1 p2 : Nat) :
    ∃ f : Cells3 (p0+1) (p1+1) (p2+1) → Fin (Three.nb0 p0 p1 p2), f.Bijective ∧
      ∀ q, (f q).1 = Three.ln0 p0 p1 p2 q.1 q.2.1 q.2.2 := by
  refine ⟨fun q => ⟨Three.ln0 p0 p1 p2 q.1 q.2.1 q.2.2, (Three.ln0_bd q.1.2 q.2.1.2 q.2.2.2).2⟩, ⟨?_, ?_⟩, fun _ => rfl⟩
  · rintro ⟨⟨i, hi⟩, ⟨j, hj⟩, ⟨k, hk⟩⟩ ⟨⟨i', hi'⟩, ⟨j', hj'⟩, ⟨k', hk'⟩⟩ h
    have : i = i' ∧ j = j' ∧ k = k' := Three.ln0_inj (p2 := p2) hi' hj' hi hj (congrArg Fin.val h)
    simp [this]
  · rintro ⟨r, hr⟩
    obtain ⟨i, j, k, hi, hj, hk, e⟩ := Three.ln0_cases hr
    exact ⟨(⟨i, hi⟩, ⟨j, hj⟩, ⟨k, hk⟩), Fin.ext e⟩

theorem c10_3d_form3 (p0 p1 p2 : Nat) :
    ∃ f : Cells3 p0 p1 p2 → Fin (Three.nb3 p0 p1 p2), f.Bijective ∧
      ∀ q, (f q).1 = Three.ln3 p0 p1 p2 q.1 q.2.1 q.2.2 := by
  refine ⟨fun q => ⟨Three.ln3 p0 p1 p2 q.1 q.2.1 q.2.2, (Three.ln3_bd q.1.2 q.2.1.2 q.2.2.2).2⟩, ⟨?_, ?_⟩, fun _ => rfl⟩
  · rintro ⟨⟨i, hi⟩, ⟨j, hj⟩, ⟨k, hk⟩⟩ ⟨⟨i', hi'⟩, ⟨j', hj'⟩, ⟨k', hk'⟩⟩ h
    have : i = i' ∧ j = j' ∧ k = k' := Three.ln3_inj (p2 := p2) hi' hj' hi hj (congrArg Fin.val h)
    simp [this]
  · rintro ⟨r, hr⟩
    obtain ⟨i, j, k, hi, hj, hk, e⟩ := Three.ln3_cases hr
    exact ⟨(⟨i, hi⟩, ⟨j, hj⟩, ⟨k, hk⟩), Fin.ext e⟩

theorem c10_3d_form1 (p0 p1 p2 : Nat) :
    ∃ f : Cells3 p0 (p1+1) (p2+1) ⊕ Cells3 (p0+1) p1 (p2+1) ⊕ Cells3 (p0+1) (p1+1) p2 → Fin (Three.nb1 p0 p1 p2),
      f.Bijective ∧ (∀ q, (f (.inl q)).1 = Three.ln1c0 p0 p1 p2 q.1 q.2.1 q.2.2) ∧
      (∀ q, (f (.inr (.inl q))).1 = Three.ln1c1 p0 p1 p2 q.1 q.2.1 q.2.2) ∧
      (∀ q, (f (.inr (.inr q))).1 = Three.ln1c2 p0 p1 p2 q.1 q.2.1 q.2.2) := by
  refine ⟨fun q => match q with
      | .inl q => ⟨Three.ln1c0 p0 p1 p2 q.1 q.2.1 q.2.2, by
          have := Three.ln1c0_bd q.1.2 q.2.1.2 q.2.2.2; unfold Three.nb1; omega⟩
      | .inr (.inl q) => ⟨Three.ln1c1 p0 p1 p2 q.1 q.2.1 q.2.2, by
          have := Three.ln1c1_bd q.1.2 q.2.1.2 q.2.2.2; unfold Three.nb1; omega⟩
      | .inr (.inr q) => ⟨Three.ln1c2 p0 p1 p2 q.1 q.2.1 q.2.2, (Three.ln1c2_bd q.1.2 q.2.1.2 q.2.2.2).2⟩,
      ⟨?_, ?_⟩, fun _ => rfl, fun _ => rfl, fun _ => rfl⟩
  · rintro (⟨⟨i, hi⟩, ⟨j, hj⟩, ⟨k, hk⟩⟩ | ⟨⟨i, hi⟩, ⟨j, hj⟩, ⟨k, hk⟩⟩ | ⟨⟨i, hi⟩, ⟨j, hj⟩, ⟨k, hk⟩⟩)
      (⟨⟨i', hi'⟩, ⟨j', hj'⟩, ⟨k', hk'⟩⟩ | ⟨⟨i', hi'⟩, ⟨j', hj'⟩, ⟨k', hk'⟩⟩ | ⟨⟨i', hi'⟩, ⟨j', hj'⟩, ⟨k', hk'⟩⟩) h
    · have : i = i' ∧ j = j' ∧ k = k' := Three.ln1c0_inj (p2 := p2) hi' hj' hi hj (congrArg Fin.val h); simp [this]
    · have a := Three.ln1c0_bd hi hj hk; have b := Three.ln1c1_bd hi' hj' hk'
      have := congrArg Fin.val h; simp at this; omega
    · have a := Three.ln1c0_bd hi hj hk; have b := Three.ln1c2_bd hi' hj' hk'
      have := congrArg Fin.val h; simp at this; omega
    · have a := Three.ln1c1_bd hi hj hk; have b := Three.ln1c0_bd hi' hj' hk'
      have := congrArg Fin.val h; simp at this; omega
    · have : i = i' ∧ j = j' ∧ k = k' := Three.ln1c1_inj (p2 := p2) hi' hj' hi hj (congrArg Fin.val h); simp [this]
    · have a := Three.ln1c1_bd hi hj hk; have b := Three.ln1c2_bd hi' hj' hk'
      have := congrArg Fin.val h; simp at this; omega
    · have a := Three.ln1c2_bd hi hj hk; have b := Three.ln1c0_bd hi' hj' hk'
      have := congrArg Fin.val h; simp at this; omega
    · have a := Three.ln1c2_bd hi hj hk; have b := Three.ln1c1_bd hi' hj' hk'
      have := congrArg Fin.val h; simp at this; omega
    · have : i = i' ∧ j = j' ∧ k = k' := Three.ln1c2_inj (p2 := p2) hi' hj' hi hj (congrArg Fin.val h); simp [this]
  · rintro ⟨r, hr⟩
    rcases Three.ln1_cases hr with ⟨i, j, k, hi, hj, hk, e⟩ | ⟨i, j, k, hi, hj, hk, e⟩ | ⟨i, j, k, hi, hj, hk, e⟩
    · exact ⟨.inl (⟨i, hi⟩, ⟨j, hj⟩, ⟨k, hk⟩), Fin.ext e⟩
    · exact ⟨.inr (.inl (⟨i, hi⟩, ⟨j, hj⟩, ⟨k, hk⟩)), Fin.ext e⟩
    · exact ⟨.inr (.inr (⟨i, hi⟩, ⟨j, hj⟩, ⟨k, hk⟩)), Fin.ext e⟩

theorem c10_3d_form2 (p0 p1 p2 : Nat) :
    ∃ f : Cells3 (p0+1) p1 p2 ⊕ Cells3 p0 (p1+1) p2 ⊕ Cells3 p0 p1 (p2+1) → Fin (Three.nb2 p0 p1 p2),
      f.Bijective ∧ (∀ q, (f (.inl q)).1 = Three.ln2c0 p0 p1 p2 q.1 q.2.1 q.2.2) ∧
      (∀ q, (f (.inr (.inl q))).1 = Three.ln2c1 p0 p1 p2 q.1 q.2.1 q.2.2) ∧
      (∀ q, (f (.inr (.inr q))).1 = Three.ln2c2 p0 p1 p2 q.1 q.2.1 q.2.2) := by
  refine ⟨fun q => match q with
      | .inl q => ⟨Three.ln2c0 p0 p1 p2 q.1 q.2.1 q.2.2, by
          have := Three.ln2c0_bd q.1.2 q.2.1.2 q.2.2.2; unfold Three.nb2; omega⟩
      | .inr (.inl q) => ⟨Three.ln2c1 p0 p1 p2 q.1 q.2.1 q.2.2, by
          have := Three.ln2c1_bd q.1.2 q.2.1.2 q.2.2.2; unfold Three.nb2; omega⟩
      | .inr (.inr q) => ⟨Three.ln2c2 p0 p1 p2 q.1 q.2.1 q.2.2, (Three.ln2c2_bd q.1.2 q.2.1.2 q.2.2.2).2⟩,
      ⟨?_, ?_⟩, fun _ => rfl, fun _ => rfl, fun _ => rfl⟩
  · rintro (⟨⟨i, hi⟩, ⟨j, hj⟩, ⟨k, hk⟩⟩ | ⟨⟨i, hi⟩, ⟨j, hj⟩, ⟨k, hk⟩⟩ | ⟨⟨i, hi⟩, ⟨j, hj⟩, ⟨k, hk⟩⟩)
      (⟨⟨i', hi'⟩, ⟨j', hj'⟩, ⟨k', hk'⟩⟩ | ⟨⟨i', hi'⟩, ⟨j', hj'⟩, ⟨k', hk'⟩⟩ | ⟨⟨i', hi'⟩, ⟨j', hj'⟩, ⟨k', hk'⟩⟩) h
    · have : i = i' ∧ j = j' ∧ k = k' := Three.ln2c0_inj (p2 := p2) hi' hj' hi hj (congrArg Fin.val h); simp [this]
    · have a := Three.ln2c0_bd hi hj hk; have b := Three.ln2c1_bd hi' hj' hk'
      have := congrArg Fin.val h; simp at this; omega
    · have a := Three.ln2c0_bd hi hj hk; have b := Three.ln2c2_bd hi' hj' hk'
      have := congrArg Fin.val h; simp at this; omega
    · have a := Three.ln2c1_bd hi hj hk; have b := Three.ln2c0_bd hi' hj' hk'
      have := congrArg Fin.val h; simp at this; omega
    · have : i = i' ∧ j = j' ∧ k = k' := Three.ln2c1_inj (p2 := p2) hi' hj' hi hj (congrArg Fin.val h); simp [this]
    · have a := Three.ln2c1_bd hi hj hk; have b := Three.ln2c2_bd hi' hj' hk'
      have := congrArg Fin.val h; simp at this; omega
    · have a := Three.ln2c2_bd hi hj hk; have b := Three.ln2c0_bd hi' hj' hk'
      have := congrArg Fin.val h; simp at this; omega
    · have a := Three.ln2c2_bd hi hj hk; have b := Three.ln2c1_bd hi' hj' hk'
      have := congrArg Fin.val h; simp at this; omega
    · have : i = i' ∧ j = j' ∧ k = k' := Three.ln2c2_inj (p2 := p2) hi' hj' hi hj (congrArg Fin.val h); simp [this]
  · rintro ⟨r, hr⟩
    rcases Three.ln2_cases hr with ⟨i, j, k, hi, hj, hk, e⟩ | ⟨i, j, k, hi, hj, hk, e⟩ | ⟨i, j, k, hi, hj, hk, e⟩
    · exact ⟨.inl (⟨i, hi⟩, ⟨j, hj⟩, ⟨k, hk⟩), Fin.ext e⟩
    · exact ⟨.inr (.inl (⟨i, hi⟩, ⟨j, hj⟩, ⟨k, hk⟩)), Fin.ext e⟩
    · exact ⟨.inr (.inr (⟨i, hi⟩, ⟨j, hj⟩, ⟨k, hk⟩)), Fin.ext e⟩


example : Two.nbI1 2 3 = 17 ∧ Two.lnI1c1 2 3 2 2 = 16 ∧ Three.nb2 1 2 3 = 29 ∧ Three.ln2c2 1 2 3 0 1 3 = 28 := by
  decide

end Mifem.Props
