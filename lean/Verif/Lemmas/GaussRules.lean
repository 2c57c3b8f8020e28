import Verif.Lemmas.Legendre

/-! # Rules on the zeros of Legendre polynomials -/

namespace Mifem.Legendre
open Polynomial

variable {F : Type*} [Field F] [CharZero F]

omit [CharZero F] in
/-- If the integral vanishes on `nodal * g` for all `g` of degree below `m`, then interpolation in the `N` nodes integrates
polynomials of degree below `N + m` exactly. -/
theorem interpolatory (N m : Nat) (x : Nat → F) (hx : Set.InjOn x (Finset.range N : Finset Nat)) (Q : F[X]) (hQ : Q.natDegree = N)
    (hQ0 : Q ≠ 0) (hr : ∀ i < N, Q.eval (x i) = 0) (ho : ∀ g : F[X], g.degree < m → I (Q * g) = 0) (f : F[X])
    (hf : f.degree < (N + m : Nat)) :
    I f = ∑ i ∈ Finset.range N, I (Lagrange.basis (Finset.range N) x i) * f.eval (x i) := by
  set g := f / Q with hg
  set r := f % Q with hrr
  have e : f = Q * g + r := (EuclideanDomain.div_add_mod f Q).symm
  have hrd : r.degree < (N : Nat) := by
    have := EuclideanDomain.mod_lt f hQ0
    have h2 : r.degree < Q.degree := this
    rwa [degree_eq_natDegree hQ0, hQ] at h2
  have hgd : g.degree < (m : Nat) := by
    by_cases hg0 : g = 0
    · rw [hg0, degree_zero]; exact WithBot.bot_lt_coe m
    have h1 : (Q * g).degree < (N + m : Nat) := by
      have : Q * g = f - r := by rw [e]; ring
      rw [this]
      refine (degree_sub_le _ _).trans_lt (max_lt hf (hrd.trans_le ?_))
      exact_mod_cast Nat.le_add_right N m
    rw [degree_mul, degree_eq_natDegree hQ0, degree_eq_natDegree hg0, hQ] at h1
    rw [degree_eq_natDegree hg0]
    have : N + g.natDegree < N + m := by exact_mod_cast h1
    exact_mod_cast Nat.lt_of_add_lt_add_left this
  have hfr : ∀ i < N, f.eval (x i) = r.eval (x i) := fun i hi => by rw [e, eval_add, eval_mul, hr i hi]; ring
  have hrI := Lagrange.eq_interpolate hx (f := r) (by rw [Finset.card_range]; exact hrd)
  have h1 : I f = I r := by rw [e, map_add, ho g hgd, zero_add]
  rw [h1, hrI, Lagrange.interpolate_apply, map_sum]
  refine Finset.sum_congr rfl fun i hi => ?_
  rw [I_C_mul, hfr i (Finset.mem_range.1 hi), mul_comm]

omit [CharZero F] in
/-- The weight of a node from a polynomial that vanishes in the other nodes. -/
theorem weight_of (N m : Nat) (x : Nat → F) (hx : Set.InjOn x (Finset.range N : Finset Nat)) (Q : F[X]) (hQ : Q.natDegree = N)
    (hQ0 : Q ≠ 0) (hr : ∀ i < N, Q.eval (x i) = 0) (ho : ∀ g : F[X], g.degree < m → I (Q * g) = 0) (t : F[X])
    (ht : t.degree < (N + m : Nat)) (i : Nat) (hi : i < N) (hz : ∀ j < N, j ≠ i → t.eval (x j) = 0) :
    I t = I (Lagrange.basis (Finset.range N) x i) * t.eval (x i) := by
  rw [interpolatory N m x hx Q hQ hQ0 hr ho t ht, Finset.sum_eq_single_of_mem i (Finset.mem_range.2 hi)]
  intro j hj hji
  rw [hz j (Finset.mem_range.1 hj) hji, mul_zero]

omit [CharZero F] in
theorem degree_lt_of_natDegree {f : F[X]} {n : Nat} (h : f.natDegree < n) : f.degree < (n : Nat) :=
  degree_le_natDegree.trans_lt (by exact_mod_cast h)

omit [CharZero F] in
/-- The coefficient of a cofactor of `X - a`. -/
theorem cofactor_coeff {π q : F[X]} {a : F} {k : Nat} (h : q = (X - C a) * π) (hq : q.natDegree ≤ k + 1) :
    π.natDegree ≤ k ∧ π.coeff k = q.coeff (k + 1) := by
  have hd : π.natDegree ≤ k := by
    by_cases h0 : π = 0
    · simp [h0]
    have := natDegree_mul (X_sub_C_ne_zero a) h0
    rw [← h, natDegree_X_sub_C] at this
    omega
  refine ⟨hd, ?_⟩
  rw [h, sub_mul, coeff_sub, coeff_X_mul, coeff_C_mul, coeff_eq_zero_of_natDegree_lt (by omega : π.natDegree < k + 1)]
  ring

/-! ## Gauss -/

theorem gauss_exact (k : Nat) (x : Nat → F) (hx : Set.InjOn x (Finset.range (k + 1) : Finset Nat))
    (hr : ∀ i < k + 1, (P (k + 1)).eval (x i) = 0) (f : F[X]) (hf : f.natDegree ≤ 2 * k + 1) :
    ∑ i ∈ Finset.range (k + 1), 2 / ((1 - x i ^ 2) * (derivative (P (k + 1))).eval (x i) ^ 2) * f.eval (x i) = I f := by
  have ho : ∀ g : F[X], g.degree < (k + 1 : Nat) → I (P (k + 1) * g) = 0 := fun g hg => orth _ _ le_rfl g hg
  rw [interpolatory (k + 1) (k + 1) x hx (P (k + 1)) (natDegree_P _) (P_ne _) hr ho f (degree_lt_of_natDegree (by omega))]
  refine Finset.sum_congr rfl fun i hi => ?_
  congr 1
  have hi := Finset.mem_range.1 hi
  obtain ⟨π, hπ⟩ := dvd_iff_isRoot.2 (hr i hi)
  obtain ⟨hd, hc⟩ := cofactor_coeff hπ (degree_le_coeff (k + 1)).1
  have hw := weight_of (k + 1) (k + 1) x hx (P (k + 1)) (natDegree_P _) (P_ne _) hr ho (P k * π)
    (degree_lt_of_natDegree (natDegree_mul_le.trans_lt (by rw [natDegree_P]; omega))) i hi (by
      intro j hj hji
      have h := hr j hj
      rw [hπ, eval_mul, eval_sub, eval_X, eval_C] at h
      rw [eval_mul, (mul_eq_zero.1 h).resolve_left (sub_ne_zero.2 fun h => hji (hx (by simpa using hj) (by simpa using hi) h)), mul_zero])
  rw [I_same hd, hc, (degree_le_coeff (k + 1)).2, lead] at hw
  have hk := lead_ne (F := F) k
  have h1 : (2 * (k : F) + 1) ≠ 0 := by exact_mod_cast (Nat.succ_ne_zero (2 * k))
  have h2 : ((k : F) + 1) ≠ 0 := by exact_mod_cast (Nat.succ_ne_zero k)
  have hw' : 2 / ((k : F) + 1) = I (Lagrange.basis (Finset.range (k + 1)) x i) * ((P k).eval (x i) * π.eval (x i)) := by
    rw [eval_mul] at hw
    rw [← hw]
    field_simp
  have hπx : π.eval (x i) = (derivative (P (k + 1))).eval (x i) := by
    rw [hπ, derivative_mul]
    simp
  have hm := congrArg (eval (x i)) (deriv_mul (F := F) k)
  simp only [eval_mul, eval_sub, eval_pow, eval_X, eval_add, eval_natCast, eval_one, hr i hi, mul_zero, sub_zero] at hm
  rw [hπx] at hw'
  have hne : (1 - x i ^ 2) * (derivative (P (k + 1))).eval (x i) ^ 2 ≠ 0 := by
    intro h
    have : (P k).eval (x i) * (derivative (P (k + 1))).eval (x i) = 0 := by
      apply mul_left_cancel₀ h2
      rw [mul_zero, ← h]
      linear_combination -(derivative (P (k + 1))).eval (x i) * hm
    rw [this, mul_zero] at hw'
    exact div_ne_zero two_ne_zero h2 hw'
  rw [div_eq_iff hne]
  have := (div_eq_iff h2).1 hw'
  rw [this]
  linear_combination -I (Lagrange.basis (Finset.range (k + 1)) x i) * (derivative (P (k + 1))).eval (x i) * hm

/-! ## Lobatto -/

/-- `(1 - x²) P'`. -/
noncomputable def Q (k : Nat) : F[X] := (1 - X ^ 2) * derivative (P (k + 1))

theorem coeff_deriv (k : Nat) : (derivative (P (k + 1) : F[X])).coeff k = ((k : F) + 1) * lead (k + 1) := by
  rw [coeff_derivative, (degree_le_coeff (k + 1)).2, mul_comm]

theorem natDegree_deriv (k : Nat) : (derivative (P (k + 1) : F[X])).natDegree = k := by
  refine le_antisymm ((natDegree_derivative_le _).trans (by rw [natDegree_P]; omega)) (le_natDegree_of_ne_zero ?_)
  rw [coeff_deriv]
  exact mul_ne_zero (by exact_mod_cast (Nat.succ_ne_zero k)) (lead_ne _)

theorem deriv_ne (k : Nat) : derivative (P (k + 1) : F[X]) ≠ 0 := by
  intro h
  have := coeff_deriv (F := F) k
  rw [h, coeff_zero] at this
  exact mul_ne_zero (by exact_mod_cast (Nat.succ_ne_zero k)) (lead_ne _) this.symm

omit [CharZero F] in
theorem natDegree_one_sub : (1 - X ^ 2 : F[X]).natDegree = 2 := by
  have : (1 - X ^ 2 : F[X]) = -(X ^ 2 - C 1) := by rw [C_1]; ring
  rw [this, natDegree_neg, natDegree_X_pow_sub_C]

omit [CharZero F] in
theorem one_sub_ne : (1 - X ^ 2 : F[X]) ≠ 0 := by
  intro h
  have := natDegree_one_sub (F := F)
  rw [h, natDegree_zero] at this
  omega

theorem natDegree_Q (k : Nat) : (Q k : F[X]).natDegree = k + 2 := by
  rw [Q, natDegree_mul one_sub_ne (deriv_ne k), natDegree_one_sub, natDegree_deriv]
  omega

theorem Q_ne (k : Nat) : (Q k : F[X]) ≠ 0 := mul_ne_zero one_sub_ne (deriv_ne k)

theorem Q_orth (k : Nat) (g : F[X]) (hg : g.degree < (k : Nat)) : I (Q k * g) = 0 := by
  have e : Q k * g = C ((k : F) + 1) * (P k * g - P (k + 1) * (X * g)) := by
    rw [Q, deriv_mul]
    simp only [C_add, C_eq_natCast, C_1]
    ring
  rw [e, I_C_mul, map_sub, orth k k le_rfl g hg, orth (k + 1) (k + 1) le_rfl, sub_zero, mul_zero]
  by_cases h0 : g = 0
  · rw [h0, mul_zero, degree_zero]; exact WithBot.bot_lt_coe _
  rw [degree_mul, degree_X, degree_eq_natDegree h0]
  rw [degree_eq_natDegree h0] at hg
  have : g.natDegree < k := by exact_mod_cast hg
  exact_mod_cast (by omega : 1 + g.natDegree < k + 1)

/-- The derivative at the right end. -/
theorem deriv_eval_one (n : Nat) : 2 * (derivative (P n : F[X])).eval 1 = (n : F) * (n + 1) := by
  have h := congrArg (eval 1) (ode (F := F) n)
  simp [derivative_mul, P_eval_one] at h
  linear_combination h

theorem deriv_eval_neg (n : Nat) : 2 * (derivative (P n : F[X])).eval (-1) = -((-1) ^ n * ((n : F) * (n + 1))) := by
  have h := congrArg (eval (-1)) (ode (F := F) n)
  simp [derivative_mul, eval_neg_one] at h
  linear_combination -h

theorem lobatto_exact (k : Nat) (x : Nat → F) (hx : Set.InjOn x (Finset.range (k + 2) : Finset Nat)) (h0 : x 0 = 1)
    (h1 : x (k + 1) = -1) (hr : ∀ i, 1 ≤ i → i < k + 1 → (derivative (P (k + 1))).eval (x i) = 0) (f : F[X])
    (hf : f.natDegree ≤ 2 * k + 1) :
    ∑ i ∈ Finset.range (k + 2), 2 / (((k : F) + 1) * (k + 2) * (P (k + 1)).eval (x i) ^ 2) * f.eval (x i) = I f := by
  have hr' : ∀ i < k + 2, (Q k).eval (x i) = 0 := by
    intro i hi
    rw [Q, eval_mul]
    rcases Nat.eq_zero_or_pos i with h | h
    · subst h; simp [h0]
    · rcases Nat.lt_or_ge i (k + 1) with h' | h'
      · rw [hr i h h', mul_zero]
      · have : i = k + 1 := by omega
        subst this; simp [h1]
  have e1 : ((k : F) + 1) ≠ 0 := by exact_mod_cast (Nat.succ_ne_zero k)
  have e2 : ((k : F) + 2) ≠ 0 := by exact_mod_cast (Nat.succ_ne_zero (k + 1))
  have hI : ∀ g : F[X], g = 1 → I (P (k + 1) * g) = 0 := fun g hg => by
    rw [hg]; exact orth' (by rw [natDegree_one]; omega)
  rw [interpolatory (k + 2) k x hx (Q k) (natDegree_Q k) (Q_ne k) hr' (Q_orth k) f (degree_lt_of_natDegree (by omega))]
  refine Finset.sum_congr rfl fun i hi => ?_
  congr 1
  have hi := Finset.mem_range.1 hi
  have hw := fun t ht => weight_of (k + 2) k x hx (Q k) (natDegree_Q k) (Q_ne k) hr' (Q_orth k) t ht i hi
  rcases Nat.eq_zero_or_pos i with h | h
  · -- the right end
    subst h
    have hd : ((1 + X) * derivative (P (k + 1)) : F[X]).degree < (k + 2 + k : Nat) := by
      refine degree_lt_of_natDegree (natDegree_mul_le.trans_lt ?_)
      have : (1 + X : F[X]).natDegree ≤ 1 := by
        refine (natDegree_add_le _ _).trans ?_
        simp
      rw [natDegree_deriv]
      omega
    have hv := hw _ hd (by
      intro j hj hj0
      rw [eval_mul]
      rcases Nat.lt_or_ge j (k + 1) with h' | h'
      · rw [hr j (by omega) h', mul_zero]
      · have : j = k + 1 := by omega
        subst this; simp [h1])
    have hp := I_parts (P (k + 1)) (1 + X : F[X])
    have hone := hI (derivative (1 + X)) (by simp)
    rw [mul_comm, hone] at hp
    rw [hp] at hv
    have hv1 := deriv_eval_one (F := F) (k + 1)
    simp only [eval_mul, eval_add, eval_one, eval_X, h0, P_eval_one, eval_neg_one] at hv ⊢
    push_cast at hv1
    rw [div_eq_iff (by simp [e1, e2])]
    linear_combination hv + I (Lagrange.basis (Finset.range (k + 2)) x 0) * hv1
  rcases Nat.lt_or_ge i (k + 1) with h' | h'
  · -- inside
    obtain ⟨n, rfl⟩ : ∃ n, k = n + 1 := ⟨k - 1, by omega⟩
    have hri := hr i h h'
    obtain ⟨π, hπ⟩ := dvd_iff_isRoot.2 hri
    obtain ⟨hd, hc⟩ := cofactor_coeff hπ (natDegree_deriv (F := F) (n + 1)).le
    rw [coeff_deriv] at hc
    have hv := hw ((1 - X ^ 2) * derivative (P (n + 1)) * π) (by
        refine degree_lt_of_natDegree (natDegree_mul_le.trans_lt ?_)
        have : ((1 - X ^ 2) * derivative (P (n + 1)) : F[X]).natDegree = n + 2 := natDegree_Q n
        rw [this]
        omega) (by
      intro j hj hji
      rw [eval_mul]
      rcases Nat.eq_zero_or_pos j with hj0 | hj0
      · subst hj0; simp [h0]
      rcases Nat.lt_or_ge j (n + 1 + 1) with hj' | hj'
      · have h := hr j hj0 hj'
        rw [hπ, eval_mul, eval_sub, eval_X, eval_C] at h
        rw [(mul_eq_zero.1 h).resolve_left (sub_ne_zero.2 fun h => hji (hx (by simpa using hj) (by simpa using hi) h)), mul_zero]
      · have : j = n + 1 + 1 := by omega
        subst this; simp [h1])
    have eI : (1 - X ^ 2) * derivative (P (n + 1)) * π = C ((n : F) + 1) * (P n * π - P (n + 1) * (X * π)) := by
      rw [deriv_mul]
      simp only [C_add, C_eq_natCast, C_1]
      ring
    have hX : (X * π : F[X]).natDegree ≤ n + 1 := natDegree_mul_le.trans (by rw [natDegree_X]; omega)
    rw [eI, I_C_mul, map_sub, I_same hd, I_same hX, coeff_X_mul, hc, ← eI, lead, lead] at hv
    have hk := lead_ne (F := F) n
    have f1 : (2 * (n : F) + 1) ≠ 0 := by exact_mod_cast (Nat.succ_ne_zero (2 * n))
    have f2 : ((n : F) + 1) ≠ 0 := by exact_mod_cast (Nat.succ_ne_zero n)
    have f3 : (2 * (n : F) + 3) ≠ 0 := by exact_mod_cast (Nat.succ_ne_zero (2 * n + 2))
    have f4 : ((n : F) + 2) ≠ 0 := by exact_mod_cast (Nat.succ_ne_zero (n + 1))
    have f5 : ((n : F) + 3) ≠ 0 := by exact_mod_cast (Nat.succ_ne_zero (n + 2))
    have hv' : 2 * ((n : F) + 2) = I (Lagrange.basis (Finset.range (n + 1 + 2)) x i) *
        ((1 - x i ^ 2) * (derivative (P (n + 1))).eval (x i) * π.eval (x i)) := by
      have e3 : (2 * ((n : F) + 1) + 1) ≠ 0 := by
        have : (2 * ((n : F) + 1) + 1) = 2 * n + 3 := by ring
        rw [this]; exact f3
      have e4 : ((n : F) + 1 + 1) ≠ 0 := by
        have : ((n : F) + 1 + 1) = n + 2 := by ring
        rw [this]; exact f4
      push_cast at hv
      simp only [eval_mul, eval_sub, eval_one, eval_pow, eval_X] at hv
      rw [← hv]
      field_simp
      ring
    have hπx : π.eval (x i) = (derivative (derivative (P (n + 1 + 1)))).eval (x i) := by
      rw [hπ, derivative_mul]
      simp
    have ho := congrArg (eval (x i)) (ode (F := F) (n + 1 + 1))
    rw [derivative_mul] at ho
    simp only [eval_mul, eval_add, hri, mul_zero, zero_add, eval_one, eval_sub, eval_pow, eval_X] at ho
    rw [← hπx, Polynomial.eval_neg] at ho
    simp only [eval_mul, eval_add, eval_natCast, eval_one] at ho
    have hdn := congrArg (eval (x i)) (deriv_down (F := F) (n + 1))
    simp only [eval_mul, eval_add, eval_sub, hri, mul_zero, eval_natCast, eval_one, eval_X, zero_sub] at hdn
    have e1' : ((n : F) + 1 + 1) ≠ 0 := by exact_mod_cast e1
    have e2' : ((n : F) + 1 + 2) ≠ 0 := by exact_mod_cast e2
    push_cast at ho hdn ⊢
    set W := I (Lagrange.basis (Finset.range (n + 1 + 2)) x i)
    set p := (P (n + 1 + 1)).eval (x i)
    set d := (derivative (P (n + 1))).eval (x i)
    set c := π.eval (x i)
    have hfin : 2 * ((n : F) + 2) = W * ((n + 2) ^ 2 * (n + 3) * p ^ 2) := by
      linear_combination hv' + W * d * ho + W * ((n + 2) * (n + 3) * p) * hdn
    have hp : p ≠ 0 := by
      intro hp
      rw [hp] at hfin
      have : 2 * ((n : F) + 2) = 0 := by linear_combination hfin
      exact mul_ne_zero two_ne_zero f4 this
    rw [div_eq_iff (mul_ne_zero (mul_ne_zero e1' e2') (pow_ne_zero 2 hp))]
    apply mul_left_cancel₀ f4
    linear_combination hfin
  · -- the left end
    have : i = k + 1 := by omega
    subst this
    have hd : ((1 - X) * derivative (P (k + 1)) : F[X]).degree < (k + 2 + k : Nat) := by
      refine degree_lt_of_natDegree (natDegree_mul_le.trans_lt ?_)
      have : (1 - X : F[X]).natDegree ≤ 1 := by
        refine (natDegree_sub_le _ _).trans ?_
        simp
      rw [natDegree_deriv]
      omega
    have hv := hw _ hd (by
      intro j hj hj0
      rw [eval_mul]
      rcases Nat.eq_zero_or_pos j with h' | h'
      · subst h'; simp [h0]
      · rw [hr j (by omega) (by omega), mul_zero])
    have hp := I_parts (P (k + 1)) (1 - X : F[X])
    have hone := hI (-derivative (1 - X)) (by simp)
    rw [mul_neg, map_neg, neg_eq_zero] at hone
    rw [mul_comm, hone] at hp
    rw [hp] at hv
    have hv1 := deriv_eval_neg (F := F) (k + 1)
    simp only [eval_mul, eval_sub, eval_one, eval_X, h1, P_eval_one, eval_neg_one] at hv ⊢
    have hs : ((-1 : F) ^ (k + 1)) * (-1) ^ (k + 1) = 1 := by rw [← pow_add, ← two_mul, pow_mul]; simp
    push_cast at hv1
    set s := (-1 : F) ^ (k + 1)
    set W := I (Lagrange.basis (Finset.range (k + 2)) x (k + 1))
    have hs2 : s ^ 2 = 1 := by rw [pow_two, hs]
    rw [hs2, mul_one, div_eq_iff (by simp [e1, e2])]
    linear_combination (-s) * hv - s * W * hv1 + (W * (k + 1) * (k + 2) - 2) * hs

/-- No zero of the polynomial is one of the derivative. -/
theorem simple (n : Nat) (a : F) (h0 : (P (n + 1)).eval a = 0) (h1 : (derivative (P (n + 1))).eval a = 0) : False := by
  have hm := congrArg (eval a) (deriv_mul (F := F) n)
  simp only [eval_mul, eval_sub, eval_pow, eval_X, eval_add, eval_natCast, eval_one, h0, h1, mul_zero, sub_zero] at hm
  have e : ((n : F) + 1) ≠ 0 := by exact_mod_cast (Nat.succ_ne_zero n)
  have hn := (mul_eq_zero.1 hm.symm).resolve_left e
  have hd := congrArg (eval a) (deriv_down (F := F) n)
  simp only [eval_mul, eval_sub, eval_X, eval_add, eval_natCast, eval_one, h0, h1, mul_zero, zero_sub, neg_eq_zero] at hd
  cases n with
  | zero => rw [P_zero, eval_one] at hn; exact one_ne_zero hn
  | succ n => exact simple n a hn hd

end Mifem.Legendre
