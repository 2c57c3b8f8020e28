import Verif.Model.Krylov
import Verif.Lemmas.Comm
import Mathlib.Algebra.Module.LinearMap.Basic
import Mathlib.Algebra.Order.Field.Basic
import Mathlib.Algebra.Order.Field.Rat
import Mathlib.Algebra.Order.BigOperators.Group.Finset
import Mathlib.Algebra.BigOperators.Ring.Finset
import Mathlib.Algebra.BigOperators.Group.Finset.Sigma
import Mathlib.Tactic.Linarith
import Mathlib.Tactic.Ring
import Mathlib.Tactic.NormNum
import Mathlib.Tactic.Abel
import Mathlib.Tactic.Module

/-!
# C30, C31, C46, C47: Krylov solvers
-/

namespace Mifem.Props
open Mifem.Krylov

/-! ## C30 -/

section lgmres
variable {V : Type}

/-- what the caches hold after the corrections `upd`: the last `K` corrections and the products of all of them but the
last one. -/
structure LGInv (A : V → V) (K : Nat) (s : LG V) : Prop where
  z : ∀ i, s.Z i = if (K = 0 ∨ s.upd.length - K ≤ i) ∧ i < s.upd.length then s.upd[i]? else none
  az : ∀ i, s.AZ i = if K ≠ 0 ∧ s.upd.length - 1 - K ≤ i ∧ i < s.upd.length - 1 then (s.upd[i]?).map A else none

theorem azLoop_present (A : V → V) (K iter : Nat) (Z AZ : Dict V) (l : List Nat) (a : Nat → V)
    (h : ∀ i ∈ l, AZ i = some (a i)) : azLoop A K iter Z AZ l = some (AZ, l.map a) := by
  induction l with
  | nil => rfl
  | cons i l ih =>
    have hi := h i (by simp)
    unfold azLoop azStep
    rw [if_pos (by rw [hi]; rfl), Option.bind_some, hi, Option.map_some, Option.bind_some,
      ih (fun j hj => h j (by simp [hj])), Option.map_some]
    rfl

theorem lgRound_spec (A : V → V) (M K : Nat) (v : Nat → V) (comb : List V → V) (s : LG V) (h : LGInv A K s) :
    ∃ s' prods Ws, lgRound A M K v comb s = some (s', prods, Ws) ∧ LGInv A K s' ∧
      s'.upd = s.upd ++ [comb Ws] ∧
      Ws = (List.range (mNum M K s.upd.length)).map v ++ (s.upd.reverse.take K) ∧ prods = Ws.map A := by
  set n := s.upd.length with hn
  have hkn : augNum K n ≤ n := by unfold augNum; split <;> omega
  have hkK : augNum K n ≤ K := by unfold augNum; split <;> omega
  have hkmin : augNum K n = min K n := by unfold augNum; split <;> omega
  have hget : ∀ i, i < n → ∃ z, s.upd[i]? = some z := fun i hi => ⟨s.upd[i], List.getElem?_eq_getElem hi⟩
  -- the indices of the loop
  have hidx : (List.range (augNum K n)).map (fun l => n + mNum M K n - 1 - (mNum M K n + l)) =
      (List.range (augNum K n)).map fun l => n - 1 - l := by
    apply List.map_congr_left
    intro l hl
    have := List.mem_range.mp hl
    omega
  have hZ : ∀ l, l < augNum K n → s.Z (n - 1 - l) = s.upd[n - 1 - l]? := by
    intro l hl
    rw [h.z, if_pos]
    exact ⟨Or.inr (by omega), by omega⟩
  -- the products
  have hloop : ∃ AZ', azLoop A K n s.Z s.AZ ((List.range (augNum K n)).map fun l => n - 1 - l) =
      some (AZ', ((List.range (augNum K n)).map fun l => A (s.upd.getD (n - 1 - l) (v 0)))) ∧
      ∀ i, AZ' i = if K ≠ 0 ∧ n - K ≤ i ∧ i < n then (s.upd[i]?).map A else none := by
    by_cases hk0 : augNum K n = 0
    · rw [hk0]
      refine ⟨s.AZ, rfl, ?_⟩
      intro i
      rw [h.az, if_neg, if_neg]
      · rintro ⟨h1, h2, h3⟩
        omega
      · rintro ⟨h1, h2, h3⟩
        omega
    · obtain ⟨k, hk⟩ : ∃ k, augNum K n = k + 1 := ⟨augNum K n - 1, by omega⟩
      have hfirst : s.AZ (n - 1) = none := by
        rw [h.az, if_neg]
        rintro ⟨h1, h2, h3⟩
        omega
      have hdel : ∃ AZ1, (if n > K then s.AZ.del (n - K - 1) else some s.AZ) = some AZ1 ∧
          ∀ i, AZ1 i = if K ≠ 0 ∧ n - K ≤ i ∧ i < n - 1 then (s.upd[i]?).map A else none := by
        by_cases hgt : n > K
        · rw [if_pos hgt]
          unfold Dict.del
          have hpres : (s.AZ (n - K - 1)).isSome := by
            rw [h.az, if_pos ⟨by omega, by omega, by omega⟩]
            obtain ⟨z, hz⟩ := hget (n - K - 1) (by omega)
            rw [hz]
            rfl
          rw [if_pos hpres]
          refine ⟨_, rfl, ?_⟩
          intro i
          by_cases hi : i = n - K - 1
          · simp only [hi, if_true]
            rw [if_neg]
            rintro ⟨h1, h2, h3⟩
            omega
          · simp only [if_neg hi]
            rw [h.az]
            by_cases hc : K ≠ 0 ∧ n - K ≤ i ∧ i < n - 1
            · rw [if_pos hc, if_pos ⟨hc.1, by omega, by omega⟩]
            · rw [if_neg hc, if_neg]
              rintro ⟨h1, h2, h3⟩
              exact hc ⟨h1, by omega, by omega⟩
        · rw [if_neg hgt]
          refine ⟨s.AZ, rfl, ?_⟩
          intro i
          rw [h.az]
          by_cases hc : K ≠ 0 ∧ n - K ≤ i ∧ i < n - 1
          · rw [if_pos hc, if_pos ⟨hc.1, by omega, by omega⟩]
          · rw [if_neg hc, if_neg]
            rintro ⟨h1, h2, h3⟩
            exact hc ⟨h1, by omega, by omega⟩
      obtain ⟨AZ1, hAZ1, hAZ1v⟩ := hdel
      obtain ⟨z, hz⟩ := hget (n - 1) (by omega)
      have hZ0 : s.Z (n - 1) = some z := by
        have := hZ 0 (by omega)
        simp only [Nat.sub_zero] at this
        rw [this, hz]
      have hstep : azStep A K n s.Z s.AZ (n - 1) = some (AZ1.set (n - 1) (A z), A z) := by
        unfold azStep
        rw [if_neg (by rw [hfirst]; simp), hAZ1, Option.bind_some, hZ0, Option.map_some, Option.bind_some]
        simp [Dict.set]
      have hval : ∀ i, (AZ1.set (n - 1) (A z)) i = if K ≠ 0 ∧ n - K ≤ i ∧ i < n then (s.upd[i]?).map A else none := by
        intro i
        unfold Dict.set
        by_cases hi : i = n - 1
        · rw [if_pos hi, if_pos ⟨by omega, by omega, by omega⟩, hi, hz]
          rfl
        · rw [if_neg hi, hAZ1v]
          by_cases hc : K ≠ 0 ∧ n - K ≤ i ∧ i < n - 1
          · rw [if_pos hc, if_pos ⟨hc.1, by omega, by omega⟩]
          · rw [if_neg hc, if_neg]
            rintro ⟨h1, h2, h3⟩
            exact hc ⟨h1, by omega, by omega⟩
      refine ⟨AZ1.set (n - 1) (A z), ?_, hval⟩
      rw [hk, List.range_succ_eq_map, List.map_cons, List.map_map]
      simp only [Nat.sub_zero]
      rw [azLoop, hstep, Option.bind_some]
      simp only
      rw [azLoop_present A K n s.Z (AZ1.set (n - 1) (A z)) _ (fun i => A (s.upd.getD i (v 0)))]
      · rw [Option.map_some]
        simp only [List.map_cons, List.map_map, Nat.sub_zero]
        have : s.upd.getD (n - 1) (v 0) = z := by rw [List.getD_eq_getElem?_getD, hz]; rfl
        rw [this]
        rfl
      · intro i hi
        obtain ⟨l, hl, rfl⟩ := List.mem_map.mp hi
        have hl := List.mem_range.mp hl
        simp only [Function.comp_apply]
        rw [hval, if_pos ⟨by omega, by omega, by omega⟩]
        obtain ⟨y, hy⟩ := hget (n - 1 - l.succ) (by omega)
        rw [hy, List.getD_eq_getElem?_getD, hy]
        rfl
  obtain ⟨AZ', hAZ', hAZ'v⟩ := hloop
  -- the vectors DL
  have hDL : (List.range (augNum K n)).mapM (fun l => s.Z (n - l - 1)) =
      some ((List.range (augNum K n)).map fun l => s.upd.getD (n - 1 - l) (v 0)) := by
    have : ∀ L : List Nat, (∀ l ∈ L, l < augNum K n) → L.mapM (fun l => s.Z (n - l - 1)) =
        some (L.map fun l => s.upd.getD (n - 1 - l) (v 0)) := by
      intro L
      induction L with
      | nil => intro _; rfl
      | cons l L ih =>
        intro hL
        have hl := hL l (by simp)
        have h1 : n - l - 1 = n - 1 - l := by omega
        obtain ⟨y, hy⟩ := hget (n - 1 - l) (by omega)
        rw [List.mapM_cons, h1, hZ l hl, hy, ih (fun x hx => hL x (by simp [hx]))]
        simp [List.getD_eq_getElem?_getD, hy]
    exact this _ (fun l hl => List.mem_range.mp hl)
  have hDL' : ((List.range (augNum K n)).map fun l => s.upd.getD (n - 1 - l) (v 0)) = s.upd.reverse.take K := by
    apply List.ext_getElem
    · simp [hkmin, ← hn]
    · intro i h1 h2
      simp only [List.length_map, List.length_range] at h1
      rw [List.getElem_map, List.getElem_range, List.getElem_take, List.getElem_reverse]
      rw [List.getD_eq_getElem?_getD, List.getElem?_eq_getElem (by omega)]
      rfl
  -- removing the oldest
  have hdelZ : ∃ Z1, (if n ≥ K ∧ K > 0 then s.Z.del (n - K) else some s.Z) = some Z1 ∧
      ∀ i, i ≠ n → (Z1 i = if (K = 0 ∨ n + 1 - K ≤ i) ∧ i < n then s.upd[i]? else none) := by
    by_cases hc : n ≥ K ∧ K > 0
    · rw [if_pos hc]
      unfold Dict.del
      have hpres : (s.Z (n - K)).isSome := by
        rw [h.z, if_pos ⟨Or.inr (by omega), by omega⟩]
        obtain ⟨z, hz⟩ := hget (n - K) (by omega)
        rw [hz]
        rfl
      rw [if_pos hpres]
      refine ⟨_, rfl, ?_⟩
      intro i _
      by_cases hi : i = n - K
      · simp only [hi, if_true]
        rw [if_neg]
        rintro ⟨h1, h2⟩
        omega
      · simp only [if_neg hi]
        rw [h.z]
        by_cases hcc : (K = 0 ∨ n + 1 - K ≤ i) ∧ i < n
        · rw [if_pos hcc, if_pos ⟨by omega, by omega⟩]
        · rw [if_neg hcc, if_neg]
          rintro ⟨h1, h2⟩
          exact hcc ⟨by omega, by omega⟩
    · rw [if_neg hc]
      refine ⟨s.Z, rfl, ?_⟩
      intro i _
      rw [h.z]
      by_cases hcc : (K = 0 ∨ n + 1 - K ≤ i) ∧ i < n
      · rw [if_pos hcc, if_pos ⟨by omega, by omega⟩]
      · rw [if_neg hcc, if_neg]
        rintro ⟨h1, h2⟩
        exact hcc ⟨by omega, by omega⟩
  obtain ⟨Z1, hZ1, hZ1v⟩ := hdelZ
  set Ws := (List.range (mNum M K n)).map v ++ (s.upd.reverse.take K) with hWs
  refine ⟨⟨Z1.set n (comb Ws), AZ', s.upd ++ [comb Ws]⟩, Ws.map A, Ws, ?_, ?_, rfl, rfl, rfl⟩
  · unfold lgRound
    simp only [← hn]
    rw [hidx, hAZ', Option.bind_some, hDL, Option.bind_some, hZ1, Option.map_some, hDL', ← hWs]
    congr 3
    rw [hWs, List.map_append, List.map_map, ← hDL', List.map_map]
    rfl
  · refine ⟨?_, ?_⟩
    · intro i
      simp only [List.length_append, List.length_singleton, ← hn]
      unfold Dict.set
      by_cases hi : i = n
      · rw [if_pos hi, if_pos ⟨by omega, by omega⟩, hi, List.getElem?_append_right (by omega)]
        simp [hn]
      · rw [if_neg hi, hZ1v i hi]
        by_cases hcc : (K = 0 ∨ n + 1 - K ≤ i) ∧ i < n
        · rw [if_pos hcc, if_pos ⟨hcc.1, by omega⟩, List.getElem?_append_left (by omega)]
        · rw [if_neg hcc, if_neg]
          rintro ⟨h1, h2⟩
          exact hcc ⟨h1, by omega⟩
    · intro i
      simp only [List.length_append, List.length_singleton, ← hn]
      rw [hAZ'v]
      by_cases hc : K ≠ 0 ∧ n - K ≤ i ∧ i < n
      · rw [if_pos hc, if_pos ⟨hc.1, by omega, by omega⟩, List.getElem?_append_left (by omega)]
      · rw [if_neg hc, if_neg]
        rintro ⟨h1, h2, h3⟩
        exact hc ⟨h1, by omega, by omega⟩

theorem lgRun_inv (A : V → V) (M K : Nat) (v : Nat → Nat → V) (comb : Nat → List V → V) (n : Nat) :
    ∃ s, lgRun A M K v comb n = some s ∧ s.upd.length = n ∧ LGInv A K s := by
  induction n with
  | zero =>
    refine ⟨LG.start V, rfl, rfl, ⟨?_, ?_⟩⟩
    · intro i; simp [LG.start]
    · intro i; simp [LG.start]
  | succ n ih =>
    obtain ⟨s, hs, hl, hinv⟩ := ih
    obtain ⟨s', prods, Ws, h1, h2, h3, _⟩ := lgRound_spec A M K (v n) (comb n) s hinv
    refine ⟨s', ?_, by rw [h3]; simp [hl], h2⟩
    rw [lgRun, hs, Option.bind_some, h1]
    rfl

/-- **C30.** For every number `K` of augmentation vectors, every number of outer iterations and whatever the vectors are: no
lookup or deletion fails; in every outer iteration the augmentation vectors are the last `K` corrections, newest first, and
the products used for the Hessenberg matrix are the products of A with exactly the vectors that are combined afterwards. -/
theorem c30_caches (A : V → V) (M K : Nat) (v : Nat → Nat → V) (comb : Nat → List V → V) (n : Nat) :
    ∃ s, lgRun A M K v comb n = some s ∧ s.upd.length = n ∧
      ∃ s' prods Ws, lgRound A M K (v n) (comb n) s = some (s', prods, Ws) ∧
        Ws = (List.range (mNum M K n)).map (v n) ++ (s.upd.reverse.take K) ∧ prods = Ws.map A ∧
        lgRun A M K v comb (n + 1) = some s' ∧ s'.upd = s.upd ++ [comb n Ws] := by
  obtain ⟨s, hs, hl, hinv⟩ := lgRun_inv A M K v comb n
  obtain ⟨s', prods, Ws, h1, h2, h3, h4, h5⟩ := lgRound_spec A M K (v n) (comb n) s hinv
  rw [hl] at h4
  refine ⟨s, hs, hl, s', prods, Ws, h1, h4, h5, ?_, h3⟩
  rw [lgRun, hs, Option.bind_some, h1]
  rfl

/-- **C30, size of the caches (partial).** With `K > 0` the caches never hold anything but the last `K` corrections and the
products of the last `K` corrections before the last one. Missing: `K = 0` (`c30_counterexample`). -/
theorem c30_bounded_partial (A : V → V) (M K : Nat) (hK : 0 < K) (v : Nat → Nat → V) (comb : Nat → List V → V) (n : Nat) (s : LG V)
    (h : lgRun A M K v comb n = some s) :
    (∀ i, (s.Z i).isSome → n - K ≤ i ∧ i < n) ∧ (∀ i, (s.AZ i).isSome → n - 1 - K ≤ i ∧ i < n - 1) := by
  obtain ⟨s', hs', hl, hinv⟩ := lgRun_inv A M K v comb n
  rw [h] at hs'
  simp only [Option.some.injEq] at hs'
  subst hs'
  constructor
  · intro i hi
    rw [hinv.z, hl] at hi
    by_cases hc : (K = 0 ∨ n - K ≤ i) ∧ i < n
    · omega
    · rw [if_neg hc] at hi
      simp at hi
  · intro i hi
    rw [hinv.az, hl] at hi
    by_cases hc : K ≠ 0 ∧ n - 1 - K ≤ i ∧ i < n - 1
    · omega
    · rw [if_neg hc] at hi
      simp at hi

/-- **C30 is false for `K = 0`**: no augmentation vector is ever used, but all corrections are kept. -/
theorem c30_counterexample (A : V → V) (M : Nat) (v : Nat → Nat → V) (comb : Nat → List V → V) (n i : Nat) (hi : i < n) (s : LG V)
    (h : lgRun A M 0 v comb n = some s) : (s.Z i).isSome := by
  obtain ⟨s', hs', hl, hinv⟩ := lgRun_inv A M 0 v comb n
  rw [h] at hs'
  simp only [Option.some.injEq] at hs'
  subst hs'
  rw [hinv.z, if_pos ⟨Or.inl rfl, by omega⟩, List.getElem?_eq_getElem (by omega)]
  rfl

/-- five outer iterations with K = 2: the vectors 2 and 3 are in the cache at the end. -/
example : (lgRun (fun x : Nat => 10 * x) 3 2 (fun n j => n + j) (fun n _ => n) 5).map
    (fun s => (s.Z 2, s.Z 3, s.Z 4, s.AZ 1, s.AZ 2, s.AZ 3)) = some (none, some 3, some 4, none, some 20, some 30) := rfl

end lgmres

/-! ## C31 and C46: BiCGSTAB -/

section bicg
variable {K V : Type} [Field K] [AddCommGroup V] [Module K V]

/-- the residual that is used as shadow residual in round `n + 1`. -/
def shadow (dot : V → V → K) (A : V → V) (f x : V) (n : Nat) : V :=
  let b := biTop A f (biRun (K := K) dot A f x n)
  b.heap b.hr0

/-- the residual that is used in round `n + 1`. -/
def residualUsed (dot : V → V → K) (A : V → V) (f x : V) (n : Nat) : V :=
  let b := biTop A f (biRun (K := K) dot A f x n)
  b.heap b.r0

/-- places of the names, and the contents of the place of `hr0`. -/
theorem biRun_places (dot : V → V → K) (A : V → V) (f x : V) (n : Nat) :
    (biRun dot A f x n).iter = n ∧ (biRun dot A f x n).hr0 = 0 ∧ 0 < (biRun dot A f x n).next ∧
      (n ≤ 1 → (biRun dot A f x n).r0 = 0) ∧
      (2 ≤ n → (biRun dot A f x n).r0 ≠ 0 ∧ (biRun dot A f x n).heap 0 = f - A (biRun (K := K) dot A f x 1).x) := by
  induction n with
  | zero => exact ⟨rfl, rfl, Nat.one_pos, fun _ => rfl, fun h => by omega⟩
  | succ n ih =>
    obtain ⟨h1, h2, h3, h4, h5⟩ := ih
    by_cases h0 : n = 0
    · subst h0
      exact ⟨rfl, rfl, Nat.one_pos, fun _ => rfl, fun h => by omega⟩
    · have hi : ¬ ((biRun (K := K) dot A f x n).iter = 0) := by rw [h1]; exact h0
      have hi' : (biRun (K := K) dot A f x n).iter + 1 > 1 := by rw [h1]; omega
      have hn : ¬ ((0 : Nat) = (biRun (K := K) dot A f x n).next) := by omega
      rw [biRun]
      simp only [biBottom, biTop, if_neg hi, if_pos hi']
      refine ⟨by rw [h1], h2, by omega, fun h => by omega, fun _ => ⟨by omega, ?_⟩⟩
      simp only [write, if_neg hn]
      by_cases hn1 : n = 1
      · subst hn1
        rw [if_pos (h4 (by omega)).symm]
      · rw [if_neg (fun hc => (h5 (by omega)).1 hc.symm)]
        exact (h5 (by omega)).2

/-- **C31 (partial).** In the first round the shadow residual is the residual of the initial guess. Missing: the later
rounds, see `c31_later` for what is used there and `c31_counterexample`. -/
theorem c31_first_partial (dot : V → V → K) (A : V → V) (f x : V) : shadow dot A f x 0 = f - A x := rfl

/-- **C31: what is really used.** In every later round the shadow residual is the residual after the first round: `hr0` is
another name for the buffer that the second round sums its residual into. -/
theorem c31_later (dot : V → V → K) (A : V → V) (f x : V) (n : Nat) (hn : 1 ≤ n) :
    shadow dot A f x n = f - A (biRun dot A f x 1).x := by
  obtain ⟨h1, h2, h3, h4, h5⟩ := biRun_places dot A f x n
  have hi : ¬ ((biRun (K := K) dot A f x n).iter = 0) := by rw [h1]; omega
  have hi' : (biRun (K := K) dot A f x n).iter + 1 > 1 := by rw [h1]; omega
  have hnx : ¬ ((0 : Nat) = (biRun (K := K) dot A f x n).next) := by omega
  unfold shadow
  simp only [biTop, if_neg hi, if_pos hi', h2, write, if_neg hnx]
  by_cases hn1 : n = 1
  · subst hn1
    rw [if_pos (h4 (by omega)).symm]
  · rw [if_neg (fun hc => (h5 (by omega)).1 hc.symm)]
    exact (h5 (by omega)).2

/-- **C46.** With a linear A, in every round the residual that the method works with, which is updated by a recursion, is the
residual of the current iterate; this holds whatever the shadow residual is. -/
theorem c46_residual (dot : V → V → K) (A : V →ₗ[K] V) (f x : V) (n : Nat) :
    residualUsed dot A f x n = f - A (biRun dot A f x n).x := by
  have key : ∀ b : Bi K V, (b.iter ≠ 0 → b.s - b.omega1 • b.t = f - A b.x) →
      ((biTop A f b).heap (biTop A f b).r0 = f - A (biTop A f b).x) ∧ (biTop A f b).x = b.x ∧ (biTop A f b).iter = b.iter + 1 := by
    intro b hb
    by_cases h0 : b.iter = 0
    · have h1 : ¬ (b.iter + 1 > 1) := by omega
      simp [biTop, h0, write]
    · have h1 : b.iter + 1 > 1 := by omega
      simp only [biTop, if_neg h0, if_pos h1, write, if_true]
      exact ⟨hb h0, trivial, trivial⟩
  have inv : ∀ n, (biRun dot A f x n).iter ≠ 0 →
      (biRun dot A f x n).s - (biRun dot A f x n).omega1 • (biRun dot A f x n).t = f - A (biRun (K := K) dot A f x n).x := by
    intro n
    induction n with
    | zero => intro h; exact absurd rfl h
    | succ n ih =>
      intro _
      obtain ⟨h1, h2, _⟩ := key _ ih
      rw [biRun]
      have alg : ∀ (r p s y : V) (a w : K), r = f - A y → s = r - a • A p → s - w • A s = f - A (y + (a • p + w • s)) := by
        intro r p s y a w hr hs
        rw [map_add, map_add, map_smul, map_smul, ← sub_sub, ← hr, ← sub_sub, ← hs]
      exact alg _ _ _ _ _ _ h1 rfl
  obtain ⟨h1, h2, _⟩ := key _ (inv n)
  unfold residualUsed
  simp only
  rw [h1, h2]

/-- the map diag(1, 2). -/
def diag12 : (ℚ × ℚ) →ₗ[ℚ] (ℚ × ℚ) where
  toFun v := (v.1, 2 * v.2)
  map_add' u v := by ext <;> simp; ring
  map_smul' c v := by ext <;> simp; ring

/-- **C31 is false of the code**: A = diag(1, 2), f = (1, 1), initial guess 0: in the second round the shadow residual
is not the initial residual. -/
theorem c31_counterexample :
    shadow (K := ℚ) (fun u v => u.1 * v.1 + u.2 * v.2) diag12 ((1, 1) : ℚ × ℚ) (0, 0) 1 = (2 / 15, 1 / 15) ∧
      shadow (K := ℚ) (fun u v => u.1 * v.1 + u.2 * v.2) diag12 ((1, 1) : ℚ × ℚ) (0, 0) 0 = (1, 1) := by
  constructor
  · rw [c31_later _ _ _ _ _ (le_refl 1)]
    simp [biRun, biBottom, biTop, Bi.start, write, diag12]
    norm_num
  · rw [c31_first_partial]
    simp [diag12]

end bicg
end Mifem.Props
