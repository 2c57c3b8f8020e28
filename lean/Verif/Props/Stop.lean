import Verif.Model.Stop
import Mathlib.Tactic.NormNum
import Mathlib.Tactic.Linarith
import Mathlib.Tactic.FieldSimp
import Mathlib.Algebra.Order.Field.Basic

/-!
# C28, C29: stopping of the linear solvers and of Newton-Raphson
-/

namespace Mifem.Props
open Mifem.Stop

/-! ## C28 -/

/-- what the list of residuals keeps. -/
structure BetaInv (res : Nat → Rat) (iter : Nat) (B : List Rat) : Prop where
  head : B.head? = some (res 0)
  last : last1 B = some (res iter)
  prev : last2 B = some (res (iter - 1))

theorem betaInv_start (res : Nat → Rat) : BetaInv res 0 (betaUpdate none (res 0)) := ⟨rfl, rfl, rfl⟩

theorem betaInv_step (res : Nat → Rat) (iter : Nat) (B : List Rat) (h : BetaInv res iter B) :
    BetaInv res (iter + 1) (betaUpdate (some B) (res (iter + 1))) := by
  have key : ∀ L : List Rat, L.head? = some (res 0) → L.getLast? = some (res iter) →
      BetaInv res (iter + 1) (L ++ [res (iter + 1)]) := by
    intro L h1 h2
    refine ⟨?_, ?_, ?_⟩
    · cases L with
      | nil => simp at h1
      | cons a l => simpa using h1
    · unfold last1
      rw [List.getLast?_append]
      rfl
    · unfold last2
      rw [List.dropLast_concat]
      simpa using h2
  unfold betaUpdate
  simp only [Option.getD_some]
  apply key
  · split
    · next hlen =>
      cases B with
      | nil => simp at hlen
      | cons a l => simpa using h.head
    · exact h.head
  · split
    · next hlen =>
      rw [List.getLast?_append, List.getLast?_drop, if_neg (by omega)]
      have := h.last
      unfold last1 at this
      rw [this]
      rfl
    · exact h.last

/-- the loop from any point on. -/
theorem gmresLoop_from (tol atol : Rat) (htol : tol < 1 / 100) (n : Nat) (res : Nat → Rat) :
    ∀ (fuel iter : Nat) (BETA : Option (List Rat)), n < iter + fuel → iter ≤ n → (iter = 0 → BETA = none) →
      BetaInv res iter (betaUpdate BETA (res iter)) →
      ∃ k j info, gmresLoop tol atol (.soft n) res fuel iter BETA = some (k, j, info) ∧ iter ≤ k ∧ k ≤ n ∧
        (∀ i, iter ≤ i → i < k → ¬ res i < atol) ∧
        ((info = 0 ∧ res k < atol) ∨
         (info = k ∧ ¬ res k < atol ∧ k = n) ∨
         (info = -1 ∧ ¬ res k < atol ∧ gmresDiverges (res (k - 1)) (res k) = true) ∨
         (info = 0 ∧ j = 4 ∧ ¬ res k < atol ∧ gmresRelative tol (res 0) (res k) = true) ∨
         (info = k ∧ j = 5 ∧ ¬ res k < atol ∧ 0 < k)) := by
  intro fuel
  induction fuel with
  | zero => intro iter BETA h1 h2 _; omega
  | succ fuel ih =>
    intro iter BETA hfuel hle h0 hinv
    unfold gmresLoop
    simp only
    set B := betaUpdate BETA (res iter) with hB
    have hstop : gmresStop tol atol iter (.soft n) B = some (
          if res iter < atol then (1, some 0)
          else if iter ≥ n then (2, some (iter : Int))
          else if gmresDiverges (res (iter - 1)) (res iter) then (3, some (-1))
          else if gmresRelative tol (res 0) (res iter) then (4, some 0)
          else if gmresSlow tol B then (5, some (iter : Int))
          else (0, none)) := by
      unfold gmresStop
      simp only [hinv.head, hinv.last, hinv.prev]
      rw [if_pos htol]
    rw [hstop]
    by_cases h1 : res iter < atol
    · rw [if_pos h1]
      exact ⟨iter, 1, 0, rfl, le_refl _, hle, fun i a b => by omega, Or.inl ⟨rfl, h1⟩⟩
    · rw [if_neg h1]
      by_cases h2 : iter ≥ n
      · rw [if_pos h2]
        exact ⟨iter, 2, iter, rfl, le_refl _, hle, fun i a b => by omega, Or.inr (Or.inl ⟨rfl, h1, by omega⟩)⟩
      · rw [if_neg h2]
        by_cases h3 : gmresDiverges (res (iter - 1)) (res iter) = true
        · rw [if_pos h3]
          exact ⟨iter, 3, -1, rfl, le_refl _, hle, fun i a b => by omega, Or.inr (Or.inr (Or.inl ⟨rfl, h1, h3⟩))⟩
        · rw [if_neg h3]
          by_cases h4 : gmresRelative tol (res 0) (res iter) = true
          · rw [if_pos h4]
            exact ⟨iter, 4, 0, rfl, le_refl _, hle, fun i a b => by omega, Or.inr (Or.inr (Or.inr (Or.inl ⟨rfl, rfl, h1, h4⟩)))⟩
          · rw [if_neg h4]
            by_cases h5 : gmresSlow tol B = true
            · have hpos : 0 < iter := by
                by_contra hc
                have hz : iter = 0 := by omega
                rw [hB, h0 hz] at h5
                simp [gmresSlow, betaUpdate] at h5
              rw [if_pos h5]
              exact ⟨iter, 5, iter, rfl, le_refl _, hle, fun i a b => by omega,
                Or.inr (Or.inr (Or.inr (Or.inr ⟨rfl, rfl, h1, hpos⟩)))⟩
            · rw [if_neg h5]
              simp only
              obtain ⟨k, j, info, hk, hk1, hk2, hk3, hk4⟩ := ih (iter + 1) (some B) (by omega) (by omega) (by simp) (betaInv_step res iter B hinv)
              refine ⟨k, j, info, hk, by omega, hk2, ?_, hk4⟩
              intro i hi1 hi2
              rcases Nat.eq_or_lt_of_le hi1 with rfl | h
              · exact h1
              · exact hk3 i h hi2

/-- **C28 (partial).** With an integer maxiter the loop stops after at most maxiter restarts; it stops at the first residual
below the absolute tolerance (if it has not stopped before); info = -1 means that the last residual is larger than the one
before; a positive info is the number of restarts; and info = 0 means that the last residual is below the absolute
tolerance or that it is smaller than the first one by less than the fraction tol. Missing: the last case should be a
reduction by the factor tol (`c28_counterexample`, `c28_inverted`). -/
theorem c28_partial (tol atol : Rat) (htol : tol < 1 / 100) (n : Nat) (hn : 1 ≤ n) (res : Nat → Rat)
    (hres : ∀ i, 0 ≤ res i) (fuel : Nat) (hf : n < fuel) :
    ∃ k j info, gmresLoop tol atol (.soft n) res fuel 0 none = some (k, j, info) ∧ k ≤ n ∧
      (∀ i, i < k → ¬ res i < atol) ∧
      (info = 0 → res k < atol ∨ (res k < res 0 ∧ res 0 - res k < tol * res 0)) ∧
      (info < 0 → res (k - 1) < res k) ∧
      (0 < info → info = k ∧ ¬ res k < atol) ∧
      (res k < atol → info = 0) := by
  obtain ⟨k, j, info, h, _, hk, hfirst, hcase⟩ := gmresLoop_from tol atol htol n res fuel 0 none (by omega) (by omega)
    (fun _ => rfl) (betaInv_start res)
  refine ⟨k, j, info, h, hk, fun i hi => hfirst i (by omega) hi, ?_⟩
  rcases hcase with ⟨rfl, h1⟩ | ⟨rfl, h1, rfl⟩ | ⟨rfl, h1, h2⟩ | ⟨rfl, _, h1, h2⟩ | ⟨rfl, _, h1, h2⟩
  · exact ⟨fun _ => Or.inl h1, by omega, by omega, fun _ => rfl⟩
  · exact ⟨by omega, by omega, fun _ => ⟨rfl, h1⟩, fun hh => absurd hh h1⟩
  · refine ⟨by omega, fun _ => ?_, by omega, fun hh => absurd hh h1⟩
    unfold gmresDiverges at h2
    simp only [Bool.and_eq_true, decide_eq_true_eq] at h2
    exact h2.1
  · refine ⟨fun _ => Or.inr ?_, by omega, by omega, fun hh => absurd hh h1⟩
    unfold gmresRelative quotLt at h2
    simp only [Bool.and_eq_true, decide_eq_true_eq] at h2
    refine ⟨h2.1, ?_⟩
    have hpos : 0 < res 0 := lt_of_le_of_lt (hres k) h2.1
    exact (div_lt_iff₀ hpos).mp h2.2.2
  · exact ⟨by omega, by omega, fun _ => ⟨rfl, h1⟩, fun hh => absurd hh h1⟩

/-- a converging history: stops after 3 restarts, info = 0. -/
example : gmresLoop (1/1000) (1/10000) (.soft 20) (fun k => 1 / 100 ^ k) 21 0 none = some (3, 1, 0) := by
  simp +decide [gmresLoop, gmresStop, betaUpdate, last1, last2, gmresDiverges, gmresRelative, gmresSlow, quotLt]
  norm_num

/-- **C28, forced number of iterations.** Exactly the requested number of restarts are done whatever the residuals are, and
info is this number. -/
theorem c28_forced (tol atol : Rat) (n : Nat) (res : Nat → Rat) (fuel : Nat) (hf : n < fuel) :
    gmresLoop tol atol (.forced n) res fuel 0 none = some (n, 2, (n : Int)) := by
  have key : ∀ (fuel iter : Nat) (B : Option (List Rat)), n < iter + fuel → iter ≤ n →
      gmresLoop tol atol (.forced n) res fuel iter B = some (n, 2, (n : Int)) := by
    intro fuel
    induction fuel with
    | zero => intro iter B h1 h2; omega
    | succ fuel ih =>
      intro iter B h1 h2
      unfold gmresLoop gmresStop
      simp only
      by_cases h : iter ≥ n
      · rw [if_pos h]
        have : iter = n := by omega
        subst this
        rfl
      · rw [if_neg h]
        exact ih (iter + 1) _ (by omega) (by omega)
  exact key fuel 0 none (by omega) (by omega)

/-- **C28 is false**: the residual goes from 1 to 1 - 2⁻²⁰ with tol = 10⁻⁵ and atol = 10⁻⁴; success is reported after one
restart. -/
theorem c28_counterexample :
    let res : Nat → Rat := fun k => if k = 0 then 1 else 1 - 1 / 1048576
    gmresLoop (1/100000) (1/10000) (.soft 20) res 21 0 none = some (1, 4, 0) ∧ ¬ res 1 < 1/10000 ∧ ¬ res 1 ≤ 1/100000 * res 0 := by
  refine ⟨?_, by norm_num, by norm_num⟩
  norm_num [gmresLoop, gmresStop, betaUpdate, last1, last2, gmresDiverges, gmresRelative, gmresSlow, quotLt]

/-- ... and a residual that has been reduced by the factor tol never counts as "reach relative tol". -/
theorem c28_inverted (tol beta0 beta : Rat) (ht : tol < 1 / 100) (h0 : 0 < beta0) (h : beta ≤ tol * beta0) :
    gmresRelative tol beta0 beta = false := by
  unfold gmresRelative quotLt
  by_contra hc
  simp only [Bool.not_eq_false, Bool.and_eq_true, decide_eq_true_eq] at hc
  have := (div_lt_iff₀ h0).mp hc.2.2
  nlinarith

/-! ## C29 -/

/-- Newton's method from `x`: the iterates. -/
def newtonIterate (lin : (Nat → Rat) → Nat → Rat) (x : Nat → Rat) : Nat → Nat → Rat
  | 0 => x
  | k + 1 => fun i => newtonIterate lin x k i + lin (newtonIterate lin x k) i

theorem nlsBeta_last (B : List Rat) (b : Rat) : last1 (nlsBeta B b) = some b := by
  unfold nlsBeta last1
  simp only
  split
  · rw [List.getLast?_append, List.getLast?_drop, if_neg (by omega), List.getLast?_append]
    rfl
  · rw [List.getLast?_append]
    rfl

theorem nlsBeta_prev (B : List Rat) (b : Rat) : last2 (nlsBeta B b) = last1 B := by
  unfold nlsBeta last2 last1
  simp only
  split
  · next h =>
    simp only [List.length_append, List.length_singleton] at h
    have : (B ++ [b]).drop ((B ++ [b]).length - 2) = B.drop (B.length - 1) ++ [b] := by
      rw [List.drop_append_of_le_length (by simp)]
      simp
    rw [this, ← List.append_assoc, List.dropLast_concat, List.getLast?_append, List.getLast?_drop, if_neg (by omega)]
    cases hB : B.getLast? with
    | none => simp at hB; simp [hB] at h
    | some a => rfl
  · rw [List.dropLast_concat]

theorem newtonLoop_from (lin : (Nat → Rat) → Nat → Rat) (norm : (Nat → Rat) → Rat) (atol : Rat) (n : Nat) (x : Nat → Rat) :
    ∀ (fuel iter : Nat) (BETA : List Rat), n < iter + fuel → iter < n →
      (last1 BETA = if iter = 0 then none else some (norm (lin (newtonIterate lin x (iter - 1))))) →
      ∃ k info j, newtonLoop lin norm [] atol (.soft n) fuel iter (newtonIterate lin x iter) BETA =
          some (newtonIterate lin x k, info, k, j) ∧ iter < k ∧ k ≤ n ∧
        (∀ i, iter ≤ i → i + 1 < k → ¬ norm (lin (newtonIterate lin x i)) < atol) ∧
        (info = 0 ↔ norm (lin (newtonIterate lin x (k - 1))) < atol) ∧
        (0 < info → info = n ∧ k = n) ∧ (info < 0 → info = -1 ∧ k < n ∧ 2 ≤ k ∧
          norm (lin (newtonIterate lin x (k - 2))) < norm (lin (newtonIterate lin x (k - 1)))) := by
  intro fuel
  induction fuel with
  | zero => intro iter B h1 h2 _; omega
  | succ fuel ih =>
    intro iter B hf hlt hlast
    unfold newtonLoop
    simp only
    set dx := lin (newtonIterate lin x iter) with hdx
    have hx : (if iter + 1 = 1 then setGuess [] (newtonIterate lin x iter) else newtonIterate lin x iter) =
        newtonIterate lin x iter := by
      split <;> rfl
    rw [hx]
    have hnext : (fun i => newtonIterate lin x iter i + dx i) = newtonIterate lin x (iter + 1) := rfl
    rw [hnext]
    have hk1 : iter + 1 - 1 = iter := by omega
    unfold nlsStop
    simp only [nlsBeta_last]
    by_cases h1 : norm dx < atol
    · rw [if_pos h1]
      refine ⟨iter + 1, 0, 1, rfl, by omega, by omega, fun i _ _ => by omega, ?_, by omega, by omega⟩
      rw [hk1, ← hdx]
      simp [h1]
    · rw [if_neg h1]
      by_cases h2 : iter + 1 ≥ n
      · rw [if_pos h2]
        refine ⟨iter + 1, (iter + 1 : Nat), 2, rfl, by omega, by omega, fun i _ _ => by omega, ?_, fun _ => ⟨by omega, by omega⟩, by omega⟩
        rw [hk1, ← hdx]
        simp only [h1, iff_false]
        omega
      · rw [if_neg h2]
        by_cases h3 : nlsJudge3 (nlsBeta B (norm dx)) (norm dx) = true
        · rw [if_pos h3]
          unfold nlsJudge3 at h3
          rw [nlsBeta_prev, hlast] at h3
          by_cases hz : iter = 0
          · rw [if_pos hz] at h3
            simp at h3
          · rw [if_neg hz] at h3
            refine ⟨iter + 1, -1, 3, rfl, by omega, by omega, fun i _ _ => by omega, ?_, by omega,
              fun _ => ⟨rfl, by omega, by omega, ?_⟩⟩
            · rw [hk1, ← hdx]
              simp [h1]
            · unfold nlsDiverges at h3
              simp only [Bool.and_eq_true, decide_eq_true_eq] at h3
              rw [hk1, ← hdx]
              have : iter + 1 - 2 = iter - 1 := by omega
              rw [this]
              exact h3.1
        · rw [if_neg h3]
          obtain ⟨k, info, j, hk, hk2, hk3, hk4, hk5⟩ := ih (iter + 1) (nlsBeta B (norm dx)) (by omega) (by omega)
            (by rw [nlsBeta_last, if_neg (by omega), hk1])
          refine ⟨k, info, j, hk, by omega, hk3, ?_, hk5⟩
          intro i hi1 hi2
          rcases Nat.eq_or_lt_of_le hi1 with rfl | h
          · rw [← hdx]; exact h1
          · exact hk4 i h hi2

/-- **C29, stopping.** Without customized initial guess: with an integer maxiter the loop stops after at most maxiter
iterations, the result is the Newton iterate with that number, no earlier update was below the tolerance, info = 0 exactly
if the last update is below the tolerance, a positive info is maxiter, a negative one means that it was stopped earlier since the last update was
larger than the one before. -/
theorem c29_stop (lin : (Nat → Rat) → Nat → Rat) (norm : (Nat → Rat) → Rat) (atol : Rat) (n : Nat) (hn : 1 ≤ n) (x : Nat → Rat)
    (fuel : Nat) (hf : n < fuel) :
    ∃ k info j, newtonLoop lin norm [] atol (.soft n) fuel 0 x [] = some (newtonIterate lin x k, info, k, j) ∧
      1 ≤ k ∧ k ≤ n ∧ (∀ i, i + 1 < k → ¬ norm (lin (newtonIterate lin x i)) < atol) ∧
      (info = 0 ↔ norm (lin (newtonIterate lin x (k - 1))) < atol) ∧ (0 < info → info = n ∧ k = n) ∧
      (info < 0 → info = -1 ∧ k < n ∧ 2 ≤ k ∧
        norm (lin (newtonIterate lin x (k - 2))) < norm (lin (newtonIterate lin x (k - 1)))) := by
  obtain ⟨k, info, j, h, h1, h2, h3, h4⟩ := newtonLoop_from lin norm atol n x fuel 0 [] (by omega) (by omega) rfl
  exact ⟨k, info, j, h, by omega, h2, fun i hi => h3 i (by omega) hi, h4⟩

/-- Newton for x² = 2 from 1: three iterations (updates 1/2, -1/12, -1/408). -/
example : (newtonLoop (fun x i => (2 - x i ^ 2) / (2 * x i)) (fun x => |x 0|) [] (1/100) (.soft 10) 11 0 (fun _ => 1) []).map
    (fun r => (r.1 0, r.2)) = some (577 / 408, 0, 3, 1) := by
  norm_num [newtonLoop, nlsStop, setGuess, nlsBeta, last1, last2, nlsJudge3, nlsDiverges, abs_of_pos, abs_of_neg]

/-- **C29, forced number of iterations.** Exactly that many iterations; info is this number. -/
theorem c29_forced (lin : (Nat → Rat) → Nat → Rat) (norm : (Nat → Rat) → Rat) (atol : Rat) (n : Nat) (hn : 1 ≤ n) (x : Nat → Rat)
    (fuel : Nat) (hf : n < fuel) :
    newtonLoop lin norm [] atol (.forced n) fuel 0 x [] = some (newtonIterate lin x n, (n : Int), n, 2) := by
  have key : ∀ (fuel iter : Nat) (B : List Rat), n < iter + fuel → iter < n →
      newtonLoop lin norm [] atol (.forced n) fuel iter (newtonIterate lin x iter) B = some (newtonIterate lin x n, (n : Int), n, 2) := by
    intro fuel
    induction fuel with
    | zero => intro iter B h1 h2; omega
    | succ fuel ih =>
      intro iter B h1 h2
      unfold newtonLoop nlsStop
      simp only
      have hx : (if iter + 1 = 1 then setGuess [] (newtonIterate lin x iter) else newtonIterate lin x iter) =
          newtonIterate lin x iter := by
        split <;> rfl
      rw [hx]
      have hnext : (fun i => newtonIterate lin x iter i + lin (newtonIterate lin x iter) i) = newtonIterate lin x (iter + 1) := rfl
      rw [hnext]
      by_cases h : iter + 1 ≥ n
      · rw [if_pos h]
        have : n = iter + 1 := by omega
        subst this
        rfl
      · rw [if_neg h]
        exact ih (iter + 1) _ (by omega) (by omega)
  exact key fuel 0 [] (by omega) (by omega)

/-- **C29, initial guess (partial).** Setting entries of the initial guess is as starting from the changed guess, if the
entries have these values already, or if the first update does not depend on them. Missing: the general case
(`c29_counterexample`). -/
theorem c29_guess_partial (lin : (Nat → Rat) → Nat → Rat) (norm : (Nat → Rat) → Rat) (g : List (Nat × Rat)) (atol : Rat) (mx : MaxIter)
    (x : Nat → Rat) (fuel : Nat) (h : lin (setGuess g x) = lin x) :
    newtonLoop lin norm g atol mx fuel 0 x [] = newtonLoop lin norm [] atol mx fuel 0 (setGuess g x) [] := by
  have later : ∀ (fuel iter : Nat) (y : Nat → Rat) (B : List Rat), 0 < iter →
      newtonLoop lin norm g atol mx fuel iter y B = newtonLoop lin norm [] atol mx fuel iter y B := by
    intro fuel
    induction fuel with
    | zero => intros; rfl
    | succ fuel ih =>
      intro iter y B hi
      unfold newtonLoop
      simp only
      rw [if_neg (by omega), if_neg (by omega)]
      split
      · rfl
      · rfl
      · exact ih _ _ _ (by omega)
  cases fuel with
  | zero => rfl
  | succ fuel =>
    unfold newtonLoop
    simp only [if_true, Nat.zero_add]
    rw [h]
    have : setGuess [] (setGuess g x) = setGuess g x := rfl
    rw [this]
    split
    · rfl
    · rfl
    · exact later _ _ _ _ (by omega)

/-- **C29, initial guess, is false**: the linear problem x = 1, for which one Newton step from any guess is exact; the guess 0
is changed to 5; after one (forced) iteration the result is 6. -/
theorem c29_counterexample :
    let lin : (Nat → Rat) → Nat → Rat := fun x i => 1 - x i
    (newtonLoop lin (fun _ => 1) [(0, 5)] (1/100) (.forced 1) 2 0 (fun _ => 0) []).map (fun r => r.1 0) = some 6 ∧
    (newtonLoop lin (fun _ => 1) [] (1/100) (.forced 1) 2 0 (setGuess [(0, 5)] (fun _ => 0)) []).map (fun r => r.1 0) = some 1 := by
  constructor
  · norm_num [newtonLoop, nlsStop, setGuess]
  · norm_num [newtonLoop, nlsStop, setGuess]

end Mifem.Props
