import Verif.Model.Gathering
import Mathlib.Data.List.Basic
import Mathlib.Tactic.Common

/-!
# C42: the global cache of chained gathering matrices

Specification: calling `GatheringMatrixChaining(*forms)(chain_method)` any number of times, with any gathering matrices,
gives each time the chain of exactly the matrices asked for.
-/

namespace Mifem.Props
open Mifem.Gath

/-- the results of a sequence of calls `(gms, method)` starting from the given cache; `stamp` is `GM.stamp`. -/
def runCalls {α γ : Type} (build : List γ → List Char → α) (stamp : γ → List Char) :
    CGMCache α → List (List γ × List Char) → List α
  | _, [] => []
  | cache, (gms, method) :: rest =>
    let out := cgmCall build cache (gms.map stamp) gms method
    out.2 :: runCalls build stamp out.1 rest

/-- the cache after a sequence of calls. -/
def cacheAfter {α γ : Type} (build : List γ → List Char → α) (stamp : γ → List Char) :
    CGMCache α → List (List γ × List Char) → CGMCache α
  | cache, [] => cache
  | cache, (gms, method) :: rest =>
    cacheAfter build stamp (cgmCall build cache (gms.map stamp) gms method).1 rest

/-- different requests have different keys. -/
def KeysFaithful {γ : Type} (stamp : γ → List Char) (reqs : List (List γ × List Char)) : Prop :=
  ∀ q ∈ reqs, ∀ q' ∈ reqs, cgmKey (q.1.map stamp) q.2 = cgmKey (q'.1.map stamp) q'.2 → q = q'

theorem lookup_mem {β : Type} {l : List (List Char × β)} {k : List Char} {b : β} (h : l.lookup k = some b) :
    (k, b) ∈ l := by
  induction l with
  | nil => simp at h
  | cons p l ih =>
    obtain ⟨a, c⟩ := p
    rw [List.lookup_cons] at h
    by_cases hk : k = a
    · subst hk
      simp at h
      simp [h]
    · simp only [beq_eq_false_iff_ne.mpr hk] at h
      exact List.mem_cons_of_mem _ (ih h)

theorem runCalls_correct {α γ : Type} (build : List γ → List Char → α) (stamp : γ → List Char)
    (all reqs : List (List γ × List Char)) (hk : KeysFaithful stamp all) (hsub : ∀ q ∈ reqs, q ∈ all)
    (cache : CGMCache α)
    (hc : ∀ p ∈ cache, ∃ q ∈ all, p.1 = cgmKey (q.1.map stamp) q.2 ∧ p.2 = build q.1 q.2) :
    runCalls build stamp cache reqs = reqs.map (fun q => build q.1 q.2) := by
  induction reqs generalizing cache with
  | nil => rfl
  | cons q reqs ih =>
    obtain ⟨gms, method⟩ := q
    have hq : (gms, method) ∈ all := hsub _ (by simp)
    rw [runCalls, List.map_cons]
    have hout : (cgmCall build cache (gms.map stamp) gms method).2 = build gms method ∧
        ∀ p ∈ (cgmCall build cache (gms.map stamp) gms method).1,
          ∃ q ∈ all, p.1 = cgmKey (q.1.map stamp) q.2 ∧ p.2 = build q.1 q.2 := by
      unfold cgmCall
      cases hl : cache.lookup (cgmKey (gms.map stamp) method) with
      | some c =>
        simp only [hl]
        refine ⟨?_, hc⟩
        obtain ⟨q', hq', h1, h2⟩ := hc _ (lookup_mem hl)
        have := hk (gms, method) hq q' hq' h1
        rw [← this] at h2
        exact h2
      | none =>
        simp only [hl]
        refine ⟨trivial, ?_⟩
        have hall : ∀ p ∈ cache ++ [(cgmKey (gms.map stamp) method, build gms method)],
            ∃ q ∈ all, p.1 = cgmKey (q.1.map stamp) q.2 ∧ p.2 = build q.1 q.2 := by
          intro p hp
          rcases List.mem_append.mp hp with hp | hp
          · exact hc p hp
          · rw [List.mem_singleton] at hp
            subst hp
            exact ⟨_, hq, rfl, rfl⟩
        intro p hp
        split at hp
        · exact hall p (List.mem_of_mem_drop hp)
        · exact hall p hp
    simp only
    rw [hout.1, ih (fun q hq => hsub q (by simp [hq])) _ hout.2]

/-- Keys made of digit stamps of one length are faithful when different matrices have different stamps. -/
theorem keys_faithful_of_stamps {γ : Type} (stamp : γ → List Char) (L : Nat) (hL : 0 < L)
    (reqs : List (List γ × List Char))
    (hlen : ∀ q ∈ reqs, ∀ g ∈ q.1, (stamp g).length = L)
    (hdig : ∀ q ∈ reqs, ∀ g ∈ q.1, ∀ x ∈ stamp g, x.isDigit = true)
    (hmeth : ∀ q ∈ reqs, ∀ x ∈ q.2, x.isDigit = false)
    (hinj : ∀ q ∈ reqs, ∀ q' ∈ reqs, ∀ g ∈ q.1, ∀ g' ∈ q'.1, stamp g = stamp g' → g = g') :
    KeysFaithful stamp reqs := by
  have split_unique : ∀ (a b a' b' : List Char), (∀ x ∈ a, x.isDigit = true) → (∀ x ∈ a', x.isDigit = true) →
      (∀ x ∈ b, x.isDigit = false) → (∀ x ∈ b', x.isDigit = false) → a ++ b = a' ++ b' → a = a' ∧ b = b' := by
    intro a b
    induction a with
    | nil =>
      intro a' b' _ ha' hb hb' h
      cases a' with
      | nil => exact ⟨rfl, by simpa using h⟩
      | cons x xs =>
        exfalso
        have h1 := ha' x (by simp)
        have h2 := hb x (by simp at h; simp [h])
        rw [h1] at h2
        simp at h2
    | cons y ys ih =>
      intro a' b' ha ha' hb hb' h
      cases a' with
      | nil =>
        exfalso
        have h1 := ha y (by simp)
        have h2 := hb' y (by simp at h; simp [← h])
        rw [h1] at h2
        simp at h2
      | cons x xs =>
        simp only [List.cons_append, List.cons.injEq] at h
        obtain ⟨h1, h2⟩ := ih xs b' (fun z hz => ha z (by simp [hz])) (fun z hz => ha' z (by simp [hz])) hb hb' h.2
        exact ⟨by rw [h.1, h1], h2⟩
  have flat : ∀ (l l' : List γ), (∀ g ∈ l, (stamp g).length = L) → (∀ g ∈ l', (stamp g).length = L) →
      (∀ g ∈ l, ∀ g' ∈ l', stamp g = stamp g' → g = g') →
      (l.map stamp).flatten = (l'.map stamp).flatten → l = l' := by
    intro l
    induction l with
    | nil =>
      intro l' _ h' _ h
      cases l' with
      | nil => rfl
      | cons g' l' =>
        exfalso
        have h1 := h' g' (by simp)
        have h2 := congrArg List.length h
        simp only [List.map_nil, List.flatten_nil, List.length_nil, List.map_cons, List.flatten_cons,
          List.length_append] at h2
        omega
    | cons g l ih =>
      intro l' hl h' hi h
      cases l' with
      | nil =>
        exfalso
        have h1 := hl g (by simp)
        have h2 := congrArg List.length h
        simp only [List.map_nil, List.flatten_nil, List.length_nil, List.map_cons, List.flatten_cons,
          List.length_append] at h2
        omega
      | cons g' l' =>
        simp only [List.map_cons, List.flatten_cons] at h
        obtain ⟨h1, h2⟩ := List.append_inj h (by rw [hl g (by simp), h' g' (by simp)])
        rw [hi g (by simp) g' (by simp) h1, ih l' (fun z hz => hl z (by simp [hz])) (fun z hz => h' z (by simp [hz]))
          (fun z hz z' hz' => hi z (by simp [hz]) z' (by simp [hz'])) h2]
  rintro ⟨gms, m⟩ hq ⟨gms', m'⟩ hq' h
  obtain ⟨h1, h2⟩ := split_unique _ _ _ _
    (by
      intro x hx
      obtain ⟨l, hl, hxl⟩ := List.mem_flatten.mp hx
      obtain ⟨g, hg, rfl⟩ := List.mem_map.mp hl
      exact hdig _ hq g hg x hxl)
    (by
      intro x hx
      obtain ⟨l, hl, hxl⟩ := List.mem_flatten.mp hx
      obtain ⟨g, hg, rfl⟩ := List.mem_map.mp hl
      exact hdig _ hq' g hg x hxl) (hmeth _ hq) (hmeth _ hq') h
  have := flat gms gms' (hlen _ hq) (hlen _ hq') (hinj _ hq _ hq') h1
  simp only at h2
  rw [this, h2]

/-- **C42, partial.** In any sequence of calls in which different matrices have different stamps (no `id` is used again
for another object), and the stamps (decimal `id`s) have the same number of digits, every call returns the chain of
exactly the matrices and the method asked for. Both conditions are needed: see below. -/
theorem c42_chain_cache_partial {α γ : Type} (build : List γ → List Char → α) (stamp : γ → List Char) (L : Nat)
    (hL : 0 < L) (reqs : List (List γ × List Char))
    (hlen : ∀ q ∈ reqs, ∀ g ∈ q.1, (stamp g).length = L)
    (hdig : ∀ q ∈ reqs, ∀ g ∈ q.1, ∀ x ∈ stamp g, x.isDigit = true)
    (hmeth : ∀ q ∈ reqs, ∀ x ∈ q.2, x.isDigit = false)
    (hinj : ∀ q ∈ reqs, ∀ q' ∈ reqs, ∀ g ∈ q.1, ∀ g' ∈ q'.1, stamp g = stamp g' → g = g') :
    runCalls build stamp [] reqs = reqs.map (fun q => build q.1 q.2) :=
  runCalls_correct build stamp reqs reqs (keys_faithful_of_stamps stamp L hL reqs hlen hdig hmeth hinj)
    (fun _ h => h) [] (by simp)

/-- At most three chains are kept, whatever is asked for. -/
theorem c42_bounded {α γ : Type} (build : List γ → List Char → α) (stamp : γ → List Char)
    (reqs : List (List γ × List Char)) (cache : CGMCache α) (h : cache.length ≤ 3) :
    (cacheAfter build stamp cache reqs).length ≤ 3 := by
  induction reqs generalizing cache with
  | nil => exact h
  | cons q reqs ih =>
    obtain ⟨gms, method⟩ := q
    rw [cacheAfter]
    apply ih
    unfold cgmCall
    simp only
    split
    · exact h
    · simp only
      split
      · simp only [List.length_drop, List.length_append, List.length_singleton] at *
        omega
      · omega

/-- A call for the matrices of one of the last requests is served from the cache without building: three requests with
different keys are all kept (so the cache does avoid work). -/
example : ((cacheAfter (fun (g : List Nat) _ => g) (fun g => (toString g).toList) []
    [([10, 11], "silly".toList), ([11], "silly".toList), ([10, 11], "sequent".toList), ([10, 11], "silly".toList)]).map
      Prod.snd) = [[10, 11], [11], [10, 11]] := by decide

/-- **C42 is false in general**: the keys of the stamps "1", "23" and of "12", "3" are the same string, so the second
request gets the chain of the first one. Decimal `id`s do not all have the same number of digits. -/
theorem c42_counterexample_key :
    ∃ (stamp : Fin 4 → List Char) (reqs : List (List (Fin 4) × List Char)), (∀ a b, stamp a = stamp b → a = b) ∧
      runCalls (fun g m => (g, m)) stamp [] reqs ≠ reqs.map (fun q => (q.1, q.2)) :=
  ⟨fun n => if n = 0 then ['1'] else if n = 1 then ['2', '3'] else if n = 2 then ['1', '2'] else ['3'],
    [([0, 1], ['s']), ([2, 3], ['s'])], by decide, by decide⟩

/-- **C42 is false in general**: when the `id` of a collected matrix is used again, the stale chain is returned. -/
theorem c42_counterexample_reuse :
    ∃ (stamp : Nat → List Char) (reqs : List (List Nat × List Char)), (∀ g, (stamp g).length = 1) ∧
      runCalls (fun g m => (g, m)) stamp [] reqs ≠ reqs.map (fun q => (q.1, q.2)) :=
  ⟨fun _ => ['7'], [([0], ['s']), ([1], ['s'])], fun _ => rfl, by decide⟩

/-- Requests that meet the hypotheses of `c42_chain_cache_partial`. -/
example : runCalls (fun (g : List Nat) m => (g, m)) (fun g => (toString (100 + g)).toList) []
    [([1, 2], "silly".toList), ([2], "silly".toList), ([1, 2], "sequent".toList), ([1, 2], "silly".toList)]
    = [([1, 2], "silly".toList), ([2], "silly".toList), ([1, 2], "sequent".toList), ([1, 2], "silly".toList)] := by
  apply c42_chain_cache_partial (fun (g : List Nat) m => (g, m)) _ 3 (by omega)
  · decide
  · decide
  · decide
  · decide

end Mifem.Props
