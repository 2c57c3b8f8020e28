import Verif.Model.EWC
import Mathlib.Tactic.Common
import Mathlib.Data.List.Count

/-! Lemmas about the EWC model: keys, the caching state machine, and the heap. -/

namespace Mifem.EWC

/-- `m` copies of `'>CT<'`. -/
def CTs (m : Nat) : Key := (List.replicate m CT).flatten

theorem CTs_zero : CTs 0 = [] := rfl
theorem CTs_succ (m : Nat) : CTs (m + 1) = CT ++ CTs m := rfl
theorem CTs_add (m k : Nat) : CTs (m + k) = CTs m ++ CTs k := by
  simp only [CTs, List.replicate_add, List.flatten_append]
theorem CTs_one : CTs 1 = CT := rfl

/-- Words commuting with `'>CT<'` are powers of it. -/
theorem comm_CT (N : Nat) : ∀ w : Key, w.length ≤ N → CT ++ w = w ++ CT → ∃ m, w = CTs m := by
  induction N using Nat.strong_induction_on with
  | _ N ih =>
    intro w hw h
    match w, hw, h with
    | [], _, _ => exact ⟨0, rfl⟩
    | [a], _, h => simp [CT] at h
    | [a, b], _, h => simp [CT] at h
    | [a, b, c], _, h => simp [CT] at h
    | a :: b :: c :: d :: w', hw, h =>
      have h4 : a = '>' ∧ b = 'C' ∧ c = 'T' ∧ d = '<' := by
        simp only [CT, List.cons_append, List.nil_append, List.cons.injEq] at h
        exact ⟨h.1.symm, h.2.1.symm, h.2.2.1.symm, h.2.2.2.1.symm⟩
      obtain ⟨rfl, rfl, rfl, rfl⟩ := h4
      have h' : CT ++ w' = w' ++ CT := by
        simpa [CT] using h
      simp only [List.length_cons] at hw
      obtain ⟨m, rfl⟩ := ih (N - 1) (by omega) w' (by omega) h'
      exact ⟨m + 1, by rw [CTs_succ]; rfl⟩

/-- If the repeat check finds `'>CT<'`, the key is `'>CT<>CT<…'`. -/
theorem findRot_CT {ck : Key} {t : Nat} (hf : findRot ck = some t) (ht : ck.take t = CT) :
    ∃ m, 1 ≤ m ∧ ck = CTs m := by
  unfold findRot at hf
  have h1 := List.find?_some hf
  have h2 := List.mem_of_find?_eq_some hf
  rw [List.mem_range'_1] at h2
  have hlt : t < ck.length := by omega
  simp only [beq_iff_eq] at h1
  have hlen : t = 4 := by
    have := congrArg List.length ht
    rw [List.length_take, Nat.min_eq_left (by omega)] at this
    simpa [CT] using this
  subst hlen
  have hck : ck = CT ++ ck.drop 4 := by rw [← ht, List.take_append_drop]
  have hrot : ck.drop 4 ++ ck.take 4 = ck := by
    rw [List.drop_append_of_le_length (by omega), List.take_append] at h1
    rw [List.take_of_length_le (by simp)] at h1
    have : ck.length - (ck.drop 4).length = 4 := by rw [List.length_drop]; omega
    rw [this] at h1
    exact h1
  rw [ht] at hrot
  obtain ⟨m, hm⟩ := comm_CT _ (ck.drop 4) (Nat.le_refl _) (by rw [hrot]; exact hck.symm)
  exact ⟨m + 1, by omega, by rw [CTs_succ, ← hm]; exact hck⟩

/-- The key is `'>CT<'` one or more times. -/
def IsCTs (k : Key) : Prop := ∃ m, 1 ≤ m ∧ k = CTs m

/-- Every `'>'` in the key starts a `'>CT<'`. -/
def CTonly (w : Key) : Prop := ∀ l r, w = l ++ '>' :: r → ∃ r', r = 'C' :: r'

theorem CTonly_nil : CTonly [] := by intro l r h; simp at h

theorem CTonly_append {a b : Key} (ha : CTonly a) (hb : CTonly b) : CTonly (a ++ b) := by
  intro l r h
  rcases List.append_eq_append_iff.mp h with ⟨c, rfl, hc⟩ | ⟨c, rfl, hc⟩
  · exact hb c r hc
  · cases c with
    | nil => exact hb [] r (by simpa using hc.symm)
    | cons x c' =>
      simp only [List.cons_append, List.cons.injEq] at hc
      obtain ⟨rfl, rfl⟩ := hc
      obtain ⟨r', rfl⟩ := ha l c' rfl
      exact ⟨r' ++ b, rfl⟩

theorem CTonly_of_not_mem {w : Key} (h : '>' ∉ w) : CTonly w := by
  intro l r e
  exact absurd (by rw [e]; simp) h

theorem CTonly_CT : CTonly CT := by
  intro l r h
  match l, h with
  | [], h => simp only [CT, List.nil_append, List.cons.injEq] at h; exact ⟨_, h.2.symm⟩
  | [a], h => simp [CT] at h
  | [a, b], h => simp [CT] at h
  | [a, b, c], h => simp [CT] at h
  | a :: b :: c :: d :: l, h => simp [CT] at h

theorem CTonly_CTs (m : Nat) : CTonly (CTs m) := by
  induction m with
  | zero => exact CTonly_nil
  | succ m ih => rw [CTs_succ]; exact CTonly_append CTonly_CT ih

theorem not_NC_of_CTonly {w : Key} (h : CTonly w) : ¬ NC <:+: w := by
  rintro ⟨s, t, e⟩
  obtain ⟨r, hr⟩ := h s ('N' :: 'C' :: '<' :: t) (by rw [← e]; simp [NC])
  simp at hr

theorem count_CTs (m : Nat) : 4 * (CTs m).count '>' = (CTs m).length := by
  induction m with
  | zero => rfl
  | succ m ih =>
    rw [CTs_succ, List.count_append, List.length_append]
    have : CT.count '>' = 1 := by decide
    have : CT.length = 4 := rfl
    omega

theorem length_CTs (m : Nat) : (CTs m).length = 4 * m := by
  induction m with
  | zero => rfl
  | succ m ih =>
    rw [CTs_succ, List.length_append, ih]
    have : CT.length = 4 := rfl
    omega

theorem isCTs_of_fire {β : Type} {c : Cache β} {ck : Key} (hrep : c.rep ≠ CT)
    (h : ck = CT ∨ (repCheck c ck).rep = CT) : IsCTs ck := by
  rcases h with rfl | h
  · exact ⟨1, le_rfl, CTs_one.symm⟩
  · unfold repCheck at h
    split at h
    · simp only at h
      split at h
      · split at h
        · exact findRot_CT (by assumption) h
        · exact absurd h hrep
      · exact absurd h hrep
    · exact absurd h hrep

/-! ### The state machine of one object -/

/-- What the caching state of one object must satisfy: `den` is the value the data generator would
produce now, `pk` the keys, `nc` says that the keys always contain `'>NC<'`. -/
structure NInv {β : Type} (E : List Nat) (den : Nat → β) (pk : Nat → Key) (nc : Prop)
    (c : Cache β) : Prop where
  ct : c.isCT = true → ¬ nc ∧ ∃ v, c.ct = some v ∧ ∀ j ∈ E, den j = v
  noct : c.isCT = false → c.ct = none
  rep : c.rep = CT → c.isCT = true
  cache : ¬ nc → ∀ k v, (k, v) ∈ c.cache → ∀ j ∈ E, pk j = k → den j = v

theorem NInv.init {β : Type} (E : List Nat) (den : Nat → β) (pk : Nat → Key) (nc : Prop) :
    NInv E den pk nc ({} : Cache β) :=
  ⟨by simp, by simp, by simp [CT], by simp⟩

/-- Keys are honest: when caching is on, equal keys mean equal data and the reserved key
`'>CT<'` (repeated or not) is only used for data that is the same for all elements; `nc` means that
every key contains `'>NC<'`. -/
structure Honest {β : Type} (E : List Nat) (den : Nat → β) (pk : Nat → Key) (nc : Prop) : Prop where
  hasNC : nc → ∀ i ∈ E, NC <:+: pk i
  ncCT : nc → ∀ i ∈ E, ¬ IsCTs (pk i)
  eq : ¬ nc → ∀ i ∈ E, ∀ j ∈ E, pk i = pk j → ¬ NC <:+: pk i → den i = den j
  ct : ¬ nc → ∀ i ∈ E, IsCTs (pk i) → ∀ j ∈ E, den j = den i

theorem lookup_mem {α β : Type} [BEq α] [LawfulBEq α] {l : List (α × β)} {k : α} {v : β}
    (h : l.lookup k = some v) : (k, v) ∈ l := by
  induction l with
  | nil => simp at h
  | cons p l ih =>
    obtain ⟨a, b⟩ := p
    rw [List.lookup_cons] at h
    split at h
    · simp only [Option.some.injEq] at h; subst h
      have : k = a := by simpa using ‹(k == a) = true›
      subst this; simp
    · exact List.mem_cons_of_mem _ (ih h)

theorem setC_same {β : Type} (s : St β) (n : Nat) (c : Cache β) : (s.setC n c).c n = c := by
  simp [St.setC]

theorem setC_other {β : Type} (s : St β) {n m : Nat} (c : Cache β) (h : m ≠ n) :
    (s.setC n c).c m = s.c m := by
  simp [St.setC, h]

theorem NInv.repCheck {β : Type} {E : List Nat} {den : Nat → β} {pk : Nat → Key} {nc : Prop}
    {c : Cache β} (hi : NInv E den pk nc c) (ck : Key) (hr : (repCheck c ck).rep ≠ CT) :
    NInv E den pk nc (repCheck c ck) := by
  have h1 : (EWC.repCheck c ck).isCT = c.isCT := by unfold EWC.repCheck; split <;> rfl
  have h2 : (EWC.repCheck c ck).ct = c.ct := by unfold EWC.repCheck; split <;> rfl
  have h3 : (EWC.repCheck c ck).cache = c.cache := by unfold EWC.repCheck; split <;> rfl
  refine ⟨?_, ?_, fun h => absurd h hr, ?_⟩
  · rw [h1, h2]; exact hi.ct
  · rw [h1, h2]; exact hi.noct
  · rw [h3]; exact hi.cache

/-- One access of one object.  `I` is the invariant of the whole state; `dg` is only called in
states satisfying `I` except possibly for the entry of object `n` itself (which it leaves alone). -/
theorem preGet_spec {β : Type} {E : List Nat} {den : Nat → β} {pk : Nat → Key} {nc : Prop}
    (hon : Honest E den pk nc) {n i : Nat} (hi : i ∈ E)
    (kg : (Nat → KGState) → Option (Key × (Nat → KGState)))
    (dg : St β → Option (β × St β))
    (K : (Nat → KGState) → Prop) (J : St β → Prop)
    (hkg : ∀ k, K k → ∃ k', kg k = some (pk i, k') ∧ K k')
    (hJ : ∀ s c, J s → J (s.setC n c))
    (hJk : ∀ s k', J s → K k' → J { s with k := k' })
    (hJK : ∀ s, J s → K s.k)
    (hdg : ∀ s, J s → ∃ s', dg s = some (den i, s') ∧ J s' ∧ s'.c n = s.c n ∧
      (∀ m, n < m → s'.c m = s.c m) ∧ s'.cust = s.cust)
    (s : St β) (hs : J s) (hn : NInv E den pk nc (s.c n)) :
    ∃ s', preGet n kg dg s = some (den i, s') ∧ J s' ∧ NInv E den pk nc (s'.c n) ∧
      (∀ m, n < m → s'.c m = s.c m) ∧ s'.cust = s.cust := by
  unfold preGet
  by_cases hNC : (s.c n).isNC = true
  · rw [if_pos hNC]
    obtain ⟨s', h1, h2, h3, h4, h5⟩ := hdg s hs
    exact ⟨s', h1, h2, by rw [h3]; exact hn, h4, h5⟩
  rw [if_neg hNC]
  by_cases hCT : (s.c n).isCT = true
  · rw [if_pos hCT]
    obtain ⟨-, v, hv, hall⟩ := hn.ct hCT
    rw [hv, ← hall i hi]
    exact ⟨s, rfl, hs, hn, fun _ _ => rfl, rfl⟩
  rw [if_neg hCT]
  obtain ⟨k1, hk1, hK1⟩ := hkg s.k (hJK s hs)
  rw [hk1]
  simp only
  have hrep0 : (s.c n).rep ≠ CT := fun h => hCT (hn.rep h)
  have hJ1 : J ({ s with k := k1 }.setC n (repCheck (s.c n) (pk i))) :=
    hJ _ _ (hJk s k1 hs hK1)
  obtain ⟨s2, hd1, hd2, hd3, hd4, hd5⟩ := hdg _ hJ1
  rw [setC_same] at hd3
  have hframe : ∀ m, n < m → s2.c m = s.c m := by
    intro m hm
    rw [hd4 m hm, setC_other _ _ (by omega)]
  have hcust : s2.cust = s.cust := hd5
  have hct : (repCheck (s.c n) (pk i)).ct = none := by
    have : (repCheck (s.c n) (pk i)).ct = (s.c n).ct := by unfold repCheck; split <;> rfl
    rw [this]; exact hn.noct (by simpa using hCT)
  have hisCT : (repCheck (s.c n) (pk i)).isCT = false := by
    have : (repCheck (s.c n) (pk i)).isCT = (s.c n).isCT := by unfold repCheck; split <;> rfl
    rw [this]; simpa using hCT
  have hcache : (repCheck (s.c n) (pk i)).cache = (s.c n).cache := by
    unfold repCheck; split <;> rfl
  by_cases hfire : pk i = CT ∨ (repCheck (s.c n) (pk i)).rep = CT
  · rw [if_pos hfire, hct]
    simp only
    rw [hd1]
    simp only
    have hcts := isCTs_of_fire hrep0 hfire
    have hnc : ¬ nc := fun h => hon.ncCT h i hi hcts
    refine ⟨_, rfl, hJ _ _ hd2, ?_, ?_, hcust⟩
    · rw [setC_same]
      refine ⟨fun _ => ⟨hnc, _, rfl, hon.ct hnc i hi hcts⟩, by simp, by simp, ?_⟩
      rw [hd3]; simp only [hcache]; exact hn.cache
    · intro m hm
      rw [setC_other _ _ (by omega)]; exact hframe m hm
  · rw [if_neg hfire]
    rw [not_or] at hfire
    have hinv1 := hn.repCheck (pk i) hfire.2
    by_cases hin : isIn NC (pk i) = true
    · rw [if_pos hin, hd1]
      simp only
      refine ⟨_, rfl, hJ _ _ hd2, ?_, ?_, hcust⟩
      · rw [setC_same, hd3]
        exact ⟨hinv1.ct, hinv1.noct, hinv1.rep, hinv1.cache⟩
      · intro m hm
        rw [setC_other _ _ (by omega)]; exact hframe m hm
    · rw [if_neg hin]
      have hin' : ¬ NC <:+: pk i := by simpa [isIn] using hin
      have hnc : ¬ nc := fun h => hin' (hon.hasNC h i hi)
      cases hl : (repCheck (s.c n) (pk i)).cache.lookup (pk i) with
      | some v =>
        simp only
        have hm := lookup_mem hl
        have : den i = v := hinv1.cache hnc _ _ hm i hi rfl
        rw [← this]
        refine ⟨_, rfl, hJ1, ?_, ?_, rfl⟩
        · rw [setC_same]; exact hinv1
        · intro m hm'
          rw [setC_other _ _ (by omega)]
      | none =>
        simp only
        rw [hd1]
        simp only
        refine ⟨_, rfl, hJ _ _ hd2, ?_, ?_, hcust⟩
        · rw [setC_same, hd3]
          refine ⟨hinv1.ct, hinv1.noct, hinv1.rep, ?_⟩
          intro _ k v hkv j hj hpk
          rcases List.mem_cons.mp hkv with h | h
          · simp only [Prod.mk.injEq] at h
            obtain ⟨rfl, rfl⟩ := h
            exact (hon.eq hnc i hi j hj hpk.symm hin').symm
          · exact hinv1.cache hnc k v h j hj hpk
        · intro m hm
          rw [setC_other _ _ (by omega)]; exact hframe m hm

/-! ### Recursion over a heap -/

/-- Objects whose values an object reads. -/
def Node.args {β : Type} : Node β → List Nat
  | .leaf _ _ => []
  | .op _ args _ => args
  | .bmat _ args => args

/-- Objects whose keys an object concatenates. -/
def Node.keyArgs {β : Type} : Node β → List Nat
  | .leaf _ _ => []
  | .op _ _ ka => ka
  | .bmat _ args => args

/-- Objects are built from older ones. -/
def WF {β : Type} (h : Heap β) : Prop :=
  ∀ n (nd : Node β), h[n]? = some nd → ∀ a ∈ nd.args ++ nd.keyArgs, a < n

def recF {β α : Type} (h : Heap β) (step : Nat → Node β → (Nat → α) → α) (d : α) :
    Nat → Nat → α
  | 0, _ => d
  | fuel + 1, n =>
    match h[n]? with
    | none => d
    | some nd => step n nd (recF h step d fuel)

def hrec {β α : Type} (h : Heap β) (step : Nat → Node β → (Nat → α) → α) (d : α) (n : Nat) : α :=
  recF h step d (n + 1) n

theorem recF_eq {β α : Type} {h : Heap β} {step : Nat → Node β → (Nat → α) → α} {d : α}
    (hstep : ∀ n nd, h[n]? = some nd → ∀ f g : Nat → α, (∀ m < n, f m = g m) →
      step n nd f = step n nd g) :
    ∀ N n f1 f2, n ≤ N → n < f1 → n < f2 → recF h step d f1 n = recF h step d f2 n := by
  intro N
  induction N with
  | zero =>
    intro n f1 f2 h0 h1 h2
    obtain ⟨f1, rfl⟩ : ∃ k, f1 = k + 1 := ⟨f1 - 1, by omega⟩
    obtain ⟨f2, rfl⟩ : ∃ k, f2 = k + 1 := ⟨f2 - 1, by omega⟩
    simp only [recF]
    cases hn : h[n]? with
    | none => rfl
    | some nd => exact hstep n nd hn _ _ (fun m hm => by omega)
  | succ N ih =>
    intro n f1 f2 h0 h1 h2
    obtain ⟨f1, rfl⟩ : ∃ k, f1 = k + 1 := ⟨f1 - 1, by omega⟩
    obtain ⟨f2, rfl⟩ : ∃ k, f2 = k + 1 := ⟨f2 - 1, by omega⟩
    simp only [recF]
    cases hn : h[n]? with
    | none => rfl
    | some nd => exact hstep n nd hn _ _ (fun m hm => ih m f1 f2 (by omega) (by omega) (by omega))

theorem hrec_eq {β α : Type} {h : Heap β} {step : Nat → Node β → (Nat → α) → α} {d : α}
    (hstep : ∀ n nd, h[n]? = some nd → ∀ f g : Nat → α, (∀ m < n, f m = g m) →
      step n nd f = step n nd g) {n : Nat} {nd : Node β} (hn : h[n]? = some nd) :
    hrec h step d n = step n nd (hrec h step d) := by
  unfold hrec
  rw [recF]
  simp only [hn]
  exact hstep n nd hn _ _ (fun m hm => recF_eq hstep n m _ _ (by omega) (by omega) (by omega))

/-- Value of an object for element `i` before its own customizations, from the operands as the user
sees them. -/
def denStep {β : Type} (cu : Nat → Nat → β → β) (nd : Node β) (f : Nat → Nat → β) (i : Nat) : β :=
  match nd with
  | .leaf dg _ => dg i
  | .op g args _ => g (args.map (fun a => cu a i (f a i)))
  | .bmat g args => g (args.map (fun a => cu a i (f a i)))

def den {β : Type} [Inhabited β] (h : Heap β) (cu : Nat → Nat → β → β) : Nat → Nat → β :=
  hrec h (fun _ nd f => denStep cu nd f) (fun _ => default)

theorem denStep_congr {β : Type} (cu : Nat → Nat → β → β) (nd : Node β) (f g : Nat → Nat → β)
    (h : ∀ m ∈ nd.args, f m = g m) : denStep cu nd f = denStep cu nd g := by
  funext i
  cases nd with
  | leaf dg kg => rfl
  | op F args ka =>
    simp only [denStep]
    congr 1
    exact List.map_congr_left (fun a ha => by rw [h a ha])
  | bmat F args =>
    simp only [denStep]
    congr 1
    exact List.map_congr_left (fun a ha => by rw [h a ha])

theorem den_eq {β : Type} [Inhabited β] {h : Heap β} (hw : WF h) (cu : Nat → Nat → β → β)
    {n : Nat} {nd : Node β} (hn : h[n]? = some nd) : den h cu n = denStep cu nd (den h cu) :=
  hrec_eq (step := fun _ nd f => denStep cu nd f) (fun n nd hn f g hfg =>
    denStep_congr cu nd f g (fun m hm => hfg m (hw n nd hn m (List.mem_append_left _ hm)))) hn

/-- Concatenation of the keys of several objects. -/
def catKeys (f : Nat → Nat → Key) (as : List Nat) (i : Nat) : Key :=
  (as.map (fun a => f a i)).flatten

theorem catKeys_nil (f : Nat → Nat → Key) (i : Nat) : catKeys f [] i = [] := rfl
theorem catKeys_cons (f : Nat → Nat → Key) (a : Nat) (as : List Nat) (i : Nat) :
    catKeys f (a :: as) i = f a i ++ catKeys f as i := rfl

/-- The key of an object, when it does not depend on the history. -/
def pkStep {β : Type} (nd : Node β) (f : Nat → Nat → Key) (i : Nat) : Key :=
  match nd with
  | .leaf _ kg => kg i
  | .op _ _ ka => catKeys f ka i
  | .bmat _ args =>
    if (bmatFlags (catKeys f args i)).isCT then CT
    else if (bmatFlags (catKeys f args i)).isNC then NC
    else catKeys f args i

def pk {β : Type} (h : Heap β) : Nat → Nat → Key := hrec h (fun _ nd f => pkStep nd f) (fun _ => [])

theorem catKeys_congr {f g : Nat → Nat → Key} {as : List Nat} (h : ∀ m ∈ as, f m = g m) (i : Nat) :
    catKeys f as i = catKeys g as i := by
  unfold catKeys
  congr 1
  exact List.map_congr_left (fun a ha => by rw [h a ha])

theorem pk_eq {β : Type} {h : Heap β} (hw : WF h)
    {n : Nat} {nd : Node β} (hn : h[n]? = some nd) : pk h n = pkStep nd (pk h) :=
  hrec_eq (step := fun _ nd f => pkStep nd f) (fun n nd hn f g hfg => by
    funext i
    cases nd with
    | leaf dg kg => rfl
    | op F args ka =>
      exact catKeys_congr (fun m hm => hfg m (hw n _ hn m (List.mem_append_right _ hm))) i
    | bmat F args =>
      have := catKeys_congr (as := args)
        (fun m hm => hfg m (hw n _ hn m (List.mem_append_right _ hm))) i
      simp only [pkStep, this]) hn

/-! ### Kinds of objects -/

/-- The object is recomputed at every read: some leaf providing a part of its key is `no_cache`. -/
inductive NoCache {β : Type} (h : Heap β) (E : List Nat) : Nat → Prop
  | leaf {n : Nat} {dg : Nat → β} {kg : Nat → Key} (hn : h[n]? = some (.leaf dg kg))
      (hk : ∀ i ∈ E, kg i = NC) : NoCache h E n
  | node {n : Nat} {nd : Node β} (hn : h[n]? = some nd) {a : Nat} (ha : a ∈ nd.keyArgs)
      (hnc : NoCache h E a) : NoCache h E n

/-- All leaves providing a part of the key are `constant`. -/
inductive AllConst {β : Type} (h : Heap β) (E : List Nat) : Nat → Prop
  | leaf {n : Nat} {dg : Nat → β} {kg : Nat → Key} (hn : h[n]? = some (.leaf dg kg))
      (hk : ∀ i ∈ E, kg i = CT) : AllConst h E n
  | node {n : Nat} {nd : Node β} (hn : h[n]? = some nd) (hne : nd.keyArgs ≠ [])
      (hall : ∀ a ∈ nd.keyArgs, AllConst h E a) : AllConst h E n

/-- A leaf is used as its key generator promises: `constant` data is the same for all elements,
`no_cache` promises nothing, and a proper key generator gives non-empty keys without `'>'`, none of which
is a proper prefix of another (for example keys of one length), equal only when the data is equal. -/
def LeafOK {β : Type} (E : List Nat) (dg : Nat → β) (kg : Nat → Key) : Prop :=
  ((∀ i ∈ E, kg i = CT) ∧ ∀ i ∈ E, ∀ j ∈ E, dg i = dg j) ∨
  (∀ i ∈ E, kg i = NC) ∨
  ((∀ i ∈ E, kg i ≠ [] ∧ '>' ∉ kg i) ∧ (∀ i ∈ E, ∀ j ∈ E, kg i <+: kg j → kg i = kg j) ∧
    ∀ i ∈ E, ∀ j ∈ E, kg i = kg j → dg i = dg j)

/-- All objects of the program are used properly: leaves as above, every operation has operands,
and an operation whose key omits the key of an operand is either recomputed at each read or that
operand is constant. -/
def GoodHeap {β : Type} (h : Heap β) (E : List Nat) : Prop :=
  WF h ∧ (∀ (n : Nat) (dg : Nat → β) (kg : Nat → Key), h[n]? = some (Node.leaf dg kg) → LeafOK E dg kg) ∧
  (∀ n (nd : Node β), h[n]? = some nd → (∀ dg kg, nd ≠ Node.leaf dg kg) → nd.keyArgs ≠ [] ∧
    (NoCache h E n ∨ ∀ a ∈ nd.args, a ∈ nd.keyArgs ∨ AllConst h E a))

theorem CT_ne_NC : CT ≠ NC := by decide

theorem allConst_not_noCache {β : Type} {h : Heap β} {E : List Nat} (hE : E ≠ []) {n : Nat}
    (hc : AllConst h E n) : ¬ NoCache h E n := by
  obtain ⟨e, he⟩ := List.exists_mem_of_ne_nil E hE
  induction hc with
  | leaf hn hk =>
    intro hnc
    cases hnc with
    | leaf hn' hk' =>
      rw [hn] at hn'
      simp only [Option.some.injEq, Node.leaf.injEq] at hn'
      obtain ⟨rfl, rfl⟩ := hn'
      exact CT_ne_NC ((hk e he).symm.trans (hk' e he))
    | node hn' ha _ =>
      rw [hn] at hn'
      simp only [Option.some.injEq] at hn'
      subst hn'
      simp [Node.keyArgs] at ha
  | node hn hne hall ih =>
    intro hnc
    cases hnc with
    | leaf hn' hk' =>
      rw [hn] at hn'
      simp only [Option.some.injEq] at hn'
      subst hn'
      simp [Node.keyArgs] at hne
    | node hn' ha hx =>
      rw [hn] at hn'
      simp only [Option.some.injEq] at hn'
      subst hn'
      exact ih _ ha hx

/-- Facts about the keys of an object. -/
structure KeyFacts {β : Type} (h : Heap β) (E : List Nat) (n : Nat) : Prop where
  const : AllConst h E n → ∃ m, 1 ≤ m ∧ ∀ i ∈ E, pk h n i = CTs m
  nc : NoCache h E n → ∀ i ∈ E, NC <:+: pk h n i
  only : ¬ NoCache h E n → ∀ i ∈ E, CTonly (pk h n i)
  count : ¬ NoCache h E n → ∀ i ∈ E, 4 * (pk h n i).count '>' ≤ (pk h n i).length
  strict : ¬ NoCache h E n → ¬ AllConst h E n → ∀ i ∈ E,
    4 * (pk h n i).count '>' < (pk h n i).length
  pf : ∀ i ∈ E, ∀ j ∈ E, pk h n i <+: pk h n j → pk h n i = pk h n j

/-- The same facts for a concatenation of keys. -/
structure CatFacts {β : Type} (h : Heap β) (E : List Nat) (as : List Nat) : Prop where
  const : (∀ a ∈ as, AllConst h E a) → ∃ m, as.length ≤ m ∧ ∀ i ∈ E, catKeys (pk h) as i = CTs m
  nc : (∃ a ∈ as, NoCache h E a) → ∀ i ∈ E, NC <:+: catKeys (pk h) as i
  only : (∀ a ∈ as, ¬ NoCache h E a) → ∀ i ∈ E, CTonly (catKeys (pk h) as i)
  count : (∀ a ∈ as, ¬ NoCache h E a) → ∀ i ∈ E,
    4 * (catKeys (pk h) as i).count '>' ≤ (catKeys (pk h) as i).length
  strict : (∀ a ∈ as, ¬ NoCache h E a) → (∃ a ∈ as, ¬ AllConst h E a) → ∀ i ∈ E,
    4 * (catKeys (pk h) as i).count '>' < (catKeys (pk h) as i).length
  pf : ∀ i ∈ E, ∀ j ∈ E, catKeys (pk h) as i <+: catKeys (pk h) as j → catKeys (pk h) as i = catKeys (pk h) as j

theorem prefix_split {a b a' b' : Key} (h : a ++ b <+: a' ++ b') (h1 : a <+: a' → a = a') (h2 : a' <+: a → a' = a) :
    a = a' ∧ b <+: b' := by
  have e : a = a' := by
    rcases List.prefix_or_prefix_of_prefix ((List.prefix_append a b).trans h) (List.prefix_append a' b') with x | x
    · exact h1 x
    · exact (h2 x).symm
  subst e
  exact ⟨rfl, (List.prefix_append_right_inj a).1 h⟩

theorem catFacts {β : Type} {h : Heap β} {E : List Nat} :
    ∀ {as : List Nat}, (∀ a ∈ as, KeyFacts h E a) → CatFacts h E as := by
  intro as
  induction as with
  | nil =>
    intro _
    refine ⟨fun _ => ⟨0, by simp, fun _ _ => rfl⟩, by simp, fun _ _ _ => CTonly_nil, ?_, by simp, ?_⟩
    · intro _ i _; simp [catKeys_nil]
    · intro i _ j _; simp [catKeys_nil]
  | cons a as ih =>
    intro hk
    have ha := hk a (by simp)
    have has := ih (fun b hb => hk b (by simp [hb]))
    refine ⟨?_, ?_, ?_, ?_, ?_, ?_⟩
    · intro hc
      obtain ⟨m1, h1, e1⟩ := ha.const (hc a (by simp))
      obtain ⟨m2, h2, e2⟩ := has.const (fun b hb => hc b (by simp [hb]))
      refine ⟨m1 + m2, by simp; omega, fun i hi => ?_⟩
      rw [catKeys_cons, e1 i hi, e2 i hi, CTs_add]
    · rintro ⟨b, hb, hnc⟩ i hi
      rw [catKeys_cons]
      rcases List.mem_cons.mp hb with rfl | hb
      · exact (ha.nc hnc i hi).trans (List.prefix_append _ _).isInfix
      · exact (has.nc ⟨b, hb, hnc⟩ i hi).trans (List.suffix_append _ _).isInfix
    · intro hnc i hi
      rw [catKeys_cons]
      exact CTonly_append (ha.only (hnc a (by simp)) i hi)
        (has.only (fun b hb => hnc b (by simp [hb])) i hi)
    · intro hnc i hi
      rw [catKeys_cons, List.count_append, List.length_append]
      have := ha.count (hnc a (by simp)) i hi
      have := has.count (fun b hb => hnc b (by simp [hb])) i hi
      omega
    · rintro hnc ⟨b, hb, hb'⟩ i hi
      rw [catKeys_cons, List.count_append, List.length_append]
      have h1 := ha.count (hnc a (by simp)) i hi
      have h2 := has.count (fun b hb => hnc b (by simp [hb])) i hi
      rcases List.mem_cons.mp hb with rfl | hb
      · have := ha.strict (hnc b (by simp)) hb' i hi
        omega
      · have := has.strict (fun b hb => hnc b (by simp [hb])) ⟨b, hb, hb'⟩ i hi
        omega
    · intro i hi j hj hp
      rw [catKeys_cons, catKeys_cons] at hp ⊢
      obtain ⟨e, hp'⟩ := prefix_split hp (ha.pf i hi j hj) (ha.pf j hj i hi)
      rw [e, has.pf i hi j hj hp']

/-- `bmatFlags` by kind. -/
theorem bmatFlags_nc {key : Key} (hk : NC <:+: key) : bmatFlags key = ⟨false, false, true⟩ := by
  unfold bmatFlags; rw [if_pos (by simpa [isIn] using hk)]

theorem bmatFlags_keyed {key : Key} (h1 : ¬ NC <:+: key) (h2 : ¬ IsCTs key) :
    bmatFlags key = ⟨false, false, false⟩ := by
  unfold bmatFlags
  rw [if_neg (by simpa [isIn] using h1), if_neg]
  intro h
  unfold repeatedOf at h
  split at h
  · exact h2 (findRot_CT (by assumption) h)
  · simp [CT] at h

theorem bmatFlags_noNC {key : Key} (h1 : ¬ NC <:+: key) : (bmatFlags key).isNC = false := by
  unfold bmatFlags
  rw [if_neg (by simpa [isIn] using h1)]
  split <;> rfl

theorem not_isCTs_of_strict {k : Key} (h : 4 * k.count '>' < k.length) : ¬ IsCTs k := by
  rintro ⟨m, -, rfl⟩
  have := count_CTs m
  omega

theorem not_isCTs_of_NC {k : Key} (h : NC <:+: k) : ¬ IsCTs k := by
  rintro ⟨m, -, rfl⟩
  exact not_NC_of_CTonly (CTonly_CTs m) h

/-- Flags of a `bmat` do not depend on the element asked first. -/
theorem bmatFlags_indep {β : Type} {h : Heap β} {E : List Nat} {as : List Nat}
    (hc : CatFacts h E as) {i j : Nat} (hi : i ∈ E) (hj : j ∈ E) :
    bmatFlags (catKeys (pk h) as i) = bmatFlags (catKeys (pk h) as j) := by
  by_cases hnc : ∃ a ∈ as, NoCache h E a
  · rw [bmatFlags_nc (hc.nc hnc i hi), bmatFlags_nc (hc.nc hnc j hj)]
  · have hnc' : ∀ a ∈ as, ¬ NoCache h E a := fun a ha h' => hnc ⟨a, ha, h'⟩
    by_cases hall : ∀ a ∈ as, AllConst h E a
    · obtain ⟨m, -, hm⟩ := hc.const hall
      rw [hm i hi, hm j hj]
    · have hex : ∃ a ∈ as, ¬ AllConst h E a := by
        simpa only [not_forall, exists_prop] using hall
      rw [bmatFlags_keyed (not_NC_of_CTonly (hc.only hnc' i hi))
        (not_isCTs_of_strict (hc.strict hnc' hex i hi)),
        bmatFlags_keyed (not_NC_of_CTonly (hc.only hnc' j hj))
        (not_isCTs_of_strict (hc.strict hnc' hex j hj))]

theorem noCache_node_iff {β : Type} {h : Heap β} {E : List Nat} {n : Nat} {nd : Node β}
    (hn : h[n]? = some nd) (hl : ∀ dg kg, nd ≠ .leaf dg kg) :
    NoCache h E n ↔ ∃ a ∈ nd.keyArgs, NoCache h E a := by
  constructor
  · intro hnc
    cases hnc with
    | leaf hn' hk =>
      rw [hn] at hn'
      simp only [Option.some.injEq] at hn'
      exact absurd hn' (hl _ _)
    | node hn' ha hx =>
      rw [hn] at hn'
      simp only [Option.some.injEq] at hn'
      subst hn'
      exact ⟨_, ha, hx⟩
  · rintro ⟨a, ha, hx⟩
    exact .node hn ha hx

theorem allConst_node_iff {β : Type} {h : Heap β} {E : List Nat} {n : Nat} {nd : Node β}
    (hn : h[n]? = some nd) (hl : ∀ dg kg, nd ≠ .leaf dg kg) (hne : nd.keyArgs ≠ []) :
    AllConst h E n ↔ ∀ a ∈ nd.keyArgs, AllConst h E a := by
  constructor
  · intro hnc
    cases hnc with
    | leaf hn' hk =>
      rw [hn] at hn'
      simp only [Option.some.injEq] at hn'
      exact absurd hn' (hl _ _)
    | node hn' _ hx =>
      rw [hn] at hn'
      simp only [Option.some.injEq] at hn'
      subst hn'
      exact hx
  · intro hx
    exact .node hn hne hx

theorem noCache_lt {β : Type} {h : Heap β} {E : List Nat} {n : Nat} (hn : NoCache h E n) :
    n < h.length := by
  cases hn with
  | leaf hn _ => exact (List.getElem?_eq_some_iff.mp hn).1
  | node hn _ _ => exact (List.getElem?_eq_some_iff.mp hn).1

theorem leaf_noCache {β : Type} {h : Heap β} {E : List Nat} {n : Nat} {dg : Nat → β}
    {kg : Nat → Key} (hn : h[n]? = some (.leaf dg kg)) :
    NoCache h E n ↔ ∀ i ∈ E, kg i = NC := by
  constructor
  · intro hnc
    cases hnc with
    | leaf hn' hk =>
      rw [hn] at hn'
      simp only [Option.some.injEq, Node.leaf.injEq] at hn'
      obtain ⟨rfl, rfl⟩ := hn'
      exact hk
    | node hn' ha hx =>
      rw [hn] at hn'
      simp only [Option.some.injEq] at hn'
      subst hn'
      simp [Node.keyArgs] at ha
  · exact fun hk => .leaf hn hk

theorem leaf_allConst {β : Type} {h : Heap β} {E : List Nat} {n : Nat} {dg : Nat → β}
    {kg : Nat → Key} (hn : h[n]? = some (.leaf dg kg)) :
    AllConst h E n ↔ ∀ i ∈ E, kg i = CT := by
  constructor
  · intro hnc
    cases hnc with
    | leaf hn' hk =>
      rw [hn] at hn'
      simp only [Option.some.injEq, Node.leaf.injEq] at hn'
      obtain ⟨rfl, rfl⟩ := hn'
      exact hk
    | node hn' hne hx =>
      rw [hn] at hn'
      simp only [Option.some.injEq] at hn'
      subst hn'
      simp [Node.keyArgs] at hne
  · exact fun hk => .leaf hn hk

theorem keyFacts {β : Type} {h : Heap β} {E : List Nat} (hg : GoodHeap h E) (hE : E ≠ []) :
    ∀ n < h.length, KeyFacts h E n := by
  obtain ⟨hw, hleaf, hnode⟩ := hg
  intro n
  induction n using Nat.strong_induction_on with
  | _ n ih =>
    intro hn
    obtain ⟨e0, he0⟩ := List.exists_mem_of_ne_nil E hE
    obtain ⟨nd, hnd⟩ : ∃ nd, h[n]? = some nd := ⟨_, List.getElem?_eq_getElem hn⟩
    have hpk := pk_eq hw hnd
    by_cases hl : ∃ dg kg, nd = Node.leaf dg kg
    · obtain ⟨dg, kg, rfl⟩ := hl
      have hpk' : ∀ i, pk h n i = kg i := fun i => by rw [hpk]; rfl
      have hNC := leaf_noCache (E := E) hnd
      have hAC := leaf_allConst (E := E) hnd
      rcases hleaf n dg kg hnd with ⟨hct, -⟩ | hnc | ⟨hks, hlen, -⟩
      · have hnn : ¬ NoCache h E n := allConst_not_noCache hE (hAC.mpr hct)
        refine ⟨fun _ => ⟨1, le_rfl, fun i hi => ?_⟩, fun hx => absurd hx hnn, ?_, ?_,
          fun _ hx => absurd (hAC.mpr hct) hx, ?_⟩
        · rw [hpk', hct i hi, CTs_one]
        · intro _ i hi; rw [hpk', hct i hi]; exact CTonly_CT
        · intro _ i hi; rw [hpk', hct i hi]; decide
        · intro i hi j hj _; rw [hpk', hpk', hct i hi, hct j hj]
      · have hyes := hNC.mpr hnc
        refine ⟨fun hx => absurd hyes (allConst_not_noCache hE hx), fun _ i hi => ?_,
          fun hx => absurd hyes hx, fun hx => absurd hyes hx, fun hx => absurd hyes hx, ?_⟩
        · rw [hpk', hnc i hi]
        · intro i hi j hj _; rw [hpk', hpk', hnc i hi, hnc j hj]
      · have hnn : ¬ NoCache h E n := by
          intro hx
          have := (hks e0 he0).2
          rw [hNC.mp hx e0 he0] at this
          simp [NC] at this
        have hcount : ∀ i ∈ E, 4 * (pk h n i).count '>' < (pk h n i).length := by
          intro i hi
          rw [hpk', List.count_eq_zero_of_not_mem (hks i hi).2]
          exact List.length_pos_of_ne_nil (hks i hi).1
        refine ⟨fun hx => ?_, fun hx => absurd hx hnn, ?_, fun _ i hi => Nat.le_of_lt (hcount i hi),
          fun _ _ => hcount, ?_⟩
        · have := (hks e0 he0).2
          rw [hAC.mp hx e0 he0] at this
          simp [CT] at this
        · intro _ i hi; rw [hpk']; exact CTonly_of_not_mem (hks i hi).2
        · intro i hi j hj; rw [hpk', hpk']; exact hlen i hi j hj
    · have hl' : ∀ dg kg, nd ≠ Node.leaf dg kg := fun dg kg hx => hl ⟨dg, kg, hx⟩
      obtain ⟨hne, -⟩ := hnode n nd hnd hl'
      have hNC := noCache_node_iff (E := E) hnd hl'
      have hAC := allConst_node_iff (E := E) hnd hl' hne
      have hlt : ∀ a ∈ nd.keyArgs, a < n := fun a ha => hw n nd hnd a (List.mem_append_right _ ha)
      have hcf : CatFacts h E nd.keyArgs := catFacts (fun a ha => ih a (hlt a ha)
        (by have := hlt a ha; omega))
      have hlen1 : 1 ≤ nd.keyArgs.length := List.length_pos_of_ne_nil hne
      have hnall : ¬ NoCache h E n → ∀ a ∈ nd.keyArgs, ¬ NoCache h E a :=
        fun hx a ha hy => hx (hNC.mpr ⟨a, ha, hy⟩)
      have hnc' : ¬ AllConst h E n → ∃ a ∈ nd.keyArgs, ¬ AllConst h E a := by
        intro hx
        rw [hAC] at hx
        simpa only [not_forall, exists_prop] using hx
      cases nd with
      | leaf dg kg => exact absurd rfl (hl' dg kg)
      | op F args ka =>
        have hpk' : ∀ i, pk h n i = catKeys (pk h) ka i := fun i => by rw [hpk]; rfl
        simp only [Node.keyArgs] at *
        refine ⟨?_, ?_, ?_, ?_, ?_, ?_⟩
        · intro hx
          obtain ⟨m, hm, hm'⟩ := hcf.const (hAC.mp hx)
          exact ⟨m, by omega, fun i hi => by rw [hpk', hm' i hi]⟩
        · intro hx i hi; rw [hpk']; exact hcf.nc (hNC.mp hx) i hi
        · intro hx i hi; rw [hpk']; exact hcf.only (hnall hx) i hi
        · intro hx i hi; rw [hpk']; exact hcf.count (hnall hx) i hi
        · intro hx hy i hi; rw [hpk']; exact hcf.strict (hnall hx) (hnc' hy) i hi
        · intro i hi j hj; rw [hpk', hpk']; exact hcf.pf i hi j hj
      | bmat F args =>
        have hpk' : ∀ i, pk h n i = if (bmatFlags (catKeys (pk h) args i)).isCT then CT
            else if (bmatFlags (catKeys (pk h) args i)).isNC then NC
            else catKeys (pk h) args i := fun i => by rw [hpk]; rfl
        simp only [Node.keyArgs] at *
        by_cases hx : NoCache h E n
        · have hval : ∀ i ∈ E, pk h n i = NC := by
            intro i hi
            rw [hpk', bmatFlags_nc (hcf.nc (hNC.mp hx) i hi)]
            rfl
          refine ⟨fun hy => absurd hx (allConst_not_noCache hE hy), fun _ i hi => ?_,
            fun hy => absurd hx hy, fun hy => absurd hx hy, fun hy => absurd hx hy, ?_⟩
          · rw [hval i hi]
          · intro i hi j hj _; rw [hval i hi, hval j hj]
        · have hnn := hnall hx
          by_cases hy : AllConst h E n
          · obtain ⟨m, hm, hm'⟩ := hcf.const (hAC.mp hy)
            have hval : ∃ k, 1 ≤ k ∧ ∀ i ∈ E, pk h n i = CTs k := by
              by_cases hct : (bmatFlags (CTs m)).isCT
              · exact ⟨1, le_rfl, fun i hi => by rw [hpk', hm' i hi, if_pos hct, CTs_one]⟩
              · refine ⟨m, by omega, fun i hi => ?_⟩
                rw [hpk', hm' i hi, if_neg hct, if_neg]
                rw [bmatFlags_noNC (not_NC_of_CTonly (CTonly_CTs m))]
                decide
            obtain ⟨k, hk, hk'⟩ := hval
            refine ⟨fun _ => ⟨k, hk, hk'⟩, fun hz => absurd hz hx, ?_, ?_,
              fun _ hz => absurd hy hz, ?_⟩
            · intro _ i hi; rw [hk' i hi]; exact CTonly_CTs k
            · intro _ i hi; rw [hk' i hi]; exact Nat.le_of_eq (count_CTs k)
            · intro i hi j hj _; rw [hk' i hi, hk' j hj]
          · have hval : ∀ i ∈ E, pk h n i = catKeys (pk h) args i := by
              intro i hi
              rw [hpk', bmatFlags_keyed (not_NC_of_CTonly (hcf.only hnn i hi))
                (not_isCTs_of_strict (hcf.strict hnn (hnc' hy) i hi))]
              rfl
            refine ⟨fun hz => absurd hz hy, fun hz => absurd hz hx, ?_, ?_, ?_, ?_⟩
            · intro _ i hi; rw [hval i hi]; exact hcf.only hnn i hi
            · intro _ i hi; rw [hval i hi]; exact hcf.count hnn i hi
            · intro _ _ i hi; rw [hval i hi]; exact hcf.strict hnn (hnc' hy) i hi
            · intro i hi j hj; rw [hval i hi, hval j hj]; exact hcf.pf i hi j hj

/-! ### Data facts: equal keys, equal data -/

/-- Customizations that do not disturb the caches: an object that is an operand of a cached object
has none. -/
def CustOK {β : Type} (h : Heap β) (E : List Nat) (cu : Nat → Nat → β → β) : Prop :=
  ∀ n (nd : Node β), h[n]? = some nd → ¬ NoCache h E n → ∀ a ∈ nd.args, ∀ i b, cu a i b = b

theorem catKeys_inj {β : Type} {h : Heap β} {E : List Nat} :
    ∀ {as : List Nat}, (∀ a ∈ as, KeyFacts h E a) → ∀ {i j : Nat}, i ∈ E → j ∈ E →
      catKeys (pk h) as i = catKeys (pk h) as j → ∀ a ∈ as, pk h a i = pk h a j := by
  intro as
  induction as with
  | nil => intro _ i j _ _ _ a ha; simp at ha
  | cons b bs ih =>
    intro hk i j hi hj he a ha
    rw [catKeys_cons, catKeys_cons] at he
    have hb := (hk b (by simp)).pf
    have hpre : pk h b i ++ catKeys (pk h) bs i <+: pk h b j ++ catKeys (pk h) bs j := by rw [he]
    have h1 := (prefix_split hpre (hb i hi j hj) (hb j hj i hi)).1
    have h2 := List.append_cancel_left (h1 ▸ he)
    rcases List.mem_cons.mp ha with rfl | ha
    · exact h1
    · exact ih (fun c hc => hk c (by simp [hc])) hi hj h2 a ha

theorem dataFacts {β : Type} [Inhabited β] {h : Heap β} {E : List Nat} (hg : GoodHeap h E)
    (hE : E ≠ []) {cu : Nat → Nat → β → β} (hcu : CustOK h E cu) :
    ∀ n < h.length, ∀ i ∈ E, ∀ j ∈ E, ¬ NoCache h E n → pk h n i = pk h n j →
      den h cu n i = den h cu n j := by
  have hkf := keyFacts hg hE
  obtain ⟨hw, hleaf, hnode⟩ := hg
  intro n
  induction n using Nat.strong_induction_on with
  | _ n ih =>
    intro hn i hi j hj hnc hpe
    obtain ⟨nd, hnd⟩ : ∃ nd, h[n]? = some nd := ⟨_, List.getElem?_eq_getElem hn⟩
    have hpk := pk_eq hw hnd
    have hden := den_eq hw cu hnd
    have hlt : ∀ a ∈ nd.args, a < n := fun a ha => hw n nd hnd a (List.mem_append_left _ ha)
    have hlt' : ∀ a ∈ nd.keyArgs, a < n := fun a ha => hw n nd hnd a (List.mem_append_right _ ha)
    have hid := hcu n nd hnd hnc
    -- constant operands
    have hconst : ∀ a ∈ nd.args, AllConst h E a → den h cu a i = den h cu a j := by
      intro a ha hac
      have hal : a < h.length := by have := hlt a ha; omega
      obtain ⟨m, -, hm⟩ := (hkf a hal).const hac
      exact ih a (hlt a ha) hal i hi j hj (allConst_not_noCache hE hac) (by rw [hm i hi, hm j hj])
    have key : (∀ a ∈ nd.keyArgs, ¬ NoCache h E a) →
        ((∀ a ∈ nd.keyArgs, AllConst h E a) ∨ ∀ a ∈ nd.keyArgs, pk h a i = pk h a j) →
        (∀ a ∈ nd.args, a ∈ nd.keyArgs ∨ AllConst h E a) →
        ∀ a ∈ nd.args, den h cu a i = den h cu a j := by
      intro hnn hcase hsub a ha
      rcases hsub a ha with hka | hac
      · rcases hcase with hall | hkeys
        · exact hconst a ha (hall a hka)
        · exact ih a (hlt a ha) (by have := hlt a ha; omega) i hi j hj (hnn a hka) (hkeys a hka)
      · exact hconst a ha hac
    cases nd with
    | leaf dg kg =>
      rw [hden]
      simp only [denStep]
      have hpk' : ∀ i, pk h n i = kg i := fun i => by rw [hpk]; rfl
      rcases hleaf n dg kg hnd with ⟨-, hd⟩ | hnc' | ⟨-, -, hd⟩
      · exact hd i hi j hj
      · exact absurd (.leaf hnd hnc') hnc
      · exact hd i hi j hj (by rw [← hpk', ← hpk', hpe])
    | op F args ka =>
      obtain ⟨hne, hsub⟩ := hnode n _ hnd (by simp)
      have hsub' := hsub.resolve_left hnc
      have hnn : ∀ a ∈ ka, ¬ NoCache h E a := fun a ha hx => hnc (.node hnd ha hx)
      have hkeys := catKeys_inj (as := ka) (fun a ha => hkf a (by have := hlt' a ha; omega)) hi hj
        (by rw [hpk] at hpe; exact hpe)
      have hd := key hnn (Or.inr hkeys) hsub'
      rw [hden]
      simp only [denStep]
      congr 1
      apply List.map_congr_left
      intro a ha
      rw [hid a ha, hid a ha, hd a ha]
    | bmat F args =>
      obtain ⟨hne, hsub⟩ := hnode n _ hnd (by simp)
      have hsub' := hsub.resolve_left hnc
      have hnn : ∀ a ∈ args, ¬ NoCache h E a := fun a ha hx => hnc (.node hnd ha hx)
      have hkf' : ∀ a ∈ args, KeyFacts h E a := fun a ha => hkf a (by have := hlt' a ha; omega)
      have hcf := catFacts hkf'
      have hcase : (∀ a ∈ args, AllConst h E a) ∨ ∀ a ∈ args, pk h a i = pk h a j := by
        by_cases hall : ∀ a ∈ args, AllConst h E a
        · exact Or.inl hall
        · right
          have hex : ∃ a ∈ args, ¬ AllConst h E a := by
            simpa only [not_forall, exists_prop] using hall
          have hval : ∀ i ∈ E, pk h n i = catKeys (pk h) args i := by
            intro i hi
            rw [hpk]
            simp only [pkStep]
            rw [bmatFlags_keyed (not_NC_of_CTonly (hcf.only hnn i hi))
              (not_isCTs_of_strict (hcf.strict hnn hex i hi))]
            rfl
          rw [hval i hi, hval j hj] at hpe
          exact catKeys_inj hkf' hi hj hpe
      have hd := key hnn hcase hsub'
      rw [hden]
      simp only [denStep]
      congr 1
      apply List.map_congr_left
      intro a ha
      rw [hid a ha, hid a ha, hd a ha]

theorem honest_of_good {β : Type} [Inhabited β] {h : Heap β} {E : List Nat} (hg : GoodHeap h E)
    (hE : E ≠ []) {cu : Nat → Nat → β → β} (hcu : CustOK h E cu) {n : Nat} (hn : n < h.length) :
    Honest E (den h cu n) (pk h n) (NoCache h E n) := by
  have hk := keyFacts hg hE n hn
  have hd := dataFacts hg hE hcu n hn
  refine ⟨hk.nc, fun hx i hi => not_isCTs_of_NC (hk.nc hx i hi),
    fun hx i hi j hj he _ => hd i hi j hj hx he, ?_⟩
  intro hx i hi hct j hj
  have hac : AllConst h E n := by
    by_contra hac
    exact not_isCTs_of_strict (hk.strict hx hac i hi) hct
  obtain ⟨m, -, hm⟩ := hk.const hac
  exact hd j hj i hi hx (by rw [hm i hi, hm j hj])

/-- Values of cached objects do not change when customizations are added elsewhere. -/
theorem den_stable {β : Type} [Inhabited β] {h : Heap β} {E : List Nat} (hg : GoodHeap h E)
    (hE : E ≠ []) {cu cu' : Nat → Nat → β → β} (hcu : CustOK h E cu) (hcu' : CustOK h E cu') :
    ∀ n < h.length, ¬ NoCache h E n → den h cu n = den h cu' n := by
  obtain ⟨hw, hleaf, hnode⟩ := hg
  intro n
  induction n using Nat.strong_induction_on with
  | _ n ih =>
    intro hn hnc
    obtain ⟨nd, hnd⟩ : ∃ nd, h[n]? = some nd := ⟨_, List.getElem?_eq_getElem hn⟩
    have hlt : ∀ a ∈ nd.args, a < n := fun a ha => hw n nd hnd a (List.mem_append_left _ ha)
    have hsubden : (∀ dg kg, nd ≠ Node.leaf dg kg) → ∀ a ∈ nd.args, den h cu a = den h cu' a := by
      intro hl a ha
      refine ih a (hlt a ha) (by have := hlt a ha; omega) ?_
      rcases (hnode n nd hnd hl).2.resolve_left hnc a ha with hka | hac
      · exact fun hx => hnc (.node hnd hka hx)
      · exact allConst_not_noCache hE hac
    rw [den_eq hw cu hnd, den_eq hw cu' hnd]
    funext i
    have hid := hcu n nd hnd hnc
    have hid' := hcu' n nd hnd hnc
    cases nd with
    | leaf dg kg => rfl
    | op F args ka =>
      simp only [denStep]
      congr 1
      apply List.map_congr_left
      intro a ha
      rw [hid a ha, hid' a ha, hsubden (by simp) a ha]
    | bmat F args =>
      simp only [denStep]
      congr 1
      apply List.map_congr_left
      intro a ha
      rw [hid a ha, hid' a ha, hsubden (by simp) a ha]

/-! ### Keys with state -/

/-- Key generators of `bmat` objects are fresh or carry the flags of their first call. -/
def KInv {β : Type} (h : Heap β) (E : List Nat) (k : Nat → KGState) : Prop :=
  ∀ n f args, h[n]? = some (.bmat f args) → (k n).check = true ∨
    ∃ i ∈ E, k n = bmatFlags (catKeys (pk h) args i)

theorem bmatFlags_check (key : Key) : (bmatFlags key).check = false := by
  unfold bmatFlags; split
  · rfl
  · split <;> rfl

theorem keyAll_spec {β : Type} {h : Heap β} {E : List Nat} {i : Nat}
    {key : Nat → (Nat → KGState) → Option (Key × (Nat → KGState))} :
    ∀ {as : List Nat}, (∀ a ∈ as, ∀ k, KInv h E k → ∃ k', key a k = some (pk h a i, k') ∧
        KInv h E k') →
      ∀ k, KInv h E k → ∃ k', keyAll key as k = some (catKeys (pk h) as i, k') ∧ KInv h E k' := by
  intro as
  induction as with
  | nil => intro _ k hk; exact ⟨k, rfl, hk⟩
  | cons a as ih =>
    intro hs k hk
    obtain ⟨k1, h1, hk1⟩ := hs a (by simp) k hk
    obtain ⟨k2, h2, hk2⟩ := ih (fun b hb => hs b (by simp [hb])) k1 hk1
    refine ⟨k2, ?_, hk2⟩
    simp only [keyAll, h1, h2, catKeys_cons]

theorem keyF_spec {β : Type} {h : Heap β} {E : List Nat} (hg : GoodHeap h E) (hE : E ≠ []) {i : Nat}
    (hi : i ∈ E) : ∀ fuel n, n < fuel → n < h.length → ∀ k, KInv h E k →
      ∃ k', keyF h fuel n i k = some (pk h n i, k') ∧ KInv h E k' := by
  have hkf := keyFacts hg hE
  obtain ⟨hw, hleaf, hnode⟩ := hg
  intro fuel
  induction fuel with
  | zero => intro n hn; omega
  | succ fuel ih =>
    intro n hf hn k hk
    obtain ⟨nd, hnd⟩ : ∃ nd, h[n]? = some nd := ⟨_, List.getElem?_eq_getElem hn⟩
    have hpk := pk_eq hw hnd
    have hlt : ∀ a ∈ nd.keyArgs, a < n := fun a ha => hw n nd hnd a (List.mem_append_right _ ha)
    have hsub : ∀ a ∈ nd.keyArgs, ∀ k, KInv h E k → ∃ k', keyF h fuel a i k = some (pk h a i, k') ∧
        KInv h E k' := by
      intro a ha
      have := hlt a ha
      exact ih a (by omega) (by omega)
    cases nd with
    | leaf dg kg => exact ⟨k, by simp only [keyF, hnd, hpk, pkStep], hk⟩
    | op F args ka =>
      obtain ⟨k', h1, h2⟩ := keyAll_spec (key := fun a k => keyF h fuel a i k) hsub k hk
      simp only [Node.keyArgs] at h1
      exact ⟨k', by simp only [keyF, hnd, hpk, pkStep, h1], h2⟩
    | bmat F args =>
      have hcf : CatFacts h E args := catFacts (fun a ha => hkf a (by have := hlt a ha; omega))
      -- after the check the flags are those of element `i`
      have hk1 : ∃ k1, bmatCheck (fun a k => keyF h fuel a i k) n args k = some k1 ∧ k1 n = bmatFlags (catKeys (pk h) args i) ∧ KInv h E k1 := by
        unfold bmatCheck
        by_cases hc : (k n).check = true
        · rw [if_pos hc]
          obtain ⟨k', h1, h2⟩ := keyAll_spec (as := args) (key := fun a k => keyF h fuel a i k) hsub
            k hk
          rw [h1]
          refine ⟨_, rfl, by simp, ?_⟩
          intro m f as hm
          by_cases hmn : m = n
          · subst hmn
            rw [hnd] at hm
            simp only [Option.some.injEq, Node.bmat.injEq] at hm
            obtain ⟨rfl, rfl⟩ := hm
            exact Or.inr ⟨i, hi, by simp⟩
          · simp only [if_neg hmn]
            exact h2 m f as hm
        · rw [if_neg hc]
          refine ⟨k, rfl, ?_, hk⟩
          rcases hk n F args hnd with h1 | ⟨j, hj, h1⟩
          · exact absurd h1 hc
          · rw [h1]; exact bmatFlags_indep hcf hj hi
      obtain ⟨k1, he, hfl, hk1⟩ := hk1
      have hgoal : keyF h (fuel + 1) n i k = (if (k1 n).isCT then some (CT, k1)
        else if (k1 n).isNC then some (NC, k1)
        else keyAll (fun a k => keyF h fuel a i k) args k1) := by
        rw [keyF]
        simp only [hnd]
        rw [he]
      rw [hgoal, hfl, hpk]
      simp only [pkStep]
      split
      · exact ⟨k1, rfl, hk1⟩
      · split
        · exact ⟨k1, rfl, hk1⟩
        · exact keyAll_spec (key := fun a k => keyF h fuel a i k) hsub k1 hk1

/-! ### Reading -/

/-- Invariant of the whole state below index `N` (objects at or above `N` are being read). -/
structure GInv {β : Type} [Inhabited β] (h : Heap β) (E : List Nat) (cu : Nat → Nat → β → β)
    (N : Nat) (s : St β) : Prop where
  k : KInv h E s.k
  cust : s.cust = cu
  c : ∀ m < h.length, m < N → NInv E (den h cu m) (pk h m) (NoCache h E m) (s.c m)

theorem readAll_spec {β : Type} [Inhabited β] {I : St β → Prop} {read : Nat → St β → Option (β × St β)} {val : Nat → β}
    {n : Nat} : ∀ {as : List Nat}, (∀ a ∈ as, ∀ s, I s → ∃ s', read a s = some (val a, s') ∧ I s' ∧
        (∀ m, n ≤ m → s'.c m = s.c m) ∧ s'.cust = s.cust) →
      ∀ s, I s → ∃ s', readAll read as s = some (as.map val, s') ∧ I s' ∧
        (∀ m, n ≤ m → s'.c m = s.c m) ∧ s'.cust = s.cust := by
  intro as
  induction as with
  | nil => intro _ s hs; exact ⟨s, rfl, hs, fun _ _ => rfl, rfl⟩
  | cons a as ih =>
    intro hr s hs
    obtain ⟨s1, h1, h2, h3, h4⟩ := hr a (by simp) s hs
    obtain ⟨s2, g1, g2, g3, g4⟩ := ih (fun b hb => hr b (by simp [hb])) s1 h2
    refine ⟨s2, ?_, g2, fun m hm => by rw [g3 m hm, h3 m hm], by rw [g4, h4]⟩
    simp only [readAll, h1, g1, List.map_cons]

theorem getF_spec {β : Type} [Inhabited β] {h : Heap β} {E : List Nat} (hg : GoodHeap h E)
    (hE : E ≠ []) {cu : Nat → Nat → β → β} (hcu : CustOK h E cu) {i : Nat} (hi : i ∈ E) :
    ∀ fuel n, n < fuel → n < h.length → ∀ N, n < N → ∀ s, GInv h E cu N s →
      ∃ s', getF h E fuel n i s = some (cu n i (den h cu n i), s') ∧ GInv h E cu N s' ∧
        (∀ m, n < m → s'.c m = s.c m) ∧ s'.cust = s.cust := by
  intro fuel
  induction fuel with
  | zero => intro n hn; omega
  | succ fuel ih =>
    intro n hf hn N hN s hs
    have hw := hg.1
    obtain ⟨nd, hnd⟩ : ∃ nd, h[n]? = some nd := ⟨_, List.getElem?_eq_getElem hn⟩
    have hlt : ∀ a ∈ nd.args, a < n := fun a ha => hw n nd hnd a (List.mem_append_left _ ha)
    have hden := den_eq hw cu hnd
    -- reading the operands below `n`
    have hargs : ∀ s, GInv h E cu n s → ∃ s', readAll (fun a s => getF h E fuel a i s) nd.args s =
        some (nd.args.map (fun a => cu a i (den h cu a i)), s') ∧ GInv h E cu n s' ∧
        (∀ m, n ≤ m → s'.c m = s.c m) ∧ s'.cust = s.cust := by
      refine readAll_spec (fun a ha s hs => ?_)
      have hlta := hlt a ha
      obtain ⟨s', h1, h2, h3, h4⟩ := ih a (by omega) (by omega) n hlta s hs
      exact ⟨s', h1, h2, fun m hm => h3 m (by omega), h4⟩
    -- the data generator
    have hdg : ∀ s, GInv h E cu n s → ∃ s', dgOf (fun a s => getF h E fuel a i s) nd i s = some (den h cu n i, s') ∧ GInv h E cu n s' ∧
        s'.c n = s.c n ∧ (∀ m, n < m → s'.c m = s.c m) ∧ s'.cust = s.cust := by
      intro s hs
      rw [hden]
      cases nd with
      | leaf d kg => exact ⟨s, rfl, hs, rfl, fun _ _ => rfl, rfl⟩
      | op f args ka =>
        obtain ⟨s', h1, h2, h3, h4⟩ := hargs s hs
        simp only [Node.args] at h1
        refine ⟨s', ?_, h2, h3 n le_rfl, fun m hm => h3 m (by omega), h4⟩
        simp only [dgOf, h1, Option.map_some, denStep]
      | bmat f args =>
        obtain ⟨s', h1, h2, h3, h4⟩ := hargs s hs
        simp only [Node.args] at h1
        refine ⟨s', ?_, h2, h3 n le_rfl, fun m hm => h3 m (by omega), h4⟩
        simp only [dgOf, h1, Option.map_some, denStep]
    have hs' : GInv h E cu n s := ⟨hs.k, hs.cust, fun m hm hmn => hs.c m hm (by omega)⟩
    obtain ⟨s1, h1, h2, h3, h4, h5⟩ := preGet_spec (honest_of_good hg hE hcu hn) (n := n) hi
      (fun k => keyF h (fuel + 1) n i k) _ (KInv h E) (GInv h E cu n)
      (fun k hk => keyF_spec hg hE hi (fuel + 1) n hf hn k hk)
      (fun s c hs => ⟨hs.k, hs.cust, fun m hm hmn => by
        rw [setC_other _ _ (by omega)]; exact hs.c m hm hmn⟩)
      (fun s k' hs hk' => ⟨hk', hs.cust, hs.c⟩)
      (fun s hs => hs.k) hdg s hs' (hs.c n hn hN)
    refine ⟨s1, ?_, ⟨h2.k, h2.cust, ?_⟩, h4, h5⟩
    · rw [getF, if_pos hi]
      simp only [hnd]
      rw [h1]
      simp only [h2.cust]
    · intro m hm hmN
      rcases Nat.lt_trichotomy m n with hlt' | rfl | hgt
      · exact h2.c m hm hlt'
      · exact h3
      · rw [h4 m hgt]; exact hs.c m hm hmN

theorem GInv.init {β : Type} [Inhabited β] (h : Heap β) (E : List Nat) (N : Nat) :
    GInv h E (fun _ _ b => b) N (St.init : St β) :=
  ⟨fun _ _ _ _ => Or.inl rfl, rfl, fun _ _ _ => NInv.init _ _ _ _⟩

/-- Changing the customizations keeps the caches valid. -/
theorem GInv.change {β : Type} [Inhabited β] {h : Heap β} {E : List Nat} (hg : GoodHeap h E)
    (hE : E ≠ []) {cu cu' : Nat → Nat → β → β} (hcu : CustOK h E cu) (hcu' : CustOK h E cu')
    {s : St β} (hs : GInv h E cu h.length s) (s' : St β) (h1 : s'.k = s.k) (h2 : s'.c = s.c)
    (h3 : s'.cust = cu') : GInv h E cu' h.length s' := by
  refine ⟨by rw [h1]; exact hs.k, h3, fun m hm hmN => ?_⟩
  rw [h2]
  have h0 := hs.c m hm hmN
  by_cases hnc : NoCache h E m
  · exact ⟨fun hx => absurd hnc (h0.ct hx).1, h0.noct, h0.rep, fun hx => absurd hnc hx⟩
  · rw [← den_stable hg hE hcu hcu' m hm hnc]; exact h0

end Mifem.EWC
