import Verif.Model.SaveRead
import Verif.Props.Mesh
import Mathlib.Data.List.GetD
import Mathlib.Data.List.Nodup

/-!
# C79: what is read is what was saved
-/

namespace Mifem.Props

open Mifem.Save Mifem.Mesh

/-! ## Keys -/

theorem span_inj {α : Type} {p : α → Prop} {u u' r r' : List α} (hu : ∀ x ∈ u, p x) (hu' : ∀ x ∈ u', p x)
    (hr : ∀ x ∈ r.head?, ¬ p x) (hr' : ∀ x ∈ r'.head?, ¬ p x) (h : u ++ r = u' ++ r') : u = u' ∧ r = r' := by
  induction u generalizing u' with
  | nil =>
    cases u' with
    | nil => exact ⟨rfl, h⟩
    | cons b u' =>
      have : r = b :: (u' ++ r') := h
      exact absurd (hu' b List.mem_cons_self) (hr b (by rw [this]; rfl))
  | cons a u ih =>
    cases u' with
    | nil =>
      have : a :: (u ++ r) = r' := h
      exact absurd (hu a List.mem_cons_self) (hr' a (by rw [← this]; rfl))
    | cons b u' =>
      simp only [List.cons_append, List.cons.injEq] at h
      obtain ⟨e1, e2⟩ := ih (fun x hx => hu x (List.mem_cons_of_mem _ hx)) (fun x hx => hu' x (List.mem_cons_of_mem _ hx)) h.2
      exact ⟨by rw [h.1, e1], e2⟩

theorem digits_digit (n : ℕ) : ∀ c ∈ Nat.toDigits 10 n, c.isDigit = true := fun _ h =>
  Nat.isDigit_of_mem_toDigits (by omega) (by omega) h

theorem digits_inj {m n : ℕ} (e : Nat.toDigits 10 m = Nat.toDigits 10 n) : m = n := by
  have := congrArg (fun l => Nat.ofDigitChars 10 l 0) e
  simpa using this

theorem tail_inj : ∀ (l l' : List ℕ), l.length = l'.length →
    l.flatMap (fun b => ", ".toList ++ Nat.toDigits 10 b) ++ ")".toList
      = l'.flatMap (fun b => ", ".toList ++ Nat.toDigits 10 b) ++ ")".toList → l = l'
  | [], [], _, _ => rfl
  | [], _ :: _, h, _ => absurd h (by simp)
  | _ :: _, [], h, _ => absurd h (by simp)
  | a :: l, b :: l', h, e => by
    simp only [List.flatMap_cons, List.append_assoc] at e
    have e1 := List.append_cancel_left e
    have hd : ∀ l : List ℕ, ∀ x ∈ (l.flatMap (fun b => ", ".toList ++ Nat.toDigits 10 b) ++ ")".toList).head?,
        ¬ x.isDigit = true := by
      intro l x hx
      cases l with
      | nil => simp at hx; subst hx; decide
      | cons c l => simp at hx; subst hx; decide
    obtain ⟨e2, e3⟩ := span_inj (digits_digit a) (digits_digit b) (hd l) (hd l') e1
    rw [digits_inj e2, tail_inj l l' (by simpa using h) e3]

theorem strTuple_inj {l l' : List ℕ} (h : l.length = l'.length) (e : strTuple l = strTuple l') : l = l' := by
  match l, l', h, e with
  | [], [], _, _ => rfl
  | [a], [b], _, e =>
    simp only [strTuple, List.cons_append, List.cons.injEq, true_and] at e
    rw [digits_inj (List.append_cancel_right e)]
  | a :: b :: l, a' :: b' :: l', h, e =>
    simp only [strTuple, List.cons_append, List.cons.injEq, true_and, List.append_assoc] at e
    have := tail_inj (a :: b :: l) (a' :: b' :: l') h (by
      simp only [List.flatMap_cons, List.append_assoc] at e ⊢
      rw [e])
    exact this

theorem strTuple_no_eq (l : List ℕ) : '=' ∉ strTuple l := by
  have hd : ∀ n, '=' ∉ Nat.toDigits 10 n := fun n h => absurd (digits_digit n _ h) (by decide)
  match l with
  | [] => simp [strTuple]
  | [a] => simp [strTuple, hd]
  | a :: b :: l => simp [strTuple, hd]

theorem key_inj {names : List (List Char)} (hn : names.Nodup) {x y : ℕ × List ℕ} (hx : x.1 < names.length) (hy : y.1 < names.length)
    (hl : x.1 = y.1 → x.2.length = y.2.length) (h : key names x = key names y) : x = y := by
  unfold key at h
  have h' := congrArg List.reverse h
  simp only [List.reverse_append, List.append_assoc] at h'
  have ne : ∀ l : List ℕ, ∀ c ∈ (strTuple l).reverse, c ≠ '=' := by
    intro l c hc e
    subst e
    exact strTuple_no_eq l (List.mem_reverse.1 hc)
  obtain ⟨e1, e2⟩ := span_inj (p := fun c => c ≠ '=') (ne x.2) (ne y.2) (by simp) (by simp) h'
  have e3 := List.append_cancel_left e2
  have e4 : names.getD x.1 [] = names.getD y.1 [] := List.reverse_injective e3
  rw [List.getD_eq_getElem _ _ hx, List.getD_eq_getElem _ _ hy] at e4
  have e5 : x.1 = y.1 := (List.Nodup.getElem_inj_iff hn).1 e4
  have e6 := strTuple_inj (hl e5) (List.reverse_injective e1)
  exact Prod.ext e5 e6

/-! ## Cochains -/

theorem get_of_mem {κ γ : Type} [DecidableEq κ] {D : List (κ × γ)} {k : κ} {v : γ} (h : (k, v) ∈ D)
    (hu : ∀ v', (k, v') ∈ D → v' = v) : get D k = some v := by
  induction D with
  | nil => exact absurd h List.not_mem_nil
  | cons x D ih =>
    obtain ⟨k', v'⟩ := x
    simp only [Save.get]
    by_cases e : k' = k
    · subst e
      rw [if_pos rfl, hu v' List.mem_cons_self]
    · rw [if_neg e]
      refine ih ?_ fun v'' h' => hu v'' (List.mem_cons_of_mem _ h')
      rcases List.mem_cons.1 h with h | h
      · exact absurd (congrArg Prod.fst h).symm e
      · exact h

theorem mem_merge {κ γ : Type} (ds : List (List (κ × γ))) (x : κ × γ) : x ∈ merge ds ↔ x ∈ ds.flatten := by
  have : ∀ D, x ∈ ds.foldl (fun D d => d ++ D) D ↔ x ∈ D ∨ x ∈ ds.flatten := by
    induction ds with
    | nil => simp
    | cons d ds ih => intro D; rw [List.foldl_cons, ih]; simp; tauto
  unfold merge
  rw [this]
  simp

theorem coreKeys_eq {γ : Type} (names : List (List Char)) (M : List EArr) (place : ℕ → ℕ × List ℕ) (val : ℕ → γ) (es : List ℕ)
    (h : ∀ e ∈ es, find M e = some (place e)) :
    coreKeys names M (es.map fun e => (e, val e)) = some (es.map fun e => (e, key names (place e))) := by
  induction es with
  | nil => rfl
  | cons e es ih =>
    simp only [List.map_cons, coreKeys, h e List.mem_cons_self, Option.bind_some,
      ih fun e he => h e (List.mem_cons_of_mem _ he), Option.map_some]

theorem allKeys_eq {γ : Type} (names : List (List Char)) (M : List EArr) (place : ℕ → ℕ × List ℕ) (val : ℕ → γ) (ranks : List (List ℕ))
    (h : ∀ e ∈ ranks.flatten, find M e = some (place e)) :
    allKeys names M (ranks.map fun es => es.map fun e => (e, val e)) = some (ranks.map fun es => es.map fun e => (e, key names (place e))) := by
  induction ranks with
  | nil => rfl
  | cons es ranks ih =>
    rw [List.flatten_cons] at h
    simp only [List.map_cons, allKeys, coreKeys_eq names M place val es fun e he => h e (List.mem_append_left _ he), Option.bind_some,
      ih fun e he => h e (List.mem_append_right _ he), Option.map_some]

theorem merged_get {γ : Type} (F : ℕ → γ) (ranks : List (List ℕ)) (e : ℕ) (he : e ∈ ranks.flatten) :
    get (merge (ranks.map fun es => es.map fun e => (e, F e))) e = some (F e) := by
  have hm : ∀ x : ℕ × γ, x ∈ (ranks.map fun es => es.map fun e => (e, F e)).flatten ↔ x.1 ∈ ranks.flatten ∧ x.2 = F x.1 := by
    intro x
    simp only [List.mem_flatten, List.mem_map]
    constructor
    · rintro ⟨l, ⟨es, h1, rfl⟩, h2⟩
      obtain ⟨e, h3, rfl⟩ := List.mem_map.1 h2
      exact ⟨⟨es, h1, h3⟩, rfl⟩
    · rintro ⟨⟨es, h1, h2⟩, h3⟩
      exact ⟨_, ⟨es, h1, rfl⟩, List.mem_map.2 ⟨x.1, h2, Prod.ext rfl h3.symm⟩⟩
  refine get_of_mem ((mem_merge _ _).2 ((hm _).2 ⟨he, rfl⟩)) fun v' h' => ?_
  exact ((hm _).1 ((mem_merge _ _).1 h')).2

theorem regionWise_eq {γ : Type} (LOCAL : List (ℕ × γ)) (RID : List (ℕ × List Char)) (F : ℕ → γ) (K : ℕ → List Char) (n : ℕ)
    (h1 : ∀ e < n, get LOCAL e = some (F e)) (h2 : ∀ e < n, get RID e = some (K e)) :
    ∃ RW, regionWise LOCAL RID n = some RW ∧ ∀ x : List Char × γ, x ∈ RW ↔ ∃ e < n, x = (K e, F e) := by
  induction n with
  | zero => exact ⟨[], rfl, fun x => by simp⟩
  | succ n ih =>
    obtain ⟨RW, e, h⟩ := ih (fun e he => h1 e (by omega)) (fun e he => h2 e (by omega))
    refine ⟨(K n, F n) :: RW, by simp [regionWise, e, h1 n (by omega), h2 n (by omega)], fun x => ?_⟩
    rw [List.mem_cons, h]
    constructor
    · rintro (rfl | ⟨e, he, rfl⟩)
      · exact ⟨n, by omega, rfl⟩
      · exact ⟨e, by omega, rfl⟩
    · rintro ⟨e, he, rfl⟩
      rcases Nat.lt_succ_iff_lt_or_eq.1 he with he | rfl
      · exact .inr ⟨e, he, rfl⟩
      · exact .inl rfl

theorem isElement_layouts {regs regs' : List (Scheme × List ℕ)} (h : regs.map Prod.snd = regs'.map Prod.snd) (r : ℕ) (i : List ℕ) :
    IsElement regs r i ↔ IsElement regs' r i := by
  have hr : (regs[r]?).map Prod.snd = (regs'[r]?).map Prod.snd := by
    rw [← List.getElem?_map, ← List.getElem?_map, h]
  have one : ∀ {a b : List (Scheme × List ℕ)}, (a[r]?).map Prod.snd = (b[r]?).map Prod.snd → IsElement a r i → IsElement b r i := by
    rintro a b e ⟨x, h1, h2⟩
    rw [h1] at e
    obtain ⟨y, hy, hs⟩ := Option.map_eq_some_iff.1 e.symm
    exact ⟨y, hy, by rw [hs]; exact h2⟩
  exact ⟨one hr, one hr.symm⟩

/-- **C79.** A cochain saved on any number of cores and read on any number of cores, with any two element numberings of the
same regions and layouts, has the same values in the same elements. -/
theorem c79_cochain {γ : Type} (names : List (List Char)) (hn : names.Nodup) (junk junk' : List ℕ → ℕ)
    (regs regs' : List (Scheme × List ℕ)) (hsame : regs.map Prod.snd = regs'.map Prod.snd) (hlen : names.length = regs.length)
    (hregs : ∀ x ∈ regs, LayoutOK x.2) (M M' : List EArr) (hM : meshNumbering junk 0 regs = some M)
    (hM' : meshNumbering junk' 0 regs' = some M') (ranks ranks' : List (List ℕ))
    (hr : ∀ e, e ∈ ranks.flatten ↔ e < elementCount regs) (hr' : ∀ e ∈ ranks'.flatten, e < elementCount regs') (val : ℕ → γ) :
    ∃ RW, gather names M (elementCount regs) (some (ranks.map fun es => es.map fun e => (e, val e))) = some RW ∧
      ∀ es ∈ ranks', ∃ loc, distribute names M' RW es = some loc ∧ loc.map Prod.fst = es ∧
        ∀ r i e e', IsElement regs r i → numberOf M r i = some e → numberOf M' r i = some e' → e' ∈ es →
          get loc e' = some (val e) := by
  have hregs' : ∀ x ∈ regs', LayoutOK x.2 := by
    intro x hx
    have : x.2 ∈ regs.map Prod.snd := by rw [hsame]; exact List.mem_map_of_mem hx
    obtain ⟨y, hy, e⟩ := List.mem_map.1 this
    rw [← e]; exact hregs y hy
  obtain ⟨M0, h0, -, hnum, huniq, hfind, -⟩ := c35_element_numbering junk regs hregs
  rw [hM] at h0
  obtain rfl := Option.some.inj h0
  obtain ⟨M1, h0', -, hnum', huniq', hfind', -⟩ := c35_element_numbering junk' regs' hregs'
  rw [hM'] at h0'
  obtain rfl := Option.some.inj h0'
  -- the place of every element
  have hpl : ∀ e, ∃ x : ℕ × List ℕ, e < elementCount regs → IsElement regs x.1 x.2 ∧ numberOf M x.1 x.2 = some e := by
    intro e
    by_cases he : e < elementCount regs
    · obtain ⟨x, hx, -⟩ := huniq e he
      exact ⟨x, fun _ => hx⟩
    · exact ⟨(0, []), fun h => absurd h he⟩
  choose place hplace using hpl
  have hfp : ∀ e ∈ ranks.flatten, find M e = some (place e) := by
    intro e he
    have := hplace e ((hr e).1 he)
    exact (hfind e _ _).2 this
  have hlt : ∀ {r i}, IsElement regs r i → r < names.length := by
    rintro r i ⟨x, hx, -⟩
    rw [hlen]
    exact (List.getElem?_eq_some_iff.1 hx).1
  have hlen2 : ∀ {r i k}, IsElement regs r i → IsElement regs r k → i.length = k.length := by
    rintro r i k ⟨x, hx, h1, -⟩ ⟨y, hy, h2, -⟩
    rw [hx] at hy
    rw [← Option.some.inj hy] at h2
    rw [h1, h2]
  obtain ⟨RW, hRW, hmem⟩ := regionWise_eq (merge (ranks.map fun es => es.map fun e => (e, val e)))
    (merge (ranks.map fun es => es.map fun e => (e, key names (place e)))) val (fun e => key names (place e)) (elementCount regs)
    (fun e he => merged_get val ranks e ((hr e).2 he)) (fun e he => merged_get (fun e => key names (place e)) ranks e ((hr e).2 he))
  have hget : ∀ r i e, IsElement regs r i → numberOf M r i = some e → get RW (key names (r, i)) = some (val e) := by
    intro r i e hi he
    obtain ⟨e0, he0, hne⟩ := hnum r i hi
    rw [he] at hne
    obtain rfl := Option.some.inj hne
    have hp : place e = (r, i) := (huniq e he0).unique (hplace e he0) ⟨hi, he⟩
    refine get_of_mem ((hmem _).2 ⟨e, he0, by rw [hp]⟩) fun v' hv => ?_
    obtain ⟨e', he', h'⟩ := (hmem _).1 hv
    have hk := (Prod.mk.inj h').1
    have hx := key_inj hn (hlt hi) (hlt (hplace e' he').1) (fun h1 => by
      have := (hplace e' he').1
      simp only at h1
      rw [← h1] at this
      exact hlen2 hi this) hk
    have : e' = e := by
      have h2 := (hplace e' he').2
      rw [← hx, he] at h2
      exact (Option.some.inj h2).symm
    rw [(Prod.mk.inj h').2, this]
  refine ⟨RW, by simp only [gather, Option.bind_some, allKeys_eq names M place val ranks hfp, hRW], ?_⟩
  intro es hes
  have hes' : ∀ e' ∈ es, ∃ r i e, IsElement regs r i ∧ numberOf M r i = some e ∧ numberOf M' r i = some e' ∧ find M' e' = some (r, i) := by
    intro e' he'
    obtain ⟨x, ⟨hx1, hx2⟩, -⟩ := huniq' e' (hr' e' (List.mem_flatten.2 ⟨es, hes, he'⟩))
    have hx3 := (isElement_layouts hsame x.1 x.2).2 hx1
    obtain ⟨e, -, he⟩ := hnum x.1 x.2 hx3
    exact ⟨x.1, x.2, e, hx3, he, hx2, (hfind' e' x.1 x.2).2 ⟨hx1, hx2⟩⟩
  clear hes
  have main : ∃ loc, distribute names M' RW es = some loc ∧ loc.map Prod.fst = es ∧
      ∀ e' v, (e', v) ∈ loc → ∀ r i e, IsElement regs r i → numberOf M r i = some e → numberOf M' r i = some e' → v = val e := by
    induction es with
    | nil => exact ⟨[], rfl, rfl, fun e' v h => absurd h List.not_mem_nil⟩
    | cons a es ih =>
      obtain ⟨loc, l1, l2, l3⟩ := ih fun e' he' => hes' e' (List.mem_cons_of_mem _ he')
      obtain ⟨r, i, e, hi, he, he', hf⟩ := hes' a List.mem_cons_self
      refine ⟨(a, val e) :: loc, by simp [distribute, hf, hget r i e hi he, l1], by simp [l2], ?_⟩
      intro e' v hv r' i' e2 hi' he2 he2'
      rcases List.mem_cons.1 hv with hv | hv
      · obtain ⟨rfl, rfl⟩ := Prod.mk.inj hv
        have h1 := (hfind' e' r' i').2 ⟨(isElement_layouts hsame r' i').1 hi', he2'⟩
        rw [hf] at h1
        obtain ⟨rfl, rfl⟩ := Prod.mk.inj (Option.some.inj h1)
        rw [he] at he2
        rw [Option.some.inj he2]
      · exact l3 e' v hv r' i' e2 hi' he2 he2'
  obtain ⟨loc, l1, l2, l3⟩ := main
  refine ⟨loc, l1, l2, fun r i e e' hi he he' hmem' => ?_⟩
  have : e' ∈ loc.map Prod.fst := by rw [l2]; exact hmem'
  obtain ⟨⟨e'', v⟩, hv, rfl⟩ := List.mem_map.1 this
  obtain rfl := l3 _ _ hv r i e hi he he'
  exact get_of_mem hv fun v' hv' => l3 _ _ hv' r i e hi he he'

/-- A form without cochain cannot be saved. -/
theorem c79_no_cochain {γ : Type} (names : List (List Char)) (M : List EArr) (n : ℕ) :
    gather names M n (none : Option (List (List (ℕ × γ)))) = none := rfl

/-- Example: a mesh of two regions, numbered in two ways; saved from two cores, read on three. -/
example (junk : List ℕ → ℕ) (M M' : List EArr) (hM : meshNumbering junk 0 [(.plainF, [2, 1]), (.plainF, [2, 2])] = some M)
    (hM' : meshNumbering junk 0 [(.plainC, [2, 1]), (.plainC, [2, 2])] = some M') :
    ∃ RW, gather ["A".toList, "B=|=".toList] M 6 (some ([[4, 0, 2], [1, 3, 5]].map fun es => es.map fun e => (e, e * e))) = some RW ∧
      ∀ es ∈ [[0], [1, 2], [5, 4, 3]], ∃ loc, distribute ["A".toList, "B=|=".toList] M' RW es = some loc ∧ loc.map Prod.fst = es := by
  obtain ⟨RW, h1, h2⟩ := c79_cochain ["A".toList, "B=|=".toList] (by decide) junk junk [(.plainF, [2, 1]), (.plainF, [2, 2])]
    [(.plainC, [2, 1]), (.plainC, [2, 2])] rfl rfl (by intro x hx; simp at hx; rcases hx with rfl | rfl <;> exact ⟨by decide, by decide⟩) M M' hM hM'
    [[4, 0, 2], [1, 3, 5]] [[0], [1, 2], [5, 4, 3]]
    (by intro e; simp [elementCount]; omega) (by intro e; simp [elementCount]; omega) (fun e => e * e)
  exact ⟨RW, h1, fun es hes => let ⟨loc, h3, h4, _⟩ := h2 es hes; ⟨loc, h3, h4⟩⟩

/-! ## Lists of objects -/

/-- the address of an object. -/
def addr {ι : Type} : UObj ι → ℕ
  | .mesh a => a
  | .space a => a
  | .form a _ => a

/-- What a user expects for an entry: the same kind of object with the same parameters, if the flag is set. -/
def Restored {P ι : Type} (par : Ptr → P) : UObj ι × Bool → ROb P ι → Prop
  | (_, false), r => r = .skipped
  | (.mesh a, true), r => ∃ o, r = .mesh o ∧ o.par = par (a, false)
  | (.space a, true), r => ∃ o, r = .space o ∧ o.par = par (a, true)
  | (.form a info, true), r => ∃ m s, r = .form m s info ∧ m.par = par (a, false) ∧ s.par = par (a, true)

/-- The cached object has the parameters that its tag was made from. -/
def CacheOK {P T : Type} (tag : P → T) (c : Option (T × Obj P)) : Prop := ∀ t o, c = some (t, o) → t = tag o.par

theorem restore_ok {P T : Type} [DecidableEq T] (tag : P → T) (htag : Function.Injective tag) (empty : T) (dicts : Ptr → Option P)
    (c : Option (T × Obj P)) (hc : CacheOK tag c) (n : ℕ) (p : Ptr) (x : P) (hx : dicts p = some x) :
    ∃ o c' d n', restore tag empty dicts c n p = some (o, c', d, n') ∧ o.par = x ∧ c' = some (tag x, o) ∧ ∀ q, q ≠ p → d q = dicts q := by
  have mk : ∃ o c' d n', (some (⟨n, x⟩, some (tag x, ⟨n, x⟩), Function.update dicts p none, n + 1) :
      Option (Obj P × Option (T × Obj P) × (Ptr → Option P) × ℕ)) = some (o, c', d, n') ∧ o.par = x ∧ c' = some (tag x, o) ∧ ∀ q, q ≠ p → d q = dicts q :=
    ⟨⟨n, x⟩, _, _, _, rfl, rfl, rfl, fun q hq => Function.update_of_ne hq _ _⟩
  unfold restore
  simp only [hx]
  match c, hc with
  | none, _ => exact mk
  | some (t', o), hc =>
    have ht := hc t' o rfl
    by_cases h : tag x = t'
    · have hp : o.par = x := (htag (h.trans ht)).symm
      exact ⟨o, _, _, _, if_pos h, hp, by rw [h], fun q _ => rfl⟩
    · simp only [if_neg h]
      exact mk

theorem cacheOK_some {P T : Type} (tag : P → T) (o : Obj P) (x : P) (h : o.par = x) : CacheOK tag (some (tag x, o)) := by
  intro t o' e
  obtain ⟨rfl, rfl⟩ := Prod.mk.inj (Option.some.inj e)
  rw [h]

theorem readOne_ok {P T ι : Type} [DecidableEq T] (tag : P → T) (htag : Function.Injective tag) (empty : T) (par : Ptr → P)
    (s : Session P T) (hm : CacheOK tag s.mesh) (hs : CacheOK tag s.space) (o : UObj ι) (hd : ∀ b, s.dicts (addr o, b) = some (par (addr o, b))) :
    ∃ s' r, readOne tag empty s o = some (s', r) ∧ Restored par (o, true) r ∧ CacheOK tag s'.mesh ∧ CacheOK tag s'.space ∧
      ∀ p : Ptr, p.1 ≠ addr o → s'.dicts p = s.dicts p := by
  cases o with
  | mesh a =>
    obtain ⟨o, c', d, n', h1, h2, h3, h4⟩ := restore_ok tag htag empty s.dicts s.mesh hm s.next (a, false) _ (hd false)
    refine ⟨⟨d, c', s.space, n'⟩, .mesh o, by simp [readOne, h1], ⟨o, rfl, h2⟩, ?_, hs, fun p hp => h4 p fun e => hp (by rw [e]; rfl)⟩
    rw [h3]; exact cacheOK_some tag o _ h2
  | space a =>
    obtain ⟨o, c', d, n', h1, h2, h3, h4⟩ := restore_ok tag htag empty s.dicts s.space hs s.next (a, true) _ (hd true)
    refine ⟨⟨d, s.mesh, c', n'⟩, .space o, by simp [readOne, h1], ⟨o, rfl, h2⟩, hm, ?_, fun p hp => h4 p fun e => hp (by rw [e]; rfl)⟩
    rw [h3]; exact cacheOK_some tag o _ h2
  | form a info =>
    obtain ⟨o, c', d, n', h1, h2, h3, h4⟩ := restore_ok tag htag empty s.dicts s.space hs s.next (a, true) _ (hd true)
    have hd' : d (a, false) = some (par (a, false)) := (h4 (a, false) (by simp)).trans (hd false)
    obtain ⟨o2, c2, d2, n2, k1, k2, k3, k4⟩ := restore_ok tag htag empty d s.mesh hm n' (a, false) _ hd'
    refine ⟨⟨d2, c2, c', n2⟩, .form o2 o info, by simp [readOne, h1, k1], ⟨o2, o, rfl, k2, h2⟩, ?_, ?_, fun p hp => ?_⟩
    · rw [k3]; exact cacheOK_some tag o2 _ k2
    · rw [h3]; exact cacheOK_some tag o _ h2
    · exact (k4 p fun e => hp (by rw [e]; rfl)).trans (h4 p fun e => hp (by rw [e]; rfl))

theorem readAll_ok {P T ι : Type} [DecidableEq T] (tag : P → T) (htag : Function.Injective tag) (empty : T) (par : Ptr → P)
    (l : List (UObj ι × Bool)) : ∀ (s : Session P T), CacheOK tag s.mesh → CacheOK tag s.space → (l.map fun x => addr x.1).Nodup →
    (∀ x ∈ l, ∀ b, s.dicts (addr x.1, b) = some (par (addr x.1, b))) →
    ∃ s' rs, readAll tag empty s l = some (s', rs) ∧ List.Forall₂ (Restored par) l rs ∧ CacheOK tag s'.mesh ∧ CacheOK tag s'.space := by
  induction l with
  | nil => exact fun s hm hs _ _ => ⟨s, [], rfl, .nil, hm, hs⟩
  | cons x l ih =>
    intro s hm hs hn hd
    obtain ⟨o, b⟩ := x
    rw [List.map_cons, List.nodup_cons] at hn
    cases b with
    | false =>
      obtain ⟨s', rs, h1, h2, h3, h4⟩ := ih s hm hs hn.2 fun x hx => hd x (List.mem_cons_of_mem _ hx)
      exact ⟨s', .skipped :: rs, by simp [readAll, h1], .cons (by simp [Restored]) h2, h3, h4⟩
    | true =>
      obtain ⟨s1, r, k1, k2, k3, k4, k5⟩ := readOne_ok tag htag empty par s hm hs o (hd _ List.mem_cons_self)
      obtain ⟨s', rs, h1, h2, h3, h4⟩ := ih s1 k3 k4 hn.2 fun x hx b => by
        rw [k5]
        · exact hd x (List.mem_cons_of_mem _ hx) b
        · intro e
          exact hn.1 (List.mem_map.2 ⟨x, hx, e⟩)
      exact ⟨s', r :: rs, by simp [readAll, k1, h1], .cons k2 h2, h3, h4⟩

/-- **C79** (partial: the objects must be different ones, and the texts of different parameters different; see `c79_twice_false`
and `c79_tags_false`).  A list comes back in its order, each object of its kind with its parameters and the rest of its
data, objects not asked for are skipped; after that the session is as good as before. -/
theorem c79_list_partial {P T ι : Type} [DecidableEq T] (tag : P → T) (htag : Function.Injective tag) (empty : T) (par : Ptr → P)
    (s : Session P T) (hm : CacheOK tag s.mesh) (hs : CacheOK tag s.space) (objs : List (UObj ι)) (hn : (objs.map addr).Nodup)
    (flags : Option (List Bool)) (hf : ∀ fl, flags = some fl → fl.length = objs.length) :
    ∃ s' rs, read tag empty s par objs flags = some (s', rs) ∧
      List.Forall₂ (Restored par) (objs.zip (flags.getD (List.replicate objs.length true))) rs ∧ CacheOK tag s'.mesh ∧ CacheOK tag s'.space := by
  have hz : ∀ fl : List Bool, fl.length = objs.length → ((objs.zip fl).map fun x => addr x.1) = objs.map addr := by
    intro fl h
    have : (objs.zip fl).map Prod.fst = objs := List.map_fst_zip (by omega)
    have e : ((objs.zip fl).map fun x => addr x.1) = ((objs.zip fl).map Prod.fst).map addr := by rw [List.map_map]; rfl
    rw [e, this]
  cases flags with
  | none =>
    have e : (objs.map fun o => (o, true)) = objs.zip (List.replicate objs.length true) := by
      clear hn hf hz
      induction objs with
      | nil => rfl
      | cons o objs ih => simp [List.replicate_succ, ih]
    simp only [Save.read, Option.getD_none, e]
    exact readAll_ok tag htag empty par _ _ hm hs (by rw [hz _ (by simp)]; exact hn) fun _ _ _ => rfl
  | some fl =>
    have hl := hf fl rfl
    simp only [Save.read, Option.getD_some, if_pos hl]
    exact readAll_ok tag htag empty par _ _ hm hs (by rw [hz _ hl]; exact hn) fun _ _ _ => rfl

/-- Flags of another length are refused. -/
theorem c79_flags {P T ι : Type} [DecidableEq T] (tag : P → T) (empty : T) (par : Ptr → P) (s : Session P T) (objs : List (UObj ι))
    (fl : List Bool) (h : fl.length ≠ objs.length) : read tag empty s par objs (some fl) = none := by
  simp [Save.read, h]

/-- Example: two forms and a mesh in a new session, the second one skipped. -/
example : ∃ s' rs, read (fun x : ℕ => x + 1) 0 ⟨fun _ => none, none, none, 0⟩ (fun p => p.1 / 2) [.form 4 "u", .mesh 7, .form 5 "w"]
      (some [true, false, true]) = some (s', rs) ∧
    List.Forall₂ (Restored fun p => p.1 / 2) [(.form 4 "u", true), (.mesh 7, false), (.form 5 "w", true)] rs := by
  obtain ⟨s', rs, h1, h2, -⟩ := c79_list_partial (fun x : ℕ => x + 1) (fun a b h => by simpa using h) 0 (fun p => p.1 / 2)
    ⟨fun _ => none, none, none, 0⟩ (fun _ _ h => by simp at h) (fun _ _ h => by simp at h) [.form 4 "u", .mesh 7, .form 5 "w"] (by decide)
    (some [true, false, true]) (fun fl h => by rw [← Option.some.inj h]; rfl)
  exact ⟨s', rs, h1, h2⟩

/-- The identity of the mesh of what was read. -/
def meshId {P ι : Type} : ROb P ι → Option ℕ
  | .mesh o => some o.id
  | .form m _ _ => some m.id
  | _ => none

/-- the entry is read and has a mesh. -/
def hasMesh {ι : Type} : UObj ι × Bool → Bool
  | (.mesh _, b) => b
  | (.form _ _, b) => b
  | (.space _, _) => false

theorem readOne_space {P T ι : Type} [DecidableEq T] (tag : P → T) (empty : T) (s : Session P T) (a : ℕ) {s' : Session P T} {r : ROb P ι}
    (h : readOne tag empty s (.space a) = some (s', r)) : s'.mesh = s.mesh ∧ meshId r = none := by
  obtain ⟨q, -, e⟩ := Option.map_eq_some_iff.1 h
  obtain ⟨rfl, rfl⟩ := Prod.mk.inj e
  exact ⟨rfl, rfl⟩

theorem readOne_mesh {P T ι : Type} [DecidableEq T] (tag : P → T) (htag : Function.Injective tag) (empty : T) (par : Ptr → P)
    (s : Session P T) (hm : CacheOK tag s.mesh) (hs : CacheOK tag s.space) (o : UObj ι) (hd : ∀ b, s.dicts (addr o, b) = some (par (addr o, b)))
    (hh : hasMesh (o, true) = true) {s' : Session P T} {r : ROb P ι} (h : readOne tag empty s o = some (s', r)) :
    ∃ m, m.par = par (addr o, false) ∧ meshId r = some m.id ∧ s'.mesh = some (tag (par (addr o, false)), m) ∧
      ∀ m0, s.mesh = some (tag (par (addr o, false)), m0) → m = m0 := by
  have hit : ∀ dicts n x m0, dicts (addr o, false) = some x → restore tag empty dicts (some (tag x, m0)) n (addr o, false) =
      some (m0, some (tag x, m0), dicts, n) := by
    intro dicts n x m0 hx
    unfold restore
    simp [hx]
  cases o with
  | space a => simp [hasMesh] at hh
  | mesh a =>
    obtain ⟨o, c', d, n', h1, h2, h3, h4⟩ := restore_ok tag htag empty s.dicts s.mesh hm s.next (a, false) _ (hd false)
    simp only [readOne, h1, Option.map_some, Option.some.injEq, Prod.mk.injEq] at h
    obtain ⟨rfl, rfl⟩ := h
    refine ⟨o, h2, rfl, h3, fun m0 e => ?_⟩
    rw [e] at h1
    have := (hit s.dicts s.next _ m0 (hd false)).symm.trans h1
    exact (Prod.mk.inj (Option.some.inj this)).1.symm
  | form a info =>
    obtain ⟨o, c', d, n', h1, h2, h3, h4⟩ := restore_ok tag htag empty s.dicts s.space hs s.next (a, true) _ (hd true)
    have hd' : d (a, false) = some (par (a, false)) := (h4 (a, false) (by simp)).trans (hd false)
    obtain ⟨o2, c2, d2, n2, k1, k2, k3, k4⟩ := restore_ok tag htag empty d s.mesh hm n' (a, false) _ hd'
    simp only [readOne, h1, k1, Option.map_some, Option.bind_some, Option.some.injEq, Prod.mk.injEq] at h
    obtain ⟨rfl, rfl⟩ := h
    refine ⟨o2, k2, rfl, k3, fun m0 e => ?_⟩
    rw [e] at k1
    have := (hit d n' _ m0 hd').symm.trans k1
    exact (Prod.mk.inj (Option.some.inj this)).1.symm

theorem readAll_share {P T ι : Type} [DecidableEq T] (tag : P → T) (htag : Function.Injective tag) (empty : T) (par : Ptr → P) (x : P)
    (l : List (UObj ι × Bool)) : ∀ (s : Session P T), CacheOK tag s.mesh → CacheOK tag s.space → (l.map fun x => addr x.1).Nodup →
    (∀ y ∈ l, ∀ b, s.dicts (addr y.1, b) = some (par (addr y.1, b))) → (∀ y ∈ l, hasMesh y = true → par (addr y.1, false) = x) →
    ∀ s' rs, readAll tag empty s l = some (s', rs) → ∃ m, (∀ m0, s.mesh = some (tag x, m0) → m = m0.id) ∧ ∀ r ∈ rs, ∀ k, meshId r = some k → k = m := by
  induction l with
  | nil =>
    intro s _ _ _ _ _ s' rs h
    obtain ⟨-, rfl⟩ := Prod.mk.inj (Option.some.inj h)
    refine ⟨(s.mesh.map fun p => p.2.id).getD 0, fun m0 e => by rw [e]; rfl, fun r hr => absurd hr List.not_mem_nil⟩
  | cons y l ih =>
    intro s hm hs hn hd hx s' rs h
    obtain ⟨o, b⟩ := y
    rw [List.map_cons, List.nodup_cons] at hn
    cases b with
    | false =>
      obtain ⟨⟨s1, rs1⟩, h1, e⟩ := Option.map_eq_some_iff.1 h
      obtain ⟨rfl, rfl⟩ := Prod.mk.inj e
      obtain ⟨m, h2, h3⟩ := ih s hm hs hn.2 (fun y hy => hd y (List.mem_cons_of_mem _ hy)) (fun y hy => hx y (List.mem_cons_of_mem _ hy)) _ _ h1
      refine ⟨m, h2, fun r hr k hk => ?_⟩
      rcases List.mem_cons.1 hr with rfl | hr
      · simp [meshId] at hk
      · exact h3 r hr k hk
    | true =>
      obtain ⟨⟨s1, r1⟩, k1, h'⟩ := Option.bind_eq_some_iff.1 h
      obtain ⟨⟨s2, rs1⟩, h1, e⟩ := Option.map_eq_some_iff.1 h'
      obtain ⟨rfl, rfl⟩ := Prod.mk.inj e
      obtain ⟨s1', r1', q1, q2, q3, q4, q5⟩ := readOne_ok tag htag empty par s hm hs o (hd _ List.mem_cons_self)
      rw [k1] at q1
      obtain ⟨rfl, rfl⟩ := Prod.mk.inj (Option.some.inj q1)
      obtain ⟨m, h2, h3⟩ := ih s1 q3 q4 hn.2 (fun y hy b => by
        rw [q5]
        · exact hd y (List.mem_cons_of_mem _ hy) b
        · intro e
          exact hn.1 (List.mem_map.2 ⟨y, hy, e⟩)) (fun y hy => hx y (List.mem_cons_of_mem _ hy)) _ _ h1
      by_cases hh : hasMesh (o, true) = true
      · obtain ⟨mo, g1, g2, g3, g4⟩ := readOne_mesh tag htag empty par s hm hs o (hd _ List.mem_cons_self) hh k1
        have hpx := hx _ List.mem_cons_self hh
        rw [hpx] at g3 g4
        have hmo := h2 mo g3
        refine ⟨m, fun m0 e => by rw [hmo, g4 m0 e], fun r hr k hk => ?_⟩
        rcases List.mem_cons.1 hr with rfl | hr
        · rw [g2] at hk
          rw [hmo, Option.some.inj hk]
        · exact h3 r hr k hk
      · match o, hh, k1 with
        | .space a, _, k1 =>
          obtain ⟨e1, e2⟩ := readOne_space tag empty s a k1
          refine ⟨m, fun m0 e => h2 m0 (e1.trans e), fun r hr k hk => ?_⟩
          rcases List.mem_cons.1 hr with rfl | hr
          · rw [e2] at hk; exact absurd hk (by simp)
          · exact h3 r hr k hk

/-- **C79**: forms (and meshes) that were saved with the same mesh have one mesh after reading, not only equal ones, provided no
other mesh is in the list. -/
theorem c79_shared_mesh_partial {P T ι : Type} [DecidableEq T] (tag : P → T) (htag : Function.Injective tag) (empty : T) (par : Ptr → P) (x : P)
    (s : Session P T) (hm : CacheOK tag s.mesh) (hs : CacheOK tag s.space) (objs : List (UObj ι)) (hn : (objs.map addr).Nodup)
    (hx : ∀ o ∈ objs, hasMesh (o, true) = true → par (addr o, false) = x) (s' : Session P T) (rs : List (ROb P ι))
    (h : read tag empty s par objs none = some (s', rs)) :
    ∀ r ∈ rs, ∀ r' ∈ rs, ∀ k k', meshId r = some k → meshId r' = some k' → k = k' := by
  obtain ⟨m, -, hall⟩ := readAll_share tag htag empty par x (objs.map fun o => (o, true)) { s with dicts := fun p => some (par p) } hm hs (by simpa [Function.comp_def] using hn)
    (fun _ _ _ => rfl) (fun y hy hh => by
      obtain ⟨o, ho, rfl⟩ := List.mem_map.1 hy
      exact hx o ho hh) s' rs h
  intro r hr r' hr' k k' e e'
  rw [hall r hr k e, hall r' hr' k' e']

/-- **C79 is false** with two meshes in turn: of three forms, the first and the last on one mesh, the second on another one,
the first and the last are on different meshes after reading. -/
theorem c79_shared_mesh_false :
    (read (fun x : ℕ => x + 1) 0 ⟨fun _ => none, none, none, 0⟩ (fun p => p.1 % 2) [UObj.form 4 (), .form 7 (), .form 6 ()] none).map
      (fun r => r.2.map meshId) = some [some 1, some 3, some 5] := by
  decide

/-- **C79 is false** for an object that is twice in the list (in a new session): reading raises `KeyError`.  For forms this
includes an algebraic dual form together with its prime. -/
theorem c79_twice_false {P T ι : Type} [DecidableEq T] (tag : P → T) (empty : T) (hempty : ∀ x, tag x ≠ empty) (par : Ptr → P) (dicts : Ptr → Option P)
    (n a : ℕ) (i j : ι) :
    read (ι := ι) tag empty ⟨dicts, none, none, n⟩ par [.mesh a, .mesh a] none = none ∧
    read (ι := ι) tag empty ⟨dicts, none, none, n⟩ par [.space a, .space a] none = none ∧
    read tag empty ⟨dicts, none, none, n⟩ par [.form a i, .form a j] none = none := by
  have h : ∀ x, empty ≠ tag x := fun x e => hempty x e.symm
  refine ⟨?_, ?_, ?_⟩ <;> simp [Save.read, readAll, readOne, restore, h]

/-- **C79 is false** for parameters that have the same text: two different meshes are read as one. -/
theorem c79_tags_false {P T ι : Type} [DecidableEq T] (tag : P → T) (empty : T) (par : Ptr → P) (dicts : Ptr → Option P) (n a b : ℕ) (hab : a ≠ b)
    (ht : tag (par (a, false)) = tag (par (b, false))) :
    (read (ι := ι) tag empty ⟨dicts, none, none, n⟩ par [.mesh a, .mesh b] none).map Prod.snd
      = some [.mesh ⟨n, par (a, false)⟩, .mesh ⟨n, par (a, false)⟩] := by
  have : ((b, false) : Ptr) ≠ (a, false) := fun e => hab (congrArg Prod.fst e).symm
  simp [Save.read, readAll, readOne, restore, Function.update_of_ne this, ht]

/-- **C79 is false** for 1-edge forms and the local trace forms: `read` does not know their classes.  All other forms can be
read. -/
theorem c79_readable : (formClasses.filter fun c => !readable.contains c.2).map Prod.fst = ["1-e", "0-lt", "1-lt", "2-lt"] := by
  decide +kernel

/-- An algebraic dual form keeps its name exactly when it was made from a prime form; the prime always keeps its name. -/
theorem c79_dual_name (made : String ⊕ String) :
    (dualNamesRead made).2 = (dualNames made).2 ∧ (dualNamesRead made = dualNames made ↔ ∃ p, made = .inr p) := by
  refine ⟨by cases made <;> rfl, ?_, ?_⟩
  · intro h
    cases made with
    | inr p => exact ⟨p, rfl⟩
    | inl name =>
      have := congrArg (fun x => x.1.length) h
      simp only [dualNamesRead, dualNames, String.length_append] at this
      have h1 : "AD_".length = 3 := rfl
      omega
  · rintro ⟨p, rfl⟩
    rfl

/-! ## Names of files -/

/-- **C79**: the file written has the extension and no other dot, and no space; reading with the same name opens this file
exactly when the name (with extension) has one dot only. -/
theorem c79_filename (s f : List Char) (h : checkFilename s = some f) :
    (".mi".toList <:+ f ∧ f.count '.' = 1 ∧ ' ' ∉ f) ∧ (readName s = f ↔ (withExt s).count '.' = 1) := by
  unfold checkFilename at h
  split_ifs at h with h1 h2
  simp only at h
  split_ifs at h with h3 h4 h4 <;> obtain rfl := Option.some.inj h
  · obtain ⟨a, b, c⟩ := h4
    refine ⟨⟨List.isSuffixOf_iff_suffix.1 b, a, c⟩, ?_, fun e => by omega⟩
    intro e
    unfold readName at e
    rw [← e] at a
    omega
  · obtain ⟨a, b, c⟩ := h4
    exact ⟨⟨List.isSuffixOf_iff_suffix.1 b, a, c⟩, fun _ => a, fun _ => rfl⟩

/-- **C79**: a name of at most 64 letters, digits and the like gets the extension, a name that has it is kept; saving and reading use this
file. -/
theorem c79_filename_plain (s : List Char) (h1 : ∀ c ∈ s, c ∉ special) (h2 : '.' ∉ s) (h3 : ' ' ∉ s) :
    (s.length ≤ 64 → checkFilename s = some (s ++ ['.', 'm', 'i']) ∧ readName s = s ++ ['.', 'm', 'i']) ∧
    (s.length ≤ 61 → checkFilename (s ++ ['.', 'm', 'i']) = some (s ++ ['.', 'm', 'i']) ∧ readName (s ++ ['.', 'm', 'i']) = s ++ ['.', 'm', 'i']) := by
  have e : ".mi".toList = ['.', 'm', 'i'] := rfl
  have hany : s.any (special.contains ·) = false := by
    rw [List.any_eq_false]
    intro c hc
    simpa using h1 c hc
  have hext : ∀ t : List Char, ".mi".toList.isSuffixOf (t ++ ['.', 'm', 'i']) = true := fun t =>
    List.isSuffixOf_iff_suffix.2 ⟨t, rfl⟩
  have hno : ".mi".toList.isSuffixOf s = false := by
    by_contra hc
    obtain ⟨t, rfl⟩ := List.isSuffixOf_iff_suffix.1 (Bool.not_eq_false _ ▸ hc)
    exact h2 (by rw [e]; simp)
  have hcount : (s ++ ['.', 'm', 'i']).count '.' = 1 := by
    rw [List.count_append, List.count_eq_zero_of_not_mem h2]
    decide
  have hsp : ' ' ∉ s ++ ['.', 'm', 'i'] := by
    rw [List.mem_append, not_or]
    exact ⟨h3, by decide⟩
  have hany' : (s ++ ['.', 'm', 'i']).any (special.contains ·) = false := by
    rw [List.any_append, hany]
    decide
  have w1 : withExt s = s ++ ['.', 'm', 'i'] := by
    unfold withExt
    rw [hno]
    rfl
  have w2 : withExt (s ++ ['.', 'm', 'i']) = s ++ ['.', 'm', 'i'] := by
    unfold withExt
    rw [if_pos (hext s)]
  constructor
  · intro hl
    refine ⟨?_, w1⟩
    unfold checkFilename
    rw [hany, if_neg (by simp), if_neg (by omega)]
    simp only [w1]
    rw [if_neg (by rw [hcount]; omega : ¬ 1 < (s ++ ['.', 'm', 'i']).count '.'), if_pos ⟨hcount, hext s, hsp⟩]
  · intro hl
    refine ⟨?_, w2⟩
    unfold checkFilename
    rw [hany', if_neg (by simp), if_neg (by simp; omega)]
    simp only [w2]
    rw [if_neg (by rw [hcount]; omega : ¬ 1 < (s ++ ['.', 'm', 'i']).count '.'), if_pos ⟨hcount, hext s, hsp⟩]

example : checkFilename "result_1".toList = some "result_1.mi".toList :=
  ((c79_filename_plain "result_1".toList (by decide) (by decide) (by decide)).1 (by decide)).1

/-- **C79 is false** for names with a dot: `a.b` is saved as `a_b.mi`, and reading `a.b` looks for `a.b.mi`. -/
theorem c79_filename_false : checkFilename "a.b".toList = some "a_b.mi".toList ∧ readName "a.b".toList = "a.b.mi".toList := by
  decide

end Mifem.Props
