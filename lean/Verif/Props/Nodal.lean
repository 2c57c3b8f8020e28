import Verif.Props.Naive
import Mathlib.Data.Set.Basic
import Mathlib.Tactic.Ring
import Mathlib.Tactic.Linarith

/-!
# C04: numbering of dofs at the nodes and edges of a region
-/

namespace Mifem.Props
open Mifem.Naive Mifem.Mesh

/-- a grid of elements: one region with numbers `E` and the neighbours `emap`; directions with `per d` are periodic. -/
structure Grid (E : EArr) (per : Nat → Bool) (emap : Nat → List (Option Nat)) : Prop where
  num : Numbers 0 E
  pos : ∀ d, d < E.shape.length → 0 < E.shape.getD d 0
  two : ∀ d, d < E.shape.length → per d = true → 2 ≤ E.shape.getD d 0
  up : ∀ i d k, InBox E.shape i → d < E.shape.length → ((emap (E.at_ i))[2 * d + 1]? = some (some k) ↔
    (i.getD d 0 + 1 < E.shape.getD d 0 ∧ k = E.at_ (i.set d (i.getD d 0 + 1))) ∨
      (per d = true ∧ i.getD d 0 + 1 = E.shape.getD d 0 ∧ k = E.at_ (i.set d 0)))
  down : ∀ i d k, InBox E.shape i → d < E.shape.length → ((emap (E.at_ i))[2 * d]? = some (some k) ↔
    (0 < i.getD d 0 ∧ k = E.at_ (i.set d (i.getD d 0 - 1))) ∨
      (per d = true ∧ i.getD d 0 = 0 ∧ k = E.at_ (i.set d (E.shape.getD d 0 - 1))))

/-- coordinate of index `a` of an element with index `i`, in units of the local grid; modulo the period if there is one. -/
def coord (n p : Nat) (per : Bool) (i a : Nat) : Nat := if per then (i * p + a) % (n * p) else i * p + a

/-- place `a` of element `i` and place `b` of element `k` are the same node (edge, ...) of the grid: the same component and
the same coordinates. -/
def SamePosition (n p : List Nat) (per : Nat → Bool) (i : List Nat) (a : Nat × List Nat) (k : List Nat) (b : Nat × List Nat) : Prop :=
  a.1 = b.1 ∧ ∀ d, d < n.length → coord (n.getD d 0) (p.getD d 0) (per d) (i.getD d 0) (a.2.getD d 0) =
    coord (n.getD d 0) (p.getD d 0) (per d) (k.getD d 0) (b.2.getD d 0)

/-- number of positions of a component: in each direction `n p` cells, or `n p + 1` nodes (`n p` if periodic). -/
def positions (n p : List Nat) (per : Nat → Bool) (c : List Bool) : List Nat :=
  (List.range n.length).map fun d => if c.getD d false && !per d then n.getD d 0 * p.getD d 0 + 1 else n.getD d 0 * p.getD d 0

section
variable {E : EArr} {per : Nat → Bool} {emap : Nat → List (Option Nat)}

theorem getD_ext' (i k : List Nat) (hl : i.length = k.length) (h : ∀ d, d < i.length → i.getD d 0 = k.getD d 0) : i = k := ext_getD i k hl h

theorem at_lt_of_le (h : Grid E per emap) (i k : List Nat) (hi : InBox E.shape i) (hk : InBox E.shape k) (hle : ∀ d, i.getD d 0 ≤ k.getD d 0) (hne : i ≠ k) :
    E.at_ i < E.at_ k := by
  have := h.num.mono i k hi hk hle
  have hne' : E.at_ i ≠ E.at_ k := fun hc => hne (h.num.inj i k hi hk hc)
  omega

theorem below (h : Grid E per emap) (i : List Nat) (hi : InBox E.shape i) (d : Nat) (hd : d < E.shape.length) (x : Nat) (hx : x < i.getD d 0) :
    InBox E.shape (i.set d x) ∧ E.at_ (i.set d x) < E.at_ i := by
  have hb := hi.2 d hd
  have hl := hi.1
  have hbox := inBox_set E.shape i d x hi hd (by omega)
  refine ⟨hbox, at_lt_of_le h _ _ hbox hi ?_ ?_⟩
  · intro t
    rw [getD_set _ _ _ _ (by omega)]
    split
    · rename_i htd; rw [htd]; omega
    · omega
  · intro hc
    have := congrArg (fun l => l.getD d 0) hc
    rw [getD_set _ _ _ _ (by omega), if_pos rfl] at this
    omega

theorem link_low (h : Grid E per emap) (i : List Nat) (hi : InBox E.shape i) (d : Nat) (hd : d < E.shape.length) (hpos : 0 < i.getD d 0) :
    ∃ o, o < E.at_ i ∧ (emap o)[2 * d + 1]? = some (some (E.at_ i)) := by
  obtain ⟨hbox, hlt⟩ := below h i hi d hd (i.getD d 0 - 1) (by omega)
  refine ⟨_, hlt, (h.up _ d _ hbox hd).2 (Or.inl ?_)⟩
  have hl := hi.1
  have hb := hi.2 d hd
  rw [getD_set _ _ _ _ (by omega), if_pos rfl]
  refine ⟨by omega, ?_⟩
  rw [set_set_self i d _ (by omega)]

theorem link_high (h : Grid E per emap) (i : List Nat) (hi : InBox E.shape i) (d : Nat) (hd : d < E.shape.length) (hper : per d = true)
    (hlast : i.getD d 0 + 1 = E.shape.getD d 0) : ∃ o, o < E.at_ i ∧ (emap o)[2 * d]? = some (some (E.at_ i)) := by
  have h2 := h.two d hd hper
  obtain ⟨hbox, hlt⟩ := below h i hi d hd 0 (by omega)
  refine ⟨_, hlt, (h.down _ d _ hbox hd).2 (Or.inr ?_)⟩
  have hl := hi.1
  rw [getD_set _ _ _ _ (by omega), if_pos rfl]
  refine ⟨hper, rfl, ?_⟩
  rw [set_set_self i d _ (by omega)]

/-- the indices of an element. -/
def idx (E : EArr) (k : Nat) : List Nat := (argwhere E k).getD []

theorem idx_at (h : Grid E per emap) (i : List Nat) (hi : InBox E.shape i) : idx E (E.at_ i) = i := by
  unfold idx
  rw [argwhere_eq E 0 h.num i hi]
  rfl

/-- the position of a place. -/
def node (E : EArr) (p : List Nat) (per : Nat → Bool) (k : Nat) (a : Nat × List Nat) : Nat × List Nat :=
  (a.1, (List.range E.shape.length).map fun d =>
    coord (E.shape.getD d 0) (p.getD d 0) (per d) ((idx E k).getD d 0) (a.2.getD d 0))

theorem map_range_inj (n : Nat) (f g : Nat → Nat) : (List.range n).map f = (List.range n).map g ↔ ∀ d, d < n → f d = g d := by
  rw [List.map_inj_left]
  simp

theorem node_eq (h : Grid E per emap) (p : List Nat) (i k : List Nat) (hi : InBox E.shape i) (hk : InBox E.shape k) (a b : Nat × List Nat) :
    node E p per (E.at_ i) a = node E p per (E.at_ k) b ↔ SamePosition E.shape p per i a k b := by
  unfold node SamePosition
  rw [idx_at h i hi, idx_at h k hk, Prod.mk.injEq, map_range_inj]

theorem coord_up (n p : Nat) (c : Bool) (i : Nat) : coord n p c i p = coord n p c (i + 1) 0 := by
  unfold coord
  have : i * p + p = (i + 1) * p + 0 := by ring
  rw [this]

theorem coord_wrap (n p i : Nat) (hi : i + 1 = n) : coord n p true i p = coord n p true 0 0 := by
  unfold coord
  have : i * p + p = n * p := by rw [← hi]; ring
  simp only [if_true]
  rw [this]
  simp

/-- numbers are passed between places with the same position. -/
theorem link_samePosition (h : Grid E per emap) (p : List Nat) (hp : p.length = E.shape.length) (comps : List (List Bool)) (hc : Comps p comps)
    (i k : List Nat) (hi : InBox E.shape i) (hk : InBox E.shape k) (a x : Nat × List Nat)
    (hx : (E.at_ k, x) ∈ links (formLayout p comps) emap (E.at_ i) (E.at_ i) a) : SamePosition E.shape p per k x i a := by
  obtain ⟨_, j, hj, hplace, hnod, hown, ha⟩ := (mem_links_form p comps hc emap (E.at_ i) a (E.at_ k, x)).1 hx
  obtain ⟨c, hcx, hxl, _⟩ := hplace
  simp only at hcx hxl hj hnod hown ha
  have hd : j / 2 < E.shape.length := by
    by_contra hcon
    rw [nodalIn_of comps _ _ c hcx, List.getD_eq_getElem?_getD, List.getElem?_eq_none] at hnod
    · exact absurd hnod (by simp)
    · have := hc c (List.mem_of_getElem? hcx); omega
  have hkl := hk.1
  rw [ha]
  refine ⟨rfl, ?_⟩
  intro t ht
  simp only
  rcases Nat.mod_two_eq_zero_or_one j with hm | hm
  · have hj2 : j = 2 * (j / 2) := by omega
    rw [hj2] at hj
    rw [if_pos hm] at hown ⊢
    rcases (h.down k (j / 2) _ hk hd).1 hj with ⟨h1, h2⟩ | ⟨h1, h2, h3⟩
    · have hbox := inBox_set E.shape k (j / 2) (k.getD (j / 2) 0 - 1) hk hd (by have := hk.2 _ hd; omega)
      rw [h.num.inj i _ hi hbox h2]
      by_cases htd : t = j / 2
      · subst htd
        rw [getD_set _ _ _ _ (by omega), if_pos rfl, getD_set _ _ _ _ (by omega), if_pos rfl, coord_up]
        have : k.getD (j / 2) 0 - 1 + 1 = k.getD (j / 2) 0 := by omega
        rw [this, hown]
      · rw [getD_set _ _ _ _ (by omega), if_neg htd, getD_set _ _ _ _ (by omega), if_neg htd]
    · have hbox := inBox_set E.shape k (j / 2) (E.shape.getD (j / 2) 0 - 1) hk hd (by have := h.pos _ hd; omega)
      rw [h.num.inj i _ hi hbox h3]
      by_cases htd : t = j / 2
      · subst htd
        rw [getD_set _ _ _ _ (by omega), if_pos rfl, getD_set _ _ _ _ (by omega), if_pos rfl, h1,
          coord_wrap _ _ _ (by have := h.pos _ hd; omega), h2, hown]
      · rw [getD_set _ _ _ _ (by omega), if_neg htd, getD_set _ _ _ _ (by omega), if_neg htd]
  · have hj2 : j = 2 * (j / 2) + 1 := by omega
    rw [hj2] at hj
    rw [if_neg (by omega)] at hown ⊢
    rcases (h.up k (j / 2) _ hk hd).1 hj with ⟨h1, h2⟩ | ⟨h1, h2, h3⟩
    · have hbox := inBox_set E.shape k (j / 2) (k.getD (j / 2) 0 + 1) hk hd h1
      rw [h.num.inj i _ hi hbox h2]
      by_cases htd : t = j / 2
      · subst htd
        rw [getD_set _ _ _ _ (by omega), if_pos rfl, getD_set _ _ _ _ (by omega), if_pos rfl, ← coord_up, hown]
      · rw [getD_set _ _ _ _ (by omega), if_neg htd, getD_set _ _ _ _ (by omega), if_neg htd]
    · have hbox := inBox_set E.shape k (j / 2) 0 hk hd (h.pos _ hd)
      rw [h.num.inj i _ hi hbox h3]
      by_cases htd : t = j / 2
      · subst htd
        rw [getD_set _ _ _ _ (by omega), if_pos rfl, getD_set _ _ _ _ (by omega), if_pos rfl, h1, hown, coord_wrap _ _ _ h2]
      · rw [getD_set _ _ _ _ (by omega), if_neg htd, getD_set _ _ _ _ (by omega), if_neg htd]

/-- a place that gets a new number is not at the lower end of an element with a lower neighbour, and not at the end of a
periodic direction. -/
theorem free_cond (h : Grid E per emap) (p : List Nat) (hp : p.length = E.shape.length) (comps : List (List Bool)) (hc : Comps p comps)
    (i : List Nat) (hi : InBox E.shape i) (a : Nat × List Nat) (ha : IsPlace p comps a) (hfree : links (formLayout p comps) emap (E.at_ i) (E.at_ i) a = [])
    (d : Nat) (hd : d < E.shape.length) (hn : nodalIn comps a.1 d = true) :
    ¬ (a.2.getD d 0 = 0 ∧ 0 < i.getD d 0) ∧ ¬ (per d = true ∧ a.2.getD d 0 = p.getD d 0 ∧ i.getD d 0 + 1 = E.shape.getD d 0) := by
  have hal : a.2.length = E.shape.length := by
    obtain ⟨_, _, h2, _⟩ := ha
    omega
  constructor
  · rintro ⟨h1, h2⟩
    obtain ⟨o, ho, hmap⟩ := link_low h i hi d hd h2
    have : (o, (a.1, a.2.set d (p.getD d 0))) ∈ links (formLayout p comps) emap (E.at_ i) (E.at_ i) a := by
      rw [mem_links_form p comps hc]
      have e1 : (2 * d + 1) / 2 = d := by omega
      have e2 : ¬ (2 * d + 1) % 2 = 0 := by omega
      refine ⟨ho, 2 * d + 1, hmap, isPlace_set p comps a d _ ha hn (Nat.le_refl _), ?_, ?_, ?_⟩
      · rw [e1]; exact hn
      · rw [e1, if_neg e2, getD_set _ _ _ _ (by omega), if_pos rfl]
      · rw [e1, if_neg e2, set_set_self a.2 d 0 h1]
    rw [hfree] at this
    exact absurd this (by simp)
  · rintro ⟨h1, h2, h3⟩
    obtain ⟨o, ho, hmap⟩ := link_high h i hi d hd h1 h3
    have : (o, (a.1, a.2.set d 0)) ∈ links (formLayout p comps) emap (E.at_ i) (E.at_ i) a := by
      rw [mem_links_form p comps hc]
      have e1 : (2 * d) / 2 = d := by omega
      have e2 : (2 * d) % 2 = 0 := by omega
      refine ⟨ho, 2 * d, hmap, isPlace_set p comps a d _ ha hn (Nat.zero_le _), ?_, ?_, ?_⟩
      · rw [e1]; exact hn
      · rw [e1, if_pos e2, getD_set _ _ _ _ (by omega), if_pos rfl]
      · rw [e1, if_pos e2, set_set_self a.2 d _ h2]
    rw [hfree] at this
    exact absurd this (by simp)

theorem lt_cells (n p i a : Nat) (hi : i < n) (ha : a ≤ p) (hp : 0 < p) (hne : ¬ (a = p ∧ i + 1 = n)) : i * p + a < n * p := by
  rcases Nat.lt_or_ge a p with h | h
  · calc i * p + a < i * p + p := by omega
      _ = (i + 1) * p := by ring
      _ ≤ n * p := Nat.mul_le_mul_right p hi
  · have hap : a = p := by omega
    have : i + 2 ≤ n := by
      by_contra hc
      exact hne ⟨hap, by omega⟩
    calc i * p + a = (i + 1) * p := by rw [hap]; ring
      _ < (i + 2) * p := by
        have : (i + 2) * p = (i + 1) * p + p := by ring
        omega
      _ ≤ n * p := Nat.mul_le_mul_right p this

theorem unique_decomposition (p i a k b : Nat) (ha : a ≤ p) (hb : b ≤ p) (h1 : a = 0 → i = 0) (h2 : b = 0 → k = 0)
    (h : i * p + a = k * p + b) : i = k ∧ a = b := by
  have key : ∀ i a k b : Nat, a ≤ p → (b = 0 → k = 0) → i * p + a = k * p + b → ¬ i < k := by
    intro i a k b ha h2 h hik
    obtain ⟨t, rfl⟩ := Nat.exists_eq_add_of_lt hik
    have : (i + t + 1) * p = i * p + t * p + p := by ring
    rw [this] at h
    have : b = 0 := by
      have : 0 ≤ t * p := Nat.zero_le _
      omega
    have := h2 this
    omega
  have h3 := key i a k b ha h2 h
  have h4 := key k b i a hb h1 h.symm
  have : i = k := by omega
  subst this
  exact ⟨rfl, by omega⟩

theorem unique_cells (p i a k b : Nat) (ha : a < p) (hb : b < p) (h : i * p + a = k * p + b) : i = k ∧ a = b := by
  have key : ∀ i a k b : Nat, a < p → i * p + a = k * p + b → ¬ i < k := by
    intro i a k b ha h hik
    obtain ⟨t, rfl⟩ := Nat.exists_eq_add_of_lt hik
    have : (i + t + 1) * p = i * p + t * p + p := by ring
    rw [this] at h
    have : 0 ≤ t * p := Nat.zero_le _
    omega
  have h3 := key i a k b ha h
  have h4 := key k b i a hb h.symm
  have : i = k := by omega
  subst this
  exact ⟨rfl, by omega⟩

theorem coord_eq_of_lt (n p : Nat) (c : Bool) (i a : Nat) (h : c = true → i * p + a < n * p) : coord n p c i a = i * p + a := by
  unfold coord
  cases c with
  | false => rfl
  | true =>
    simp only [if_true]
    exact Nat.mod_eq_of_lt (h rfl)

theorem exists_index (h : Grid E per emap) (k : Nat) (hk : k < E.shape.prod) : ∃ i, InBox E.shape i ∧ E.at_ i = k :=
  h.num.surj k (Nat.zero_le _) (by omega)

/-- places that get new numbers have different positions. -/
theorem free_unique (h : Grid E per emap) (p : List Nat) (hp : p.length = E.shape.length) (hpos : ∀ d, d < p.length → 0 < p.getD d 0)
    (comps : List (List Bool)) (hc : Comps p comps) (i k : List Nat) (hi : InBox E.shape i) (hk : InBox E.shape k) (a b : Nat × List Nat)
    (ha : IsPlace p comps a) (hb : IsPlace p comps b) (hfa : links (formLayout p comps) emap (E.at_ i) (E.at_ i) a = [])
    (hfb : links (formLayout p comps) emap (E.at_ k) (E.at_ k) b = []) (hs : SamePosition E.shape p per i a k b) : i = k ∧ a = b := by
  obtain ⟨hcomp, hco⟩ := hs
  have ha' := ha
  have hb' := hb
  obtain ⟨c, hca, hal, hab⟩ := ha'
  obtain ⟨c', hcb, hbl, hbb⟩ := hb'
  rw [← hcomp, hca] at hcb
  have := Option.some.inj hcb
  subst this
  have key : ∀ d, d < E.shape.length → i.getD d 0 = k.getD d 0 ∧ a.2.getD d 0 = b.2.getD d 0 := by
    intro d hd
    have e := hco d hd
    have pa := hab d (by omega)
    have pb := hbb d (by omega)
    have hp0 := hpos d (by omega)
    have bi := hi.2 d hd
    have bk := hk.2 d hd
    by_cases hn : c.getD d false = true
    · rw [if_pos hn] at pa pb
      have fa := free_cond h p hp comps hc i hi a ha hfa d hd (by rw [nodalIn_of comps _ _ c hca]; exact hn)
      have fb := free_cond h p hp comps hc k hk b hb hfb d hd (by rw [← hcomp, nodalIn_of comps _ _ c hca]; exact hn)
      rw [coord_eq_of_lt, coord_eq_of_lt] at e
      · exact unique_decomposition _ _ _ _ _ pa pb (fun h0 => by have := fa.1; simp only [not_and] at this; have := this h0; omega)
          (fun h0 => by have := fb.1; simp only [not_and] at this; have := this h0; omega) e
      · intro hper
        exact lt_cells _ _ _ _ bk pb hp0 (fun hh => fb.2 ⟨hper, hh.1, hh.2⟩)
      · intro hper
        exact lt_cells _ _ _ _ bi pa hp0 (fun hh => fa.2 ⟨hper, hh.1, hh.2⟩)
    · rw [if_neg hn] at pa pb
      rw [coord_eq_of_lt, coord_eq_of_lt] at e
      · exact unique_cells _ _ _ _ _ pa pb e
      · intro _
        exact lt_cells _ _ _ _ bk (by omega) hp0 (by omega)
      · intro _
        exact lt_cells _ _ _ _ bi (by omega) hp0 (by omega)
  have hil := hi.1
  have hkl := hk.1
  refine ⟨ext_getD i k (by omega) fun d hd => (key d (by omega)).1, ?_⟩
  refine Prod.ext hcomp (ext_getD a.2 b.2 (by omega) fun d hd => (key d (by omega)).2)

/-- every position is taken by some place. -/
theorem position_exists (h : Grid E per emap) (p : List Nat) (hp : p.length = E.shape.length) (hpos : ∀ d, d < p.length → 0 < p.getD d 0)
    (comps : List (List Bool)) (k : Nat) (c : List Bool) (hk : comps[k]? = some c) (x : List Nat)
    (hx : InBox (positions E.shape p per c) x) :
    ∃ i a, InBox E.shape i ∧ IsPlace p comps (k, a) ∧ ∀ d, d < E.shape.length →
      coord (E.shape.getD d 0) (p.getD d 0) (per d) (i.getD d 0) (a.getD d 0) = x.getD d 0 := by
  have hxl : x.length = E.shape.length := by simpa [positions] using hx.1
  have hxb : ∀ d, d < E.shape.length → x.getD d 0 < if c.getD d false && !per d then E.shape.getD d 0 * p.getD d 0 + 1 else E.shape.getD d 0 * p.getD d 0 := by
    intro d hd
    have := hx.2 d (by simpa [positions] using hd)
    unfold positions at this
    rw [getD_map_range, if_pos hd] at this
    exact this
  let last : Nat → Bool := fun d => decide (x.getD d 0 = E.shape.getD d 0 * p.getD d 0)
  let i : List Nat := (List.range E.shape.length).map fun d => if last d then E.shape.getD d 0 - 1 else x.getD d 0 / p.getD d 0
  let a : List Nat := (List.range E.shape.length).map fun d => if last d then p.getD d 0 else x.getD d 0 % p.getD d 0
  have hid : ∀ d, d < E.shape.length → i.getD d 0 = if last d then E.shape.getD d 0 - 1 else x.getD d 0 / p.getD d 0 := by
    intro d hd
    rw [getD_map_range, if_pos hd]
  have had : ∀ d, d < E.shape.length → a.getD d 0 = if last d then p.getD d 0 else x.getD d 0 % p.getD d 0 := by
    intro d hd
    rw [getD_map_range, if_pos hd]
  have hcells : ∀ d, d < E.shape.length → ¬ last d = true → x.getD d 0 < E.shape.getD d 0 * p.getD d 0 := by
    intro d hd hl
    have h1 := hxb d hd
    have h2 : x.getD d 0 ≠ E.shape.getD d 0 * p.getD d 0 := by simpa [last] using hl
    split at h1 <;> omega
  refine ⟨i, a, ⟨by simp [i], ?_⟩, ⟨c, hk, by simp [a, hp], ?_⟩, ?_⟩
  · intro d hd
    rw [hid d hd]
    have := h.pos d hd
    split
    · omega
    · rename_i hl
      have hp0 := hpos d (by omega)
      rw [Nat.div_lt_iff_lt_mul hp0]
      exact hcells d hd hl
  · intro d hd
    have hd' : d < E.shape.length := by omega
    have hp0 := hpos d hd
    have hm : x.getD d 0 % p.getD d 0 < p.getD d 0 := Nat.mod_lt _ hp0
    simp only
    rw [had d hd']
    by_cases hl : last d = true
    · rw [if_pos hl]
      have h1 := hxb d hd'
      have h2 : x.getD d 0 = E.shape.getD d 0 * p.getD d 0 := by simpa [last] using hl
      split
      · exact Nat.le_refl _
      · rename_i hn
        rw [if_neg (by rw [Bool.and_eq_true]; exact fun h => hn h.1)] at h1
        omega
    · rw [if_neg hl]
      split <;> omega
  · intro d hd
    rw [hid d hd, had d hd]
    have hp0 := hpos d (by omega)
    have hn0 := h.pos d hd
    by_cases hl : last d = true
    · rw [if_pos hl, if_pos hl]
      have h1 := hxb d hd
      have h2 : x.getD d 0 = E.shape.getD d 0 * p.getD d 0 := by simpa [last] using hl
      have hper : per d = false := by
        by_contra hcon
        have : per d = true := by simpa using hcon
        rw [if_neg (by simp [this])] at h1
        omega
      unfold coord
      rw [hper, h2]
      simp only [Bool.false_eq_true, if_false]
      obtain ⟨m, hm⟩ : ∃ m, E.shape.getD d 0 = m + 1 := ⟨E.shape.getD d 0 - 1, by omega⟩
      rw [hm]
      have : m + 1 - 1 = m := by omega
      rw [this]
      ring
    · rw [if_neg hl, if_neg hl]
      have he : x.getD d 0 / p.getD d 0 * p.getD d 0 + x.getD d 0 % p.getD d 0 = x.getD d 0 := by
        rw [Nat.mul_comm]
        exact Nat.div_add_mod _ _
      rw [coord_eq_of_lt _ _ _ _ _ (fun _ => by rw [he]; exact hcells d hd hl), he]

/-- positions of places. -/
theorem position_bound (h : Grid E per emap) (p : List Nat) (hp : p.length = E.shape.length) (hpos : ∀ d, d < p.length → 0 < p.getD d 0)
    (c : List Bool) (i a : List Nat) (hi : InBox E.shape i) (ha : PlaceOf p c a) (d : Nat) (hd : d < E.shape.length) :
    coord (E.shape.getD d 0) (p.getD d 0) (per d) (i.getD d 0) (a.getD d 0) <
      if c.getD d false && !per d then E.shape.getD d 0 * p.getD d 0 + 1 else E.shape.getD d 0 * p.getD d 0 := by
  have h1 := ha.2 d (by omega)
  have h2 := hi.2 d hd
  have hp0 := hpos d (by omega)
  have hn0 := h.pos d hd
  by_cases hper : per d = true
  · rw [if_neg (by simp [hper])]
    unfold coord
    rw [hper]
    simp only [if_true]
    exact Nat.mod_lt _ (Nat.mul_pos hn0 hp0)
  · have hper' : per d = false := by simpa using hper
    unfold coord
    rw [hper']
    simp only [Bool.false_eq_true, if_false, Bool.not_false, Bool.and_true]
    by_cases hn : c.getD d false = true
    · rw [if_pos hn] at h1 ⊢
      have : (i.getD d 0 + 1) * p.getD d 0 ≤ E.shape.getD d 0 * p.getD d 0 := Nat.mul_le_mul_right _ h2
      have : (i.getD d 0 + 1) * p.getD d 0 = i.getD d 0 * p.getD d 0 + p.getD d 0 := by ring
      omega
    · rw [if_neg hn] at h1 ⊢
      exact lt_cells _ _ _ _ h2 (by omega) hp0 (by omega)

/-- all positions. -/
def allPositions (E : EArr) (p : List Nat) (per : Nat → Bool) (comps : List (List Bool)) : List (Nat × List Nat) :=
  (comps.zipIdx).flatMap fun c => (cOrder (positions E.shape p per c.1)).map fun x => (c.2, x)

theorem allPositions_length (E : EArr) (p : List Nat) (per : Nat → Bool) (comps : List (List Bool)) :
    (allPositions E p per comps).length = (comps.map fun c => (positions E.shape p per c).prod).sum := by
  unfold allPositions
  rw [List.length_flatMap]
  have : (comps.zipIdx.map fun c => ((cOrder (positions E.shape p per c.1)).map fun x => (c.2, x)).length) =
      (comps.zipIdx.map Prod.fst).map fun c => (positions E.shape p per c).prod := by
    rw [List.map_map]
    apply List.map_congr_left
    intro c _
    simp [cOrder_length]
  rw [this, List.zipIdx_map_fst]

theorem mem_allPositions (E : EArr) (p : List Nat) (per : Nat → Bool) (comps : List (List Bool)) (y : Nat × List Nat) :
    y ∈ allPositions E p per comps ↔ ∃ c, comps[y.1]? = some c ∧ InBox (positions E.shape p per c) y.2 := by
  unfold allPositions
  simp only [List.mem_flatMap, List.mem_map, mem_cOrder]
  constructor
  · rintro ⟨⟨c, k⟩, hck, x, hx, rfl⟩
    exact ⟨c, List.mem_zipIdx_iff_getElem?.1 hck, hx⟩
  · rintro ⟨c, hk, hx⟩
    exact ⟨(c, y.1), List.mem_zipIdx_iff_getElem?.2 hk, y.2, hx, rfl⟩

theorem allPositions_nodup (E : EArr) (p : List Nat) (per : Nat → Bool) (comps : List (List Bool)) : (allPositions E p per comps).Nodup := by
  unfold allPositions
  rw [List.nodup_flatMap]
  constructor
  · intro x _
    apply List.Nodup.map
    · intro a b h
      simpa using h
    · exact cOrder_nodup _
  · have : (comps.zipIdx.map Prod.snd).Nodup := by
      have : comps.zipIdx.map Prod.snd = List.range' 0 comps.length := List.zipIdx_map_snd 0 comps
      rw [this]
      exact List.nodup_range'
    rw [List.Nodup, List.pairwise_map] at this
    refine this.imp ?_
    intro a b hab
    rw [Function.onFun]
    intro z hz1 hz2
    obtain ⟨_, _, rfl⟩ := List.mem_map.1 hz1
    obtain ⟨_, _, h⟩ := List.mem_map.1 hz2
    simp only [Prod.mk.injEq] at h
    exact hab h.1.symm

theorem succeeds (h : Grid E per emap) (p : List Nat) (comps : List (List Bool)) (hc : Comps p comps) (ranks : List (List Nat))
    (hr : ranks.flatten = List.range E.shape.prod) : (naive (formLayout p comps) emap ranks).isSome := by
  rw [c05_exception p comps hc emap _ ranks hr]
  intro k hk0 hk
  obtain ⟨i, hi, rfl⟩ := exists_index h k hk
  by_contra hcon
  have hz : ∀ d, i.getD d 0 = 0 := by
    intro d
    by_cases hd : d < E.shape.length
    · by_contra hne
      obtain ⟨o, ho, hm⟩ := link_low h i hi d hd (by omega)
      exact hcon ⟨o, ho, List.mem_of_getElem? hm⟩
    · rw [List.getD_eq_getElem?_getD, List.getElem?_eq_none (by have := hi.1; omega)]
      rfl
  obtain ⟨i0, hi0, h0⟩ := exists_index h 0 (by omega)
  have := h.num.mono i i0 hi hi0 (fun d => by rw [hz d]; exact Nat.zero_le _)
  omega

/-- **C04 (partial: one region).** On a grid of elements (any layout, any degree in each direction, periodic or not, any
of the element numberings of C35), for every form and every distribution to ranks, the numbering succeeds; every place
gets exactly one number; two places get the same number exactly if they have the same position, i.e. are the same node of
the mesh (for 0-forms; the same edge or face dof for the other forms); and the numbers are `0..m-1` where `m` is the number
of positions.
What is missing for C04: meshes with several regions, for which the statement is false in general
(`c04_not_always`, `c05_not_always`); what holds on all meshes is `c04_any_mesh`. -/
theorem c04_grid_partial (h : Grid E per emap) (p : List Nat) (hp : p.length = E.shape.length) (hpos : ∀ d, d < p.length → 0 < p.getD d 0)
    (comps : List (List Bool)) (hc : Comps p comps) (ranks : List (List Nat)) (hr : ranks.flatten = List.range E.shape.prod) :
    ∃ out, naive (formLayout p comps) emap ranks = some out ∧
      (∀ i a, InBox E.shape i → IsPlace p comps a → ∃! v, Gives out (E.at_ i) a v) ∧
      (∀ i a k b v w, InBox E.shape i → InBox E.shape k → IsPlace p comps a → IsPlace p comps b →
        Gives out (E.at_ i) a v → Gives out (E.at_ k) b w → (v = w ↔ SamePosition E.shape p per i a k b)) ∧
      (∀ v, v < (comps.map fun c => (positions E.shape p per c).prod).sum ↔
        ∃ i a, InBox E.shape i ∧ IsPlace p comps a ∧ Gives out (E.at_ i) a v) := by
  obtain ⟨out, hout⟩ := Option.isSome_iff_exists.1 (succeeds h p comps hc ranks hr)
  refine ⟨out, hout, ?_⟩
  have hg := good_formLayout p comps hc
  obtain ⟨N, m, hdet, hval⟩ := naive_spec _ hg emap _ ranks hr out hout
  have hgives : ∀ i a v, InBox E.shape i → (Gives out (E.at_ i) a v ↔ N (E.at_ i) a = some v) := by
    intro i a v hi
    constructor
    · rintro ⟨x, hx, hxi, hv⟩
      rw [← hxi, ← (hval x hx).2]
      exact hv
    · intro hv
      have hsh := run_shape _ emap ranks _ out hout
      have hmem : E.at_ i ∈ out.flatten.map Prod.fst := by
        rw [List.map_flatten, hsh, hr]
        have := h.num.bound i hi
        exact List.mem_range.2 (by omega)
      obtain ⟨x, hx, hxi⟩ := List.mem_map.1 hmem
      exact ⟨x, hx, hxi, by rw [(hval x hx).2, hxi]; exact hv⟩
  have hlt : ∀ i, InBox E.shape i → E.at_ i < E.shape.prod := by
    intro i hi
    have := h.num.bound i hi
    omega
  have hlink : ∀ o k c a, o < k → k < E.shape.prod → (o, c) ∈ links (formLayout p comps) emap k k a → node E p per o c = node E p per k a := by
    intro o k c a hok hk hx
    obtain ⟨i, hi, rfl⟩ := exists_index h k hk
    obtain ⟨i', hi', rfl⟩ := exists_index h o (by omega)
    rw [node_eq h p i' i hi' hi]
    exact link_samePosition h p hp comps hc i i' hi hi' a c hx
  have hgen := general _ hg emap _ N m hdet (node E p per) hlink
  have huniq : ∀ k a l b, k < E.shape.prod → l < E.shape.prod → a ∈ (formLayout p comps).slots → b ∈ (formLayout p comps).slots →
      links (formLayout p comps) emap k k a = [] → links (formLayout p comps) emap l l b = [] → node E p per k a = node E p per l b → (k, a) = (l, b) := by
    intro k a l b hk hl ha hb hka hlb he
    obtain ⟨i, hi, rfl⟩ := exists_index h k hk
    obtain ⟨i', hi', rfl⟩ := exists_index h l hl
    rw [node_eq h p i i' hi hi'] at he
    rw [mem_slots p comps hc] at ha hb
    obtain ⟨rfl, rfl⟩ := free_unique h p hp hpos comps hc i i' hi hi' a b ha hb hka hlb he
    rfl
  have hback := hgen.2.1 huniq
  refine ⟨?_, ?_, ?_⟩
  · intro i a hi ha
    obtain ⟨v, hv⟩ := Option.isSome_iff_exists.1 (hdet.isSome _ (hlt i hi) a ((mem_slots p comps hc a).2 ha))
    refine ⟨v, (hgives i a v hi).2 hv, ?_⟩
    intro w hw
    have := (hgives i a w hi).1 hw
    rw [hv] at this
    exact (Option.some.inj this).symm
  · intro i a k b v w hi hk ha hb hv hw
    have hv' := (hgives i a v hi).1 hv
    have hw' := (hgives k b w hk).1 hw
    rw [← node_eq h p i k hi hk]
    constructor
    · intro hvw
      exact hgen.1 _ a _ b (hlt i hi) (hlt k hk) ((mem_slots p comps hc a).2 ha) ((mem_slots p comps hc b).2 hb) (by rw [hv', hw', hvw])
    · intro hn
      have := hback _ a _ b (hlt i hi) (hlt k hk) ((mem_slots p comps hc a).2 ha) ((mem_slots p comps hc b).2 hb) hn
      rw [hv', hw'] at this
      exact Option.some.inj this
  · have hm : m = (comps.map fun c => (positions E.shape p per c).prod).sum := by
      rw [← allPositions_length]
      have hlen : (frees (formLayout p comps) emap E.shape.prod).length = m := by
        have := congrArg List.length hdet.free
        simpa using this
      have hperm : ((frees (formLayout p comps) emap E.shape.prod).map fun x => node E p per x.1 x.2).Perm (allPositions E p per comps) := by
        rw [List.perm_ext_iff_of_nodup]
        · intro y
          rw [mem_allPositions, List.mem_map]
          constructor
          · rintro ⟨⟨k, a⟩, hka, rfl⟩
            obtain ⟨hk, ha, _⟩ := (mem_frees _ hg emap _ k a).1 hka
            obtain ⟨i, hi, rfl⟩ := exists_index h k hk
            rw [mem_slots p comps hc] at ha
            obtain ⟨c, hca, hpl⟩ := ha
            refine ⟨c, hca, by simp [node, positions], ?_⟩
            intro d hd
            have hd' : d < E.shape.length := by simpa [positions] using hd
            unfold node positions
            simp only
            rw [getD_map_range, getD_map_range, if_pos hd', if_pos hd', idx_at h i hi]
            exact position_bound h p hp hpos c i a.2 hi hpl d hd'
          · rintro ⟨c, hk, hx⟩
            obtain ⟨i, a, hi, ha, hco⟩ := position_exists h p hp hpos comps y.1 c hk y.2 hx
            obtain ⟨x, hx1, _, hx3⟩ := root_exists _ hg emap _ N m hdet (node E p per) hlink (E.at_ i) (hlt i hi) (y.1, a) ((mem_slots p comps hc _).2 ha)
            refine ⟨x, hx1, ?_⟩
            rw [hx3]
            unfold node
            rw [idx_at h i hi]
            refine Prod.ext rfl (ext_getD _ _ ?_ ?_)
            · have := hx.1
              simpa [positions] using this.symm
            · intro d hd
              have hd' : d < E.shape.length := by simpa using hd
              simp only
              rw [getD_map_range, if_pos hd']
              exact hco d hd'
        · apply List.Nodup.map_on _ (frees_nodup _ hg emap _)
          rintro ⟨k, a⟩ hka ⟨l, b⟩ hlb he
          obtain ⟨hk, ha, hfa⟩ := (mem_frees _ hg emap _ k a).1 hka
          obtain ⟨hl, hb, hfb⟩ := (mem_frees _ hg emap _ l b).1 hlb
          exact huniq k a l b hk hl ha hb hfa hfb he
        · exact allPositions_nodup E p per comps
      rw [← hlen, ← hperm.length_eq, List.length_map]
    intro v
    rw [← hm, numbers_range _ hg emap _ N m hdet v]
    constructor
    · rintro ⟨k, a, hk, ha, hv⟩
      obtain ⟨i, hi, rfl⟩ := exists_index h k hk
      exact ⟨i, a, hi, (mem_slots p comps hc a).1 ha, (hgives i a v hi).2 hv⟩
    · rintro ⟨i, a, hi, ha, hv⟩
      exact ⟨_, a, hlt i hi, (mem_slots p comps hc a).2 ha, (hgives i a v hi).1 hv⟩

end

/-! ## The mesh of one region is a grid -/

/-- which directions are periodic. -/
def perDirs (per : List (Nat × Nat × Nat)) (d : Nat) : Bool := per.any fun x => x.2.1 / 2 == d

/-- **C04, link to C35 and C36.** The element map of a mesh with one region is a grid: with any of the numberings, any
boundary names, and periodic in the directions of the periodic pairs. -/
theorem c04_region_is_grid (E : EArr) (hE : Numbers 0 E) (hpos : ∀ d, d < E.shape.length → 0 < E.shape.getD d 0)
    (names : Nat → Nat) (per : List (Nat × Nat × Nat)) (hr : ∀ x ∈ per, x.1 = 0 ∧ x.2.2 = 0)
    (hper : PerOK E.shape.length [E] (fun _ j => .bnd (names j)) per)
    (htwo : ∀ d, d < E.shape.length → perDirs per d = true → 2 ≤ E.shape.getD d 0)
    (ps : List Pair) (hps : allPairs [E] per = some ps) :
    Grid E (perDirs per) (meshMap E.shape.length [E] (fun _ j => .bnd (names j)) ps) := by
  have hlen : ∀ (r : Nat) (F : EArr), [E][r]? = some F → r = 0 ∧ F = E := by
    intro r F hF
    cases r with
    | zero => exact ⟨rfl, (by simpa using hF.symm)⟩
    | succ r => exact absurd hF (by simp)
  have hOK : MeshOK E.shape.length [E] (fun _ j => .bnd (names j)) := by
    refine ⟨?_, ?_, ?_⟩
    · intro r F hF
      obtain ⟨rfl, rfl⟩ := hlen r F hF
      exact hE
    · intro r F hF
      obtain ⟨rfl, rfl⟩ := hlen r F hF
      exact ⟨rfl, hpos⟩
    · intro r j s _ _ hs
      exact absurd hs (by simp)
  have hall : ∀ e, e < total [E] → (elementMap E.shape.length [E] (fun _ j => .bnd (names j)) e).isSome := by
    intro e he
    obtain ⟨r, F, i, hF, hi, rfl⟩ := exists_element [E] hOK.num e he
    obtain ⟨rfl, rfl⟩ := hlen r F hF
    unfold elementMap
    rw [find_eq [F] hOK.num 0 F hF i hi]
    simp only [Option.bind_some]
    have : ∀ j, (fetchSide [F] (fun _ j => .bnd (names j)) 0 i j).isSome := by
      intro j
      unfold fetchSide
      simp only [List.getElem?_cons_zero, Option.bind_some]
      split <;> split <;> rfl
    generalize List.range (2 * F.shape.length) = l
    induction l with
    | nil => rfl
    | cons x l ih =>
      rw [List.mapM_cons]
      obtain ⟨y, hy⟩ := Option.isSome_iff_exists.1 (this x)
      obtain ⟨ys, hys⟩ := Option.isSome_iff_exists.1 ih
      rw [hy, hys]
      rfl
  have hmap : ∀ i j k, InBox E.shape i → j < 2 * E.shape.length →
      ((meshMap E.shape.length [E] (fun _ j => .bnd (names j)) ps (E.at_ i))[j]? = some (some k) ↔
        neighbour E.shape.length [E] (fun _ j => .bnd (names j)) ps (E.at_ i) j = some k) := by
    intro i j k _ hj
    unfold meshMap
    rw [List.getElem?_map, List.getElem?_range hj, Option.map_some, Option.some.injEq]
  have hE0 : [E][0]? = some E := rfl
  have hlt : ∀ i, InBox E.shape i → E.at_ i < total [E] := fun i hi => at_lt_total [E] hOK.num 0 E hE0 i hi
  /- at the end of a direction -/
  have hend : ∀ i j k, InBox E.shape i → j < 2 * E.shape.length → atEnd E i j →
      neighbour E.shape.length [E] (fun _ j => .bnd (names j)) ps (E.at_ i) j = some k → perDirs per (j / 2) = true := by
    intro i j k hi hj hat hn
    obtain ⟨m, hm, hmj⟩ := (neighbour_eq _ _ _ _ _ _ _).1 hn
    obtain ⟨m0, hm0, hmm⟩ := Option.map_eq_some_iff.1 hm
    by_cases hin : (E.at_ i, j) ∈ ps.flatMap ends
    · have := (allPairs_subperm [E] per ps hps).subset hin
      obtain ⟨y, hy, hey⟩ := List.mem_flatMap.1 this
      have hyj : y.2 = j := by
        unfold sideEnds at hey
        cases hF : [E][y.1]? with
        | none => rw [hF] at hey; exact absurd hey (by simp)
        | some F =>
          rw [hF] at hey
          simp only [List.mem_map, Prod.mk.injEq] at hey
          obtain ⟨_, _, _, h2⟩ := hey
          exact h2
      obtain ⟨x, hx, hxy⟩ := mem_regionEnds per y hy
      unfold perDirs
      rw [List.any_eq_true]
      refine ⟨x, hx, ?_⟩
      rw [beq_iff_eq, ← hyj]
      rcases hxy with rfl | rfl
      · rfl
      · exact (opp_div _).symm
    · exfalso
      have h1 := foldl_not (E.at_ i) j ps m0 hin
      rw [hmm, hmj] at h1
      obtain ⟨_, hget⟩ := elementMap_get _ [E] _ hOK.num 0 E hE0 i hi m0 hm0
      have h2 := hget j hj
      rw [← h1] at h2
      rcases fetchSide_cases _ [E] _ hOK 0 E hE0 i hi j hj _ h2 with ⟨_, b, _, hb⟩ | ⟨_, s, _, hs, _⟩ | ⟨hno, _⟩
      · exact absurd hb (by simp)
      · exact absurd hs (by simp)
      · exact hno hat
  have hwrap : ∀ i j, InBox E.shape i → j < 2 * E.shape.length → atEnd E i j → perDirs per (j / 2) = true →
      neighbour E.shape.length [E] (fun _ j => .bnd (names j)) ps (E.at_ i) j =
        some (E.at_ (i.set (j / 2) (if j % 2 = 0 then E.shape.getD (j / 2) 0 - 1 else 0))) := by
    intro i j hi hj hat hp
    unfold perDirs at hp
    rw [List.any_eq_true] at hp
    obtain ⟨⟨r, j', s⟩, hx, hd⟩ := hp
    obtain ⟨rfl, rfl⟩ := hr _ hx
    rw [beq_iff_eq] at hd
    simp only at hd
    have hd' : j / 2 < E.shape.length := by omega
    by_cases hjj : j' = j
    · subst hjj
      exact c36_periodic _ [E] _ hOK per hper ps hps hall 0 j' 0 hx E E hE0 hE0 (fun _ _ _ => rfl) i hi hat
    · have hjo : j' = opp j := by
        have h1 := opp_div j
        have h2 := opp_mod j
        omega
      have hil := hi.1
      have hbox : InBox E.shape (i.set (j / 2) (if j % 2 = 0 then E.shape.getD (j / 2) 0 - 1 else 0)) := by
        apply inBox_set _ _ _ _ hi hd'
        have := hpos _ hd'
        split <;> omega
      have hat' : atEnd E (i.set (j / 2) (if j % 2 = 0 then E.shape.getD (j / 2) 0 - 1 else 0)) j' := by
        unfold atEnd
        rw [hd, getD_set _ _ _ _ (by omega), if_pos rfl]
        have h2 := opp_mod j
        by_cases g : j % 2 = 0
        · rw [if_pos g, if_neg (by omega)]
        · rw [if_neg g, if_pos (by omega)]
      have h1 := c36_periodic _ [E] _ hOK per hper ps hps hall 0 j' 0 hx E E hE0 hE0 (fun _ _ _ => rfl) _ hbox hat'
      have h2 := (c36_symmetric _ [E] _ hOK per hper ps hps hall _ _ _ (hlt _ hbox) (hper.side _ hx) h1).2
      simp only at h2
      rw [hjo, opp_opp] at h2
      rw [opp_div, opp_mod] at h2
      rw [List.set_set] at h2
      have hback : i.set (j / 2) (if 1 - j % 2 = 0 then E.shape.getD (j / 2) 0 - 1 else 0) = i := by
        have : i.getD (j / 2) 0 = if 1 - j % 2 = 0 then E.shape.getD (j / 2) 0 - 1 else 0 := by
          unfold atEnd at hat
          rw [hat]
          by_cases g : j % 2 = 0
          · rw [if_pos g, if_neg (by omega)]
          · rw [if_neg g, if_pos (by omega)]
        have hss := set_set_self i (j / 2) _ this 0
        rw [List.set_set] at hss
        exact hss
      rw [hback] at h2
      exact h2
  refine ⟨hE, hpos, htwo, ?_, ?_⟩
  · intro i d k hi hd
    have hd1 : (2 * d + 1) / 2 = d := by omega
    have hd2 : (2 * d + 1) % 2 = 1 := by omega
    rw [hmap i _ k hi (by omega)]
    obtain ⟨_, hup, _, _⟩ := c36_neighbour _ [E] _ hOK per hper ps hps hall 0 E hE0 i hi d hd
    have hb := hi.2 d hd
    by_cases hlast : i.getD d 0 + 1 < E.shape.getD d 0
    · rw [hup hlast, Option.some.injEq]
      constructor
      · intro hk
        exact Or.inl ⟨hlast, hk.symm⟩
      · rintro (⟨_, hk⟩ | ⟨_, hk, _⟩)
        · exact hk.symm
        · omega
    · have hat : atEnd E i (2 * d + 1) := by
        unfold atEnd
        rw [hd1, if_neg (by omega)]
        omega
      constructor
      · intro hn
        have hp := hend i (2 * d + 1) k hi (by omega) hat hn
        have := hwrap i (2 * d + 1) hi (by omega) hat hp
        rw [hn] at this
        rw [hd1, if_neg (by omega)] at this
        rw [hd1] at hp
        exact Or.inr ⟨hp, by omega, Option.some.inj this⟩
      · rintro (⟨h1, _⟩ | ⟨hp, _, rfl⟩)
        · exact absurd h1 hlast
        · rw [hwrap i (2 * d + 1) hi (by omega) hat (by rw [hd1]; exact hp), hd1, if_neg (by omega)]
  · intro i d k hi hd
    have hd1 : (2 * d) / 2 = d := by omega
    have hd2 : (2 * d) % 2 = 0 := by omega
    rw [hmap i _ k hi (by omega)]
    obtain ⟨hdown, _, _, _⟩ := c36_neighbour _ [E] _ hOK per hper ps hps hall 0 E hE0 i hi d hd
    have hb := hi.2 d hd
    by_cases hfirst : 0 < i.getD d 0
    · rw [hdown hfirst, Option.some.injEq]
      constructor
      · intro hk
        exact Or.inl ⟨hfirst, hk.symm⟩
      · rintro (⟨_, hk⟩ | ⟨_, hk, _⟩)
        · exact hk.symm
        · omega
    · have hat : atEnd E i (2 * d) := by
        unfold atEnd
        rw [hd1, if_pos hd2]
        omega
      constructor
      · intro hn
        have hp := hend i (2 * d) k hi (by omega) hat hn
        have := hwrap i (2 * d) hi (by omega) hat hp
        rw [hn] at this
        rw [hd1, if_pos hd2] at this
        rw [hd1] at hp
        exact Or.inr ⟨hp, by omega, Option.some.inj this⟩
      · rintro (⟨h1, _⟩ | ⟨hp, _, rfl⟩)
        · exact absurd h1 hfirst
        · rw [hwrap i (2 * d) hi (by omega) hat (by rw [hd1]; exact hp), hd1, if_pos hd2]

theorem correspond_isSome (j : Nat) : ∀ as bs : List Nat, as.length ≤ bs.length → (correspond j as bs).isSome := by
  intro as
  induction as with
  | nil => intro bs _; rfl
  | cons a as ih =>
    intro bs h
    cases bs with
    | nil => exact absurd h (by simp)
    | cons b bs =>
      rw [correspond, Option.isSome_map]
      exact ih bs (by simpa using h)

theorem allPairs_self (E : EArr) : ∀ per : List (Nat × Nat × Nat), (∀ x ∈ per, x.1 = 0 ∧ x.2.2 = 0) → (allPairs [E] per).isSome := by
  intro per
  induction per with
  | nil => intro _; rfl
  | cons x per ih =>
    intro h
    obtain ⟨r, j, s⟩ := x
    have h0 := h _ List.mem_cons_self
    simp only at h0
    obtain ⟨rfl, rfl⟩ := h0
    have hc := correspond_isSome j (alongSide E j) (alongSide E (opp j)) (by simp [alongSide, opp_div])
    obtain ⟨c, hc⟩ := Option.isSome_iff_exists.1 hc
    obtain ⟨t, ht⟩ := Option.isSome_iff_exists.1 (ih fun x hx => h x (List.mem_cons_of_mem _ hx))
    simp [allPairs, hc, ht]

/-- **C04 (partial), from the layout to the dofs.** A mesh with one region of any layout in 2D or 3D, numbered by any
scheme, with any periodic directions (of at least two elements): the numbering of the elements, the element map, and the
numbering of the dofs of any form of any degree all succeed, for any distribution of the elements; places have the same
number exactly if they have the same position. -/
theorem c04_one_region_partial (junk : List Nat → Nat) (sch : Scheme) (layout : List Nat) (hlay : LayoutOK layout) (names : Nat → Nat)
    (per : List (Nat × Nat × Nat)) (hr : ∀ x ∈ per, x.1 = 0 ∧ x.2.2 = 0) (hside : ∀ x ∈ per, x.2.1 < 2 * layout.length)
    (hnd : (regionEnds per).Nodup) (htwo : ∀ d, d < layout.length → perDirs per d = true → 2 ≤ layout.getD d 0)
    (p : List Nat) (hp : p.length = layout.length) (hpos : ∀ d, d < p.length → 0 < p.getD d 0)
    (comps : List (List Bool)) (hc : Comps p comps) (ranks : List (List Nat)) (hranks : ranks.flatten = List.range layout.prod) :
    ∃ E ps out, meshNumbering junk 0 [(sch, layout)] = some [E] ∧ E.shape = layout ∧ allPairs [E] per = some ps ∧
      naive (formLayout p comps) (meshMap layout.length [E] (fun _ j => .bnd (names j)) ps) ranks = some out ∧
      (∀ i a, InBox layout i → IsPlace p comps a → ∃! v, Gives out (E.at_ i) a v) ∧
      (∀ i a k b v w, InBox layout i → InBox layout k → IsPlace p comps a → IsPlace p comps b →
        Gives out (E.at_ i) a v → Gives out (E.at_ k) b w → (v = w ↔ SamePosition layout p (perDirs per) i a k b)) ∧
      (∀ v, v < (comps.map fun c => (positions layout p (perDirs per) c).prod).sum ↔
        ∃ i a, InBox layout i ∧ IsPlace p comps a ∧ Gives out (E.at_ i) a v) := by
  obtain ⟨M, h1, h2, h3⟩ := meshNumbering_ok junk [(sch, layout)] 0 (by
    intro x hx
    rw [List.mem_singleton] at hx
    rw [hx]
    exact hlay)
  have hlen : M.length = 1 := by simpa using congrArg List.length h2
  obtain ⟨E, rfl⟩ := List.length_eq_one_iff.1 hlen
  have hshape : E.shape = layout := by simpa using h2
  have hE : Numbers 0 E := by simpa [startOf_zero] using h3 0 E rfl
  obtain ⟨ps, hps⟩ := Option.isSome_iff_exists.1 (allPairs_self E per hr)
  subst hshape
  have hpos' : ∀ d, d < E.shape.length → 0 < E.shape.getD d 0 := by
    intro d hd
    rw [List.getD_eq_getElem?_getD, List.getElem?_eq_getElem hd]
    exact hlay.pos _ (List.getElem_mem hd)
  have hgrid := c04_region_is_grid E hE hpos' names per hr ⟨hside, hnd, fun x _ => ⟨⟨_, rfl⟩, ⟨_, rfl⟩⟩⟩ htwo ps hps
  obtain ⟨out, hout, g⟩ := c04_grid_partial hgrid p hp hpos comps hc ranks hranks
  exact ⟨E, ps, out, h1, rfl, hps, hout, g⟩

/-! Example: 3 x 2 elements, numbered in C order, periodic in the first direction, degrees 2 and 1. -/

def perEx : List (Nat × Nat × Nat) := [(0, 1, 0)]

example : ∃ ps, allPairs [arangeC 0 [3, 2]] perEx = some ps ∧ Grid (arangeC 0 [3, 2]) (perDirs perEx) (meshMap 2 [arangeC 0 [3, 2]] (fun _ j => .bnd j) ps) := by
  have hs : (allPairs [arangeC 0 [3, 2]] perEx).isSome := by decide
  obtain ⟨ps, hps⟩ := Option.isSome_iff_exists.1 hs
  refine ⟨ps, hps, ?_⟩
  apply c04_region_is_grid (arangeC 0 [3, 2]) (numbers_arangeC 0 [3, 2]) (by decide) (fun j => j) perEx (by decide) ?_ (by decide) ps hps
  exact ⟨by decide, by decide, fun x _ => ⟨⟨_, rfl⟩, ⟨_, rfl⟩⟩⟩

/-- 6 x 3 nodes: 6 in the periodic direction, 3 in the other. -/
example : (comps2d0.map fun c => (positions [3, 2] [2, 1] (perDirs perEx) c).prod).sum = 18 := by decide

/-! ## Any mesh -/

/-- two places are glued: they lie at the same place of a side shared by two elements. -/
inductive Glued (p : List Nat) (comps : List (List Bool)) (emap : Nat → List (Option Nat)) : Nat × (Nat × List Nat) → Nat × (Nat × List Nat) → Prop
  | refl (x) : Glued p comps emap x x
  | symm {x y} : Glued p comps emap x y → Glued p comps emap y x
  | trans {x y z} : Glued p comps emap x y → Glued p comps emap y z → Glued p comps emap x z
  | side (k l : Nat) (a b : Nat × List Nat) : Copies p comps emap k a l b → Glued p comps emap (k, a) (l, b)

/-- **C04, any mesh.** Places with the same number are always the same node, i.e. connected through shared sides, on
every mesh and for every form: no number is given to two different nodes. The converse holds exactly if every node has
only one place to which no number is passed. -/
theorem c04_any_mesh (p : List Nat) (comps : List (List Bool)) (hc : Comps p comps)
    (emap : Nat → List (Option Nat)) (n : Nat) (ranks : List (List Nat)) (hr : ranks.flatten = List.range n)
    (out : List (List (Nat × Arr (Nat × List Nat)))) (hout : naive (formLayout p comps) emap ranks = some out)
    (k l : Nat) (a b : Nat × List Nat) (ha : IsPlace p comps a) (hb : IsPlace p comps b) (v : Nat)
    (hv : Gives out k a v) (hw : Gives out l b v) : Glued p comps emap (k, a) (l, b) := by
  have hg := good_formLayout p comps hc
  obtain ⟨N, m, hdet, hval⟩ := naive_spec _ hg emap n ranks hr out hout
  obtain ⟨x, hx, rfl, hxv⟩ := hv
  obtain ⟨y, hy, rfl, hyv⟩ := hw
  have hgen := general _ hg emap n N m hdet (fun k a => ({z | Glued p comps emap (k, a) z} : Set (Nat × (Nat × List Nat)))) (by
    intro o k c a hok hk hx
    obtain ⟨_, j, hj, hplace, hnod, hown, ha⟩ := (mem_links_form p comps hc emap k a (o, c)).1 hx
    have hglue : Glued p comps emap (o, c) (k, a) :=
      Glued.side o k c a ((copies_iff p comps emap o c k a).2 ⟨j, hj, (onSide_iff p comps j c).2 ⟨hnod, hown⟩, ha⟩)
    ext z
    exact ⟨fun h => Glued.trans (Glued.symm hglue) h, fun h => Glued.trans hglue h⟩)
  have hset := hgen.1 x.1 a y.1 b (hval x hx).1 (hval y hy).1 ((mem_slots p comps hc a).2 ha) ((mem_slots p comps hc b).2 hb) (by
    rw [← (hval x hx).2, ← (hval y hy).2, hxv, hyv])
  have : (y.1, b) ∈ ({z | Glued p comps emap (x.1, a) z} : Set (Nat × (Nat × List Nat))) := by
    rw [hset]
    exact Glued.refl _
  exact this

/-! Nine regions with one element each in a 3 x 3 arrangement, in an order that starts next to a corner and winds around
the middle, so that each region has a neighbour earlier in the order. -/

/-- the arrangement: `grid9 x y` is the number of the region in column `x` and row `y`. -/
def grid9 (x y : Nat) : Option Nat :=
  (([[1, 0, 8], [2, 7, 6], [3, 4, 5]] : List (List Nat))[x]?).bind fun c => c[y]?

/-- column and row of a region. -/
def place9 (r : Nat) : Nat × Nat :=
  ([(0, 1), (0, 0), (1, 0), (2, 0), (2, 1), (2, 2), (1, 2), (1, 1), (0, 2)] : List (Nat × Nat)).getD r (0, 0)

def rmap9 (r j : Nat) : Att :=
  let x := (place9 r).1
  let y := (place9 r).2
  let other := match j with
    | 0 => if x = 0 then none else grid9 (x - 1) y
    | 1 => grid9 (x + 1) y
    | 2 => if y = 0 then none else grid9 x (y - 1)
    | _ => grid9 x (y + 1)
  match other with
  | some s => .other s
  | none => .bnd 0

def mesh9 : List EArr := (List.range 9).map fun r => arangeF r [1, 1]

/-- the number of a place in the output. -/
def lookupNumber (out : Option (List (List (Nat × Arr (Nat × List Nat))))) (k : Nat) (a : Nat × List Nat) : Option Nat :=
  out.bind fun o => ((o.flatten.find? fun x => x.1 = k).bind fun x => x.2 a)

/-- **C04 is false as stated.** For the nine regions the numbering of 0-forms (degree 1) succeeds, but the corner shared by
the elements 0, 6, 7 and 8 gets two numbers, one in element 0 and another one in element 6, although the two places are
glued through the sides of element 8. -/
theorem c04_not_always :
    (∀ r < 9, ∀ j < 4, ∀ s < 9, rmap9 r j = .other s → rmap9 s (opp j) = .other r) ∧
    let out := naive (formLayout [1, 1] comps2d0) (meshMap 2 mesh9 rmap9 []) [List.range 9]
    lookupNumber out 0 (0, [1, 1]) ≠ lookupNumber out 6 (0, [0, 0]) ∧
      (lookupNumber out 0 (0, [1, 1])).isSome ∧ (lookupNumber out 6 (0, [0, 0])).isSome ∧
      Glued [1, 1] comps2d0 (meshMap 2 mesh9 rmap9 []) (0, (0, [1, 1])) (6, (0, [0, 0])) := by
  refine ⟨by decide, by decide, by decide, by decide, ?_⟩
  refine Glued.trans (y := (8, (0, [1, 0]))) (Glued.side _ _ _ _ ?_) (Glued.side _ _ _ _ ?_)
  · exact ⟨1, 1, by decide, by decide, by decide, by decide, by decide⟩
  · exact ⟨0, 1, by decide, by decide, by decide, by decide, by decide⟩

end Mifem.Props
