import Verif.Model.EdgeEl
import Mathlib.Data.List.Basic
import Mathlib.Data.List.Nodup
import Mathlib.Data.List.GetD
import Mathlib.Data.List.Induction
import Mathlib.Tactic.Ring

/-!
# C82: edge and node elements know their positions, their boundaries and what is around them
-/

namespace Mifem.Props
open Mifem Mifem.EdgeEl

/-! ## positions -/

section pos
variable {P : Type*}

/-- the positions of an edge element in the order of mesh elements. -/
def placesOf (occ : List (Nat × P)) (e : Nat) : List P := (occ.filter fun x => x.1 = e).map (·.2)

theorem placesOf_snoc (occ : List (Nat × P)) (x : Nat × P) (e : Nat) :
    placesOf (occ ++ [x]) e = placesOf occ e ++ (if x.1 = e then [x.2] else []) := by
  unfold placesOf
  rw [List.filter_append, List.map_append]
  by_cases h : x.1 = e <;> simp [h]

theorem locStep_inv (full : Nat) (hf : 1 ≤ full) (occ : List (Nat × P)) (e : Nat) :
    let D := occ.foldl (locStep full) (fun _ => [], fun _ => none)
    let n := (placesOf occ e).length
    D.1 e = (placesOf occ e).drop (full * (n / full)) ∧
    D.2 e = if n < full then none else some (((placesOf occ e).drop (full * (n / full - 1))).take full) := by
  induction occ using List.reverseRecOn with
  | nil => simp [placesOf]; omega
  | append_singleton occ x ih =>
    simp only [List.foldl_append, List.foldl_cons, List.foldl_nil] at ih ⊢
    obtain ⟨h1, h2⟩ := ih
    rw [placesOf_snoc]
    by_cases hx : x.1 = e
    · subst hx
      rw [if_pos rfl]
      generalize occ.foldl (locStep full) (fun _ => [], fun _ => none) = D at *
      generalize placesOf occ x.1 = L at *
      have hdm := Nat.div_add_mod L.length full
      have hml := Nat.mod_lt L.length hf
      have hlen : (D.1 x.1 ++ [x.2]).length = L.length % full + 1 := by
        rw [h1]; simp; omega
      unfold locStep
      simp only [hlen]
      simp only [List.length_append, List.length_cons, List.length_nil, Nat.zero_add]
      have hle : full * (L.length / full) ≤ L.length := by omega
      by_cases hfull : L.length % full + 1 = full
      · have hq : (L.length + 1) / full = L.length / full + 1 := by
          have : L.length + 1 = full * (L.length / full + 1) := by rw [Nat.mul_add]; omega
          rw [this, Nat.mul_div_cancel_left _ hf]
        have hge : ¬ L.length + 1 < full := by
          have : L.length % full ≤ L.length := Nat.mod_le _ _
          omega
        rw [if_pos hfull, hq]
        simp only [if_true, hge, if_false, Nat.add_sub_cancel]
        refine ⟨?_, ?_⟩
        · rw [List.drop_eq_nil_iff.2]
          simp only [List.length_append, List.length_cons, List.length_nil, Nat.mul_add]
          omega
        · rw [h1, List.drop_append_of_le_length hle, List.take_of_length_le]
          simp only [List.length_append, List.length_cons, List.length_nil, List.length_drop]
          omega
      · have hq : (L.length + 1) / full = L.length / full := by
          have : L.length + 1 = full * (L.length / full) + (L.length % full + 1) := by omega
          conv_lhs => rw [this]
          rw [Nat.mul_add_div hf, Nat.div_eq_of_lt (show L.length % full + 1 < full by omega), Nat.add_zero]
        rw [if_neg hfull, hq]
        simp only [if_true]
        refine ⟨?_, ?_⟩
        · rw [h1, List.drop_append_of_le_length hle]
        · rw [h2]
          by_cases hlt : L.length < full
          · rw [if_pos hlt, if_pos]
            rw [Nat.mod_eq_of_lt hlt] at hfull
            omega
          · rw [if_neg hlt, if_neg (by omega)]
            have h1q : 1 ≤ L.length / full := (Nat.one_le_div_iff hf).2 (by omega)
            have hm : full * (L.length / full - 1) + full = full * (L.length / full) := by
              rw [← Nat.mul_succ]; congr 1; omega
            rw [List.drop_append_of_le_length (by omega), List.take_append_of_le_length]
            rw [List.length_drop]; omega
    · rw [if_neg hx, List.append_nil]
      have hx' : ¬ e = x.1 := fun h => hx h.symm
      unfold locStep
      simp only
      split
      · simp only [hx', if_false]; exact ⟨h1, h2⟩
      · simp only [hx', if_false]; exact ⟨h1, h2⟩

/-- What the positions of an edge (`full = 4`) or node element (`full = 8`) are exactly: of `n` places the code keeps
those after the last full group, or the last group if it is full. -/
theorem c82_locations (full : Nat) (hf : 1 ≤ full) (occ : List (Nat × P)) (e : Nat) :
    locations full occ e = if placesOf occ e = [] then none
      else some ((placesOf occ e).drop (full * (((placesOf occ e).length - 1) / full))) := by
  obtain ⟨h1, h2⟩ := locStep_inv full hf occ e
  unfold locations
  rw [h1, h2]
  generalize placesOf occ e = L
  have hdm := Nat.div_add_mod L.length full
  have hml := Nat.mod_lt L.length hf
  by_cases h0 : L = []
  · subst h0; simp; omega
  · rw [if_neg h0]
    have hpos : 1 ≤ L.length := List.length_pos_iff.2 h0
    by_cases hr : L.length % full = 0
    · have hL : L.length = full * (L.length / full) := by omega
      have h1q : 1 ≤ L.length / full := by
        rcases Nat.eq_zero_or_pos (L.length / full) with h | h
        · rw [h] at hL; omega
        · exact h
      have hm : full * (L.length / full - 1) + full = full * (L.length / full) := by
        rw [← Nat.mul_succ]; congr 1; omega
      have hq : (L.length - 1) / full = L.length / full - 1 := by
        have : L.length - 1 = full * (L.length / full - 1) + (full - 1) := by omega
        conv_lhs => rw [this]
        rw [Nat.mul_add_div hf, Nat.div_eq_of_lt (show full - 1 < full by omega), Nat.add_zero]
      rw [if_pos (List.drop_eq_nil_iff.2 (by omega)), if_neg (by omega), hq, List.take_of_length_le]
      rw [List.length_drop]; omega
    · have hq : (L.length - 1) / full = L.length / full := by
        have : L.length - 1 = full * (L.length / full) + (L.length % full - 1) := by omega
        conv_lhs => rw [this]
        rw [Nat.mul_add_div hf, Nat.div_eq_of_lt (show L.length % full - 1 < full by omega), Nat.add_zero]
      rw [if_neg, hq]
      rw [List.drop_eq_nil_iff]
      omega

/-- All positions are there if the edge is at no more than 4 corner edges (the node at no more than 8 corners). -/
theorem c82_positions_partial (full : Nat) (hf : 1 ≤ full) (occ : List (Nat × P)) (e : Nat) (h : (placesOf occ e).length ≤ full)
    (hne : placesOf occ e ≠ []) : locations full occ e = some (placesOf occ e) := by
  rw [c82_locations full hf, if_neg hne]
  have : ((placesOf occ e).length - 1) / full = 0 := Nat.div_eq_of_lt (by omega)
  rw [this]; simp

/-- With more, positions are always lost. -/
theorem c82_positions_lost (full : Nat) (hf : 1 ≤ full) (occ : List (Nat × P)) (e : Nat) (h : full < (placesOf occ e).length) :
    ∃ l, locations full occ e = some l ∧ l.length ≤ full ∧ l.length < (placesOf occ e).length := by
  have hne : placesOf occ e ≠ [] := by intro h0; rw [h0] at h; simp at h
  rw [c82_locations full hf, if_neg hne]
  have hdm := Nat.div_add_mod ((placesOf occ e).length - 1) full
  have hml := Nat.mod_lt ((placesOf occ e).length - 1) hf
  refine ⟨_, rfl, ?_, ?_⟩ <;> rw [List.length_drop] <;> omega

end pos

/-- The places are exactly those where the map of the mesh elements has the edge. -/
theorem c82_places {α : Type*} (names : List α) (map : Nat → List Nat) (N e m : Nat) (a : α) :
    (m, a) ∈ placesOf (occurrences names map N) e ↔ m < N ∧ (e, a) ∈ (map m).zip names := by
  simp only [placesOf, occurrences, List.mem_map, List.mem_filter, List.mem_flatMap, List.mem_range]
  constructor
  · rintro ⟨x, ⟨⟨i, hi, y, hy, rfl⟩, hx⟩, h⟩
    simp only [decide_eq_true_eq, Prod.mk.injEq] at hx h
    obtain ⟨rfl, rfl⟩ := h
    rw [← hx]
    exact ⟨hi, hy⟩
  · rintro ⟨hm, h⟩
    exact ⟨(e, (m, a)), ⟨⟨m, hm, (e, a), h, rfl⟩, by simp⟩, rfl⟩

/-- The mesh elements that share an edge element: those of its positions, each once. -/
theorem c82_shared {α : Type*} (ps : List (Nat × α)) : (sharedBy ps).Nodup ∧ ∀ m, m ∈ sharedBy ps ↔ ∃ a, (m, a) ∈ ps := by
  unfold sharedBy
  induction ps using List.reverseRecOn with
  | nil => simp
  | append_singleton ps p ih =>
    rw [List.foldl_append, List.foldl_cons, List.foldl_nil]
    generalize ps.foldl _ [] = s at *
    obtain ⟨h1, h2⟩ := ih
    have hp : ∀ m, (∃ a, (m, a) ∈ ps ++ [p]) ↔ (∃ a, (m, a) ∈ ps) ∨ m = p.1 := by
      intro m
      constructor
      · rintro ⟨a, ha⟩
        rcases List.mem_append.1 ha with ha | ha
        · exact Or.inl ⟨a, ha⟩
        · rw [List.mem_singleton] at ha; exact Or.inr (by rw [← ha])
      · rintro (⟨a, ha⟩ | rfl)
        · exact ⟨a, List.mem_append_left _ ha⟩
        · exact ⟨p.2, List.mem_append_right _ (by simp)⟩
    by_cases hc : p.1 ∈ s
    · rw [if_pos (by simpa using hc)]
      refine ⟨h1, fun m => ?_⟩
      rw [hp, h2]
      constructor
      · exact Or.inl
      · rintro (h | rfl)
        · exact h
        · exact (h2 _).1 hc
    · rw [if_neg (by simpa using hc)]
      refine ⟨?_, fun m => ?_⟩
      · rw [List.nodup_append]
        refine ⟨h1, by simp, ?_⟩
        intro a ha b hb
        rw [List.mem_singleton] at hb
        rintro rfl
        exact hc (hb ▸ ha)
      · rw [hp, List.mem_append, List.mem_singleton, h2]

/-! ## boundaries -/

theorem mem_addNew (l : List String) (b x : String) : x ∈ addNew l b ↔ x ∈ l ∨ x = b := by
  unfold addNew
  by_cases h : b ∈ l
  · rw [if_pos (by simpa using h)]
    constructor
    · exact Or.inl
    · rintro (h' | rfl)
      · exact h'
      · exact h
  · rw [if_neg (by simpa using h)]; simp

theorem nodup_addNew (l : List String) (b : String) (h : l.Nodup) : (addNew l b).Nodup := by
  unfold addNew
  by_cases hb : b ∈ l
  · rw [if_pos (by simpa using hb)]; exact h
  · rw [if_neg (by simpa using hb), List.nodup_append]
    refine ⟨h, by simp, ?_⟩
    intro a ha c hc
    rw [List.mem_singleton] at hc
    rintro rfl
    exact hb (hc ▸ ha)

theorem foldl_addNew (bs l : List String) (h : l.Nodup) :
    (bs.foldl addNew l).Nodup ∧ ∀ x, x ∈ bs.foldl addNew l ↔ x ∈ l ∨ x ∈ bs := by
  induction bs generalizing l with
  | nil => simp [h]
  | cons b bs ih =>
    obtain ⟨h1, h2⟩ := ih (addNew l b) (nodup_addNew l b h)
    refine ⟨h1, fun x => ?_⟩
    rw [List.foldl_cons, h2, mem_addNew, List.mem_cons, or_assoc]

theorem ownFaces {side : Nat → Nat → Option String} (m : Nat) (fs : List Nat) (l : List String) (h : l.Nodup) :
    let r := fs.foldl (fun l f => match side m f with
      | some b => addNew l b
      | none => l) l
    r.Nodup ∧ ∀ x, x ∈ r ↔ x ∈ l ∨ ∃ f ∈ fs, side m f = some x := by
  induction fs generalizing l with
  | nil => simp [h]
  | cons f fs ih =>
    simp only [List.foldl_cons]
    cases hs : side m f with
    | none =>
      obtain ⟨h1, h2⟩ := ih l h
      refine ⟨h1, fun x => ?_⟩
      rw [h2]
      simp [hs]
    | some b =>
      obtain ⟨h1, h2⟩ := ih (addNew l b) (nodup_addNew l b h)
      refine ⟨h1, fun x => ?_⟩
      rw [h2, mem_addNew]
      simp only [List.mem_cons, exists_eq_or_imp, hs, Option.some.injEq, or_assoc]
      rw [eq_comm (a := x)]

theorem ownBnds_spec {α : Type*} (faces : α → List Nat) (side : Nat → Nat → Option String) (core : List Nat)
    (ps : List (Nat × α)) :
    (ownBnds faces side core ps).Nodup ∧
    ∀ x, x ∈ ownBnds faces side core ps ↔ ∃ p ∈ ps, p.1 ∈ core ∧ ∃ f ∈ faces p.2, side p.1 f = some x := by
  unfold ownBnds
  induction ps using List.reverseRecOn with
  | nil => simp
  | append_singleton ps p ih =>
    rw [List.foldl_append, List.foldl_cons, List.foldl_nil]
    generalize ps.foldl _ [] = s at *
    obtain ⟨h1, h2⟩ := ih
    by_cases hc : p.1 ∈ core
    · rw [if_pos (by simpa using hc)]
      obtain ⟨k1, k2⟩ := ownFaces (side := side) p.1 (faces p.2) s h1
      refine ⟨k1, fun x => ?_⟩
      refine (k2 x).trans ?_
      rw [h2]
      simp [or_and_right, exists_or, hc]
    · rw [if_neg (by simpa using hc)]
      refine ⟨h1, fun x => ?_⟩
      rw [h2]
      simp [or_and_right, exists_or, hc]

/-- On every core, the boundaries of an edge (or node) element are exactly those on a side of one of its positions, whichever
core holds the mesh element; each boundary once. So all cores agree. -/
theorem c82_boundaries {α : Type*} (faces : α → List Nat) (side : Nat → Nat → Option String) (cores : List (List Nat)) (i : Nat)
    (hi : i < cores.length) (ps : List (Nat × α)) :
    (allBnds faces side cores i ps).Nodup ∧
    ∀ b, b ∈ allBnds faces side cores i ps ↔
      ∃ p ∈ ps, (∃ core ∈ cores, p.1 ∈ core) ∧ ∃ f ∈ faces p.2, side p.1 f = some b := by
  have key : ∀ (n : Nat) (own : List String), own = ownBnds faces side (cores.getD i []) ps →
      let r := (List.range n).foldl (fun l r => if r = i then l
        else ((ownBnds faces side (cores.getD r []) ps).filter fun b => !own.contains b).foldl addNew l) own
      r.Nodup ∧ ∀ b, b ∈ r ↔ b ∈ own ∨ ∃ k < n, b ∈ ownBnds faces side (cores.getD k []) ps := by
    intro n own hown
    induction n with
    | zero =>
      have := (ownBnds_spec faces side (cores.getD i []) ps).1
      rw [← hown] at this
      simp [this]
    | succ n ih =>
      simp only at ih ⊢
      rw [List.range_succ, List.foldl_append, List.foldl_cons, List.foldl_nil]
      generalize (List.range n).foldl _ own = r at *
      obtain ⟨h1, h2⟩ := ih
      by_cases hn : n = i
      · rw [if_pos hn]
        refine ⟨h1, fun b => ?_⟩
        rw [h2]
        constructor
        · rintro (h | ⟨k, hk, h⟩)
          · exact Or.inl h
          · exact Or.inr ⟨k, by omega, h⟩
        · rintro (h | ⟨k, hk, h⟩)
          · exact Or.inl h
          · by_cases hkn : k = n
            · rw [hkn, hn, ← hown] at h; exact Or.inl h
            · exact Or.inr ⟨k, by omega, h⟩
      · rw [if_neg hn]
        obtain ⟨k1, k2⟩ := foldl_addNew ((ownBnds faces side (cores.getD n []) ps).filter fun b => !own.contains b) r h1
        refine ⟨k1, fun b => ?_⟩
        rw [k2, h2, List.mem_filter]
        constructor
        · rintro ((h | ⟨k, hk, h⟩) | ⟨h, _⟩)
          · exact Or.inl h
          · exact Or.inr ⟨k, by omega, h⟩
          · exact Or.inr ⟨n, by omega, h⟩
        · rintro (h | ⟨k, hk, h⟩)
          · exact Or.inl (Or.inl h)
          · by_cases hkn : k = n
            · subst hkn
              by_cases ho : b ∈ own
              · exact Or.inl (Or.inl ho)
              · exact Or.inr ⟨h, by simpa using ho⟩
            · exact Or.inl (Or.inr ⟨k, by omega, h⟩)
  obtain ⟨h1, h2⟩ := key cores.length _ rfl
  refine ⟨h1, fun b => ?_⟩
  have h2' : b ∈ allBnds faces side cores i ps ↔ _ := h2 b
  rw [h2']
  constructor
  · intro h
    obtain ⟨k, hk, h⟩ : ∃ k < cores.length, b ∈ ownBnds faces side (cores.getD k []) ps := by
      rcases h with h | ⟨k, hk, h⟩
      · exact ⟨i, hi, h⟩
      · exact ⟨k, hk, h⟩
    obtain ⟨p, hp, hc, hf⟩ := ((ownBnds_spec faces side _ ps).2 b).1 h
    rw [List.getD_eq_getElem _ _ hk] at hc
    exact ⟨p, hp, ⟨_, List.getElem_mem hk, hc⟩, hf⟩
  · rintro ⟨p, hp, ⟨core, hcore, hc⟩, hf⟩
    obtain ⟨k, hk, rfl⟩ := List.getElem_of_mem hcore
    refine Or.inr ⟨k, hk, ((ownBnds_spec faces side _ ps).2 b).2 ⟨p, hp, ?_, hf⟩⟩
    rw [List.getD_eq_getElem _ _ hk]; exact hc

/-! ## amounts numbered before -/

/-- how many edge elements of the three directions have numbers below `i`. -/
def amountsBefore (dirs : List Dir) (i : Nat) : Nat × Nat × Nat :=
  ((dirs.take i).count .NS, (dirs.take i).count .WE, (dirs.take i).count .BF)

theorem amountsBefore_succ (dirs : List Dir) (i : Nat) (h : i < dirs.length) :
    amountsBefore dirs (i + 1) = bump dirs[i] (amountsBefore dirs i) := by
  unfold amountsBefore
  rw [List.take_succ_eq_append_getElem h]
  simp only [List.count_append]
  cases dirs[i] <;> rfl

theorem amountsBefore_sum (dirs : List Dir) (i : Nat) (h : i ≤ dirs.length) :
    (amountsBefore dirs i).1 + (amountsBefore dirs i).2.1 + (amountsBefore dirs i).2.2 = i := by
  induction i with
  | zero => rfl
  | succ i ih =>
    rw [amountsBefore_succ dirs i (by omega)]
    have := ih (by omega)
    generalize amountsBefore dirs i = v at this ⊢
    obtain ⟨a, b, c⟩ := v
    cases dirs[i] <;> simp only [bump] at this ⊢ <;> omega

/-- the pool knows the right amounts for the edge elements after the processed ones. -/
def PoolOk (dirs : List Dir) (pool : Nat → Option (Nat × Nat × Nat)) (done : Nat → Prop) : Prop :=
  (∀ k v, pool k = some v → v = amountsBefore dirs k) ∧ (∀ k, done k → k + 1 < dirs.length → pool (k + 1) ≠ none)

theorem poolStep_ok {dirs : List Dir} {pool : Nat → Option (Nat × Nat × Nat)} {done : Nat → Prop} (hp : PoolOk dirs pool done)
    {i : Nat} (hi : i < dirs.length) (hd : i = 0 ∨ done (i - 1)) :
    ∃ pool', poolStep dirs pool i = some (pool', amountsBefore dirs i) ∧ PoolOk dirs pool' (fun k => done k ∨ k = i) := by
  obtain ⟨h1, h2⟩ := hp
  set pool1 : Nat → Option (Nat × Nat × Nat) := if i = 0 then fun k => if k = 0 then some (0, 0, 0) else pool k else pool with hpool1
  have a1 : ∀ k v, pool1 k = some v → v = amountsBefore dirs k := by
    intro k v h
    rw [hpool1] at h
    split at h
    · by_cases hk : k = 0
      · subst hk; simp at h; rw [← h]; rfl
      · simp only [hk, if_false] at h; exact h1 k v h
    · exact h1 k v h
  have a2 : ∀ k, done k → k + 1 < dirs.length → pool1 (k + 1) ≠ none := by
    intro k hk hlt
    rw [hpool1]
    split
    · simpa using h2 k hk hlt
    · exact h2 k hk hlt
  have ai : pool1 i = some (amountsBefore dirs i) := by
    by_cases h0 : i = 0
    · subst h0; simp [hpool1]; rfl
    · have hi1 : i - 1 + 1 = i := by omega
      have := a2 (i - 1) (hd.resolve_left h0) (by omega)
      rw [hi1] at this
      obtain ⟨v, hv⟩ := Option.ne_none_iff_exists'.1 this
      rw [hv, a1 i v hv]
  unfold poolStep
  simp only [← hpool1]
  rw [ai, List.getElem?_eq_getElem hi]
  simp only
  rw [← amountsBefore_succ dirs i hi]
  cases hn : pool1 (i + 1) with
  | some w =>
    simp only
    rw [if_pos (a1 _ _ hn).symm]
    refine ⟨pool1, rfl, a1, ?_⟩
    rintro k (hk | rfl) hlt
    · exact a2 k hk hlt
    · rw [hn]; simp
  | none =>
    simp only
    by_cases hlast : i + 1 = dirs.length
    · rw [if_pos hlast, if_pos]
      · refine ⟨pool1, rfl, a1, ?_⟩
        rintro k (hk | rfl) hlt
        · exact a2 k hk hlt
        · omega
      · rw [hlast]; exact amountsBefore_sum dirs _ le_rfl
    · rw [if_neg hlast]
      refine ⟨_, rfl, ?_, ?_⟩
      · intro k v h
        simp only at h
        split at h
        · rename_i hk; subst hk; simpa using h.symm
        · exact a1 k v h
      · rintro k (hk | rfl) hlt
        · simp only; split
          · simp
          · exact a2 k hk hlt
        · simp

/-- `idx` can be processed after `done`: each one follows a processed one. -/
def Follows (done : Nat → Prop) (idx : List Nat) : Prop :=
  ∀ j, ∀ h : j < idx.length, idx[j] = 0 ∨ done (idx[j] - 1) ∨ idx[j] - 1 ∈ idx.take j

theorem poolCore_ok {dirs : List Dir} (idx : List Nat) {pool : Nat → Option (Nat × Nat × Nat)} {done : Nat → Prop}
    (hp : PoolOk dirs pool done) (hi : ∀ i ∈ idx, i < dirs.length) (hf : Follows done idx) :
    ∃ pool', poolCore dirs pool idx = some (pool', idx.map fun i => (i, amountsBefore dirs i)) ∧
      PoolOk dirs pool' (fun k => done k ∨ k ∈ idx) := by
  induction idx generalizing pool done with
  | nil => exact ⟨pool, rfl, hp.1, by simpa using hp.2⟩
  | cons i idx ih =>
    have h0 := hf 0 (by simp)
    simp only [List.getElem_cons_zero, List.take_zero, List.not_mem_nil, or_false] at h0
    obtain ⟨pool', e1, hp'⟩ := poolStep_ok hp (hi i List.mem_cons_self) h0
    have hf' : Follows (fun k => done k ∨ k = i) idx := by
      intro j hj
      have := hf (j + 1) (by simpa using hj)
      simp only [List.getElem_cons_succ, List.take_succ_cons, List.mem_cons] at this
      rcases this with h | h | h | h
      · exact Or.inl h
      · exact Or.inr (Or.inl (Or.inl h))
      · exact Or.inr (Or.inl (Or.inr h))
      · exact Or.inr (Or.inr h)
    obtain ⟨pool'', e2, hp''⟩ := ih hp' (fun k hk => hi k (List.mem_cons_of_mem _ hk)) hf'
    refine ⟨pool'', ?_, hp''.1, ?_⟩
    · unfold poolCore
      rw [e1]; simp only; rw [e2]; rfl
    · intro k hk
      refine hp''.2 k ?_
      rcases hk with h | h
      · exact Or.inl (Or.inl h)
      · rcases List.mem_cons.1 h with rfl | h
        · exact Or.inl (Or.inr rfl)
        · exact Or.inr h

theorem amountsOk_ok (dirs : List Dir) (idx : List Nat) (hi : ∀ i ∈ idx, i < dirs.length) :
    amountsOk dirs (idx.map fun i => (i, amountsBefore dirs i)) = true := by
  unfold amountsOk
  rw [List.all_eq_true]
  intro x hx
  obtain ⟨i, hmem, rfl⟩ := List.mem_map.1 hx
  have hlt := hi i hmem
  simp only [Bool.and_eq_true, beq_iff_eq]
  refine ⟨amountsBefore_sum dirs i (by omega), ?_⟩
  cases hf : (idx.map fun i => (i, amountsBefore dirs i)).find? (fun y => y.1 + 1 == i) with
  | none => rfl
  | some y =>
    simp only
    have h1 := List.find?_some hf
    have h2 := List.mem_of_find?_eq_some hf
    obtain ⟨k, hk, rfl⟩ := List.mem_map.1 h2
    simp only [beq_iff_eq] at h1
    subst h1
    rw [Nat.add_sub_cancel, List.getElem?_eq_getElem (by omega)]
    simp only [beq_iff_eq]
    exact amountsBefore_succ dirs k (by omega)

/-- each core's edge elements follow those of the cores before. -/
def CoresFollow : (Nat → Prop) → List (List Nat) → Prop
  | _, [] => True
  | done, idx :: rest => Follows done idx ∧ CoresFollow (fun k => done k ∨ k ∈ idx) rest

/-- If each core holds edge elements that extend the numbers of the cores before it without gaps, every core finds the amounts
of edge elements of the three directions numbered before each of its edge elements. -/
theorem c82_amounts (dirs : List Dir) (cores : List (List Nat)) (hi : ∀ idx ∈ cores, ∀ i ∈ idx, i < dirs.length)
    (hf : CoresFollow (fun _ => False) cores) :
    amounts dirs (fun _ => none) cores = some (cores.map fun idx => idx.map fun i => (i, amountsBefore dirs i)) := by
  have key : ∀ (cores : List (List Nat)) (done : Nat → Prop) (pool : Nat → Option (Nat × Nat × Nat)), PoolOk dirs pool done →
      (∀ idx ∈ cores, ∀ i ∈ idx, i < dirs.length) → CoresFollow done cores →
      amounts dirs pool cores = some (cores.map fun idx => idx.map fun i => (i, amountsBefore dirs i)) := by
    intro cores
    induction cores with
    | nil => intro _ _ _ _ _; rfl
    | cons idx cores ih =>
      intro done pool hp hi hf
      obtain ⟨pool', e1, hp'⟩ := poolCore_ok idx hp (hi idx List.mem_cons_self) hf.1
      unfold amounts
      rw [e1]
      simp only
      rw [if_pos (amountsOk_ok dirs idx (hi idx List.mem_cons_self)),
        ih _ _ hp' (fun l hl => hi l (List.mem_cons_of_mem _ hl)) hf.2]
      rfl
  exact key cores _ _ ⟨by simp, by simp⟩ hi hf

end Mifem.Props
