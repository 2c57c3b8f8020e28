import Verif.Model.Distribution
import Verif.Lemmas.Blocks
import Mathlib.Data.List.Perm.Basic
import Mathlib.Data.List.Perm.Subperm
import Mathlib.Algebra.BigOperators.Group.List.Basic

/-!
# Lemmas on the distribution of elements
-/

namespace Mifem.Dist
open Mifem.Mesh

theorem sum_ite_lt (r : Nat) : ∀ n, ((List.range n).map fun x => if x < r then 1 else 0).sum = min n r := by
  intro n
  induction n with
  | zero => simp
  | succ n ih =>
    rw [List.range_succ, List.map_append, List.sum_append, ih]
    simp only [List.map_cons, List.map_nil, List.sum_cons, List.sum_nil]
    split <;> omega

theorem sum_const_add (a : Nat) (g : Nat → Nat) (l : List Nat) : (l.map fun x => a + g x).sum = l.length * a + (l.map g).sum := by
  induction l with
  | nil => simp
  | cons x l ih => simp [ih, Nat.succ_mul]; omega

theorem length_split (num parts : Nat) : (split num parts).length = parts := by simp [split]

theorem sum_split (num parts : Nat) (h : 0 < parts) : (split num parts).sum = num := by
  unfold split
  rw [sum_const_add, sum_ite_lt, List.length_range, Nat.min_eq_right (Nat.mod_lt _ h).le]
  exact Nat.div_add_mod num parts

theorem chunks_length {α : Type} : ∀ (ks : List Nat) (l : List α), (chunks ks l).length = ks.length
  | [], _ => rfl
  | _ :: ks, l => by simp [chunks, chunks_length ks]

theorem chunks_flatten {α : Type} : ∀ (ks : List Nat) (l : List α), ks.sum = l.length → (chunks ks l).flatten = l
  | [], l, h => by
    have : l = [] := List.length_eq_zero_iff.1 (by simpa using h.symm)
    simp [chunks, this]
  | k :: ks, l, h => by
    rw [chunks, List.flatten_cons, chunks_flatten ks, List.take_append_drop]
    simp at h ⊢
    omega

/-- cutting what was put together. -/
theorem chunks_of_flatten {α : Type} : ∀ ls : List (List α), chunks (ls.map List.length) ls.flatten = ls
  | [] => rfl
  | l :: ls => by simp [chunks, chunks_of_flatten ls]

theorem chunks_lengths {α : Type} : ∀ (ks : List Nat) (l : List α), ks.sum ≤ l.length → (chunks ks l).map List.length = ks
  | [], _, _ => rfl
  | k :: ks, l, h => by
    simp only [List.sum_cons] at h
    rw [chunks, List.map_cons, chunks_lengths ks _ (by simp; omega), List.length_take, Nat.min_eq_left (by omega)]

theorem map_chunks {α β : Type} (f : α → β) : ∀ (ks : List Nat) (l : List α), (chunks ks l).map (List.map f) = chunks ks (l.map f)
  | [], _ => rfl
  | k :: ks, l => by simp [chunks, map_chunks f ks, List.map_take, List.map_drop]

theorem sum_flatten_nat (ls : List (List Nat)) : ls.flatten.sum = (ls.map List.sum).sum := by
  induction ls with
  | nil => rfl
  | cons l ls ih => simp [ih]

/-! ## ranges -/

theorem ranges_length : ∀ (ds : List Nat) (b : Nat), (ranges b ds).length = ds.length
  | [], _ => rfl
  | d :: ds, b => by simp [ranges, ranges_length ds]

theorem ranges_flatten : ∀ (ds : List Nat) (b : Nat), (ranges b ds).flatten = List.range' b ds.sum
  | [], b => by simp [ranges]
  | d :: ds, b => by
    rw [ranges, List.flatten_cons, ranges_flatten ds, List.sum_cons, List.range'_append_1]

theorem ranges_append (as bs : List Nat) : ∀ b, ranges b (as ++ bs) = ranges b as ++ ranges (b + as.sum) bs := by
  induction as with
  | nil => intro b; simp [ranges]
  | cons a as ih => intro b; simp [ranges, ih, Nat.add_assoc]

/-- the elements of the cores of part `k`, if the cores are cut into parts and the numbers of part `k` add up to `es[k]`. -/
theorem chunks_ranges : ∀ (ls : List (List Nat)) (b k : Nat) (l : List (List Nat)),
    (chunks (ls.map List.length) (ranges b ls.flatten))[k]? = some l →
    ∃ d, ls[k]? = some d ∧ l.flatten = List.range' (b + ((ls.map List.sum).take k).sum) d.sum
  | [], _, _, _, h => by simp [chunks] at h
  | d :: ls, b, k, l, h => by
    rw [List.flatten_cons, ranges_append, List.map_cons, chunks] at h
    rw [List.take_append_of_le_length (by rw [ranges_length]), List.take_of_length_le (by rw [ranges_length]), List.drop_append_of_le_length (by rw [ranges_length]),
      List.drop_of_length_le (by rw [ranges_length]), List.nil_append] at h
    cases k with
    | zero =>
      have : ranges b d = l := by simpa using h
      exact ⟨d, rfl, by rw [← this, ranges_flatten]; simp⟩
    | succ k =>
      obtain ⟨d', h1, h2⟩ := chunks_ranges ls (b + d.sum) k l (by simpa using h)
      exact ⟨d', by simpa using h1, by rw [h2]; simp [Nat.add_assoc]⟩

/-! ## sums over the cores of a region -/

/-- number of elements of the given cores. -/
def over (dis cores : List Nat) : Nat := (cores.map fun c => dis.getD c 0).sum

theorem over_cons (dis : List Nat) (c : Nat) (cs : List Nat) : over dis (c :: cs) = dis.getD c 0 + over dis cs := by simp [over]

theorem getD_set' (l : List Nat) (c v x : Nat) (hc : c < l.length) : (l.set c v).getD x 0 = if x = c then v else l.getD x 0 := by
  rw [List.getD_eq_getElem?_getD, List.getElem?_set]
  by_cases h : x = c
  · subst h
    simp [hc]
  · rw [if_neg (fun h' => h h'.symm), if_neg h, ← List.getD_eq_getElem?_getD]

theorem over_congr (dis dis' cores : List Nat) (h : ∀ c ∈ cores, dis.getD c 0 = dis'.getD c 0) : over dis cores = over dis' cores := by
  unfold over
  rw [List.map_congr_left h]

/-- changing the entry of one core. -/
theorem over_set (dis : List Nat) (c v : Nat) (hc : c < dis.length) : ∀ cores : List Nat, cores.Nodup →
    over (dis.set c v) cores + (if c ∈ cores then dis.getD c 0 else 0) = over dis cores + (if c ∈ cores then v else 0)
  | [], _ => by simp [over]
  | x :: cores, hnd => by
    have ih := over_set dis c v hc cores (List.nodup_cons.1 hnd).2
    rw [over_cons, over_cons, getD_set' dis c v x hc]
    by_cases h : c = x
    · subst h
      have hn := (List.nodup_cons.1 hnd).1
      rw [if_neg hn, if_neg hn] at ih
      simp
      omega
    · have hx : ¬ x = c := fun h' => h h'.symm
      rw [if_neg hx]
      by_cases hm : c ∈ cores
      · rw [if_pos hm, if_pos hm] at ih
        rw [if_pos (List.mem_cons_of_mem _ hm), if_pos (List.mem_cons_of_mem _ hm)]
        omega
      · rw [if_neg hm, if_neg hm] at ih
        rw [if_neg (by simp [h, hm]), if_neg (by simp [h, hm])]
        omega

theorem addTo_length : ∀ (os xs dis : List Nat), (addTo os xs dis).length = dis.length
  | [], _, _ => rfl
  | _ :: _, [], _ => rfl
  | c :: cs, x :: xs, dis => by rw [addTo, addTo_length, List.length_set]

theorem addTo_other (c : Nat) : ∀ (os xs dis : List Nat), c ∉ os → (∀ x ∈ os, x < dis.length) → (addTo os xs dis).getD c 0 = dis.getD c 0
  | [], _, _, _, _ => rfl
  | _ :: _, [], _, _, _ => rfl
  | o :: os, x :: xs, dis, h, hb => by
    simp only [List.mem_cons, not_or] at h
    rw [addTo, addTo_other c os xs _ h.2 (by intro y hy; rw [List.length_set]; exact hb y (List.mem_cons_of_mem _ hy)),
      getD_set' _ _ _ _ (hb o List.mem_cons_self), if_neg h.1]

theorem over_addTo (cores : List Nat) (hnd : cores.Nodup) : ∀ (os xs dis : List Nat), os.length = xs.length → (∀ o ∈ os, o ∈ cores) → (∀ o ∈ os, o < dis.length) →
    over (addTo os xs dis) cores = over dis cores + xs.sum
  | [], xs, _, hl, _, _ => by
    have : xs = [] := List.length_eq_zero_iff.1 (by simpa using hl.symm)
    simp [this, addTo]
  | o :: os, [], _, hl, _, _ => by simp at hl
  | o :: os, x :: xs, dis, hl, hm, hb => by
    rw [addTo, over_addTo cores hnd os xs _ (by simpa using hl) (fun y hy => hm y (List.mem_cons_of_mem _ hy))
      (by intro y hy; rw [List.length_set]; exact hb y (List.mem_cons_of_mem _ hy))]
    have := over_set dis o (dis.getD o 0 + x) (hb o List.mem_cons_self) cores hnd
    rw [if_pos (hm o List.mem_cons_self), if_pos (hm o List.mem_cons_self)] at this
    rw [List.sum_cons]
    omega

theorem give_length (f : Nat → Nat) (c : Nat) (os dis : List Nat) : (give f c os dis).length = dis.length := by
  unfold give
  simp only
  split
  · rfl
  · rw [List.length_set, addTo_length]

/-- giving elements away inside a region does not change their number. -/
theorem give_inside (f : Nat → Nat) (hf : ∀ m, f m ≤ m) (c : Nat) (os dis cores : List Nat) (hnd : cores.Nodup) (hc : c ∈ cores) (hos : ∀ o ∈ os, o ∈ cores) (hco : c ∉ os)
    (hne : os ≠ []) (hb : ∀ x ∈ cores, x < dis.length) : over (give f c os dis) cores = over dis cores := by
  unfold give
  simp only
  split
  · rfl
  · rename_i hm
    have hk : (if dis.getD c 0 = 3 then 2 else f (dis.getD c 0)) ≤ dis.getD c 0 := by
      split
      · omega
      · exact hf _
    generalize (if dis.getD c 0 = 3 then 2 else f (dis.getD c 0)) = keep at hk ⊢
    have hob : ∀ o ∈ os, o < dis.length := fun o ho => hb o (hos o ho)
    have h1 := over_addTo cores hnd os (split (dis.getD c 0 - keep) os.length) dis (by rw [length_split]) hos hob
    rw [sum_split _ _ (List.length_pos_of_ne_nil hne)] at h1
    have h2 := over_set (addTo os (split (dis.getD c 0 - keep) os.length) dis) c keep (by rw [addTo_length]; exact hb c hc) cores hnd
    rw [if_pos hc, if_pos hc, addTo_other c os _ dis hco hob] at h2
    omega

/-- nor does it change other cores. -/
theorem give_outside (f : Nat → Nat) (c : Nat) (os dis : List Nat) (x : Nat) (hx : x ≠ c) (hxo : x ∉ os) (hc : c < dis.length) (hb : ∀ o ∈ os, o < dis.length) :
    (give f c os dis).getD x 0 = dis.getD x 0 := by
  unfold give
  simp only
  split
  · rfl
  · rw [getD_set' _ _ _ _ (by rw [addTo_length]; exact hc), if_neg hx, addTo_other x os _ dis hxo hb]

/-- the cores of different regions are different ones. -/
structure Regions (size : Nat) (regions : List (List Nat)) : Prop where
  flat : regions.flatten = List.range size

theorem Regions.nodup {size : Nat} {regions : List (List Nat)} (h : Regions size regions) (cores : List Nat) (hm : cores ∈ regions) : cores.Nodup := by
  have := h.flat ▸ List.nodup_range (n := size)
  exact (List.nodup_flatten.1 this).1 cores hm

theorem Regions.lt {size : Nat} {regions : List (List Nat)} (h : Regions size regions) (cores : List Nat) (hm : cores ∈ regions) (c : Nat) (hc : c ∈ cores) : c < size := by
  have : c ∈ regions.flatten := List.mem_flatten.2 ⟨cores, hm, hc⟩
  rw [h.flat] at this
  exact List.mem_range.1 this

/-- one round for region `R`: a core of the region gives to others of the region. -/
theorem give_region (f : Nat → Nat) (hf : ∀ m, f m ≤ m) (c : Nat) (os dis R cores : List Nat) (hR : R.Nodup) (hcores : cores.Nodup) (hc : c ∈ R) (hos : ∀ o ∈ os, o ∈ R) (hco : c ∉ os)
    (hne : os ≠ []) (hb : ∀ x ∈ R, x < dis.length) (hd : cores = R ∨ ∀ x ∈ cores, x ∉ R) : over (give f c os dis) cores = over dis cores := by
  rcases hd with rfl | hd
  · exact give_inside f hf c os dis cores hcores hc hos hco hne hb
  · apply over_congr
    intro x hx
    exact give_outside f c os dis x (fun h => hd x hx (h ▸ hc)) (fun h => hd x hx (hos x h)) (hb c hc) (fun o ho => hb o (hos o ho))

theorem filter_ne_nil (l : List Nat) (hnd : l.Nodup) (c : Nat) (h : l.length ≠ 1) (hc : c ∈ l) : (l.filter fun x => x != c) ≠ [] := by
  intro hnil
  have hall : ∀ x ∈ l, x = c := by
    intro x hx
    have := List.filter_eq_nil_iff.1 hnil x hx
    simpa using this
  have : l = List.replicate l.length c := List.eq_replicate_iff.2 ⟨rfl, hall⟩
  rw [this] at hnd
  have h1 := List.nodup_replicate.1 hnd
  have h2 : 0 < l.length := List.length_pos_of_mem hc
  omega

theorem filter2_ne_nil (l : List Nat) (hnd : l.Nodup) (h1 : 1 ∈ l) (h : l.length ≠ 1) (h2 : ¬ (l.length = 2 ∧ 0 ∈ l)) :
    (l.filter fun x => x != 0 && x != 1) ≠ [] := by
  intro hnil
  have hall : ∀ x ∈ l, x = 0 ∨ x = 1 := by
    intro x hx
    have := List.filter_eq_nil_iff.1 hnil x hx
    simp only [Bool.and_eq_true, bne_iff_ne, not_and_or, not_not] at this
    exact this
  have hsub : l ⊆ [0, 1] := fun x hx => by simpa using hall x hx
  have hlen : l.length ≤ 2 := (List.subperm_of_subset hnd hsub).length_le
  have hpos : 0 < l.length := List.length_pos_of_mem h1
  have h2' : l.length = 2 := by omega
  by_cases h0 : 0 ∈ l
  · exact h2 ⟨h2', h0⟩
  · have hsub' : l ⊆ [1] := fun x hx => by
      rcases hall x hx with rfl | rfl
      · exact absurd hx h0
      · simp
    have := (List.subperm_of_subset hnd hsub').length_le
    simp at this
    omega

/-- the loads of the master and the secretary are changed inside their regions. -/
theorem foldl_over (step : List Nat → List Nat → List Nat) (hlen : ∀ d R, (step d R).length = d.length) (cores : List Nat) :
    ∀ (rs : List (List Nat)) (dis : List Nat), (∀ R ∈ rs, ∀ d : List Nat, d.length = dis.length → over (step d R) cores = over d cores) →
    over (rs.foldl step dis) cores = over dis cores ∧ (rs.foldl step dis).length = dis.length
  | [], _, _ => ⟨rfl, rfl⟩
  | R :: rs, dis, h => by
    have := foldl_over step hlen cores rs (step dis R) (by
      intro R' hR' d hd
      exact h R' (List.mem_cons_of_mem _ hR') d (by rw [hd, hlen]))
    rw [List.foldl_cons]
    exact ⟨this.1.trans (h R List.mem_cons_self dis rfl), this.2.trans (hlen _ _)⟩

theorem Regions.disjoint {size : Nat} {regions : List (List Nat)} (h : Regions size regions) (R cores : List Nat) (hR : R ∈ regions) (hc : cores ∈ regions) :
    cores = R ∨ ∀ x ∈ cores, x ∉ R := by
  have hnd := h.flat ▸ List.nodup_range (n := size)
  have hp := (List.nodup_flatten.1 hnd).2
  by_cases he : cores = R
  · exact Or.inl he
  · refine Or.inr fun x hx hx' => ?_
    obtain ⟨i, hi, h1⟩ := List.getElem_of_mem hR
    obtain ⟨k, hk, h2⟩ := List.getElem_of_mem hc
    have hne : i ≠ k := fun hik => he (by subst hik; rw [← h1, ← h2])
    rw [List.pairwise_iff_getElem] at hp
    rcases Nat.lt_or_gt_of_ne hne with hlt | hlt
    · have := hp i k hi hk hlt
      rw [h1, h2] at this
      exact this hx' hx
    · have := hp k i hk hi hlt
      rw [h1, h2] at this
      exact this hx hx'

theorem lightMaster_over (f : Nat → Nat) (hf : ∀ m, f m ≤ m) (size : Nat) (regions : List (List Nat)) (h : Regions size regions) (dis : List Nat) (hl : dis.length = size)
    (cores : List Nat) (hc : cores ∈ regions) : over (lightMaster f regions dis) cores = over dis cores ∧ (lightMaster f regions dis).length = dis.length := by
  unfold lightMaster
  apply foldl_over
  · intro d R
    split
    · rw [give_length]
    · rfl
  · intro R hR d hd
    split
    · rename_i hif
      have hnd := h.nodup R hR
      apply give_region f hf 0 _ d R cores hnd (h.nodup cores hc) hif.1
      · exact fun o ho => (List.mem_filter.1 ho).1
      · simp
      · exact filter_ne_nil R hnd 0 hif.2 hif.1
      · intro x hx
        rw [hd, hl]
        exact h.lt R hR x hx
      · exact h.disjoint R cores hR hc
    · rfl

theorem lightSecretary_over (g : Nat → Nat) (hg : ∀ m, g m ≤ m) (size : Nat) (regions : List (List Nat)) (h : Regions size regions) (dis : List Nat) (hl : dis.length = size)
    (cores : List Nat) (hc : cores ∈ regions) : over (lightSecretary g regions dis) cores = over dis cores ∧ (lightSecretary g regions dis).length = dis.length := by
  unfold lightSecretary
  apply foldl_over
  · intro d R
    split
    · rw [give_length]
    · rfl
  · intro R hR d hd
    split
    · rename_i hif
      have hnd := h.nodup R hR
      apply give_region g hg 1 _ d R cores hnd (h.nodup cores hc) hif.1
      · exact fun o ho => (List.mem_filter.1 ho).1
      · simp
      · exact filter2_ne_nil R hnd hif.1 hif.2.1 hif.2.2
      · intro x hx
        rw [hd, hl]
        exact h.lt R hR x hx
      · exact h.disjoint R cores hR hc
    · rfl

/-! ## from sums over the cores to parts of the list -/

theorem map_getD_range (dis : List Nat) : (List.range dis.length).map (fun c => dis.getD c 0) = dis := by
  apply List.ext_getElem
  · simp
  · intro i h1 h2
    simp only [List.getElem_map, List.getElem_range, List.getD_eq_getElem?_getD]
    rw [List.getElem?_eq_getElem h2]
    rfl

theorem chunks_over (cs dis : List Nat) (size : Nat) (hl : dis.length = size) :
    (chunks cs dis).map List.sum = (chunks cs (List.range size)).map (over dis) := by
  conv => lhs; rw [← map_getD_range dis, ← map_chunks, hl]
  rw [List.map_map]
  rfl

end Mifem.Dist
