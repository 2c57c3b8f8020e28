import Verif.Lemmas.Optimize
import Verif.Props.Naive

/-!
# C34: the elements are distributed to the cores as a partition in contiguous blocks
-/

namespace Mifem.Props
open Mifem.Mesh Mifem.Dist

/-- `ranks` (the elements of core 0, of core 1, ...) is a partition of `0..n-1` into one contiguous ascending block per core,
in the order of the cores. -/
structure IsPartition (size n : Nat) (ranks : List (List Nat)) : Prop where
  /-- there is one block per core -/
  cores : ranks.length = size
  /-- the elements of the cores are those of the mesh -/
  all : ∀ e, e < n ↔ ∃ c, e ∈ ranks.getD c []
  /-- no element belongs to two cores -/
  one : ∀ e c c', e ∈ ranks.getD c [] → e ∈ ranks.getD c' [] → c = c'
  /-- contiguous and ascending -/
  block : ∀ c, ∃ a k, ranks.getD c [] = List.range' a k
  /-- a later core has later elements -/
  order : ∀ c c' e e', c < c' → e ∈ ranks.getD c [] → e' ∈ ranks.getD c' [] → e < e'
  /-- put together, the blocks are `0, 1, ..., n-1` -/
  flat : ranks.flatten = List.range n

theorem mem_ranges_ge : ∀ (ds : List Nat) (b c e : Nat), e ∈ (ranges b ds).getD c [] → b ≤ e
  | [], _, _, _, h => by simp [ranges] at h
  | d :: ds, b, 0, e, h => by
    rw [ranges, List.getD_cons_zero, List.mem_range'_1] at h
    exact h.1
  | d :: ds, b, c + 1, e, h => by
    rw [ranges, List.getD_cons_succ] at h
    have := mem_ranges_ge ds (b + d) c e h
    omega

theorem ranges_order : ∀ (ds : List Nat) (b c c' e e' : Nat), c < c' → e ∈ (ranges b ds).getD c [] → e' ∈ (ranges b ds).getD c' [] → e < e'
  | [], _, _, _, _, _, _, h, _ => by simp [ranges] at h
  | d :: ds, b, 0, c' + 1, e, e', _, h, h' => by
    rw [ranges, List.getD_cons_zero, List.mem_range'_1] at h
    rw [ranges, List.getD_cons_succ] at h'
    have := mem_ranges_ge ds (b + d) c' e' h'
    omega
  | d :: ds, b, c + 1, c' + 1, e, e', hc, h, h' => by
    rw [ranges, List.getD_cons_succ] at h h'
    exact ranges_order ds (b + d) c c' e e' (by omega) h h'

theorem ranges_block : ∀ (ds : List Nat) (b c : Nat), ∃ a k, (ranges b ds).getD c [] = List.range' a k
  | [], _, _ => ⟨0, 0, by simp [ranges]⟩
  | d :: _, b, 0 => ⟨b, d, by simp [ranges]⟩
  | d :: ds, b, c + 1 => by
    rw [ranges, List.getD_cons_succ]
    exact ranges_block ds (b + d) c

/-- the numbers of elements determine a partition if they are as many as the cores and add up. -/
theorem ranges_partition (size n : Nat) (dis : List Nat) (hl : dis.length = size) (hs : dis.sum = n) : IsPartition size n (ranges 0 dis) where
  cores := by rw [ranges_length, hl]
  flat := by rw [ranges_flatten, hs, List.range_eq_range']
  all := by
    intro e
    have hf : (ranges 0 dis).flatten = List.range n := by rw [ranges_flatten, hs, List.range_eq_range']
    rw [← List.mem_range, ← hf, List.mem_flatten]
    constructor
    · rintro ⟨l, hl, he⟩
      obtain ⟨c, hc, rfl⟩ := List.getElem_of_mem hl
      refine ⟨c, ?_⟩
      rw [List.getD_eq_getElem?_getD, List.getElem?_eq_getElem hc]
      exact he
    · rintro ⟨c, he⟩
      by_cases hc : c < (ranges 0 dis).length
      · rw [List.getD_eq_getElem?_getD, List.getElem?_eq_getElem hc] at he
        exact ⟨_, List.getElem_mem hc, he⟩
      · rw [List.getD_eq_getElem?_getD, List.getElem?_eq_none (by omega)] at he
        exact absurd he (by simp)
  one := by
    intro e c c' h h'
    rcases Nat.lt_trichotomy c c' with hc | hc | hc
    · have := ranges_order dis 0 c c' e e hc h h'
      omega
    · exact hc
    · have := ranges_order dis 0 c' c e e hc h' h
      omega
  block := ranges_block dis 0
  order := ranges_order dis 0

/-- **C34, default method.** -/
theorem c34_default (f g : Nat → Nat) (hf : ∀ m, f m ≤ m) (hg : ∀ m, g m ≤ m) (n size : Nat) (hsize : 0 < size) :
    IsPartition size n (ranges 0 (distNone f g n size)) := by
  have key : (distNone f g n size).length = size ∧ (distNone f g n size).sum = n := by
    unfold distNone
    by_cases h1 : size = 1
    · rw [if_pos h1]; simp [h1]
    · rw [if_neg h1]
      by_cases h2 : size = 2
      · rw [if_pos h2]
        refine ⟨by simp [h2], ?_⟩
        simp
        omega
      · rw [if_neg h2]
        simp only
        have hm : (if n / size = 1 then n / size else if n / size ≤ 5 ∧ 2 < n / size then 2 else f (n / size)) ≤ n := by
          have hle : n / size ≤ n := Nat.div_le_self _ _
          have := hf (n / size)
          split
          · exact hle
          · split <;> omega
        generalize (if n / size = 1 then n / size else if n / size ≤ 5 ∧ 2 < n / size then 2 else f (n / size)) = m at hm ⊢
        have hs : (if 7 ≤ (n - m) / (size - 1) then g ((n - m) / (size - 1)) else (n - m) / (size - 1)) ≤ n - m := by
          have hle : (n - m) / (size - 1) ≤ n - m := Nat.div_le_self _ _
          have := hg ((n - m) / (size - 1))
          split <;> omega
        generalize (if 7 ≤ (n - m) / (size - 1) then g ((n - m) / (size - 1)) else (n - m) / (size - 1)) = s at hs ⊢
        refine ⟨?_, ?_⟩
        · simp only [List.length_cons, length_split]
          omega
        · rw [List.sum_cons, List.sum_cons, sum_split _ _ (by omega)]
          omega
  exact ranges_partition size n _ key.1 key.2

/-- `int(0.75 m)` and `int(0.9 m)`, for the examples. -/
def f34 (m : Nat) : Nat := 3 * m / 4
def g34 (m : Nat) : Nat := 9 * m / 10

example : (∀ m, f34 m ≤ m) ∧ ∀ m, g34 m ≤ m := by
  unfold f34 g34
  constructor <;> intro m <;> omega

example : distNone f34 g34 50 5 = [7, 9, 12, 11, 11] := by decide

theorem sum_le_of_share (share : Nat → Nat) (n S : Nat) (h : ∀ w, share w * S ≤ n * w) : ∀ ws : List Nat, (ws.map share).sum * S ≤ n * ws.sum
  | [] => by simp
  | w :: ws => by
    have h1 := h w
    have h2 := sum_le_of_share share n S h ws
    rw [List.map_cons, List.sum_cons, List.sum_cons, Nat.add_mul, Nat.mul_add]
    omega

/-- **C34, method 'chaotic'**, for all random numbers that are not all zero. The share of a core is rounded down (the
rounding errors of the quotient are far below the distance of a quotient of small integers to the next integer). -/
theorem c34_chaotic (share : Nat → Nat) (n : Nat) (ws : List Nat) (hpos : 0 < ws.sum) (hshare : ∀ w, share w * ws.sum ≤ n * w) :
    IsPartition ws.length n (ranges 0 (distChaotic share n ws)) := by
  have hne : ws ≠ [] := by
    rintro rfl
    simp at hpos
  have hlen : 0 < ws.length := List.length_pos_of_ne_nil hne
  have hle : ((ws.map share).dropLast).sum ≤ n := by
    have h1 : ((ws.map share).dropLast).sum ≤ (ws.map share).sum := by
      rw [sum_dropLast_getLast (ws.map share) _ (List.getLast?_eq_getLast_of_ne_nil (by simpa using hne))]
      omega
    have h2 := sum_le_of_share share n ws.sum hshare ws
    have h3 := Nat.le_of_mul_le_mul_right h2 hpos
    omega
  apply ranges_partition
  · simp [distChaotic]
    omega
  · unfold distChaotic
    simp only
    rw [List.sum_append]
    simp
    omega

example : ∀ w, 10 * w / [30, 0, 50].sum * [30, 0, 50].sum ≤ 10 * w := fun w => Nat.div_mul_le_self _ _

example : distChaotic (fun w => 10 * w / 80) 10 [30, 0, 50] = [3, 0, 7] := by decide

theorem sum_replicate_nat (k a : Nat) : (List.replicate k a).sum = k * a := by
  induction k with
  | zero => simp
  | succ k ih => rw [List.replicate_succ, List.sum_cons, ih, Nat.succ_mul, Nat.add_comm]

theorem chunks_map_sum (ks es : List Nat) (h : ks.sum = es.length) : ((chunks ks es).map List.sum).sum = es.sum := by
  rw [← sum_flatten_nat, chunks_flatten ks es h]

/-- the elements of region `k` when the regions have `es` elements. -/
def regionElements (es : List Nat) (k : Nat) : List Nat := List.range' (es.take k).sum (es.getD k 0)

/-- **C34, method 'cores_no_more_than_regions'**; moreover every core has the elements of whole regions only. -/
theorem c34_whole_regions (size : Nat) (es : List Nat) (hsize : 0 < size) :
    IsPartition size es.sum (ranges 0 (distRegions size es)) ∧
    ∃ parts : List (List Nat), parts.flatten = List.range es.length ∧
      ranges 0 (distRegions size es) = parts.map fun ks => ks.flatMap (regionElements es) := by
  have key : ∃ ks : List Nat, ks.length = size ∧ ks.sum = es.length ∧ distRegions size es = (chunks ks es).map List.sum := by
    unfold distRegions
    simp only
    by_cases h : es.length % size = 0
    · rw [if_pos h]
      refine ⟨_, by simp, ?_, rfl⟩
      rw [sum_replicate_nat, Nat.mul_div_cancel' (Nat.dvd_of_mod_eq_zero h)]
    · rw [if_neg h]
      exact ⟨_, by simp [length_split], by rw [List.sum_reverse, sum_split _ _ hsize], rfl⟩
  obtain ⟨ks, h1, h2, h3⟩ := key
  rw [h3]
  refine ⟨ranges_partition _ _ _ (by simp [chunks_length, h1]) (chunks_map_sum ks es h2), chunks ks (List.range es.length), ?_, ?_⟩
  · exact chunks_flatten _ _ (by simpa using h2)
  · -- by induction on the parts, with the regions before
    have gen : ∀ (ks : List Nat) (done : Nat), done + ks.sum = es.length →
        ranges (es.take done).sum ((chunks ks (es.drop done)).map List.sum) =
          (chunks ks (List.range' done (es.length - done))).map fun l => l.flatMap (regionElements es) := by
      intro ks
      induction ks with
      | nil => intro done _; rfl
      | cons k ks ih =>
        intro done hd
        rw [List.sum_cons] at hd
        have hsplit : (es.take (done + k)).sum = (es.take done).sum + ((es.drop done).take k).sum := by
          rw [List.take_add, List.sum_append]
        have hih := ih (done + k) (by omega)
        rw [chunks, chunks, List.map_cons, List.map_cons, ranges, List.drop_drop, ← hsplit, hih]
        congr 1
        · -- the regions of one core
          have hreg : ∀ (k done : Nat), done + k ≤ es.length →
              List.range' (es.take done).sum ((es.drop done).take k).sum = (List.range' done k).flatMap (regionElements es) := by
            intro k
            induction k with
            | zero => intro done _; simp
            | succ k ihk =>
              intro done hdk
              have hlt : done < es.length := by omega
              have hdrop : es.drop done = es[done] :: es.drop (done + 1) := List.drop_eq_getElem_cons hlt
              have htake : (es.take (done + 1)).sum = (es.take done).sum + es[done] := by
                rw [List.take_succ, List.getElem?_eq_getElem hlt, List.sum_append]
                simp
              rw [List.range'_succ, List.flatMap_cons, ← ihk (done + 1) (by omega), hdrop, List.take_succ_cons, List.sum_cons, htake]
              have : regionElements es done = List.range' (es.take done).sum es[done] := by
                unfold regionElements
                rw [List.getD_eq_getElem?_getD, List.getElem?_eq_getElem hlt]
                rfl
              rw [this, List.range'_append_1]
          have : es.length - done = k + (es.length - done - k) := by omega
          rw [hreg k done (by omega), this, ← List.range'_append_1, List.take_append_of_le_length (by simp), List.take_of_length_le (by simp)]
        · rw [List.drop_range', Nat.mul_one, Nat.sub_sub]
    have := gen ks 0 (by omega)
    simpa [List.range_eq_range'] using this

/-- a core with two regions comes after a core with one. -/
example : distRegions 2 [4, 5, 6] = [4, 11] := by decide

theorem swv_parts (size : Nat) (es : List Nat) (hes : 0 < es.length) (hsize : es.length ≤ size) :
    ∃ ls : List (List Nat), swvFirst size es = ls.flatten ∧ ls.map List.sum = es ∧ swvCores size es.length = chunks (ls.map List.length) (List.range size) ∧
      ls.flatten.length = size := by
  unfold swvFirst swvCores
  simp only
  have hpos : 0 < size / es.length := Nat.div_pos hsize hes
  by_cases h : es.length = 1 ∨ size % es.length = 0
  · rw [if_pos h, if_pos h]
    refine ⟨es.map fun e => split e (size / es.length), by rw [List.flatMap_def], ?_, ?_, ?_⟩
    · rw [List.map_map]
      conv => rhs; rw [← List.map_id es]
      apply List.map_congr_left
      intro e _
      exact sum_split _ _ hpos
    · rw [List.map_map]
      congr 1
      symm
      apply List.eq_replicate_iff.2
      refine ⟨by simp, ?_⟩
      intro x hx
      obtain ⟨e, _, rfl⟩ := List.mem_map.1 hx
      exact length_split _ _
    · rw [List.length_flatten, List.map_map]
      have : (es.map (List.length ∘ fun e => split e (size / es.length))) = List.replicate es.length (size / es.length) := by
        apply List.eq_replicate_iff.2
        refine ⟨by simp, ?_⟩
        intro x hx
        obtain ⟨e, _, rfl⟩ := List.mem_map.1 hx
        exact length_split _ _
      rw [this, sum_replicate_nat]
      rcases h with h | h
      · rw [h]; simp
      · exact Nat.mul_div_cancel' (Nat.dvd_of_mod_eq_zero h)
  · rw [if_neg h, if_neg h]
    have hcpos : ∀ c ∈ split size es.length, 0 < c := by
      intro c hc
      unfold split at hc
      obtain ⟨t, _, rfl⟩ := List.mem_map.1 hc
      omega
    have hlen : (split size es.length).length = es.length := length_split _ _
    have hsum : (split size es.length).sum = size := sum_split _ _ hes
    generalize split size es.length = cs at hcpos hlen hsum
    have h1 : ∀ (es cs : List Nat), cs.length = es.length → (∀ c ∈ cs, 0 < c) →
        (List.zipWith (fun e c => (split e c).reverse) es cs).map List.sum = es ∧ (List.zipWith (fun e c => (split e c).reverse) es cs).map List.length = cs := by
      intro es
      induction es with
      | nil =>
        intro cs h _
        have : cs = [] := List.length_eq_zero_iff.1 (by simpa using h)
        simp [this]
      | cons e es ih =>
        intro cs h hp
        cases cs with
        | nil => simp at h
        | cons c cs =>
          obtain ⟨i1, i2⟩ := ih cs (by simpa using h) (fun c' h' => hp c' (List.mem_cons_of_mem _ h'))
          rw [List.zipWith_cons_cons, List.map_cons, List.map_cons, i1, i2, List.sum_reverse, List.length_reverse, sum_split _ _ (hp c List.mem_cons_self), length_split]
          exact ⟨rfl, rfl⟩
    obtain ⟨g1, g2⟩ := h1 es cs hlen hcpos
    exact ⟨_, rfl, g1, by rw [g2], by rw [List.length_flatten, g2, hsum]⟩

/-- the elements of a list of numbers cut into the parts of the regions. -/
theorem parts_ranges (ls : List (List Nat)) (dis : List Nat) (size : Nat) (es : List Nat) (hls : ls.flatten.length = size) (hd : dis.length = size)
    (hsum : (chunks (ls.map List.length) dis).map List.sum = es) :
    IsPartition size es.sum (ranges 0 dis) ∧ ∀ (k : Nat) cores, (chunks (ls.map List.length) (List.range size))[k]? = some cores →
      cores.flatMap (fun c => (ranges 0 dis).getD c []) = regionElements es k := by
  have hks : (ls.map List.length).sum = size := by rw [← hls, List.length_flatten]
  have hflat : (chunks (ls.map List.length) dis).flatten = dis := chunks_flatten _ _ (by rw [hks, hd])
  refine ⟨ranges_partition size es.sum dis hd (by rw [← hsum, ← sum_flatten_nat, hflat]), ?_⟩
  intro k cores hk
  have hlens : (chunks (ls.map List.length) dis).map List.length = ls.map List.length := chunks_lengths _ _ (by rw [hks, hd])
  have hr : (List.range size).map (fun c => (ranges 0 dis).getD c []) = ranges 0 dis := by
    apply List.ext_getElem
    · simp [ranges_length, hd]
    · intro i i1 i2
      simp only [List.getElem_map, List.getElem_range, List.getD_eq_getElem?_getD]
      rw [List.getElem?_eq_getElem i2]
      rfl
  have hk' : (chunks (ls.map List.length) (ranges 0 dis))[k]? = some (cores.map fun c => (ranges 0 dis).getD c []) := by
    have := congrArg (fun l => l[k]?) (map_chunks (fun c => (ranges 0 dis).getD c []) (ls.map List.length) (List.range size))
    simp only [List.getElem?_map, hr, hk] at this
    exact this.symm
  have h2 := chunks_ranges (chunks (ls.map List.length) dis) 0 k (cores.map fun c => (ranges 0 dis).getD c []) (by rw [hlens, hflat]; exact hk')
  obtain ⟨d, h3, h4⟩ := h2
  rw [List.flatMap_def, h4, hsum]
  unfold regionElements
  have : es.getD k 0 = d.sum := by
    rw [← hsum, List.getD_eq_getElem?_getD, List.getElem?_map, h3]
    rfl
  rw [this, Nat.zero_add]

/-- **C34, method 'SWV0'** for at least as many cores as regions; moreover the cores of a region have, together, exactly
the elements of that region, so that no core has elements of two regions. -/
theorem c34_swv0 (f g : Nat → Nat) (hf : ∀ m, f m ≤ m) (hg : ∀ m, g m ≤ m) (size : Nat) (es : List Nat) (hes : 0 < es.length) (hsize : es.length ≤ size) :
    IsPartition size es.sum (ranges 0 (distSWV0 f g size es)) ∧ (swvCores size es.length).flatten = List.range size ∧
    ∀ (k : Nat) cores, (swvCores size es.length)[k]? = some cores →
      cores.flatMap (fun c => (ranges 0 (distSWV0 f g size es)).getD c []) = regionElements es k := by
  obtain ⟨ls, h1, h2, h3, h4⟩ := swv_parts size es hes hsize
  have hks : (ls.map List.length).sum = size := by rw [← h4, List.length_flatten]
  have hflat : (swvCores size es.length).flatten = List.range size := by
    rw [h3]
    exact chunks_flatten _ _ (by simpa using hks)
  have hreg : Regions size (swvCores size es.length) := ⟨hflat⟩
  have hover : ∀ cores ∈ swvCores size es.length, over (distSWV0 f g size es) cores = over (swvFirst size es) cores ∧ (distSWV0 f g size es).length = size := by
    intro cores hc
    have hl : (swvFirst size es).length = size := by rw [h1, h4]
    obtain ⟨a1, a2⟩ := lightMaster_over f hf size _ hreg (swvFirst size es) hl cores hc
    obtain ⟨b1, b2⟩ := lightSecretary_over g hg size _ hreg (lightMaster f (swvCores size es.length) (swvFirst size es)) (a2.trans hl) cores hc
    exact ⟨b1.trans a1, b2.trans (a2.trans hl)⟩
  have hne : ∃ cores, cores ∈ swvCores size es.length := by
    have : (swvCores size es.length).length = es.length := by
      rw [h3, chunks_length, List.length_map]
      simpa using congrArg List.length h2
    exact ⟨_, List.getElem_mem (by rw [this]; exact hes : 0 < _)⟩
  obtain ⟨c0, hc0⟩ := hne
  have hlen := (hover c0 hc0).2
  have hsum : (chunks (ls.map List.length) (distSWV0 f g size es)).map List.sum = es := by
    rw [chunks_over _ _ size hlen, ← h3, List.map_congr_left (fun c hc => (hover c hc).1), h3, ← chunks_over _ _ size (by rw [h1, h4]), h1, chunks_of_flatten, h2]
  obtain ⟨p1, p2⟩ := parts_ranges ls _ size es h4 hlen hsum
  exact ⟨p1, hflat, fun k cores hk => p2 k cores (by rw [← h3]; exact hk)⟩

/-- two regions with 20 and 22 elements on 5 cores. -/
example : distSWV0 f34 g34 5 [20, 22] = [4, 7, 9, 11, 11] := by decide

theorem para_ok (sch : Scheme) (layout : List Nat) (hlay : LayoutOK layout) (x : Nat × List Nat) (h : para sch layout = some x) :
    x.2.sum = layout.prod ∧ ∀ B ∈ x.2, x.1 ∣ B := by
  cases sch with
  | blocks cne X Y =>
    unfold para at h
    have hd := hlay.dim
    have h3 : ∃ A0 A1 A2, sort layout = [A0, A1, A2] := by
      rcases hd with hd | hd
      · obtain ⟨a, b, rfl⟩ := List.length_eq_two.1 hd
        rcases sort2 a b with h' | h' <;> rw [h'] at h <;> simp at h
      · obtain ⟨a, b, c, rfl⟩ := List.length_eq_three.1 hd
        have := sort3 a b c
        simp only [List.mem_cons, List.not_mem_nil, or_false] at this
        rcases this with h' | h' | h' | h' | h' | h' <;> exact ⟨_, _, _, h'⟩
    obtain ⟨A0, A1, A2, h3⟩ := h3
    rw [h3] at h
    simp only [Option.some.injEq] at h
    subst h
    have hl3 : ∃ a b c, layout = [a, b, c] := by
      rcases hd with hd | hd
      · obtain ⟨a, b, rfl⟩ := List.length_eq_two.1 hd
        rcases sort2 a b with h' | h' <;> rw [h'] at h3 <;> simp at h3
      · exact List.length_eq_three.1 hd
    obtain ⟨a, b, c, rfl⟩ := hl3
    have hperm := sort3 a b c
    rw [h3] at hperm
    have hpos := hlay.pos
    simp only [List.mem_cons, List.not_mem_nil, or_false, List.cons.injEq, and_true] at hperm
    have hA : 0 < A0 ∧ 0 < A1 ∧ A0 * A1 * A2 = [a, b, c].prod := by
      have ha := hpos a (by simp)
      have hb := hpos b (by simp)
      have hc := hpos c (by simp)
      have hpr : [a, b, c].prod = a * b * c := by simp [Nat.mul_assoc]
      rw [hpr]
      rcases hperm with ⟨rfl, rfl, rfl⟩ | ⟨rfl, rfl, rfl⟩ | ⟨rfl, rfl, rfl⟩ | ⟨rfl, rfl, rfl⟩ | ⟨rfl, rfl, rfl⟩ | ⟨rfl, rfl, rfl⟩ <;>
        refine ⟨by assumption, by assumption, by ring⟩
    obtain ⟨hX, hX'⟩ := blockSize_ok (decide (4 < cne) && decide (2 ≤ A0) && decide (2 ≤ A1)) X A0 hA.1
    obtain ⟨hY, hY'⟩ := blockSize_ok (decide (4 < cne) && decide (2 ≤ A0) && decide (2 ≤ A1)) Y A1 hA.2.1
    refine ⟨?_, fun B hB => dvd_blockSizes _ _ _ _ _ B hB⟩
    simp only
    rw [sum_blockSizes _ _ _ _ _ hX hX' hY hY', hA.2.2]
  | plainF => simp [para] at h
  | plainC => simp [para] at h
  | designF => simp [para] at h
  | sortF => simp [para] at h

/-- **C34, 3D meshes, after the optimisation**: it never fails, and the elements still are distributed as a partition in
which the cores of a region have exactly its elements. -/
theorem c34_optimized (f g : Nat → Nat) (hf : ∀ m, f m ≤ m) (hg : ∀ m, g m ≤ m) (size : Nat) (regs : List (Scheme × List Nat)) (hregs : ∀ x ∈ regs, LayoutOK x.2)
    (hne : 0 < regs.length) (hsize : regs.length ≤ size) :
    ∃ dis, dist3D f g size regs = some dis ∧ IsPartition size (regs.map fun x => x.2.prod).sum (ranges 0 dis) ∧
      ∀ (k : Nat) cores, (swvCores size regs.length)[k]? = some cores →
        cores.flatMap (fun c => (ranges 0 dis).getD c []) = regionElements (regs.map fun x => x.2.prod) k := by
  set es := regs.map fun x => x.2.prod with hes
  have hesl : es.length = regs.length := by simp [hes]
  obtain ⟨ls, h1, h2, h3, h4⟩ := swv_parts size es (by omega) (by omega)
  obtain ⟨p1, p2, p3⟩ := c34_swv0 f g hf hg size es (by omega) (by omega)
  rw [hesl] at h3 p2 p3
  have hks : (ls.map List.length).sum = size := by rw [← h4, List.length_flatten]
  have hcl : (swvCores size regs.length).map List.length = ls.map List.length := by
    rw [h3]
    exact chunks_lengths _ _ (by simp [hks])
  have hlen : (distSWV0 f g size es).length = size := by
    have := p1.cores
    rwa [ranges_length] at this
  have hreg : Regions size (swvCores size regs.length) := ⟨p2⟩
  -- the sums of the parts
  have hover : (chunks (ls.map List.length) (distSWV0 f g size es)).map List.sum = es := by
    have hl : (swvFirst size es).length = size := by rw [h1, h4]
    have hstep : ∀ cores ∈ swvCores size regs.length, over (distSWV0 f g size es) cores = over (swvFirst size es) cores := by
      intro cores hc
      obtain ⟨a1, a2⟩ := lightMaster_over f hf size _ hreg (swvFirst size es) hl cores hc
      obtain ⟨b1, _⟩ := lightSecretary_over g hg size _ hreg (lightMaster f (swvCores size regs.length) (swvFirst size es)) (a2.trans hl) cores hc
      unfold distSWV0
      rw [hesl]
      exact b1.trans a1
    rw [chunks_over _ _ size hlen, ← h3, List.map_congr_left hstep, h3, ← chunks_over _ _ size hl, h1, chunks_of_flatten, h2]
  have holds : (chunks (ls.map List.length) (distSWV0 f g size es)).map List.length = (swvCores size regs.length).map List.length := by
    rw [hcl, chunks_lengths _ _ (by rw [hks, hlen])]
  obtain ⟨rs, g1, g2, g3⟩ := optimize_parts f g hf hg (swvCores size regs.length) (regs.map fun x => para x.1 x.2)
    (chunks (ls.map List.length) (distSWV0 f g size es)) (by
      have := congrArg List.length h2
      rw [h3, chunks_length, List.length_map, List.length_map]
      simpa [hesl] using this) holds (fun R hR => hreg.nodup R hR) (by
      intro k x old hk hold
      rw [List.getElem?_map] at hk
      obtain ⟨y, hy, hyx⟩ := Option.map_eq_some_iff.1 hk
      have hs := para_ok y.1 y.2 (hregs y (List.mem_of_getElem? hy)) x hyx
      have : old.sum = y.2.prod := by
        have e1 := congrArg (fun l => l[k]?) hover
        simp only [List.getElem?_map, hold] at e1
        rw [hes, List.getElem?_map, hy] at e1
        simpa using e1
      rw [this]
      exact hs)
  have hrs : rs.flatten.length = size := by rw [List.length_flatten, g2, hcl, hks]
  have hfin : (chunks (ls.map List.length) rs.flatten).map List.sum = es := by
    rw [← hcl, ← g2, chunks_of_flatten, g3, hover]
  obtain ⟨q1, q2⟩ := parts_ranges ls rs.flatten size es h4 hrs hfin
  refine ⟨rs.flatten, ?_, q1, fun k cores hk => q2 k cores (by rw [← h3]; exact hk)⟩
  unfold dist3D optimize
  rw [hcl, g1]
  rfl

/-- a 3D mesh of one region with 6 x 6 x 8 elements on 6 cores: the blocks of columns change the distribution. -/
def regs34 : List (Scheme × List Nat) := [(.blocks 48 3 3, [6, 6, 8])]

example : ∀ x ∈ regs34, LayoutOK x.2 := by
  intro x hx
  simp only [regs34, List.mem_singleton] at hx
  subst hx
  exact ⟨Or.inr rfl, by simp⟩

example : distSWV0 f34 g34 6 [288] = [36, 45, 53, 52, 51, 51] ∧ dist3D f34 g34 6 regs34 = some [27, 45, 36, 36, 72, 72] := by decide

/-- **C34 with C06.** The dof numbers of an element do not depend on how the elements were distributed. -/
theorem c34_numbering_agrees {σ : Type} [DecidableEq σ] (L : Naive.Layout σ) (emap : Nat → List (Option Nat)) (n size size' : Nat) (ranks ranks' : List (List Nat))
    (h : IsPartition size n ranks) (h' : IsPartition size' n ranks') (out : List (List (Nat × Naive.Arr σ))) (ho : Naive.naive L emap ranks = some out) :
    ∃ out', Naive.naive L emap ranks' = some out' ∧ ∀ k a v, Gives out k a v ↔ Gives out' k a v := by
  obtain ⟨h1, h2⟩ := c06_independent_of_ranks L emap n ranks h.flat
  obtain ⟨h1', h2'⟩ := c06_independent_of_ranks L emap n ranks' h'.flat
  obtain ⟨out', ho'⟩ := Option.isSome_iff_exists.1 (h1'.2 (h1.1 (by rw [ho]; rfl)))
  refine ⟨out', ho', ?_⟩
  have e := (h2 out ho).2.symm.trans (h2' out' ho').2
  have : out.flatten = out'.flatten := by simpa using e
  intro k a v
  unfold Gives
  rw [this]

end Mifem.Props
