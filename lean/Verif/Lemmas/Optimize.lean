import Verif.Lemmas.Distribution
import Verif.Lemmas.Mesh
import Mathlib.Tactic.Ring

/-!
# Lemmas on the optimisation of the distribution in 3D
-/

namespace Mifem.Dist
open Mifem.Mesh

theorem sum_dropLast_getLast (D : List Nat) (y : Nat) (h : D.getLast? = some y) : D.sum = D.dropLast.sum + y := by
  have := List.dropLast_append_getLast? y h
  conv => lhs; rw [← this]
  simp

theorem adjust_spec (c keep : Nat) (skip : Nat → Bool) : ∀ (cores Ls D : List Nat), cores.Nodup → cores.length = Ls.length →
    D.length = (cores.filter fun x => x != c && !skip x).length →
    ∃ r, adjust c keep skip cores Ls D = some r ∧ r.length = cores.length ∧
      r.sum + (if c ∈ cores then Ls.getD (cores.idxOf c) 0 else 0) = Ls.sum + D.sum + (if c ∈ cores then keep else 0)
  | [], [], D, _, _, hD => by
    have : D = [] := List.length_eq_zero_iff.1 (by simpa using hD)
    exact ⟨[], rfl, rfl, by simp [this]⟩
  | [], _ :: _, _, _, hl, _ => by simp at hl
  | _ :: _, [], _, _, hl, _ => by simp at hl
  | x :: xs, L :: Ls, D, hnd, hl, hD => by
    have hnd' := List.nodup_cons.1 hnd
    have hl' : xs.length = Ls.length := by simpa using hl
    by_cases hx : x = c
    · subst hx
      obtain ⟨r, h1, h2, h3⟩ := adjust_spec x keep skip xs Ls D hnd'.2 hl' (by simpa using hD)
      rw [if_neg hnd'.1, if_neg hnd'.1] at h3
      refine ⟨keep :: r, by rw [adjust, if_pos rfl, h1]; rfl, by simp [h2], ?_⟩
      simp
      omega
    · have hmem : c ∈ x :: xs ↔ c ∈ xs := by
        simp only [List.mem_cons, or_iff_right_iff_imp]
        exact fun h => absurd h.symm hx
      have hidx : c ∈ xs → (x :: xs).idxOf c = xs.idxOf c + 1 := fun _ => List.idxOf_cons_ne _ hx
      cases hs : skip x with
      | true =>
        obtain ⟨r, h1, h2, h3⟩ := adjust_spec c keep skip xs Ls D hnd'.2 hl' (by simpa [hs] using hD)
        refine ⟨L :: r, by rw [adjust, if_neg hx, if_pos hs, h1]; rfl, by simp [h2], ?_⟩
        by_cases hc : c ∈ xs
        · rw [if_pos hc, if_pos hc] at h3
          rw [if_pos (hmem.2 hc), if_pos (hmem.2 hc), hidx hc]
          simp only [List.sum_cons, List.getD_cons_succ]
          omega
        · rw [if_neg hc, if_neg hc] at h3
          rw [if_neg (fun h => hc (hmem.1 h)), if_neg (fun h => hc (hmem.1 h))]
          simp only [List.sum_cons]
          omega
      | false =>
        have hD' : D.length = (xs.filter fun x => x != c && !skip x).length + 1 := by
          rw [hD, List.filter_cons_of_pos (by simp [hx, hs]), List.length_cons]
        have hne : D ≠ [] := fun h => by simp [h] at hD'
        obtain ⟨y, hy⟩ : ∃ y, D.getLast? = some y := ⟨_, List.getLast?_eq_getLast_of_ne_nil hne⟩
        obtain ⟨r, h1, h2, h3⟩ := adjust_spec c keep skip xs Ls D.dropLast hnd'.2 hl' (by rw [List.length_dropLast, hD']; rfl)
        have hsum := sum_dropLast_getLast D y hy
        refine ⟨(L + y) :: r, by rw [adjust, if_neg hx, hs, hy]; simp [h1], by simp [h2], ?_⟩
        by_cases hc : c ∈ xs
        · rw [if_pos hc, if_pos hc] at h3
          rw [if_pos (hmem.2 hc), if_pos (hmem.2 hc), hidx hc]
          simp only [List.sum_cons, List.getD_cons_succ]
          omega
        · rw [if_neg hc, if_neg hc] at h3
          rw [if_neg (fun h => hc (hmem.1 h)), if_neg (fun h => hc (hmem.1 h))]
          simp only [List.sum_cons]
          omega

theorem lighten_spec (f : Nat → Nat) (hf : ∀ m, f m ≤ m) (c : Nat) (skip : Nat → Bool) (cores Ls : List Nat) (hnd : cores.Nodup) (hl : cores.length = Ls.length) :
    ∃ r, lighten f c skip cores Ls = some r ∧ r.length = cores.length ∧ r.sum = Ls.sum := by
  unfold lighten
  by_cases hc : c ∈ cores
  · rw [if_pos hc]
    simp only
    have hk : (if Ls.getD (cores.idxOf c) 0 ≤ 2 then Ls.getD (cores.idxOf c) 0 else f (Ls.getD (cores.idxOf c) 0)) ≤ Ls.getD (cores.idxOf c) 0 := by
      split
      · exact Nat.le_refl _
      · exact hf _
    generalize (if Ls.getD (cores.idxOf c) 0 ≤ 2 then Ls.getD (cores.idxOf c) 0 else f (Ls.getD (cores.idxOf c) 0)) = keep at hk ⊢
    split
    · exact ⟨Ls, rfl, hl.symm, rfl⟩
    · rename_i hn
      rw [not_or] at hn
      obtain ⟨r, h1, h2, h3⟩ := adjust_spec c keep skip cores Ls (split (Ls.getD (cores.idxOf c) 0 - keep) (cores.filter fun x => x != c && !skip x).length)
        hnd hl (by rw [length_split])
      rw [if_pos hc, if_pos hc, sum_split _ _ (List.length_pos_of_ne_nil hn.2)] at h3
      exact ⟨r, h1, h2, by omega⟩
  · rw [if_neg hc]
    exact ⟨Ls, rfl, hl.symm, rfl⟩

theorem sum_map_mul (k : Nat) (l : List Nat) : (l.map fun x => x * k).sum = l.sum * k := by
  induction l with
  | nil => simp
  | cons x l ih => simp [ih, Nat.add_mul]

theorem blockDist_spec (f g : Nat → Nat) (hf : ∀ m, f m ≤ m) (hg : ∀ m, g m ≤ m) (layers B : Nat) (hB : layers ∣ B) (cores : List Nat) (hnd : cores.Nodup)
    (hpos : 0 < cores.length) : ∃ r, blockDist f g layers B cores = some r ∧ r.length = cores.length ∧ r.sum = B := by
  unfold blockDist
  simp only
  rw [if_pos (Nat.div_mul_cancel hB)]
  obtain ⟨r, h1, h2, h3⟩ := lighten_spec f hf 0 (fun _ => false) cores (split layers cores.length).reverse hnd (by simp [length_split])
  obtain ⟨r', h1', h2', h3'⟩ := lighten_spec g hg 1 (fun x => x == 0) cores r hnd h2.symm
  refine ⟨r'.map fun L => L * (B / layers), by rw [h1, Option.bind_some, h1']; rfl, by simp [h2'], ?_⟩
  rw [sum_map_mul, h3', h3, List.sum_reverse, sum_split _ _ hpos, Nat.mul_comm, Nat.div_mul_cancel hB]

theorem blocks_mapM (f g : Nat → Nat) (hf : ∀ m, f m ≤ m) (hg : ∀ m, g m ≤ m) (layers : Nat) : ∀ (blocks : List Nat) (parts : List (List Nat)),
    blocks.length = parts.length → (∀ B ∈ blocks, layers ∣ B) → (∀ p ∈ parts, p.Nodup ∧ 0 < p.length) →
    ∃ rs, (List.zip blocks parts).mapM (fun x => blockDist f g layers x.1 x.2) = some rs ∧ rs.flatten.length = parts.flatten.length ∧ rs.flatten.sum = blocks.sum
  | [], [], _, _, _ => ⟨[], rfl, rfl, rfl⟩
  | [], _ :: _, h, _, _ => by simp at h
  | _ :: _, [], h, _, _ => by simp at h
  | B :: blocks, p :: parts, h, hB, hp => by
    obtain ⟨r, h1, h2, h3⟩ := blockDist_spec f g hf hg layers B (hB B List.mem_cons_self) p (hp p List.mem_cons_self).1 (hp p List.mem_cons_self).2
    obtain ⟨rs, g1, g2, g3⟩ := blocks_mapM f g hf hg layers blocks parts (by simpa using h) (fun b hb => hB b (List.mem_cons_of_mem _ hb))
      (fun q hq => hp q (List.mem_cons_of_mem _ hq))
    refine ⟨r :: rs, ?_, ?_, ?_⟩
    · rw [List.zip_cons_cons, List.mapM_cons, h1]
      simp [g1]
    · rw [List.flatten_cons, List.flatten_cons, List.length_append, List.length_append, h2, g2]
    · rw [List.flatten_cons, List.sum_append, h3, g3, List.sum_cons]

theorem mem_chunks_sub {α : Type} : ∀ (ks : List Nat) (l : List α) (p : List α), p ∈ chunks ks l → ∃ k ∈ ks, p.length ≤ k ∧ p.Sublist l
  | [], _, _, h => by simp [chunks] at h
  | k :: ks, l, p, h => by
    rw [chunks, List.mem_cons] at h
    rcases h with rfl | h
    · exact ⟨k, List.mem_cons_self, by simp, List.take_sublist _ _⟩
    · obtain ⟨k', h1, h2, h3⟩ := mem_chunks_sub ks _ p h
      exact ⟨k', List.mem_cons_of_mem _ h1, h2, h3.trans (List.drop_sublist _ _)⟩

theorem regionDist_spec (f g : Nat → Nat) (hf : ∀ m, f m ≤ m) (hg : ∀ m, g m ≤ m) (cores : List Nat) (hnd : cores.Nodup) (pa : Option (Nat × List Nat)) (old : List Nat)
    (hold : old.length = cores.length) (hpa : ∀ x, pa = some x → x.2.sum = old.sum ∧ ∀ B ∈ x.2, x.1 ∣ B) :
    ∃ r, regionDist f g cores pa old = some r ∧ r.length = cores.length ∧ r.sum = old.sum := by
  have hsame : ∃ r, some old = some r ∧ r.length = cores.length ∧ r.sum = old.sum := ⟨old, rfl, hold, rfl⟩
  cases pa with
  | none => exact hsame
  | some x =>
    obtain ⟨layers, blocks⟩ := x
    obtain ⟨hsum, hdvd⟩ := hpa _ rfl
    simp only at hsum hdvd
    unfold regionDist
    simp only
    split
    · exact hsame
    · rename_i h1
      simp only [not_or] at h1
      split
      · rename_i h2
        exact ⟨blocks, rfl, h2.symm, hsum⟩
      · rename_i h2
        split
        · exact hsame
        · have hb : 0 < blocks.length := by omega
          have hflat : (chunks (split cores.length blocks.length) cores).flatten = cores := chunks_flatten _ _ (sum_split _ _ hb)
          have hlens : (chunks (split cores.length blocks.length) cores).map List.length = split cores.length blocks.length :=
            chunks_lengths _ _ (sum_split _ _ hb).le
          obtain ⟨rs, g1, g2, g3⟩ := blocks_mapM f g hf hg layers blocks (chunks (split cores.length blocks.length) cores)
            (by rw [chunks_length, length_split]) hdvd (by
              intro p hp
              refine ⟨(List.nodup_flatten.1 (hflat.symm ▸ hnd)).1 p hp, ?_⟩
              have hm : p.length ∈ split cores.length blocks.length := by
                rw [← hlens]
                exact List.mem_map_of_mem hp
              unfold split at hm
              obtain ⟨t, _, ht⟩ := List.mem_map.1 hm
              have : 0 < cores.length / blocks.length := Nat.div_pos (by omega) hb
              omega)
          exact ⟨rs.flatten, by rw [g1]; rfl, by rw [g2, hflat], g3.trans hsum⟩

theorem optimize_parts (f g : Nat → Nat) (hf : ∀ m, f m ≤ m) (hg : ∀ m, g m ≤ m) : ∀ (regions : List (List Nat)) (paras : List (Option (Nat × List Nat))) (olds : List (List Nat)),
    regions.length = paras.length → olds.map List.length = regions.map List.length → (∀ R ∈ regions, R.Nodup) →
    (∀ (k : Nat) x old, paras[k]? = some (some x) → olds[k]? = some old → x.2.sum = old.sum ∧ ∀ B ∈ x.2, x.1 ∣ B) →
    ∃ rs, (List.zip regions (List.zip paras olds)).mapM (fun x => regionDist f g x.1 x.2.1 x.2.2) = some rs ∧
      rs.map List.length = regions.map List.length ∧ rs.map List.sum = olds.map List.sum
  | [], [], olds, _, ho, _, _ => by
    have : olds = [] := by simpa using ho
    exact ⟨[], rfl, rfl, by simp [this]⟩
  | [], _ :: _, _, h, _, _, _ => by simp at h
  | _ :: _, [], _, h, _, _, _ => by simp at h
  | _ :: _, _ :: _, [], _, h, _, _ => by simp at h
  | R :: regions, p :: paras, o :: olds, hl, ho, hnd, hp => by
    simp only [List.map_cons, List.cons.injEq] at ho
    obtain ⟨r, h1, h2, h3⟩ := regionDist_spec f g hf hg R (hnd R List.mem_cons_self) p o ho.1 (by
      intro x hx
      exact hp 0 x o (by simp [hx]) rfl)
    obtain ⟨rs, g1, g2, g3⟩ := optimize_parts f g hf hg regions paras olds (by simpa using hl) ho.2 (fun R' h => hnd R' (List.mem_cons_of_mem _ h))
      (fun k x old hk hk' => hp (k + 1) x old (by simpa using hk) (by simpa using hk'))
    refine ⟨r :: rs, ?_, by simp [h2, g2], by simp [h3, g3]⟩
    rw [List.zip_cons_cons, List.zip_cons_cons, List.mapM_cons, h1]
    simp [g1]

/-! ## sizes of the blocks -/

theorem sum_width (A X : Nat) (h1 : 0 < X) (h2 : X ≤ A) : ((List.range (A / X)).map (width A X)).sum = A := by
  have : ∀ m, m ≤ A / X → ((List.range m).map (width A X)).sum = pre A X m := by
    intro m
    induction m with
    | zero => intro _; simp [pre_zero h1 h2]
    | succ m ih =>
      intro hm
      rw [List.range_succ, List.map_append, List.sum_append, ih (by omega), pre_succ m (by omega)]
      simp
  rw [this _ (Nat.le_refl _), pre_last]

theorem sum_mul_left (k : Nat) (w : Nat → Nat) (l : List Nat) : (l.map fun x => w x * k).sum = (l.map w).sum * k := by
  induction l with
  | nil => simp
  | cons x l ih => simp [ih, Nat.add_mul]

theorem sum_blockSizes (A0 A1 A2 X Y : Nat) (h1 : 0 < X) (h2 : X ≤ A0) (h3 : 0 < Y) (h4 : Y ≤ A1) : (blockSizes A0 A1 A2 X Y).sum = A0 * A1 * A2 := by
  unfold blockSizes
  rw [List.flatMap_def, sum_flatten_nat, List.map_map]
  have : (List.sum ∘ fun n => (List.range (A0 / X)).map fun m => width A0 X m * width A1 Y n * A2) = fun n => width A1 Y n * (A0 * A2) := by
    funext n
    rw [Function.comp_apply]
    rw [show (fun m => width A0 X m * width A1 Y n * A2) = fun m => width A0 X m * (width A1 Y n * A2) by funext m; ring, sum_mul_left, sum_width A0 X h1 h2]
    ring
  rw [this, sum_mul_left, sum_width A1 Y h3 h4]
  ring

theorem dvd_blockSizes (A0 A1 A2 X Y B : Nat) (h : B ∈ blockSizes A0 A1 A2 X Y) : A2 ∣ B := by
  unfold blockSizes at h
  obtain ⟨n, _, h⟩ := List.mem_flatMap.1 h
  obtain ⟨m, _, rfl⟩ := List.mem_map.1 h
  exact Dvd.intro_left _ rfl

end Mifem.Dist
