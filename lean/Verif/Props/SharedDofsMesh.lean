import Verif.Props.SharedDofsGlobal
import Verif.Props.Layout
import Mathlib.Analysis.Calculus.Deriv.Comp

/-! # C68 for the meshes made by the library: elements are cut from regions -/

namespace Mifem.Props
open Mifem.Disc Mifem.Mesh Mifem.Naive Mifem.Layout

/-- The unit interval. -/
abbrev Unit01 : Set ℝ := Set.Icc 0 1

/-- The Jacobian matrix of the region holds the derivatives of its mapping on the unit square or cube; it is diagonal for
regions whose elements are marked as orthogonal. -/
structure SmoothGeo {d : Nat} (R : Geo d ℝ) : Prop where
  J : ∀ x, (∀ c, x c ∈ Unit01) → ∀ a b, HasDerivWithinAt (fun t => R.map (Function.update x b t) a) (R.J x a b) Unit01 (x b)
  orth : R.orth = true → ∀ x, (∀ c, x c ∈ Unit01) → ∀ a b, a ≠ b → R.J x a b = 0

/-- Place in the region of a point of an element. -/
noncomputable def place {d : Nat} (L : Fin d → Parsed ℝ) (i : List Nat) (v : Fin d → ℝ) : Fin d → ℝ := fun b => (v b + 1) * (1 / 2) * delta L i b + origin L i b

theorem place_mem {d : Nat} {L : Fin d → Parsed ℝ} {i : List Nat} {v : Fin d → ℝ} {b : Fin d} (hL : Tiles (L b)) (hi : i.getD b 0 < (L b).n)
    (hv : v b ∈ Ref) : place L i v b ∈ Unit01 := by
  obtain ⟨h1, h2⟩ := hv
  have hr := hL.ratioPos _ hi
  have ha := tiles_le hL 0 (i.getD b 0) (by omega) (by omega)
  have hb := tiles_le hL (i.getD b 0 + 1) (L b).n (by omega) (by omega)
  rw [hL.first] at ha
  rw [hL.last, hL.step _ hi] at hb
  unfold place delta origin
  constructor
  · have : 0 ≤ (v b + 1) * (1 / 2) * (L b).ratio.getD (i.getD b 0) 0 := mul_nonneg (by linarith) hr.le
    linarith
  · have : (v b + 1) * (1 / 2) * (L b).ratio.getD (i.getD b 0) 0 ≤ 1 * (L b).ratio.getD (i.getD b 0) 0 :=
      mul_le_mul_of_nonneg_right (by linarith) hr.le
    linarith

theorem place_update {d : Nat} (L : Fin d → Parsed ℝ) (i : List Nat) (v : Fin d → ℝ) (b : Fin d) (t : ℝ) :
    place L i (Function.update v b t) = Function.update (place L i v) b ((t + 1) * (1 / 2) * delta L i b + origin L i b) := by
  funext c
  by_cases h : c = b
  · subst h
    simp [place]
  · simp [place, h]

theorem place_deriv {d : Nat} {R : Geo d ℝ} (hR : SmoothGeo R) {L : Fin d → Parsed ℝ} {i : List Nat} (hL : ∀ b, Tiles (L b))
    (hi : ∀ b : Fin d, i.getD b 0 < (L b).n) (v : Fin d → ℝ) (hv : ∀ c, v c ∈ Ref) (a b : Fin d) :
    HasDerivWithinAt (fun t => R.map (place L i (Function.update v b t)) a) (R.J (place L i v) a b * (delta L i b / 2)) Ref (v b) := by
  simp only [place_update]
  have h1 := hR.J (place L i v) (fun c => place_mem (hL c) (hi c) (hv c)) a b
  have h2 : HasDerivWithinAt (fun t : ℝ => (t + 1) * (1 / 2) * delta L i b + origin L i b) (delta L i b / 2) Ref (v b) := by
    have := ((((hasDerivWithinAt_id (v b) Ref).add_const 1).mul_const (1 / 2)).mul_const (delta L i b)).add_const (origin L i b)
    refine this.congr_deriv ?_
    ring
  have h3 : Set.MapsTo (fun t : ℝ => (t + 1) * (1 / 2) * delta L i b + origin L i b) Ref Unit01 := by
    intro t ht
    have := place_mem (L := L) (i := i) (v := Function.update v b t) (hL b) (hi b) (by simpa using ht)
    simpa [place] using this
  exact HasDerivWithinAt.comp (v b) (h₂ := fun s => R.map (Function.update (place L i v) b s) a) (s' := Unit01)
    (by simpa [place] using h1) h2 h3

theorem cut2_map (R : Geo 2 ℝ) (L : Fin 2 → Parsed ℝ) (i : List Nat) (v : Fin 2 → ℝ) : (cut2 R L i).map v = R.map (place L i v) := rfl
theorem cut3_map (R : Geo 3 ℝ) (L : Fin 3 → Parsed ℝ) (i : List Nat) (v : Fin 3 → ℝ) : (cut3 R L i).map v = R.map (place L i v) := rfl

theorem smooth_cut2 {R : Geo 2 ℝ} (hR : SmoothGeo R) {L : Fin 2 → Parsed ℝ} {i : List Nat} (hL : ∀ b, Tiles (L b))
    (hi : ∀ b : Fin 2, i.getD b 0 < (L b).n) : SmoothEl2 (cut2 R L i) := by
  constructor
  · intro v hv a b
    have := place_deriv hR hL hi v hv a b
    refine HasDerivWithinAt.congr_deriv this ?_
    simp only [cut2, Metric.Two.jacobianMatrix]
    by_cases ho : R.orth = true
    · rw [if_pos ho]
      by_cases hab : a = b
      · subst hab
        rw [if_pos rfl]
        rfl
      · rw [if_neg hab, hR.orth ho _ (fun c => place_mem (hL c) (hi c) (hv c)) a b hab, zero_mul]
    · rw [if_neg ho]
      rfl
  · intro ho v
    have ho' : R.orth = true := ho
    simp [cut2, Metric.Two.jacobianMatrix, ho']

theorem smooth_cut3 {R : Geo 3 ℝ} (hR : SmoothGeo R) {L : Fin 3 → Parsed ℝ} {i : List Nat} (hL : ∀ b, Tiles (L b))
    (hi : ∀ b : Fin 3, i.getD b 0 < (L b).n) : SmoothEl3 (cut3 R L i) := by
  constructor
  · intro v hv a b
    have := place_deriv hR hL hi v hv a b
    refine HasDerivWithinAt.congr_deriv this ?_
    simp only [cut3, Metric.Three.jacobianMatrix]
    by_cases ho : R.orth = true
    · rw [if_pos ho]
      by_cases hab : a = b
      · subst hab
        rw [if_pos rfl]
        rfl
      · rw [if_neg hab, hR.orth ho _ (fun c => place_mem (hL c) (hi c) (hv c)) a b hab, zero_mul]
    · rw [if_neg ho]
      rfl
  · intro ho v
    have ho' : R.orth = true := ho
    intro a b hab
    simp [cut3, Metric.Three.jacobianMatrix, ho', hab]

/-! ## Elements that meet -/

/-- where side `j` is in the reference element, and in the unit square or cube. -/
def refEnd (j : Nat) : ℝ := if j % 2 = 0 then -1 else 1
def unitEnd (j : Nat) : ℝ := if j % 2 = 0 then 0 else 1

/-- Sides `j` of region `r` and `opp j` of region `s` are the same curve or surface, with the same parameters, up to a
translation under which `f` is invariant, and are cut at the same places. -/
def SameSide {d : Nat} {α : Type*} (f : (Fin d → ℝ) → α) (R : Nat → Geo d ℝ) (L : Nat → Fin d → Parsed ℝ) (r j s : Nat) : Prop :=
  (∃ c, (∀ z, f (z + c) = f z) ∧ ∀ b : Fin d, b.val = j / 2 → ∀ x, (∀ a, x a ∈ Unit01) → x b = unitEnd j →
    (R r).map x = (R s).map (Function.update x b (unitEnd (opp j))) + c) ∧
  ∀ b : Fin d, b.val ≠ j / 2 → L r b = L s b

theorem unitEnd_mem (j : Nat) : unitEnd j ∈ Unit01 := by
  unfold unitEnd
  split <;> simp

theorem sameSide_symm {d : Nat} {α : Type*} {f : (Fin d → ℝ) → α} {R : Nat → Geo d ℝ} {L : Nat → Fin d → Parsed ℝ} {r j s : Nat}
    (h : SameSide f R L r j s) : SameSide f R L s (opp j) r := by
  obtain ⟨⟨c, hf, hm⟩, hl⟩ := h
  refine ⟨⟨-c, ?_, ?_⟩, ?_⟩
  · intro z
    rw [← hf (z + -c), neg_add_cancel_right]
  · intro b hb x hx hxb
    rw [opp_div] at hb
    rw [opp_opp]
    have := hm b hb (Function.update x b (unitEnd j)) (by
      intro a
      by_cases hab : a = b
      · subst hab
        rw [Function.update_self]
        exact unitEnd_mem j
      · rw [Function.update_of_ne hab]
        exact hx a) (by rw [Function.update_self])
    rw [Function.update_idem, ← hxb, Function.update_eq_self] at this
    rw [this, add_neg_cancel_right]
  · intro b hb
    rw [opp_div] at hb
    exact (hl b hb).symm

/-- Side `j` of one element and the opposite side of another one are the same curve or surface. -/
def CutMeets {d : Nat} {α : Type*} (f : (Fin d → ℝ) → α) (R R' : Geo d ℝ) (L L' : Fin d → Parsed ℝ) (i i' : List Nat) (j : Nat) : Prop :=
  ∃ c, (∀ z, f (z + c) = f z) ∧ ∀ b : Fin d, b.val = j / 2 → ∀ v, (∀ a, v a ∈ Ref) → v b = refEnd j →
    R.map (place L i v) = R'.map (place L' i' (Function.update v b (refEnd (opp j)))) + c

/-- index of the elements at the end `j` of a direction with `n` elements. -/
def endIndex (n j : Nat) : Nat := if j % 2 = 0 then 0 else n - 1

theorem place_end {d : Nat} {L : Fin d → Parsed ℝ} {i : List Nat} {v : Fin d → ℝ} {b : Fin d} {j : Nat} (hL : Tiles (L b))
    (hi : i.getD b 0 = endIndex (L b).n j) (hv : v b = refEnd j) : place L i v b = unitEnd j := by
  have hp := hL.pos
  unfold place delta origin
  rw [hi, hv]
  unfold endIndex refEnd unitEnd
  by_cases h : j % 2 = 0
  · simp only [if_pos h]
    rw [hL.first]
    ring
  · simp only [if_neg h]
    have := hL.step ((L b).n - 1) (by omega)
    rw [show (L b).n - 1 + 1 = (L b).n by omega, hL.last] at this
    linear_combination -this

theorem cutMeets_across {d : Nat} {α : Type*} {f : (Fin d → ℝ) → α} {R : Nat → Geo d ℝ} {L : Nat → Fin d → Parsed ℝ} {r j s : Nat}
    (h : SameSide f R L r j s) (hL : ∀ r b, Tiles (L r b)) {i i' : List Nat} (hi : ∀ b : Fin d, i.getD b 0 < (L r b).n)
    (hj : ∀ b : Fin d, b.val = j / 2 → i.getD b 0 = endIndex (L r b).n j)
    (hj' : ∀ b : Fin d, b.val = j / 2 → i'.getD b 0 = endIndex (L s b).n (opp j))
    (hii : ∀ b : Fin d, b.val ≠ j / 2 → i'.getD b 0 = i.getD b 0) : CutMeets f (R r) (R s) (L r) (L s) i i' j := by
  obtain ⟨⟨c, hf, hm⟩, hl⟩ := h
  refine ⟨c, hf, ?_⟩
  intro b hb v hv hvb
  rw [hm b hb _ (fun a => place_mem (hL r a) (hi a) (hv a)) (place_end (hL r b) (hj b hb) hvb)]
  congr 2
  funext a
  by_cases hab : a = b
  · subst hab
    rw [Function.update_self, place_end (hL s a) (hj' a hb) (Function.update_self ..)]
  · have hne : a.val ≠ j / 2 := fun hc => hab (Fin.ext (hc.trans hb.symm))
    rw [Function.update_of_ne hab]
    unfold place delta origin
    rw [Function.update_of_ne hab, hii a hne, hl a hne]

theorem cutMeets_inside {d : Nat} {α : Type*} (f : (Fin d → ℝ) → α) (R : Geo d ℝ) {L : Fin d → Parsed ℝ} (hL : ∀ b, Tiles (L b))
    {i i' : List Nat} {j : Nat} (hi : ∀ b : Fin d, i.getD b 0 < (L b).n) (hi' : ∀ b : Fin d, i'.getD b 0 < (L b).n)
    (hj : ∀ b : Fin d, b.val = j / 2 → if j % 2 = 0 then i'.getD b 0 + 1 = i.getD b 0 else i.getD b 0 + 1 = i'.getD b 0)
    (hii : ∀ b : Fin d, b.val ≠ j / 2 → i'.getD b 0 = i.getD b 0) : CutMeets f R R L L i i' j := by
  refine ⟨0, fun z => by rw [add_zero], ?_⟩
  intro b hb v hv hvb
  rw [add_zero]
  congr 1
  funext a
  by_cases hab : a = b
  · subst hab
    have hja := hj a hb
    unfold place delta origin
    rw [Function.update_self, hvb]
    unfold refEnd
    rw [opp_mod]
    by_cases h : j % 2 = 0
    · rw [if_pos h] at hja ⊢
      rw [h, ← hja, (hL a).step _ (hi' a)]
      norm_num
      ring
    · rw [if_neg h] at hja ⊢
      rw [show 1 - j % 2 = 0 by omega, if_pos rfl, ← hja, (hL a).step _ (hi a)]
      ring
  · have hne : a.val ≠ j / 2 := fun hc => hab (Fin.ext (hc.trans hb.symm))
    unfold place delta origin
    rw [Function.update_of_ne hab, hii a hne]

/-! ## Whole meshes -/

/-- A mesh: numbers of its elements, map of its regions, periodic sides; the regions `R` are cut with the layouts `L`; sides
that the map of the regions or a periodic pair puts together are the same. -/
structure CutMesh {α : Type*} (dim : Nat) (M : List EArr) (rmap : Nat → Nat → Att) (per : List (Nat × Nat × Nat)) (f : (Fin dim → ℝ) → α)
    (R : Nat → Geo dim ℝ) (L : Nat → Fin dim → Parsed ℝ) : Prop where
  ok : MeshOK dim M rmap
  pairs : PerOK dim M rmap per
  smooth : ∀ r, SmoothGeo (R r)
  tiles : ∀ r b, Tiles (L r b)
  shape : ∀ (r : Nat) (E : EArr), M[r]? = some E → ∀ b : Fin dim, E.shape.getD b 0 = (L r b).n
  interface : ∀ r j s, r < M.length → j < 2 * dim → rmap r j = .other s → SameSide f R L r j s
  periodic : ∀ x ∈ per, SameSide f R L x.1 x.2.1 x.2.2

theorem find_inv {M : List EArr} (hM : WellNumbered M) {e r : Nat} {i : List Nat} (hf : find M e = some (r, i)) :
    ∃ E, M[r]? = some E ∧ InBox E.shape i ∧ E.at_ i = e := by
  have he : e < total M := by
    by_contra hcon
    unfold find at hf
    rw [findRegion_none M 0 e (by omega)] at hf
    exact absurd hf (by simp)
  obtain ⟨r', E', i', hE', hb', hv'⟩ := exists_element M hM e he
  have := find_eq M hM r' E' hE' i' hb'
  rw [hv', hf] at this
  have := Option.some.inj this
  simp only [Prod.mk.injEq] at this
  obtain ⟨rfl, rfl⟩ := this
  exact ⟨E', hE', hb', hv'⟩

theorem neighbour_meets {α : Type*} {dim : Nat} {M : List EArr} {rmap : Nat → Nat → Att} {per : List (Nat × Nat × Nat)} {f : (Fin dim → ℝ) → α}
    {R : Nat → Geo dim ℝ} {L : Nat → Fin dim → Parsed ℝ} (h : CutMesh dim M rmap per f R L) {ps : List Pair} (hps : allPairs M per = some ps)
    {k j l : Nat} (hj : j < 2 * dim) (hn : neighbour dim M rmap ps k j = some l) :
    ∃ r i s i', find M k = some (r, i) ∧ find M l = some (s, i') ∧ CutMeets f (R r) (R s) (L r) (L s) i i' j := by
  obtain ⟨m, hm, hmj⟩ := (neighbour_eq dim M rmap ps k j l).1 hn
  obtain ⟨m0, hm0, hmm⟩ := Option.map_eq_some_iff.1 hm
  obtain ⟨⟨r, i⟩, hfind, _⟩ := Option.bind_eq_some_iff.1 hm0
  obtain ⟨E, hE, hi, rfl⟩ := find_inv h.ok.num hfind
  obtain ⟨hlen, hget⟩ := elementMap_get dim M rmap h.ok.num r E hE i hi m0 hm0
  have hd : j / 2 < dim := by omega
  have hnd := pairs_nodup dim M rmap h.ok per h.pairs ps hps
  have hlt : ∀ {r : Nat} {E : EArr} {i : List Nat}, M[r]? = some E → InBox E.shape i → ∀ b : Fin dim, i.getD b 0 < (L r b).n := by
    intro r E i hE hi b
    rw [← h.shape r E hE b]
    exact hi.2 b (by rw [(h.ok.dims r E hE).1]; exact b.2)
  have hil := hi.1.trans (h.ok.dims r E hE).1
  by_cases hin : (E.at_ i, j) ∈ ps.flatMap ends
  · obtain ⟨p, hp, hpe⟩ := List.mem_flatMap.1 hin
    obtain ⟨⟨y, q⟩, hj'⟩ := (mem_ends p _).1 hpe
    have h1 := foldl_joins (E.at_ i) j (y, q) ps m0 hnd (by omega) p hp hj'
    rw [hmm, hmj] at h1
    have hye : l = y := by simpa using h1
    subst hye
    obtain ⟨r', j', s', F, F', t, a, b, hper, hF, hF', ha, hb, hab⟩ := allPairs_joins M per ps hps p hp
    have hss := h.periodic _ hper
    have hj2 := h.pairs.side _ hper
    dsimp only at hss hj2
    have hd' : j' / 2 < dim := by omega
    have hdF := h.ok.dims _ _ hF
    have hdF' := h.ok.dims _ _ hF'
    -- the two sides are listed in the same order
    have hshape : F.shape.set (j' / 2) 1 = F'.shape.set (j' / 2) 1 := by
      apply ext_getD _ _ (by simp [hdF.1, hdF'.1])
      intro u hu
      rw [getD_set _ _ _ _ (by omega), getD_set _ _ _ _ (by omega)]
      by_cases hud : u = j' / 2
      · rw [if_pos hud, if_pos hud]
      · rw [if_neg hud, if_neg hud]
        have hu' : u < dim := by simpa [hdF.1] using hu
        have e1 := h.shape _ _ hF ⟨u, hu'⟩
        have e2 := h.shape _ _ hF' ⟨u, hu'⟩
        dsimp only at e1 e2
        rw [e1, e2, hss.2 ⟨u, hu'⟩ hud]
    unfold alongSide at ha hb
    rw [List.getElem?_map] at ha hb
    rw [opp_div, ← hshape] at hb
    obtain ⟨i0, hi0, ha⟩ := Option.map_eq_some_iff.1 ha
    obtain ⟨i1, hi1, hb⟩ := Option.map_eq_some_iff.1 hb
    rw [hi0] at hi1
    have := Option.some.inj hi1
    subst this
    have hbox := (mem_fOrder _ _).1 (List.mem_of_getElem? hi0)
    have hl0 : i0.length = dim := by
      have := hbox.1
      simpa [hdF.1] using this
    have hset : ∀ {s : Nat} {G : EArr} (hG : M[s]? = some G) (hsh : F.shape.set (j' / 2) 1 = G.shape.set (j' / 2) 1) (q : Nat),
        InBox G.shape (i0.set (j' / 2) (if q % 2 = 0 then 0 else G.shape.getD (j' / 2) 0 - 1)) := by
      intro s G hG hsh q
      have hdG := h.ok.dims _ _ hG
      refine ⟨by simp [hl0, hdG.1], ?_⟩
      intro u hu
      rw [getD_set _ _ _ _ (by omega)]
      by_cases hud : u = j' / 2
      · rw [if_pos hud, hud]
        have := hdG.2 (j' / 2) hd'
        by_cases hq : q % 2 = 0
        · rw [if_pos hq]; omega
        · rw [if_neg hq]; omega
      · rw [if_neg hud]
        have := hbox.2 u (by rw [hsh]; simpa using hu)
        rw [hsh, getD_set _ _ _ _ (by omega), if_neg hud] at this
        exact this
    have hA := hset hF rfl j'
    have hB := hset hF' hshape (opp j')
    have hfa := find_eq M h.ok.num _ _ hF _ hA
    have hfb := find_eq M h.ok.num _ _ hF' _ hB
    have hend : ∀ {s : Nat} {G : EArr} (hG : M[s]? = some G) (q : Nat) (b : Fin dim), b.val = j' / 2 →
        (i0.set (j' / 2) (if q % 2 = 0 then 0 else G.shape.getD (j' / 2) 0 - 1)).getD b 0 = endIndex (L s b).n q := by
      intro s G hG q b hb
      rw [getD_set _ _ _ _ (by omega), if_pos hb, ← hb, h.shape s G hG b]
      rfl
    have hrest : ∀ (x y : Nat) (b : Fin dim), b.val ≠ j' / 2 → (i0.set (j' / 2) x).getD b 0 = (i0.set (j' / 2) y).getD b 0 := by
      intro x y b hb
      rw [getD_set _ _ _ _ (by omega), getD_set _ _ _ _ (by omega), if_neg hb, if_neg hb]
    have hAB : CutMeets f (R r') (R s') (L r') (L s') _ _ j' :=
      cutMeets_across hss h.tiles (hlt hF hA) (hend hF j') (hend hF' (opp j')) (hrest _ _)
    have hBA : CutMeets f (R s') (R r') (L s') (L r') _ _ (opp j') :=
      cutMeets_across (sameSide_symm hss) h.tiles (hlt hF' hB) (fun b hb => hend hF' (opp j') b (by rwa [opp_div] at hb))
        (fun b hb => by rw [opp_opp]; exact hend hF j' b (by rwa [opp_div] at hb)) (fun b hb => hrest _ _ b (by rwa [opp_div] at hb))
    rw [ha] at hfa
    rw [hb] at hfb
    have hcase : (a = E.at_ i ∧ j' = j ∧ b = l) ∨ (b = E.at_ i ∧ opp j' = j ∧ a = l) := by
      rcases hj' with ⟨g1, g2⟩ | ⟨g1, g2⟩ <;> rcases hab with ⟨f1, f2⟩ | ⟨f1, f2⟩ <;> simp only [Prod.mk.injEq] at g1 g2 f1 f2
      · left; exact ⟨by rw [← f1.1, g1.1], by rw [← f1.2, g1.2], by rw [← f2.1, g2.1]⟩
      · right; exact ⟨by rw [← f2.1, g1.1], by rw [← f2.2, g1.2], by rw [← f1.1, g2.1]⟩
      · right; exact ⟨by rw [← f2.1, g1.1], by rw [← f2.2, g1.2], by rw [← f1.1, g2.1]⟩
      · left; exact ⟨by rw [← f1.1, g1.1], by rw [← f1.2, g1.2], by rw [← f2.1, g2.1]⟩
    rcases hcase with ⟨e1, e2, e3⟩ | ⟨e1, e2, e3⟩
    · rw [e1] at hfa
      rw [e3] at hfb
      rw [← e2]
      exact ⟨_, _, _, _, hfa, hfb, hAB⟩
    · rw [e3] at hfa
      rw [e1] at hfb
      rw [← e2]
      exact ⟨_, _, _, _, hfb, hfa, hBA⟩
  · have h1 := foldl_not (E.at_ i) j ps m0 hin
    rw [hmm, hmj] at h1
    have h2 := hget j hj
    rw [← h1] at h2
    rcases fetchSide_cases dim M rmap h.ok r E hE i hi j hj _ h2 with ⟨_, b, _, hb⟩ | ⟨hend, s, E', hr, hE', hbox, he⟩ | ⟨hend, hbox, he⟩
    · exact absurd hb (by simp)
    · have he := Att.other.inj he
      refine ⟨r, i, s, _, hfind, by rw [he]; exact find_eq M h.ok.num s E' hE' _ hbox, ?_⟩
      refine cutMeets_across (h.interface r j s (lt_length hE) hj hr) h.tiles (hlt hE hi) ?_ ?_ ?_
      · intro b hb
        unfold atEnd at hend
        rw [hb, hend, ← hb, h.shape r E hE b]
        rfl
      · intro b hb
        rw [getD_set _ _ _ _ (by omega), if_pos hb, ← hb, h.shape s E' hE' b]
        unfold endIndex
        rw [opp_mod]
        by_cases hq : j % 2 = 0
        · rw [if_pos hq, if_neg (by omega)]
        · rw [if_neg hq, if_pos (by omega)]
      · intro b hb
        rw [getD_set _ _ _ _ (by omega), if_neg hb]
    · have he := Att.other.inj he
      refine ⟨r, i, r, _, hfind, by rw [he]; exact find_eq M h.ok.num r E hE _ hbox, ?_⟩
      refine cutMeets_inside f (R r) (h.tiles r) (hlt hE hi) (hlt hE hbox) ?_ ?_
      · intro b hb
        rw [getD_set _ _ _ _ (by omega), if_pos hb]
        unfold atEnd at hend
        rw [← hb] at hend ⊢
        by_cases hq : j % 2 = 0
        · rw [if_pos hq] at hend ⊢
          rw [if_pos hq]
          omega
        · rw [if_neg hq]
          rw [if_neg hq]
      · intro b hb
        rw [getD_set _ _ _ _ (by omega), if_neg hb]

section
variable {α : Type*} {M : List EArr} {rmap : Nat → Nat → Att} {per : List (Nat × Nat × Nat)} {ps : List Pair}

theorem conforms2_cut {f : (Fin 2 → ℝ) → α} {R : Nat → Geo 2 ℝ} {L : Nat → Fin 2 → Parsed ℝ} (h : CutMesh 2 M rmap per f R L)
    (hps : allPairs M per = some ps) : Conforms2 f (element2 M R L) (meshMap 2 M rmap ps) := by
  refine ⟨fun k => by simp [meshMap], ?_⟩
  intro k j l hj
  unfold meshMap at hj
  rw [List.getElem?_map] at hj
  obtain ⟨j', hj', hn⟩ := Option.map_eq_some_iff.1 hj
  have hjlt : j < 2 * 2 := by
    by_contra hcon
    rw [List.getElem?_eq_none (by simp; omega)] at hj'
    exact absurd hj' (by simp)
  rw [List.getElem?_range hjlt] at hj'
  have := Option.some.inj hj'
  subst this
  obtain ⟨r, i, s, i', h1, h2, c, hf, hm⟩ := neighbour_meets h hps hjlt hn
  refine ⟨c, hf, ?_⟩
  intro τ hτ
  have e1 : element2 M R L k = cut2 (R r) (L r) i := by unfold element2; rw [h1]
  have e2 : element2 M R L l = cut2 (R s) (L s) i' := by unfold element2; rw [h2]
  rw [e1, e2]
  have hv := onSide2_mem (side2 j) hτ
  have : j = 0 ∨ j = 1 ∨ j = 2 ∨ j = 3 := by omega
  rcases this with rfl | rfl | rfl | rfl
  · have := hm 0 rfl _ hv (by simp [side2, onSide2, refEnd])
    simpa [cut2_map, side2, onSide2, refEnd, opp, upd2_0, upd2_1] using this
  · have := hm 0 rfl _ hv (by simp [side2, onSide2, refEnd])
    simpa [cut2_map, side2, onSide2, refEnd, opp, upd2_0, upd2_1] using this
  · have := hm 1 rfl _ hv (by simp [side2, onSide2, refEnd])
    simpa [cut2_map, side2, onSide2, refEnd, opp, upd2_0, upd2_1] using this
  · have := hm 1 rfl _ hv (by simp [side2, onSide2, refEnd])
    simpa [cut2_map, side2, onSide2, refEnd, opp, upd2_0, upd2_1] using this

theorem smooth_element2 {f : (Fin 2 → ℝ) → α} {R : Nat → Geo 2 ℝ} {L : Nat → Fin 2 → Parsed ℝ} (h : CutMesh 2 M rmap per f R L) (k : Nat) :
    SmoothEl2 (element2 M R L k) := by
  unfold element2
  cases hf : find M k with
  | none => exact smooth_cut2 (h.smooth 0) (h.tiles 0) (fun b => by simpa using (h.tiles 0 b).pos)
  | some x =>
    obtain ⟨r, i⟩ := x
    obtain ⟨E, hE, hi, _⟩ := find_inv h.ok.num hf
    refine smooth_cut2 (h.smooth r) (h.tiles r) (fun b => ?_)
    rw [← h.shape r E hE b]
    exact hi.2 b (by rw [(h.ok.dims r E hE).1]; exact b.2)

theorem conforms3_cut {f : (Fin 3 → ℝ) → α} {R : Nat → Geo 3 ℝ} {L : Nat → Fin 3 → Parsed ℝ} (h : CutMesh 3 M rmap per f R L)
    (hps : allPairs M per = some ps) : Conforms3 f (element3 M R L) (meshMap 3 M rmap ps) := by
  refine ⟨fun k => by simp [meshMap], ?_⟩
  intro k j l hj
  unfold meshMap at hj
  rw [List.getElem?_map] at hj
  obtain ⟨j', hj', hn⟩ := Option.map_eq_some_iff.1 hj
  have hjlt : j < 2 * 3 := by
    by_contra hcon
    rw [List.getElem?_eq_none (by simp; omega)] at hj'
    exact absurd hj' (by simp)
  rw [List.getElem?_range hjlt] at hj'
  have := Option.some.inj hj'
  subst this
  obtain ⟨r, i, s, i', h1, h2, c, hf, hm⟩ := neighbour_meets h hps hjlt hn
  refine ⟨c, hf, ?_⟩
  intro σ hσ τ hτ
  have e1 : element3 M R L k = cut3 (R r) (L r) i := by unfold element3; rw [h1]
  have e2 : element3 M R L l = cut3 (R s) (L s) i' := by unfold element3; rw [h2]
  rw [e1, e2]
  have hv := onSide3_mem (side3 j) hσ hτ
  have : j = 0 ∨ j = 1 ∨ j = 2 ∨ j = 3 ∨ j = 4 ∨ j = 5 := by omega
  rcases this with rfl | rfl | rfl | rfl | rfl | rfl
  · have := hm 0 rfl _ hv (by simp [side3, onSide3, refEnd])
    simpa [cut3_map, side3, onSide3, refEnd, opp, upd3_0, upd3_1, upd3_2] using this
  · have := hm 0 rfl _ hv (by simp [side3, onSide3, refEnd])
    simpa [cut3_map, side3, onSide3, refEnd, opp, upd3_0, upd3_1, upd3_2] using this
  · have := hm 1 rfl _ hv (by simp [side3, onSide3, refEnd])
    simpa [cut3_map, side3, onSide3, refEnd, opp, upd3_0, upd3_1, upd3_2] using this
  · have := hm 1 rfl _ hv (by simp [side3, onSide3, refEnd])
    simpa [cut3_map, side3, onSide3, refEnd, opp, upd3_0, upd3_1, upd3_2] using this
  · have := hm 2 rfl _ hv (by simp [side3, onSide3, refEnd])
    simpa [cut3_map, side3, onSide3, refEnd, opp, upd3_0, upd3_1, upd3_2] using this
  · have := hm 2 rfl _ hv (by simp [side3, onSide3, refEnd])
    simpa [cut3_map, side3, onSide3, refEnd, opp, upd3_0, upd3_1, upd3_2] using this

theorem smooth_element3 {f : (Fin 3 → ℝ) → α} {R : Nat → Geo 3 ℝ} {L : Nat → Fin 3 → Parsed ℝ} (h : CutMesh 3 M rmap per f R L) (k : Nat) :
    SmoothEl3 (element3 M R L k) := by
  unfold element3
  cases hf : find M k with
  | none => exact smooth_cut3 (h.smooth 0) (h.tiles 0) (fun b => by simpa using (h.tiles 0 b).pos)
  | some x =>
    obtain ⟨r, i⟩ := x
    obtain ⟨E, hE, hi, _⟩ := find_inv h.ok.num hf
    refine smooth_cut3 (h.smooth r) (h.tiles r) (fun b => ?_)
    rw [← h.shape r E hE b]
    exact hi.2 b (by rw [(h.ok.dims r E hE).1]; exact b.2)

end

/-- The local values of all elements are the entries of one global vector. -/
def OneVector (p : List Nat) (comps : List (List Bool)) (out : List (List (Nat × Arr (Nat × List Nat)))) (D : Nat → List ℝ) : Prop :=
  ∃ g : Nat → ℝ, ∀ x ∈ out.flatten, ∀ i v : Nat, (gatheringVector p comps x.2)[i]? = some (some v) → (D x.1)[i]? = some (g v)

section
variable {M : List EArr} {rmap : Nat → Nat → Att} {per : List (Nat × Nat × Nat)} {ps : List Pair} (hps : allPairs M per = some ps)
  (n : Nat) (ranks : List (List Nat)) (hr : ranks.flatten = List.range n) (out : List (List (Nat × Arr (Nat × List Nat))))

section
variable {R : Nat → Geo 2 ℝ} {L : Nat → Fin 2 → Parsed ℝ} (p0 p1 : Nat) (x0 x1 : Nat → ℝ) (hx0 : NodesOK p0 x0) (hx1 : NodesOK p1 x1)
  (r0 r1 : Rule ℝ)
include hps hr hx0 hx1

/-- **C68 on the meshes of the library (2D).** Regions glued along common or periodic sides that are cut at the same places:
discretizing a field gives every global dof the same value from every element that has it. 0-forms: -/
theorem c68_mesh_2d_0 (f : (Fin 2 → ℝ) → ℝ) (h : CutMesh 2 M rmap per f R L)
    (hout : naive (formLayout [p0, p1] comps2d0) (meshMap 2 M rmap ps) ranks = some out) :
    OneVector [p0, p1] comps2d0 out fun k => Disc.Two.disc0 p0 p1 x0 x1 (element2 M R L k) f :=
  c68_2d_0_global p0 p1 x0 x1 hx0 hx1 _ _ n ranks hr out hout f (conforms2_cut h hps)

/-- inner 1-forms. -/
theorem c68_mesh_2d_inner (h0 : RuleOK r0) (h1 : RuleOK r1) (f : (Fin 2 → ℝ) → Fin 2 → ℝ) (h : CutMesh 2 M rmap per f R L)
    (hout : naive (formLayout [p0, p1] comps2d1i) (meshMap 2 M rmap ps) ranks = some out) :
    OneVector [p0, p1] comps2d1i out fun k => Disc.Two.discInner p0 p1 x0 x1 r0 r1 (element2 M R L k) f :=
  c68_2d_inner_global p0 p1 x0 x1 hx0 hx1 r0 r1 h0 h1 _ _ n ranks hr out (smooth_element2 h) hout f (conforms2_cut h hps)

/-- outer 1-forms. -/
theorem c68_mesh_2d_outer (h0 : RuleOK r0) (h1 : RuleOK r1) (f : (Fin 2 → ℝ) → Fin 2 → ℝ) (h : CutMesh 2 M rmap per f R L)
    (hout : naive (formLayout [p0, p1] comps2d1o) (meshMap 2 M rmap ps) ranks = some out) :
    OneVector [p0, p1] comps2d1o out fun k => Disc.Two.discOuter p0 p1 x0 x1 r0 r1 (element2 M R L k) f :=
  c68_2d_outer_global p0 p1 x0 x1 hx0 hx1 r0 r1 h0 h1 _ _ n ranks hr out (smooth_element2 h) hout f (conforms2_cut h hps)
end

section
variable {R : Nat → Geo 3 ℝ} {L : Nat → Fin 3 → Parsed ℝ} (p0 p1 p2 : Nat) (x0 x1 x2 : Nat → ℝ) (hx0 : NodesOK p0 x0) (hx1 : NodesOK p1 x1)
  (hx2 : NodesOK p2 x2) (r0 r1 r2 : Rule ℝ)
include hps hr hx0 hx1 hx2

/-- **C68 on the meshes of the library (3D).** 0-forms: -/
theorem c68_mesh_3d_0 (f : (Fin 3 → ℝ) → ℝ) (h : CutMesh 3 M rmap per f R L)
    (hout : naive (formLayout [p0, p1, p2] comps3d0) (meshMap 3 M rmap ps) ranks = some out) :
    OneVector [p0, p1, p2] comps3d0 out fun k => Disc.Three.disc0 p0 p1 p2 x0 x1 x2 (element3 M R L k) f :=
  c68_3d_0_global p0 p1 p2 x0 x1 x2 hx0 hx1 hx2 _ _ n ranks hr out hout f (conforms3_cut h hps)

/-- 1-forms. -/
theorem c68_mesh_3d_1 (h0 : RuleOK r0) (h1 : RuleOK r1) (h2 : RuleOK r2) (f : (Fin 3 → ℝ) → Fin 3 → ℝ) (h : CutMesh 3 M rmap per f R L)
    (hout : naive (formLayout [p0, p1, p2] comps3d1) (meshMap 3 M rmap ps) ranks = some out) :
    OneVector [p0, p1, p2] comps3d1 out fun k => Disc.Three.disc1 p0 p1 p2 x0 x1 x2 r0 r1 r2 (element3 M R L k) f :=
  c68_3d_1_global p0 p1 p2 x0 x1 x2 hx0 hx1 hx2 r0 r1 r2 h0 h1 h2 _ _ n ranks hr out (smooth_element3 h) hout f (conforms3_cut h hps)

/-- 2-forms. -/
theorem c68_mesh_3d_2 (h0 : RuleOK r0) (h1 : RuleOK r1) (h2 : RuleOK r2) (f : (Fin 3 → ℝ) → Fin 3 → ℝ) (h : CutMesh 3 M rmap per f R L)
    (hout : naive (formLayout [p0, p1, p2] comps3d2) (meshMap 3 M rmap ps) ranks = some out) :
    OneVector [p0, p1, p2] comps3d2 out fun k => Disc.Three.disc2 p0 p1 p2 x0 x1 x2 r0 r1 r2 (element3 M R L k) f :=
  c68_3d_2_global p0 p1 p2 x0 x1 x2 hx0 hx1 hx2 r0 r1 r2 h0 h1 h2 _ _ n ranks hr out (smooth_element3 h) hout f (conforms3_cut h hps)
end
end

/-! ## A mesh that meets the hypotheses -/

/-- Two regions: the unit square, and a trapezium to its right whose sides are mapped bilinearly. -/
noncomputable def geo68 (r : Nat) : Geo 2 ℝ :=
  if r = 0 then ⟨fun x => ![x 0, x 1], fun _ => ![![1, 0], ![0, 1]], true⟩
  else ⟨fun x => ![1 + x 0, x 1 * (1 + x 0)], fun x => ![![1, 0], ![x 1, 1 + x 0]], false⟩

def rmap68 (r j : Nat) : Att := if r = 0 ∧ j = 1 then .other 1 else if r = 1 ∧ j = 0 then .other 0 else .bnd 0

/-- the parsed form of an entry. -/
noncomputable def parsed (e : Entry ℝ) : Parsed ℝ := (parse1 e).getD ⟨0, [], []⟩

/-- `[2, [1, 2]]` and `[3, [1, 2]]`. -/
noncomputable def lay68 (r : Nat) (b : Fin 2) : Parsed ℝ :=
  if b = 0 then (if r = 0 then parsed (.int 2) else parsed (.int 3)) else parsed (.sizes [1, 2])

def mesh68 : List EArr := [arangeF 0 [2, 2], arangeF 4 [3, 2]]

theorem mesh68_ok : MeshOK 2 mesh68 rmap68 := by
  refine ⟨?_, ?_, ?_⟩
  · intro r E hE
    match r, hE with
    | 0, hE =>
      obtain rfl := Option.some.inj hE
      exact numbers_arangeF 0 [2, 2]
    | 1, hE =>
      obtain rfl := Option.some.inj hE
      exact numbers_arangeF 4 [3, 2]
    | r + 2, hE => simp [mesh68] at hE
  · intro r E hE
    match r, hE with
    | 0, hE =>
      obtain rfl := Option.some.inj hE
      exact ⟨rfl, by decide⟩
    | 1, hE =>
      obtain rfl := Option.some.inj hE
      exact ⟨rfl, by decide⟩
    | r + 2, hE => simp [mesh68] at hE
  · intro r j s hr hj h
    unfold rmap68 at h
    split at h
    · rename_i h1
      obtain ⟨rfl, rfl⟩ := h1
      obtain rfl := Att.other.inj h
      decide
    · split at h
      · rename_i h1
        obtain ⟨rfl, rfl⟩ := h1
        obtain rfl := Att.other.inj h
        decide
      · exact absurd h (by simp)

theorem geo68_smooth (r : Nat) : SmoothGeo (geo68 r) := by
  unfold geo68
  by_cases hr : r = 0
  · rw [if_pos hr]
    refine ⟨?_, ?_⟩
    · intro x _ a b
      fin_cases a <;> fin_cases b <;> simp [Function.update] <;> first | exact hasDerivWithinAt_id _ _ | exact hasDerivWithinAt_const _ _ _
    · intro _ x _ a b hab
      fin_cases a <;> fin_cases b <;> simp at hab ⊢
  · rw [if_neg hr]
    refine ⟨?_, fun h => absurd h (by simp)⟩
    intro x _ a b
    fin_cases a <;> fin_cases b <;> simp [Function.update]
    · exact (hasDerivWithinAt_id (x 0) Unit01).const_add 1
    · exact hasDerivWithinAt_const _ _ _
    · simpa using ((hasDerivWithinAt_id (x 0) Unit01).const_add 1).const_mul (x 1)
    · simpa using (hasDerivWithinAt_id (x 1) Unit01).mul_const (1 + x 0)

theorem parsed_some {e : Entry ℝ} (h : (parse1 e).isSome) : parse1 e = some (parsed e) := by
  obtain ⟨P, hP⟩ := Option.isSome_iff_exists.1 h
  unfold parsed
  rw [hP]
  rfl

theorem lay68_tiles (r : Nat) (b : Fin 2) : Tiles (lay68 r b) := by
  unfold lay68
  split
  · split
    · exact parse1_tiles (parsed_some (by simp [parse1]))
    · exact parse1_tiles (parsed_some (by simp [parse1]))
  · exact parse1_tiles (parsed_some (by simp [parse1]))

/-- every field is discretized to one global vector on this mesh. -/
theorem cutMesh68 {α : Type*} (f : (Fin 2 → ℝ) → α) : CutMesh 2 mesh68 rmap68 [] f geo68 lay68 := by
  refine ⟨mesh68_ok, ⟨by simp, by simp [regionEnds], by simp⟩, geo68_smooth, lay68_tiles, ?_, ?_, by simp⟩
  · intro r E hE b
    match r, hE with
    | 0, hE =>
      obtain rfl := Option.some.inj hE
      fin_cases b <;> simp [lay68, arangeF, parsed, parse1]
    | 1, hE =>
      obtain rfl := Option.some.inj hE
      fin_cases b <;> simp [lay68, arangeF, parsed, parse1]
    | r + 2, hE => simp [mesh68] at hE
  · intro r j s _ _ h
    have hc : (r = 0 ∧ j = 1 ∧ s = 1) ∨ (r = 1 ∧ j = 0 ∧ s = 0) := by
      unfold rmap68 at h
      split at h
      · rename_i h1
        exact Or.inl ⟨h1.1, h1.2, (Att.other.inj h).symm⟩
      · split at h
        · rename_i h1
          exact Or.inr ⟨h1.1, h1.2, (Att.other.inj h).symm⟩
        · exact absurd h (by simp)
    have key : SameSide f geo68 lay68 0 1 1 := by
      refine ⟨⟨0, fun z => by rw [add_zero], ?_⟩, ?_⟩
      · intro b hb x _ hx
        have : b = 0 := Fin.ext hb
        subst this
        simp only [unitEnd] at hx
        funext a
        fin_cases a <;> (simp [geo68, unitEnd, opp, Function.update]; try simpa using hx)
      · intro b hb
        have : b ≠ 0 := fun hc => hb (by rw [hc]; rfl)
        simp [lay68, this]
    rcases hc with ⟨rfl, rfl, rfl⟩ | ⟨rfl, rfl, rfl⟩
    · exact key
    · exact sameSide_symm key

example : naive (formLayout [1, 2] comps2d1i) (meshMap 2 mesh68 rmap68 []) [[0, 1, 2, 3], [4, 5, 6, 7, 8, 9]] ≠ none := by decide +kernel

/-- A periodic mesh: one square whose lower side in direction 0 is put together with its upper side, and a field with
period 1. -/
example : CutMesh 2 [arangeF 0 [2, 2]] (fun _ _ => .bnd 0) [(0, 0, 0)] (fun z => Int.fract (z 0) * z 1) (fun _ => geo68 0) (fun _ => lay68 0) := by
  refine ⟨⟨?_, ?_, by simp⟩, ⟨by simp, by decide, by simp⟩, fun _ => geo68_smooth 0, fun _ => lay68_tiles 0, ?_, by simp, ?_⟩
  · intro r E hE
    match r, hE with
    | 0, hE =>
      obtain rfl := Option.some.inj hE
      exact numbers_arangeF 0 [2, 2]
    | r + 1, hE => simp at hE
  · intro r E hE
    match r, hE with
    | 0, hE =>
      obtain rfl := Option.some.inj hE
      exact ⟨rfl, by decide⟩
    | r + 1, hE => simp at hE
  · intro r E hE b
    match r, hE with
    | 0, hE =>
      obtain rfl := Option.some.inj hE
      fin_cases b <;> simp [lay68, arangeF, parsed, parse1]
    | r + 1, hE => simp at hE
  · intro x hx
    obtain rfl := List.mem_singleton.1 hx
    refine ⟨⟨![-1, 0], ?_, ?_⟩, fun _ _ => rfl⟩
    · intro z
      have : z 0 + -1 = z 0 - 1 := rfl
      simp [this]
    · intro b hb x _ hx
      have : b = 0 := Fin.ext hb
      subst this
      have hx0 : x 0 = 0 := hx
      funext a
      fin_cases a <;> simp [geo68, unitEnd, opp, Function.update, hx0]

/-! ## Layouts that do not match -/

/-- the unit square and a copy to its right, over the rationals. -/
def geoQ (r : Nat) : Geo 2 ℚ := ⟨fun x => ![x 0 + r, x 1], fun _ => ![![1, 0], ![0, 1]], true⟩

/-- the layouts `[1, [1, 2]]` and `[1, [2, 1]]`, as parsed. -/
def layQ (r : Nat) (b : Fin 2) : Parsed ℚ :=
  if b = 0 then ⟨1, [1], [0, 1]⟩ else if r = 0 then ⟨2, [1 / 3, 2 / 3], [0, 1 / 3, 1]⟩ else ⟨2, [2 / 3, 1 / 3], [0, 2 / 3, 1]⟩

def meshQ : List EArr := [arangeF 0 [1, 2], arangeF 2 [1, 2]]

def outQ : List (List (Nat × Arr (Nat × List Nat))) :=
  (naive (formLayout [1, 1] comps2d0) (meshMap 2 meshQ rmap68 []) [[0, 1, 2, 3]]).getD []

theorem outQ_length0 : 0 < outQ.flatten.length := by decide +kernel
theorem outQ_length2 : 2 < outQ.flatten.length := by decide +kernel

/-- **C68 fails for layouts that do not match.** The mesh accepts two regions with a common side that is cut at different
places (only the numbers of elements are compared). Then elements 0 and 2 share dof 3 of a 0-form, but the values of the
function `y` discretized there are 1/3 and 2/3. -/
theorem c68_layouts_differ :
    parse (fun _ => []) 2 (.list [.int 1, .sizes [1, 2]]) = some [layQ 0 0, layQ 0 1] ∧
    parse (fun _ => []) 2 (.list [.int 1, .sizes [2, 1]]) = some [layQ 1 0, layQ 1 1] ∧
    (∀ e < 4, (elementMap 2 meshQ rmap68 e).isSome) ∧
    (∀ t : ℚ, (geoQ 0).map ![1, t] = (geoQ 1).map ![0, t]) ∧
    ∃ out, naive (formLayout [1, 1] comps2d0) (meshMap 2 meshQ rmap68 []) [[0, 1, 2, 3]] = some out ∧
      ∃ x ∈ out.flatten, ∃ y ∈ out.flatten, x.1 = 0 ∧ y.1 = 2 ∧
        (gatheringVector [1, 1] comps2d0 x.2)[3]? = some (some 3) ∧ (gatheringVector [1, 1] comps2d0 y.2)[2]? = some (some 3) ∧
        (Disc.Two.disc0 1 1 (fun i => if i = 0 then -1 else 1) (fun i => if i = 0 then -1 else 1) (element2 meshQ geoQ layQ x.1) fun z => z 1)[3]? = some (1 / 3) ∧
        (Disc.Two.disc0 1 1 (fun i => if i = 0 then -1 else 1) (fun i => if i = 0 then -1 else 1) (element2 meshQ geoQ layQ y.1) fun z => z 1)[2]? = some (2 / 3) := by
  refine ⟨by decide +kernel, by decide +kernel, by decide +kernel, ?_, ?_⟩
  · intro t
    simp [geoQ]
  · have h : (naive (formLayout [1, 1] comps2d0) (meshMap 2 meshQ rmap68 []) [[0, 1, 2, 3]]).isSome = true := by decide +kernel
    refine ⟨outQ, ?_, _, List.getElem_mem (n := 0) outQ_length0, _, List.getElem_mem (n := 2) outQ_length2, ?_⟩
    · unfold outQ
      obtain ⟨o, ho⟩ := Option.isSome_iff_exists.1 h
      rw [ho]
      rfl
    · clear h
      decide +kernel

end Mifem.Props
