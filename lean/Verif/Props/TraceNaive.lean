import Verif.Props.TraceLayout
import Verif.Props.NaiveChain
import Verif.Props.SharedDofsGlobal

/-!
# C83: the non-hybrid trace forms of naively numbered forms
-/

namespace Mifem.Props
open Mifem.Naive Mifem.Gath Mifem.Mesh Mifem.TraceNum Mifem.Three

/-- What a numbering `out` of a non-hybrid trace form must be, for a form with the vectors `ranks` (rank by rank, `gnd` dofs):
one number for each dof of the form on the surface of an element, `0, ..., n - 1`; each place of each side has the number of
the dof of the form that is there, in the vector of the side and, through the local numbering `lg`, in that of the element. -/
def NumbersSurfaces (lg : List (Side × List Nat)) (dofs : Side → List Nat) (nInt gnd : Nat) (ranks : List (List (List Nat)))
    (out : List (List (List Int × List (Side × List Int)))) : Prop :=
  ∃ num : Nat → Nat, ∃ n : Nat, n + ranks.flatten.length * nInt = gnd ∧
    out.map List.length = ranks.map List.length ∧
    (∀ d d', OnSurface dofs ranks.flatten d → OnSurface dofs ranks.flatten d' → num d = num d' → d = d') ∧
    (∀ k, k < n ↔ ∃ d, OnSurface dofs ranks.flatten d ∧ num d = k) ∧
    ∀ (r : Nat) vs, ranks[r]? = some vs → ∀ (m : Nat) gv, vs[m]? = some gv → ∃ ws w sv, out[r]? = some ws ∧ ws[m]? = some (w, sv) ∧
      ∀ p ∈ lg, ∃ vals, sv.lookup p.1 = some vals ∧ vals.length = p.2.length ∧
        ∀ (t k i : Nat), p.2[t]? = some k → (dofs p.1)[t]? = some i →
          vals[t]? = some (num (gv.getD i 0) : Int) ∧ w[k]? = some (num (gv.getD i 0) : Int)

/-- the general step. -/
theorem c83_of_naive {p : List Nat} {comps : List (List Bool)} (hc : Comps p comps) {emap : Nat → List (Option Nat)} {n : Nat} (hn : 0 < n)
    {ranks : List (List Nat)} (hr : ranks.flatten = List.range n) {out : List (List (Nat × Arr (Nat × List Nat)))}
    (hout : naive (formLayout p comps) emap ranks = some out) (hnr : NoRepeat (naiveGM (places fOrder p comps) out))
    {ild : List Nat} {lg : List (Side × List Nat)} {dofs : Side → List Nat} (hl : SideLayout (places fOrder p comps).length ild lg dofs)
    (hin : ild.Nodup) (hild : ∀ i ∈ ild, ∃ a, (places fOrder p comps)[i]? = some a ∧ ∀ j, onSide p comps j a = false) :
    ∃ gnd res, (∀ d, d < gnd ↔ Occurs (naiveGM (places fOrder p comps) out) d) ∧
      nonHybrid (places fOrder p comps).length lg dofs ild gnd ((naiveGM (places fOrder p comps) out).map fun l => l.map Prod.snd) = some res ∧
      NumbersSurfaces lg dofs ild.length gnd ((naiveGM (places fOrder p comps) out).map fun l => l.map Prod.snd) res := by
  set ord := places fOrder p comps with hord
  have hL := good_formLayout p comps hc
  have hmp := mem_places fOrder mem_fOrder p comps hc
  have ho : ∀ a, a ∈ ord ↔ a ∈ (formLayout p comps).slots := fun a => (hmp a).trans (mem_slots p comps hc a).symm
  obtain ⟨N, M, hdet, hvec⟩ := out_vecs hL hr hout
  obtain ⟨N', M', hdet', hval⟩ := naive_spec _ hL emap n ranks hr out hout
  have hfl : ((naiveGM ord out).map fun l => l.map Prod.snd).flatten = (List.range n).map fun k => vec ord (N k) := by
    rw [← hvec]
    congr 1
    simp [naiveGM, Function.comp_def]
  have hsh := run_shape _ emap ranks _ out hout
  have hocc : ∀ d, (∃ v ∈ ((naiveGM ord out).map fun l => l.map Prod.snd).flatten, d ∈ v) ↔ Occurs (naiveGM ord out) d := by
    intro d
    constructor
    · rintro ⟨v, hv, hd⟩
      obtain ⟨l, hl, hvl⟩ := List.mem_flatten.1 hv
      obtain ⟨l', hl', rfl⟩ := List.mem_map.1 hl
      obtain ⟨x, hx, rfl⟩ := List.mem_map.1 hvl
      obtain ⟨r, hrl, he⟩ := List.mem_iff_getElem.1 hl'
      refine ⟨r, x.1, x.2, ?_, hd⟩
      unfold getVec
      rw [List.getD_eq_getElem _ _ hrl, he]
      apply lookup_of_nodup
      · apply ranks_nodup hr
        rw [← hsh]
        obtain ⟨m, hm, rfl⟩ := List.mem_map.1 hl'
        exact List.mem_map.2 ⟨m, hm, by simp [Function.comp_def]⟩
      · exact hx
    · rintro ⟨r, e, v, hv, hd⟩
      have hm := mem_of_lookup hv
      rw [List.getD_eq_getElem?_getD] at hm
      cases hg : (naiveGM ord out)[r]? with
      | none => rw [hg] at hm; simp at hm
      | some l =>
        rw [hg] at hm
        exact ⟨v, List.mem_flatten.2 ⟨_, List.mem_map.2 ⟨l, List.mem_of_getElem? hg, rfl⟩, List.mem_map.2 ⟨_, hm, rfl⟩⟩, hd⟩
  have hnd : ∀ k, k < n → (vec ord (N k)).Nodup := by
    intro k hk
    have hm : vec ord (N k) ∈ ((naiveGM ord out).map fun l => l.map Prod.snd).flatten := by
      rw [hfl]; exact List.mem_map.2 ⟨k, List.mem_range.2 hk, rfl⟩
    obtain ⟨l, hl, hvl⟩ := List.mem_flatten.1 hm
    obtain ⟨l', hl', rfl⟩ := List.mem_map.1 hl
    obtain ⟨x, hx, he⟩ := List.mem_map.1 hvl
    obtain ⟨r, hrl, hge⟩ := List.mem_iff_getElem.1 hl'
    apply hnr r x.1
    unfold getVec
    rw [List.getD_eq_getElem _ _ hrl, hge, ← he]
    apply lookup_of_nodup
    · apply ranks_nodup hr
      rw [← hsh]
      obtain ⟨m, hm, rfl⟩ := List.mem_map.1 hl'
      exact List.mem_map.2 ⟨m, hm, by simp [Function.comp_def]⟩
    · exact hx
  have hfv := formVecs hL hdet ho (fun a => ∀ j, onSide p comps j a = false) (by
    rintro j ⟨x, y⟩ hq
    obtain ⟨h1, h2, h3, h4⟩ := (mem_sides p comps hc j x y).1 hq
    have hon : onSide p comps j x = true := (onSide_iff p comps j x).2 ⟨h2, h3⟩
    have hj : j / 2 < p.length := by
      obtain ⟨c, hcc, hlen, _⟩ := h1
      rw [nodalIn_of comps x.1 _ c hcc] at h2
      rw [← hc c (List.mem_of_getElem? hcc)]
      by_contra hge
      rw [List.getD_eq_default _ _ (by omega)] at h2
      cases h2
    obtain ⟨g1, g2, g3⟩ := across_spec p comps x h1 j hj hon
    refine ⟨fun h => ?_, fun h => ?_⟩
    · have := h j
      rw [hon] at this
      cases this
    · have hy : y = across p j x := h4
      simp only [hy] at h
      have := h (opp j)
      rw [g2] at this
      cases this) ild hild hnd
  rw [← hfl] at hfv
  have hne : ((naiveGM ord out).map fun l => l.map Prod.snd).flatten ≠ [] := by
    rw [hfl]
    intro h
    have := congrArg List.length h
    simp at this
    omega
  have hg : ∀ d, d < M ↔ ∃ v ∈ ((naiveGM ord out).map fun l => l.map Prod.snd).flatten, d ∈ v := by
    intro d
    rw [numbers_range _ hL emap n N M hdet d, hfl]
    constructor
    · rintro ⟨k, a, hk, ha, he⟩
      exact ⟨_, List.mem_map.2 ⟨k, List.mem_range.2 hk, rfl⟩, (mem_vec hdet ho k hk d).2 ⟨a, ha, he⟩⟩
    · rintro ⟨v, hv, hd⟩
      obtain ⟨k, hk, rfl⟩ := List.mem_map.1 hv
      rw [List.mem_range] at hk
      obtain ⟨a, ha, he⟩ := (mem_vec hdet ho k hk d).1 hd
      exact ⟨k, a, hk, ha, he⟩
  obtain ⟨res, num, m, h1, h2⟩ := c83_nonhybrid hl hfv hin (fun i hi => by
    obtain ⟨a, ha, _⟩ := hild i hi
    exact (List.getElem?_eq_some_iff.1 ha).1) hg hne
  exact ⟨M, res, fun d => (hg d).trans (hocc d), h1, num, m, h2⟩

theorem comps3d0_ok (p0 p1 p2 : Nat) : Comps [p0, p1, p2] comps3d0 := by intro c hc; simp [comps3d0] at hc; simp [hc]
theorem comps3d1_ok (p0 p1 p2 : Nat) : Comps [p0, p1, p2] comps3d1 := by intro c hc; simp [comps3d1] at hc; rcases hc with rfl | rfl | rfl <;> rfl
theorem comps3d2_ok (p0 p1 p2 : Nat) : Comps [p0, p1, p2] comps3d2 := by intro c hc; simp [comps3d2] at hc; rcases hc with rfl | rfl | rfl <;> rfl

theorem places_len0 (p0 p1 p2 : Nat) : (places fOrder [p0, p1, p2] comps3d0).length = nb0 p0 p1 p2 := by
  simp [places, comps3d0, shape, fOrder_length, nb0, Nat.mul_assoc]
theorem places_len1 (p0 p1 p2 : Nat) : (places fOrder [p0, p1, p2] comps3d1).length = nb1 p0 p1 p2 := by
  rw [places_3d1]
  simp [fOrder_length, nb1, nb1c0, nb1c1, nb1c2, Nat.mul_assoc, Nat.add_assoc]
theorem places_len2 (p0 p1 p2 : Nat) : (places fOrder [p0, p1, p2] comps3d2).length = nb2 p0 p1 p2 := by
  rw [places_3d2]
  simp [fOrder_length, nb2, nb2c0, nb2c1, nb2c2, Nat.mul_assoc, Nat.add_assoc]

theorem isPlace3 {p0 p1 p2 i j k c : Nat} {comps : List (List Bool)} {b0 b1 b2 : Bool} (hc : comps[c]? = some [b0, b1, b2])
    (h0 : i < if b0 then p0 + 1 else p0) (h1 : j < if b1 then p1 + 1 else p1) (h2 : k < if b2 then p2 + 1 else p2) : IsPlace [p0, p1, p2] comps (c, [i, j, k]) := by
  refine ⟨[b0, b1, b2], hc, rfl, ?_⟩
  intro d hd
  match d, hd with
  | 0, _ => cases b0 <;> simp at h0 ⊢ <;> omega
  | 1, _ => cases b1 <;> simp at h1 ⊢ <;> omega
  | 2, _ => cases b2 <;> simp at h2 ⊢ <;> omega
  | d + 3, h => simp at h

theorem notOn3 {p0 p1 p2 i j k c : Nat} {comps : List (List Bool)} {b0 b1 b2 : Bool} (hc : comps[c]? = some [b0, b1, b2])
    (h0 : b0 = true → 1 ≤ i ∧ i < p0) (h1 : b1 = true → 1 ≤ j ∧ j < p1) (h2 : b2 = true → 1 ≤ k ∧ k < p2) (t : Nat) :
    onSide [p0, p1, p2] comps t (c, [i, j, k]) = false := by
  cases h : onSide [p0, p1, p2] comps t (c, [i, j, k]) with
  | false => rfl
  | true =>
    rw [onSide_iff, nodalIn_of comps c _ _ hc] at h
    exfalso
    obtain ⟨g1, g2⟩ := h
    revert g1 g2
    generalize t / 2 = d
    match d with
    | 0 => intro g1 g2; simp at g1 g2; have := h0 g1; split at g2 <;> omega
    | 1 => intro g1 g2; simp at g1 g2; have := h1 g1; split at g2 <;> omega
    | 2 => intro g1 g2; simp at g1 g2; have := h2 g1; split at g2 <;> omega
    | d + 3 => intro g1 g2; simp at g1

theorem at_loc {p : List Nat} {comps : List (List Bool)} (hc : Comps p comps) {loc : Nat × List Nat → Nat}
    (hloc : ∀ i a, (places fOrder p comps)[i]? = some a → i = loc a) {a : Nat × List Nat} (ha : IsPlace p comps a) : (places fOrder p comps)[loc a]? = some a := by
  have hm := (mem_places fOrder mem_fOrder p comps hc a).2 ha
  obtain ⟨i, hi, he⟩ := List.mem_iff_getElem.1 hm
  have h : (places fOrder p comps)[i]? = some a := by rw [List.getElem?_eq_getElem hi, he]
  rw [← hloc i a h]
  exact h

theorem nodup_map_enc {enc : Place → Nat} {valid : Place → Prop} {l : List Place} (hl : l.Nodup) (hv : ∀ x ∈ l, valid x)
    (hinj : ∀ x y, valid x → valid y → enc x = enc y → x = y) : (l.map enc).Nodup :=
  List.Nodup.map_on (fun x hx y hy h => hinj x y (hv x hx) (hv y hy) h) hl

theorem internal0_nodup (p0 p1 p2 : Nat) : (internal0 p0 p1 p2).Nodup := by
  rw [internal0_eq]
  exact nodup_map_enc (nodup_slice _ _ _ _ (nodup_inner _) (nodup_inner _) (nodup_inner _)) (fun x hx => (split0 p0 p1 p2 x).1.2 (Or.inr hx)) (enc0_inj p0 p1 p2)

theorem internal1_nodup (p0 p1 p2 : Nat) : (internal1 p0 p1 p2).Nodup := by
  rw [internal1_eq]
  refine nodup_map_enc ?_ (fun x hx => (split1 p0 p1 p2 x).1.2 (Or.inr hx)) (enc1_inj p0 p1 p2)
  unfold intPl1
  rw [List.nodup_append', List.nodup_append']
  refine ⟨⟨nodup_slice _ _ _ _ List.nodup_range (nodup_inner _) (nodup_inner _), nodup_slice _ _ _ _ (nodup_inner _) List.nodup_range (nodup_inner _), ?_⟩,
    nodup_slice _ _ _ _ (nodup_inner _) (nodup_inner _) List.nodup_range, ?_⟩ <;> apply disjoint_of <;> intro x hx hy <;>
    simp only [List.mem_append, mem_slice] at hx hy <;> omega

theorem internal2_nodup (p0 p1 p2 : Nat) : ((intPl2 p0 p1 p2).map (enc2 p0 p1 p2)).Nodup := by
  refine nodup_map_enc ?_ (fun x hx => (split2 p0 p1 p2 x).1.2 (Or.inr hx)) (enc2_inj p0 p1 p2)
  unfold intPl2
  rw [List.nodup_append', List.nodup_append']
  refine ⟨⟨nodup_slice _ _ _ _ (nodup_inner _) List.nodup_range List.nodup_range, nodup_slice _ _ _ _ List.nodup_range (nodup_inner _) List.nodup_range, ?_⟩,
    nodup_slice _ _ _ _ List.nodup_range List.nodup_range (nodup_inner _), ?_⟩ <;> apply disjoint_of <;> intro x hx hy <;>
    simp only [List.mem_append, mem_slice] at hx hy <;> omega

theorem internal0_places (p0 p1 p2 : Nat) : ∀ i ∈ internal0 p0 p1 p2, ∃ a, (places fOrder [p0, p1, p2] comps3d0)[i]? = some a ∧
    ∀ j, onSide [p0, p1, p2] comps3d0 j a = false := by
  intro t ht
  rw [internal0_eq] at ht
  obtain ⟨⟨c, i, j, k⟩, hx, rfl⟩ := List.mem_map.1 ht
  simp only [intPl0, mem_slice, mem_inner] at hx
  obtain ⟨rfl, hi, hj, hk⟩ := hx
  exact ⟨(0, [i, j, k]), at_loc (comps3d0_ok p0 p1 p2) (loc3d0_spec p0 p1 p2) (isPlace3 (b0 := true) (b1 := true) (b2 := true) rfl (by simp; omega) (by simp; omega) (by simp; omega)),
    notOn3 (b0 := true) (b1 := true) (b2 := true) rfl (fun _ => hi) (fun _ => hj) (fun _ => hk)⟩

theorem internal1_places (p0 p1 p2 : Nat) : ∀ i ∈ internal1 p0 p1 p2, ∃ a, (places fOrder [p0, p1, p2] comps3d1)[i]? = some a ∧
    ∀ j, onSide [p0, p1, p2] comps3d1 j a = false := by
  intro t ht
  rw [internal1_eq] at ht
  obtain ⟨⟨c, i, j, k⟩, hx, rfl⟩ := List.mem_map.1 ht
  simp only [intPl1, List.mem_append, mem_slice, mem_inner, List.mem_range] at hx
  rcases hx with (⟨rfl, hi, hj, hk⟩ | ⟨rfl, hi, hj, hk⟩) | ⟨rfl, hi, hj, hk⟩
  · exact ⟨(0, [i, j, k]), at_loc (comps3d1_ok p0 p1 p2) (loc3d1_spec p0 p1 p2) (isPlace3 (b0 := false) (b1 := true) (b2 := true) rfl (by simp; omega) (by simp; omega) (by simp; omega)),
      notOn3 (b0 := false) (b1 := true) (b2 := true) rfl (fun h => by cases h) (fun _ => hj) (fun _ => hk)⟩
  · exact ⟨(1, [i, j, k]), at_loc (comps3d1_ok p0 p1 p2) (loc3d1_spec p0 p1 p2) (isPlace3 (b0 := true) (b1 := false) (b2 := true) rfl (by simp; omega) (by simp; omega) (by simp; omega)),
      notOn3 (b0 := true) (b1 := false) (b2 := true) rfl (fun _ => hi) (fun h => by cases h) (fun _ => hk)⟩
  · exact ⟨(2, [i, j, k]), at_loc (comps3d1_ok p0 p1 p2) (loc3d1_spec p0 p1 p2) (isPlace3 (b0 := true) (b1 := true) (b2 := false) rfl (by simp; omega) (by simp; omega) (by simp; omega)),
      notOn3 (b0 := true) (b1 := true) (b2 := false) rfl (fun _ => hi) (fun _ => hj) (fun h => by cases h)⟩

theorem internal2_places (p0 p1 p2 : Nat) : ∀ i ∈ (intPl2 p0 p1 p2).map (enc2 p0 p1 p2), ∃ a, (places fOrder [p0, p1, p2] comps3d2)[i]? = some a ∧
    ∀ j, onSide [p0, p1, p2] comps3d2 j a = false := by
  intro t ht
  obtain ⟨⟨c, i, j, k⟩, hx, rfl⟩ := List.mem_map.1 ht
  simp only [intPl2, List.mem_append, mem_slice, mem_inner, List.mem_range] at hx
  rcases hx with (⟨rfl, hi, hj, hk⟩ | ⟨rfl, hi, hj, hk⟩) | ⟨rfl, hi, hj, hk⟩
  · exact ⟨(0, [i, j, k]), at_loc (comps3d2_ok p0 p1 p2) (loc3d2_spec p0 p1 p2) (isPlace3 (b0 := true) (b1 := false) (b2 := false) rfl (by simp; omega) (by simp; omega) (by simp; omega)),
      notOn3 (b0 := true) (b1 := false) (b2 := false) rfl (fun _ => hi) (fun h => by cases h) (fun h => by cases h)⟩
  · exact ⟨(1, [i, j, k]), at_loc (comps3d2_ok p0 p1 p2) (loc3d2_spec p0 p1 p2) (isPlace3 (b0 := false) (b1 := true) (b2 := false) rfl (by simp; omega) (by simp; omega) (by simp; omega)),
      notOn3 (b0 := false) (b1 := true) (b2 := false) rfl (fun h => by cases h) (fun _ => hj) (fun h => by cases h)⟩
  · exact ⟨(2, [i, j, k]), at_loc (comps3d2_ok p0 p1 p2) (loc3d2_spec p0 p1 p2) (isPlace3 (b0 := false) (b1 := false) (b2 := true) rfl (by simp; omega) (by simp; omega) (by simp; omega)),
      notOn3 (b0 := false) (b1 := false) (b2 := true) rfl (fun h => by cases h) (fun h => by cases h) (fun _ => hk)⟩

/-- **C83, non-hybrid 0-traces.** On any mesh on which the 0-form is numbered naively without a dof twice in an element, the
non-hybrid 0-trace is numbered without exception, and as it should be. -/
theorem c83_nonhybrid_0trace (p0 p1 p2 : Nat) (h0 : 0 < p0) (h1 : 0 < p1) (h2 : 0 < p2) {emap : Nat → List (Option Nat)} {n : Nat} (hn : 0 < n)
    {ranks : List (List Nat)} (hr : ranks.flatten = List.range n) {out : List (List (Nat × Arr (Nat × List Nat)))}
    (hout : naive (formLayout [p0, p1, p2] comps3d0) emap ranks = some out)
    (hnr : NoRepeat (naiveGM (places fOrder [p0, p1, p2] comps3d0) out)) :
    ∃ lg gnd res, localGathering (slices0 p0 p1 p2) (side0 p0 p1 p2) = some lg ∧
      (∀ d, d < gnd ↔ Occurs (naiveGM (places fOrder [p0, p1, p2] comps3d0) out) d) ∧
      nonHybrid (nb0 p0 p1 p2) lg (dofs0 p0 p1 p2) (internal0 p0 p1 p2) gnd
        ((naiveGM (places fOrder [p0, p1, p2] comps3d0) out).map fun l => l.map Prod.snd) = some res ∧
      NumbersSurfaces lg (dofs0 p0 p1 p2) (internal0 p0 p1 p2).length gnd
        ((naiveGM (places fOrder [p0, p1, p2] comps3d0) out).map fun l => l.map Prod.snd) res := by
  obtain ⟨lg, k, e1, _, _, hl⟩ := c83_layout0 p0 p1 p2 h0 h1 h2
  rw [← places_len0 p0 p1 p2] at hl
  obtain ⟨gnd, res, e2, e3, e4⟩ := c83_of_naive (comps3d0_ok p0 p1 p2) hn hr hout hnr hl (internal0_nodup p0 p1 p2) (internal0_places p0 p1 p2)
  rw [places_len0] at e3
  exact ⟨lg, gnd, res, e1, e2, e3, e4⟩

/-- **C83, non-hybrid 1-traces.** On any mesh on which the 1-form is numbered naively without a dof twice in an element, the
non-hybrid 1-trace is numbered without exception, and as it should be. -/
theorem c83_nonhybrid_1trace (p0 p1 p2 : Nat) (h0 : 0 < p0) (h1 : 0 < p1) (h2 : 0 < p2) {emap : Nat → List (Option Nat)} {n : Nat} (hn : 0 < n)
    {ranks : List (List Nat)} (hr : ranks.flatten = List.range n) {out : List (List (Nat × Arr (Nat × List Nat)))}
    (hout : naive (formLayout [p0, p1, p2] comps3d1) emap ranks = some out)
    (hnr : NoRepeat (naiveGM (places fOrder [p0, p1, p2] comps3d1) out)) :
    ∃ lg gnd res, localGathering (slices1 p0 p1 p2) (side1 p0 p1 p2) = some lg ∧
      (∀ d, d < gnd ↔ Occurs (naiveGM (places fOrder [p0, p1, p2] comps3d1) out) d) ∧
      nonHybrid (nb1 p0 p1 p2) lg (dofs1 p0 p1 p2) (internal1 p0 p1 p2) gnd
        ((naiveGM (places fOrder [p0, p1, p2] comps3d1) out).map fun l => l.map Prod.snd) = some res ∧
      NumbersSurfaces lg (dofs1 p0 p1 p2) (internal1 p0 p1 p2).length gnd
        ((naiveGM (places fOrder [p0, p1, p2] comps3d1) out).map fun l => l.map Prod.snd) res := by
  obtain ⟨lg, k, e1, _, _, hl⟩ := c83_layout1 p0 p1 p2 h0 h1 h2
  rw [← places_len1 p0 p1 p2] at hl
  obtain ⟨gnd, res, e2, e3, e4⟩ := c83_of_naive (comps3d1_ok p0 p1 p2) hn hr hout hnr hl (internal1_nodup p0 p1 p2) (internal1_places p0 p1 p2)
  rw [places_len1] at e3
  exact ⟨lg, gnd, res, e1, e2, e3, e4⟩

/-- **C83, non-hybrid 2-traces**, unless all degrees are 1. -/
theorem c83_nonhybrid_2trace (p0 p1 p2 : Nat) (h0 : 0 < p0) (h1 : 0 < p1) (h2 : 0 < p2) (hone : ¬(p0 = 1 ∧ p1 = 1 ∧ p2 = 1))
    {emap : Nat → List (Option Nat)} {n : Nat} (hn : 0 < n)
    {ranks : List (List Nat)} (hr : ranks.flatten = List.range n) {out : List (List (Nat × Arr (Nat × List Nat)))}
    (hout : naive (formLayout [p0, p1, p2] comps3d2) emap ranks = some out)
    (hnr : NoRepeat (naiveGM (places fOrder [p0, p1, p2] comps3d2) out)) :
    ∃ ild gnd res, internal2 p0 p1 p2 = some ild ∧
      (∀ d, d < gnd ↔ Occurs (naiveGM (places fOrder [p0, p1, p2] comps3d2) out) d) ∧
      nonHybrid (nb2 p0 p1 p2) (lg2 p0 p1 p2) (dofs2 p0 p1 p2) ild gnd
        ((naiveGM (places fOrder [p0, p1, p2] comps3d2) out).map fun l => l.map Prod.snd) = some res ∧
      NumbersSurfaces (lg2 p0 p1 p2) (dofs2 p0 p1 p2) ild.length gnd
        ((naiveGM (places fOrder [p0, p1, p2] comps3d2) out).map fun l => l.map Prod.snd) res := by
  have hi := internal2_eq p0 p1 p2 hone
  obtain ⟨_, hl⟩ := c83_layout2 p0 p1 p2 h0 h1 h2 _ hi
  rw [← places_len2 p0 p1 p2] at hl
  obtain ⟨gnd, res, e2, e3, e4⟩ := c83_of_naive (comps3d2_ok p0 p1 p2) hn hr hout hnr hl (internal2_nodup p0 p1 p2) (internal2_places p0 p1 p2)
  rw [places_len2] at e3
  exact ⟨_, gnd, res, hi, e2, e3, e4⟩

/-- two elements in a row, on two cores. -/
def exEmap83 : Nat → List (Option Nat)
  | 0 => [none, some 1, none, none, none, none]
  | 1 => [some 0, none, none, none, none, none]
  | _ => []

/-- the form on them. -/
def exOut83 (comps : List (List Bool)) : List (List (Nat × Arr (Nat × List Nat))) := (naive (formLayout [2, 2, 1] comps) exEmap83 [[0], [1]]).getD []

/-- the hypotheses of the three theorems hold there. -/
example : (∀ comps ∈ [comps3d0, comps3d1, comps3d2], (naive (formLayout [2, 2, 1] comps) exEmap83 [[0], [1]]).isSome) ∧
    (∀ comps ∈ [comps3d0, comps3d1, comps3d2], ∀ l ∈ naiveGM (places fOrder [2, 2, 1] comps) (exOut83 comps), ∀ x ∈ l, x.2.Nodup) := by decide +kernel

/-- the 0-form has 30 dofs, all on surfaces; the second element: numbers of the sides north and west. -/
example : (nonHybrid 18 ((localGathering (slices0 2 2 1) (side0 2 2 1)).getD []) (dofs0 2 2 1) (internal0 2 2 1) 30
    ((naiveGM (places fOrder [2, 2, 1] comps3d0) (exOut83 comps3d0)).map fun l => l.map Prod.snd)).map
      (fun out => (out.flatten.map fun x => (x.2.lookup .N, x.2.lookup .W)).drop 1) =
    some [(some [2, 5, 8, 11, 14, 17], some [2, 18, 19, 11, 24, 25])] := by decide +kernel

end Mifem.Props
