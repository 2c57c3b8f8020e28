import Verif.Lemmas.TraceRen
import Verif.Lemmas.Gathering
import Verif.Props.Assemblers

/-!
# C83: the numbering of non-hybrid trace forms

The trace dofs of an element are numbered through the dofs of the (non-hybrid) standard form that are on its surface.
-/

namespace Mifem.Props
open Mifem.TraceNum Mifem.Three Mifem.Assemblers

/-- `lg` numbers the trace dofs of the sides of one element: two of them have the same number exactly when they are the same
dof of the form, and the places on the sides are those of the form that are not internal. -/
structure SideLayout (nb : Nat) (ild : List Nat) (lg : List (Side × List Nat)) (dofs : Side → List Nat) : Prop where
  keys : lg.map Prod.fst = six
  len : ∀ p ∈ lg, p.2.length = (dofs p.1).length
  same : ∀ p ∈ lg, ∀ q ∈ lg, ∀ t t', ∀ (ht : t < p.2.length) (ht' : t' < q.2.length), p.2[t] = q.2[t'] ↔ (dofs p.1)[t]? = (dofs q.1)[t']?
  ok : ∃ n, check lg = some n
  surf : ∀ i, (i < nb ∧ i ∉ ild) ↔ ∃ s ∈ six, i ∈ dofs s

/-- `d` is a dof of the form on a side of an element. -/
def OnSurface (dofs : Side → List Nat) (vs : List (List Nat)) (d : Nat) : Prop :=
  ∃ v ∈ vs, ∃ s, ∃ i ∈ dofs s, v.getD i 0 = d

theorem mem_six (s : Side) : s ∈ six := by cases s <;> decide

theorem sideVals_lookup (dofs : Side → List Nat) (arr : Nat → Int) (gv : List Nat) (s : Side) :
    (sideVals dofs arr gv).lookup s = some ((dofs s).map fun i => arr (gv.getD i 0)) := by
  cases s <;> rfl

theorem surface_mem (nb : Nat) (ild : List Nat) (i : Nat) : i ∈ surface nb ild ↔ i < nb ∧ i ∉ ild := by
  unfold surface
  rw [List.mem_filter, List.mem_range]
  simp

theorem surface_nodup (nb : Nat) (ild : List Nat) : (surface nb ild).Nodup := List.nodup_range.filter _

/-- **C83, non-hybrid.** If the form is numbered as the naive numbering does, the numbering of the trace form passes all its
assertions. The new numbers are `0, ..., n - 1` for the dofs of the form on the surfaces of the elements, `n` is the number
of all dofs of the form minus the internal ones, and each place of each side has the new number of the dof of the form that
is there, in the vector of the side and (through the local numbering) in the vector of the element. -/
theorem c83_nonhybrid {nb : Nat} {ild : List Nat} {lg : List (Side × List Nat)} {dofs : Side → List Nat} {gnd : Nat}
    {ranks : List (List (List Nat))} (hl : SideLayout nb ild lg dofs) (hv : FormVecs nb ild ranks.flatten) (hin : ild.Nodup)
    (hi : ∀ i ∈ ild, i < nb) (hg : ∀ d, d < gnd ↔ ∃ v ∈ ranks.flatten, d ∈ v) (hne : ranks.flatten ≠ []) :
    ∃ out, ∃ num : Nat → Nat, ∃ n : Nat, nonHybrid nb lg dofs ild gnd ranks = some out ∧ n + ranks.flatten.length * ild.length = gnd ∧
      out.map List.length = ranks.map List.length ∧
      (∀ d d', OnSurface dofs ranks.flatten d → OnSurface dofs ranks.flatten d' → num d = num d' → d = d') ∧
      (∀ k, k < n ↔ ∃ d, OnSurface dofs ranks.flatten d ∧ num d = k) ∧
      ∀ (r : Nat) vs, ranks[r]? = some vs → ∀ (m : Nat) gv, vs[m]? = some gv → ∃ ws w sv, out[r]? = some ws ∧ ws[m]? = some (w, sv) ∧
        ∀ p ∈ lg, ∃ vals, sv.lookup p.1 = some vals ∧ vals.length = p.2.length ∧
          ∀ (t k i : Nat), p.2[t]? = some k → (dofs p.1)[t]? = some i →
            vals[t]? = some (num (gv.getD i 0) : Int) ∧ w[k]? = some (num (gv.getD i 0) : Int) := by
  set sld := surface nb ild with hsld
  have hs2 : ∀ i, i ∈ sld ↔ i < nb ∧ i ∉ ild := surface_mem nb ild
  obtain ⟨L, hL, hRl, hR⟩ := renumber_spec (sld := sld) ranks hv (surface_nodup nb ild) hs2 hi
  have hcount := surface_count hv hs2 hi hin hL hg
  set R := renumber ild sld ranks with hRdef
  have hsurf : ∀ d, OnSurface dofs ranks.flatten d ↔ d ∈ L := by
    intro d
    rw [hL.mem]
    constructor
    · rintro ⟨v, hvm, s, i, hii, he⟩
      exact ⟨v, hvm, (mem_atPlaces _ _ _).2 ⟨i, (hs2 i).2 ((hl.surf i).2 ⟨s, mem_six s, hii⟩), he⟩⟩
    · rintro ⟨v, hvm, hd⟩
      obtain ⟨i, hii, he⟩ := (mem_atPlaces _ _ _).1 hd
      obtain ⟨s, _, hs⟩ := (hl.surf i).1 ((hs2 i).1 hii)
      exact ⟨v, hvm, s, i, hs, he⟩
  -- the array of a rank at the dofs of its elements
  have harr : ∀ (r : Nat) vs, ranks[r]? = some vs → ∀ gv ∈ vs, ∀ s, ∀ i ∈ dofs s, rankArr R r (gv.getD i 0) = (L.idxOf (gv.getD i 0) : Int) := by
    intro r vs hr gv hgv s i hii
    have hrl : r < ranks.length := (List.getElem?_eq_some_iff.1 hr).1
    have hmem : gv ∈ ranks.flatten := List.mem_flatten.2 ⟨vs, List.mem_of_getElem? hr, hgv⟩
    have hplace : gv.getD i 0 ∈ atPlaces sld gv := (mem_atPlaces _ _ _).2 ⟨i, (hs2 i).2 ((hl.surf i).2 ⟨s, mem_six s, hii⟩), rfl⟩
    unfold rankArr
    by_cases hr0 : r = 0
    · rw [if_pos hr0]
      have hd : gv.getD i 0 ∈ L := (hL.mem _).2 ⟨gv, hmem, hplace⟩
      have h1 := hL.num (L.idxOf (gv.getD i 0)) (List.idxOf_lt_length_iff.2 hd)
      rw [List.getElem_idxOf] at h1
      exact h1
    · rw [if_neg hr0]
      obtain ⟨L', s', hpre, hI, hget⟩ := hR r hrl
      rw [List.getD_eq_getElem?_getD, hget, Option.getD_some]
      have hd : gv.getD i 0 ∈ L' := by
        rw [hI.mem]
        refine ⟨gv, List.mem_flatten.2 ⟨vs, ?_, hgv⟩, hplace⟩
        rw [List.mem_take_iff_getElem]
        obtain ⟨h1, h2⟩ := List.getElem?_eq_some_iff.1 hr
        exact ⟨r, by omega, h2⟩
      have h1 := hI.num (L'.idxOf (gv.getD i 0)) (List.idxOf_lt_length_iff.2 hd)
      rw [List.getElem_idxOf] at h1
      rw [h1]
      obtain ⟨M, hM⟩ := hpre
      rw [← hM, List.idxOf_append_of_mem hd]
  -- the surface is not empty
  obtain ⟨n0, hn0⟩ := hl.ok
  obtain ⟨hpos, hne2, hall⟩ := check_spec hn0
  have hLpos : 0 < L.length := by
    obtain ⟨p, hp, h0⟩ := (hall 0).2 hpos
    have hlen := hl.len p hp
    have : 0 < (dofs p.1).length := by
      rw [← hlen]; exact List.length_pos_of_mem h0
    obtain ⟨v, hvm⟩ := List.exists_mem_of_ne_nil _ hne
    have := (hsurf (v.getD (dofs p.1)[0] 0)).1 ⟨v, hvm, p.1, (dofs p.1)[0], List.getElem_mem this, rfl⟩
    exact List.length_pos_of_mem this
  have htarget : (gnd : Int) - (ranks.flatten.length : Int) * (ild.length : Int) = L.length := by
    rw [← hcount]; push_cast; omega
  have hmax : ((List.range gnd).map R.1.arr).max?.map (· + 1) = some (L.length : Int) := by
    have : ((List.range gnd).map R.1.arr).max? = some ((L.length : Int) - 1) := by
      rw [List.max?_eq_some_iff]
      constructor
      · rw [List.mem_map]
        refine ⟨L[L.length - 1], ?_, ?_⟩
        · rw [List.mem_range, hg]
          obtain ⟨v, hvm, s, i, hii, he⟩ := (hsurf _).2 (List.getElem_mem (show L.length - 1 < L.length by omega))
          refine ⟨v, hvm, ?_⟩
          have hib := ((hl.surf i).2 ⟨s, mem_six s, hii⟩).1
          rw [← he, List.getD_eq_getElem _ _ (by rw [hv.len v hvm]; exact hib)]
          exact List.getElem_mem _
        · rw [hL.num]; omega
      · intro b hb
        obtain ⟨d, hd, rfl⟩ := List.mem_map.1 hb
        obtain ⟨v, hvm, hdv⟩ := (hg d).1 (List.mem_range.1 hd)
        obtain ⟨j, hj, rfl⟩ := List.mem_iff_getElem.1 hdv
        by_cases hji : j ∈ ild
        · rw [hL.int _ ⟨v, hvm, (mem_atPlaces _ _ _).2 ⟨j, hji, List.getD_eq_getElem _ _ hj⟩⟩]
          omega
        · have hdL : v[j] ∈ L := (hL.mem _).2 ⟨v, hvm, (mem_atPlaces _ _ _).2 ⟨j, (hs2 j).2 ⟨by rw [← hv.len v hvm]; exact hj, hji⟩, List.getD_eq_getElem _ _ hj⟩⟩
          have h2 := List.idxOf_lt_length_iff.2 hdL
          have h1 := hL.num _ h2
          rw [List.getElem_idxOf] at h1
          rw [h1]
          omega
    rw [this]
    simp
  -- one element
  have hone : ∀ (r : Nat) vs, ranks[r]? = some vs → ∀ gv ∈ vs, ∃ w, vecAssemble .replace lg (sideVals dofs (rankArr R r) gv) = some w ∧ w.length = n0 ∧
      ∀ p ∈ lg, ∀ (t k i : Nat), p.2[t]? = some k → (dofs p.1)[t]? = some i → w[k]? = some (L.idxOf (gv.getD i 0) : Int) := by
    intro r vs hr gv hgv
    have hzip : ∀ p ∈ lg, ∀ k a, (k, a) ∈ p.2.zip ((dofs p.1).map fun i => rankArr R r (gv.getD i 0)) →
        ∃ t i : Nat, p.2[t]? = some k ∧ (dofs p.1)[t]? = some i ∧ a = (L.idxOf (gv.getD i 0) : Int) := by
      intro p hp k a hka
      obtain ⟨t, ht, he⟩ := List.mem_iff_getElem.1 hka
      rw [List.getElem_zip, Prod.mk.injEq] at he
      rw [List.length_zip, List.length_map] at ht
      have h1 : t < p.2.length := by omega
      have h2 : t < (dofs p.1).length := by omega
      refine ⟨t, (dofs p.1)[t], ?_, List.getElem?_eq_getElem h2, ?_⟩
      · rw [List.getElem?_eq_getElem h1, he.1]
      · rw [← he.2, List.getElem_map, harr r vs hr gv hgv p.1 _ (List.getElem_mem h2)]
    have hfits : Fits lg (sideVals dofs (rankArr R r) gv) := by
      refine ⟨?_, ?_⟩
      · have := congrArg List.length hl.keys
        rw [List.length_map] at this
        rw [this]; rfl
      · intro p hp
        refine ⟨_, sideVals_lookup dofs _ gv p.1, ?_⟩
        rw [List.length_map, hl.len p hp]
    obtain ⟨w, hw, hwl, hwv⟩ := c19_replace hn0 hfits (by
      intro p hp q hq d e hd he k a b ha hb
      rw [sideVals_lookup, Option.some.injEq] at hd he
      subst hd he
      obtain ⟨t, i, h1, h2, rfl⟩ := hzip p hp k a ha
      obtain ⟨t', i', h1', h2', rfl⟩ := hzip q hq k b hb
      obtain ⟨g1, g2⟩ := List.getElem?_eq_some_iff.1 h1
      obtain ⟨g1', g2'⟩ := List.getElem?_eq_some_iff.1 h1'
      have := (hl.same p hp q hq t t' g1 g1').1 (g2.trans g2'.symm)
      rw [h2, h2'] at this
      rw [Option.some.inj this])
    refine ⟨w, hw, hwl, ?_⟩
    intro p hp t k i hk hit
    apply hwv p hp _ (sideVals_lookup dofs _ gv p.1) k
    obtain ⟨g1, g2⟩ := List.getElem?_eq_some_iff.1 hk
    obtain ⟨g3, g4⟩ := List.getElem?_eq_some_iff.1 hit
    rw [List.mem_iff_getElem]
    refine ⟨t, by rw [List.length_zip, List.length_map]; omega, ?_⟩
    rw [List.getElem_zip, Prod.mk.injEq]
    refine ⟨g2, ?_⟩
    rw [List.getElem_map, harr r vs hr gv hgv p.1 _ (List.getElem_mem g3), g4]
  -- all elements
  have hinner : ∀ (r : Nat) vs, ranks[r]? = some vs → ∃ ws, (vs.mapM fun gv => (vecAssemble .replace lg (sideVals dofs (rankArr R r) gv)).map fun w =>
      (w, sideVals dofs (rankArr R r) gv)) = some ws := by
    intro r vs hr
    apply Gath.mapM_isSome
    intro gv hgv
    obtain ⟨w, hw, _⟩ := hone r vs hr gv hgv
    exact ⟨_, by rw [hw]; rfl⟩
  obtain ⟨out, hout⟩ := Gath.mapM_isSome (fun vr : List (List Nat) × Nat => vr.1.mapM fun gv => (vecAssemble .replace lg (sideVals dofs (rankArr R vr.2) gv)).map fun w =>
      (w, sideVals dofs (rankArr R vr.2) gv)) ranks.zipIdx (by
    intro vr hvr
    obtain ⟨k, hk, rfl⟩ := List.mem_iff_getElem.1 hvr
    rw [List.length_zipIdx] at hk
    rw [List.getElem_zipIdx]
    simp only [Nat.zero_add]
    exact hinner k _ (List.getElem?_eq_getElem hk))
  obtain ⟨hol, hog⟩ := (Gath.mapM_some_iff _ _ _).1 hout
  rw [List.length_zipIdx] at hol
  have hrank : ∀ (r : Nat) (hr : r < ranks.length) (hr' : r < out.length), out[r].length = ranks[r].length ∧
      ∀ (m : Nat) (hm : m < ranks[r].length) (hm' : m < out[r].length), ∃ w, out[r][m] = (w, sideVals dofs (rankArr R r) ranks[r][m]) ∧ w.length = n0 ∧
        ∀ p ∈ lg, ∀ (t k i : Nat), p.2[t]? = some k → (dofs p.1)[t]? = some i → w[k]? = some (L.idxOf (ranks[r][m].getD i 0) : Int) := by
    intro r hr hr'
    have h1 := hog r (by rw [List.length_zipIdx]; exact hr) hr'
    rw [List.getElem_zipIdx] at h1
    simp only [Nat.zero_add] at h1
    obtain ⟨h2, h3⟩ := (Gath.mapM_some_iff _ _ _).1 h1
    refine ⟨h2, ?_⟩
    intro m hm hm'
    have h4 := h3 m hm hm'
    obtain ⟨w, hw, hwl, hwv⟩ := hone r ranks[r] (List.getElem?_eq_getElem hr) ranks[r][m] (List.getElem_mem hm)
    rw [hw, Option.map_some, Option.some.injEq] at h4
    exact ⟨w, h4.symm, hwl, hwv⟩
  -- the values in the vectors of the sides
  have hallm : ∀ z : Int, z ∈ (out.flatten.flatMap fun x => x.2.flatMap Prod.snd) ↔ ∃ k : Nat, k < L.length ∧ z = k := by
    intro z
    constructor
    · intro hz
      obtain ⟨x, hx, hz⟩ := List.mem_flatMap.1 hz
      obtain ⟨ws, hws, hxw⟩ := List.mem_flatten.1 hx
      obtain ⟨r, hr', rfl⟩ := List.mem_iff_getElem.1 hws
      obtain ⟨m, hm', rfl⟩ := List.mem_iff_getElem.1 hxw
      have hr : r < ranks.length := by omega
      obtain ⟨g1, g2⟩ := hrank r hr hr'
      have hm : m < ranks[r].length := by omega
      obtain ⟨w, he, _, _⟩ := g2 m hm hm'
      rw [he] at hz
      obtain ⟨y, hy, hzy⟩ := List.mem_flatMap.1 hz
      obtain ⟨s, _, rfl⟩ := List.mem_map.1 hy
      obtain ⟨i, hii, rfl⟩ := List.mem_map.1 hzy
      refine ⟨_, ?_, harr r ranks[r] (List.getElem?_eq_getElem hr) _ (List.getElem_mem hm) s i hii⟩
      rw [List.idxOf_lt_length_iff, ← hsurf]
      exact ⟨_, List.mem_flatten.2 ⟨_, List.getElem_mem hr, List.getElem_mem hm⟩, s, i, hii, rfl⟩
    · rintro ⟨k, hk, rfl⟩
      obtain ⟨v, hvm, s, i, hii, he⟩ := (hsurf _).2 (List.getElem_mem hk)
      obtain ⟨vs, hvs, hvv⟩ := List.mem_flatten.1 hvm
      obtain ⟨r, hr, rfl⟩ := List.mem_iff_getElem.1 hvs
      obtain ⟨m, hm, rfl⟩ := List.mem_iff_getElem.1 hvv
      have hr' : r < out.length := by omega
      obtain ⟨g1, g2⟩ := hrank r hr hr'
      have hm' : m < out[r].length := by omega
      obtain ⟨w, hw, _, _⟩ := g2 m hm hm'
      rw [List.mem_flatMap]
      refine ⟨out[r][m], List.mem_flatten.2 ⟨_, List.getElem_mem hr', List.getElem_mem hm'⟩, ?_⟩
      rw [hw, List.mem_flatMap]
      refine ⟨(s, _), List.mem_map.2 ⟨s, mem_six s, rfl⟩, ?_⟩
      show (k : Int) ∈ (dofs s).map _
      rw [List.mem_map]
      refine ⟨i, hii, ?_⟩
      rw [harr r ranks[r] (List.getElem?_eq_getElem hr) _ (List.getElem_mem hm) s i hii, he, List.Nodup.idxOf_getElem hL.nodup]
  have hvecm : ∀ z : Int, z ∈ (out.flatten.flatMap fun x => x.1) ↔ ∃ k : Nat, k < L.length ∧ z = k := by
    intro z
    constructor
    · intro hz
      obtain ⟨x, hx, hz⟩ := List.mem_flatMap.1 hz
      obtain ⟨ws, hws, hxw⟩ := List.mem_flatten.1 hx
      obtain ⟨r, hr', rfl⟩ := List.mem_iff_getElem.1 hws
      obtain ⟨m, hm', rfl⟩ := List.mem_iff_getElem.1 hxw
      have hr : r < ranks.length := by omega
      obtain ⟨g1, g2⟩ := hrank r hr hr'
      have hm : m < ranks[r].length := by omega
      obtain ⟨w, he, hwl, hwv⟩ := g2 m hm hm'
      rw [he] at hz
      obtain ⟨k, hk, hzk⟩ := List.mem_iff_getElem.1 hz
      change k < w.length at hk
      change w[k] = z at hzk
      obtain ⟨p, hp, hkp⟩ := (hall k).2 (by omega)
      obtain ⟨t, ht, hkt⟩ := List.mem_iff_getElem.1 hkp
      have htd : t < (dofs p.1).length := by rw [← hl.len p hp]; exact ht
      have h5 := hwv p hp t k _ (by rw [List.getElem?_eq_getElem ht, hkt]) (List.getElem?_eq_getElem htd)
      rw [List.getElem?_eq_getElem hk, hzk] at h5
      refine ⟨_, ?_, Option.some.inj h5⟩
      rw [List.idxOf_lt_length_iff, ← hsurf]
      exact ⟨_, List.mem_flatten.2 ⟨_, List.getElem_mem hr, List.getElem_mem hm⟩, p.1, _, List.getElem_mem htd, rfl⟩
    · rintro ⟨k, hk, rfl⟩
      obtain ⟨v, hvm, s, i, hii, he⟩ := (hsurf _).2 (List.getElem_mem hk)
      obtain ⟨vs, hvs, hvv⟩ := List.mem_flatten.1 hvm
      obtain ⟨r, hr, rfl⟩ := List.mem_iff_getElem.1 hvs
      obtain ⟨m, hm, rfl⟩ := List.mem_iff_getElem.1 hvv
      have hr' : r < out.length := by omega
      obtain ⟨g1, g2⟩ := hrank r hr hr'
      have hm' : m < out[r].length := by omega
      obtain ⟨w, hw, _, hwv⟩ := g2 m hm hm'
      rw [List.mem_flatMap]
      refine ⟨out[r][m], List.mem_flatten.2 ⟨_, List.getElem_mem hr', List.getElem_mem hm'⟩, ?_⟩
      rw [hw]
      have hs : s ∈ lg.map Prod.fst := by rw [hl.keys]; exact mem_six s
      obtain ⟨p, hp, rfl⟩ := List.mem_map.1 hs
      obtain ⟨t, ht, rfl⟩ := List.mem_iff_getElem.1 hii
      have htp : t < p.2.length := by rw [hl.len p hp]; exact ht
      have h5 := hwv p hp t p.2[t] _ (List.getElem?_eq_getElem htp) (List.getElem?_eq_getElem ht)
      rw [he, List.Nodup.idxOf_getElem hL.nodup] at h5
      exact List.mem_of_getElem? h5
  have maxOf : ∀ l : List Int, (∀ z : Int, z ∈ l ↔ ∃ k : Nat, k < L.length ∧ z = k) → l.max? = some ((L.length : Int) - 1) ∧ l.min? = some 0 ∧ (-1 : Int) ∉ l ∧ l.dedup.length = L.length := by
    intro l hlm
    refine ⟨?_, ?_, ?_, ?_⟩
    · rw [List.max?_eq_some_iff]
      refine ⟨(hlm _).2 ⟨L.length - 1, by omega, by omega⟩, ?_⟩
      intro b hb
      obtain ⟨k, hk, rfl⟩ := (hlm b).1 hb
      omega
    · rw [List.min?_eq_some_iff]
      refine ⟨(hlm _).2 ⟨0, hLpos, by simp⟩, ?_⟩
      intro b hb
      obtain ⟨k, hk, rfl⟩ := (hlm b).1 hb
      omega
    · intro h
      obtain ⟨k, hk, he⟩ := (hlm _).1 h
      omega
    · have hperm : l.dedup.Perm ((List.range L.length).map fun k : Nat => (k : Int)) := by
        rw [List.perm_ext_iff_of_nodup (List.nodup_dedup l)]
        · intro z
          rw [List.mem_dedup, hlm, List.mem_map]
          constructor
          · rintro ⟨k, hk, rfl⟩; exact ⟨k, List.mem_range.2 hk, rfl⟩
          · rintro ⟨k, hk, rfl⟩; exact ⟨k, List.mem_range.1 hk, rfl⟩
        · apply List.Nodup.map _ List.nodup_range
          intro a b h
          exact Int.ofNat_inj.1 h
      have := hperm.length_eq
      simpa using this
  obtain ⟨a1, a2, a3, a4⟩ := maxOf _ hallm
  obtain ⟨b1, _, _, _⟩ := maxOf _ hvecm
  refine ⟨out, fun d => L.idxOf d, L.length, ?_, hcount, ?_, ?_, ?_, ?_⟩
  · unfold nonHybrid
    simp only [← hsld, ← hRdef]
    rw [htarget, if_pos hmax, hout]
    simp only []
    rw [if_pos]
    refine ⟨a3, a2, ?_, ?_, ?_⟩
    · rw [b1]; simp
    · rw [a1, b1]
    · rw [a4]
  · apply List.ext_getElem
    · simp [hol]
    · intro r h1 h2
      rw [List.length_map] at h1 h2
      rw [List.getElem_map, List.getElem_map]
      exact (hrank r h2 h1).1
  · intro d d' hd hd' he
    exact (List.idxOf_inj ((hsurf d).1 hd)).1 he
  · intro k
    constructor
    · intro hk
      exact ⟨L[k], (hsurf _).2 (List.getElem_mem hk), List.Nodup.idxOf_getElem hL.nodup k hk⟩
    · rintro ⟨d, hd, rfl⟩
      exact List.idxOf_lt_length_iff.2 ((hsurf d).1 hd)
  · intro r vs hr m gv hm
    obtain ⟨hr1, rfl⟩ := List.getElem?_eq_some_iff.1 hr
    obtain ⟨hm1, rfl⟩ := List.getElem?_eq_some_iff.1 hm
    have hr' : r < out.length := by omega
    obtain ⟨g1, g2⟩ := hrank r hr1 hr'
    have hm' : m < out[r].length := by omega
    obtain ⟨w, hw, _, hwv⟩ := g2 m hm1 hm'
    refine ⟨out[r], w, _, List.getElem?_eq_getElem hr', by rw [List.getElem?_eq_getElem hm', hw], ?_⟩
    intro p hp
    refine ⟨_, sideVals_lookup dofs _ _ p.1, by rw [List.length_map, hl.len p hp], ?_⟩
    intro t k i hk hit
    refine ⟨?_, hwv p hp t k i hk hit⟩
    obtain ⟨g3, g4⟩ := List.getElem?_eq_some_iff.1 hit
    rw [List.getElem?_map, hit, Option.map_some, Option.some.injEq]
    exact harr r ranks[r] (List.getElem?_eq_getElem hr1) _ (List.getElem_mem hm1) p.1 i (List.mem_of_getElem? hit)

end Mifem.Props
