import Verif.Lemmas.NaiveBlocks
import Verif.Props.Sequent

/-!
# C02: chains of naively numbered forms
-/

namespace Mifem.Props
open Mifem.Naive Mifem.Gath Mifem.Mesh

/-- the gathering matrix of the naive numbering (places of the elements in the order `ord`). -/
def naiveGM {σ : Type} (ord : List σ) (out : List (List (Nat × Arr σ))) : GM := out.map fun l => l.map fun x => (x.1, vec ord x.2)

/-- `g` is the gathering matrix of a form of some kind that is numbered naively on the mesh distributed as `ranks`. -/
def IsNaive (n : Nat) (ranks : List (List Nat)) (g : GM) : Prop :=
  ∃ p comps emap out, Comps p comps ∧ naive (formLayout p comps) emap ranks = some out ∧ g = naiveGM (places fOrder p comps) out ∧ ranks.flatten = List.range n

theorem lookup_map {α : Type} (l : List (Nat × α)) (f : α → List Nat) (hn : (l.map Prod.fst).Nodup) : ∀ x ∈ l, (l.map fun x => (x.1, f x.2)).lookup x.1 = some (f x.2) := by
  induction l with
  | nil => intro x hx; cases hx
  | cons a l ih =>
    intro x hx
    rw [List.map_cons, List.nodup_cons] at hn
    rw [List.map_cons, List.lookup_cons]
    rcases List.mem_cons.1 hx with rfl | hx
    · simp
    · have : x.1 ≠ a.1 := fun e => hn.1 (e ▸ List.mem_map.2 ⟨x, hx, rfl⟩)
      have hb : (x.1 == a.1) = false := by simpa using this
      simp only [hb]
      exact ih hn.2 x hx

theorem naive_elements {n : Nat} {ranks : List (List Nat)} {g : GM} (h : IsNaive n ranks g) (r : Nat) : elements g r = ranks.getD r [] := by
  obtain ⟨p, comps, emap, out, hc, hout, rfl, hr⟩ := h
  have hsh := run_shape _ emap ranks _ out hout
  unfold elements naiveGM
  rw [← hsh, List.getD_eq_getElem?_getD, List.getD_eq_getElem?_getD, List.getElem?_map, List.getElem?_map]
  cases out[r]? with
  | none => rfl
  | some l => simp [Function.comp_def]

theorem naive_length {n : Nat} {ranks : List (List Nat)} {g : GM} (h : IsNaive n ranks g) : g.length = ranks.length := by
  obtain ⟨p, comps, emap, out, hc, hout, rfl, hr⟩ := h
  have := congrArg List.length (run_shape _ emap ranks _ out hout)
  simpa [naiveGM] using this

theorem ranks_nodup {n : Nat} {ranks : List (List Nat)} (h : ranks.flatten = List.range n) : ∀ l ∈ ranks, l.Nodup := by
  have : ranks.flatten.Nodup := h ▸ List.nodup_range
  exact (List.nodup_flatten.1 this).1

/-- the vectors in the order of the traversal are those of the elements `0, 1, ...`. -/
theorem naive_traversal {n : Nat} {ranks : List (List Nat)} {gms : List GM} (hg0 : ∀ g ∈ gms, IsNaive n ranks g) {g : GM} (hg : g ∈ gms) :
    traversal gms ranks.length g = (g.map fun l => l.map Prod.snd).flatten := by
  have hhead : IsNaive n ranks (gms.headD []) := by
    cases gms with
    | nil => cases hg
    | cons a l => exact hg0 a (by simp)
  have h := hg0 g hg
  have hel : ∀ r, elements (gms.headD []) r = elements g r := fun r => by rw [naive_elements hhead, naive_elements h]
  unfold traversal
  simp only [hel]
  have hlen := naive_length h
  obtain ⟨p, comps, emap, out, hc, hout, rfl, hr⟩ := h
  have hsh := run_shape _ emap ranks _ out hout
  set G := naiveGM (places fOrder p comps) out with hG
  have : (List.range ranks.length).map (fun r => (elements G r).map fun e => (getVec G r e).getD []) = G.map fun l => l.map Prod.snd := by
    apply List.ext_getElem
    · simp [hlen]
    · intro r h1 h2
      simp only [List.length_map, List.length_range] at h1 h2
      rw [List.getElem_map, List.getElem_range, List.getElem_map]
      unfold elements getVec
      rw [List.getD_eq_getElem _ _ h2, List.map_map]
      apply List.map_congr_left
      intro x hx
      have hro : r < out.length := by simpa [hG, naiveGM] using h2
      have hGr : G[r] = out[r].map fun x => (x.1, vec (places fOrder p comps) x.2) := by simp [hG, naiveGM]
      rw [hGr] at hx ⊢
      obtain ⟨y, hy, rfl⟩ := List.mem_map.1 hx
      have hnd : (out[r].map Prod.fst).Nodup := by
        apply ranks_nodup hr
        rw [← hsh]
        exact List.mem_map.2 ⟨out[r], List.getElem_mem hro, rfl⟩
      simp only [Function.comp]
      rw [lookup_map out[r] (vec (places fOrder p comps)) hnd y hy]
      rfl
  rw [← this, List.flatten_eq_flatMap, List.flatMap_map]
  rfl

/-- **C02.** The naive numbering takes the dofs in blocks: after every element the dofs met are `0, ..., c - 1`. -/
theorem c02_naive_grows {n : Nat} {ranks : List (List Nat)} {gms : List GM} (hg0 : ∀ g ∈ gms, IsNaive n ranks g) {g : GM} (hg : g ∈ gms) :
    GrowsInBlocks (traversal gms ranks.length g) := by
  rw [naive_traversal hg0 hg]
  obtain ⟨p, comps, emap, out, hc, hout, rfl, hr⟩ := hg0 g hg
  obtain ⟨N, M, hdet, hvec⟩ := out_vecs (good_formLayout p comps hc) hr hout
  have : ((naiveGM (places fOrder p comps) out).map fun l => l.map Prod.snd).flatten = (List.range n).map fun k => vec (places fOrder p comps) (N k) := by
    rw [← hvec]
    congr 1
    simp [naiveGM, Function.comp_def]
  rw [this]
  have ho : ∀ a, a ∈ places fOrder p comps ↔ a ∈ (formLayout p comps).slots := fun a =>
    (mem_places fOrder mem_fOrder p comps hc a).trans (mem_slots p comps hc a).symm
  intro t d d' hd hlt
  rw [met_iff (good_formLayout p comps hc) hdet ho] at hd ⊢
  omega

/-- **C02 for naively numbered forms.** The sequent chain of any forms numbered naively on one mesh, none of which has a dof
twice in an element, numbers all (variable, dof) pairs without overlap and without holes. -/
theorem c02_naive {n : Nat} {ranks : List (List Nat)} {items : List Item} {c : Chain} (h : mkChain ranks.length items = some c)
    (hg : ∀ g ∈ c.gms, IsNaive n ranks g) (hnd : ∀ g ∈ c.gms, NoRepeat g) :
    IsChainNumbering c.gms c.total (c.getSequent ranks.length) := by
  apply c02_sequent_partial h _ hnd fun g hgm => c02_naive_grows hg hgm
  intro g hgm
  refine ⟨?_, naive_length (hg g hgm)⟩
  have hel := naive_elements (hg g hgm)
  obtain ⟨p, comps, emap, out, hc, hout, rfl, hr⟩ := hg g hgm
  have hsh := run_shape _ emap ranks _ out hout
  intro l hl
  have : l.map Prod.fst ∈ ranks := by
    rw [← hsh]
    obtain ⟨l', hl', rfl⟩ := List.mem_map.1 hl
    exact List.mem_map.2 ⟨l', hl', by simp [Function.comp_def]⟩
  exact ranks_nodup hr _ this

/-- When no dof is twice in an element: there is a labelling of the places that agrees on the places the sides identify
and is different for different places of an element (the position of a node, say). -/
theorem noRepeat_of_labels {n : Nat} {ranks : List (List Nat)} (p : List Nat) (comps : List (List Bool)) (hc : Comps p comps) (emap : Nat → List (Option Nat))
    (out : List (List (Nat × Arr (Nat × List Nat)))) (hr : ranks.flatten = List.range n) (hout : naive (formLayout p comps) emap ranks = some out)
    {ν : Type} (node : Nat → Nat × List Nat → ν)
    (hnode : ∀ o k c a, o < k → k < n → (o, c) ∈ links (formLayout p comps) emap k k a → node o c = node k a)
    (hinj : ∀ k, k < n → ∀ a b, IsPlace p comps a → IsPlace p comps b → node k a = node k b → a = b) : NoRepeat (naiveGM (places fOrder p comps) out) := by
  obtain ⟨N, M, hdet, hval⟩ := naive_spec _ (good_formLayout p comps hc) emap n ranks hr out hout
  have hmp := mem_places fOrder mem_fOrder p comps hc
  intro r e v hv
  unfold getVec at hv
  have hm := Gath.mem_of_lookup hv
  rw [List.getD_eq_getElem?_getD] at hm
  cases hg : (naiveGM (places fOrder p comps) out)[r]? with
  | none => rw [hg] at hm; simp at hm
  | some l =>
    rw [hg] at hm
    simp only [Option.getD_some] at hm
    have hl := List.mem_of_getElem? hg
    obtain ⟨l', hl', rfl⟩ := List.mem_map.1 hl
    obtain ⟨x, hx, he⟩ := List.mem_map.1 hm
    simp only [Prod.mk.injEq] at he
    obtain ⟨rfl, rfl⟩ := he
    obtain ⟨hk, hN⟩ := hval x (List.mem_flatten.2 ⟨l', hl', hx⟩)
    unfold vec
    rw [hN]
    apply List.Nodup.map_on
    · intro a ha b hb hab
      have ha' := (hmp a).1 ha
      have hb' := (hmp b).1 hb
      have hsa := (mem_slots p comps hc a).2 ha'
      have hsb := (mem_slots p comps hc b).2 hb'
      obtain ⟨va, hva⟩ := Option.isSome_iff_exists.1 (hdet.isSome x.1 hk a hsa)
      obtain ⟨vb, hvb⟩ := Option.isSome_iff_exists.1 (hdet.isSome x.1 hk b hsb)
      rw [hva, hvb] at hab
      simp only [Option.getD_some] at hab
      exact hinj x.1 hk a b ha' hb' ((general _ (good_formLayout p comps hc) emap n N M hdet node hnode).1 x.1 a x.1 b hk hk hsa hsb (by rw [hva, hvb, hab]))
    · exact places_nodup fOrder fOrder_nodup p comps

/-- two elements side by side, one on each of two cores. -/
def exEmap02 : Nat → List (Option Nat)
  | 0 => [none, some 1, none, none]
  | 1 => [some 0, none, none, none]
  | _ => []

/-- a form on the two elements. -/
def exGM02 (comps : List (List Bool)) : GM :=
  naiveGM (places fOrder [2, 1] comps) ((naive (formLayout [2, 1] comps) exEmap02 [[0], [1]]).getD [])

theorem exGM02_naive (comps : List (List Bool)) (hc : Comps [2, 1] comps) (h : (naive (formLayout [2, 1] comps) exEmap02 [[0], [1]]).isSome) :
    IsNaive 2 [[0], [1]] (exGM02 comps) := by
  obtain ⟨out, hout⟩ := Option.isSome_iff_exists.1 h
  refine ⟨[2, 1], comps, exEmap02, out, hc, hout, ?_, by decide⟩
  unfold exGM02
  rw [hout]
  rfl

theorem noRepeat_all {g : GM} (h : ∀ l ∈ g, ∀ x ∈ l, x.2.Nodup) : NoRepeat g := by
  intro r e v hv
  have hm := mem_of_lookup hv
  rw [List.getD_eq_getElem?_getD] at hm
  cases hg : g[r]? with
  | none => rw [hg] at hm; simp at hm
  | some l =>
    rw [hg] at hm
    exact h l (List.mem_of_getElem? hg) _ hm

/-- a potential and a velocity on the two elements: 10 + 13 dofs. -/
def exChain02 : Option Chain := mkChain 2 [.gm "m" (exGM02 comps2d0), .gm "m" (exGM02 comps2d1o)]

example : exChain02.map (fun c => (c.total, c.getSequent 2 1 1)) = some (10 + 13, some [2, 13, 14, 5, 15, 16, 8, 17, 18, 19, 20, 21, 22]) := by decide +kernel

example : ∃ c, exChain02 = some c ∧ IsChainNumbering c.gms c.total (c.getSequent 2) := by
  have h : exChain02.map Chain.gms = some [exGM02 comps2d0, exGM02 comps2d1o] := by decide +kernel
  rw [Option.map_eq_some_iff] at h
  obtain ⟨c, hc, hg⟩ := h
  refine ⟨c, hc, c02_naive (n := 2) (ranks := [[0], [1]]) hc ?_ ?_⟩
  · rw [hg]
    intro g hgm
    rcases List.mem_pair.1 hgm with rfl | rfl
    · exact exGM02_naive _ (by unfold Comps; decide) (by decide +kernel)
    · exact exGM02_naive _ (by unfold Comps; decide) (by decide +kernel)
  · rw [hg]
    intro g hgm
    rcases List.mem_pair.1 hgm with rfl | rfl
    · exact noRepeat_all (by decide +kernel)
    · exact noRepeat_all (by decide +kernel)

example : exGM02 comps2d0 = [[(0, [0, 1, 2, 3, 4, 5])], [(1, [2, 6, 8, 5, 7, 9])]] := by decide +kernel

end Mifem.Props
