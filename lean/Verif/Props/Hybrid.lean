import Verif.Lemmas.HybridMove

/-!
# C81: hybrid pairing of 0- and 1-forms
-/

namespace Mifem.Props
open Mifem Mifem.Hybrid

/-! ## the tables agree -/

/-- 0-forms: for each corner edge the trace dofs, form dofs and edge dofs used for the replacement correspond to each
other: the row of the trace matrix for the `j`-th trace dof is plus or minus the `j`-th form dof. -/
theorem c81_tables0 (p0 p1 p2 : Nat) (ce : CEdge) : ∃ l, (tables0 p0 p1 p2).tf ce.face ce.along = some l ∧
    List.Forall₂ (Hybrid.Unit (Three.trace0 p0 p1 p2) (Three.nb0 p0 p1 p2) (outward3 ce.face)) l ((tables0 p0 p1 p2).sf ce) ∧
    ((tables0 p0 p1 p2).ef ce).length = l.length := by
  cases ce <;> refine ⟨_, rfl, ?_, by simp [tables0, efAux, rowF, colF]⟩
  · exact col_unit (f := fun i k => Three.ln0 p0 p1 p2 i 0 k) (by omega) (unit0 p0 p1 p2 .W rfl)
  · exact col_unit (f := fun i k => Three.ln0 p0 p1 p2 i p1 k) (by omega) (unit0 p0 p1 p2 .E rfl)
  · exact col_unit (f := fun i k => Three.ln0 p0 p1 p2 i 0 k) (by omega) (unit0 p0 p1 p2 .W rfl)
  · exact col_unit (f := fun i k => Three.ln0 p0 p1 p2 i p1 k) (by omega) (unit0 p0 p1 p2 .E rfl)
  · exact col_unit (f := fun j k => Three.ln0 p0 p1 p2 0 j k) (by omega) (unit0 p0 p1 p2 .N rfl)
  · exact col_unit (f := fun j k => Three.ln0 p0 p1 p2 p0 j k) (by omega) (unit0 p0 p1 p2 .S rfl)
  · exact col_unit (f := fun j k => Three.ln0 p0 p1 p2 0 j k) (by omega) (unit0 p0 p1 p2 .N rfl)
  · exact col_unit (f := fun j k => Three.ln0 p0 p1 p2 p0 j k) (by omega) (unit0 p0 p1 p2 .S rfl)
  · exact row_unit (f := fun j k => Three.ln0 p0 p1 p2 0 j k) (by omega) (unit0 p0 p1 p2 .N rfl)
  · exact row_unit (f := fun j k => Three.ln0 p0 p1 p2 p0 j k) (by omega) (unit0 p0 p1 p2 .S rfl)
  · exact row_unit (f := fun j k => Three.ln0 p0 p1 p2 0 j k) (by omega) (unit0 p0 p1 p2 .N rfl)
  · exact row_unit (f := fun j k => Three.ln0 p0 p1 p2 p0 j k) (by omega) (unit0 p0 p1 p2 .S rfl)

/-- 1-forms: the same. -/
theorem c81_tables1 (p0 p1 p2 : Nat) (ce : CEdge) : ∃ l, (tables1 p0 p1 p2).tf ce.face ce.along = some l ∧
    List.Forall₂ (Hybrid.Unit (Three.trace1 p0 p1 p2) (Three.nb1 p0 p1 p2) (outward3 ce.face)) l ((tables1 p0 p1 p2).sf ce) ∧
    ((tables1 p0 p1 p2).ef ce).length = l.length := by
  cases ce <;> refine ⟨_, rfl, ?_, by simp [tables1, efAux, rowF, colF]⟩
  · exact col_unit (f := fun i k => Three.ln1c0 p0 p1 p2 i 0 k) (by omega) (unit1a p0 p1 p2 .W rfl)
  · exact col_unit (f := fun i k => Three.ln1c0 p0 p1 p2 i p1 k) (by omega) (unit1a p0 p1 p2 .E rfl)
  · exact col_unit (f := fun i k => Three.ln1c0 p0 p1 p2 i 0 k) (by omega) (unit1a p0 p1 p2 .W rfl)
  · exact col_unit (f := fun i k => Three.ln1c0 p0 p1 p2 i p1 k) (by omega) (unit1a p0 p1 p2 .E rfl)
  · exact col_unit (f := fun j k => Three.ln1c1 p0 p1 p2 0 j k) (by omega) (unit1a p0 p1 p2 .N rfl)
  · exact col_unit (f := fun j k => Three.ln1c1 p0 p1 p2 p0 j k) (by omega) (unit1a p0 p1 p2 .S rfl)
  · exact col_unit (f := fun j k => Three.ln1c1 p0 p1 p2 0 j k) (by omega) (unit1a p0 p1 p2 .N rfl)
  · exact col_unit (f := fun j k => Three.ln1c1 p0 p1 p2 p0 j k) (by omega) (unit1a p0 p1 p2 .S rfl)
  · exact row_unit2 (f := fun j k => Three.ln1c2 p0 p1 p2 0 j k) (by omega) (unit1b p0 p1 p2 .N rfl)
  · exact row_unit2 (f := fun j k => Three.ln1c2 p0 p1 p2 p0 j k) (by omega) (unit1b p0 p1 p2 .S rfl)
  · exact row_unit2 (f := fun j k => Three.ln1c2 p0 p1 p2 0 j k) (by omega) (unit1b p0 p1 p2 .N rfl)
  · exact row_unit2 (f := fun j k => Three.ln1c2 p0 p1 p2 p0 j k) (by omega) (unit1b p0 p1 p2 .S rfl)

/-- 0-forms: the entries of the tables for the other of the two sides that meet at a corner edge (so for all 24 pairs of a side and
an edge of it) also are the form dofs on that edge. -/
theorem c81_tables0_other (p0 p1 p2 : Nat) (ce : CEdge) : ∃ l, (tables0 p0 p1 p2).tf ce.along ce.face = some l ∧
    List.Forall₂ (Hybrid.Unit (Three.trace0 p0 p1 p2) (Three.nb0 p0 p1 p2) (outward3 ce.along)) l ((tables0 p0 p1 p2).sf ce) := by
  cases ce <;> refine ⟨_, rfl, ?_⟩
  · exact col_unit (f := fun i j => Three.ln0 p0 p1 p2 i j 0) (by omega) (unit0 p0 p1 p2 .B rfl)
  · exact col_unit (f := fun i j => Three.ln0 p0 p1 p2 i j 0) (by omega) (unit0 p0 p1 p2 .B rfl)
  · exact col_unit (f := fun i j => Three.ln0 p0 p1 p2 i j p2) (by omega) (unit0 p0 p1 p2 .F rfl)
  · exact col_unit (f := fun i j => Three.ln0 p0 p1 p2 i j p2) (by omega) (unit0 p0 p1 p2 .F rfl)
  · exact row_unit (f := fun i j => Three.ln0 p0 p1 p2 i j 0) (by omega) (unit0 p0 p1 p2 .B rfl)
  · exact row_unit (f := fun i j => Three.ln0 p0 p1 p2 i j 0) (by omega) (unit0 p0 p1 p2 .B rfl)
  · exact row_unit (f := fun i j => Three.ln0 p0 p1 p2 i j p2) (by omega) (unit0 p0 p1 p2 .F rfl)
  · exact row_unit (f := fun i j => Three.ln0 p0 p1 p2 i j p2) (by omega) (unit0 p0 p1 p2 .F rfl)
  · exact row_unit (f := fun i k => Three.ln0 p0 p1 p2 i 0 k) (by omega) (unit0 p0 p1 p2 .W rfl)
  · exact row_unit (f := fun i k => Three.ln0 p0 p1 p2 i 0 k) (by omega) (unit0 p0 p1 p2 .W rfl)
  · exact row_unit (f := fun i k => Three.ln0 p0 p1 p2 i p1 k) (by omega) (unit0 p0 p1 p2 .E rfl)
  · exact row_unit (f := fun i k => Three.ln0 p0 p1 p2 i p1 k) (by omega) (unit0 p0 p1 p2 .E rfl)

/-- 1-forms: the same. -/
theorem c81_tables1_other (p0 p1 p2 : Nat) (ce : CEdge) : ∃ l, (tables1 p0 p1 p2).tf ce.along ce.face = some l ∧
    List.Forall₂ (Hybrid.Unit (Three.trace1 p0 p1 p2) (Three.nb1 p0 p1 p2) (outward3 ce.along)) l ((tables1 p0 p1 p2).sf ce) := by
  cases ce <;> refine ⟨_, rfl, ?_⟩
  · exact col_unit (f := fun i j => Three.ln1c0 p0 p1 p2 i j 0) (by omega) (unit1a p0 p1 p2 .B rfl)
  · exact col_unit (f := fun i j => Three.ln1c0 p0 p1 p2 i j 0) (by omega) (unit1a p0 p1 p2 .B rfl)
  · exact col_unit (f := fun i j => Three.ln1c0 p0 p1 p2 i j p2) (by omega) (unit1a p0 p1 p2 .F rfl)
  · exact col_unit (f := fun i j => Three.ln1c0 p0 p1 p2 i j p2) (by omega) (unit1a p0 p1 p2 .F rfl)
  · exact row_unit2 (f := fun i j => Three.ln1c1 p0 p1 p2 i j 0) (by omega) (unit1b p0 p1 p2 .B rfl)
  · exact row_unit2 (f := fun i j => Three.ln1c1 p0 p1 p2 i j 0) (by omega) (unit1b p0 p1 p2 .B rfl)
  · exact row_unit2 (f := fun i j => Three.ln1c1 p0 p1 p2 i j p2) (by omega) (unit1b p0 p1 p2 .F rfl)
  · exact row_unit2 (f := fun i j => Three.ln1c1 p0 p1 p2 i j p2) (by omega) (unit1b p0 p1 p2 .F rfl)
  · exact row_unit2 (f := fun i k => Three.ln1c2 p0 p1 p2 i 0 k) (by omega) (unit1b p0 p1 p2 .W rfl)
  · exact row_unit2 (f := fun i k => Three.ln1c2 p0 p1 p2 i 0 k) (by omega) (unit1b p0 p1 p2 .W rfl)
  · exact row_unit2 (f := fun i k => Three.ln1c2 p0 p1 p2 i p1 k) (by omega) (unit1b p0 p1 p2 .E rfl)
  · exact row_unit2 (f := fun i k => Three.ln1c2 p0 p1 p2 i p1 k) (by omega) (unit1b p0 p1 p2 .E rfl)

/-- the edge dofs of the 12 corner edges are consecutive blocks of the dofs of the edge form. -/
theorem c81_edge_blocks (x y z : Nat) : all12.flatMap (efAux x y z) = List.range (4 * (x + y + z)) := by
  simp only [all12, efAux, List.flatMap_cons, List.flatMap_nil, List.append_nil]
  have h := fun (s m n : Nat) => List.range'_append_1 (s := s) (m := m) (n := n)
  rw [List.range_eq_range', show 4 * (x+y+z) = x+(x+(x+(x+(y+(y+(y+(y+(z+(z+(z+z)))))))))) by ring]
  simp only [← h]
  congr 1 <;> ring_nf

/-- 0-forms: the dofs on a corner edge are those on both of the sides that meet there. -/
theorem c81_corner0 (p0 p1 p2 : Nat) (ce : CEdge) (d : Nat) :
    d ∈ (tables0 p0 p1 p2).sf ce ↔ d ∈ Three.dofs0 p0 p1 p2 ce.face ∧ d ∈ Three.dofs0 p0 p1 p2 ce.along := by
  cases ce <;> simp only [tables0, sf0, CEdge.face, CEdge.along, Three.dofs0, mem_ravelF, List.mem_map, List.mem_range] <;>
    constructor
  all_goals first
    | (rintro ⟨i, hi, rfl⟩
       refine ⟨⟨_, _, ?_, ?_, rfl⟩, ⟨_, _, ?_, ?_, rfl⟩⟩ <;> omega)
    | (rintro ⟨⟨i, k, hi, hk, h1⟩, ⟨i', j', hi', hj', h2⟩⟩
       rw [← h2] at h1
       obtain ⟨e1, e2, e3⟩ := Three.ln0_inj (by omega) (by omega) (by omega) (by omega) h1
       first
       | (refine ⟨i', ?_, ?_⟩ <;> [omega; (rw [← h2]; congr 1 <;> omega)])
       | (refine ⟨j', ?_, ?_⟩ <;> [omega; (rw [← h2]; congr 1 <;> omega)]))

set_option maxHeartbeats 2000000 in
/-- 1-forms: the same. -/
theorem c81_corner1 (p0 p1 p2 : Nat) (ce : CEdge) (d : Nat) :
    d ∈ (tables1 p0 p1 p2).sf ce ↔ d ∈ Three.dofs1 p0 p1 p2 ce.face ∧ d ∈ Three.dofs1 p0 p1 p2 ce.along := by
  cases ce <;> simp only [tables1, sf1, CEdge.face, CEdge.along, Three.dofs1, mem_ravelF, List.mem_map, List.mem_range,
    List.mem_append] <;> constructor
  all_goals first
    | (rintro ⟨i, hi, rfl⟩
       first
       | (refine ⟨Or.inl ⟨_, _, ?_, ?_, rfl⟩, Or.inl ⟨_, _, ?_, ?_, rfl⟩⟩ <;> omega)
       | (refine ⟨Or.inl ⟨_, _, ?_, ?_, rfl⟩, Or.inr ⟨_, _, ?_, ?_, rfl⟩⟩ <;> omega)
       | (refine ⟨Or.inr ⟨_, _, ?_, ?_, rfl⟩, Or.inl ⟨_, _, ?_, ?_, rfl⟩⟩ <;> omega)
       | (refine ⟨Or.inr ⟨_, _, ?_, ?_, rfl⟩, Or.inr ⟨_, _, ?_, ?_, rfl⟩⟩ <;> omega))
    | (rintro ⟨⟨i, k, hi, hk, h1⟩ | ⟨i, k, hi, hk, h1⟩, ⟨i', j', hi', hj', h2⟩ | ⟨i', j', hi', hj', h2⟩⟩ <;>
       rw [← h2] at h1 <;>
       first
       | (have hh := fun a b c d => Three.ln1c0_inj a b c d h1
          obtain ⟨e1, e2, e3⟩ := hh (by omega) (by omega) (by omega) (by omega)
          first
          | (refine ⟨i', ?_, ?_⟩ <;> [omega; (rw [← h2]; congr 1 <;> omega)])
          | (refine ⟨j', ?_, ?_⟩ <;> [omega; (rw [← h2]; congr 1 <;> omega)]))
       | (have hh := fun a b c d => Three.ln1c1_inj a b c d h1
          obtain ⟨e1, e2, e3⟩ := hh (by omega) (by omega) (by omega) (by omega)
          first
          | (refine ⟨i', ?_, ?_⟩ <;> [omega; (rw [← h2]; congr 1 <;> omega)])
          | (refine ⟨j', ?_, ?_⟩ <;> [omega; (rw [← h2]; congr 1 <;> omega)]))
       | (have hh := fun a b c d => Three.ln1c2_inj a b c d h1
          obtain ⟨e1, e2, e3⟩ := hh (by omega) (by omega) (by omega) (by omega)
          first
          | (refine ⟨i', ?_, ?_⟩ <;> [omega; (rw [← h2]; congr 1 <;> omega)])
          | (refine ⟨j', ?_, ?_⟩ <;> [omega; (rw [← h2]; congr 1 <;> omega)]))
       | (exfalso; refine l01 ?_ ?_ ?_ ?_ ?_ ?_ h1 <;> omega)
       | (exfalso; refine l01 ?_ ?_ ?_ ?_ ?_ ?_ h1.symm <;> omega)
       | (exfalso; refine l02 ?_ ?_ ?_ ?_ ?_ ?_ h1 <;> omega)
       | (exfalso; refine l02 ?_ ?_ ?_ ?_ ?_ ?_ h1.symm <;> omega)
       | (exfalso; refine l12 ?_ ?_ ?_ ?_ ?_ ?_ h1 <;> omega)
       | (exfalso; refine l12 ?_ ?_ ?_ ?_ ?_ ?_ h1.symm <;> omega))

/-! ## the replacement for an edge element -/

/-- the index of the side found again among the trace elements. -/
theorem idxOf_nodup {l : List Nat} (hn : l.Nodup) {i te : Nat} (h : l[i]? = some te) : l.idxOf te = i := by
  obtain ⟨hi, rfl⟩ := List.getElem?_eq_some_iff.1 h
  exact hn.idxOf_getElem i hi

/-- For an edge element whose first position is corner edge `ce` of element `m`, with the six sides of `m` on different
trace elements, the replacement is made in element `m` with the tables of `ce`; nothing is raised. -/
theorem setting_eq {tb : Tables} {tmap : Nat → List Nat} {e : EdgeElem} {m : Nat} {ce : CEdge} {ps : List (Nat × CEdge)}
    {l : List Nat} (he : e.positions = (m, ce) :: ps) (hn : (tmap m).Nodup) (h6 : (tmap m).length = 6)
    (hl : tb.tf ce.face ce.along = some l) (h1 : (tb.sf ce).length = l.length) (h2 : (tb.ef ce).length = l.length) :
    setting tb tmap e = some ⟨m, l, tb.sf ce, tb.ef ce⟩ := by
  have hlt : nswebf.idxOf ce.face < (tmap m).length := by rw [h6]; cases ce <;> decide
  have hte : (tmap m)[nswebf.idxOf ce.face]? = some ((tmap m)[nswebf.idxOf ce.face]) := List.getElem?_eq_getElem hlt
  have hface : nswebf[nswebf.idxOf ce.face]? = some ce.face := by cases ce <;> decide
  simp only [setting, he, hte, idxOf_nodup hn hte, hface, List.find?_cons, BEq.rfl, hl]
  rw [if_pos ⟨h1, h2.symm⟩]

theorem c81_setting0 (p0 p1 p2 : Nat) {tmap : Nat → List Nat} {e : EdgeElem} {m : Nat} {ce : CEdge}
    {ps : List (Nat × CEdge)} (he : e.positions = (m, ce) :: ps) (hn : (tmap m).Nodup) (h6 : (tmap m).length = 6) :
    ∃ l, setting (tables0 p0 p1 p2) tmap e = some ⟨m, l, (tables0 p0 p1 p2).sf ce, (tables0 p0 p1 p2).ef ce⟩ ∧
      List.Forall₂ (Hybrid.Unit (Three.trace0 p0 p1 p2) (Three.nb0 p0 p1 p2) (outward3 ce.face)) l
        ((tables0 p0 p1 p2).sf ce) := by
  obtain ⟨l, h1, h2, h3⟩ := c81_tables0 p0 p1 p2 ce
  exact ⟨l, setting_eq he hn h6 h1 h2.length_eq.symm h3, h2⟩

theorem c81_setting1 (p0 p1 p2 : Nat) {tmap : Nat → List Nat} {e : EdgeElem} {m : Nat} {ce : CEdge}
    {ps : List (Nat × CEdge)} (he : e.positions = (m, ce) :: ps) (hn : (tmap m).Nodup) (h6 : (tmap m).length = 6) :
    ∃ l, setting (tables1 p0 p1 p2) tmap e = some ⟨m, l, (tables1 p0 p1 p2).sf ce, (tables1 p0 p1 p2).ef ce⟩ ∧
      List.Forall₂ (Hybrid.Unit (Three.trace1 p0 p1 p2) (Three.nb1 p0 p1 p2) (outward3 ce.face)) l
        ((tables1 p0 p1 p2).sf ce) := by
  obtain ⟨l, h1, h2, h3⟩ := c81_tables1 p0 p1 p2 ce
  exact ⟨l, setting_eq he hn h6 h1 h2.length_eq.symm h3, h2⟩

/-! ## the replacements keep the constraints -/

theorem nodup_map_ln {n : Nat} {f : Nat → Nat} (h : ∀ i < n, ∀ j < n, f i = f j → i = j) :
    ((List.range n).map f).Nodup := by
  rw [List.nodup_map_iff_inj_on List.nodup_range]
  intro i hi j hj e
  exact h i (List.mem_range.1 hi) j (List.mem_range.1 hj) e

theorem efAux_disj (x y z : Nat) (ce ce' : CEdge) (h : ce ≠ ce') : ∀ c ∈ efAux x y z ce, c ∉ efAux x y z ce' := by
  intro c hc hc'
  cases ce <;> cases ce' <;> simp only [efAux, List.mem_range'_1] at hc hc' <;> first | exact absurd rfl h | omega

theorem efAux_nodup (x y z : Nat) (ce : CEdge) : (efAux x y z ce).Nodup := by
  cases ce <;> exact List.nodup_range'

theorem efAux_lt (x y z : Nat) (ce : CEdge) : ∀ s ∈ efAux x y z ce, s < 4 * (x + y + z) := by
  intro s hs
  rw [← List.mem_range, ← c81_edge_blocks, List.mem_flatMap]
  exact ⟨ce, by cases ce <;> decide, hs⟩

/-- number of dofs of the 0-edge form: num_basis.py line 25; of the 1-edge form: line 44. -/
theorem tablesOK0 (p0 p1 p2 : Nat) : TablesOK (tables0 p0 p1 p2) (Three.nb0 p0 p1 p2) (4 * (p0+1 + (p1+1) + (p2+1))) where
  sf := by
    intro ce
    cases ce <;> refine nodup_map_ln fun i hi j hj e => ?_ <;>
      (have := Three.ln0_inj (by omega) (by omega) (by omega) (by omega) e; omega)
  ef := efAux_nodup _ _ _
  disj := efAux_disj _ _ _
  sf_lt := by
    intro ce s hs
    exact dofs0_lt p0 p1 p2 ce.face s ((c81_corner0 p0 p1 p2 ce s).1 hs).1
  ef_lt := efAux_lt _ _ _

theorem tablesOK1 (p0 p1 p2 : Nat) : TablesOK (tables1 p0 p1 p2) (Three.nb1 p0 p1 p2) (4 * (p0 + p1 + p2)) where
  sf := by
    intro ce
    cases ce <;> refine nodup_map_ln fun i hi j hj e => ?_
    all_goals first
      | (have := fun a b c d => Three.ln1c0_inj a b c d e
         have := this (by omega) (by omega) (by omega) (by omega); omega)
      | (have := fun a b c d => Three.ln1c1_inj a b c d e
         have := this (by omega) (by omega) (by omega) (by omega); omega)
      | (have := fun a b c d => Three.ln1c2_inj a b c d e
         have := this (by omega) (by omega) (by omega) (by omega); omega)
  ef := efAux_nodup _ _ _
  disj := efAux_disj _ _ _
  sf_lt := by
    intro ce s hs
    exact dofs1_lt p0 p1 p2 ce.face s ((c81_corner1 p0 p1 p2 ce s).1 hs).1
  ef_lt := efAux_lt _ _ _

/-- the moves of a successful run, with the corner edges they belong to. -/
theorem overcome_some {K : Type*} [CommRing K] {tb : Tables} {tmap : Nat → List Nat} {dir : List String}
    {edges : List EdgeElem} {T C T' C' : Nat → Nat → Nat → K} (h : overcome tb tmap dir edges T C = some (T', C')) :
    ∃ hs ms, (edges.filter fun e => !skipped dir e).map (·.positions.head?) = hs.map some ∧
      List.Forall₂ (Fits tb) hs ms ∧ (edges.filter fun e => !skipped dir e).mapM (setting tb tmap) = some ms ∧
      ms.foldl move1 (T, C) = (T', C') := by
  unfold overcome at h
  rw [Option.map_eq_some_iff] at h
  obtain ⟨ms, h1, h2⟩ := h
  generalize (edges.filter fun e => !skipped dir e) = l at *
  have key : ∀ (l : List EdgeElem) (ms : List Move), l.mapM (setting tb tmap) = some ms →
      ∃ hs, l.map (·.positions.head?) = hs.map some ∧ List.Forall₂ (Fits tb) hs ms := by
    intro l
    induction l with
    | nil => intro ms h; simp only [List.mapM_nil, Option.pure_def, Option.some.injEq] at h; subst h; exact ⟨[], rfl, .nil⟩
    | cons e l ih =>
      intro ms h
      rw [List.mapM_cons] at h
      simp only [Option.pure_def, Option.bind_eq_bind, Option.bind_eq_some_iff, Option.some.injEq] at h
      obtain ⟨mv, hmv, ms', hms', rfl⟩ := h
      obtain ⟨hs, e1, e2⟩ := ih ms' hms'
      obtain ⟨hd, f1, f2⟩ := setting_some hmv
      exact ⟨hd :: hs, by simp [f1, e1], .cons f2 e2⟩
  obtain ⟨hs, k1, k2⟩ := key l ms h1
  exact ⟨hs, ms, k1, k2, h1, h2⟩

theorem map_some_nodup {α β : Type*} {l : List α} {f : α → Option β} {hs : List β} (h : l.map f = hs.map some)
    (hn : (l.map f).Nodup) : hs.Nodup := by
  rw [h] at hn; exact List.Nodup.of_map _ hn

section
variable {K : Type*} [CommRing K]

open Finset in
/-- The constraints with edge unknowns and the original ones have the same value on every form `u` when the edge
unknowns `e` are the values of `u` on the edges. (`ns`, `ne`: numbers of columns.) -/
theorem value_of_tables {tb : Tables} {ns ne : Nat} (hok : TablesOK tb ns ne) {tmap : Nat → List Nat} {dir : List String}
    {edges : List EdgeElem} {T T' C' : Nat → Nat → Nat → K}
    (h : overcome tb tmap dir edges T (fun _ _ _ => 0) = some (T', C'))
    (hn : ((edges.filter fun e => !skipped dir e).map (·.positions.head?)).Nodup)
    {u e : Nat → Nat → K} (hue : ∀ m ce, (tb.ef ce).map (e m) = (tb.sf ce).map (u m)) (m r : Nat) :
    ∑ c ∈ range ns, T' m r c * u m c + ∑ c ∈ range ne, C' m r c * e m c = ∑ c ∈ range ns, T m r c * u m c := by
  obtain ⟨hs, ms, h1, h2, _, h4⟩ := overcome_some h
  have := foldl_value hok hs ms h2 (map_some_nodup h1 hn) (fun h _ => hue h.1 h.2) (T, fun _ _ _ => 0)
    (fun _ _ _ _ _ => rfl) m r
  rw [h4] at this
  rw [this]
  simp

open Finset in
/-- 0-forms: the constraints `T' u + C' e` that come out have the value of the constraints `T u` that went in, for every
form `u` and the edge unknowns `e` with the values of `u` on the edges. -/
theorem c81_value0 (p0 p1 p2 : Nat) {tmap : Nat → List Nat} {dir : List String}
    {edges : List EdgeElem} {T T' C' : Nat → Nat → Nat → K}
    (h : overcome (tables0 p0 p1 p2) tmap dir edges T (fun _ _ _ => 0) = some (T', C'))
    (hn : ((edges.filter fun e => !skipped dir e).map (·.positions.head?)).Nodup)
    {u e : Nat → Nat → K} (hue : ∀ m ce, ((tables0 p0 p1 p2).ef ce).map (e m) = ((tables0 p0 p1 p2).sf ce).map (u m))
    (m r : Nat) :
    ∑ c ∈ range (Three.nb0 p0 p1 p2), T' m r c * u m c + ∑ c ∈ range (4 * (p0+1 + (p1+1) + (p2+1))), C' m r c * e m c
      = ∑ c ∈ range (Three.nb0 p0 p1 p2), T m r c * u m c :=
  value_of_tables (tablesOK0 p0 p1 p2) h hn hue m r

open Finset in
/-- 1-forms: the same. -/
theorem c81_value1 (p0 p1 p2 : Nat) {tmap : Nat → List Nat} {dir : List String}
    {edges : List EdgeElem} {T T' C' : Nat → Nat → Nat → K}
    (h : overcome (tables1 p0 p1 p2) tmap dir edges T (fun _ _ _ => 0) = some (T', C'))
    (hn : ((edges.filter fun e => !skipped dir e).map (·.positions.head?)).Nodup)
    {u e : Nat → Nat → K} (hue : ∀ m ce, ((tables1 p0 p1 p2).ef ce).map (e m) = ((tables1 p0 p1 p2).sf ce).map (u m))
    (m r : Nat) :
    ∑ c ∈ range (Three.nb1 p0 p1 p2), T' m r c * u m c + ∑ c ∈ range (4 * (p0 + p1 + p2)), C' m r c * e m c
      = ∑ c ∈ range (Three.nb1 p0 p1 p2), T m r c * u m c :=
  value_of_tables (tablesOK1 p0 p1 p2) h hn hue m r

end

/-! ## Examples -/

/-- 0-forms of degree (1,2,1): edge `SE` is replaced through side `S`, whose dofs follow the 6 of side `N`. -/
example : (tables0 1 2 1).tf CEdge.SE.face CEdge.SE.along = some [8, 11] ∧ (tables0 1 2 1).sf .SE = [5, 11]
    ∧ (tables0 1 2 1).ef .SE = [26, 27] := by decide

/-- 1-forms of degree (1,2,1): edge `EF` (along x). -/
example : (tables1 1 2 1).tf CEdge.EF.face CEdge.EF.along = some [19] ∧ (tables1 1 2 1).sf .EF = [5]
    ∧ (tables1 1 2 1).ef .EF = [3] := by decide

/-- Two elements side by side in y direction, with the four sides of the common edges; the edge on `Wall` is skipped. -/
def exEdges : List EdgeElem :=
  [⟨[(0, .EB), (1, .WB)], ["Floor"]⟩, ⟨[(0, .EF), (1, .WF)], []⟩, ⟨[(0, .NB)], ["Wall", "Floor"]⟩, ⟨[(1, .NF)], ["Roof"]⟩]

def exTmap : Nat → List Nat := fun m => if m = 0 then [0, 1, 2, 3, 4, 5] else [6, 7, 3, 8, 9, 10]

/-- The hypotheses of `c81_setting0` and of `c81_value0`/`c81_value1`: the settings exist, the skipped edge is left out. -/
example : (∀ m, (exTmap m).Nodup ∧ (exTmap m).length = 6) ∧
    (((exEdges.filter fun e => !skipped ["Wall"] e).mapM (setting (tables1 1 1 1) exTmap)).map fun l =>
      l.map fun mv => (mv.elem, mv.tf, mv.sf, mv.ef)) = some [(0, [12], [1], [1]), (0, [13], [3], [3]), (1, [1], [6], [6])] ∧
    ((exEdges.filter fun e => !skipped ["Wall"] e).map (·.positions.head?)).Nodup := by
  refine ⟨fun m => ?_, by decide, by decide⟩
  unfold exTmap
  split <;> decide

/-- and so do the replaced matrices. -/
example (T : Nat → Nat → Nat → Int) : (overcome (tables1 1 1 1) exTmap ["Wall"] exEdges T fun _ _ _ => 0).isSome := by
  unfold overcome
  rw [Option.isSome_map]
  decide

end Mifem.Props
