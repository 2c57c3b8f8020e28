import Verif.Props.FormOps2

/-!
# C104, third part: dofs on boundaries
-/

namespace Mifem.Props.Ops104
open Mifem.Gath Mifem.Cochain Mifem.FormOps

/-- side number `k` of element `e` of the map is on boundary `bn`. -/
def OnBoundary (m : List (Nat × List Entry)) (bn : String) (e : Nat) (s : Three.Side) : Prop :=
  ∃ p ∈ m, p.1 = e ∧ ∃ k : Nat, p.2[k]? = some (.bnd bn) ∧ [Three.Side.N, .S, .W, .E, .B, .F][k]? = some s

theorem parseRow_mem {bns : List String} {p : Nat × List Entry} {l : List (String × Nat × Three.Side)} (h : parseRow bns p = some l)
    (x : String × Nat × Three.Side) : x ∈ l ↔ x.2.1 = p.1 ∧ ∃ k : Nat, p.2[k]? = some (.bnd x.1) ∧
      [Three.Side.N, .S, .W, .E, .B, .F][k]? = some x.2.2 := by
  unfold parseRow at h
  split at h
  · cases hm : (p.2.zip sides).mapM (parseEntry bns p.1) with
    | none => simp [hm] at h
    | some r =>
      simp only [hm, Option.map_some, Option.some.injEq] at h
      subst h
      obtain ⟨h1, h2⟩ := mapM_mem hm
      rw [List.mem_filterMap]
      constructor
      · rintro ⟨y, hy, he⟩
        simp only [id] at he
        subst he
        obtain ⟨q, hq, hqe⟩ := h2 _ hy
        obtain ⟨k, hk⟩ := List.mem_iff_getElem?.1 hq
        rw [List.getElem?_zip_eq_some] at hk
        unfold parseEntry at hqe
        split at hqe
        · simp at hqe
        · rename_i bn hb
          split at hqe
          · simp only [Option.some.injEq] at hqe
            subst hqe
            exact ⟨rfl, k, by rw [hk.1, hb], hk.2⟩
          · simp at hqe
      · rintro ⟨he, k, hk1, hk2⟩
        have hq : (Entry.bnd x.1, x.2.2) ∈ p.2.zip sides :=
          List.mem_iff_getElem?.2 ⟨k, List.getElem?_zip_eq_some.2 ⟨hk1, hk2⟩⟩
        obtain ⟨y, hy, hye⟩ := h1 _ hq
        refine ⟨y, hy, ?_⟩
        simp only [parseEntry] at hye
        split at hye
        · simp only [Option.some.injEq] at hye
          subst hye
          simp [← he]
        · simp at hye
  · simp at h

theorem parseCore_mem {bns : List String} {m : List (Nat × List Entry)} {c : List (String × Nat × Three.Side)}
    (h : parseCore bns m = some c) (bn : String) (e : Nat) (s : Three.Side) : (bn, e, s) ∈ c ↔ OnBoundary m bn e s := by
  unfold parseCore at h
  cases hm : m.mapM (parseRow bns) with
  | none => simp [hm] at h
  | some r =>
    simp only [hm, Option.map_some, Option.some.injEq] at h
    subst h
    obtain ⟨h1, h2⟩ := mapM_mem hm
    rw [List.mem_flatten]
    constructor
    · rintro ⟨l, hl, hx⟩
      obtain ⟨p, hp, hpl⟩ := h2 l hl
      obtain ⟨he, k, hk⟩ := (parseRow_mem hpl _).1 hx
      exact ⟨p, hp, he.symm, k, hk⟩
    · rintro ⟨p, hp, he, k, hk⟩
      obtain ⟨l, hl, hpl⟩ := h1 p hp
      exact ⟨l, hl, (parseRow_mem hpl _).2 ⟨he.symm, k, hk⟩⟩

theorem mem_sidesOf {c : List (String × Nat × Three.Side)} {bn : String} {q : Nat × Three.Side} :
    q ∈ sidesOf c bn ↔ (bn, q.1, q.2) ∈ c := by
  unfold sidesOf
  simp only [List.mem_map, List.mem_filter, beq_iff_eq]
  constructor
  · rintro ⟨x, ⟨hx, rfl⟩, rfl⟩; exact hx
  · intro h; exact ⟨_, ⟨h, rfl⟩, rfl⟩

theorem dofsOnSide_mem {loc : Three.Side → List Nat} {g : LocalGM} {q : Nat × Three.Side} {l : List Nat}
    (h : dofsOnSide loc g q = some l) (d : Nat) : d ∈ l ↔ ∃ gv, g.lookup q.1 = some gv ∧ ∃ i ∈ loc q.2, gv[i]? = some d := by
  unfold dofsOnSide at h
  cases hg : g.lookup q.1 with
  | none => simp [hg] at h
  | some gv =>
    simp only [hg, Option.bind_some] at h
    obtain ⟨h1, h2⟩ := mapM_mem h
    constructor
    · intro hd
      obtain ⟨i, hi, he⟩ := h2 d hd
      exact ⟨gv, rfl, i, hi, he⟩
    · rintro ⟨gv', he, i, hi, hd⟩
      rw [Option.some.injEq] at he
      subst he
      obtain ⟨b, hb, hbe⟩ := h1 i hi
      rw [hd, Option.some.injEq] at hbe
      exact hbe ▸ hb

theorem lookup_mapM_str {β : Type} {f : String → Option β} : ∀ {l : List String} {r : List (String × β)},
    l.mapM (fun e => (f e).map fun z => (e, z)) = some r → ∀ e ∈ l, r.lookup e = f e
  | [], r, h => by simp
  | a :: l, r, h => by
    rw [List.mapM_cons] at h
    cases hb : f a with
    | none => simp [hb] at h
    | some b =>
      cases hr : l.mapM (fun e => (f e).map fun z => (e, z)) with
      | none => simp [hb, hr] at h
      | some r' =>
        simp [hb, hr] at h
        subst h
        intro e he
        rw [List.lookup_cons]
        by_cases hea : e = a
        · subst hea; simp [hb]
        · have : (e == a) = false := by simp [hea]
          rw [this]
          rcases List.mem_cons.1 he with rfl | he
          · exact absurd rfl hea
          · exact lookup_mapM_str hr e he

theorem boundaryCore_mem {loc : Three.Side → List Nat} {nms : List String} {c : List (String × Nat × Three.Side)} {g : LocalGM}
    {r : List (String × List Nat)} (h : boundaryCore false loc nms c g = some r) (bn : String) (hb : bn ∈ nms) (d : Nat) :
    d ∈ (r.lookup bn).getD [] ↔ ∃ e s, (bn, e, s) ∈ c ∧ ∃ gv, g.lookup e = some gv ∧ ∃ i ∈ loc s, gv[i]? = some d := by
  let f : String → Option (List Nat) := fun bn => ((sidesOf c bn).mapM (dofsOnSide loc g)).map fun ds => ds.flatten.dedup
  have hf : boundaryCore false loc nms c g = nms.mapM fun bn => (f bn).map fun z => (bn, z) := by
    unfold boundaryCore
    congr 1
    funext bn
    simp [f, Function.comp_def]
  rw [hf] at h
  have hl := lookup_mapM_str h bn hb
  obtain ⟨b, _, hbe⟩ := (mapM_mem h).1 bn hb
  cases hs : (sidesOf c bn).mapM (dofsOnSide loc g) with
  | none => simp [f, hs] at hbe
  | some ds =>
    have : r.lookup bn = some ds.flatten.dedup := by rw [hl]; simp [f, hs]
    rw [this]
    simp only [Option.getD_some, List.mem_dedup, List.mem_flatten]
    obtain ⟨h1, h2⟩ := mapM_mem hs
    constructor
    · rintro ⟨l, hl, hd⟩
      obtain ⟨q, hq, hqe⟩ := h2 l hl
      exact ⟨q.1, q.2, mem_sidesOf.1 hq, (dofsOnSide_mem hqe d).1 hd⟩
    · rintro ⟨e, s, hm, hx⟩
      obtain ⟨l, hl, hle⟩ := h1 (e, s) (mem_sidesOf.2 hm)
      exact ⟨l, hl, (dofsOnSide_mem hle d).2 hx⟩

theorem names_mem {cores : List (List (String × Nat × Three.Side))} {bn : String} :
    bn ∈ names cores ↔ ∃ c ∈ cores, ∃ e s, (bn, e, s) ∈ c := by
  unfold names
  simp only [List.mem_dedup, List.mem_map, List.mem_flatten]
  constructor
  · rintro ⟨x, ⟨c, hc, hx⟩, rfl⟩; exact ⟨c, hc, x.2.1, x.2.2, hx⟩
  · rintro ⟨c, hc, e, s, hx⟩; exact ⟨_, ⟨c, hc, hx⟩, rfl⟩

theorem mapM_get {α β : Type} {f : α → Option β} : ∀ {l : List α} {r : List β}, l.mapM f = some r → ∀ i : Nat, (l[i]?).bind f = r[i]?
  | [], r, h => by simp at h; subst h; simp
  | a :: l, r, h => by
    rw [List.mapM_cons] at h
    cases hb : f a with
    | none => simp [hb] at h
    | some b =>
      cases hr : l.mapM f with
      | none => simp [hb, hr] at h
      | some r' =>
        simp [hb, hr] at h
        subst h
        intro i
        cases i with
        | zero => simpa using hb
        | succ i => simpa using mapM_get hr i

/-- **C104, dofs on boundaries.** For a 0-, 1- or 2-form in 3D (`loc` gives the dofs of an element on a side) and any distribution of
the elements: the names returned are those of the boundaries on which some element has a side; and a dof is listed (once) for a
boundary if and only if it is, in some element with a side on that boundary, the number of a local dof on that side. -/
theorem c104_boundary (loc : Three.Side → List Nat) (bns : List String) (emap : List (List (Nat × List Entry))) (gm : GM)
    (hlen : emap.length = gm.length) (BD : List (String × List Nat)) (h : boundary false loc bns emap gm = some BD) :
    (BD.map Prod.fst).Nodup ∧ (∀ bn, bn ∈ BD.map Prod.fst ↔ ∃ m ∈ emap, ∃ e s, OnBoundary m bn e s) ∧
      ∀ bn ds, (bn, ds) ∈ BD → ds.Nodup ∧ ∀ d, d ∈ ds ↔ ∃ (r : Nat) (m : List (Nat × List Entry)) (g : LocalGM),
        emap[r]? = some m ∧ gm[r]? = some g ∧
        ∃ e s, OnBoundary m bn e s ∧ ∃ gv, g.lookup e = some gv ∧ ∃ i ∈ loc s, gv[i]? = some d := by
  unfold boundary at h
  cases hc : emap.mapM (parseCore bns) with
  | none => simp [hc] at h
  | some cores =>
    simp only [hc, Option.bind_some, Bool.false_eq_true, if_false] at h
    cases hb : (cores.zip gm).mapM fun p => boundaryCore false loc (names cores) p.1 p.2 with
    | none => simp [hb] at h
    | some bd =>
      simp only [hb, Option.map_some, Option.some.injEq] at h
      subst h
      have hfst : ((names cores).map fun bn => (bn, (bd.flatMap fun d => (d.lookup bn).getD []).dedup)).map Prod.fst = names cores := by
        rw [List.map_map]; exact List.map_id' _
      rw [hfst]
      obtain ⟨c1, c2⟩ := mapM_mem hc
      have cget := mapM_get hc
      have bget := mapM_get hb
      have hcl : cores.length = emap.length := by
        have := cget
        by_contra hne
        rcases Nat.lt_or_gt_of_ne hne with hlt | hgt
        · obtain ⟨b, hb'⟩ : ∃ b, parseCore bns emap[cores.length] = some b := by
            obtain ⟨b, _, hb⟩ := c1 emap[cores.length] (List.getElem_mem _)
            exact ⟨b, hb⟩
          have := cget cores.length
          simp [hlt, hb'] at this
        · have := cget emap.length
          simp [hgt] at this
      refine ⟨List.nodup_dedup _, fun bn => ?_, ?_⟩
      · rw [names_mem]
        constructor
        · rintro ⟨c, hcm, e, s, hx⟩
          obtain ⟨m, hm, hmc⟩ := c2 c hcm
          exact ⟨m, hm, e, s, (parseCore_mem hmc bn e s).1 hx⟩
        · rintro ⟨m, hm, e, s, hx⟩
          obtain ⟨c, hcm, hmc⟩ := c1 m hm
          exact ⟨c, hcm, e, s, (parseCore_mem hmc bn e s).2 hx⟩
      · intro bn ds hds
        obtain ⟨bn', hbn, he⟩ := List.mem_map.1 hds
        simp only [Prod.mk.injEq] at he
        obtain ⟨rfl, rfl⟩ := he
        refine ⟨List.nodup_dedup _, fun d => ?_⟩
        rw [List.mem_dedup, List.mem_flatMap]
        constructor
        · rintro ⟨x, hx, hd⟩
          obtain ⟨r, hr⟩ := List.mem_iff_getElem?.1 hx
          have hbr := bget r
          rw [hr] at hbr
          cases hz : (cores.zip gm)[r]? with
          | none => simp [hz] at hbr
          | some q =>
            rw [hz, Option.bind_some] at hbr
            rw [List.getElem?_zip_eq_some] at hz
            obtain ⟨e, s, hm, hgv⟩ := (boundaryCore_mem hbr bn' hbn d).1 hd
            have hcr := cget r
            rw [hz.1] at hcr
            cases hme : emap[r]? with
            | none => simp [hme] at hcr
            | some m =>
              rw [hme, Option.bind_some] at hcr
              exact ⟨r, m, q.2, hme, hz.2, e, s, (parseCore_mem hcr bn' e s).1 hm, hgv⟩
        · rintro ⟨r, m, g, hm, hg, e, s, ho, hgv⟩
          have hcr := cget r
          rw [hm, Option.bind_some] at hcr
          have hrl : r < cores.length := by
            rw [hcl]
            exact (List.getElem?_eq_some_iff.1 hm).1
          have hcg : cores[r]? = some cores[r] := List.getElem?_eq_getElem hrl
          have hz : (cores.zip gm)[r]? = some (cores[r], g) := List.getElem?_zip_eq_some.2 ⟨hcg, hg⟩
          have hbr := bget r
          rw [hz, Option.bind_some] at hbr
          obtain ⟨x, hx, hxe⟩ := (mapM_mem hb).1 (cores[r], g) (List.mem_of_getElem? hz)
          refine ⟨x, hx, (boundaryCore_mem hxe bn' hbn d).2 ⟨e, s, ?_, hgv⟩⟩
          rw [hcg] at hcr
          exact (parseCore_mem hcr bn' e s).2 ho

/-- **C104, when the dofs on boundaries are found.** Rows with six entries, names of boundaries of the domain, and a gathering vector
with all local dofs for every element. -/
theorem c104_boundary_found (k3 : Bool) (loc : Three.Side → List Nat) (bns : List String) (emap : List (List (Nat × List Entry))) (gm : GM)
    (n : Nat) (hloc : ∀ s, ∀ i ∈ loc s, i < n)
    (hrow : ∀ m ∈ emap, ∀ p ∈ m, 6 ≤ p.2.length ∧ ∀ bn, Entry.bnd bn ∈ p.2 → bn ∈ bns)
    (hg : ∀ (r : Nat) (m : List (Nat × List Entry)) (g : LocalGM), emap[r]? = some m → gm[r]? = some g → ∀ p ∈ m,
      ∃ gv, g.lookup p.1 = some gv ∧ n ≤ gv.length) :
    ∃ BD, boundary k3 loc bns emap gm = some BD := by
  unfold boundary
  have hpar : ∀ m ∈ emap, ∃ c, parseCore bns m = some c := by
    intro m hm
    unfold parseCore
    obtain ⟨r, hr⟩ := mapM_ex (f := parseRow bns) (l := m) (by
      intro p hp
      unfold parseRow
      rw [if_pos (hrow m hm p hp).1]
      obtain ⟨r, hr⟩ := mapM_ex (f := parseEntry bns p.1) (l := p.2.zip sides) (by
        intro q hq
        unfold parseEntry
        split
        · exact ⟨_, rfl⟩
        · rename_i bn hb
          rw [if_pos]
          · exact ⟨_, rfl⟩
          · exact (hrow m hm p hp).2 bn (hb ▸ (List.of_mem_zip hq).1))
      exact ⟨_, by rw [hr]; rfl⟩)
    exact ⟨_, by rw [hr]; rfl⟩
  obtain ⟨cores, hc⟩ := mapM_ex hpar
  rw [hc, Option.bind_some]
  obtain ⟨bd, hb⟩ := mapM_ex (f := fun p : List (String × Nat × Three.Side) × LocalGM => boundaryCore k3 loc (names cores) p.1 p.2)
    (l := cores.zip gm) (by
      intro q hq
      obtain ⟨r, hr⟩ := List.mem_iff_getElem?.1 hq
      rw [List.getElem?_zip_eq_some] at hr
      have hcr := mapM_get hc r
      rw [hr.1] at hcr
      cases hm : emap[r]? with
      | none => simp [hm] at hcr
      | some m =>
        rw [hm, Option.bind_some] at hcr
        unfold boundaryCore
        apply mapM_ex
        intro bn _
        split
        · exact ⟨_, rfl⟩
        · obtain ⟨ds, hds⟩ := mapM_ex (f := dofsOnSide loc q.2) (l := sidesOf q.1 bn) (by
            intro x hx
            obtain ⟨p, hp, he, _⟩ := (parseCore_mem hcr bn x.1 x.2).1 (mem_sidesOf.1 hx)
            obtain ⟨gv, hgv, hn⟩ := hg r m q.2 hm hr.2 p hp
            unfold dofsOnSide
            rw [← he, hgv, Option.bind_some]
            apply mapM_ex
            intro i hi
            have : i < gv.length := lt_of_lt_of_le (hloc _ i hi) hn
            exact ⟨gv[i], List.getElem?_eq_getElem this⟩)
          exact ⟨_, by rw [hds]; rfl⟩)
  rw [hb]
  exact ⟨_, rfl⟩

/-- **C104, boundaries and distribution.** Two distributions of the same elements to cores (the rows of the map and the gathering
vectors of the elements are the same) give the same boundaries with the same dofs. -/
theorem c104_boundary_distribution (loc : Three.Side → List Nat) (bns : List String) (emap emap' : List (List (Nat × List Entry))) (gm gm' : GM)
    (hlen : emap.length = gm.length) (hlen' : emap'.length = gm'.length)
    (hsame : ∀ (p : Nat × List Entry) (gv : List Nat),
      (∃ (r : Nat) (m : List (Nat × List Entry)) (g : LocalGM), emap[r]? = some m ∧ gm[r]? = some g ∧ p ∈ m ∧ g.lookup p.1 = some gv) ↔
      ∃ (r : Nat) (m : List (Nat × List Entry)) (g : LocalGM), emap'[r]? = some m ∧ gm'[r]? = some g ∧ p ∈ m ∧ g.lookup p.1 = some gv)
    (hmap : ∀ p, (∃ m ∈ emap, p ∈ m) ↔ ∃ m ∈ emap', p ∈ m)
    (BD BD' : List (String × List Nat)) (h : boundary false loc bns emap gm = some BD) (h' : boundary false loc bns emap' gm' = some BD') :
    (∀ bn, bn ∈ BD.map Prod.fst ↔ bn ∈ BD'.map Prod.fst) ∧
      ∀ bn ds ds', (bn, ds) ∈ BD → (bn, ds') ∈ BD' → ∀ d, d ∈ ds ↔ d ∈ ds' := by
  obtain ⟨_, n1, d1⟩ := c104_boundary loc bns emap gm hlen BD h
  obtain ⟨_, n2, d2⟩ := c104_boundary loc bns emap' gm' hlen' BD' h'
  constructor
  · intro bn
    rw [n1, n2]
    constructor
    · rintro ⟨m, hm, e, s, p, hp, hx⟩
      obtain ⟨m', hm', hp'⟩ := (hmap p).1 ⟨m, hm, hp⟩
      exact ⟨m', hm', e, s, p, hp', hx⟩
    · rintro ⟨m, hm, e, s, p, hp, hx⟩
      obtain ⟨m', hm', hp'⟩ := (hmap p).2 ⟨m, hm, hp⟩
      exact ⟨m', hm', e, s, p, hp', hx⟩
  · intro bn ds ds' hd hd' d
    rw [(d1 bn ds hd).2, (d2 bn ds' hd').2]
    constructor
    · rintro ⟨r, m, g, hm, hg, e, s, ⟨p, hp, rfl, hx⟩, gv, hgv, hi⟩
      obtain ⟨r', m', g', hm', hg', hp', hgv'⟩ := (hsame p gv).1 ⟨r, m, g, hm, hg, hp, hgv⟩
      exact ⟨r', m', g', hm', hg', p.1, s, ⟨p, hp', rfl, hx⟩, gv, hgv', hi⟩
    · rintro ⟨r, m, g, hm, hg, e, s, ⟨p, hp, rfl, hx⟩, gv, hgv, hi⟩
      obtain ⟨r', m', g', hm', hg', hp', hgv'⟩ := (hsame p gv).2 ⟨r, m, g, hm, hg, hp, hgv⟩
      exact ⟨r', m', g', hm', hg', p.1, s, ⟨p, hp', rfl, hx⟩, gv, hgv', hi⟩

/-- **C104, all boundary dofs.** The dofs regardless of names, each once; none for a form of the highest degree. -/
theorem c104_ravel (BD : List (String × List Nat)) : (ravel BD).Nodup ∧ ∀ d, d ∈ ravel BD ↔ ∃ bn ds, (bn, ds) ∈ BD ∧ d ∈ ds := by
  refine ⟨List.nodup_dedup _, fun d => ?_⟩
  unfold ravel
  rw [List.mem_dedup, List.mem_flatMap]
  constructor
  · rintro ⟨p, hp, hd⟩; exact ⟨p.1, p.2, hp, hd⟩
  · rintro ⟨bn, ds, hp, hd⟩; exact ⟨_, hp, hd⟩

theorem c104_boundary_volume (loc : Three.Side → List Nat) (bns : List String) (emap : List (List (Nat × List Entry))) (gm : GM)
    (BD : List (String × List Nat)) (h : boundary true loc bns emap gm = some BD) : ravel BD = [] ∧ ∀ p ∈ BD, p.2 = [] := by
  have : ∀ p ∈ BD, p.2 = [] := by
    unfold boundary at h
    cases hc : emap.mapM (parseCore bns) with
    | none => simp [hc] at h
    | some cores =>
      simp only [hc, Option.bind_some] at h
      obtain ⟨bd, hb, rfl⟩ := Option.map_eq_some_iff.1 h
      intro p hp
      obtain ⟨bn, _, rfl⟩ := List.mem_map.1 hp
      simp
  refine ⟨?_, this⟩
  rw [List.eq_nil_iff_forall_not_mem]
  intro d hd
  obtain ⟨bn, ds, hp, hd'⟩ := ((c104_ravel BD).2 d).1 hd
  have := this _ hp
  simp only at this
  subst this
  simp at hd'

/-! ## the dofs on the sides -/

/-- the point with the indices `i`, `j`, `k` (of 0..p0, 0..p1, 0..p2) is on the side. -/
def AtSide (p0 p1 p2 : Nat) (s : Three.Side) (i j k : Nat) : Prop :=
  match s with
  | .N => i = 0
  | .S => i = p0
  | .W => j = 0
  | .E => j = p1
  | .B => k = 0
  | .F => k = p2

/-- **C104, nodes on a side.** The local dofs of a 0-form on a side are the nodes of the side. -/
theorem c104_side0 (p0 p1 p2 : Nat) (s : Three.Side) (l : Nat) : l ∈ Three.dofs0 p0 p1 p2 s ↔
    ∃ i j k, i ≤ p0 ∧ j ≤ p1 ∧ k ≤ p2 ∧ AtSide p0 p1 p2 s i j k ∧ l = i + j * (p0 + 1) + k * ((p0 + 1) * (p1 + 1)) := by
  have e : ∀ i j k, Three.ln0 p0 p1 p2 i j k = i + j * (p0 + 1) + k * ((p0 + 1) * (p1 + 1)) := by
    intro i j k
    simp only [Three.ln0, fIdx3]; ring
  cases s <;> simp only [Three.dofs0, mem_ravelF, AtSide, e] <;> constructor
  · rintro ⟨j, k, hj, hk, rfl⟩; exact ⟨0, j, k, by omega, by omega, by omega, rfl, rfl⟩
  · rintro ⟨i, j, k, hi, hj, hk, rfl, rfl⟩; exact ⟨j, k, by omega, by omega, rfl⟩
  · rintro ⟨j, k, hj, hk, rfl⟩; exact ⟨p0, j, k, by omega, by omega, by omega, rfl, rfl⟩
  · rintro ⟨i, j, k, hi, hj, hk, rfl, rfl⟩; exact ⟨j, k, by omega, by omega, rfl⟩
  · rintro ⟨i, k, hi, hk, rfl⟩; exact ⟨i, 0, k, by omega, by omega, by omega, rfl, rfl⟩
  · rintro ⟨i, j, k, hi, hj, hk, rfl, rfl⟩; exact ⟨i, k, by omega, by omega, rfl⟩
  · rintro ⟨i, k, hi, hk, rfl⟩; exact ⟨i, p1, k, by omega, by omega, by omega, rfl, rfl⟩
  · rintro ⟨i, j, k, hi, hj, hk, rfl, rfl⟩; exact ⟨i, k, by omega, by omega, rfl⟩
  · rintro ⟨i, j, hi, hj, rfl⟩; exact ⟨i, j, 0, by omega, by omega, by omega, rfl, rfl⟩
  · rintro ⟨i, j, k, hi, hj, hk, rfl, rfl⟩; exact ⟨i, j, by omega, by omega, rfl⟩
  · rintro ⟨i, j, hi, hj, rfl⟩; exact ⟨i, j, p2, by omega, by omega, by omega, rfl, rfl⟩
  · rintro ⟨i, j, k, hi, hj, hk, rfl, rfl⟩; exact ⟨i, j, by omega, by omega, rfl⟩

/-- **C104, edges on a side.** The local dofs of a 1-form on a side are the edges both ends of which are on the side. -/
theorem c104_side1 (p0 p1 p2 : Nat) (s : Three.Side) (l : Nat) : l ∈ Three.dofs1 p0 p1 p2 s ↔
    (∃ i j k, i < p0 ∧ j ≤ p1 ∧ k ≤ p2 ∧ (AtSide p0 p1 p2 s i j k ∧ AtSide p0 p1 p2 s (i + 1) j k) ∧ l = Three.ln1c0 p0 p1 p2 i j k) ∨
    (∃ i j k, i ≤ p0 ∧ j < p1 ∧ k ≤ p2 ∧ (AtSide p0 p1 p2 s i j k ∧ AtSide p0 p1 p2 s i (j + 1) k) ∧ l = Three.ln1c1 p0 p1 p2 i j k) ∨
    ∃ i j k, i ≤ p0 ∧ j ≤ p1 ∧ k < p2 ∧ (AtSide p0 p1 p2 s i j k ∧ AtSide p0 p1 p2 s i j (k + 1)) ∧ l = Three.ln1c2 p0 p1 p2 i j k := by
  cases s <;> simp only [Three.dofs1, List.mem_append, mem_ravelF, AtSide] <;> constructor
  all_goals first
    | (rintro (⟨a, b, ha, hb, rfl⟩ | ⟨a, b, ha, hb, rfl⟩) <;> first
        | exact .inl ⟨a, 0, b, by omega, by omega, by omega, ⟨rfl, rfl⟩, rfl⟩
        | exact .inl ⟨a, p1, b, by omega, by omega, by omega, ⟨rfl, rfl⟩, rfl⟩
        | exact .inl ⟨a, b, 0, by omega, by omega, by omega, ⟨rfl, rfl⟩, rfl⟩
        | exact .inl ⟨a, b, p2, by omega, by omega, by omega, ⟨rfl, rfl⟩, rfl⟩
        | exact .inr (.inl ⟨0, a, b, by omega, by omega, by omega, ⟨rfl, rfl⟩, rfl⟩)
        | exact .inr (.inl ⟨p0, a, b, by omega, by omega, by omega, ⟨rfl, rfl⟩, rfl⟩)
        | exact .inr (.inl ⟨a, b, 0, by omega, by omega, by omega, ⟨rfl, rfl⟩, rfl⟩)
        | exact .inr (.inl ⟨a, b, p2, by omega, by omega, by omega, ⟨rfl, rfl⟩, rfl⟩)
        | exact .inr (.inr ⟨0, a, b, by omega, by omega, by omega, ⟨rfl, rfl⟩, rfl⟩)
        | exact .inr (.inr ⟨p0, a, b, by omega, by omega, by omega, ⟨rfl, rfl⟩, rfl⟩)
        | exact .inr (.inr ⟨a, 0, b, by omega, by omega, by omega, ⟨rfl, rfl⟩, rfl⟩)
        | exact .inr (.inr ⟨a, p1, b, by omega, by omega, by omega, ⟨rfl, rfl⟩, rfl⟩))
    | (rintro (⟨i, j, k, hi, hj, hk, ⟨h1, h2⟩, rfl⟩ | ⟨i, j, k, hi, hj, hk, ⟨h1, h2⟩, rfl⟩ | ⟨i, j, k, hi, hj, hk, ⟨h1, h2⟩, rfl⟩) <;> first
        | (exfalso; omega)
        | (subst h1; first
            | exact .inl ⟨j, k, by omega, by omega, rfl⟩
            | exact .inl ⟨i, k, by omega, by omega, rfl⟩
            | exact .inl ⟨i, j, by omega, by omega, rfl⟩
            | exact .inr ⟨j, k, by omega, by omega, rfl⟩
            | exact .inr ⟨i, k, by omega, by omega, rfl⟩
            | exact .inr ⟨i, j, by omega, by omega, rfl⟩))

/-- **C104, faces on a side.** The local dofs of a 2-form on a side are the faces whose corners are on the side. -/
theorem c104_side2 (p0 p1 p2 : Nat) (s : Three.Side) (l : Nat) : l ∈ Three.dofs2 p0 p1 p2 s ↔
    (∃ i j k, i ≤ p0 ∧ j < p1 ∧ k < p2 ∧ (AtSide p0 p1 p2 s i j k ∧ AtSide p0 p1 p2 s i (j + 1) k ∧ AtSide p0 p1 p2 s i j (k + 1)) ∧
      l = Three.ln2c0 p0 p1 p2 i j k) ∨
    (∃ i j k, i < p0 ∧ j ≤ p1 ∧ k < p2 ∧ (AtSide p0 p1 p2 s i j k ∧ AtSide p0 p1 p2 s (i + 1) j k ∧ AtSide p0 p1 p2 s i j (k + 1)) ∧
      l = Three.ln2c1 p0 p1 p2 i j k) ∨
    ∃ i j k, i < p0 ∧ j < p1 ∧ k ≤ p2 ∧ (AtSide p0 p1 p2 s i j k ∧ AtSide p0 p1 p2 s (i + 1) j k ∧ AtSide p0 p1 p2 s i (j + 1) k) ∧
      l = Three.ln2c2 p0 p1 p2 i j k := by
  cases s <;> simp only [Three.dofs2, mem_ravelF, AtSide] <;> constructor
  all_goals first
    | (rintro ⟨a, b, ha, hb, rfl⟩; first
        | exact .inl ⟨0, a, b, by omega, by omega, by omega, ⟨rfl, rfl, rfl⟩, rfl⟩
        | exact .inl ⟨p0, a, b, by omega, by omega, by omega, ⟨rfl, rfl, rfl⟩, rfl⟩
        | exact .inr (.inl ⟨a, 0, b, by omega, by omega, by omega, ⟨rfl, rfl, rfl⟩, rfl⟩)
        | exact .inr (.inl ⟨a, p1, b, by omega, by omega, by omega, ⟨rfl, rfl, rfl⟩, rfl⟩)
        | exact .inr (.inr ⟨a, b, 0, by omega, by omega, by omega, ⟨rfl, rfl, rfl⟩, rfl⟩)
        | exact .inr (.inr ⟨a, b, p2, by omega, by omega, by omega, ⟨rfl, rfl, rfl⟩, rfl⟩))
    | (rintro (⟨i, j, k, hi, hj, hk, ⟨h1, h2, h3⟩, rfl⟩ | ⟨i, j, k, hi, hj, hk, ⟨h1, h2, h3⟩, rfl⟩ |
          ⟨i, j, k, hi, hj, hk, ⟨h1, h2, h3⟩, rfl⟩) <;> first
        | (exfalso; omega)
        | (subst h1; first
            | exact ⟨j, k, by omega, by omega, rfl⟩
            | exact ⟨i, k, by omega, by omega, rfl⟩
            | exact ⟨i, j, by omega, by omega, rfl⟩))

/-- two elements side by side in the first direction on two cores, boundaries `Up` (their outer ends) and `Rest`; 0-forms of degree 1
that share four nodes. -/
def exMap : List (List (Nat × List Entry)) :=
  [[(0, [.bnd "Up", .elem 1, .bnd "Rest", .bnd "Rest", .bnd "Rest", .bnd "Rest"])],
   [(1, [.elem 0, .bnd "Up", .bnd "Rest", .bnd "Rest", .bnd "Rest", .bnd "Rest"])]]
@[inherit_doc exMap] def exGm : GM := [[(0, [0, 1, 2, 3, 4, 5, 6, 7])], [(1, [1, 8, 3, 9, 5, 10, 7, 11])]]

example : (boundary false (Three.dofs0 1 1 1) ["Up", "Rest"] exMap exGm).map (fun BD => BD.map fun p => (p.1, p.2.length)) =
    some [("Up", 8), ("Rest", 12)] := by decide +kernel

example : (boundary false (Three.dofs0 1 1 1) ["Up", "Rest"] exMap exGm).map (fun BD => BD.lookup "Up") =
    some (some [0, 2, 4, 6, 8, 9, 10, 11]) := by decide +kernel

example : ∃ BD, boundary false (Three.dofs0 1 1 1) ["Up", "Rest"] exMap exGm = some BD ∧ (ravel BD).length = 12 := by
  refine ⟨_, rfl, by decide +kernel⟩

/-- an expression whose forms fit together: `2*a + a - b` with the forms of `c104_sharing_fails` and `c104_mixed_fails`. -/
example : Fit exW (fun i => if i = 0 then exA else exB) (.sub (.add (.mul "2" 2 (.form 0)) (.form 0)) (.form 1)) "_3dCSCG_2Form" 0 0 2 := by
  intro i hi
  simp [atoms] at hi
  rcases hi with rfl | rfl
  · refine ⟨rfl, rfl, rfl, rfl, _, rfl, fun e he => ?_⟩
    simp [exW] at he
    rcases he with rfl | rfl
    · exact ⟨[1, 2], rfl, rfl⟩
    · exact ⟨[3, 4], rfl, rfl⟩
  · refine ⟨rfl, rfl, rfl, rfl, _, rfl, fun e he => ?_⟩
    simp [exW] at he
    rcases he with rfl | rfl
    · exact ⟨[1, 5], rfl, rfl⟩
    · exact ⟨[5, 7], rfl, rfl⟩

end Mifem.Props.Ops104
