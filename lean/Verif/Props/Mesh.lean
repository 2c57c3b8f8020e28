import Verif.Lemmas.Periodic

/-!
# C35, C36: element numbers and the element map
-/

namespace Mifem.Props
open Mifem.Naive Mifem.Mesh

/-! ## C35 -/

/-- the mesh has an element with indices `i` in region `r`. -/
def IsElement (regs : List (Scheme × List Nat)) (r : Nat) (i : List Nat) : Prop :=
  ∃ x, regs[r]? = some x ∧ i.length = x.2.length ∧ ∀ d, d < x.2.length → i.getD d 0 < x.2.getD d 0

/-- number of elements of the mesh. -/
def elementCount (regs : List (Scheme × List Nat)) : Nat := (regs.map fun x => x.2.prod).sum

/-- the number stored for element `i` of region `r`. -/
def numberOf (M : List EArr) (r : Nat) (i : List Nat) : Option Nat := (M[r]?).map fun E => E.at_ i

theorem isElement_iff (regs : List (Scheme × List Nat)) (M : List EArr) (h : M.map EArr.shape = regs.map Prod.snd) (r : Nat) (i : List Nat) :
    IsElement regs r i ↔ ∃ E, M[r]? = some E ∧ InBox E.shape i := by
  have hr := congrArg (fun l => l[r]?) h
  simp only [List.getElem?_map] at hr
  constructor
  · rintro ⟨x, h1, h2, h3⟩
    rw [h1] at hr
    obtain ⟨E, hE, hs⟩ := Option.map_eq_some_iff.1 hr
    exact ⟨E, hE, by rw [hs]; exact ⟨h2, h3⟩⟩
  · rintro ⟨E, hE, hi⟩
    rw [hE] at hr
    obtain ⟨x, hx, hs⟩ := Option.map_eq_some_iff.1 hr.symm
    exact ⟨x, hx, by rw [hs]; exact hi.1, by rw [hs]; exact hi.2⟩

theorem findRegion_none (M : List EArr) : ∀ acc e, acc + total M ≤ e → findRegion acc M e = none := by
  induction M with
  | nil => intro _ _ _; rfl
  | cons E M ih =>
    intro acc e h
    have ht : total (E :: M) = E.shape.prod + total M := by simp [total]
    rw [findRegion, if_neg (by omega), ih _ _ (by omega)]
    rfl

/-- **C35.** Whatever schemes the regions use, whatever `np.empty` contains, the numbering succeeds; every element has
exactly one number below the number of elements and every such number belongs to exactly one element; the search finds
that element, and nothing for other numbers; regions take consecutive ranges in their order. -/
theorem c35_element_numbering (junk : List Nat → Nat) (regs : List (Scheme × List Nat)) (hregs : ∀ x ∈ regs, LayoutOK x.2) :
    ∃ M, meshNumbering junk 0 regs = some M ∧ M.length = regs.length ∧
      (∀ r i, IsElement regs r i → ∃ e, e < elementCount regs ∧ numberOf M r i = some e) ∧
      (∀ e, e < elementCount regs → ∃! x : Nat × List Nat, IsElement regs x.1 x.2 ∧ numberOf M x.1 x.2 = some e) ∧
      (∀ e r i, find M e = some (r, i) ↔ IsElement regs r i ∧ numberOf M r i = some e) ∧
      (∀ r s i k a b, IsElement regs r i → IsElement regs s k → numberOf M r i = some a → numberOf M s k = some b → r < s → a < b) := by
  obtain ⟨M, h1, h2, h3⟩ := meshNumbering_ok junk regs 0 hregs
  have hM : WellNumbered M := fun r E hE => by simpa using h3 r E hE
  have hc : elementCount regs = total M := by
    have hl : (regs.map fun x => x.2.prod) = (regs.map Prod.snd).map List.prod := by simp
    have hl' : (M.map fun E => E.shape.prod) = (M.map EArr.shape).map List.prod := by simp
    unfold elementCount total
    rw [hl, hl', h2]
  refine ⟨M, h1, by simpa using congrArg List.length h2, ?_, ?_, ?_, ?_⟩
  · intro r i hi
    obtain ⟨E, hE, hb⟩ := (isElement_iff regs M h2 r i).1 hi
    refine ⟨E.at_ i, ?_, by simp [numberOf, hE]⟩
    rw [hc]
    exact at_lt_total M hM r E hE i hb
  · intro e he
    obtain ⟨r, E, i, hE, hb, hv⟩ := exists_element M hM e (by rw [← hc]; exact he)
    refine ⟨(r, i), ⟨(isElement_iff regs M h2 r i).2 ⟨E, hE, hb⟩, by simp [numberOf, hE, hv]⟩, ?_⟩
    rintro ⟨r', i'⟩ ⟨hi', hn'⟩
    obtain ⟨E', hE', hb'⟩ := (isElement_iff regs M h2 r' i').1 hi'
    have hv' : E'.at_ i' = e := by simpa [numberOf, hE'] using hn'
    have := element_unique M hM r' r E' E hE' hE i' i hb' hb (hv'.trans hv.symm)
    rw [this.1, this.2]
  · intro e r i
    constructor
    · intro hf
      have he : e < total M := by
        by_contra hcon
        unfold find at hf
        rw [findRegion_none M 0 e (by omega)] at hf
        exact absurd hf (by simp)
      obtain ⟨r', E', i', hE', hb', hv'⟩ := exists_element M hM e he
      have := find_eq M hM r' E' hE' i' hb'
      rw [hv', hf] at this
      have := Option.some.inj this
      simp only [Prod.mk.injEq] at this
      obtain ⟨rfl, rfl⟩ := this
      exact ⟨(isElement_iff regs M h2 r i).2 ⟨E', hE', hb'⟩, by simp [numberOf, hE', hv']⟩
    · rintro ⟨hi, hn⟩
      obtain ⟨E, hE, hb⟩ := (isElement_iff regs M h2 r i).1 hi
      have hv : E.at_ i = e := by simpa [numberOf, hE] using hn
      rw [← hv]
      exact find_eq M hM r E hE i hb
  · intro r s i k a b hi hk ha hb hrs
    obtain ⟨E, hE, hbox⟩ := (isElement_iff regs M h2 r i).1 hi
    obtain ⟨F, hF, hbox'⟩ := (isElement_iff regs M h2 s k).1 hk
    have ha' : E.at_ i = a := by simpa [numberOf, hE] using ha
    have hb' : F.at_ k = b := by simpa [numberOf, hF] using hb
    have g1 := (hM r E hE).bound i hbox
    have g2 := (hM s F hF).bound k hbox'
    have g3 := startOf_mono M (r + 1) s hrs
    rw [startOf_succ M r E hE] at g3
    omega

/-- a 2D mesh with three regions: Fortran order, C order, blocks of rows on a transposed layout. -/
def mesh35 : List (Scheme × List Nat) := [(.plainF, [2, 3]), (.plainC, [3, 2]), (.blocks 5 2 0, [7, 5])]

example : ∀ x ∈ mesh35, LayoutOK x.2 := by
  intro x hx
  simp only [mesh35, List.mem_cons, List.not_mem_nil, or_false] at hx
  rcases hx with rfl | rfl | rfl <;> exact ⟨Or.inl rfl, by simp⟩

example : elementCount mesh35 = 47 := rfl

/-- the block-wise numbering differs from the plain one: element (0, 2) of the third region begins the second block. -/
example : ((meshNumbering (fun _ => 0) 0 mesh35).bind fun M => numberOf M 2 [0, 2]) = some 26 := by decide

/-- **C35, order within a region.** For two different elements of one region, the one whose indices are nowhere larger
has the smaller number (needed by the numbering of dofs). -/
theorem c35_monotone (junk : List Nat → Nat) (regs : List (Scheme × List Nat)) (hregs : ∀ x ∈ regs, LayoutOK x.2)
    (M : List EArr) (hM : meshNumbering junk 0 regs = some M) (r : Nat) (i k : List Nat) (hi : IsElement regs r i) (hk : IsElement regs r k)
    (hle : ∀ d, i.getD d 0 ≤ k.getD d 0) (hne : i ≠ k) (a b : Nat) (ha : numberOf M r i = some a) (hb : numberOf M r k = some b) : a < b := by
  obtain ⟨M', h1, h2, h3⟩ := meshNumbering_ok junk regs 0 hregs
  rw [hM] at h1
  have := Option.some.inj h1
  subst this
  obtain ⟨E, hE, hbox⟩ := (isElement_iff regs M h2 r i).1 hi
  obtain ⟨F, hF, hbox'⟩ := (isElement_iff regs M h2 r k).1 hk
  rw [hE] at hF
  have := Option.some.inj hF
  subst this
  have ha' : E.at_ i = a := by simpa [numberOf, hE] using ha
  have hb' : E.at_ k = b := by simpa [numberOf, hE] using hb
  have hn := h3 r E hE
  have := hn.mono i k hbox hbox' hle
  have hne' : E.at_ i ≠ E.at_ k := fun hc => hne (hn.inj i k hbox hbox' hc)
  omega

/-! ## C36 -/

/-- the neighbours of the elements: `nb e j` is the element across side `j` of element `e`, or nothing. -/
def Symmetric (n dim : Nat) (nb : Nat → Nat → Option Nat) : Prop :=
  ∀ e j e', e < n → j < 2 * dim → nb e j = some e' → e' < n ∧ nb e' (opp j) = some e

/-- the neighbour in the final map. -/
def neighbour (dim : Nat) (M : List EArr) (rmap : Nat → Nat → Att) (ps : List Pair) (e j : Nat) : Option Nat :=
  (finalMap dim M rmap ps e).bind fun m =>
    match m[j]? with
    | some (.other x) => some x
    | _ => none

theorem neighbour_eq (dim : Nat) (M : List EArr) (rmap : Nat → Nat → Att) (ps : List Pair) (e j e' : Nat) :
    neighbour dim M rmap ps e j = some e' ↔ ∃ m, finalMap dim M rmap ps e = some m ∧ m[j]? = some (.other e') := by
  unfold neighbour
  cases hf : finalMap dim M rmap ps e with
  | none => simp
  | some m =>
    simp only [Option.bind_some, Option.some.injEq, exists_eq_left']
    cases hm : m[j]? with
    | none => simp
    | some x =>
      cases x with
      | bnd b => simp
      | other x => simp

/-- **C36.** Whenever the element map of every element could be made (non-conforming interfaces raise `IndexError`), the
final map - interfaces of regions and periodic boundaries included - is symmetric: a neighbour across side `j` has this
element as neighbour across its opposite side. The map of the regions is symmetric, every region side occurs in at most
one periodic pair and lies on the boundary of the domain. -/
theorem c36_symmetric (dim : Nat) (M : List EArr) (rmap : Nat → Nat → Att) (h : MeshOK dim M rmap)
    (per : List (Nat × Nat × Nat)) (hper : PerOK dim M rmap per) (ps : List Pair) (hps : allPairs M per = some ps)
    (hall : ∀ e, e < total M → (elementMap dim M rmap e).isSome) :
    Symmetric (total M) dim (neighbour dim M rmap ps) := by
  intro e j e' he hj hnb
  have hnd := pairs_nodup dim M rmap h per hper ps hps
  obtain ⟨m, hm, hmj⟩ := (neighbour_eq dim M rmap ps e j e').1 hnb
  obtain ⟨m0, hm0, hmm⟩ := Option.map_eq_some_iff.1 hm
  obtain ⟨r, E, i, hE, hi, rfl⟩ := exists_element M h.num e he
  obtain ⟨hlen, hget⟩ := elementMap_get dim M rmap h.num r E hE i hi m0 hm0
  by_cases hin : (E.at_ i, j) ∈ ps.flatMap ends
  · obtain ⟨p, hp, hpe⟩ := List.mem_flatMap.1 hin
    obtain ⟨⟨y, k⟩, hj'⟩ := (mem_ends p _).1 hpe
    have h1 := foldl_joins (E.at_ i) j (y, k) ps m0 hnd (by omega) p hp hj'
    rw [hmm, hmj] at h1
    have hye : e' = y := by simpa using h1
    subst hye
    have hk : k = opp j := by
      obtain ⟨r', j', s', F, F', t, a, b, _, _, _, _, _, hab⟩ := allPairs_joins M per ps hps p hp
      have hs : (p.s1 = j' ∧ p.s2 = opp j') ∨ (p.s2 = j' ∧ p.s1 = opp j') := by
        rcases hab with ⟨f1, f2⟩ | ⟨f1, f2⟩ <;> simp only [Prod.mk.injEq] at f1 f2
        · exact Or.inl ⟨f1.2, f2.2⟩
        · exact Or.inr ⟨f1.2, f2.2⟩
      rcases hj' with ⟨g1, g2⟩ | ⟨g1, g2⟩ <;> simp only [Prod.mk.injEq] at g1 g2 <;> rcases hs with ⟨f1, f2⟩ | ⟨f1, f2⟩
      · rw [← g2.2, ← g1.2, f1, f2]
      · rw [← g2.2, ← g1.2, f1, f2, opp_opp]
      · rw [← g2.2, ← g1.2, f1, f2, opp_opp]
      · rw [← g2.2, ← g1.2, f1, f2]
    subst hk
    have hin' : (e', opp j) ∈ ps.flatMap ends := List.mem_flatMap.2 ⟨p, hp, (mem_ends p _).2 ⟨_, joins_symm p _ _ hj'⟩⟩
    obtain ⟨_, r', E', i', hE', hi', hv', _⟩ := ends_bnd dim M rmap h per hper ps hps e' (opp j) hin'
    have he' : e' < total M := by
      rw [← hv']
      exact at_lt_total M h.num r' E' hE' i' hi'
    refine ⟨he', ?_⟩
    obtain ⟨m1, hm1⟩ := Option.isSome_iff_exists.1 (hall e' he')
    rw [neighbour_eq]
    refine ⟨_, by rw [finalMap, hm1]; rfl, ?_⟩
    have hlen1 : m1.length = 2 * dim := by
      rw [← hv'] at hm1
      exact (elementMap_get dim M rmap h.num r' E' hE' i' hi' m1 hm1).1
    have := opp_lt dim j hj
    exact foldl_joins e' (opp j) (E.at_ i, j) ps m1 hnd (by omega) p hp (joins_symm p _ _ hj')
  · have h1 := foldl_not (E.at_ i) j ps m0 hin
    rw [hmm, hmj] at h1
    have h2 := hget j hj
    rw [← h1] at h2
    obtain ⟨s, E', i', hE', hi', hv', hback⟩ := fetchSide_symm dim M rmap h r E hE i hi j hj e' h2
    have he' : e' < total M := by
      rw [← hv']
      exact at_lt_total M h.num s E' hE' i' hi'
    refine ⟨he', ?_⟩
    obtain ⟨m1, hm1⟩ := Option.isSome_iff_exists.1 (hall e' he')
    rw [neighbour_eq]
    refine ⟨_, by rw [finalMap, hm1]; rfl, ?_⟩
    rw [foldl_not]
    · rw [← hv'] at hm1
      rw [← (elementMap_get dim M rmap h.num s E' hE' i' hi' m1 hm1).2 (opp j) (opp_lt dim j hj), hback]
    · intro hc
      obtain ⟨_, r2, E2, i2, hE2, hi2, hv2, b, hb⟩ := ends_bnd dim M rmap h per hper ps hps e' (opp j) hc
      obtain ⟨rfl, rfl⟩ := element_unique M h.num s r2 E' E2 hE' hE2 i' i2 hi' hi2 (hv'.trans hv2.symm)
      exact absurd (hb _ hback) (by simp)

/-- **C36, where the neighbours are.** Inside a region the neighbour across side `j` is the element one index further; at
the end of a region it is the element with the same transverse indices at the facing end of the attached region. -/
theorem c36_neighbour (dim : Nat) (M : List EArr) (rmap : Nat → Nat → Att) (h : MeshOK dim M rmap)
    (per : List (Nat × Nat × Nat)) (hper : PerOK dim M rmap per) (ps : List Pair) (hps : allPairs M per = some ps)
    (hall : ∀ e, e < total M → (elementMap dim M rmap e).isSome)
    (r : Nat) (E : EArr) (hE : M[r]? = some E) (i : List Nat) (hi : InBox E.shape i) (d : Nat) (hd : d < dim) :
    (0 < i.getD d 0 → neighbour dim M rmap ps (E.at_ i) (2 * d) = some (E.at_ (i.set d (i.getD d 0 - 1)))) ∧
    (i.getD d 0 + 1 < E.shape.getD d 0 → neighbour dim M rmap ps (E.at_ i) (2 * d + 1) = some (E.at_ (i.set d (i.getD d 0 + 1)))) ∧
    (∀ s E', rmap r (2 * d) = .other s → M[s]? = some E' → i.getD d 0 = 0 →
      neighbour dim M rmap ps (E.at_ i) (2 * d) = some (E'.at_ (i.set d (E'.shape.getD d 0 - 1)))) ∧
    (∀ s E', rmap r (2 * d + 1) = .other s → M[s]? = some E' → i.getD d 0 + 1 = E.shape.getD d 0 →
      neighbour dim M rmap ps (E.at_ i) (2 * d + 1) = some (E'.at_ (i.set d 0))) := by
  have hlt := at_lt_total M h.num r E hE i hi
  obtain ⟨m, hm⟩ := Option.isSome_iff_exists.1 (hall _ hlt)
  obtain ⟨hlen, hget⟩ := elementMap_get dim M rmap h.num r E hE i hi m hm
  have key : ∀ j, j < 2 * dim → ∀ x, fetchSide M rmap r i j = some (.other x) → neighbour dim M rmap ps (E.at_ i) j = some x := by
    intro j hj x hx
    rw [neighbour_eq]
    refine ⟨_, by rw [finalMap, hm]; rfl, ?_⟩
    rw [foldl_not, ← hget j hj, hx]
    intro hc
    obtain ⟨_, r2, E2, i2, hE2, hi2, hv2, b, hb⟩ := ends_bnd dim M rmap h per hper ps hps _ _ hc
    obtain ⟨rfl, rfl⟩ := element_unique M h.num r r2 E E2 hE hE2 i i2 hi hi2 hv2.symm
    exact absurd (hb _ hx) (by simp)
  have some_of : ∀ j, j < 2 * dim → ∃ x, fetchSide M rmap r i j = some x := by
    intro j hj
    rw [hget j hj]
    exact ⟨m[j]'(by omega), List.getElem?_eq_getElem _⟩
  have e1 : 2 * d / 2 = d := by omega
  have e2 : (2 * d + 1) / 2 = d := by omega
  have p1 : 2 * d % 2 = 0 := by omega
  have p2 : (2 * d + 1) % 2 = 1 := by omega
  have hbox := hi.2 d (by rw [(h.dims r E hE).1]; exact hd)
  refine ⟨?_, ?_, ?_, ?_⟩
  · intro hpos
    apply key _ (by omega)
    obtain ⟨x, hx⟩ := some_of (2 * d) (by omega)
    rcases fetchSide_cases dim M rmap h r E hE i hi _ (by omega) x hx with ⟨hend, _⟩ | ⟨hend, _⟩ | ⟨_, _, hv⟩
    · unfold atEnd at hend; rw [if_pos p1, e1] at hend; omega
    · unfold atEnd at hend; rw [if_pos p1, e1] at hend; omega
    · rw [hx, hv, if_pos p1, e1]
  · intro hpos
    apply key _ (by omega)
    obtain ⟨x, hx⟩ := some_of (2 * d + 1) (by omega)
    rcases fetchSide_cases dim M rmap h r E hE i hi _ (by omega) x hx with ⟨hend, _⟩ | ⟨hend, _⟩ | ⟨_, _, hv⟩
    · unfold atEnd at hend; rw [if_neg (by omega), e2] at hend; omega
    · unfold atEnd at hend; rw [if_neg (by omega), e2] at hend; omega
    · rw [hx, hv, if_neg (by omega), e2]
  · intro s E' hr hE' hz
    apply key _ (by omega)
    obtain ⟨x, hx⟩ := some_of (2 * d) (by omega)
    rcases fetchSide_cases dim M rmap h r E hE i hi _ (by omega) x hx with ⟨_, b, hb, _⟩ | ⟨_, s', F, hr', hF, _, hv⟩ | ⟨hend, _⟩
    · rw [hr] at hb; exact absurd hb (by simp)
    · rw [hr] at hr'
      have := Att.other.inj hr'
      subst this
      rw [hE'] at hF
      have := Option.some.inj hF
      subst this
      rw [hx, hv, if_pos p1, e1]
    · unfold atEnd at hend; rw [if_pos p1, e1] at hend; exact absurd hz hend
  · intro s E' hr hE' hz
    apply key _ (by omega)
    obtain ⟨x, hx⟩ := some_of (2 * d + 1) (by omega)
    rcases fetchSide_cases dim M rmap h r E hE i hi _ (by omega) x hx with ⟨_, b, hb, _⟩ | ⟨_, s', F, hr', hF, _, hv⟩ | ⟨hend, _⟩
    · rw [hr] at hb; exact absurd hb (by simp)
    · rw [hr] at hr'
      have := Att.other.inj hr'
      subst this
      rw [hE'] at hF
      have := Option.some.inj hF
      subst this
      rw [hx, hv, if_neg (by omega), e2]
    · unfold atEnd at hend; rw [if_neg (by omega), e2] at hend; exact absurd (by omega) hend

/-- **C36, periodic boundaries.** If the two regions of a periodic pair have the same numbers of elements in the
transverse directions, the neighbour across the periodic side is the element with the same transverse indices. -/
theorem c36_periodic (dim : Nat) (M : List EArr) (rmap : Nat → Nat → Att) (h : MeshOK dim M rmap)
    (per : List (Nat × Nat × Nat)) (hper : PerOK dim M rmap per) (ps : List Pair) (hps : allPairs M per = some ps)
    (hall : ∀ e, e < total M → (elementMap dim M rmap e).isSome)
    (r j s : Nat) (hm : (r, j, s) ∈ per) (E E' : EArr) (hE : M[r]? = some E) (hE' : M[s]? = some E')
    (hsame : ∀ d, d < dim → d ≠ j / 2 → E.shape.getD d 0 = E'.shape.getD d 0)
    (i : List Nat) (hi : InBox E.shape i) (hend : atEnd E i j) :
    neighbour dim M rmap ps (E.at_ i) j = some (E'.at_ (i.set (j / 2) (if j % 2 = 0 then E'.shape.getD (j / 2) 0 - 1 else 0))) := by
  have hnd := pairs_nodup dim M rmap h per hper ps hps
  have hj := hper.side _ hm
  simp only at hj
  have hd : j / 2 < dim := by omega
  have hsh := h.dims r E hE
  have hsh' := h.dims s E' hE'
  have hshape : E.shape.set (j / 2) 1 = E'.shape.set (j / 2) 1 := by
    apply ext_getD
    · simp [hsh.1, hsh'.1]
    · intro t ht
      have ht' : t < dim := by simpa [hsh.1] using ht
      rw [getD_set _ _ _ _ (by omega), getD_set _ _ _ _ (by omega)]
      by_cases htd : t = j / 2
      · rw [if_pos htd, if_pos htd]
      · rw [if_neg htd, if_neg htd, hsame t ht' htd]
  obtain ⟨F, F', hF, hF', hpair⟩ := allPairs_all M per ps hps r j s hm
  rw [hE] at hF
  rw [hE'] at hF'
  have := Option.some.inj hF
  subst this
  have := Option.some.inj hF'
  subst this
  have hi0 : i.set (j / 2) 0 ∈ fOrder (E.shape.set (j / 2) 1) := by
    rw [mem_fOrder]
    have hl := hi.1
    refine ⟨by simpa using hl, ?_⟩
    intro t ht
    rw [getD_set _ _ _ _ (by omega), getD_set _ _ _ _ (by omega)]
    by_cases htd : t = j / 2
    · rw [if_pos htd, if_pos htd]; omega
    · rw [if_neg htd, if_neg htd]
      exact hi.2 t (by simpa using ht)
  obtain ⟨t, ht⟩ := List.mem_iff_getElem?.1 hi0
  have ha : (alongSide E j)[t]? = some (E.at_ i) := by
    unfold alongSide
    simp only
    rw [List.getElem?_map, ht, Option.map_some, set_set_self i _ _ hend]
  obtain ⟨b, hb, p, hp, hjn⟩ := hpair t _ ha
  have hb' : b = E'.at_ (i.set (j / 2) (if j % 2 = 0 then E'.shape.getD (j / 2) 0 - 1 else 0)) := by
    unfold alongSide at hb
    simp only [opp_div, opp_mod] at hb
    rw [← hshape, List.getElem?_map, ht, Option.map_some, List.set_set] at hb
    rw [← Option.some.inj hb]
    by_cases hpar : j % 2 = 0
    · rw [if_pos hpar, if_neg (by omega)]
    · rw [if_neg hpar, if_pos (by omega)]
  have hlt := at_lt_total M h.num r E hE i hi
  obtain ⟨m, hm'⟩ := Option.isSome_iff_exists.1 (hall _ hlt)
  obtain ⟨hlen, _⟩ := elementMap_get dim M rmap h.num r E hE i hi m hm'
  rw [neighbour_eq]
  refine ⟨_, by rw [finalMap, hm']; rfl, ?_⟩
  rw [← hb']
  exact foldl_joins (E.at_ i) j (b, opp j) ps m hnd (by omega) p hp hjn

/-! Example: two regions side by side (2 x 2 and 3 x 2 elements), periodic in the direction of the interface. -/

def mesh36 : List EArr := [arangeF 0 [2, 2], arangeF 4 [3, 2]]

/-- side 1 of region 0 is attached to side 0 of region 1; everything else is a boundary. -/
def rmap36 (r j : Nat) : Att := if r = 0 ∧ j = 1 then .other 1 else if r = 1 ∧ j = 0 then .other 0 else .bnd 7

def per36 : List (Nat × Nat × Nat) := [(0, 0, 1), (0, 2, 0), (1, 3, 1)]

theorem meshOK36 : MeshOK 2 mesh36 rmap36 where
  num := by
    intro r E hE
    match r, hE with
    | 0, hE =>
      have : arangeF 0 [2, 2] = E := by simpa [mesh36] using hE
      rw [← this]
      exact numbers_arangeF 0 [2, 2]
    | 1, hE =>
      have : arangeF 4 [3, 2] = E := by simpa [mesh36] using hE
      rw [← this]
      exact numbers_arangeF 4 [3, 2]
    | r + 2, hE => exact absurd hE (by simp [mesh36])
  dims := by
    intro r E hE
    match r, hE with
    | 0, hE =>
      have : arangeF 0 [2, 2] = E := by simpa [mesh36] using hE
      rw [← this]
      exact ⟨rfl, by decide⟩
    | 1, hE =>
      have : arangeF 4 [3, 2] = E := by simpa [mesh36] using hE
      rw [← this]
      exact ⟨rfl, by decide⟩
    | r + 2, hE => exact absurd hE (by simp [mesh36])
  region := by
    intro r j s hr hj hs
    unfold rmap36 at hs
    split at hs
    · rename_i hc
      obtain ⟨rfl, rfl⟩ := hc
      have := Att.other.inj hs
      subst this
      exact ⟨by decide, by decide⟩
    · split at hs
      · rename_i hc
        obtain ⟨rfl, rfl⟩ := hc
        have := Att.other.inj hs
        subst this
        exact ⟨by decide, by decide⟩
      · exact absurd hs (by simp)

theorem perOK36 : PerOK 2 mesh36 rmap36 per36 where
  side := by decide
  nodup := by decide
  bnd := by
    intro x hx
    simp only [per36, List.mem_cons, List.not_mem_nil, or_false] at hx
    rcases hx with rfl | rfl | rfl <;> exact ⟨⟨7, by decide⟩, ⟨7, by decide⟩⟩

example : ∀ e, e < total mesh36 → (elementMap 2 mesh36 rmap36 e).isSome := by decide

example : (allPairs mesh36 per36).isSome := by decide

/-- element 1 (region 0) has element 4 (region 1) above; element 0 has element 6 across the periodic boundary. -/
example : (allPairs mesh36 per36).bind (fun ps => neighbour 2 mesh36 rmap36 ps 1 1) = some 4 ∧
    (allPairs mesh36 per36).bind (fun ps => neighbour 2 mesh36 rmap36 ps 0 0) = some 6 := by decide

/-- **C36, what the periodic pairing does not check (2D).** A periodic pair of a side with 2 elements and a side with 3
elements is accepted, and one element on the periodic boundary is left with a boundary: the pair does not make the
domain periodic. (The other way round raises `IndexError`.) -/
theorem c36_periodic_short_side :
    let M := [arangeF 0 [1, 2], arangeF 2 [1, 3]]
    let rmap : Nat → Nat → Att := fun _ _ => .bnd 7
    (allPairs M [(0, 0, 1)]).isSome ∧ allPairs M [(1, 1, 0)] = none ∧
      (allPairs M [(0, 0, 1)]).map (fun ps => [neighbour 2 M rmap ps 2 1, neighbour 2 M rmap ps 3 1, neighbour 2 M rmap ps 4 1]) =
        some [some 0, some 1, none] := by
  refine ⟨by decide, ?_, by decide⟩
  rfl

/-- **C36, 3D.** Two sides with 2 times 3 and 3 times 2 elements have the same number of elements; they are accepted and
paired in Fortran order, so that element (0, 0, 1) of the first is glued to element (0, 2, 0) of the second instead of one
with the same transverse indices, which shows that the hypothesis on the layouts in `c36_periodic` is needed. -/
theorem c36_periodic_transposed_side :
    let M := [arangeF 0 [1, 2, 3], arangeF 6 [1, 3, 2]]
    let rmap : Nat → Nat → Att := fun _ _ => .bnd 7
    (allPairs M [(0, 0, 1)]).map (fun ps => [neighbour 3 M rmap ps 2 0, neighbour 3 M rmap ps 1 0]) = some [some 8, some 7] ∧
      (arangeF 0 [1, 2, 3]).at_ [0, 0, 1] = 2 ∧ (arangeF 6 [1, 3, 2]).at_ [0, 0, 1] = 9 ∧ (arangeF 6 [1, 3, 2]).at_ [0, 2, 0] = 8 := by
  decide

end Mifem.Props
