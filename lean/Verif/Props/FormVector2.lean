import Verif.Props.FormVector
import Mathlib.Data.List.Perm.Basic
import Mathlib.Data.List.GetD

/-!
# C101, continued: chains, the method 'sequent', and the direct solver
-/

namespace Mifem.Props.FV101
open Mifem.Gath Mifem.Cochain Mifem.FV Mifem.Props

variable {K : Type} [Field K] [DecidableEq K]

/-! ## Specification -/

/-- Form `j` has received the entries of `V` at the numbers `code j` of its dofs, and nothing else has changed. -/
def Received (code : Nat → Nat → Nat) (V : List K) (fs fs' : List (Form K)) : Prop :=
  fs'.length = fs.length ∧ ∀ j (h : j < fs.length) (h' : j < fs'.length),
    ∃ loc, fs'[j] = { fs[j] with loc := some loc } ∧ Agree fs[j].gm loc fun d => V.getD (code j d) 0

/-- The number of local places where a dof is. -/
def places (g : GM) (d : Nat) : Nat := (allVecs g).flatten.count d

/-! ## Lemmas -/

/-- the vector of an element, or nothing. -/
def vecAt (gms : List GM) (j r e : Nat) : List Nat := (getVec (gms.getD j []) r e).getD []

theorem chained_range {code : Nat → Nat → Nat} {gms : List GM} {r e : Nat} {v : List Nat} (h : ChainedAs code gms r e v) :
    v = (List.range gms.length).flatMap fun j => (vecAt gms j r e).map (code j) := by
  obtain ⟨ws, hl, hg, rfl⟩ := h
  rw [List.flatMap_def]
  congr 1
  apply List.ext_getElem
  · simp [hl]
  · intro j h1 h2
    have hj : j < gms.length := by simpa using h2
    have := hg j hj (by omega)
    simp only [List.getElem_map, List.getElem_zipIdx, List.getElem_range, Nat.zero_add]
    unfold vecAt
    rw [List.getD_eq_getElem _ _ hj, this]
    rfl

theorem chained_getVec {code : Nat → Nat → Nat} {gms : List GM} {r e : Nat} {v : List Nat} (h : ChainedAs code gms r e v)
    (j : Nat) (hj : j < gms.length) : getVec gms[j] r e = some (vecAt gms j r e) := by
  obtain ⟨ws, hl, hg, rfl⟩ := h
  have := hg j hj (by omega)
  unfold vecAt
  rw [List.getD_eq_getElem _ _ hj, this]
  rfl

theorem giveSlices_eq (nR : Nat) (els : Nat → List Nat) : ∀ (fs : List (Form K)) (Bs : List (Nat → Nat → List K))
    (pre : Nat → Nat → List K) (i : Nat), (∀ r, r < nR → ∀ e ∈ els r, (pre r e).length = i) →
    List.Forall₂ (fun (f : Form K) B => ∀ r, r < nR → ∀ e ∈ els r, (B r e).length = f.nb) fs Bs →
    giveSlices ((List.range nR).map fun r => (els r).map fun e => (e, pre r e ++ (Bs.map fun B => B r e).flatten)) i fs =
      some (List.zipWith (fun f B => { f with loc := some ((List.range nR).map fun r => (els r).map fun e => (e, B r e)) }) fs Bs)
  | _, _, _, _, _, .nil => rfl
  | f :: fs, B :: Bs, pre, i, hpre, .cons hB hBs => by
    have ih := giveSlices_eq nR els fs Bs (fun r e => pre r e ++ B r e) (i + f.nb)
      (by intro r hr e he; rw [List.length_append, hpre r hr e he, hB r hr e he]) hBs
    have hsl : (((List.range nR).map fun r => (els r).map fun e => (e, pre r e ++ ((B :: Bs).map fun B => B r e).flatten)).map
        fun l => l.map fun p => (p.1, (p.2.drop i).take f.nb)) = (List.range nR).map fun r => (els r).map fun e => (e, B r e) := by
      rw [List.map_map]
      apply List.map_congr_left
      intro r hr
      rw [List.mem_range] at hr
      simp only [Function.comp_apply, List.map_map]
      apply List.map_congr_left
      intro e he
      simp only [Function.comp_apply, List.map_cons, List.flatten_cons]
      rw [List.drop_left' (hpre r hr e he), List.take_left' (hB r hr e he)]
    rw [giveSlices, hsl]
    have hset : setLocal f ((List.range nR).map fun r => (els r).map fun e => (e, B r e)) =
        some { f with loc := some ((List.range nR).map fun r => (els r).map fun e => (e, B r e)) } := by
      unfold setLocal
      rw [if_pos]
      rw [List.all_eq_true]
      intro l hl
      obtain ⟨r, hr, rfl⟩ := List.mem_map.1 hl
      rw [List.all_eq_true]
      intro p hp
      obtain ⟨e, he, rfl⟩ := List.mem_map.1 hp
      simpa using hB r (List.mem_range.1 hr) e he
    rw [hset, Option.bind_some]
    have hall : ((List.range nR).map fun r => (els r).map fun e => (e, pre r e ++ ((B :: Bs).map fun B => B r e).flatten)) =
        (List.range nR).map fun r => (els r).map fun e => (e, (pre r e ++ B r e) ++ (Bs.map fun B => B r e).flatten) := by
      simp only [List.map_cons, List.flatten_cons, List.append_assoc]
    rw [hall, ih]
    rfl

theorem lookup_map_mem {α : Type} (f : Nat → α) : ∀ (l : List Nat) (e : Nat), e ∈ l →
    List.lookup e (l.map fun x => (x, f x)) = some (f e)
  | [], _, h => by simp at h
  | x :: l, e, h => by
    rw [List.map_cons, List.lookup_cons]
    by_cases hx : e = x
    · subst hx; simp
    · have : (e == x) = false := by simpa using hx
      rw [this]
      exact lookup_map_mem f l e ((List.mem_cons.1 h).resolve_left hx)

/-- The chain of the forms: what is used below. -/
structure Chains (nR : Nat) (fs : List (Form K)) (get : Nat → Nat → Option (List Nat)) (code : Nat → Nat → Nat) : Prop where
  ne : fs ≠ []
  cores : ∀ f ∈ fs, f.gm.length = nR
  same : ∀ f ∈ fs, ∀ r e, e ∈ elements ((fs.map Form.gm).headD []) r ↔ e ∈ elements f.gm r
  get : ∀ r e, e ∈ elements ((fs.map Form.gm).headD []) r → ∃ v, get r e = some v ∧ ChainedAs code (fs.map Form.gm) r e v

theorem occurs_of_vecAt {gms : List GM} {j r e d : Nat} (hj : j < gms.length) (h : d ∈ vecAt gms j r e) : Occurs gms[j] d := by
  unfold vecAt at h
  rw [List.getD_eq_getElem _ _ hj] at h
  cases hv : getVec gms[j] r e with
  | none => rw [hv] at h; simp at h
  | some v => rw [hv] at h; exact ⟨r, e, v, hv, h⟩

theorem vecAt_length {nR : Nat} {fs : List (Form K)} {get : Nat → Nat → Option (List Nat)} {code : Nat → Nat → Nat}
    (hc : Chains nR fs get code) (hp : ∀ f ∈ fs, Proper f) {r e j : Nat} (he : e ∈ elements ((fs.map Form.gm).headD []) r)
    (hj : j < fs.length) : getVec fs[j].gm r e = some (vecAt (fs.map Form.gm) j r e) ∧
      (vecAt (fs.map Form.gm) j r e).length = fs[j].nb := by
  obtain ⟨v, _, hv⟩ := hc.get r e he
  have h := chained_getVec hv j (by simpa using hj)
  rw [List.getElem_map] at h
  refine ⟨h, ?_⟩
  have hm := mem_of_lookup h
  have hr : r < fs[j].gm.length := by
    by_contra hr
    rw [List.getD_eq_default _ _ (by omega)] at hm
    simp at hm
  rw [List.getD_eq_getElem _ _ hr] at hm
  exact (hp _ (List.getElem_mem hj)).len _ (List.getElem_mem hr) _ hm

theorem agree_of_els {g : GM} (hd : DictLike g) {nR : Nat} (hl : g.length = nR) (els : Nat → List Nat)
    (hs : ∀ r e, e ∈ els r ↔ e ∈ elements g r) (c : Nat → K) :
    Agree g ((List.range nR).map fun r => (els r).map fun e => (e, ((getVec g r e).getD []).map c)) c := by
  unfold Agree
  rw [List.forall₂_iff_get]
  refine ⟨by simp [hl], ?_⟩
  intro r h1 h2 p hp
  simp only [List.get_eq_getElem, List.getElem_map, List.getElem_range] at hp ⊢
  have hlk : getVec g r p.1 = some p.2 := by
    unfold getVec
    rw [List.getD_eq_getElem _ _ h1]
    exact lookup_of_nodup (hd _ (List.getElem_mem h1)) hp
  have he : p.1 ∈ els r := by
    rw [hs]
    unfold elements
    rw [List.getD_eq_getElem _ _ h1]
    exact List.mem_map.2 ⟨p, hp, rfl⟩
  rw [lookup_map_mem (fun e => ((getVec g r e).getD []).map c) (els r) p.1 he, hlk]
  rfl

/-- distributing by a numbering of all forms. -/
theorem distAll {nR : Nat} {fs : List (Form K)} {get : Nat → Nat → Option (List Nat)} {code : Nat → Nat → Nat}
    (hc : Chains nR fs get code) (hp : ∀ f ∈ fs, Proper f) {V : List K}
    (hV : ∀ j d, ∀ h : j < fs.length, Occurs fs[j].gm d → code j d < V.length) :
    ∃ fs', ((allLocal get ((fs.map Form.gm).headD []) V).bind fun all => giveSlices all 0 fs) = some fs' ∧ Received code V fs fs' := by
  obtain ⟨els, hels⟩ : ∃ els, els = elements ((fs.map Form.gm).headD []) := ⟨_, rfl⟩
  have h0 : ((fs.map Form.gm).headD []).length = nR := by
    obtain ⟨f, fs', rfl⟩ := List.exists_cons_of_ne_nil hc.ne
    exact hc.cores f (by simp)
  obtain ⟨Bs, hBs⟩ : ∃ Bs : List (Nat → Nat → List K), Bs = (List.range fs.length).map fun j r e =>
      (vecAt (fs.map Form.gm) j r e).map fun d => V.getD (code j d) 0 := ⟨_, rfl⟩
  have hall : allLocal get ((fs.map Form.gm).headD []) V =
      some ((List.range nR).map fun r => (els r).map fun e => (e, [] ++ (Bs.map fun B => B r e).flatten)) := by
    unfold allLocal
    rw [h0]
    apply Mifem.Asm.mapM_eq_map
    intro r hr
    rw [← hels]
    apply Mifem.Asm.mapM_eq_map
    intro e he
    rw [hels] at he
    obtain ⟨v, hv, hch⟩ := hc.get r e he
    have hvr := chained_range hch
    rw [List.length_map] at hvr
    rw [hv, Option.bind_some, Mifem.Asm.mapM_eq_map (g := fun k => V.getD k 0), Option.map_some]
    · congr 2
      rw [List.nil_append, hBs, List.map_map, hvr, List.map_flatMap, List.flatMap_def]
      congr 1
      apply List.map_congr_left
      intro j _
      simp only [Function.comp_apply, List.map_map]
      rfl
    · intro k hk
      rw [hvr] at hk
      obtain ⟨j, hj, hk⟩ := List.mem_flatMap.1 hk
      obtain ⟨d, hd, rfl⟩ := List.mem_map.1 hk
      have hj' : j < fs.length := List.mem_range.1 hj
      have ho := occurs_of_vecAt (gms := fs.map Form.gm) (by simpa using hj') hd
      rw [List.getElem_map] at ho
      have := hV j d hj' ho
      simp [List.getD, this]
  rw [hall, Option.bind_some, giveSlices_eq nR els fs Bs (fun _ _ => []) 0 (fun _ _ _ _ => rfl)]
  · refine ⟨_, rfl, ?_, ?_⟩
    · rw [List.length_zipWith, hBs]; simp
    · intro j h h'
      rw [List.getElem_zipWith]
      refine ⟨_, rfl, ?_⟩
      have hf := List.getElem_mem h
      have := agree_of_els (hp _ hf).dict (hc.cores _ hf) els (by rw [hels]; exact hc.same _ hf) (fun d => V.getD (code j d) 0)
      convert this using 5 with r e
      subst hBs
      simp only [List.getElem_map, List.getElem_range]
      unfold vecAt
      rw [List.getD_eq_getElem _ _ (by simpa using h), List.getElem_map]
  · rw [List.forall₂_iff_get]
    refine ⟨by rw [hBs]; simp, ?_⟩
    intro j h1 h2 r hr e he
    subst hBs
    simp only [List.get_eq_getElem, List.getElem_map, List.getElem_range, List.length_map]
    rw [hels] at he
    exact (vecAt_length hc hp he h1).2

/-! ## Chains as method -/

theorem chainOf_gms {nR : Nat} {fs : List (Form K)} {c : Chain} (h : chainOf nR fs = some c) : c.gms = fs.map Form.gm := by
  rw [(mkChain_spec h).1, List.flatMap_map]
  clear h
  induction fs with
  | nil => rfl
  | cons f fs ih => rw [List.flatMap_cons, ih]; rfl

theorem chainOf_ns {nR : Nat} {fs : List (Form K)} {c : Chain} (h : chainOf nR fs = some c) (hp : ∀ f ∈ fs, Proper f) :
    c.ns = fs.map Form.n := by
  have h1 := (c01_total h).2
  rw [chainOf_gms h, List.mapM_map, Mifem.Asm.mapM_eq_map (f := globalNumDofs ∘ Form.gm) (g := Form.n)
    (fun f hf => (hp f hf).num), Option.some.injEq] at h1
  exact h1.symm

/-- the conditions on the chain of the forms hold for a numbering of all dofs. -/
theorem chains_of {nR : Nat} {fs : List (Form K)} {c : Chain} (h : chainOf nR fs = some c) (hp : ∀ f ∈ fs, Proper f)
    (hR : ∀ f ∈ fs, f.gm.length = nR) {get : Nat → Nat → Option (List Nat)} {code : Nat → Nat → Nat}
    (hget : ∀ g ∈ c.gms, ∀ r e, e ∈ elements g r → ∃ v, get r e = some v ∧ ChainedAs code c.gms r e v) :
    Chains nR fs get code := by
  have hg := chainOf_gms h
  have hne : fs ≠ [] := by
    rintro rfl
    simp [chainOf, mkChain] at h
  have hwf : WellFormed nR c.gms := by
    intro g hgm
    rw [hg] at hgm
    obtain ⟨f, hf, rfl⟩ := List.mem_map.1 hgm
    exact ⟨(hp f hf).dict, hR f hf⟩
  refine ⟨hne, hR, ?_, ?_⟩
  · intro f hf r e
    have := sameElements_spec (mkChain_spec h).2.1 (fun g hg => (hwf g hg).1) (fun g hg => (hwf g hg).2) f.gm
      (by rw [hg]; exact List.mem_map_of_mem hf) r e
    rwa [hg] at this
  · intro r e he
    obtain ⟨f, fs', rfl⟩ := List.exists_cons_of_ne_nil hne
    have := hget f.gm (by rw [hg]; simp) r e (by simpa using he)
    rwa [hg] at this

theorem wellFormed_of {nR : Nat} {fs : List (Form K)} {c : Chain} (h : chainOf nR fs = some c) (hp : ∀ f ∈ fs, Proper f)
    (hR : ∀ f ∈ fs, f.gm.length = nR) : WellFormed nR c.gms := by
  intro g hgm
  rw [chainOf_gms h] at hgm
  obtain ⟨f, hf, rfl⟩ := List.mem_map.1 hgm
  exact ⟨(hp f hf).dict, hR f hf⟩

theorem take_sum_lt {l : List Nat} : ∀ {j d : Nat} (h : j < l.length), d < l[j] → d + (l.take j).sum < l.sum := by
  intro j d h hd
  have h1 : (l.take (j + 1)).sum = (l.take j).sum + l[j] := by rw [List.take_succ_eq_append_getElem h, List.sum_append, List.sum_singleton]
  have h2 : (l.take (j + 1)).sum + (l.drop (j + 1)).sum = l.sum := by rw [← List.sum_append, List.take_append_drop]
  omega

/-- filling form after form. -/
def fillAt (V : List K) : Nat → List (Form K) → List (Form K)
  | _, [] => []
  | i, f :: fs => filled f (fun d => V.getD (d + i) 0) :: fillAt V (i + f.n) fs

theorem give_fillAt (V : List K) (nd : Nat) : ∀ (fs : List (Form K)) (i : Nat), (∀ f ∈ fs, Proper f) →
    i + (fs.map Form.n).sum ≤ V.length → give V nd i (fs.map some) = some ((fillAt V i fs).map some)
  | [], _, _, _ => rfl
  | f :: fs, i, hp, h => by
    rw [List.map_cons, List.sum_cons] at h
    rw [List.map_cons, give, setFull_eq (hp f (by simp)) (fun d => V.getD (d + i) 0), Option.bind_some,
      give_fillAt V nd fs (i + f.n) (fun g hg => hp g (by simp [hg])) (by omega)]
    · rfl
    · intro d hd
      have : d + i < V.length := by omega
      rw [List.getElem?_take, if_pos hd, List.getElem?_drop, Nat.add_comm i d]
      simp [List.getD, this]

theorem fillAt_get (V : List K) : ∀ (fs : List (Form K)) (i j : Nat) (h : j < fs.length) (h' : j < (fillAt V i fs).length),
    (fillAt V i fs)[j] = filled fs[j] fun d => V.getD (d + (i + ((fs.map Form.n).take j).sum)) 0
  | f :: fs, i, 0, _, _ => by simp [fillAt]
  | f :: fs, i, j + 1, h, h' => by
    simp only [fillAt, List.getElem_cons_succ]
    rw [fillAt_get V fs (i + f.n) j (by simpa using h)]
    simp only [List.map_cons, List.take_succ_cons, List.sum_cons, Nat.add_assoc]

theorem fillAt_length (V : List K) : ∀ (fs : List (Form K)) (i : Nat), (fillAt V i fs).length = fs.length
  | [], _ => rfl
  | f :: fs, i => by simp [fillAt, fillAt_length V fs]

/-- **The silly chain as method.** Distributing by the chain of the forms with method 'silly' is the same as distributing the
forms one after the other: every form receives the entries from the sum of the dofs of the forms before it onwards. -/
theorem c101_silly_chain (nR : Nat) (fs : List (Form K)) (hp : ∀ f ∈ fs, Proper f) (hR : ∀ f ∈ fs, f.gm.length = nR) (c : Chain)
    (h : chainOf nR fs = some c) (V : List K) (hV : (fs.map Form.n).sum ≤ V.length) :
    ∃ fs' fs'', distChain nR .silly c V fs = some fs' ∧ distSilly V (fs.map some) = some (fs''.map some) ∧
      Received (fun j d => d + ((fs.map Form.n).take j).sum) V fs fs' ∧
      Received (fun j d => d + ((fs.map Form.n).take j).sum) V fs fs'' := by
  have hwf := wellFormed_of h hp hR
  have hch := chains_of h hp hR (get := c.get) (code := fun j d => d + (c.ns.take j).sum)
    (fun g hg r e he => c01_get h hwf g hg r e he)
  rw [chainOf_ns h hp] at hch
  obtain ⟨fs', h1, h2⟩ := distAll hch hp (V := V) (by
    intro j d hj ho
    have hd := (globalNumDofs_spec (hp _ (List.getElem_mem hj)).dict (hp _ (List.getElem_mem hj)).num).2.2 d ho
    have := take_sum_lt (l := fs.map Form.n) (j := j) (d := d) (by simpa using hj) (by simpa using hd)
    omega)
  refine ⟨fs', fillAt V 0 fs, ?_, ?_, h2, ?_⟩
  · unfold distChain
    rw [if_pos (by rw [chainOf_gms h]; simp), chainOf_gms h]
    exact h1
  · unfold distSilly
    rw [countP_some]
    exact give_fillAt V 0 fs 0 hp (by omega)
  · refine ⟨fillAt_length V fs 0, ?_⟩
    intro j hj hj'
    rw [fillAt_get V fs 0 j hj]
    simp only [Nat.zero_add]
    exact ⟨_, rfl, localOf_agree _ (hp _ (List.getElem_mem hj)).dict _⟩

/-! ## The method 'sequent' -/

theorem zip_flatMap {α β γ : Type} (f : α → List β) (g : α → List γ) : ∀ l : List α, (∀ a ∈ l, (f a).length = (g a).length) →
    (l.flatMap f).zip (l.flatMap g) = l.flatMap fun a => (f a).zip (g a)
  | [], _ => rfl
  | a :: l, h => by
    rw [List.flatMap_cons, List.flatMap_cons, List.flatMap_cons, List.zip_append (h a (by simp)),
      zip_flatMap f g l fun b hb => h b (by simp [hb])]

theorem sum_flatMap {α β : Type} (f : α → List β) (w : β → K) (l : List α) :
    ((l.flatMap f).map w).sum = (l.map fun a => ((f a).map w).sum).sum := by
  induction l with
  | nil => rfl
  | cons a l ih => simp [List.flatMap_cons, ih]

theorem sum_ite_count (l : List Nat) (code : Nat → Nat) (d : Nat) (w : Nat → K) (hinj : ∀ x ∈ l, code x = code d → x = d) :
    (l.map fun x => if code x = code d then w x else 0).sum = (l.count d : K) * w d := by
  induction l with
  | nil => simp
  | cons x l ih =>
    rw [List.map_cons, List.sum_cons, ih (fun y hy => hinj y (by simp [hy])), List.count_cons]
    by_cases hx : x = d
    · subst hx
      simp
      ring
    · have : code x ≠ code d := fun h => hx (hinj x (by simp) h)
      simp [hx, this]

theorem localVec_eq {nR : Nat} {fs : List (Form K)} {get : Nat → Nat → Option (List Nat)} {code : Nat → Nat → Nat}
    (hch : Chains nR fs get code) (hp : ∀ f ∈ fs, Proper f) {r e : Nat} (he : e ∈ elements ((fs.map Form.gm).headD []) r)
    {j : Nat} (hj : j < fs.length) {c : Nat → K} (hc : Coeffs fs[j] c) :
    localVec fs[j] r e = some ((vecAt (fs.map Form.gm) j r e).map c) := by
  obtain ⟨hv, hl⟩ := vecAt_length hch hp he hj
  unfold localVec
  rcases hc with ⟨loc, hloc, ha⟩ | ⟨hloc, hz⟩
  · rw [hloc]
    simp only
    unfold Agree at ha
    rw [List.forall₂_iff_get] at ha
    have hm := mem_of_lookup hv
    have hr : r < fs[j].gm.length := by
      by_contra hr
      rw [List.getD_eq_default _ _ (by omega)] at hm
      simp at hm
    rw [List.getD_eq_getElem _ _ hr] at hm
    have := ha.2 r hr (by omega) _ (by simpa using hm)
    rw [List.getD_eq_getElem _ _ (by omega)]
    simpa using this
  · rw [hloc]
    simp only [Option.some.injEq]
    apply List.ext_getElem
    · simp [hl]
    · intro i h1 h2
      simp [hz]

theorem contributions_eq {nR : Nat} {fs : List (Form K)} {get : Nat → Nat → Option (List Nat)} {code : Nat → Nat → Nat}
    (hch : Chains nR fs get code) (hp : ∀ f ∈ fs, Proper f) (c : Nat → Nat → K) (hc : ∀ j, ∀ h : j < fs.length, Coeffs fs[j] (c j)) :
    contributions get ((fs.map Form.gm).headD []) fs = some ((List.range nR).flatMap fun r =>
      (elements ((fs.map Form.gm).headD []) r).flatMap fun e => (List.range fs.length).flatMap fun j =>
        (vecAt (fs.map Form.gm) j r e).map fun d => (code j d, c j d)) := by
  have h0 : ((fs.map Form.gm).headD []).length = nR := by
    obtain ⟨f, fs', rfl⟩ := List.exists_cons_of_ne_nil hch.ne
    exact hch.cores f (by simp)
  unfold contributions
  rw [h0, Mifem.Asm.mapM_eq_map (g := fun r => (elements ((fs.map Form.gm).headD []) r).flatMap fun e =>
    (List.range fs.length).flatMap fun j => (vecAt (fs.map Form.gm) j r e).map fun d => (code j d, c j d)), Option.map_some,
    ← List.flatMap_def]
  intro r _
  rw [Mifem.Asm.mapM_eq_map (g := fun e => (List.range fs.length).flatMap fun j =>
    (vecAt (fs.map Form.gm) j r e).map fun d => (code j d, c j d)), Option.map_some, ← List.flatMap_def]
  intro e he
  obtain ⟨v, hv, hcv⟩ := hch.get r e he
  have hvr := chained_range hcv
  rw [List.length_map] at hvr
  have hcl : concatLocal fs r e = some ((List.range fs.length).flatMap fun j => (vecAt (fs.map Form.gm) j r e).map (c j)) := by
    unfold concatLocal
    have : fs.mapM (fun f => localVec f r e) = some ((List.range fs.length).map fun j => (vecAt (fs.map Form.gm) j r e).map (c j)) := by
      rw [Gath.mapM_some_iff]
      refine ⟨by simp, ?_⟩
      intro i h1 h2
      rw [localVec_eq hch hp he h1 (hc i h1)]
      simp
    rw [this, Option.map_some, ← List.flatMap_def]
  have hlen : ∀ j ∈ List.range fs.length, ((vecAt (fs.map Form.gm) j r e).map (code j)).length =
      ((vecAt (fs.map Form.gm) j r e).map (c j)).length := by intro j _; simp
  rw [hv, Option.bind_some, hcl, Option.bind_some, hvr, zip_flatMap _ _ _ hlen, if_pos]
  · congr 2
    funext j
    rw [List.zip_map']
  · rw [List.length_flatMap, List.length_flatMap]
    congr 1
    apply List.map_congr_left
    exact hlen

end Mifem.Props.FV101
