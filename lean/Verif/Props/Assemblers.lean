import Verif.Lemmas.Assemblers
import Mathlib.Algebra.Ring.Int.Defs
import Mathlib.Data.Int.Order.Basic
import Mathlib.Data.List.Lookmap

/-!
# C19, C20: local assemblers and distributors
-/

namespace Mifem.Props
open Mifem.Assemblers

variable {κ R : Type} [DecidableEq κ]

/-- Data fits a gathering matrix: the same number of items, and for every vector of numbers as many values. -/
def Fits (G : List (κ × List Nat)) (D : List (κ × List R)) : Prop :=
  D.length = G.length ∧ ∀ p ∈ G, ∃ d, D.lookup p.1 = some d ∧ d.length = p.2.length

/-- Data is consistent: values with the same number are the same. -/
def Consistent (G : List (κ × List Nat)) (D : List (κ × List R)) : Prop :=
  ∀ p ∈ G, ∀ q ∈ G, ∀ d e, D.lookup p.1 = some d → D.lookup q.1 = some e →
    ∀ k a b, (k, a) ∈ p.2.zip d → (k, b) ∈ q.2.zip e → a = b

theorem replace_fold [Add R] [Zero R] (G : List (κ × List Nat)) (D : List (κ × List R)) (out : List R)
    (hf : ∀ p ∈ G, ∃ d, D.lookup p.1 = some d ∧ d.length = p.2.length) (hb : ∀ p ∈ G, ∀ k ∈ p.2, k < out.length) :
    G.foldlM (fun out p => (D.lookup p.1).bind fun d => putAt .replace out p.2 d) out =
      some ((G.flatMap fun p => p.2.zip ((D.lookup p.1).getD [])).foldl (fun o p => o.set p.1 p.2) out) := by
  induction G generalizing out with
  | nil => rfl
  | cons p G ih =>
    obtain ⟨d, hd, hl⟩ := hf p (by simp)
    rw [List.foldlM_cons, hd]
    simp only [Option.bind_some, putAt]
    rw [setAt_some out p.2 d (hb p (by simp)) hl]
    simp only [Option.bind_eq_bind, Option.bind_some]
    refine (ih _ (fun q hq => hf q (by simp [hq])) (fun q hq k hk => by
      rw [foldl_set_length]; exact hb q (by simp [hq]) k hk)).trans ?_
    rw [List.flatMap_cons, List.foldl_append, hd]
    rfl

/-- **C19, replace.** Assembling consistent data gives an array that has, at every number, the value of the data. -/
theorem c19_replace [Add R] [Zero R] {G : List (κ × List Nat)} {n : Nat} (hc : check G = some n) {D : List (κ × List R)}
    (hf : Fits G D) (hcon : Consistent G D) :
    ∃ v, vecAssemble .replace G D = some v ∧ v.length = n ∧
      ∀ p ∈ G, ∀ d, D.lookup p.1 = some d → ∀ k a, (k, a) ∈ p.2.zip d → v[k]? = some a := by
  obtain ⟨hpos, hne, hall⟩ := check_spec hc
  unfold vecAssemble
  rw [hc]
  simp only [Option.bind_some]
  rw [if_pos hf.1, replace_fold G D _ hf.2 (fun p hp k hk => by
    rw [List.length_replicate]; exact (hall k).mp ⟨p, hp, hk⟩)]
  refine ⟨_, rfl, by rw [foldl_set_length, List.length_replicate], ?_⟩
  intro p hp d hd k a hka
  apply foldl_set_eq
  · rw [List.length_replicate]; exact (hall k).mp ⟨p, hp, (List.of_mem_zip hka).1⟩
  · rintro ⟨k', b⟩ hb rfl
    obtain ⟨q, hq, hqb⟩ := List.mem_flatMap.mp hb
    obtain ⟨e, he, _⟩ := hf.2 q hq
    rw [he] at hqb
    exact hcon q hq p hp e d he hd _ _ _ hqb hka
  · exact ⟨(k, a), List.mem_flatMap.mpr ⟨p, hp, by rw [hd]; exact hka⟩, rfl⟩

theorem mapM_eq_some {α β : Type} (f : α → Option β) (g : α → β) (l : List α) (h : ∀ a ∈ l, f a = some (g a)) :
    l.mapM f = some (l.map g) := by
  induction l with
  | nil => rfl
  | cons a l ih =>
    rw [List.mapM_cons, h a (by simp), ih (fun b hb => h b (by simp [hb]))]
    rfl

theorem lookup_map_self {α : Type} (G : List (κ × α)) (hk : (G.map Prod.fst).Nodup) {β : Type} (g : κ × α → β) (p : κ × α)
    (hp : p ∈ G) : (G.map fun q => (q.1, g q)).lookup p.1 = some (g p) := by
  induction G with
  | nil => simp at hp
  | cons q G ih =>
    simp only [List.map_cons, List.nodup_cons] at hk
    rw [List.map_cons, List.lookup_cons]
    rcases List.mem_cons.mp hp with rfl | hp'
    · simp
    · have : p.1 ≠ q.1 := by
        intro he
        exact hk.1 (he ▸ List.mem_map.mpr ⟨p, hp', rfl⟩)
      have hb : (p.1 == q.1) = false := by simpa using this
      rw [hb]
      exact ih hk.2 hp'

/-- **C19.** Distributing an array and assembling the parts in mode 'replace' returns the array. -/
theorem c19_distribute_assemble [Add R] [Zero R] {G : List (κ × List Nat)} (hk : (G.map Prod.fst).Nodup) {n : Nat}
    (hc : check G = some n) (v : List R) (hv : v.length = n) :
    ∃ D, vecDistribute G v = some D ∧ Fits G D ∧ vecAssemble .replace G D = some v := by
  obtain ⟨hpos, hne, hall⟩ := check_spec hc
  have hdist : vecDistribute G v = some (G.map fun p => (p.1, p.2.map fun k => v.getD k 0)) := by
    unfold vecDistribute
    rw [hc]
    simp only [Option.bind_some]
    rw [if_pos hv]
    apply mapM_eq_some
    intro p hp
    rw [mapM_eq_some (fun k => v[k]?) (fun k => v.getD k 0)]
    · rfl
    · intro k hkp
      have : k < v.length := by rw [hv]; exact (hall k).mp ⟨p, hp, hkp⟩
      simp [this]
  have hlook : ∀ p ∈ G, (G.map fun p => (p.1, p.2.map fun k => v.getD k 0)).lookup p.1 =
      some (p.2.map fun k => v.getD k 0) := fun p hp => lookup_map_self G hk (fun q => q.2.map fun k => v.getD k 0) p hp
  have hval : ∀ (l : List Nat) k a, (k, a) ∈ l.zip (l.map fun k => v.getD k 0) → a = v.getD k 0 := by
    intro l k a h
    induction l with
    | nil => simp at h
    | cons x l ih =>
      simp only [List.map_cons, List.zip_cons_cons, List.mem_cons, Prod.mk.injEq] at h
      rcases h with ⟨rfl, rfl⟩ | h
      · rfl
      · exact ih h
  have hfits : Fits G (G.map fun p => (p.1, p.2.map fun k => v.getD k 0)) :=
    ⟨by simp, fun p hp => ⟨_, hlook p hp, by simp⟩⟩
  refine ⟨_, hdist, hfits, ?_⟩
  obtain ⟨w, hw, hwl, hwv⟩ := c19_replace hc hfits (by
    intro p hp q hq d e hd he k a b ha hb
    rw [hlook p hp] at hd
    rw [hlook q hq] at he
    simp only [Option.some.injEq] at hd he
    subst hd he
    rw [hval _ _ _ ha, hval _ _ _ hb])
  rw [hw]
  congr 1
  apply List.ext_getElem?
  intro k
  by_cases hkn : k < n
  · obtain ⟨p, hp, hkp⟩ := (hall k).mpr hkn
    have hmem : (k, v.getD k 0) ∈ p.2.zip (p.2.map fun k => v.getD k 0) := by
      clear hp
      revert hkp
      generalize p.2 = l
      intro hkp
      induction l with
      | nil => simp at hkp
      | cons x l ih =>
        simp only [List.map_cons, List.zip_cons_cons, List.mem_cons, Prod.mk.injEq]
        rcases List.mem_cons.mp hkp with rfl | h
        · exact Or.inl ⟨rfl, rfl⟩
        · exact Or.inr (ih h)
    rw [hwv p hp _ (hlook p hp) k _ hmem]
    have : k < v.length := by omega
    simp [this]
  · rw [List.getElem?_eq_none (by omega), List.getElem?_eq_none (by omega)]

/-- **C19.** Assembling consistent data in mode 'replace' and distributing the array returns the data. -/
theorem c19_assemble_distribute [Add R] [Zero R] {G : List (κ × List Nat)} (hk : (G.map Prod.fst).Nodup) {n : Nat}
    (hc : check G = some n) {D : List (κ × List R)} (hf : Fits G D) (hcon : Consistent G D) :
    ∃ v D', vecAssemble .replace G D = some v ∧ vecDistribute G v = some D' ∧
      D'.map Prod.fst = G.map Prod.fst ∧ ∀ p ∈ G, D'.lookup p.1 = D.lookup p.1 := by
  obtain ⟨v, hv, hvl, hvv⟩ := c19_replace hc hf hcon
  have hdist : vecDistribute G v = some (G.map fun p => (p.1, (D.lookup p.1).getD [])) := by
    unfold vecDistribute
    rw [hc]
    simp only [Option.bind_some]
    rw [if_pos hvl]
    apply mapM_eq_some
    intro p hp
    obtain ⟨d, hd, hl⟩ := hf.2 p hp
    have hvp := hvv p hp d hd
    rw [hd]
    simp only [Option.getD_some]
    have : ∀ (l : List Nat) (d : List R), d.length = l.length → (∀ k a, (k, a) ∈ l.zip d → v[k]? = some a) →
        l.mapM (fun k => v[k]?) = some d := by
      intro l
      induction l with
      | nil => intro d hl _; rw [List.length_nil] at hl; rw [List.length_eq_zero_iff.mp hl]; rfl
      | cons x l ih =>
        intro d hl h
        cases d with
        | nil => simp at hl
        | cons a d =>
          rw [List.mapM_cons, h x a (by simp), ih d (by simpa using hl) (fun k b hb => h k b (by simp [hb]))]
          rfl
    rw [this p.2 d hl hvp]
    rfl
  refine ⟨v, _, hv, hdist, by simp [Function.comp_def], ?_⟩
  intro p hp
  rw [lookup_map_self G hk (fun q => (D.lookup q.1).getD []) p hp]
  obtain ⟨d, hd, _⟩ := hf.2 p hp
  rw [hd]
  rfl

/-- **C19, add (partial).** If no vector has a number twice, the value at `k` is the sum of all values with number `k`.
Missing: vectors with repeated numbers (`c19_counterexample`). -/
theorem c19_add_partial [AddCommMonoid R] {G : List (κ × List Nat)} {n : Nat} (hc : check G = some n) {D : List (κ × List R)}
    (hf : Fits G D) (hn : ∀ p ∈ G, p.2.Nodup) :
    ∃ v, vecAssemble .add G D = some v ∧ v.length = n ∧
      ∀ k, v.getD k 0 = (G.map fun p => ((p.2.zip ((D.lookup p.1).getD [])).map fun x => if x.1 = k then x.2 else 0).sum).sum := by
  obtain ⟨hpos, hne, hall⟩ := check_spec hc
  unfold vecAssemble
  rw [hc]
  simp only [Option.bind_some]
  rw [if_pos hf.1]
  have key : ∀ (G' : List (κ × List Nat)) (out : List R), (∀ p ∈ G', p ∈ G) → out.length = n →
      ∃ v, G'.foldlM (fun out p => (D.lookup p.1).bind fun d => putAt .add out p.2 d) out = some v ∧ v.length = n ∧
        ∀ k, v.getD k 0 = out.getD k 0 + (G'.map fun p => contrib p.2 ((D.lookup p.1).getD []) k).sum := by
    intro G'
    induction G' with
    | nil => intro out _ hl; exact ⟨out, rfl, hl, by simp⟩
    | cons p G' ih =>
      intro out hsub hl
      have hpG := hsub p (by simp)
      obtain ⟨d, hd, hdl⟩ := hf.2 p hpG
      obtain ⟨o, ho, hol, hok⟩ := addAt_spec out p.2 d (fun k hk => by
        rw [hl]; exact (hall k).mp ⟨p, hpG, hk⟩) hdl (hn p hpG)
      obtain ⟨v, hv, hvl, hvk⟩ := ih o (fun q hq => hsub q (by simp [hq])) (by omega)
      refine ⟨v, ?_, hvl, ?_⟩
      · rw [List.foldlM_cons, hd]
        simp only [Option.bind_some, putAt, ho, Option.bind_eq_bind]
        exact hv
      · intro k
        rw [hvk, hok, List.map_cons, List.sum_cons, hd, add_assoc]
        rfl
  obtain ⟨v, hv, hvl, hvk⟩ := key G (List.replicate n 0) (fun _ h => h) (by simp)
  refine ⟨v, hv, hvl, ?_⟩
  intro k
  rw [hvk]
  have : (List.replicate n (0 : R)).getD k 0 = 0 := by
    rw [List.getD_eq_getElem?_getD, List.getElem?_replicate]
    split <;> rfl
  rw [this, zero_add]
  rfl

/-- **C19 is false for 'add' with repeated numbers**: the second contribution of the vector replaces the first. -/
theorem c19_counterexample : vecAssemble .add [(0, [0, 0, 1])] [((0 : Nat), [(1 : Int), 1, 1])] = some [1, 1] := by decide

/-- Two vectors sharing the number 1: the checker accepts, consistent data comes back, and contributions add up. -/
example : check [(0, [0, 1]), (1, [1, 2])] = some 3 ∧
    vecAssemble .replace [(0, [0, 1]), (1, [1, 2])] [(0, [(5 : Int), 6]), (1, [6, 7])] = some [5, 6, 7] ∧
    vecDistribute [(0, [0, 1]), (1, [1, 2])] [(5 : Int), 6, 7] = some [(0, [5, 6]), (1, [6, 7])] ∧
    vecAssemble .add [(0, [0, 1]), (1, [1, 2])] [(0, [(5 : Int), 6]), (1, [6, 7])] = some [5, 12, 7] := by decide

/-! ## C20 -/

/-- the entry of a list of rows. -/
def entry [Zero R] (A : List (List R)) (r c : Nat) : R := (A.getD r []).getD c 0

/-- the contributions of one local matrix to an entry. -/
def mcontrib [AddCommMonoid R] (g0 g1 : List Nat) (d : List (List R)) (r c : Nat) : R :=
  ((g0.zip d).map fun x => if x.1 = r then ((g1.zip x.2).map fun y => if y.1 = c then y.2 else 0).sum else 0).sum

/-- local matrices fit: one for every key, with the right numbers of rows and columns. -/
def MFits (G0 G1 : List (κ × List Nat)) (D : List (κ × List (List R))) : Prop :=
  G0.length = G1.length ∧ D.length = G0.length ∧
  ∀ p ∈ G0, ∃ g1 d, G1.lookup p.1 = some g1 ∧ D.lookup p.1 = some d ∧ d.length = p.2.length ∧ ∀ row ∈ d, row.length = g1.length

theorem putRows_spec [AddCommMonoid R] (g1 : List Nat) (hn : g1.Nodup) (n0 n1 : Nat) (hb1 : ∀ k ∈ g1, k < n1) :
    ∀ (g0 : List Nat) (d out : List (List R)), d.length = g0.length → (∀ row ∈ d, row.length = g1.length) →
      (∀ k ∈ g0, k < n0) → out.length = n0 → (∀ row ∈ out, row.length = n1) →
      ∃ A, putRows .add g1 g0 d out = some A ∧ A.length = n0 ∧ (∀ row ∈ A, row.length = n1) ∧
        ∀ r c, entry A r c = entry out r c + mcontrib g0 g1 d r c := by
  intro g0
  induction g0 with
  | nil =>
    intro d out hd _ _ hl hr
    exact ⟨out, rfl, hl, hr, fun r c => by simp [mcontrib]⟩
  | cons m g0 ih =>
    intro d out hd hrow hb0 hl hr
    cases d with
    | nil => simp at hd
    | cons row d =>
      have hm : m < out.length := by rw [hl]; exact hb0 m (by simp)
      have hom : (out[m]).length = n1 := hr _ (List.getElem_mem hm)
      obtain ⟨o, ho, hol, hok⟩ := addAt_spec out[m] g1 row (fun k hk => by rw [hom]; exact hb1 k hk)
        (hrow row (by simp)) hn
      obtain ⟨A, hA, hAl, hAr, hAk⟩ := ih d (out.set m o) (by simpa using hd) (fun x hx => hrow x (by simp [hx]))
        (fun k hk => hb0 k (by simp [hk])) (by simpa using hl) (by
          intro x hx
          rcases List.mem_or_eq_of_mem_set hx with h | rfl
          · exact hr x h
          · omega)
      refine ⟨A, ?_, hAl, hAr, ?_⟩
      · simp only [putRows]
        rw [List.getElem?_eq_getElem hm]
        simp only [Option.bind_some, putAt, ho]
        exact hA
      · intro r c
        rw [hAk]
        have hstep : entry (out.set m o) r c = entry out r c + (if m = r then contrib g1 row c else 0) := by
          unfold entry
          by_cases hmr : m = r
          · subst hmr
            rw [if_pos rfl]
            have h1 : (out.set m o).getD m [] = o := by
              rw [List.getD_eq_getElem?_getD, List.getElem?_set_self hm]; rfl
            have h2 : out.getD m [] = out[m] := by
              rw [List.getD_eq_getElem?_getD, List.getElem?_eq_getElem hm]; rfl
            rw [h1, h2, hok]
          · rw [if_neg hmr, add_zero]
            have h1 : (out.set m o).getD r [] = out.getD r [] := by
              rw [List.getD_eq_getElem?_getD, List.getElem?_set_ne hmr, ← List.getD_eq_getElem?_getD]
            rw [h1]
        rw [hstep, add_assoc]
        rfl

/-- **C20 (partial).** For the formats 'array' and 'csr' the entry at `(r, c)` is the sum of all contributions to it, and
the matrix has as many rows and columns as there are dofs, if no vector of column numbers has a number twice. Missing: the
format 'csc', which is the transpose (`c20_csc`, `c20_counterexample`), and repeated column numbers. -/
theorem c20_add_partial [AddCommMonoid R] {G0 G1 : List (κ × List Nat)} {n0 n1 : Nat}
    (hc0 : check G0 = some n0) (hc1 : check (G0.map fun p => (p.1, (G1.lookup p.1).getD [])) = some n1)
    {D : List (κ × List (List R))} (hf : MFits G0 G1 D) (hn : ∀ p ∈ G1, p.2.Nodup) (f : Format) (hfmt : f ≠ .csc) :
    ∃ A, matCall .add f G0 G1 D = some A ∧ A.length = n0 ∧ (∀ row ∈ A, row.length = n1) ∧
      (∀ r c, entry A r c =
        (G0.map fun p => mcontrib p.2 ((G1.lookup p.1).getD []) ((D.lookup p.1).getD []) r c).sum) ∧
      matCall .add .csc G0 G1 D = some (transpose n1 A) := by
  obtain ⟨hpos0, hne0, hall0⟩ := check_spec hc0
  obtain ⟨hpos1, hne1, hall1⟩ := check_spec hc1
  have hlookmem : ∀ (L : List (κ × List Nat)) i g, L.lookup i = some g → (i, g) ∈ L := by
    intro L i g h
    induction L with
    | nil => simp at h
    | cons q L ih =>
      rw [List.lookup_cons] at h
      split at h
      · next he =>
        have : i = q.1 := by simpa using he
        simp only [Option.some.injEq] at h
        subst h this
        simp
      · exact List.mem_cons_of_mem _ (ih h)
  have key : ∀ (G' : List (κ × List Nat)) (out : List (List R)), (∀ p ∈ G', p ∈ G0) → out.length = n0 →
      (∀ row ∈ out, row.length = n1) →
      ∃ A, G'.foldlM (fun out p => (G1.lookup p.1).bind fun g1 => (D.lookup p.1).bind fun d => putRows .add g1 p.2 d out) out
          = some A ∧ A.length = n0 ∧ (∀ row ∈ A, row.length = n1) ∧
        ∀ r c, entry A r c = entry out r c +
          (G'.map fun p => mcontrib p.2 ((G1.lookup p.1).getD []) ((D.lookup p.1).getD []) r c).sum := by
    intro G'
    induction G' with
    | nil => intro out _ hl hr; exact ⟨out, rfl, hl, hr, by simp⟩
    | cons p G' ih =>
      intro out hsub hl hr
      have hpG := hsub p (by simp)
      obtain ⟨g1, d, hg1, hd, hdl, hdr⟩ := hf.2.2 p hpG
      obtain ⟨A, hA, hAl, hAr, hAk⟩ := putRows_spec g1 (hn _ (hlookmem _ _ _ hg1)) n0 n1 (fun k hk => by
          apply (hall1 k).mp
          refine ⟨(p.1, g1), List.mem_map.mpr ⟨p, hpG, by rw [hg1]; rfl⟩, hk⟩) p.2 d out hdl hdr
        (fun k hk => (hall0 k).mp ⟨p, hpG, hk⟩) hl hr
      obtain ⟨B, hB, hBl, hBr, hBk⟩ := ih A (fun q hq => hsub q (by simp [hq])) hAl hAr
      refine ⟨B, ?_, hBl, hBr, ?_⟩
      · rw [List.foldlM_cons, hg1, hd]
        simp only [Option.bind_some, hA, Option.bind_eq_bind]
        exact hB
      · intro r c
        rw [hBk, hAk, List.map_cons, List.sum_cons, hg1, hd, add_assoc]
        rfl
  obtain ⟨A, hA, hAl, hAr, hAk⟩ := key G0 (List.replicate n0 (List.replicate n1 0)) (fun _ h => h) (by simp) (by
    intro row hrow
    rw [List.eq_of_mem_replicate hrow, List.length_replicate])
  have hasm : matAssemble .add G0 G1 D = some A := by
    unfold matAssemble
    rw [hc0]
    simp only [Option.bind_some]
    have hG1 : ((G0.map Prod.fst).mapM fun i => (G1.lookup i).map fun g => (i, g)) =
        some (G0.map fun p => (p.1, (G1.lookup p.1).getD [])) := by
      rw [mapM_eq_some _ (fun i => (i, (G1.lookup i).getD []))]
      · rw [List.map_map]; rfl
      · intro i hi
        obtain ⟨p, hp, rfl⟩ := List.mem_map.mp hi
        obtain ⟨g1, d, hg1, _⟩ := hf.2.2 p hp
        rw [hg1]; rfl
    rw [hG1]
    simp only [Option.bind_some]
    rw [hc1]
    simp only [Option.bind_some]
    rw [if_pos ⟨hf.1, hf.2.1⟩]
    exact hA
  have hzero : ∀ r c, entry (List.replicate n0 (List.replicate n1 (0 : R))) r c = 0 := by
    intro r c
    unfold entry
    have hrow : (List.replicate n0 (List.replicate n1 (0 : R))).getD r [] = List.replicate n1 0 ∨
        (List.replicate n0 (List.replicate n1 (0 : R))).getD r [] = [] := by
      rw [List.getD_eq_getElem?_getD, List.getElem?_replicate]
      split
      · exact Or.inl rfl
      · exact Or.inr rfl
    rcases hrow with h | h
    · rw [h, List.getD_eq_getElem?_getD, List.getElem?_replicate]
      split <;> rfl
    · rw [h]; rfl
  refine ⟨A, ?_, hAl, hAr, ?_, ?_⟩
  · unfold matCall
    rw [hasm]
    cases f with
    | array => rfl
    | csr => rfl
    | csc => exact absurd rfl hfmt
  · intro r c
    rw [hAk, hzero, zero_add]
  · unfold matCall
    rw [hasm]
    simp only [Option.map_some, formatted]
    cases A with
    | nil => simp at hAl; omega
    | cons a A =>
      rw [List.headD_cons, hAr a (by simp)]

/-- **C20 is false for 'csc'**: a local matrix with one row and two columns gives a matrix with two rows and one column. -/
theorem c20_counterexample :
    matCall .add .csr [((0 : Nat), [0])] [(0, [0, 1])] [(0, [[(1 : Int), 2]])] = some [[1, 2]] ∧
    matCall .add .csc [((0 : Nat), [0])] [(0, [0, 1])] [(0, [[(1 : Int), 2]])] = some [[1], [2]] := by decide

/-- repeated column numbers: the second contribution replaces the first. -/
theorem c20_counterexample_repeat :
    matCall .add .csr [((0 : Nat), [0])] [(0, [0, 0])] [(0, [[(1 : Int), 2]])] = some [[2]] := by decide

/-- Two local matrices with different row and column numbers. -/
example : matCall .add .csr [((0 : Nat), [0, 1]), (1, [1, 0])] [(0, [2, 0]), (1, [0, 1])]
    [(0, [[(1 : Int), 2], [3, 4]]), (1, [[5, 6], [7, 8]])] = some [[9, 8, 1], [9, 6, 3]] := by decide

end Mifem.Props
