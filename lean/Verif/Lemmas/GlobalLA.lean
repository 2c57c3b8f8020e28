import Verif.Model.GlobalLA
import Mathlib.Algebra.BigOperators.Group.Finset.Basic
import Mathlib.Algebra.BigOperators.Group.Finset.Piecewise
import Mathlib.Algebra.BigOperators.Ring.Finset
import Mathlib.Algebra.BigOperators.Group.List.Basic
import Mathlib.Algebra.BigOperators.Ring.List

namespace Mifem.GlobalLA

variable {R : Type}

theorem mulVec_eq [Semiring R] (A : Sp R) (n : Nat) (h : ∀ e ∈ A.ents, e.2.1 < n) (v : Nat → R) (r : Nat) :
    mulVec A v r = ∑ c ∈ Finset.range n, A.at r c * v c := by
  unfold mulVec Sp.at
  revert h
  generalize A.ents = ents
  intro h
  induction ents with
  | nil => simp
  | cons e l ih =>
    simp only [List.map_cons, List.sum_cons]
    rw [ih (fun x hx => h x (by simp [hx]))]
    have he := h e (by simp)
    simp only [add_mul, Finset.sum_add_distrib]
    congr 1
    by_cases her : e.1 = r
    · simp only [her, true_and, if_true, ite_mul, zero_mul]
      rw [Finset.sum_ite_eq, if_pos (by simpa using he)]
    · simp [her]

theorem mulVec_congr [Semiring R] (A : Sp R) (v w : Nat → R) (h : ∀ e ∈ A.ents, v e.2.1 = w e.2.1) (r : Nat) :
    mulVec A v r = mulVec A w r := by
  unfold mulVec
  congr 1
  apply List.map_congr_left
  intro e he
  rw [h e he]

/-- the sum of products with one vector. -/
theorem sum_mul_vec [Semiring R] (l : List (Sp R)) (n r : Nat) (v : Nat → R) :
    (l.map fun M => ∑ c ∈ Finset.range n, M.at r c * v c).sum = ∑ c ∈ Finset.range n, (l.map fun M => M.at r c).sum * v c := by
  induction l with
  | nil => simp
  | cons M l ih =>
    simp only [List.map_cons, List.sum_cons, ih, add_mul, Finset.sum_add_distrib]

theorem at_of_empty [Semiring R] (A : Sp R) (h : A.ents = []) (r c : Nat) : A.at r c = 0 := by
  unfold Sp.at; rw [h]; rfl

theorem mul_at [Semiring R] (A B : Sp R) (n : Nat) (h : ∀ e ∈ A.ents, e.2.1 < n) (r c : Nat) :
    (A.mul B).at r c = ∑ k ∈ Finset.range n, A.at r k * B.at k c := by
  rw [← mulVec_eq A n h (fun k => B.at k c) r]
  unfold Sp.mul mulVec
  simp only [Sp.at]
  induction A.ents with
  | nil => simp
  | cons a l ih =>
    rw [List.flatMap_cons, List.map_append, List.sum_append, ih, List.map_cons, List.sum_cons]
    congr 1
    by_cases har : a.1 = r
    · rw [if_pos har]
      induction B.ents with
      | nil => simp
      | cons b m ihm =>
        rw [List.filter_cons]
        by_cases hb : b.1 = a.2.1
        · simp only [hb, beq_self_eq_true, if_true, List.map_cons, List.sum_cons, mul_add]
          rw [ihm]
          congr 1
          simp [har]
        · have : (b.1 == a.2.1) = false := by simpa using hb
          rw [if_neg (by simp [this]), List.map_cons, List.sum_cons, if_neg (fun hh => hb hh.1), zero_add]
          exact ihm
    · rw [if_neg har]
      apply List.sum_eq_zero
      intro x hx
      obtain ⟨y, hy, rfl⟩ := List.mem_map.mp hx
      obtain ⟨b, hb, rfl⟩ := List.mem_map.mp hy
      simp [har]

theorem add_at [Semiring R] (A B : Sp R) (r c : Nat) : (A.add B).at r c = A.at r c + B.at r c := by
  unfold Sp.at Sp.add
  simp

theorem sumParts_from [Semiring R] (l : List (Sp R)) (C : Sp R) :
    ∃ D, l.foldl (fun C M => match C with | none => some M | some C => some (C.add M)) (some C) = some D ∧
      (∀ r c, D.at r c = C.at r c + (l.map fun M => M.at r c).sum) ∧ D.fmt = C.fmt ∧
      D.ents = C.ents ++ l.flatMap Sp.ents := by
  induction l generalizing C with
  | nil => exact ⟨C, rfl, by simp, rfl, by simp⟩
  | cons M l ih =>
    obtain ⟨D, h1, h2, h3, h4⟩ := ih (C.add M)
    refine ⟨D, h1, ?_, by rw [h3]; rfl, ?_⟩
    · intro r c
      rw [h2, add_at, List.map_cons, List.sum_cons, add_assoc]
    · rw [h4]; simp [Sp.add]

theorem sumParts_some [Semiring R] (l : List (Sp R)) (hl : l ≠ []) :
    ∃ D, sumParts l = some D ∧ (∀ r c, D.at r c = (l.map fun M => M.at r c).sum) ∧
      (∀ M0, l.head? = some M0 → D.fmt = M0.fmt) ∧ D.ents = l.flatMap Sp.ents := by
  cases l with
  | nil => exact absurd rfl hl
  | cons M l =>
    obtain ⟨D, h1, h2, h3, h4⟩ := sumParts_from l M
    exact ⟨D, h1, by simpa using h2, by simpa using h3, by simpa using h4⟩

theorem overwrite_not_mem (v : Nat → R) (ents : List (Nat × R)) (i : Nat) (h : ∀ e ∈ ents, e.1 ≠ i) :
    overwrite v ents i = v i := by
  unfold overwrite
  induction ents generalizing v with
  | nil => rfl
  | cons e l ih =>
    rw [List.foldl_cons, ih _ (fun x hx => h x (by simp [hx])), if_neg (fun hh => h e (by simp) hh.symm)]

theorem overwrite_mem [Semiring R] (v : Nat → R) (ents : List (Nat × R)) (hn : (ents.map Prod.fst).Nodup) (i : Nat)
    (h : ∃ e ∈ ents, e.1 = i) : overwrite v ents i = (ents.map fun e => if e.1 = i then e.2 else 0).sum := by
  induction ents generalizing v with
  | nil => simp at h
  | cons e l ih =>
    simp only [List.map_cons, List.nodup_cons] at hn
    simp only [List.map_cons, List.sum_cons]
    have hfold : overwrite v (e :: l) = overwrite (fun i => if i = e.1 then e.2 else v i) l := rfl
    rw [hfold]
    by_cases he : e.1 = i
    · have hl : ∀ x ∈ l, x.1 ≠ i := by
        intro x hx hxi
        exact hn.1 (he ▸ hxi ▸ List.mem_map.mpr ⟨x, hx, rfl⟩)
      rw [overwrite_not_mem _ _ _ hl, if_pos he.symm, if_pos he]
      have : (l.map fun e => if e.1 = i then e.2 else 0).sum = 0 := by
        apply List.sum_eq_zero
        intro x hx
        obtain ⟨y, hy, rfl⟩ := List.mem_map.mp hx
        rw [if_neg (hl y hy)]
      rw [this, add_zero]
    · rw [if_neg he, zero_add]
      apply ih _ hn.2
      obtain ⟨x, hx, hxi⟩ := h
      rcases List.mem_cons.mp hx with rfl | hx
      · exact absurd hxi he
      · exact ⟨x, hx, hxi⟩

/-- an index is stored by a vector. -/
def Stored (v : SpVec R) (i : Nat) : Prop := ∃ e ∈ v.ents, e.1 = i

theorem at_not_stored [Semiring R] (v : SpVec R) (i : Nat) (h : ¬ Stored v i) : v.at i = 0 := by
  unfold SpVec.at
  apply List.sum_eq_zero
  intro x hx
  obtain ⟨e, he, rfl⟩ := List.mem_map.mp hx
  rw [if_neg (fun hh => h ⟨e, he, hh⟩)]

theorem fold_overwrite [Semiring R] (V : List (SpVec R)) (hn : ∀ v ∈ V, (v.ents.map Prod.fst).Nodup) (w : Nat → R) (i : Nat)
    (hd : V.Pairwise fun x y => ¬ (Stored x i ∧ Stored y i)) :
    (V.foldl (fun w x => overwrite w x.ents) w i) =
      (open Classical in if ∃ x ∈ V, Stored x i then (V.map fun x => x.at i).sum else w i) := by
  classical
  induction V generalizing w with
  | nil => simp
  | cons x V ih =>
    rw [List.pairwise_cons] at hd
    rw [List.foldl_cons, ih (fun v hv => hn v (by simp [hv])) _ hd.2]
    by_cases hV : ∃ y ∈ V, Stored y i
    · rw [if_pos hV]
      obtain ⟨y, hy, hyi⟩ := hV
      rw [if_pos ⟨y, by simp [hy], hyi⟩, List.map_cons, List.sum_cons]
      rw [at_not_stored x i (fun hx => hd.1 y hy ⟨hx, hyi⟩), zero_add]
    · rw [if_neg hV]
      have hz : (V.map fun x => x.at i).sum = 0 := by
        apply List.sum_eq_zero
        intro z hz
        obtain ⟨y, hy, rfl⟩ := List.mem_map.mp hz
        exact at_not_stored y i (fun hh => hV ⟨y, hy, hh⟩)
      by_cases hx : Stored x i
      · rw [if_pos ⟨x, by simp, hx⟩, List.map_cons, List.sum_cons, hz, add_zero]
        exact overwrite_mem w x.ents (hn x (by simp)) i hx
      · rw [if_neg, overwrite_not_mem _ _ _ (fun e he hh => hx ⟨e, he, hh⟩)]
        rintro ⟨y, hy, hyi⟩
        rcases List.mem_cons.mp hy with rfl | hy
        · exact hx hyi
        · exact hV ⟨y, hy, hyi⟩

theorem countP_le_one_pairwise {α : Type} (p : α → Bool) (l : List α) (h : l.countP p ≤ 1) :
    l.Pairwise fun x y => ¬ (p x = true ∧ p y = true) := by
  induction l with
  | nil => exact .nil
  | cons a l ih =>
    rw [List.pairwise_cons]
    rw [List.countP_cons] at h
    refine ⟨?_, ih (by omega)⟩
    rintro b hb ⟨ha, hb'⟩
    rw [if_pos ha] at h
    have : 0 < l.countP p := List.countP_pos_iff.mpr ⟨b, hb, hb'⟩
    omega

theorem distributed_pairwise (V : List (SpVec R)) (h : isDistributed V = true) (i : Nat) :
    V.Pairwise fun x y => ¬ (Stored x i ∧ Stored y i) := by
  by_cases hex : ∃ v ∈ V, Stored v i
  · obtain ⟨v, hv, e, he, hei⟩ := hex
    unfold isDistributed at h
    rw [List.all_eq_true] at h
    have h1 := h v hv
    rw [List.all_eq_true] at h1
    have h2 := h1 e he
    simp only [decide_eq_true_eq] at h2
    have := countP_le_one_pairwise _ _ h2
    apply this.imp
    rintro x y hxy ⟨⟨a, ha, hai⟩, ⟨b, hb, hbi⟩⟩
    apply hxy
    simp only [List.any_eq_true, beq_iff_eq]
    exact ⟨⟨a, ha, by omega⟩, ⟨b, hb, by omega⟩⟩
  · rw [List.pairwise_iff_forall_sublist]
    rintro a b hab ⟨ha, _⟩
    exact hex ⟨a, hab.subset (by simp), ha⟩

/-! ### gather_M_to_core -/

theorem T_at [Semiring R] (A : Sp R) (r c : Nat) : A.T.at r c = A.at c r := by
  unfold Sp.T Sp.at
  simp only [List.map_map]
  congr 1
  apply List.map_congr_left
  intro e _
  simp only [Function.comp_apply]
  by_cases h : e.1 = c ∧ e.2.1 = r
  · rw [if_pos h, if_pos ⟨h.2, h.1⟩]
  · rw [if_neg h, if_neg (fun hh => h ⟨hh.2, hh.1⟩)]

theorem T_T (A : Sp R) : A.T.T = A := by
  unfold Sp.T
  cases A with
  | mk fmt m n ents =>
    simp only [List.map_map]
    congr 1
    · cases fmt <;> rfl
    · conv_rhs => rw [← List.map_id ents]
      rfl

/-- all entries are inside the shape. -/
def Sp.Inside (A : Sp R) : Prop := ∀ e ∈ A.ents, e.1 < A.m ∧ e.2.1 < A.n

theorem inside_T {A : Sp R} (h : A.Inside) : A.T.Inside := by
  intro e he
  obtain ⟨f, hf, rfl⟩ := List.mem_map.mp he
  exact ⟨(h f hf).2, (h f hf).1⟩

theorem slice_at [Semiring R] (A : Sp R) (a b r c : Nat) :
    (A.rowSlice a b).at r c = if a + r < b then A.at (a + r) c else 0 := by
  unfold Sp.rowSlice Sp.at
  generalize A.ents = l
  simp only
  induction l with
  | nil => simp
  | cons e l ih =>
    rw [List.filter_cons, List.map_cons, List.sum_cons]
    by_cases h : a ≤ e.1 ∧ e.1 < b
    · rw [if_pos (by simpa using h), List.map_cons, List.map_cons, List.sum_cons, ih]
      by_cases hr : a + r < b
      · rw [if_pos hr, if_pos hr]
        congr 1
        simp only
        by_cases hh : e.1 = a + r ∧ e.2.1 = c
        · rw [if_pos hh, if_pos ⟨by omega, hh.2⟩]
        · rw [if_neg hh, if_neg (fun h' => hh ⟨by omega, h'.2⟩)]
      · rw [if_neg hr, if_neg hr, if_neg (fun h' => by simp only at h'; omega), add_zero]
    · rw [if_neg (by simpa using h), ih]
      by_cases hr : a + r < b
      · rw [if_pos hr, if_pos hr, if_neg (fun h' => h (by omega)), zero_add]
      · rw [if_neg hr, if_neg hr]

theorem slice_inside {A : Sp R} (h : A.Inside) (a b : Nat) : (A.rowSlice a b).Inside := by
  intro e he
  obtain ⟨f, hf, rfl⟩ := List.mem_map.mp he
  obtain ⟨hf1, hf2⟩ := List.mem_filter.mp hf
  simp at hf2
  refine ⟨?_, (h f hf1).2⟩
  show f.1 - a < b - a
  omega

theorem stack_at [Semiring R] (A S : Sp R) (r c : Nat) :
    Sp.at (⟨.csr, A.m + S.m, A.n, A.ents ++ S.ents.map fun e => (A.m + e.1, e.2)⟩ : Sp R) r c =
      A.at r c + if A.m ≤ r then S.at (r - A.m) c else 0 := by
  unfold Sp.at
  simp only [List.map_append, List.sum_append, List.map_map]
  congr 1
  generalize S.ents = l
  induction l with
  | nil => simp
  | cons e l ih =>
    rw [List.map_cons, List.sum_cons, ih, List.map_cons, List.sum_cons]
    simp only [Function.comp_apply]
    by_cases h : A.m ≤ r
    · rw [if_pos h, if_pos h]
      congr 1
      by_cases hh : e.1 = r - A.m ∧ e.2.1 = c
      · rw [if_pos hh, if_pos ⟨by omega, hh.2⟩]
      · rw [if_neg hh, if_neg (fun h' => hh ⟨by omega, h'.2⟩)]
    · rw [if_neg h, if_neg h, if_neg (fun h' => by omega), add_zero]

/-- the slices put together again. -/
theorem vstack_slices [Semiring R] (A : Sp R) (hA : A.Inside) : ∀ (L : List Nat) (a b : Nat), (a :: b :: L).Pairwise (· < ·) →
    ∃ S, vstack (((a :: b :: L).zip (b :: L)).map fun q => A.rowSlice q.1 q.2) = some S ∧ S.fmt = .csr ∧
      S.m = (b :: L).getLastD 0 - a ∧ S.n = A.n ∧ S.Inside ∧ a < (b :: L).getLastD 0 ∧
      ∀ r c, S.at r c = if a + r < (b :: L).getLastD 0 then A.at (a + r) c else 0 := by
  intro L
  induction L with
  | nil =>
    intro a b h
    have hab : a < b := (List.pairwise_cons.mp h).1 b (by simp)
    refine ⟨_, rfl, rfl, rfl, rfl, slice_inside hA a b, hab, ?_⟩
    intro r c
    exact slice_at A a b r c
  | cons d L ih =>
    intro a b h
    have hab : a < b := (List.pairwise_cons.mp h).1 b (by simp)
    obtain ⟨S, hS, hf, hm, hn, hin, hlt, hat⟩ := ih b d (List.pairwise_cons.mp h).2
    have hlast : (b :: d :: L).getLastD 0 = (d :: L).getLastD 0 := rfl
    rw [hlast]
    have hz : (((a :: b :: d :: L).zip (b :: d :: L)).map fun q => A.rowSlice q.1 q.2) =
        A.rowSlice a b :: (((b :: d :: L).zip (d :: L)).map fun q => A.rowSlice q.1 q.2) := rfl
    have hz' : (((b :: d :: L).zip (d :: L)).map fun q => A.rowSlice q.1 q.2) =
        A.rowSlice b d :: (((d :: L).zip L).map fun q => A.rowSlice q.1 q.2) := rfl
    have hsm : (A.rowSlice a b).m = b - a := rfl
    have hsn : (A.rowSlice a b).n = A.n := rfl
    refine ⟨⟨.csr, (A.rowSlice a b).m + S.m, (A.rowSlice a b).n,
      (A.rowSlice a b).ents ++ S.ents.map fun e => ((A.rowSlice a b).m + e.1, e.2)⟩, ?_, rfl, ?_, rfl, ?_, by omega, ?_⟩
    · rw [hz, hz', vstack, ← hz', hS, Option.bind_some, if_pos (by rw [hn, hsn])]
    · simp only [hsm, hm]
      omega
    · intro e he
      rcases List.mem_append.mp he with he | he
      · have := slice_inside hA a b e he
        simp only
        rw [hsm] at this ⊢
        rw [hsn] at this ⊢
        omega
      · obtain ⟨f, hf', rfl⟩ := List.mem_map.mp he
        have := hin f hf'
        simp only
        rw [hsn]
        omega
    · intro r c
      rw [stack_at, slice_at, hat]
      rw [hsm]
      by_cases h1 : a + r < b
      · rw [if_pos h1, if_neg (by omega), if_pos (by omega), add_zero]
      · rw [if_neg h1, if_pos (by omega), zero_add]
        have : b + (r - (b - a)) = a + r := by omega
        rw [this]

end Mifem.GlobalLA
