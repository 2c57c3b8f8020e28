import Verif.Props.TriForms

/-! # C64, C65: single-valued cochains on triangular meshes -/

namespace Mifem.Props
open Mifem.Tri

/-! ## Local numbers are positions -/

theorem segNumInner_surj (p r : Nat) (hr : r < num1 p) : ∃ x, ValidSeg p x ∧ segNumInner p x = r := by
  rw [num1] at hr
  by_cases h : r < p * p
  · have hp : 0 < p := by rcases Nat.eq_zero_or_pos p with rfl | h' <;> omega
    refine ⟨(false, r % p, r / p + 1), ?_, ?_⟩
    · have h1 := Nat.mod_lt r hp
      have h2 : r / p < p := Nat.div_lt_of_lt_mul h
      simp only [ValidSeg, Bool.false_eq_true, if_false]
      exact ⟨h1, Nat.succ_le_succ (Nat.zero_le _), h2⟩
    · simp only [segNumInner, Bool.false_eq_true, if_false, iDx, Nat.add_sub_cancel]
      exact Nat.div_add_mod' r p
  · refine ⟨(true, (r - p * p) % (p + 1), (r - p * p) / (p + 1)), ?_, ?_⟩
    · have h1 := Nat.mod_lt (r - p * p) (by omega : 0 < p + 1)
      have h2 : (r - p * p) / (p + 1) < p := Nat.div_lt_of_lt_mul (by rw [Nat.mul_comm (p + 1) p]; omega)
      simp only [ValidSeg, if_true]
      exact ⟨by omega, h2⟩
    · simp only [segNumInner, if_true, lnInnerDy]
      rw [Nat.div_add_mod' (r - p * p) (p + 1)]
      omega

theorem segNumOuter_surj (p r : Nat) (hr : r < num1 p) : ∃ x, ValidSeg p x ∧ segNumOuter p x = r := by
  rw [num1] at hr
  by_cases h : r < p * (p + 1)
  · refine ⟨(true, r % (p + 1), r / (p + 1)), ?_, ?_⟩
    · have h1 := Nat.mod_lt r (by omega : 0 < p + 1)
      have h2 : r / (p + 1) < p := Nat.div_lt_of_lt_mul (by rw [Nat.mul_comm (p + 1) p]; omega)
      simp only [ValidSeg, if_true]
      exact ⟨by omega, h2⟩
    · simp only [segNumOuter, if_true, lnOuterDy]
      exact Nat.div_add_mod' r (p + 1)
  · have hp : 0 < p := by rcases Nat.eq_zero_or_pos p with rfl | h' <;> omega
    refine ⟨(false, (r - p * (p + 1)) % p, (r - p * (p + 1)) / p + 1), ?_, ?_⟩
    · have h1 := Nat.mod_lt (r - p * (p + 1)) hp
      have h2 : (r - p * (p + 1)) / p < p := Nat.div_lt_of_lt_mul (by omega)
      simp only [ValidSeg, Bool.false_eq_true, if_false]
      exact ⟨h1, Nat.succ_le_succ (Nat.zero_le _), h2⟩
    · simp only [segNumOuter, Bool.false_eq_true, if_false, oDx, Nat.add_sub_cancel]
      rw [Nat.div_add_mod' (r - p * (p + 1)) p]
      omega

theorem ln0_surj (p r : Nat) (hr : r < num0 p) : ∃ i ≤ p, ∃ j ≤ p, ln0 p i j = r := by
  rw [num0] at hr
  by_cases h : r = 0
  · exact ⟨0, by omega, 0, by omega, by rw [ln0_eq, if_pos rfl, h]⟩
  · have h1 := Nat.mod_lt (r - 1) (by omega : 0 < p + 1)
    have h2 : (r - 1) / (p + 1) < p := Nat.div_lt_of_lt_mul (by rw [Nat.mul_comm (p + 1) p]; omega)
    refine ⟨(r - 1) % (p + 1), Nat.lt_succ_iff.1 h1, (r - 1) / (p + 1) + 1, h2, ?_⟩
    rw [ln0_eq, if_neg (Nat.succ_ne_zero _), Nat.add_sub_cancel, Nat.div_add_mod' (r - 1) (p + 1)]
    omega

/-- A family of local vectors comes from a global vector through the gathering vectors `gv`. -/
def FromGlobal {K : Type*} (n N : Nat) (gv : Nat → List (Option Nat)) (x : Nat → Nat → K) : Prop :=
  ∃ X : Nat → K, ∀ c < n, ∀ r < N, ∀ k, (gv c)[r]? = some (some k) → x c r = X k

theorem singleValued_of {K : Type*} [Zero K] {n N : Nat} {gv : Nat → List (Option Nat)} {x : Nat → Nat → K}
    (h : ∀ c < n, ∀ d < n, ∀ r < N, ∀ r' < N, ∀ k, (gv c)[r]? = some (some k) → (gv d)[r']? = some (some k) → x c r = x d r') :
    FromGlobal n N gv x := by
  classical
  refine ⟨fun k => if q : ∃ a : Nat × Nat, a.1 < n ∧ a.2 < N ∧ (gv a.1)[a.2]? = some (some k) then x q.choose.1 q.choose.2 else 0, ?_⟩
  intro c hc r hr k hk
  have q : ∃ a : Nat × Nat, a.1 < n ∧ a.2 < N ∧ (gv a.1)[a.2]? = some (some k) := ⟨(c, r), hc, hr, hk⟩
  simp only [dif_pos q]
  obtain ⟨q1, q2, q3⟩ := q.choose_spec
  exact h c hc _ q1 r hr _ q2 k hk q3

theorem mapAt_of {cell : Nat → Cell} {n : Nat} (hc : Triangulation cell n) {em : EMap} (hem : elementMap cell n = some em) :
    ∀ c < n, MapAt cell n em c := by
  obtain ⟨em', e1, e2, -⟩ := c61_element_map cell n hc
  rw [hem] at e1
  cases e1
  exact fun c hc' => e2 c hc'

/-! ## Local values that agree give single-valued vectors -/

section
variable {K : Type*} [CommRing K]

theorem inner_singleValued (p : Nat) (hp : 1 ≤ p) (cell : Nat → Cell) (n : Nat) (hc : Triangulation cell n) (em : EMap)
    (hem : elementMap cell n = some em) (s1 : St) (h1 : number (form1Inner p) cell em n = some s1)
    (raw : Nat → Bool × Nat × Nat → K) (hraw : OddEdges p cell n (fun _ => 1) raw) (y : Nat → Nat → K)
    (hy : ∀ c < n, ∀ x, ValidSeg p x → y c (segNumInner p x) =
      (transition (edgeDofsInner p) (eesInner em c) (segNumInner p x) : K) * raw c x) :
    FromGlobal n (num1 p) (fun c => gv1Inner p (s1.done c)) y := by
  apply singleValued_of
  intro c hcn d hdn r hr r' hr' k hk hk'
  obtain ⟨x, hx, rfl⟩ := segNumInner_surj p r hr
  obtain ⟨x', hx', rfl⟩ := segNumInner_surj p r' hr'
  obtain ⟨st, e1, -, -, hsh⟩ := c63_one_forms_inner p cell n hc em hem
  rw [h1] at e1
  cases e1
  have key : ∀ (c : Nat) (hcn : c < n) (x : Bool × Nat × Nat) (hx : ValidSeg p x) (k : Nat),
      (gv1Inner p (s1.done c))[segNumInner p x]? = some (some k) →
      ((lnInner p (c, x)).bind fun k => (gv1Inner p (s1.done c))[k]?) = some (some k) := by
    rintro c hcn ⟨b, i, j⟩ hx k hk
    cases b
    · simp only [ValidSeg, Bool.false_eq_true, if_false] at hx
      rw [lnInner]
      simp only [Bool.false_eq_true, if_false]
      rw [lnInnerDx_eq, if_neg (by omega), Option.bind_some]
      exact hk
    · exact hk
  have hent := (hsh ⟨(c, x), hcn, hx⟩ ⟨(d, x'), hdn, hx'⟩).1 ((key c hcn x hx k hk).trans (key d hdn x' hx' k hk').symm)
  rw [hy c hcn x hx, hy d hdn x' hx']
  refine flipped_single_valued p hp cell n hc (fun _ => 1) (by simp) raw hraw
    (fun c x => (transition (edgeDofsInner p) (eesInner em c) (segNumInner p x) : K))
    (fun c m => if m ∈ eesInner em c then -1 else 1) ?_ (inner_flips (mapAt_of hc hem)) c d hcn hdn x x' hx hx' hent
  intro c m k hk
  rw [transitionInner_edge p hp _ m k hk]
  split_ifs <;> simp

theorem outer_singleValued (p : Nat) (hp : 1 ≤ p) (cell : Nat → Cell) (n : Nat) (hc : Triangulation cell n) (em : EMap)
    (hem : elementMap cell n = some em) (s1 : St) (h1 : number (form1Outer p) cell em n = some s1)
    (hop : ∀ c < n, ∀ d < n, c ≠ d → ∀ m s e, SameEdge (cell c) (cell d) m s e → s = decide ((m = 0) ↔ (e = 0)))
    (raw : Nat → Bool × Nat × Nat → K) (hraw : OddEdges p cell n sigmaOuter raw) (y : Nat → Nat → K)
    (hy : ∀ c < n, ∀ x, ValidSeg p x → y c (segNumOuter p x) =
      (transition (edgeDofsOuter p) (eesOuter em c) (segNumOuter p x) : K) * raw c x) :
    FromGlobal n (num1 p) (fun c => gv1Outer p (s1.done c)) y := by
  apply singleValued_of
  intro c hcn d hdn r hr r' hr' k hk hk'
  obtain ⟨x, hx, rfl⟩ := segNumOuter_surj p r hr
  obtain ⟨x', hx', rfl⟩ := segNumOuter_surj p r' hr'
  obtain ⟨st, e1, -, -, hsh⟩ := c63_one_forms_outer p cell n hc em hem
  rw [h1] at e1
  cases e1
  have key : ∀ (c : Nat) (hcn : c < n) (x : Bool × Nat × Nat) (hx : ValidSeg p x) (k : Nat),
      (gv1Outer p (s1.done c))[segNumOuter p x]? = some (some k) →
      ((lnOuter p (c, x)).bind fun k => (gv1Outer p (s1.done c))[k]?) = some (some k) := by
    rintro c hcn ⟨b, i, j⟩ hx k hk
    cases b
    · simp only [ValidSeg, Bool.false_eq_true, if_false] at hx
      rw [lnOuter]
      simp only [Bool.false_eq_true, if_false]
      rw [lnOuterDx_eq, if_neg (by omega), Option.bind_some]
      exact hk
    · exact hk
  have hent := (hsh ⟨(c, x), hcn, hx⟩ ⟨(d, x'), hdn, hx'⟩).1 ((key c hcn x hx k hk).trans (key d hdn x' hx' k hk').symm)
  rw [hy c hcn x hx, hy d hdn x' hx']
  refine flipped_single_valued p hp cell n hc sigmaOuter (by intro m; fin_cases m <;> simp [sigmaOuter]) raw hraw
    (fun c x => (transition (edgeDofsOuter p) (eesOuter em c) (segNumOuter p x) : K))
    (fun c m => if m ∈ eesOuter em c then -1 else 1) ?_ (outer_flips (mapAt_of hc hem) hop) c d hcn hdn x x' hx hx' hent
  intro c m k hk
  rw [transitionOuter_edge p hp _ m k hk]
  split_ifs <;> simp

/-! ## C64: the coboundary of a single-valued 0-cochain -/

omit [CommRing K] in
theorem node_values (p : Nat) (hp : 1 ≤ p) (cell : Nat → Cell) (n : Nat) (hc : Triangulation cell n) (em : EMap)
    (hem : elementMap cell n = some em) (s0 : St) (h0 : number (form0 p) cell em n = some s0) (x : Nat → Nat → K)
    (hx : FromGlobal n (num0 p) (fun c => gv0 p (s0.done c)) x) (c d : Nat) (hcn : c < n) (hdn : d < n) (i j i' j' : Nat)
    (hi : i ≤ p) (hj : j ≤ p) (hi' : i' ≤ p) (hj' : j' ≤ p)
    (h : node0 p (cell c) c i j = node0 p (cell d) d i' j') : x c (ln0 p i j) = x d (ln0 p i' j') := by
  obtain ⟨X, hX⟩ := hx
  obtain ⟨st, e1, hnum, -, hsh⟩ := c63_zero_forms p hp cell n hc em hem
  rw [h0] at e1
  cases e1
  have g := (hsh ⟨(c, i, j), hcn, hi, hj⟩ ⟨(d, i', j'), hdn, hi', hj'⟩).2 h
  obtain ⟨k, -, hk⟩ := hnum ⟨(c, i, j), hcn, hi, hj⟩
  simp only at g hk
  have hk' := hk
  rw [g] at hk'
  rw [hX c hcn _ (ln0_lt hi hj) k hk, hX d hdn _ (ln0_lt hi' hj') k hk']

/-- The difference of a 0-cochain along an edge. -/
theorem edge_difference (p : Nat) (hp : 1 ≤ p) (cell : Nat → Cell) (n : Nat) (hc : Triangulation cell n) (em : EMap)
    (hem : elementMap cell n = some em) (s0 : St) (h0 : number (form0 p) cell em n = some s0) (x : Nat → Nat → K)
    (hx : FromGlobal n (num0 p) (fun c => gv0 p (s0.done c)) x) (c d : Nat) (hcn : c < n) (hdn : d < n) {m s e}
    (h : SameEdge (cell c) (cell d) m s e) (k : Nat) (hk : k < p) :
    let a := fun (c : Nat) (m : Fin 3) (k : Nat) => x c (ln0 p (edgeNode p m k).1 (edgeNode p m k).2)
    a c m (k + 1) - a c m k =
      (if s then -1 else 1) * (a d e ((if s then p - 1 - k else k) + 1) - a d e (if s then p - 1 - k else k)) := by
  intro a
  have valid : ∀ (m : Fin 3) (k : Nat), k ≤ p → (edgeNode p m k).1 ≤ p ∧ (edgeNode p m k).2 ≤ p := by
    intro m k hk
    fin_cases m <;> simp [edgeNode, hk]
  have eq : ∀ k ≤ p, a c m k = a d e (if s then p - k else k) := by
    intro k hk
    have v1 := valid m k hk
    have v2 := valid e (if s then p - k else k) (by split_ifs <;> omega)
    exact node_values p hp cell n hc em hem s0 h0 x hx c d hcn hdn _ _ _ _ v1.1 v1.2 v2.1 v2.2
      (node0_shared p hp (hc.inj d hdn) c d h k hk)
  rw [eq (k + 1) hk, eq k hk.le]
  cases s
  · simp
  · simp only [if_true]
    rw [show p - (k + 1) = p - 1 - k by omega, show p - k = p - 1 - k + 1 by omega]
    ring

/-- C64: the gradient of a single-valued inner 0-cochain is single-valued. -/
theorem c64_grad_single_valued (p : Nat) (hp : 1 ≤ p) (cell : Nat → Cell) (n : Nat) (hc : Triangulation cell n) (em : EMap)
    (hem : elementMap cell n = some em) (s0 s1 : St) (h0 : number (form0 p) cell em n = some s0)
    (h1 : number (form1Inner p) cell em n = some s1) (x : Nat → Nat → K)
    (hx : FromGlobal n (num0 p) (fun c => gv0 p (s0.done c)) x) :
    FromGlobal n (num1 p) (fun c => gv1Inner p (s1.done c)) (fun c =>
      coboundary0 (num0 p) (setAll (gradInner p)) (transition (edgeDofsInner p) (eesInner em c)) (x c)) := by
  refine inner_singleValued p hp cell n hc em hem s1 h1
    (fun c y => mulVec (num0 p) (setAll (gradInner p)) (x c) (segNumInner p y)) ?_ _ ?_
  · intro c hcn d hdn hcd m s e h k hk
    have val : ∀ (c : Nat) (m : Fin 3) (k : Nat), k < p →
        mulVec (num0 p) (setAll (gradInner p)) (x c) (segNumInner p (edgeSeg p m k)) =
          x c (ln0 p (edgeNode p m (k + 1)).1 (edgeNode p m (k + 1)).2) - x c (ln0 p (edgeNode p m k).1 (edgeNode p m k).2) := by
      intro c m k hk
      fin_cases m
      · exact grad_dy p (x c) p k le_rfl hk
      · exact grad_dy p (x c) 0 k (by omega) hk
      · exact grad_dx p (x c) k p hk hp le_rfl
    simp only [one_mul]
    rw [val c m k hk, val d e _ (by split_ifs <;> omega)]
    exact edge_difference p hp cell n hc em hem s0 h0 x hx c d hcn hdn h k hk
  · intro c hcn y hy
    exact coboundary0_eq _ _ _ _ _

/-- C64: the curl of a single-valued outer 0-cochain is single-valued, if the cells are anticlockwise and neighbours are on
different sides of their common edge. -/
theorem c64_curl_single_valued {F : Type*} [Field F] [LinearOrder F] [IsStrictOrderedRing F] (pt : Nat → F × F) (p : Nat)
    (hp : 1 ≤ p) (cell : Nat → Cell) (n : Nat) (hc : Triangulation cell n)
    (hpos : ∀ c < n, 0 < cross (pt (cell c 0)) (pt (cell c 1)) (pt (cell c 2))) (ho : OppositeSides pt cell n) (em : EMap)
    (hem : elementMap cell n = some em) (s0 s1 : St) (h0 : number (form0 p) cell em n = some s0)
    (h1 : number (form1Outer p) cell em n = some s1) (x : Nat → Nat → K)
    (hx : FromGlobal n (num0 p) (fun c => gv0 p (s0.done c)) x) :
    FromGlobal n (num1 p) (fun c => gv1Outer p (s1.done c)) (fun c =>
      coboundary0 (num0 p) (setAll (curlOuter p)) (transition (edgeDofsOuter p) (eesOuter em c)) (x c)) := by
  refine outer_singleValued p hp cell n hc em hem s1 h1 (fun c hc' d hd hcd m s e h => opposite_sign ho hpos hc' hd hcd h)
    (fun c y => mulVec (num0 p) (setAll (curlOuter p)) (x c) (segNumOuter p y)) ?_ _ ?_
  · intro c hcn d hdn hcd m s e h k hk
    have val : ∀ (c : Nat) (m : Fin 3) (k : Nat), k < p →
        sigmaOuter m * mulVec (num0 p) (setAll (curlOuter p)) (x c) (segNumOuter p (edgeSeg p m k)) =
          x c (ln0 p (edgeNode p m (k + 1)).1 (edgeNode p m (k + 1)).2) - x c (ln0 p (edgeNode p m k).1 (edgeNode p m k).2) := by
      intro c m k hk
      fin_cases m
      · have := curl_dy p (x c) p k le_rfl hk
        simp only [sigmaOuter, Fin.zero_eta, Matrix.cons_val_zero, one_mul]
        exact this
      · have := curl_dy p (x c) 0 k (by omega) hk
        simp only [sigmaOuter, Fin.mk_one, Matrix.cons_val_one, Matrix.cons_val_zero, one_mul]
        exact this
      · have := curl_dx p (x c) k p hk hp le_rfl
        change (-1) * mulVec (num0 p) (setAll (curlOuter p)) (x c) (oDx p k p) = _
        rw [this]
        simp [edgeNode]
    rw [val c m k hk, val d e _ (by split_ifs <;> omega)]
    exact edge_difference p hp cell n hc em hem s0 h0 x hx c d hcn hdn h k hk
  · intro c hcn y hy
    exact coboundary0_eq _ _ _ _ _

end

/-! ## C65: discretization -/

section
variable {F : Type*} [Field F] [LinearOrder F] [IsStrictOrderedRing F]

/-- The point of the segment from `A` to `B` with parameter `τ` in `[-1, 1]`. -/
def segPoint (A B : F × F) (τ : F) : Fin 2 → F := ![A.1 + (τ + 1) / 2 * (B.1 - A.1), A.2 + (τ + 1) / 2 * (B.2 - A.2)]

/-- The line integral of `f` along part `k` of the edge from `A` to `B`, by quadrature. -/
def lineIntegral (x : Nat → F) (q : Quad F) (f : (Fin 2 → F) → Fin 2 → F) (A B : F × F) (k : Nat) : F :=
  (q.map fun t => ((B.1 - A.1) / 2 * f (segPoint A B (cellNode x k t.1)) 0 + (B.2 - A.2) / 2 * f (segPoint A B (cellNode x k t.1)) 1)
    * t.2 * ((x (k + 1) - x k) * (1 / 2))).sum

/-- The flux through part `k` of the edge from `A` to `B`, to the right of the edge. -/
def lineFlux (x : Nat → F) (q : Quad F) (f : (Fin 2 → F) → Fin 2 → F) (A B : F × F) (k : Nat) : F :=
  lineIntegral x q (fun z => ![-(f z 1), f z 0]) A B k

/-- Symmetric quadrature. -/
def SymmetricQuad (q : Quad F) : Prop := (q.map fun t => (-t.1, t.2)).Perm q

theorem list_sum_neg {α : Type*} (l : List α) (g : α → F) : -(l.map g).sum = (l.map fun a => -(g a)).sum := by
  induction l with
  | nil => simp
  | cons a l ih => simp only [List.map_cons, List.sum_cons, neg_add, ih]

theorem jac_edges (pts : Fin 3 → F × F) (τ : F) :
    (jacobianMatrix pts ![1, τ] 0 1 = ((pts 1).1 - (pts 0).1) / 2 ∧ jacobianMatrix pts ![1, τ] 1 1 = ((pts 1).2 - (pts 0).2) / 2) ∧
    (jacobianMatrix pts ![-1, τ] 0 1 = ((pts 2).1 - (pts 0).1) / 2 ∧ jacobianMatrix pts ![-1, τ] 1 1 = ((pts 2).2 - (pts 0).2) / 2) ∧
    (jacobianMatrix pts ![τ, 1] 0 0 = ((pts 1).1 - (pts 2).1) / 2 ∧ jacobianMatrix pts ![τ, 1] 1 0 = ((pts 1).2 - (pts 2).2) / 2) := by
  have h2 : (2 : F) ≠ 0 := two_ne_zero
  have h3 : ((1 : F) + 1) / 2 = 1 := by norm_num
  have h4 : ((-1 : F) + 1) / 2 = 0 := by norm_num
  refine ⟨⟨?_, ?_⟩, ⟨?_, ?_⟩, ?_, ?_⟩ <;>
    simp [jacobianMatrix, Region.Two.transfiniteJ, Region.Two.mapCr, Region.Two.mapCs, edges, h3, h4] <;> ring

theorem lineIntegral_swap (p : Nat) (x : Nat → F) (hx : SymmetricNodes p x) (q : Quad F) (hq : SymmetricQuad q)
    (f : (Fin 2 → F) → Fin 2 → F) (A B : F × F) (k : Nat) (hk : k < p) :
    lineIntegral x q f A B k = - lineIntegral x q f B A (p - 1 - k) := by
  have e1 : x (p - 1 - k + 1) = - x k := by rw [show p - 1 - k + 1 = p - k by omega]; exact hx.symm k hk.le
  have e2 : x (p - 1 - k) = - x (k + 1) := by rw [show p - 1 - k = p - (k + 1) by omega]; exact hx.symm (k + 1) hk
  have e3 : ∀ t, cellNode x (p - 1 - k) t = - cellNode x k (-t) := by
    intro t
    simp only [cellNode, e1, e2]
    ring
  have e4 : ∀ τ, segPoint B A (-τ) = segPoint A B τ := by
    intro τ
    funext i
    fin_cases i <;> simp [segPoint] <;> ring
  rw [lineIntegral, lineIntegral, ← ((hq.map _).sum_eq (M := F)), List.map_map, list_sum_neg]
  congr 1
  apply List.map_congr_left
  intro t _
  simp only [Function.comp_apply, e1, e2, e3, e4]
  ring

theorem inner_edges (p : Nat) (x : Nat → F) (hx : SymmetricNodes p x) (q : Quad F) (pts : Fin 3 → F × F)
    (f : (Fin 2 → F) → Fin 2 → F) (k : Nat) :
    innerDy x q pts f p k = lineIntegral x q f (pts 0) (pts 1) k ∧
    innerDy x q pts f 0 k = lineIntegral x q f (pts 0) (pts 2) k ∧
    innerDx x q pts f k p = lineIntegral x q f (pts 2) (pts 1) k := by
  have h2 : (2 : F) ≠ 0 := two_ne_zero
  refine ⟨?_, ?_, ?_⟩
  · rw [innerDy, lineIntegral]
    congr 1
    apply List.map_congr_left
    intro t _
    have e : mapping pts ![x p, cellNode x k t.1] = segPoint (pts 0) (pts 1) (cellNode x k t.1) := by
      rw [hx.last, (c62_edges pts _).1]
      funext i; fin_cases i <;> simp [bary, segPoint] <;> ring
    rw [hx.last] at e
    have j := jac_edges pts (cellNode x k t.1)
    simp only [hx.last, e, j.1.1, j.1.2, j.2.1.1, j.2.1.2, j.2.2.1, j.2.2.2]
  · rw [innerDy, lineIntegral]
    congr 1
    apply List.map_congr_left
    intro t _
    have e : mapping pts ![x 0, cellNode x k t.1] = segPoint (pts 0) (pts 2) (cellNode x k t.1) := by
      rw [hx.first, (c62_edges pts _).2.1]
      funext i; fin_cases i <;> simp [bary, segPoint] <;> ring
    rw [hx.first] at e
    have j := jac_edges pts (cellNode x k t.1)
    simp only [hx.first, e, j.1.1, j.1.2, j.2.1.1, j.2.1.2, j.2.2.1, j.2.2.2]
  · rw [innerDx, lineIntegral]
    congr 1
    apply List.map_congr_left
    intro t _
    have e : mapping pts ![cellNode x k t.1, x p] = segPoint (pts 2) (pts 1) (cellNode x k t.1) := by
      rw [hx.last, (c62_edges pts _).2.2.1]
      funext i; fin_cases i <;> simp [bary, segPoint] <;> ring
    rw [hx.last] at e
    have j := jac_edges pts (cellNode x k t.1)
    simp only [hx.last, e, j.1.1, j.1.2, j.2.1.1, j.2.1.2, j.2.2.1, j.2.2.2]

/-- An outer dof is the inner dof of the field turned by a right angle (with the sign of the direction). -/
theorem outer_eq_inner (x : Nat → F) (q : Quad F) (pts : Fin 3 → F × F) (f : (Fin 2 → F) → Fin 2 → F) (i j : Nat) :
    outerDy x q pts f i j = innerDy x q pts (fun z => ![-(f z 1), f z 0]) i j ∧
    outerDx x q pts f i j = - innerDx x q pts (fun z => ![-(f z 1), f z 0]) i j := by
  constructor
  · rw [outerDy, innerDy]
    congr 1
    apply List.map_congr_left
    intro t _
    simp
  · rw [outerDx, innerDx, list_sum_neg]
    congr 1
    apply List.map_congr_left
    intro t _
    simp
    ring

/-- Values of the discretization of an inner 1-form by position. -/
def rawInner (x : Nat → F) (q : Quad F) (pts : Fin 3 → F × F) (f : (Fin 2 → F) → Fin 2 → F) (y : Bool × Nat × Nat) : F :=
  if y.1 then innerDy x q pts f y.2.1 y.2.2 else innerDx x q pts f y.2.1 y.2.2

/-- Values of the discretization of an outer 1-form by position. -/
def rawOuter (x : Nat → F) (q : Quad F) (pts : Fin 3 → F × F) (f : (Fin 2 → F) → Fin 2 → F) (y : Bool × Nat × Nat) : F :=
  if y.1 then outerDy x q pts f y.2.1 y.2.2 else outerDx x q pts f y.2.1 y.2.2

theorem discretizeInner_at (p : Nat) (x : Nat → F) (q : Quad F) (pts : Fin 3 → F × F) (f : (Fin 2 → F) → Fin 2 → F)
    (T : Nat → Int) (y : Bool × Nat × Nat) (hy : ValidSeg p y) :
    (discretizeInner p x q pts f T)[segNumInner p y]? = some ((T (segNumInner p y) : F) * rawInner x q pts f y) := by
  rw [discretizeInner, List.getElem?_mapIdx]
  have hl : ((ravelF p (p + 1) (innerDx x q pts f)).drop p).length = p * p := by
    rw [List.length_drop, ravelF_length]
    have : (p + 1) * p = p * p + p := by ring
    omega
  obtain ⟨b, i, j⟩ := y
  cases b
  · simp only [ValidSeg, Bool.false_eq_true, if_false] at hy
    have e : segNumInner p (false, i, j) = (j - 1) * p + i := rfl
    have hlt : (j - 1) * p + i < p * p := pos_lt hy.1 (by omega)
    rw [e, List.getElem?_append_left (by rw [hl]; exact hlt), List.getElem?_drop]
    have : p + ((j - 1) * p + i) = j * p + i := by
      obtain ⟨q, rfl⟩ : ∃ q, j = q + 1 := ⟨j - 1, by omega⟩
      rw [Nat.add_sub_cancel]; ring
    rw [this, getElem?_ravelF _ _ _ _ _ hy.1 (by omega)]
    rfl
  · simp only [ValidSeg, if_true] at hy
    have e : segNumInner p (true, i, j) = p * p + (j * (p + 1) + i) := rfl
    rw [e, List.getElem?_append_right (by rw [hl]; omega), hl, Nat.add_sub_cancel_left,
      getElem?_ravelF _ _ _ _ _ (by omega) hy.2]
    rfl

theorem discretizeOuter_at (p : Nat) (x : Nat → F) (q : Quad F) (pts : Fin 3 → F × F) (f : (Fin 2 → F) → Fin 2 → F)
    (T : Nat → Int) (y : Bool × Nat × Nat) (hy : ValidSeg p y) :
    (discretizeOuter p x q pts f T)[segNumOuter p y]? = some ((T (segNumOuter p y) : F) * rawOuter x q pts f y) := by
  rw [discretizeOuter, List.getElem?_mapIdx]
  obtain ⟨b, i, j⟩ := y
  cases b
  · simp only [ValidSeg, Bool.false_eq_true, if_false] at hy
    have e : segNumOuter p (false, i, j) = p * (p + 1) + ((j - 1) * p + i) := rfl
    rw [e, List.getElem?_append_right (by rw [ravelF_length]; omega), ravelF_length, Nat.add_sub_cancel_left, List.getElem?_drop]
    have : p + ((j - 1) * p + i) = j * p + i := by
      obtain ⟨q, rfl⟩ : ∃ q, j = q + 1 := ⟨j - 1, by omega⟩
      rw [Nat.add_sub_cancel]; ring
    rw [this, getElem?_ravelF _ _ _ _ _ hy.1 (by omega)]
    rfl
  · simp only [ValidSeg, if_true] at hy
    have e : segNumOuter p (true, i, j) = j * (p + 1) + i := rfl
    have hlt : j * (p + 1) + i < p * (p + 1) := pos_lt (by omega) hy.2
    rw [e, List.getElem?_append_left (by rw [ravelF_length]; exact hlt), getElem?_ravelF _ _ _ _ _ (by omega) hy.2]
    rfl

theorem discretize0_at (p : Nat) (x : Nat → F) (hx : SymmetricNodes p x) (pts : Fin 3 → F × F) (f : (Fin 2 → F) → F)
    (i j : Nat) (hi : i ≤ p) (hj : j ≤ p) :
    (discretize0 p x pts f)[ln0 p i j]? = some (f (mapping pts ![x i, x j])) := by
  rw [discretize0, List.getElem?_drop, ln0_eq]
  split_ifs with h
  · subst h
    have : p + 0 = 0 * (p + 1) + p := by ring
    rw [this, getElem?_ravelF _ _ _ _ _ (by omega) (by omega), hx.first, (c62_edges pts _).2.2.2, (c62_edges pts _).2.2.2]
  · have : p + ((j - 1) * (p + 1) + i + 1) = j * (p + 1) + i := by
      obtain ⟨q, rfl⟩ : ∃ q, j = q + 1 := ⟨j - 1, by omega⟩
      rw [Nat.add_sub_cancel]; ring
    rw [this, getElem?_ravelF _ _ _ _ _ (by omega) (by omega)]

/-- C65, 0-forms: the discretization of a function is single-valued. -/
theorem c65_zero_forms (p : Nat) (hp : 1 ≤ p) (x : Nat → F) (hx : SymmetricNodes p x) (pt : Nat → F × F) (cell : Nat → Cell)
    (n : Nat) (hc : Triangulation cell n) (em : EMap) (hem : elementMap cell n = some em) (s0 : St)
    (h0 : number (form0 p) cell em n = some s0) (f : (Fin 2 → F) → F) :
    FromGlobal n (num0 p) (fun c => gv0 p (s0.done c))
      (fun c r => ((discretize0 p x (fun a => pt (cell c a)) f)[r]?).getD 0) := by
  apply singleValued_of
  intro c hcn d hdn r hr r' hr' k hk hk'
  obtain ⟨i, hi, j, hj, rfl⟩ := ln0_surj p r hr
  obtain ⟨i', hi', j', hj', rfl⟩ := ln0_surj p r' hr'
  obtain ⟨st, e1, -, -, hsh⟩ := c63_zero_forms p hp cell n hc em hem
  rw [h0] at e1
  cases e1
  have h := (hsh ⟨(c, i, j), hcn, hi, hj⟩ ⟨(d, i', j'), hdn, hi', hj'⟩).1 (hk.trans hk'.symm)
  simp only at h
  rw [discretize0_at p x hx _ f i j hi hj, discretize0_at p x hx _ f i' j' hi' hj']
  rw [c63_points p hp x hx pt (cell c) (cell d) c d i j i' j' hi hj hi' hj' (by rintro rfl; rfl) h]

/-- C65, inner 1-forms: the discretization of a vector field is single-valued. -/
theorem c65_inner (p : Nat) (hp : 1 ≤ p) (x : Nat → F) (hx : SymmetricNodes p x) (q : Quad F) (hq : SymmetricQuad q)
    (pt : Nat → F × F) (cell : Nat → Cell) (n : Nat) (hc : Triangulation cell n) (em : EMap)
    (hem : elementMap cell n = some em) (s1 : St) (h1 : number (form1Inner p) cell em n = some s1)
    (f : (Fin 2 → F) → Fin 2 → F) :
    FromGlobal n (num1 p) (fun c => gv1Inner p (s1.done c)) (fun c r =>
      ((discretizeInner p x q (fun a => pt (cell c a)) f (transition (edgeDofsInner p) (eesInner em c)))[r]?).getD 0) := by
  refine inner_singleValued p hp cell n hc em hem s1 h1 (fun c y => rawInner x q (fun a => pt (cell c a)) f y) ?_ _ ?_
  · intro c hcn d hdn hcd m s e h k hk
    have val : ∀ (c : Nat) (m : Fin 3) (k : Nat), rawInner x q (fun a => pt (cell c a)) f (edgeSeg p m k) =
        lineIntegral x q f (pt (edgeOf (cell c) m).1) (pt (edgeOf (cell c) m).2) k := by
      intro c m k
      have := inner_edges p x hx q (fun a => pt (cell c a)) f k
      fin_cases m
      · exact this.1
      · exact this.2.1
      · exact this.2.2
    simp only [one_mul]
    rw [val, val, h]
    cases s
    · simp
    · simp only [if_true, Prod.fst_swap, Prod.snd_swap]
      rw [lineIntegral_swap p x hx q hq f _ _ k hk]
      ring
  · intro c hcn y hy
    rw [discretizeInner_at p x q _ f _ y hy]
    rfl

/-- C65, outer 1-forms: the discretization of a vector field is single-valued, if the cells are anticlockwise and neighbours
are on different sides of their common edge. -/
theorem c65_outer (p : Nat) (hp : 1 ≤ p) (x : Nat → F) (hx : SymmetricNodes p x) (q : Quad F) (hq : SymmetricQuad q)
    (pt : Nat → F × F) (cell : Nat → Cell) (n : Nat) (hc : Triangulation cell n)
    (hpos : ∀ c < n, 0 < cross (pt (cell c 0)) (pt (cell c 1)) (pt (cell c 2))) (ho : OppositeSides pt cell n) (em : EMap)
    (hem : elementMap cell n = some em) (s1 : St) (h1 : number (form1Outer p) cell em n = some s1)
    (f : (Fin 2 → F) → Fin 2 → F) :
    FromGlobal n (num1 p) (fun c => gv1Outer p (s1.done c)) (fun c r =>
      ((discretizeOuter p x q (fun a => pt (cell c a)) f (transition (edgeDofsOuter p) (eesOuter em c)))[r]?).getD 0) := by
  refine outer_singleValued p hp cell n hc em hem s1 h1 (fun c hc' d hd hcd m s e h => opposite_sign ho hpos hc' hd hcd h)
    (fun c y => rawOuter x q (fun a => pt (cell c a)) f y) ?_ _ ?_
  · intro c hcn d hdn hcd m s e h k hk
    have val : ∀ (c : Nat) (m : Fin 3) (k : Nat), sigmaOuter m * rawOuter x q (fun a => pt (cell c a)) f (edgeSeg p m k) =
        lineFlux x q f (pt (edgeOf (cell c) m).1) (pt (edgeOf (cell c) m).2) k := by
      intro c m k
      have := inner_edges p x hx q (fun a => pt (cell c a)) (fun z => ![-(f z 1), f z 0]) k
      have oe := outer_eq_inner x q (fun a => pt (cell c a)) f
      fin_cases m
      · simp only [sigmaOuter, Fin.zero_eta, Matrix.cons_val_zero, one_mul]
        exact (oe p k).1.trans this.1
      · simp only [sigmaOuter, Fin.mk_one, Matrix.cons_val_one, Matrix.cons_val_zero, one_mul]
        exact (oe 0 k).1.trans this.2.1
      · change (-1) * outerDx x q (fun a => pt (cell c a)) f k p = _
        rw [(oe k p).2]
        rw [this.2.2]
        simp [lineFlux, edgeOf]
    rw [val, val, h]
    cases s
    · simp
    · simp only [if_true, Prod.fst_swap, Prod.snd_swap, lineFlux]
      rw [lineIntegral_swap p x hx q hq _ _ _ k hk]
      ring
  · intro c hcn y hy
    rw [discretizeOuter_at p x q _ f _ y hy]
    rfl

end

/-! ## Examples -/

/-- The four triangles of a square: anticlockwise, and neighbours are on different sides. -/
theorem square_anticlockwise : ∀ c < 4, 0 < cross (squarePoints (squareFixed c 0)) (squarePoints (squareFixed c 1)) (squarePoints (squareFixed c 2)) := by
  have h : ∀ c : Fin 4, 0 < cross (squarePoints (squareFixed c 0)) (squarePoints (squareFixed c 1)) (squarePoints (squareFixed c 2)) := by
    decide +kernel
  exact fun c hc => h ⟨c, hc⟩

theorem square_opposite : OppositeSides squarePoints squareFixed 4 := by
  have h : ∀ c d : Fin 4, c ≠ d → ∀ (m : Fin 3) (s : Bool) (e : Fin 3), SameEdge (squareFixed c) (squareFixed d) m s e →
      cross (squarePoints (edgeOf (squareFixed c) m).1) (squarePoints (edgeOf (squareFixed c) m).2) (squarePoints (squareFixed c (![2, 1, 0] m))) *
        cross (squarePoints (edgeOf (squareFixed c) m).1) (squarePoints (edgeOf (squareFixed c) m).2) (squarePoints (squareFixed d (![2, 1, 0] e))) < 0 := by
    unfold SameEdge
    decide +kernel
  exact fun c hc d hd hcd m s e he => h ⟨c, hc⟩ ⟨d, hd⟩ (fun q => hcd (congrArg Fin.val q)) m s e he

/-- Nodes -1, 0, 1 and Simpson's rule are symmetric. -/
theorem symmetric_nodes2 : SymmetricNodes 2 (fun k => (k : ℚ) - 1) where
  first := by norm_num
  last := by norm_num
  symm := by intro k hk; interval_cases k <;> norm_num

def simpson : Quad ℚ := [(-1, 1 / 3), (0, 4 / 3), (1, 1 / 3)]

theorem simpson_symmetric : SymmetricQuad simpson := by
  have : (simpson.map fun t => (-t.1, t.2)) = simpson.reverse := by simp [simpson]
  rw [SymmetricQuad, this]
  exact List.reverse_perm _

/-- The gradient of a single-valued 0-cochain on two neighbours (edges 2 and 3 are common). -/
example : ((elementMap squareFixed 4).bind fun em => (number (form0 2) squareFixed em 4).bind fun s0 =>
      (number (form1Inner 2) squareFixed em 4).map fun s1 =>
    [(0, 1), (0, 2), (0, 3), (1, 6), (1, 7), (1, 9)].map fun a => ((gv1Inner 2 (s1.done a.1))[a.2]?,
      coboundary0 (num0 2) (setAll (gradInner 2)) (transition (edgeDofsInner 2) (eesInner em a.1))
        (fun k => ((((gv0 2 (s0.done a.1))[k]?).getD none).getD 0 : ℤ)) a.2)) =
    some [(some (some 1), 1), (some (some 2), 1), (some (some 3), 1), (some (some 2), 1), (some (some 15), 2), (some (some 3), 1)] := by
  decide +kernel

end Mifem.Props
