import Verif.Model.TraceMark
import Verif.Props.Marks
import Verif.Props.TraceMass

/-! # C87: marks of trace elements, what is cached by them, and the constant Jacobian -/

namespace Mifem.Props
open Mifem.EWC Mifem.Marks Mifem.TraceMark Mifem.TraceRec Mifem.TraceDisc Mifem.Three

/-! ## Reading numbers -/

theorem digit_char : ∀ a < 10, digit (Nat.digitChar a) = some a := by decide

theorem parse_digits (l : List Nat) (h : ∀ a ∈ l, a < 10) (n : Nat) :
    (l.map Nat.digitChar).foldlM (fun n c => (digit c).map (10 * n + ·)) n = some (l.foldl (fun n a => 10 * n + a) n) := by
  induction l generalizing n with
  | nil => rfl
  | cons a l ih =>
    simp only [List.map_cons, List.foldlM_cons, List.foldl_cons, digit_char a (h a (by simp)), Option.map_some]
    exact ih (fun x hx => h x (by simp [hx])) _

theorem parse_natStr (n : Nat) : parseNat (natStr n) = some n := by
  rw [natStr, parseNat]
  split_ifs with h
  · subst h; decide
  · rw [parse_digits _ fun a ha => Nat.digits_lt_base (by omega) (List.mem_reverse.1 ha), List.foldl_reverse]
    congr 1
    conv_rhs => rw [← Nat.ofDigits_digits 10 n]
    generalize Nat.digits 10 n = l
    induction l with
    | nil => rfl
    | cons a l ih => rw [List.foldr_cons, ih, Nat.ofDigits_cons]; ring

theorem parse_fracStr (d m n : Nat) :
    (fracStr d m).foldlM (fun n c => (digit c).map (10 * n + ·)) n = some (n * 10 ^ d + m % 10 ^ d) := by
  induction d generalizing n with
  | zero => simp [fracStr, Nat.mod_one]
  | succ d ih =>
    simp only [fracStr, List.foldlM_cons, digit_char _ (Nat.mod_lt _ (by omega : 0 < 10)), Option.map_some]
    rw [Option.bind_eq_bind, Option.bind_some, ih, pow_succ, Nat.mod_mul]
    congr 1
    ring

theorem split_free (c : Char) (a : Key) (h : c ∉ a) : split c a = [a] := by
  induction a with
  | nil => rfl
  | cons x a ih =>
    simp only [List.mem_cons, not_or] at h
    rw [split, if_neg (Ne.symm h.1), ih h.2]

theorem split_at_sep (c : Char) (a b : Key) (h : c ∉ a) : split c (a ++ c :: b) = a :: split c b := by
  induction a with
  | nil => simp [split]
  | cons x a ih =>
    simp only [List.mem_cons, not_or] at h
    rw [List.cons_append, split, if_neg (Ne.symm h.1), ih h.2]

theorem fracStr_digits (d m : Nat) : ∀ c ∈ fracStr d m, IsDigit c := by
  induction d with
  | zero => simp [fracStr]
  | succ d ih =>
    intro c hc
    rw [fracStr, List.mem_cons] at hc
    rcases hc with rfl | hc
    · exact ⟨_, Nat.mod_lt _ (by omega), rfl⟩
    · exact ih c hc

/-- A number written with `d` decimals is read as the rounded number. -/
theorem parse_fmt {d : Nat} (hd : 0 < d) {x : ℚ} (hx : 0 ≤ x) : parseDec (fmt d x) = some (roundTo d x) := by
  have n0 := rhe_nonneg (q := x * 10 ^ d) (by positivity)
  rw [fmt, roundTo]
  obtain ⟨n, hn⟩ := Int.eq_ofNat_of_zero_le n0
  rw [hn, Int.toNat_natCast, decimal, parseDec, split_at_sep _ _ _ fun h => dot_not_digit (natStr_digits _ _ h),
    split_free _ _ fun h => dot_not_digit (fracStr_digits _ _ _ h)]
  have hf : fracStr d n ≠ [] := fun h => by have := fracStr_length d n; rw [h] at this; simp at this; omega
  simp only [natStr_ne_nil, hf, or_self, if_false, parse_natStr, fracStr_length]
  rw [parseNat, parse_fracStr]
  simp only [Option.bind_eq_bind, Option.bind_some, Option.some.injEq]
  have p : (0 : ℚ) < 10 ^ d := by positivity
  rw [Nat.zero_mul, Nat.zero_add, eq_div_iff p.ne', add_mul, div_mul_cancel₀ _ p.ne']
  have := Nat.div_add_mod n (10 ^ d)
  push_cast
  rw [mul_comm]
  exact_mod_cast this

theorem fmt_chars (d : Nat) (x : ℚ) : ∀ c ∈ fmt d x, IsDigit c ∨ c = '.' := by
  intro c hc
  simp only [fmt, decimal, List.mem_append, List.mem_cons] at hc
  rcases hc with h | h | h
  · exact .inl (natStr_digits _ _ h)
  · exact .inr h
  · exact .inl (fracStr_digits _ _ _ h)

theorem fmt_free {c : Char} (h : ∀ n < 10, Nat.digitChar n ≠ c) (hc : c ≠ '.') (d : Nat) (x : ℚ) : c ∉ fmt d x := by
  intro hm
  rcases fmt_chars d x c hm with ⟨n, hn, e⟩ | e
  · exact h n hn e.symm
  · exact hc e

/-! ## Marks -/

/-- The two directions along a side, in the order of the tangents, and the name of the axis across it. -/
def along : Side → Fin 2 → Fin 3
  | .N | .S => ![1, 2]
  | .W | .E => ![2, 0]
  | .B | .F => ![0, 1]
@[inherit_doc along] def perpTo : Side → Char
  | .N | .S => 'x'
  | .W | .E => 'y'
  | .B | .F => 'z'

theorem teMark_orth (id : Nat) (L : Fin 3 → ℚ) (sp : Fin 3 → ℚ × ℚ) (s : Side) :
    teMark id (.orthogonal L) sp s = (orthTe (perpTo s) ((sp (along s 0)).2 - (sp (along s 0)).1)
      ((sp (along s 1)).2 - (sp (along s 1)).1)).map .inl := by cases s <;> rfl

theorem orthTe_prefix {p p' : Char} {d1 d2 d1' d2' : ℚ} {m m' : Key} (h : orthTe p d1 d2 = some m)
    (h' : orthTe p' d1' d2' = some m') (hm : m <+: m') :
    m = m' ∧ p = p' ∧ |d1 - d1'| ≤ 0.000011 ∧ |d2 - d2'| ≤ 0.000011 := by
  have far : ∀ x y : ℚ, |roundTo 6 x - roundTo 6 y| ≤ 1 / 10 ^ 5 → |x - y| ≤ 0.000011 := by
    intro x y hi
    have a := roundTo_near 6 x
    have b := roundTo_near 6 y
    norm_num [abs_le] at a b hi ⊢
    constructor <;> linarith [a.1, a.2, b.1, b.2, hi.1, hi.2]
  rw [orthTe] at h h'
  split_ifs at h h' with c c'
  rw [Option.some.injEq] at h h'
  subst h h'
  have hm := (List.prefix_append_right_inj _).1 hm
  rw [List.cons_prefix_cons] at hm
  have h2 := (List.prefix_append_right_inj _).1 hm.2
  obtain ⟨a1, a2, a3⟩ := fmt_prefix (roundTo_nonneg c.1.le) (roundTo_nonneg c'.1.le) h2
  have a3 := (List.prefix_append_right_inj _).1 a3
  obtain ⟨b1, b2, -⟩ := fmt_prefix (r := []) (r' := []) (roundTo_nonneg c.2.le) (roundTo_nonneg c'.2.le)
    (by rw [List.append_nil, List.append_nil]; exact a3)
  exact ⟨by rw [hm.1, a2, b2], hm.1, far _ _ a1, far _ _ b1⟩

/-- What the spacing of an element is: increasing in every direction. -/
def Increasing (sp : Fin 3 → ℚ × ℚ) : Prop := ∀ i, (sp i).1 < (sp i).2

/-- **C87, marks.**  Trace elements of orthogonal regions with the same mark are perpendicular to the same axis and have nearly
the same sizes *in their regions*; no mark is a proper prefix of another. -/
theorem c87_marks (id id' : Nat) (L L' : Fin 3 → ℚ) {sp sp' : Fin 3 → ℚ × ℚ} (s s' : Side) {m m' : Key}
    (h : teMark id (.orthogonal L) sp s = some (.inl m)) (h' : teMark id' (.orthogonal L') sp' s' = some (.inl m'))
    (hm : m <+: m') : m = m' ∧ perpTo s = perpTo s' ∧
      ∀ k, |((sp (along s k)).2 - (sp (along s k)).1) - ((sp' (along s' k)).2 - (sp' (along s' k)).1)| ≤ 0.000011 := by
  rw [teMark_orth, Option.map_eq_some_iff] at h h'
  obtain ⟨a, ha, e⟩ := h
  obtain ⟨a', ha', e'⟩ := h'
  cases e
  cases e'
  obtain ⟨h1, h2, h3, h4⟩ := orthTe_prefix ha ha' hm
  refine ⟨h1, h2, fun k => ?_⟩
  fin_cases k
  · exact h3
  · exact h4

/-- **C87, kinds of trace elements.**  For an element with increasing spacing: marks exist in all regions but the transfinite ones;
a trace element is taken to be orthogonal exactly in orthogonal regions and in crazy regions that are not deformed; the
other marks are the ids of the objects. -/
theorem c87_kinds (id : Nat) (r : RegionType) {sp : Fin 3 → ℚ × ℚ} (hs : Increasing sp) (s : Side) :
    (teMark id r sp s = none ↔ r = .transfinite) ∧
    ∀ m, teMark id r sp s = some m →
      (orthogonal m = true ↔ (∃ L, r = .orthogonal L) ∨ ∃ L, r = .crazy 0 L) ∧ (orthogonal m = false → m = .inr id) := by
  have key : ∃ k, orthTe (perpTo s) ((sp (along s 0)).2 - (sp (along s 0)).1)
      ((sp (along s 1)).2 - (sp (along s 1)).1) = some k ∧ k.take 4 = "Orth".toList := by
    rw [orthTe, if_pos ⟨by linarith [hs (along s 0)], by linarith [hs (along s 1)]⟩]
    exact ⟨_, rfl, by simp⟩
  obtain ⟨k, hk, h4⟩ := key
  have o : orthogonal (.inl k) = true := by simp [orthogonal, h4]
  cases r with
  | orthogonal L =>
    rw [teMark_orth, hk]
    refine ⟨by simp, fun m hm => ?_⟩
    simp at hm
    subst hm
    simp [o]
  | crazy c L =>
    have e : teMark id (.crazy c L) sp s = if c = 0 then teMark id (.orthogonal L) sp s else some (.inr id) := by
      cases s <;> simp [teMark, classify, teSizes, teSpacing, diff]
    rw [e, teMark_orth, hk]
    split_ifs with hc
    · refine ⟨by simp, fun m hm => ?_⟩
      simp at hm
      subst hm
      simp [o, hc]
    · refine ⟨by simp, fun m hm => ?_⟩
      simp at hm
      subst hm
      simp [orthogonal, hc]
  | chaotic =>
    refine ⟨by simp [teMark, classify], fun m hm => ?_⟩
    simp [teMark, classify] at hm
    subst hm
    simp [orthogonal]
  | transfinite => exact ⟨by simp [teMark, classify], fun m hm => by simp [teMark, classify] at hm⟩

/-! ## The constant Jacobian -/

theorem constJac_orth (p : Char) (hp : p ≠ 'd') {d1 d2 : ℚ} {m : Key} (h : orthTe p d1 d2 = some m) :
    constJacobian (.inl m) = some (some (roundTo 5 (roundTo 6 d1) * roundTo 5 (roundTo 6 d2) / 4)) := by
  rw [orthTe] at h
  split_ifs at h with c
  rw [Option.some.injEq] at h
  subst h
  have dd : ∀ x, 'd' ∉ fmt 5 x := fmt_free (by decide) (by decide) 5
  have ho : orthogonal (.inl ("Orth.".toList ++ p :: ("d1".toList ++ (fmt 5 (roundTo 6 d1) ++ ("d2".toList ++ fmt 5 (roundTo 6 d2)))))) = true := by
    simp [orthogonal]
  have hs : split 'd' ("Orth.".toList ++ p :: ("d1".toList ++ (fmt 5 (roundTo 6 d1) ++ ("d2".toList ++ fmt 5 (roundTo 6 d2)))))
      = ["Orth.".toList ++ [p], '1' :: fmt 5 (roundTo 6 d1), '2' :: fmt 5 (roundTo 6 d2)] := by
    have e : "Orth.".toList ++ p :: ("d1".toList ++ (fmt 5 (roundTo 6 d1) ++ ("d2".toList ++ fmt 5 (roundTo 6 d2)))) =
      ("Orth.".toList ++ [p]) ++ 'd' :: (('1' :: fmt 5 (roundTo 6 d1)) ++ 'd' :: ('2' :: fmt 5 (roundTo 6 d2))) := by simp
    rw [e, split_at_sep _ _ _ (by simpa using hp.symm), split_at_sep _ _ _ (by simpa using dd _), split_free _ _ (by simpa using dd _)]
  rw [constJacobian, if_pos ho]
  simp only [hs, List.drop_succ_cons, List.drop_zero]
  rw [parse_fmt (by omega) (roundTo_nonneg c.1.le), parse_fmt (by omega) (roundTo_nonneg c.2.le)]
  rfl

theorem perpTo_ne (s : Side) : perpTo s ≠ 'd' := by cases s <;> decide

/-- What is read is near to the size. -/
theorem read_near (x : ℚ) : |roundTo 5 (roundTo 6 x) - x| ≤ 0.0000055 := by
  have a := roundTo_near 6 x
  have b := roundTo_near 5 (roundTo 6 x)
  norm_num [abs_le] at a b ⊢
  constructor <;> linarith [a.1, a.2, b.1, b.2]

theorem rhe_int (z : ℤ) : rhe z = z := by simp [rhe]

theorem roundTo_exact {d : Nat} {x : ℚ} {z : ℤ} (h : x * 10 ^ d = z) : roundTo d x = x := by
  have p : (0 : ℚ) < 10 ^ d := by positivity
  rw [roundTo, h, rhe_int, ← h, mul_div_cancel_right₀ _ p.ne']

theorem read_exact {x : ℚ} {z : ℤ} (h : x * 10 ^ 5 = z) : roundTo 5 (roundTo 6 x) = x := by
  rw [roundTo_exact (d := 6) (z := z * 10) (by push_cast; rw [← h]; ring), roundTo_exact h]

/-- **C87, the constant Jacobian.**  It is a quarter of the product of the two sizes of the trace element in the region (each
known to within 0.0000055); there is none in crazy (deformed) and chaotic regions. -/
theorem c87_constant (id : Nat) (L : Fin 3 → ℚ) {sp : Fin 3 → ℚ × ℚ} (hs : Increasing sp) (s : Side) :
    (∃ m, ∃ r : Fin 2 → ℚ, teMark id (.orthogonal L) sp s = some m ∧
      constJacobian m = some (some (r 0 * r 1 / 4)) ∧ ∀ k : Fin 2, |r k - ((sp (along s k)).2 - (sp (along s k)).1)| ≤ 0.0000055) ∧
    constJacobian (.inr id) = some none := by
  refine ⟨?_, rfl⟩
  obtain ⟨k, hk⟩ : ∃ k, orthTe (perpTo s) ((sp (along s 0)).2 - (sp (along s 0)).1)
      ((sp (along s 1)).2 - (sp (along s 1)).1) = some k := by
    rw [orthTe, if_pos ⟨by linarith [hs (along s 0)], by linarith [hs (along s 1)]⟩]
    exact ⟨_, rfl⟩
  refine ⟨.inl k, fun k => roundTo 5 (roundTo 6 ((sp (along s k)).2 - (sp (along s k)).1)), by rw [teMark_orth, hk]; rfl,
    constJac_orth _ (perpTo_ne s) hk, fun k => read_near _⟩

/-! ## Trace elements of orthogonal regions -/

/-- The half sizes of the characteristic element. -/
noncomputable def half (t : Te) (i : Fin 3) : ℝ := (t.len i * t.dif i / 2 : ℚ)

theorem el_J (t : Te) (v : Fin 3 → ℝ) (j l : Fin 3) : t.el.J v j l = if j = l then half t j else 0 := by
  fin_cases j <;> fin_cases l <;>
    simp [Te.el, Metric.Three.jacobianMatrix, Region.Three.orthogonalJ, half, Te.len, mul_div_assoc]

theorem te_metric (t : Te) (s : Side) (v : Fin 3 → ℝ) :
    metricAt t.el s v = (half t (along s 0) * half t (along s 1)) ^ 2 := by
  cases s <;> simp [metricAt, gramAt, jacAt, el_J, along] <;> ring

/-- Lengths and sizes are positive. -/
def _root_.Mifem.TraceMark.Te.Ok (t : Te) : Prop := Increasing t.b ∧ Increasing t.sp

theorem half_pos' {t : Te} (h : t.Ok) (i : Fin 3) : 0 < half t i := by
  have a := h.1 i
  have b := h.2 i
  rw [half]
  have : 0 < t.len i * t.dif i / 2 := by
    have a' : 0 < t.len i := sub_pos.2 a
    have b' : 0 < t.dif i := sub_pos.2 b
    positivity
  exact_mod_cast this

theorem te_iG {t : Te} (h : t.Ok) (s : Side) (v : Fin 3 → ℝ) (i j : Fin 2) :
    iGAt t.el s v i j = if i = j then (half t (along s i))⁻¹ ^ 2 else 0 := by
  have h0 := (half_pos' h 0).ne'
  have h1 := (half_pos' h 1).ne'
  have h2 := (half_pos' h 2).ne'
  cases s <;> fin_cases i <;> fin_cases j <;>
    simp [iGAt, iJAt, Metric.Three.inverse, el_J, along] <;> field_simp

theorem tb_perpTo (nx ny nz xs ys zs : List ℝ) {s s' : Side} (h : perpTo s = perpTo s') :
    along s = along s' ∧ fam s = fam s' ∧ tb0 nx ny nz xs ys zs s = tb0 nx ny nz xs ys zs s' ∧
      tb1 nx ny nz xs ys zs s = tb1 nx ny nz xs ys zs s' ∧ tb2 nx ny nz xs ys zs s = tb2 nx ny nz xs ys zs s' := by
  cases s <;> cases s' <;> first | (simp [perpTo] at h; done) | exact ⟨rfl, rfl, rfl, rfl, rfl⟩

/-- **C87, same size.**  Two trace elements of orthogonal regions that are perpendicular to the same axis and have the same
physical sizes have the same mass matrices. -/
theorem c87_same (nx ny nz xs ys zs : List ℝ) {t t' : Te} (h : t.Ok) (h' : t'.Ok) (ha : perpTo t.s = perpTo t'.s)
    (hd : ∀ k, t.len (along t.s k) * t.dif (along t.s k) = t'.len (along t.s k) * t'.dif (along t.s k)) (orth : Bool) (q : Nat → ℝ) :
    mass0 nx ny nz xs ys zs t.el t.s q = mass0 nx ny nz xs ys zs t'.el t'.s q ∧
    mass1 nx ny nz xs ys zs t.el t.s orth q = mass1 nx ny nz xs ys zs t'.el t'.s orth q ∧
    mass2 nx ny nz xs ys zs t.el t.s q = mass2 nx ny nz xs ys zs t'.el t'.s q := by
  obtain ⟨e1, e2, e3, e4, e5⟩ := tb_perpTo nx ny nz xs ys zs ha
  have hh : ∀ k, half t (along t'.s k) = half t' (along t'.s k) := fun k => by rw [half, half, ← e1, hd k]
  refine ⟨?_, ?_, ?_⟩
  · funext i j
    simp only [mass0, ltMass0, te_metric, e1, e3, hh]
  · funext i j
    simp only [mass1, te_metric, te_iG h, te_iG h', e1, e2, e4, hh]
  · funext i j
    simp only [mass2, ltMass2, te_metric, e1, e5, hh]

theorem key_eq {t : Te} (h : t.Ok) : ∃ m, t.key = some m ∧ teMark 0 (.orthogonal t.len) t.sp t.s = some (.inl m) := by
  obtain ⟨k, hk⟩ : ∃ k, orthTe (perpTo t.s) ((t.sp (along t.s 0)).2 - (t.sp (along t.s 0)).1)
      ((t.sp (along t.s 1)).2 - (t.sp (along t.s 1)).1) = some k := by
    rw [orthTe, if_pos ⟨by linarith [h.2 (along t.s 0)], by linarith [h.2 (along t.s 1)]⟩]
    exact ⟨_, rfl⟩
  have e : teMark 0 (.orthogonal t.len) t.sp t.s = some (.inl k) := by rw [teMark_orth, hk]; rfl
  exact ⟨k, by rw [Te.key, e], e⟩

/-- **C87, caches (partial).**  All trace elements lie in regions of the same lengths, and any two of them that are perpendicular
to the same axis have the same two sizes in their regions or differ by more than 0.000011 in one of them: then every trace
element gets its own matrix out of the cache.  Missing: regions of different lengths, for which it is false
(`c87_cached_counterexample`), and nearly equal sizes. -/
theorem c87_cached_partial (nx ny nz xs ys zs : List ℝ) (T : List Te) (hok : ∀ t ∈ T, t.Ok)
    (hlen : ∀ t ∈ T, ∀ t' ∈ T, t.len = t'.len)
    (hsep : ∀ t ∈ T, ∀ t' ∈ T, perpTo t.s = perpTo t'.s → (∀ k, t.dif (along t.s k) = t'.dif (along t.s k)) ∨
      ∃ k, 0.000011 < |t.dif (along t.s k) - t'.dif (along t.s k)|) (orth : Bool) (q : Nat → ℝ) :
    cached (T.map fun t => (t.key, mass0 nx ny nz xs ys zs t.el t.s q)) [] = T.map (fun t => mass0 nx ny nz xs ys zs t.el t.s q) ∧
    cached (T.map fun t => (t.key, mass1 nx ny nz xs ys zs t.el t.s orth q)) [] =
      T.map (fun t => mass1 nx ny nz xs ys zs t.el t.s orth q) ∧
    cached (T.map fun t => (t.key, mass2 nx ny nz xs ys zs t.el t.s q)) [] = T.map (fun t => mass2 nx ny nz xs ys zs t.el t.s q) := by
  have same : ∀ t ∈ T, ∀ t' ∈ T, ∀ k, t.key = some k → t'.key = some k → perpTo t.s = perpTo t'.s ∧
      ∀ k, t.len (along t.s k) * t.dif (along t.s k) = t'.len (along t.s k) * t'.dif (along t.s k) := by
    intro t ht t' ht' k hk hk'
    obtain ⟨m, h1, h2⟩ := key_eq (hok t ht)
    obtain ⟨m', h1', h2'⟩ := key_eq (hok t' ht')
    rw [h1, Option.some.injEq] at hk
    rw [h1', Option.some.injEq] at hk'
    subst hk hk'
    obtain ⟨-, ha, hd⟩ := c87_marks 0 0 _ _ _ _ h2 h2' (List.prefix_refl _)
    refine ⟨ha, fun k => ?_⟩
    rw [hlen t ht t' ht']
    rcases hsep t ht t' ht' ha with h | ⟨k', h⟩
    · rw [h k]
    · have := hd k'
      rw [← (tb_perpTo [] [] [] [] [] [] ha).1] at this
      exact absurd this (not_le.2 h)
  have main : ∀ {α : Type} (f : Te → α), (∀ t ∈ T, ∀ t' ∈ T, perpTo t.s = perpTo t'.s →
      (∀ k, t.len (along t.s k) * t.dif (along t.s k) = t'.len (along t.s k) * t'.dif (along t.s k)) → f t = f t') →
      cached (T.map fun t => (t.key, f t)) [] = T.map f := by
    intro α f hf
    rw [c86_cached]
    · simp
    · intro k v v' hv hv'
      simp only [List.mem_map, Prod.mk.injEq] at hv hv'
      obtain ⟨t, ht, h1, rfl⟩ := hv
      obtain ⟨t', ht', h1', rfl⟩ := hv'
      obtain ⟨a, b⟩ := same t ht t' ht' k h1 h1'
      exact hf t ht t' ht' a b
  refine ⟨main _ fun t ht t' ht' a b => ?_, main _ fun t ht t' ht' a b => ?_, main _ fun t ht t' ht' a b => ?_⟩
  · exact (c87_same _ _ _ _ _ _ (hok t ht) (hok t' ht') a b orth q).1
  · exact (c87_same _ _ _ _ _ _ (hok t ht) (hok t' ht') a b orth q).2.1
  · exact (c87_same _ _ _ _ _ _ (hok t ht) (hok t' ht') a b orth q).2.2

/-- The unit cube and a cube of side 2 as one element each, side `N`. -/
def unitTe : Te := ⟨fun _ => (0, 1), fun _ => (0, 1), .N⟩
@[inherit_doc unitTe] def bigTe : Te := ⟨fun _ => (0, 2), fun _ => (0, 1), .N⟩

theorem mass0_one (t : Te) (h : t.Ok) (hs : t.s = .N) : mass0 [-1, 1] [-1, 1] [-1, 1] [0] [0] [0] t.el t.s (fun _ => 1) 0 0 =
    half t 1 * half t 2 / 16 := by
  have h1 := half_pos' h 1
  have h2 := half_pos' h 2
  simp only [mass0, ltMass0, te_metric, hs, along]
  simp [Real.sqrt_sq (mul_nonneg h1.le h2.le), wsum, tb0, Basis.kron, Basis.nodeBasis, Basis.lagrangeAt, Basis.offDiag, Basis.node, List.range_succ]
  norm_num
  ring

/-- **C87: the caches mix up regions.**  A unit cube and a cube of side 2 (two regions, one element each): the second trace element
gets the mass matrix of the first, which is a quarter of its own. -/
theorem c87_cached_counterexample :
    unitTe.Ok ∧ bigTe.Ok ∧ unitTe.key = bigTe.key ∧
    let M : Te → ℝ := fun t => mass0 [-1, 1] [-1, 1] [-1, 1] [0] [0] [0] t.el t.s (fun _ => 1) 0 0
    cached ([unitTe, bigTe].map fun t => (t.key, M t)) [] = [1 / 64, 1 / 64] ∧ [unitTe, bigTe].map M = [1 / 64, 1 / 16] := by
  have u : unitTe.Ok := ⟨fun _ => by norm_num [unitTe], fun _ => by norm_num [unitTe]⟩
  have b : bigTe.Ok := ⟨fun _ => by norm_num [bigTe], fun _ => by norm_num [bigTe]⟩
  have e : unitTe.key = bigTe.key := rfl
  have mu : mass0 [-1, 1] [-1, 1] [-1, 1] [0] [0] [0] unitTe.el unitTe.s (fun _ => 1) 0 0 = 1 / 64 := by
    rw [mass0_one _ u rfl]; norm_num [half, unitTe, Te.len, Te.dif]
  have mb : mass0 [-1, 1] [-1, 1] [-1, 1] [0] [0] [0] bigTe.el bigTe.s (fun _ => 1) 0 0 = 1 / 16 := by
    rw [mass0_one _ b rfl]; norm_num [half, bigTe, Te.len, Te.dif]
  refine ⟨u, b, e, ?_⟩
  obtain ⟨k, hk, -⟩ := key_eq b
  intro M
  have mu' : M unitTe = 1 / 64 := mu
  have mb' : M bigTe = 1 / 16 := mb
  simp [cached, e, hk, mu', mb']

theorem te_area {t : Te} (h : t.Ok) (σ τ : ℝ) : areaEl t.el t.s σ τ =
    ((t.len (along t.s 0) * t.dif (along t.s 0) * (t.len (along t.s 1) * t.dif (along t.s 1)) / 4 : ℚ) : ℝ) := by
  have h0 := half_pos' h (along t.s 0)
  have h1 := half_pos' h (along t.s 1)
  have e : metric t.el t.s σ τ = (half t (along t.s 0) * half t (along t.s 1)) ^ 2 := by
    rw [← metricAt_side, te_metric]
  rw [← metric_area, e, Real.sqrt_sq (mul_nonneg h0.le h1.le), half, half]
  push_cast
  ring

/-- **C87, the constant Jacobian (partial).**  If the lengths of the region along the trace element multiply to 1 and the sizes have
at most five decimals, the constant Jacobian is the area element of the trace element.  Missing: other lengths, for which
it is false (`c87_jacobian_counterexample`). -/
theorem c87_jacobian_partial (id : Nat) {t : Te} (h : t.Ok) (hL : t.len (along t.s 0) * t.len (along t.s 1) = 1)
    (hd : ∀ k, ∃ z : ℤ, t.dif (along t.s k) * 10 ^ 5 = z) (σ τ : ℝ) :
    ∃ m r, teMark id (.orthogonal t.len) t.sp t.s = some m ∧ constJacobian m = some (some r) ∧ (r : ℝ) = areaEl t.el t.s σ τ := by
  obtain ⟨k, hk⟩ : ∃ k, orthTe (perpTo t.s) (t.dif (along t.s 0)) (t.dif (along t.s 1)) = some k := by
    rw [orthTe, if_pos ⟨sub_pos.2 (h.2 (along t.s 0)), sub_pos.2 (h.2 (along t.s 1))⟩]
    exact ⟨_, rfl⟩
  refine ⟨.inl k, _, by rw [teMark_orth]; exact congrArg (Option.map Sum.inl) hk, constJac_orth _ (perpTo_ne t.s) hk, ?_⟩
  obtain ⟨z0, h0⟩ := hd 0
  obtain ⟨z1, h1⟩ := hd 1
  rw [te_area h, read_exact h0, read_exact h1]
  congr 1
  linear_combination (-(t.dif (along t.s 0) * t.dif (along t.s 1)) / 4) * hL

/-- **C87: the constant Jacobian ignores the size of the region.**  In a cube of side 2 with one element the area element is 1;
the constant Jacobian says 1/4. -/
theorem c87_jacobian_counterexample (id : Nat) : bigTe.Ok ∧
    (∃ m, teMark id (.orthogonal bigTe.len) bigTe.sp bigTe.s = some m ∧ constJacobian m = some (some (1 / 4))) ∧
    ∀ σ τ, areaEl bigTe.el bigTe.s σ τ = 1 := by
  have b : bigTe.Ok := ⟨fun _ => by norm_num [bigTe], fun _ => by norm_num [bigTe]⟩
  obtain ⟨k, hk⟩ : ∃ k, orthTe 'x' (bigTe.dif 1) (bigTe.dif 2) = some k := by
    rw [orthTe, if_pos ⟨sub_pos.2 (b.2 1), sub_pos.2 (b.2 2)⟩]
    exact ⟨_, rfl⟩
  have d1 : ∀ i, roundTo 5 (roundTo 6 (bigTe.dif i)) = 1 := fun i => by
    have : bigTe.dif i = 1 := by norm_num [bigTe, Te.dif]
    rw [this]
    exact read_exact (z := 100000) (by norm_num)
  refine ⟨b, ⟨.inl k, by rw [teMark_orth]; exact congrArg (Option.map Sum.inl) hk, ?_⟩, fun σ τ => ?_⟩
  · rw [constJac_orth _ (by decide) hk, d1, d1]; norm_num
  · rw [te_area b]; norm_num [bigTe, Te.len, Te.dif, along]

/-! ## 2D -/

/-- **C87, 2D.**  The constant Jacobian of a trace element of an orthogonal 2D element with the lengths `L` is half the length of
the edge, to within 0.0000275: the second length for the edges `U`, `D`, the first one for `L`, `R`. -/
theorem c87_two (L : Fin 2 → ℚ) (h : ∀ i, 0 < L i) (ud : Bool) :
    ∃ r, constJacobian2 (.inl (orth2 L)) ud = some (some r) ∧ |r - (if ud then L 1 else L 0) / 2| ≤ 0.0000275 := by
  have near : ∀ x : ℚ, |roundTo 4 (roundTo 5 x) / 2 - x / 2| ≤ 0.0000275 := by
    intro x
    have a := roundTo_near 5 x
    have b := roundTo_near 4 (roundTo 5 x)
    norm_num [abs_le] at a b ⊢
    constructor <;> linarith [a.1, a.2, b.1, b.2]
  have n0 := roundTo_nonneg (d := 5) (h 0).le
  have n1 := roundTo_nonneg (d := 5) (h 1).le
  have r0 := near (L 0)
  have r1 := near (L 1)
  have fx : ∀ x, 'x' ∉ fmt 4 x := fmt_free (by decide) (by decide) 4
  have fy : ∀ x, 'y' ∉ fmt 4 x := fmt_free (by decide) (by decide) 4
  have e4 : ∀ r : Key, (("Orth.".toList ++ r).take 4 == "Orth".toList) = true := fun r => by simp
  have e5 : ∀ r : Key, ("Orth.".toList ++ r).drop 5 = r := fun r => by simp
  have e6 : ∀ r : Key, ("Orth.".toList ++ 'x' :: r).drop 6 = r := fun r => by simp
  by_cases c : roundTo 5 (L 0) = roundTo 5 (L 1)
  · have e : orth2 L = "Orth.".toList ++ fmt 4 (roundTo 5 (L 0)) := by simp only [orth2, if_pos c]
    simp only [e, constJacobian2, e4, if_true]
    rw [if_neg (by simpa using fx _), e5, parse_fmt (by omega) n0]
    refine ⟨_, rfl, ?_⟩
    cases ud
    · exact r0
    · rw [c]; exact r1
  · have e : orth2 L = "Orth.".toList ++ 'x' :: (fmt 4 (roundTo 5 (L 0)) ++ 'y' :: fmt 4 (roundTo 5 (L 1))) := by
      simp only [orth2, if_neg c]
    simp only [e, constJacobian2, e4, if_true]
    rw [if_pos (by simp), e6, split_at_sep _ _ _ (fy _), split_free _ _ (fy _)]
    cases ud
    · simp only [Bool.false_eq_true, if_false]
      rw [parse_fmt (by omega) n0]
      exact ⟨_, rfl, r0⟩
    · simp only [if_true]
      rw [parse_fmt (by omega) n1]
      exact ⟨_, rfl, r1⟩

/-! ## Cases that meet the hypotheses -/

/-- A region of lengths 2, 1/2, 2 with two layers: along `N` the lengths multiply to 1, and the Jacobian is right. -/
example : ∃ m r, teMark 7 (.orthogonal (Te.len ⟨![(0, 3), (0, 1 / 2), (1, 3)], ![(0, 1), (1 / 4, 1 / 2), (0, 1)], .N⟩))
      ![(0, 1), (1 / 4, 1 / 2), (0, 1)] .N = some m ∧ constJacobian m = some (some r) ∧
      (r : ℝ) = areaEl (Te.el ⟨![(0, 3), (0, 1 / 2), (1, 3)], ![(0, 1), (1 / 4, 1 / 2), (0, 1)], .N⟩) .N 0 0 := by
  refine c87_jacobian_partial 7 (t := ⟨![(0, 3), (0, 1 / 2), (1, 3)], ![(0, 1), (1 / 4, 1 / 2), (0, 1)], .N⟩) ⟨?_, ?_⟩ ?_ ?_ 0 0
  · intro i; fin_cases i <;> norm_num
  · intro i; fin_cases i <;> norm_num
  · simp [Te.len, along]; norm_num
  · intro k
    fin_cases k
    · exact ⟨25000, by norm_num [Te.dif, along]⟩
    · exact ⟨100000, by simp [Te.dif, along]; norm_num⟩

/-- Marks of two sides of an element of a crazy region. -/
example : teMark 3 (.crazy 0 fun _ => 2) (fun i => if i = 0 then (0, 1 / 2) else (0, 1 / 4)) .E =
    some (.inl "Orth.yd10.25000d20.50000".toList) ∧
    teMark 3 (.crazy (1 / 10) fun _ => 2) (fun i => if i = 0 then (0, 1 / 2) else (0, 1 / 4)) .E = some (.inr 3) := by
  decide +kernel

/-- Six sides of an element and of its neighbour: cached matrices are the own ones. -/
example (q : Nat → ℝ) :
    let T : List Te := [⟨fun _ => (0, 1), ![(0, 1 / 2), (0, 1), (0, 1)], .N⟩, ⟨fun _ => (0, 1), ![(0, 1 / 2), (0, 1), (0, 1)], .W⟩,
      ⟨fun _ => (0, 1), ![(1 / 2, 1), (0, 1), (0, 1)], .S⟩, ⟨fun _ => (0, 1), ![(1 / 2, 1), (0, 1), (0, 1)], .E⟩]
    cached (T.map fun t => (t.key, mass0 [-1, 0, 1] [-1, 1] [-1, 1] [0] [0] [0] t.el t.s q)) [] =
      T.map (fun t => mass0 [-1, 0, 1] [-1, 1] [-1, 1] [0] [0] [0] t.el t.s q) := by
  intro T
  refine (c87_cached_partial _ _ _ _ _ _ T ?_ ?_ ?_ true q).1
  · simp only [T, List.forall_mem_cons]
    simp [Te.Ok, Increasing, Fin.forall_fin_succ]
    norm_num
  · simp only [T, List.forall_mem_cons]
    simp [Te.len, funext_iff]
  · simp only [T, List.forall_mem_cons]
    simp [Te.dif, perpTo, along, Fin.forall_fin_two]
    norm_num

end Mifem.Props
