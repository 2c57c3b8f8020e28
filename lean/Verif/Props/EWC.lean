import Verif.Lemmas.EWC

/-!
# C12, C13, C14 — element-wise cached matrices and vectors

* C12: reading an element of an EWC object gives what its data generator produces.
* C13: sums and differences of EWC vectors (false in general; see the counterexample).
* C14: arithmetic of EWC matrices with customizations (false in general; see the counterexamples).
-/

namespace Mifem.Props

open Mifem.EWC

variable {β : Type}

/-! ## Specification -/

/-- Customizations after an event, as the user understands them. -/
def custAfter (cu : Nat → Nat → β → β) : Event β → (Nat → Nat → β → β)
  | .read _ _ => cu
  | .customize n e g => fun m j b => if m = n ∧ j = e then g (cu m j b) else cu m j b

/-- `V n i` is the meaning of `n[i]` under the customizations `cu`: user data for a leaf; for the
result of an operation, the operation applied to the operands' `[i]` as the user sees them; in both
cases followed by the customizations of `n` itself. -/
def IsMeaning (h : Heap β) (E : List Nat) (cu : Nat → Nat → β → β) (V : Nat → Nat → β) : Prop :=
  ∀ n nd, h[n]? = some nd → ∀ i ∈ E, V n i = cu n i
    (match nd with
      | .leaf dg _ => dg i
      | .op f args _ => f (args.map (fun a => V a i))
      | .bmat f args => f (args.map (fun a => V a i)))

/-- The values a history should produce: every read of `n[i]` gives its meaning at that time. -/
def Expected (h : Heap β) (E : List Nat) : List (Event β) → (Nat → Nat → β → β) → List β → Prop
  | [], _, out => out = []
  | .read n i :: es, cu, out => ∃ V rest, IsMeaning h E cu V ∧ out = V n i :: rest ∧
      Expected h E es cu rest
  | .customize n e g :: es, cu, out => Expected h E es (custAfter cu (.customize n e g)) out

/-- The same for a single object with data `dg`. -/
def ExpectedLeaf (dg : Nat → β) : List (Event β) → (Nat → Nat → β → β) → List β
  | [], _ => []
  | .read n i :: es, cu => cu n i (dg i) :: ExpectedLeaf dg es cu
  | .customize n e g :: es, cu => ExpectedLeaf dg es (custAfter cu (.customize n e g))

/-! ## C12 -/

theorem c12_step (dg : Nat → β) (kg : Nat → Key) (E : List Nat)
    (hon : Honest E dg kg False) {i : Nat} (hi : i ∈ E) (s : St β)
    (hn : NInv E dg kg False (s.c 0)) :
    ∃ s', get [Node.leaf dg kg] E 0 i s = some (s.cust 0 i (dg i), s') ∧
      NInv E dg kg False (s'.c 0) ∧ s'.cust = s.cust := by
  obtain ⟨s', h1, -, h3, -, h5⟩ := preGet_spec hon (n := 0) hi
    (fun k => keyF [Node.leaf dg kg] 1 0 i k)
    (dgOf (fun a s => getF [Node.leaf dg kg] E 0 a i s) (Node.leaf dg kg) i)
    (fun _ => True) (fun _ => True)
    (fun k _ => ⟨k, rfl, trivial⟩) (fun _ _ _ => trivial) (fun _ _ _ _ => trivial)
    (fun _ _ => trivial) (fun s _ => ⟨s, rfl, trivial, rfl, fun _ _ => rfl, rfl⟩) s trivial hn
  refine ⟨s', ?_, h3, h5⟩
  unfold EWC.get
  rw [getF, if_pos hi]
  simp only [List.getElem?_cons_zero]
  rw [h1]
  simp only [h5]

/-- **C12.** For one EWC object with data generator `dg` and key generator `kg`: whatever elements
are read, in whatever order, and whatever customizations are added in between, every read of
element `i` gives `dg i` (with the customizations of that element added so far), provided that

* two elements share a key only if they have the same data (keys containing the reserved word
  `'>NC<'` need not satisfy this), and
* the reserved key `'>CT<'` (or its repetitions) is used only when all elements have the same
  data. -/
theorem c12_cache_faithful (dg : Nat → β) (kg : Nat → Key) (E : List Nat)
    (hkey : ∀ i ∈ E, ∀ j ∈ E, kg i = kg j → ¬ ">NC<".toList <:+: kg i → dg i = dg j)
    (hct : ∀ i ∈ E, ∀ m, kg i = (List.replicate (m + 1) ">CT<".toList).flatten →
      ∀ j ∈ E, dg j = dg i)
    (es : List (Event β))
    (hes : ∀ e ∈ es, match e with | .read n i => n = 0 ∧ i ∈ E | .customize n _ _ => n = 0) :
    run [Node.leaf dg kg] E es St.init = some (ExpectedLeaf dg es (fun _ _ b => b)) := by
  have hon : Honest E dg kg False := by
    refine ⟨False.elim, False.elim, fun _ i hi j hj he hnc => hkey i hi j hj he hnc, ?_⟩
    rintro - i hi ⟨m, hm, he⟩
    obtain ⟨m, rfl⟩ : ∃ k, m = k + 1 := ⟨m - 1, by omega⟩
    exact hct i hi m he
  have main : ∀ (es : List (Event β)) (s : St β),
      (∀ e ∈ es, match e with | .read n i => n = 0 ∧ i ∈ E | .customize n _ _ => n = 0) →
      NInv E dg kg False (s.c 0) →
      run [Node.leaf dg kg] E es s = some (ExpectedLeaf dg es s.cust) := by
    intro es
    induction es with
    | nil => intro s _ _; rfl
    | cons e es ih =>
      intro s hes hs
      have hrest := fun e' he' => hes e' (List.mem_cons_of_mem e he')
      have he := hes e (by simp)
      cases e with
      | read n i =>
        obtain ⟨rfl, hi⟩ := he
        obtain ⟨s', h1, h2, h3⟩ := c12_step dg kg E hon hi s hs
        simp only [run, h1, ih s' hrest h2, Option.map_some, ExpectedLeaf, h3]
      | customize n e g =>
        simp only [run, ExpectedLeaf]
        exact ih (s.customize n e g) hrest hs
  exact main es St.init hes (NInv.init E dg kg False)

/-- Reading an element that is not in the mesh raises. -/
theorem c12_out_of_range (h : Heap β) (E : List Nat) (n i : Nat) (hi : i ∉ E) (s : St β) :
    EWC.get h E n i s = none := by
  unfold EWC.get; rw [getF, if_neg hi]

/-- The hypotheses of C12 are met by a key generator with two classes of elements. -/
example : run [Node.leaf (fun i => if i < 2 then (5 : Int) else 7)
      (fun i => if i < 2 then ['a'] else ['b'])] [0, 1, 2, 3]
    [.read 0 3, .read 0 0, .customize 0 1 (fun b => b + 100), .read 0 1, .read 0 2, .read 0 0]
    St.init = some [7, 5, 105, 7, 5] := by
  rw [c12_cache_faithful]
  · rfl
  · decide
  · intro i hi m he
    exfalso
    have h4 := congrArg List.length he
    rw [List.length_flatten, List.map_replicate, List.sum_replicate_nat] at h4
    have h5 : ((if i < 2 then ['a'] else ['b']) : List Char).length = 1 := by split <;> rfl
    have h6 : (">CT<".toList).length = 4 := by decide
    rw [h5, h6] at h4
    omega
  · simp

/-- The second condition of C12 cannot be dropped: a key generator that returns the reserved key for
one element only makes that element's data the data of all elements read later. -/
theorem c12_mixed_constant_key :
    run [Node.leaf (fun i => (i : Int)) (fun i => if i = 0 then CT else ['a'])] [0, 1]
      [.read 0 0, .read 0 1] St.init = some [0, 0] := by
  decide

/-! ## C14 -/

/-- How object `n` of a program may be built.  Leaves must be used as their key generator promises
(`LeafOK`); operations need older operands; only `v1 ± v2` of column vectors carries a condition:
`v1` is recomputed at every read, or `v2` is constant, or `v1` itself. -/
inductive Built [Inhabited β] (h : Heap β) (E : List Nat) (n : Nat) : Node β → Prop
  | leaf {dg : Nat → β} {kg : Nat → Key} (hok : LeafOK E dg kg) : Built h E n (.leaf dg kg)
  | unary (g : β → β) {a : Nat} (ha : a < n) : Built h E n (EWC.unary g a)
  | matBin (g : β → β → β) {a b : Nat} (ha : a < n) (hb : b < n) : Built h E n (EWC.matBin g a b)
  | psum (f : List β → β) {as : List Nat} (hne : as ≠ []) (has : ∀ a ∈ as, a < n) :
      Built h E n (EWC.psum f as)
  | bmat (f : List β → β) {as : List Nat} (hne : as ≠ []) (has : ∀ a ∈ as, a < n) :
      Built h E n (.bmat f as)
  | vecBin (g : β → β → β) {a b : Nat} (ha : a < n) (hb : b < n)
      (hkey : NoCache h E a ∨ AllConst h E b ∨ a = b) : Built h E n (EWC.vecBin g a b)

/-- A program: all its objects are built as above. -/
def Program [Inhabited β] (h : Heap β) (E : List Nat) : Prop :=
  ∀ n nd, h[n]? = some nd → Built h E n nd

theorem Program.good [Inhabited β] {h : Heap β} {E : List Nat} (hp : Program h E) :
    GoodHeap h E := by
  refine ⟨?_, ?_, ?_⟩
  · intro n nd hn a ha
    cases hp n nd hn with
    | leaf _ => simp [Node.args, Node.keyArgs] at ha
    | unary g h1 =>
      simp [EWC.unary, Node.args, Node.keyArgs] at ha
      omega
    | matBin g h1 h2 =>
      simp [EWC.matBin, Node.args, Node.keyArgs] at ha
      omega
    | psum f hne has =>
      simp only [EWC.psum, Node.args, Node.keyArgs, List.mem_append, or_self] at ha
      exact has a ha
    | bmat f hne has =>
      simp only [Node.args, Node.keyArgs, List.mem_append, or_self] at ha
      exact has a ha
    | vecBin g h1 h2 _ =>
      simp [EWC.vecBin, Node.args, Node.keyArgs] at ha
      omega
  · intro n dg kg hn
    cases hp n _ hn with
    | leaf hok => exact hok
  · intro n nd hn hl
    cases hp n nd hn with
    | leaf _ => exact absurd rfl (hl _ _)
    | unary g h1 => exact ⟨by simp [EWC.unary, Node.keyArgs], Or.inr (fun a ha => Or.inl ha)⟩
    | matBin g h1 h2 => exact ⟨by simp [EWC.matBin, Node.keyArgs], Or.inr (fun a ha => Or.inl ha)⟩
    | psum f hne has => exact ⟨hne, Or.inr (fun a ha => Or.inl ha)⟩
    | bmat f hne has => exact ⟨hne, Or.inr (fun a ha => Or.inl ha)⟩
    | vecBin g h1 h2 hk =>
      refine ⟨by simp [EWC.vecBin, Node.keyArgs], ?_⟩
      rcases hk with hk | hk | rfl
      · exact Or.inl (.node hn (by simp [EWC.vecBin, Node.keyArgs]) hk)
      · right
        intro x hx
        simp only [EWC.vecBin, Node.args, List.mem_cons, List.not_mem_nil, or_false] at hx
        rcases hx with rfl | rfl
        · exact Or.inl (by simp [EWC.vecBin, Node.keyArgs])
        · exact Or.inr hk
      · right
        intro x hx
        simp only [EWC.vecBin, Node.args, List.mem_cons, List.not_mem_nil, or_false, or_self] at hx
        subst hx
        exact Or.inl (by simp [EWC.vecBin, Node.keyArgs])

/-- A history the program can execute: it reads existing elements of existing objects, and it
customizes an object that is an operand of `n` only if `n` is recomputed at every read. -/
def Admissible (h : Heap β) (E : List Nat) (es : List (Event β)) : Prop :=
  ∀ e ∈ es, match e with
    | .read n i => n < h.length ∧ i ∈ E
    | .customize t _ _ => ∀ n (nd : Node β), h[n]? = some nd → t ∈ nd.args → NoCache h E n

theorem isMeaning_den [Inhabited β] {h : Heap β} {E : List Nat} (hw : WF h)
    (cu : Nat → Nat → β → β) :
    IsMeaning h E cu (fun n i => cu n i (den h cu n i)) := by
  intro n nd hn i _
  simp only
  rw [den_eq hw cu hn]
  cases nd <;> rfl

theorem custOK_after {h : Heap β} {E : List Nat} {cu : Nat → Nat → β → β} (hcu : CustOK h E cu)
    {t e : Nat} {g : β → β} (ht : ∀ n (nd : Node β), h[n]? = some nd → t ∈ nd.args → NoCache h E n) :
    CustOK h E (custAfter cu (.customize t e g)) := by
  intro n nd hn hnc a ha i b
  simp only [custAfter]
  by_cases hat : a = t
  · subst hat; exact absurd (ht n nd hn ha) hnc
  · rw [if_neg (fun hx => hat hx.1)]; exact hcu n nd hn hnc a ha i b

theorem run_spec [Inhabited β] {h : Heap β} {E : List Nat} (hg : GoodHeap h E) (hE : E ≠ []) :
    ∀ (es : List (Event β)) (cu : Nat → Nat → β → β) (s : St β), Admissible h E es →
      CustOK h E cu → GInv h E cu h.length s →
      ∃ out, run h E es s = some out ∧ Expected h E es cu out := by
  intro es
  induction es with
  | nil => intro cu s _ _ _; exact ⟨[], rfl, rfl⟩
  | cons e es ih =>
    intro cu s hes hcu hs
    have hrest : Admissible h E es := fun e' he' => hes e' (List.mem_cons_of_mem e he')
    have he := hes e (by simp)
    cases e with
    | read n i =>
      obtain ⟨hn, hi⟩ := he
      obtain ⟨s', h1, h2, -, -⟩ := getF_spec hg hE hcu hi (n + 1) n (by omega) hn h.length hn s hs
      obtain ⟨rest, h3, h4⟩ := ih cu s' hrest hcu h2
      refine ⟨cu n i (den h cu n i) :: rest, ?_, _, rest, isMeaning_den hg.1 cu, rfl, h4⟩
      have h1' : EWC.get h E n i s = some (cu n i (den h cu n i), s') := h1
      simp only [run, h1', h3, Option.map_some]
    | customize n e g =>
      have hcu' := custOK_after (e := e) (g := g) hcu he
      have hs' : GInv h E (custAfter cu (.customize n e g)) h.length (s.customize n e g) :=
        hs.change hg hE hcu hcu' _ rfl rfl (by simp only [St.customize, custAfter, hs.cust])
      obtain ⟨out, h1, h2⟩ := ih _ _ hrest hcu' hs'
      exact ⟨out, h1, h2⟩

/-- **C14, partial.**  Take any program whose EWC objects are built as `Program` says, and any
history of reads (all objects, any elements, any order) mixed with customizations of single
elements.  Then every read of every object gives its meaning: the operation applied to the operands
*as the user sees them*.

Missing with respect to C14: customizing an operand of a *cached* object (see
`c14_customized_operand`), and key generators with a key that is a prefix of another one
(`c14_ambiguous_keys`); both make the code return wrong data. -/
theorem c14_partial [Inhabited β] (h : Heap β) (E : List Nat) (hE : E ≠ []) (hp : Program h E)
    (es : List (Event β)) (hes : Admissible h E es) :
    ∃ out, run h E es St.init = some out ∧ Expected h E es (fun _ _ b => b) out :=
  run_spec hp.good hE es _ _ hes (fun _ _ _ _ _ _ _ _ => rfl) (GInv.init h E h.length)

/-- Reads after a history: the state reached, and what is then read. -/
theorem run_append {h : Heap β} {E : List Nat} :
    ∀ (es es' : List (Event β)) (s : St β) (out : List β), run h E (es ++ es') s = some out →
      ∃ o1 o2 s', run h E es s = some o1 ∧ run h E es' s' = some o2 ∧ out = o1 ++ o2 := by
  intro es
  induction es with
  | nil => intro es' s out ho; exact ⟨[], out, s, rfl, ho, rfl⟩
  | cons e es ih =>
    intro es' s out ho
    cases e with
    | read n i =>
      simp only [List.cons_append, run] at ho
      cases hg : EWC.get h E n i s with
      | none => rw [hg] at ho; simp at ho
      | some p =>
        obtain ⟨v, s1⟩ := p
        rw [hg] at ho
        simp only [Option.map_eq_some_iff] at ho
        obtain ⟨out', ho', rfl⟩ := ho
        obtain ⟨o1, o2, s', h1, h2, rfl⟩ := ih es' s1 out' ho'
        exact ⟨v :: o1, o2, s', by simp only [run, hg, h1, Option.map_some], h2, rfl⟩
    | customize n e g =>
      simp only [List.cons_append, run] at ho
      obtain ⟨o1, o2, s', h1, h2, rfl⟩ := ih es' _ out ho
      exact ⟨o1, o2, s', by simp only [run, h1], h2, rfl⟩

theorem expected_append {h : Heap β} {E : List Nat} :
    ∀ (es es' : List (Event β)) (cu : Nat → Nat → β → β) (out : List β),
      Expected h E (es ++ es') cu out →
      ∃ o1 o2, out = o1 ++ o2 ∧ Expected h E es' (es.foldl custAfter cu) o2 := by
  intro es
  induction es with
  | nil => intro es' cu out ho; exact ⟨[], out, rfl, ho⟩
  | cons e es ih =>
    intro es' cu out ho
    cases e with
    | read n i =>
      obtain ⟨V, rest, -, rfl, ho'⟩ := ho
      obtain ⟨o1, o2, rfl, h2⟩ := ih es' cu rest ho'
      exact ⟨V n i :: o1, o2, rfl, h2⟩
    | customize n e g => exact ih es' _ out ho

theorem meaning_unique {h : Heap β} {E : List Nat} (hw : WF h) {cu : Nat → Nat → β → β}
    {V W : Nat → Nat → β} (hV : IsMeaning h E cu V) (hW : IsMeaning h E cu W) {i : Nat}
    (hi : i ∈ E) : ∀ n < h.length, V n i = W n i := by
  intro n
  induction n using Nat.strong_induction_on with
  | _ n ih =>
    intro hn
    obtain ⟨nd, hnd⟩ : ∃ nd, h[n]? = some nd := ⟨_, List.getElem?_eq_getElem hn⟩
    have hsub : ∀ a ∈ nd.args, V a i = W a i := fun a ha => by
      have := hw n nd hnd a (List.mem_append_left _ ha)
      exact ih a this (by omega)
    rw [hV n nd hnd i hi, hW n nd hnd i hi]
    congr 1
    cases nd with
    | leaf dg kg => rfl
    | op f args ka => simp only; congr 1; exact List.map_congr_left hsub
    | bmat f args => simp only; congr 1; exact List.map_congr_left hsub

/-- Reading `A[i]`, `B[i]` and then `C[i]` where `C` is the result of a binary operation on `A` and
`B`: in terms of the values read.  `C` itself is not customized. -/
theorem binary_reads [Inhabited β] (h : Heap β) (E : List Nat) (hE : E ≠ []) (hp : Program h E)
    (es : List (Event β)) (hes : Admissible h E es) (g : β → β → β) (a b c : Nat) (ka : List Nat)
    (hc : h[c]? = some (.op (lift2 g) [a, b] ka)) (i : Nat) (hi : i ∈ E)
    (hnc : ∀ e f, Event.customize c e f ∉ es) :
    ∃ pre x y, run h E (es ++ [.read a i, .read b i, .read c i]) St.init =
      some (pre ++ [x, y, g x y]) := by
  have hw := hp.good.1
  have hclt : c < h.length := (List.getElem?_eq_some_iff.mp hc).1
  have ha : a < c := hw c _ hc a (by simp [Node.args])
  have hb : b < c := hw c _ hc b (by simp [Node.args])
  have hadm : Admissible h E (es ++ [.read a i, .read b i, .read c i]) := by
    intro e he
    rcases List.mem_append.mp he with h1 | h1
    · exact hes e h1
    · simp only [List.mem_cons, List.not_mem_nil, or_false] at h1
      rcases h1 with rfl | rfl | rfl
      · exact ⟨by omega, hi⟩
      · exact ⟨by omega, hi⟩
      · exact ⟨hclt, hi⟩
  obtain ⟨out, h1, h2⟩ := c14_partial h E hE hp _ hadm
  obtain ⟨o1, o2, rfl, h3⟩ := expected_append es _ _ out h2
  obtain ⟨V1, r1, hV1, rfl, V2, r2, hV2, rfl, V3, r3, hV3, rfl, h4⟩ := h3
  simp only [Expected] at h4
  subst h4
  have hcid : ∀ (l : List (Event β)) (cu : Nat → Nat → β → β), (∀ e f, Event.customize c e f ∉ l) →
      ∀ i b, l.foldl custAfter cu c i b = cu c i b := by
    intro l
    induction l with
    | nil => intros; rfl
    | cons e l ih =>
      intro cu hl i b
      rw [List.foldl_cons, ih _ (fun e' f' hm => hl e' f' (List.mem_cons_of_mem _ hm))]
      cases e with
      | read _ _ => rfl
      | customize m e g =>
        have : c ≠ m := fun hx => hl e g (by simp [hx])
        simp only [custAfter, this, false_and, if_false]
  refine ⟨o1, V1 a i, V2 b i, ?_⟩
  rw [h1]
  have e1 : V3 c i = g (V3 a i) (V3 b i) := by
    rw [hV3 c _ hc i hi, hcid es _ hnc]
    rfl
  rw [e1, meaning_unique hw hV3 hV1 hi a (by omega), meaning_unique hw hV3 hV2 hi b (by omega)]

/-- **C14, partial, in terms of reads**: `(A + B)[i]`, `(A - B)[i]`, `(A @ B)[i]`, … is the
operation on the values `A[i]` and `B[i]` that the user reads, after any admissible history. -/
theorem c14_binary_partial [Inhabited β] (h : Heap β) (E : List Nat) (hE : E ≠ [])
    (hp : Program h E) (es : List (Event β)) (hes : Admissible h E es) (g : β → β → β)
    (a b c : Nat) (hc : h[c]? = some (matBin g a b)) (i : Nat) (hi : i ∈ E)
    (hnc : ∀ e f, Event.customize c e f ∉ es) :
    ∃ pre x y, run h E (es ++ [.read a i, .read b i, .read c i]) St.init =
      some (pre ++ [x, y, g x y]) :=
  binary_reads h E hE hp es hes g a b c _ hc i hi hnc

/-- **C13, partial**: the same for `v1 + v2` and `v1 - v2`.  Because the key of the result uses the
key of `v1` twice and ignores that of `v2`, `Program` here asks that `v1` is `no_cache` (the default
for vectors), or that `v2` is constant, or `v1` itself; see `c13_sum_of_constant_and_varying` for
what happens otherwise. -/
theorem c13_partial [Inhabited β] (h : Heap β) (E : List Nat) (hE : E ≠ [])
    (hp : Program h E) (es : List (Event β)) (hes : Admissible h E es) (g : β → β → β)
    (a b c : Nat) (hc : h[c]? = some (vecBin g a b)) (i : Nat) (hi : i ∈ E)
    (hnc : ∀ e f, Event.customize c e f ∉ es) :
    ∃ pre x y, run h E (es ++ [.read a i, .read b i, .read c i]) St.init =
      some (pre ++ [x, y, g x y]) :=
  binary_reads h E hE hp es hes g a b c _ hc i hi hnc

/-! ### Counterexamples -/

/-- **C13 fails.**  `v1` constant with value 10, `v2` with values 1, 2 on elements 0, 1:
`(v1 + v2)[1]` is 11 if element 0 was read before, and the reads of `v1[1]`, `v2[1]` give 10, 2. -/
theorem c13_sum_of_constant_and_varying :
    run [ctLeaf (10 : Int), ncLeaf (fun i => (i : Int) + 1), vecBin (· + ·) 0 1] [0, 1]
      [.read 2 0, .read 2 1, .read 0 1, .read 1 1] St.init = some [11, 11, 10, 2] ∧
    run [ctLeaf (10 : Int), ncLeaf (fun i => (i : Int) + 1), vecBin (· + ·) 0 1] [0, 1]
      [.read 2 1, .read 2 0, .read 0 1, .read 1 1] St.init = some [12, 12, 10, 2] := by
  constructor <;> decide

/-- Swapping the operands gives the right sum: the code is not symmetric in `v1` and `v2`. -/
theorem c13_swapped :
    run [ctLeaf (10 : Int), ncLeaf (fun i => (i : Int) + 1), vecBin (· + ·) 1 0] [0, 1]
      [.read 2 0, .read 2 1] St.init = some [11, 12] := by
  decide

/-- **C14 fails with customizations.**  `A` constant with value 5, its output for element 0
customized to 7, `B = -A`: `B[1]` is `-7` although `A[1] = 5`. -/
theorem c14_customized_operand :
    run [ctLeaf (5 : Int), unary (fun x => -x) 0] [0, 1]
      [.customize 0 0 (fun _ => 7), .read 1 0, .read 1 1, .read 0 1] St.init
      = some [-7, -7, 5] := by
  decide

/-- Customizing after a read has no effect on objects built before. -/
theorem c14_customized_after_read :
    run [ctLeaf (5 : Int), unary (fun x => -x) 0] [0, 1]
      [.read 1 0, .customize 0 0 (fun _ => 7), .read 1 0, .read 0 0] St.init
      = some [-5, -5, 7] := by
  decide

/-- **C14 fails with ambiguous keys.**  The keys of `A` and of `B` are different on the two elements,
the concatenated keys are equal, and `(A + B)[1]` is the sum on element 0. -/
theorem c14_ambiguous_keys :
    run [Node.leaf (fun i => (i : Int)) (fun i => if i = 0 then ['1'] else ['1', '2']),
         Node.leaf (fun i => 10 * (i : Int)) (fun i => if i = 0 then ['2', '3'] else ['3']),
         matBin (· + ·) 0 1] [0, 1]
      [.read 2 0, .read 2 1, .read 0 1, .read 1 1] St.init = some [0, 0, 1, 10] := by
  decide

/-! ### A non-trivial program satisfying the hypotheses -/

/-- A keyed matrix, a constant one, a recomputed vector, a sum, a block matrix, a product with the
vector, and two vector sums. -/
def exampleHeap : Heap Int :=
  [Node.leaf (fun i => if i < 2 then 3 else 4) (fun i => if i < 2 then ['a'] else ['b']),
   ctLeaf 10,
   ncLeaf (fun i => (i : Int)),
   matBin (· + ·) 0 1,
   .bmat List.sum [3, 1, 0],
   matBin (· * ·) 4 2,
   vecBin (· + ·) 5 2,
   vecBin (· - ·) 0 1]

theorem exampleHeap_lookup {n : Nat} {nd : Node Int} (h : exampleHeap[n]? = some nd) : n < 8 :=
  (List.getElem?_eq_some_iff.mp h).1

theorem exampleHeap_program : Program exampleHeap [0, 1, 2, 3] := by
  have c1 : AllConst exampleHeap [0, 1, 2, 3] 1 := .leaf (dg := fun _ => 10) rfl (fun _ _ => rfl)
  have n2 : NoCache exampleHeap [0, 1, 2, 3] 2 :=
    .leaf (dg := fun i => (i : Int)) rfl (fun _ _ => rfl)
  have n5 : NoCache exampleHeap [0, 1, 2, 3] 5 :=
    .node (nd := matBin (· * ·) 4 2) rfl (a := 2) (by simp [matBin, Node.keyArgs]) n2
  intro n nd hn
  have := exampleHeap_lookup hn
  match n, hn, this with
  | 0, hn, _ => cases hn; refine .leaf (Or.inr (Or.inr ?_)); decide
  | 1, hn, _ => cases hn; exact .leaf (Or.inl ⟨fun _ _ => rfl, fun _ _ _ _ => rfl⟩)
  | 2, hn, _ => cases hn; exact .leaf (Or.inr (Or.inl (fun _ _ => rfl)))
  | 3, hn, _ => cases hn; exact .matBin _ (by decide) (by decide)
  | 4, hn, _ => cases hn; exact .bmat _ (by decide) (by decide)
  | 5, hn, _ => cases hn; exact .matBin _ (by decide) (by decide)
  | 6, hn, _ => cases hn; exact .vecBin _ (by decide) (by decide) (Or.inl n5)
  | 7, hn, _ => cases hn; exact .vecBin _ (by decide) (by decide) (Or.inr (Or.inl c1))

/-- Reads and admissible customizations of the example: objects 4 and 2 are operands of object 5,
which is recomputed; object 7 is an operand of nothing. -/
example : ∃ out, run exampleHeap [0, 1, 2, 3]
      [.read 5 3, .customize 7 1 (fun _ => 0), .read 7 1, .read 7 0, .read 6 3] St.init = some out ∧
    Expected exampleHeap [0, 1, 2, 3]
      [.read 5 3, .customize 7 1 (fun _ => 0), .read 7 1, .read 7 0, .read 6 3]
      (fun _ _ b => b) out := by
  refine c14_partial _ _ (by simp) exampleHeap_program _ ?_
  intro e he
  simp only [List.mem_cons, List.not_mem_nil, or_false] at he
  rcases he with rfl | rfl | rfl | rfl | rfl
  · decide
  · intro n nd hn ha
    have := exampleHeap_lookup hn
    match n, hn, this with
    | 0, hn, _ | 1, hn, _ | 2, hn, _ | 3, hn, _ | 4, hn, _ | 5, hn, _ | 6, hn, _ | 7, hn, _ =>
      cases hn
      exact absurd ha (by decide)
  · decide
  · decide
  · decide

example : run exampleHeap [0, 1, 2, 3]
    [.read 5 3, .customize 7 1 (fun _ => 0), .read 7 1, .read 7 0, .read 6 3] St.init =
    some [84, 0, -7, 87] := by decide

end Mifem.Props
