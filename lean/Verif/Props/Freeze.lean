import Verif.Model.Freeze

/-!
# C37: frozen objects accept no new attributes
-/

namespace Mifem.Props
open Mifem.Freeze

variable {V : Type}

theorem get_put (o : Obj V) (k : String) (v : V) (k' : String) : (o.put k v).get k' = if k' = k then some v else o.get k' := by
  unfold Obj.put Obj.get
  split
  · rename_i h
    induction o with
    | nil => simp at h
    | cons x o ih =>
      rw [List.map_cons, List.lookup_cons, List.lookup_cons]
      by_cases hx : x.1 = k
      · rw [if_pos (by simp [hx])]
        by_cases hk : k' = k
        · simp [hk]
        · have h1 : (k' == k) = false := by simpa using hk
          have h2 : (k' == x.1) = false := by rw [hx]; exact h1
          rw [if_neg hk, h2]
          simp only [h1]
          by_cases ho : (o.any fun x => x.1 == k) = true
          · have := ih ho
            rw [if_neg hk] at this
            exact this
          · have : (o.map fun x => if x.1 == k then (k, v) else x) = o := by
              conv => rhs; rw [← List.map_id o]
              apply List.map_congr_left
              intro y hy
              rw [Bool.not_eq_true, List.any_eq_false] at ho
              rw [if_neg (ho y hy)]
              rfl
            rw [this]
      · rw [if_neg (by simp [hx])]
        have ho : (o.any fun x => x.1 == k) = true := by simpa [hx] using h
        by_cases hk' : k' = x.1
        · have hne : ¬ k' = k := fun hc => hx (hk' ▸ hc)
          simp [hk', hx]
        · have : (k' == x.1) = false := by simpa using hk'
          rw [this]
          exact ih ho
  · rename_i h
    rw [List.lookup_append]
    by_cases hk : k' = k
    · subst hk
      have hn : o.lookup k' = none := by
        rw [List.lookup_eq_none_iff]
        intro p hp
        rw [Bool.not_eq_true, List.any_eq_false] at h
        have := h p hp
        simp only [beq_iff_eq] at this ⊢
        simpa using fun hc : k' = p.1 => this hc.symm
      simp [hn]
    · rw [if_neg hk]
      have : List.lookup k' [(k, v)] = none := by
        rw [List.lookup_cons, show (k' == k) = false by simpa using hk]
        rfl
      rw [this]
      cases o.lookup k' <;> rfl

/-- the object has an attribute with this name of its own. -/
def Has (o : Obj V) (k : String) : Prop := ∃ v, (k, v) ∈ o

theorem has_iff (o : Obj V) (k : String) : Has o k ↔ (o.any fun x => x.1 == k) = true := by
  unfold Has
  rw [List.any_eq_true]
  constructor
  · rintro ⟨v, h⟩
    exact ⟨_, h, by simp⟩
  · rintro ⟨⟨a, b⟩, h, he⟩
    simp only [beq_iff_eq] at he
    exact ⟨b, he ▸ h⟩

theorem has_put (o : Obj V) (k : String) (v : V) (k' : String) : Has (o.put k v) k' ↔ k' = k ∨ Has o k' := by
  rw [has_iff, has_iff]
  unfold Obj.put
  split
  · rename_i h
    have : ((o.map fun x => if x.1 == k then (k, v) else x).any fun x => x.1 == k') = o.any fun x => x.1 == k' := by
      rw [List.any_map]
      congr 1
      funext x
      simp only [Function.comp_apply]
      split
      · rename_i hx
        rw [beq_iff_eq] at hx
        rw [hx]
      · rfl
    rw [this]
    constructor
    · exact Or.inr
    · rintro (rfl | h')
      · exact h
      · exact h'
  · rw [List.any_append]
    simp only [List.any_cons, List.any_nil, Bool.or_false, Bool.or_eq_true, beq_iff_eq]
    constructor
    · rintro (h | h)
      · exact Or.inr h
      · exact Or.inl h.symm
    · rintro (h | h)
      · exact Or.inr h.symm
      · exact Or.inl h

theorem has_of_get (o : Obj V) (k : String) (v : V) (h : o.get k = some v) : Has o k := by
  rw [has_iff]
  by_contra hc
  rw [Bool.not_eq_true, List.any_eq_false] at hc
  have : o.get k = none := by
    unfold Obj.get
    rw [List.lookup_eq_none_iff]
    intro p hp
    have := hc p hp
    simp only [beq_iff_eq] at this ⊢
    simpa using fun hc : k = p.1 => this hc.symm
  rw [this] at h
  exact absurd h (by simp)

variable [Flags V]

/-- the object is frozen. -/
def Frozen (o : Obj V) : Prop := ∃ v, o.get flag = some v ∧ Flags.truth v = true

/-- a name that can be read or called on the object. -/
def Known (c : Cls V) (o : Obj V) (k : String) : Prop := Has o k ∨ ∃ b, (k, b) ∈ c.names

theorem inDir_iff (c : Cls V) (o : Obj V) (k : String) : inDir c o k = true ↔ Known c o k := by
  unfold inDir Known
  rw [Bool.or_eq_true, has_iff]
  apply or_congr Iff.rfl
  rw [List.any_eq_true]
  constructor
  · rintro ⟨⟨a, b⟩, h, he⟩
    simp only [beq_iff_eq] at he
    exact ⟨b, he ▸ h⟩
  · rintro ⟨b, h⟩
    exact ⟨_, h, by simp⟩

theorem isFrozen_frozen (o : Obj V) (h : Frozen o) : isFrozen o = (true, o) := by
  obtain ⟨v, h1, h2⟩ := h
  unfold isFrozen
  rw [h1]
  simp [h2]

/-- **C37, new attributes.** On a frozen object, assigning a name that neither the object nor its class has raises an
exception and leaves the object as it is. -/
theorem c37_rejects_new (c : Cls V) (o : Obj V) (h : Frozen o) (k : String) (v : V) (hk : ¬ Known c o k) : (setattr c o k v).raised = true ∧ (setattr c o k v).obj = o := by
  unfold setattr
  rw [isFrozen_frozen o h]
  simp only
  have : inDir c o k = false := by rw [← Bool.not_eq_true, inDir_iff]; exact hk
  rw [this]
  simp

/-- **C37, existing attributes.** Assigning an attribute the object has works on a frozen object: the new value is read
afterwards, and no other attribute changes. -/
theorem c37_accepts_existing (c : Cls V) (o : Obj V) (h : Frozen o) (k : String) (v : V) (hk : Has o k) (hc : ∀ b, (k, b) ∉ c.names) :
    (setattr c o k v).raised = false ∧ ∀ k', (setattr c o k v).obj.get k' = if k' = k then some v else o.get k' := by
  have hl : c.names.lookup k = none := by
    rw [List.lookup_eq_none_iff]
    intro p hp
    by_contra hcon
    have hcon : k = p.1 := by simpa using hcon
    exact hc p.2 (by rw [hcon]; exact hp)
  unfold setattr
  rw [isFrozen_frozen o h]
  simp only
  have : inDir c o k = true := (inDir_iff c o k).2 (Or.inl hk)
  rw [this]
  simp only [Bool.not_true, Bool.and_false, Bool.false_eq_true, if_false]
  unfold rawSet
  rw [hl]
  exact ⟨rfl, fun k' => get_put o k v k'⟩

theorem setPlain_frozen (c : Cls V) (o : Obj V) (h : Frozen o) (k : String) (v : V) :
    (∀ k', Has (setPlain c o k v).obj k' → Has o k' ∨ ∃ b, (k', b) ∈ c.names) ∧ (∀ k', Has o k' → Has (setPlain c o k v).obj k') := by
  unfold setPlain
  rw [isFrozen_frozen o h]
  simp only
  split
  · exact ⟨fun _ h => Or.inl h, fun _ h => h⟩
  · rename_i hn
    have hin : Known c o k := by
      rw [← inDir_iff]
      simpa using hn
    refine ⟨fun k' hk' => ?_, fun k' hk' => (has_put o k v k').2 (Or.inr hk')⟩
    rcases (has_put o k v k').1 hk' with rfl | hk'
    · exact hin
    · exact Or.inl hk'

theorem frozen_put (o : Obj V) (h : Frozen o) (k : String) (v : V) (hk : k ≠ flag) : Frozen (o.put k v) := by
  obtain ⟨w, h1, h2⟩ := h
  exact ⟨w, by rw [get_put, if_neg (Ne.symm hk)]; exact h1, h2⟩

theorem setPlain_stays (c : Cls V) (o : Obj V) (h : Frozen o) (k : String) (v : V) (hk : k ≠ flag) : Frozen (setPlain c o k v).obj := by
  unfold setPlain
  rw [isFrozen_frozen o h]
  simp only
  split
  · exact h
  · exact frozen_put o h k v hk

theorem freeze_frozen (c : Cls V) (o : Obj V) (h : Frozen o) : Frozen (freeze c o).obj ∧ ∀ k, Has (freeze c o).obj k ↔ Has o k := by
  unfold freeze
  split
  · unfold setPlain
    rw [isFrozen_frozen o h]
    simp only
    split
    · exact ⟨h, fun _ => Iff.rfl⟩
    · refine ⟨⟨_, by rw [get_put, if_pos rfl], Flags.truth_yes⟩, fun k => ?_⟩
      rw [has_put]
      constructor
      · rintro (rfl | hk)
        · exact has_of_get o flag _ h.choose_spec.1
        · exact hk
      · exact Or.inr
  · exact ⟨h, fun _ => Iff.rfl⟩

/-- operations that do not melt the object (nor touch the flag by hand, directly or through a setter). -/
def KeepsFrozen (c : Cls V) : Op V → Prop
  | .set k _ => k ≠ flag ∧ (∀ k', c.names.lookup k = some (.stores k') → k' ≠ flag)
  | .freeze => True
  | .melt => False

/-- one operation on a frozen object. -/
theorem apply_frozen (c : Cls V) (o : Obj V) (h : Frozen o) (op : Op V) (hop : KeepsFrozen c op) :
    Frozen (apply c o op).obj ∧ (∀ k, Has (apply c o op).obj k → Has o k ∨ ∃ b, (k, b) ∈ c.names) ∧ ∀ k, Has o k → Has (apply c o op).obj k := by
  cases op with
  | melt => exact absurd hop id
  | freeze =>
    obtain ⟨h1, h2⟩ := freeze_frozen c o h
    exact ⟨h1, fun k hk => Or.inl ((h2 k).1 hk), fun k hk => (h2 k).2 hk⟩
  | set k v =>
    obtain ⟨hk, hst⟩ := hop
    simp only [apply]
    unfold setattr
    rw [isFrozen_frozen o h]
    simp only
    split
    · exact ⟨h, fun _ h => Or.inl h, fun _ h => h⟩
    · rename_i hn
      have hin : Known c o k := by
        rw [← inDir_iff]
        simpa using hn
      unfold rawSet
      split
      · exact ⟨h, fun _ h => Or.inl h, fun _ h => h⟩
      · rename_i k' hl
        obtain ⟨g1, g2⟩ := setPlain_frozen c o h k' v
        exact ⟨setPlain_stays c o h k' v (hst k' hl), g1, g2⟩
      · refine ⟨frozen_put o h k v hk, fun k' hk' => ?_, fun k' hk' => (has_put o k v k').2 (Or.inr hk')⟩
        rcases (has_put o k v k').1 hk' with rfl | hk'
        · exact hin
        · exact Or.inl hk'

/-- **C37, sequences.** As long as nobody melts it, a frozen object stays frozen through any sequence of assignments and
freezes, whether they raise exceptions or not, and knows the same names as at the beginning. -/
theorem c37_names_fixed (c : Cls V) (o : Obj V) (h : Frozen o) (ops : List (Op V)) (hops : ∀ op ∈ ops, KeepsFrozen c op) :
    Frozen (applyAll c o ops) ∧ ∀ k, Known c (applyAll c o ops) k ↔ Known c o k := by
  unfold applyAll
  induction ops generalizing o with
  | nil => exact ⟨h, fun _ => Iff.rfl⟩
  | cons op ops ih =>
    obtain ⟨h1, h2, h3⟩ := apply_frozen c o h op (hops op List.mem_cons_self)
    obtain ⟨g1, g2⟩ := ih _ h1 (fun op' hop' => hops op' (List.mem_cons_of_mem _ hop'))
    refine ⟨g1, fun k => ?_⟩
    rw [List.foldl_cons, g2]
    constructor
    · rintro (hk | hk)
      · exact h2 k hk
      · exact Or.inr hk
    · rintro (hk | hk)
      · exact Or.inl (h3 k hk)
      · exact Or.inr hk

/-- **C37, melting.** Melting never fails; afterwards any name that is not bound by the class can be assigned; freezing it
again (if the check of the class allows it) makes it frozen. -/
theorem c37_melt (c : Cls V) (o : Obj V) (k : String) (v : V) (hk : ∀ b, (k, b) ∉ c.names) :
    (melt c o).raised = false ∧ (setattr c (melt c o).obj k v).raised = false ∧ (setattr c (melt c o).obj k v).obj.get k = some v ∧
    (c.check (setattr c (melt c o).obj k v).obj = true → Frozen (freeze c (setattr c (melt c o).obj k v).obj).obj) := by
  have hl : c.names.lookup k = none := by
    rw [List.lookup_eq_none_iff]
    intro p hp
    by_contra hcon
    have hcon : k = p.1 := by simpa using hcon
    exact hk p.2 (by rw [hcon]; exact hp)
  have hm : (melt c o).raised = false ∧ (melt c o).obj.get flag = some Flags.no := by
    unfold melt setPlain isFrozen
    cases hf : o.get flag with
    | none =>
      simp only [Bool.false_and, Bool.false_eq_true, if_false]
      exact ⟨trivial, by rw [get_put, if_pos rfl]⟩
    | some w =>
      have : inDir c o flag = true := (inDir_iff c o flag).2 (Or.inl (has_of_get o flag w hf))
      simp only [this, Bool.not_true, Bool.and_false, Bool.false_eq_true, if_false]
      exact ⟨trivial, by rw [get_put, if_pos rfl]⟩
  have hfr : isFrozen (melt c o).obj = (false, (melt c o).obj) := by
    unfold isFrozen
    rw [hm.2]
    simp [Flags.truth_no]
  have hs : setattr c (melt c o).obj k v = ⟨(melt c o).obj.put k v, false⟩ := by
    unfold setattr
    rw [hfr]
    simp only [Bool.false_and, Bool.false_eq_true, if_false]
    unfold rawSet
    rw [hl]
  rw [hs]
  refine ⟨hm.1, rfl, by rw [get_put, if_pos rfl], fun hc => ?_⟩
  unfold freeze
  simp only at hc ⊢
  rw [if_pos hc]
  have hany : ∀ p : Obj V, inDir c (isFrozen p).2 flag = true := by
    intro p
    rw [inDir_iff]
    unfold isFrozen
    cases hp : p.get flag with
    | none => exact Or.inl ((has_put p flag _ flag).2 (Or.inl rfl))
    | some w => exact Or.inl (has_of_get p flag w hp)
  unfold setPlain
  simp only [hany, Bool.not_true, Bool.and_false, Bool.false_eq_true, if_false]
  exact ⟨_, by rw [get_put, if_pos rfl], Flags.truth_yes⟩

/-- **C37, standard properties.** Asking a frozen object for its standard properties for the first time gives it that one
attribute more, changes no other and leaves it frozen, provided the check of the class passes on the object as it then is. -/
theorem c37_standard_properties (c : Cls V) (o : Obj V) (h : Frozen o) (hn : o.get "___sp___" = none) (sp : V)
    (hc : ∀ p : Obj V, p.get "___sp___" = some sp → (∀ k, k ≠ "___sp___" → k ≠ flag → p.get k = o.get k) → c.check p = true) :
    (standardProperties c o sp).raised = false ∧ Frozen (standardProperties c o sp).obj ∧ (standardProperties c o sp).obj.get "___sp___" = some sp ∧
    ∀ k, k ≠ "___sp___" → k ≠ flag → (standardProperties c o sp).obj.get k = o.get k := by
  have hne : "___sp___" ≠ flag := by decide
  have hin : inDir c o flag = true := (inDir_iff c o flag).2 (Or.inl (has_of_get o flag _ h.choose_spec.1))
  have hm : melt c o = ⟨o.put flag Flags.no, false⟩ := by
    unfold melt setPlain
    rw [isFrozen_frozen o h]
    simp [hin]
  have h2 : setPlain c (o.put flag Flags.no) "___sp___" sp = ⟨(o.put flag Flags.no).put "___sp___" sp, false⟩ := by
    unfold setPlain
    have : isFrozen (o.put flag Flags.no) = (false, o.put flag Flags.no) := by
      unfold isFrozen
      rw [get_put, if_pos rfl]
      simp [Flags.truth_no]
    rw [this]
    simp
  have hck := hc ((o.put flag Flags.no).put "___sp___" sp) (by rw [get_put, if_pos rfl]) (fun k hk1 hk2 => by rw [get_put, if_neg hk1, get_put, if_neg hk2])
  have h3 : freeze c ((o.put flag Flags.no).put "___sp___" sp) = ⟨((o.put flag Flags.no).put "___sp___" sp).put flag Flags.yes, false⟩ := by
    unfold freeze
    rw [if_pos hck]
    unfold setPlain
    have : isFrozen ((o.put flag Flags.no).put "___sp___" sp) = (false, (o.put flag Flags.no).put "___sp___" sp) := by
      unfold isFrozen
      rw [get_put, if_neg (Ne.symm hne), get_put, if_pos rfl]
      simp [Flags.truth_no]
    rw [this]
    simp
  have hall : standardProperties c o sp = ⟨((o.put flag Flags.no).put "___sp___" sp).put flag Flags.yes, false⟩ := by
    unfold standardProperties
    rw [hn, isFrozen_frozen o h]
    simp only [Option.isSome_none, Bool.false_eq_true, if_false, if_true]
    rw [hm]
    simp only
    rw [h2]
    simp only
    rw [h3]
  rw [hall]
  refine ⟨rfl, ⟨Flags.yes, by rw [get_put, if_pos rfl], Flags.truth_yes⟩, ?_, fun k hk1 hk2 => ?_⟩
  · rw [get_put, if_neg hne, get_put, if_pos rfl]
  · rw [get_put, if_neg hk2, get_put, if_neg hk1, get_put, if_neg hk2]

instance : Flags Bool := ⟨id, true, false, rfl, rfl⟩

/-- an object with two attributes, of a class with one method. -/
def obj37 : Obj Bool := [("a", true), ("b", false), (flag, true)]

def cls37 : Cls Bool := { names := [("run", .plain)] }

example : Frozen obj37 := ⟨true, rfl, rfl⟩

example : (setattr cls37 obj37 "c" true).raised = true ∧ (setattr cls37 obj37 "a" false).obj.get "a" = some false ∧
    (setattr cls37 (melt cls37 obj37).obj "c" true).obj.get "c" = some true := by decide

/-- a method of the class can be hidden by an attribute, also of a frozen object: `c37_names_fixed` speaks of names. -/
example : (setattr cls37 obj37 "run" true).raised = false := by decide

example : (standardProperties cls37 obj37 true).raised = false ∧ (setattr cls37 (standardProperties cls37 obj37 true).obj "c" true).raised = true := by decide

/-- **C37, `signature` of the standard properties.** The attribute behind it is not made before the object is frozen, so it
can be neither read nor assigned; `name` can. -/
theorem c37_signature (none_ tags obj v : V) :
    getattr spClass (newSP none_ tags obj) "signature" = none ∧ (setattr spClass (newSP none_ tags obj) "signature" v).raised = true ∧
    (setattr spClass (newSP none_ tags obj) "name" v).raised = false ∧
    getattr spClass (setattr spClass (newSP none_ tags obj) "name" v).obj "name" = some v := by
  have hfl : flag = "___ISFROZEN___" := rfl
  have hnew : newSP none_ tags obj = [("___mark___", none_), ("___name___", none_), ("___stamp___", none_), ("___tags___", tags), ("___obj___", obj), (flag, Flags.yes)] := by
    simp [newSP, freeze, setPlain, isFrozen, Obj.get, Obj.put, spClass, hfl, List.lookup]
  have hfr : isFrozen (newSP none_ tags obj) = (true, newSP none_ tags obj) := by
    apply isFrozen_frozen
    exact ⟨Flags.yes, by rw [hnew]; simp [Obj.get, hfl, List.lookup], Flags.truth_yes⟩
  have hname : setattr spClass (newSP none_ tags obj) "name" v = ⟨(newSP none_ tags obj).put "___name___" v, false⟩ := by
    unfold setattr
    rw [hfr]
    simp only [inDir, spClass, rawSet, List.lookup, setPlain, hfr]
    simp [hnew]
  refine ⟨?_, ?_, ?_, ?_⟩
  · simp [getattr, spClass, hnew, Obj.get, hfl, List.lookup]
  · unfold setattr
    rw [hfr]
    simp only [inDir, spClass, rawSet, List.lookup, setPlain, hfr]
    simp [hnew, hfl]
  · rw [hname]
  · rw [hname]
    simp only [getattr, spClass, List.lookup]
    show ((newSP none_ tags obj).put "___name___" v).get "___name___" = some v
    rw [get_put, if_pos rfl]

end Mifem.Props
