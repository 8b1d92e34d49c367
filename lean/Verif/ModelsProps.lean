import Verif.Models

/-!
# Model objects: frozen attributes and unset parameters (C45)
-/

namespace Ompy

/-! ## Dictionaries -/

theorem dictGet_set (d : List (AName × PVal)) (n m : AName) (v : PVal) :
    dictGet (dictSet d n v) m = if n = m then some v else dictGet d m := by
  induction d with
  | nil => simp [dictSet, dictGet]
  | cons x r ih =>
    obtain ⟨k, w⟩ := x
    simp only [dictSet]
    by_cases hk : k = n
    · subst hk
      simp only [if_true, dictGet]
      by_cases hm : k = m
      · simp [hm]
      · simp [hm]
    · rw [if_neg hk]
      simp only [dictGet, ih]
      by_cases hm : k = m
      · subst hm
        rw [if_pos rfl, if_neg (fun h => hk h.symm), if_pos rfl]
      · rw [if_neg hm, if_neg hm]

theorem dictGet_none (d : List (AName × PVal)) (n : AName) :
    dictGet d n = none ↔ n ∉ d.map (·.1) := by
  induction d with
  | nil => simp [dictGet]
  | cons x r ih =>
    obtain ⟨k, w⟩ := x
    simp only [dictGet, List.map_cons, List.mem_cons, not_or]
    by_cases hk : k = n
    · simp [hk]
    · rw [if_neg hk, ih]
      exact ⟨fun h => ⟨fun q => hk q.symm, h⟩, fun h => h.2⟩

theorem dictSet_keys_mem (d : List (AName × PVal)) (n : AName) (v : PVal) (h : n ∈ d.map (·.1)) :
    (dictSet d n v).map (·.1) = d.map (·.1) := by
  induction d with
  | nil => simp at h
  | cons x r ih =>
    obtain ⟨k, w⟩ := x
    simp only [dictSet]
    by_cases hk : k = n
    · simp [hk]
    · rw [if_neg hk]
      simp only [List.map_cons]
      rw [ih]
      simp only [List.map_cons, List.mem_cons] at h
      rcases h with h | h
      · exact absurd h.symm hk
      · exact h

theorem field_put (o : PyObj) (n m : AName) (v : PVal) :
    (o.put n v).field m = if n = m then v else o.field m := by
  unfold PyObj.put PyObj.field
  simp only [dictGet_set]
  split_ifs <;> rfl

/-! ## Specification -/

/-- The names the class defines: its fields, properties and methods. -/
def MClass.known (c : MClass) (n : AName) : Prop :=
  n ∈ c.fields.map (·.1) ∨ n ∈ c.props ∨ n ∈ c.methods

/-- The names that can be assigned without further conditions: the fields. -/
def MClass.isField (c : MClass) (n : AName) : Prop := n ∈ c.fields.map (·.1)

/-- The classes whose constructor freezes the object. -/
def MClass.freezes : MClass → Prop
  | .extLow | .extHigh => False
  | _ => True

/-- What holds of an object made by the constructor and changed by assignments. -/
structure PyObj.Inv (o : PyObj) : Prop where
  fields : ∀ n, o.cls.isField n → n ∈ o.dict.map (·.1)
  known : o.cls.freezes → ∀ n ∈ o.dict.map (·.1), o.cls.known n
  frozen : o.field frozenName = .bool true ↔ o.cls.freezes

theorem props_not_field (c : MClass) : ∀ n ∈ c.props, ¬ c.isField n := by
  unfold MClass.isField
  cases c <;> decide

theorem frozen_field (c : MClass) : c.isField frozenName := by
  unfold MClass.isField
  cases c <;> decide

theorem frozen_not_prop (c : MClass) : frozenName ∉ c.props := by cases c <;> decide

/-- A field is present, so `hasattr` finds it. -/
theorem getAttr_field {o : PyObj} (hi : o.Inv) {n : AName} (hf : o.cls.isField n) :
    o.getAttr n = .ok (o.field n) := by
  unfold PyObj.getAttr
  rw [if_neg (fun h => props_not_field _ _ h hf)]
  have := mt (dictGet_none o.dict n).1 (by simpa using hi.fields n hf)
  unfold PyObj.field
  cases h : dictGet o.dict n with
  | none => exact absurd h this
  | some v => rfl

theorem put_inv {o : PyObj} (hi : o.Inv) {n : AName} (hk : o.cls.freezes → o.cls.known n)
    (hn : n ≠ frozenName) (v : PVal) : (o.put n v).Inv := by
  have hsub : ∀ m, m ∈ (dictSet o.dict n v).map (·.1) ↔ m = n ∨ m ∈ o.dict.map (·.1) := by
    intro m
    have h1 := dictGet_none (dictSet o.dict n v) m
    have h2 := dictGet_none o.dict m
    rw [dictGet_set] at h1
    by_cases hm : n = m
    · subst hm
      simp only [if_true] at h1
      constructor
      · intro _; exact Or.inl rfl
      · intro _
        by_contra hc
        exact absurd (h1.2 hc) (by simp)
    · rw [if_neg hm, h2] at h1
      constructor
      · intro h
        right
        by_contra hc
        exact (h1.1 hc) h
      · rintro (h | h)
        · exact absurd h.symm hm
        · by_contra hc
          exact (h1.2 hc) h
  refine ⟨?_, ?_, ?_⟩
  · intro m hm
    exact (hsub m).2 (Or.inr (hi.fields m hm))
  · intro hf m hm
    rcases (hsub m).1 hm with rfl | h
    · exact hk hf
    · exact hi.known hf m h
  · rw [field_put, if_neg hn]
    exact hi.frozen

theorem propSet_put {o o' : PyObj} {n : AName} {v : PVal} (hp : n ∈ o.cls.props)
    (h : o.propSet n v = .ok o') : ∃ m w, o.cls.isField m ∧ m ≠ frozenName ∧ o' = o.put m w := by
  unfold PyObj.propSet at h
  have key : ∀ m : AName, (o.cls.isField m ∧ m ≠ frozenName) →
      ∀ w, Except.ok (ε := Err) (o.put m w) = .ok o' →
      ∃ m w, o.cls.isField m ∧ m ≠ frozenName ∧ o' = o.put m w := by
    intro m hm w hh
    injection hh with hh
    exact ⟨m, w, hm.1, hm.2, hh.symm⟩
  have hc : ∀ c : MClass, ∀ p ∈ c.props,
      (p = nm "method" → c.isField (nm "_method")) ∧
      (p = nm "shift_after" → c.isField (nm "_shift_after")) ∧
      (p = nm "spincutPars" → c.isField (nm "_spincutPars")) ∧
      (p = nm "A" → c.isField (nm "_A")) ∧ (p = nm "Emax" → c.isField (nm "_Emax")) := by
    unfold MClass.isField
    intro c
    cases c <;> decide
  obtain ⟨c1, c2, c3, c4, c5⟩ := hc o.cls n hp
  split_ifs at h with h1 h2 h3 h4 h5 h6
  · exact key _ ⟨c1 h1, by decide⟩ _ h
  · exact key _ ⟨c2 h3, by decide⟩ _ h
  · split at h
    · exact key _ ⟨c3 h4, by decide⟩ _ h
    · simp at h
  · exact key _ ⟨c4 h5, by decide⟩ _ h
  · split at h
    · exact key _ ⟨c5 h6, by decide⟩ _ h
    · simp at h
    · simp at h

theorem setAttr_inv {o o' : PyObj} (hi : o.Inv) {n : AName} (hn : n ≠ frozenName) {v : PVal}
    (h : o.setAttr n v = .ok o') : o'.Inv ∧ o'.cls = o.cls := by
  have raw : (o.cls.freezes → o.cls.known n) → o.rawSet n v = .ok o' → o'.Inv ∧ o'.cls = o.cls := by
    intro hk h
    unfold PyObj.rawSet at h
    split_ifs at h with hp
    · obtain ⟨m, w, hm, hmf, rfl⟩ := propSet_put hp h
      exact ⟨put_inv hi (fun _ => Or.inl hm) hmf w, rfl⟩
    · injection h with h
      subst h
      exact ⟨put_inv hi hk hn v, rfl⟩
  unfold PyObj.setAttr at h
  split_ifs at h with hf
  · split at h
    · rename_i hh
      apply raw _ h
      intro hfr
      by_contra hk
      have hg : o.getAttr n = .error .attributeError := by
        unfold PyObj.getAttr
        unfold MClass.known at hk
        push Not at hk
        rw [if_neg hk.2.1]
        have : dictGet o.dict n = none := by
          rw [dictGet_none]
          intro hmem
          rcases hi.known hfr n hmem with q | q | q
          · exact hk.1 q
          · exact hk.2.1 q
          · exact hk.2.2 q
        rw [this]
        simp only
        rw [if_neg hk.2.2]
      unfold PyObj.hasAttr at hh
      rw [hg] at hh
      simp at hh
    · simp at h
    · simp at h
  · apply raw _ h
    intro hfr
    exact absurd (hi.frozen.2 hfr) hf

theorem construct_inv (c : MClass) (kw : AName → Option PVal) :
    (construct c kw).Inv ∧ (construct c kw).cls = c := by
  set o : PyObj := ⟨c, c.fields.map fun f => (f.1, if f.1 = frozenName then f.2 else (kw f.1).getD f.2)⟩
    with ho
  have hkeys : o.dict.map (·.1) = c.fields.map (·.1) := by simp [ho]
  have hm : c = .extLow ∨ c = .extHigh → c.isField (nm "model") := by
    rintro (rfl | rfl) <;> (unfold MClass.isField; decide)
  have hfz : o.field frozenName = .bool false := by
    have : ∀ l : List (AName × PVal), dictGet (modelFields.map (fun f => (f.1,
        if f.1 = frozenName then f.2 else (kw f.1).getD f.2)) ++ l) frozenName = some (.bool false) := by
      intro l
      simp only [modelFields, List.map_cons, List.map_nil, List.cons_append, dictGet]
      rw [if_neg (by decide)]
      simp
    have h2 : ∃ l, o.dict = modelFields.map (fun f => (f.1,
        if f.1 = frozenName then f.2 else (kw f.1).getD f.2)) ++ l := by
      rw [ho]
      cases c
      · exact ⟨[], by simp [MClass.fields]⟩
      all_goals exact ⟨_, by simp only [MClass.fields, List.map_append]; rfl⟩
    obtain ⟨l, hl⟩ := h2
    unfold PyObj.field
    rw [hl, this]
    rfl
  have base : ∀ n v, c.isField n → ((o.put n v).field frozenName = .bool true ↔ c.freezes) →
      (o.put n v).Inv ∧ (o.put n v).cls = c := by
    intro n v hn hf
    have hk2 : (dictSet o.dict n v).map (·.1) = c.fields.map (·.1) := by
      rw [dictSet_keys_mem _ _ _ (by rw [hkeys]; exact hn), hkeys]
    refine ⟨⟨?_, ?_, hf⟩, rfl⟩
    · intro m hm
      simp only [PyObj.put]
      rw [hk2]
      exact hm
    · intro _ m hm
      simp only [PyObj.put] at hm
      rw [hk2] at hm
      exact Or.inl hm
  have hlow : ∀ _ : c = .extLow ∨ c = .extHigh, (o.put (nm "model") (.opaque 2)).Inv ∧
      (o.put (nm "model") (.opaque 2)).cls = c := by
    intro hc
    apply base _ _ (hm hc)
    rw [field_put, if_neg (by decide), hfz]
    rcases hc with rfl | rfl <;> simp [MClass.freezes]
  have hother : c.freezes → (o.put frozenName (.bool true)).Inv ∧
      (o.put frozenName (.bool true)).cls = c := by
    intro hc
    apply base _ _ (frozen_field c)
    rw [field_put, if_pos rfl]
    simp [hc]
  unfold construct
  rw [← ho]
  cases c
  · exact hother trivial
  · exact hother trivial
  · exact hlow (Or.inl rfl)
  · exact hlow (Or.inr rfl)
  · exact hother trivial
  · exact hother trivial

theorem assigns_inv (l : List (AName × PVal)) (hl : ∀ p ∈ l, p.1 ≠ frozenName) :
    ∀ o : PyObj, o.Inv → (o.assigns l).Inv ∧ (o.assigns l).cls = o.cls := by
  induction l with
  | nil => intro o hi; exact ⟨hi, rfl⟩
  | cons p l ih =>
    obtain ⟨n, v⟩ := p
    intro o hi
    have hn : n ≠ frozenName := hl (n, v) (by simp)
    have ih' := ih fun q hq => hl q (by simp [hq])
    simp only [PyObj.assigns]
    cases h : o.setAttr n v with
    | error e => exact ih' o hi
    | ok o' =>
      obtain ⟨h1, h2⟩ := setAttr_inv hi hn h
      obtain ⟨h3, h4⟩ := ih' o' h1
      exact ⟨h3, by simp only [h4, h2]⟩

theorem history_inv (c : MClass) (kw : AName → Option PVal) (l : List (AName × PVal))
    (hl : ∀ p ∈ l, p.1 ≠ frozenName) :
    ((construct c kw).assigns l).Inv ∧ ((construct c kw).assigns l).cls = c := by
  obtain ⟨h1, h2⟩ := construct_inv c kw
  obtain ⟨h3, h4⟩ := assigns_inv l hl _ h1
  exact ⟨h3, by rw [h4, h2]⟩

/-! ## Assignments -/

/-- C45: in the classes that freeze, after any construction and any sequence of assignments, assigning
a name the class does not define raises `AttributeError`.  (Assignments to the private field
`_Model__isfrozen` itself are excluded.) -/
theorem C45_rejects_partial (c : MClass) (hc : c.freezes) (kw : AName → Option PVal)
    (l : List (AName × PVal)) (hl : ∀ p ∈ l, p.1 ≠ frozenName) (n : AName) (hn : ¬ c.known n)
    (v : PVal) : ((construct c kw).assigns l).setAttr n v = .error .attributeError := by
  obtain ⟨hi, hcls⟩ := history_inv c kw l hl
  set o := (construct c kw).assigns l
  have hfr : o.field frozenName = .bool true := hi.frozen.2 (by rw [hcls]; exact hc)
  have hnot : n ∉ o.dict.map (·.1) := fun h => hn (by
    have := hi.known (by rw [hcls]; exact hc) n h
    rwa [hcls] at this)
  unfold MClass.known at hn
  push Not at hn
  unfold PyObj.setAttr PyObj.hasAttr PyObj.getAttr
  rw [if_pos hfr, hcls, if_neg hn.2.1, (dictGet_none _ _).2 hnot]
  simp only
  rw [if_neg hn.2.2]

/-- The names in question: a misspelt parameter is unknown to every class. -/
example : ∀ c : MClass, ¬ c.known (nm "spincutpars") ∧ ¬ c.known (nm "emin") := by
  intro c
  unfold MClass.known
  cases c <;> decide

/-- C45: every field can be assigned at any time and then has the new value; nothing else changes. -/
theorem C45_accepts (c : MClass) (kw : AName → Option PVal)
    (l : List (AName × PVal)) (hl : ∀ p ∈ l, p.1 ≠ frozenName) (n : AName) (hn : c.isField n)
    (v : PVal) :
    ∃ o', ((construct c kw).assigns l).setAttr n v = .ok o' ∧ o'.getAttr n = .ok v ∧
      ∀ m, m ≠ n → o'.field m = ((construct c kw).assigns l).field m := by
  obtain ⟨hi, hcls⟩ := history_inv c kw l hl
  set o := (construct c kw).assigns l
  have hp : n ∉ o.cls.props := fun h => props_not_field _ _ h (by rw [hcls]; exact hn)
  have hg := getAttr_field hi (n := n) (by rw [hcls]; exact hn)
  refine ⟨o.put n v, ?_, ?_, ?_⟩
  · unfold PyObj.setAttr PyObj.hasAttr PyObj.rawSet
    rw [hg, if_neg hp]
    simp
  · unfold PyObj.getAttr
    rw [if_neg (by exact hp)]
    simp only [PyObj.put, dictGet_set, if_true]
  · intro m hm
    rw [field_put, if_neg (fun h => hm h.symm)]

example : MClass.normPars.isField (nm "D0") ∧ MClass.extLow.isField (nm "scale") := by
  unfold MClass.isField
  decide

/-- C45 fails for the extrapolation models actually used: they are never frozen, every unknown name is
accepted and becomes an attribute. -/
theorem C45_extrapolation_fails (c : MClass) (hc : c = .extLow ∨ c = .extHigh)
    (kw : AName → Option PVal) (l : List (AName × PVal)) (hl : ∀ p ∈ l, p.1 ≠ frozenName) (n : AName)
    (hn : ¬ c.known n) (v : PVal) :
    ∃ o', ((construct c kw).assigns l).setAttr n v = .ok o' ∧ o'.getAttr n = .ok v := by
  obtain ⟨hi, hcls⟩ := history_inv c kw l hl
  set o := (construct c kw).assigns l
  have hfr : ¬ o.field frozenName = .bool true := by
    rw [hi.frozen, hcls]
    rcases hc with rfl | rfl <;> simp [MClass.freezes]
  unfold MClass.known at hn
  push Not at hn
  have hp : n ∉ o.cls.props := by rw [hcls]; exact hn.2.1
  refine ⟨o.put n v, ?_, ?_⟩
  · unfold PyObj.setAttr PyObj.rawSet
    rw [if_neg hfr, if_neg hp]
  · unfold PyObj.getAttr
    rw [if_neg (by exact hp)]
    simp only [PyObj.put, dictGet_set, if_true]

/-- C45 fails for names of methods: they are not parameters, yet can be overwritten in every class and
at any time. -/
theorem C45_method_fails (c : MClass) (kw : AName → Option PVal) (l : List (AName × PVal))
    (hl : ∀ p ∈ l, p.1 ≠ frozenName) (v : PVal) :
    ∃ o', ((construct c kw).assigns l).setAttr (nm "is_changed") v = .ok o' ∧
      o'.getAttr (nm "is_changed") = .ok v := by
  obtain ⟨hi, hcls⟩ := history_inv c kw l hl
  set o := (construct c kw).assigns l
  have hc : ∀ c : MClass, nm "is_changed" ∉ c.props ∧ nm "is_changed" ∈ c.methods := by
    intro c
    cases c <;> decide
  have hp : nm "is_changed" ∉ o.cls.props := (hc _).1
  refine ⟨o.put (nm "is_changed") v, ?_, ?_⟩
  · unfold PyObj.setAttr PyObj.hasAttr PyObj.rawSet PyObj.getAttr
    rw [if_neg hp, if_neg hp]
    cases dictGet o.dict (nm "is_changed") with
    | some w => simp
    | none => simp [(hc o.cls).2]
  · unfold PyObj.getAttr
    rw [if_neg (by exact hp)]
    simp only [PyObj.put, dictGet_set, if_true]

/-- C45 fails for `Emax`: as long as `Sn` is unset the assignment raises `TypeError`, whatever the
value, since `hasattr` evaluates the property. -/
theorem C45_emax_fails (kw : AName → Option PVal) (l : List (AName × PVal))
    (hl : ∀ p ∈ l, p.1 ≠ frozenName) (v : PVal)
    (h1 : ((construct .normPars kw).assigns l).field (nm "Sn") = .none)
    (h2 : ((construct .normPars kw).assigns l).field (nm "_Emax") = .none) :
    ((construct .normPars kw).assigns l).setAttr (nm "Emax") v = .error .typeError := by
  obtain ⟨hi, hcls⟩ := history_inv .normPars kw l hl
  set o := (construct .normPars kw).assigns l
  have hfr : o.field frozenName = .bool true := hi.frozen.2 (by rw [hcls]; trivial)
  have hg : o.getAttr (nm "Emax") = .error .typeError := by
    unfold PyObj.getAttr PyObj.propGet
    rw [hcls, if_pos (by decide), if_neg (by decide), if_neg (by decide), if_neg (by decide),
      if_neg (by decide), if_neg (by decide), if_pos rfl, if_pos h2, h1]
    rfl
  unfold PyObj.setAttr PyObj.hasAttr
  rw [if_pos hfr, hg]

/-- The situation of `C45_emax_fails` is that of a new object. -/
example : (construct .normPars fun _ => none).field (nm "Sn") = .none ∧
    (construct .normPars fun _ => none).field (nm "_Emax") = .none := by decide

/-- C45: once `Sn` is set, `Emax` accepts every number above `Emin` and reads back as assigned. -/
theorem C45_emax (kw : AName → Option PVal) (l : List (AName × PVal))
    (hl : ∀ p ∈ l, p.1 ≠ frozenName) (s : Option ℚ) (r : List (Option ℚ)) (e v : ℚ)
    (h1 : ((construct .normPars kw).assigns l).field (nm "Sn") = .tup (s :: r))
    (h2 : ((construct .normPars kw).assigns l).field (nm "Emin") = .num e) :
    ((construct .normPars kw).assigns l).setAttr (nm "Emax") (.num v) =
      if e < v then .ok (((construct .normPars kw).assigns l).put (nm "_Emax") (.num v))
      else .error .assertion := by
  obtain ⟨hi, hcls⟩ := history_inv .normPars kw l hl
  set o := (construct .normPars kw).assigns l
  have hfr : o.field frozenName = .bool true := hi.frozen.2 (by rw [hcls]; trivial)
  have hg : o.hasAttr (nm "Emax") = .ok true := by
    unfold PyObj.hasAttr PyObj.getAttr PyObj.propGet
    rw [hcls, if_pos (by decide), if_neg (by decide), if_neg (by decide), if_neg (by decide),
      if_neg (by decide), if_neg (by decide), if_pos rfl, h1]
    by_cases h3 : o.field (nm "_Emax") = .none
    · rw [if_pos h3]; rfl
    · rw [if_neg h3]
  unfold PyObj.setAttr PyObj.rawSet PyObj.propSet
  rw [if_pos hfr, hg]
  simp only
  rw [hcls, if_pos (by decide), if_neg (by decide), if_neg (by decide), if_neg (by decide),
    if_neg (by decide), if_pos (by decide), h2]
  simp only [PVal.gt]
  by_cases hlt : e < v
  · simp [hlt]
  · simp [hlt]

example : ((construct .normPars fun _ => none).assigns [(nm "Sn", .tup [some 7, some (1/10)])]).field
    (nm "Sn") = .tup [some 7, some (1/10)] := by decide +kernel

/-- C45: `method` accepts exactly `"fit"` and `"fix"`. -/
theorem C45_method (c : MClass) (hc : nm "method" ∈ c.props) (kw : AName → Option PVal)
    (l : List (AName × PVal)) (hl : ∀ p ∈ l, p.1 ≠ frozenName) (v : PVal) :
    ((construct c kw).assigns l).setAttr (nm "method") v =
      if v = .str (nm "fit") ∨ v = .str (nm "fix") then
        .ok (((construct c kw).assigns l).put (nm "_method") v)
      else .error .notImplemented := by
  obtain ⟨hi, hcls⟩ := history_inv c kw l hl
  set o := (construct c kw).assigns l
  have hg : o.hasAttr (nm "method") = .ok true := by
    unfold PyObj.hasAttr PyObj.getAttr PyObj.propGet
    rw [hcls, if_pos hc, if_pos rfl]
  unfold PyObj.setAttr PyObj.rawSet PyObj.propSet
  rw [hg, hcls, if_pos hc, if_pos rfl]
  simp

example : nm "method" ∈ MClass.extAbstract.props ∧ nm "method" ∈ MClass.extLow.props := by decide

/-! ## Unset parameters -/

/-- A value counts as set: not `None`, not an empty list and no list with a `None`. -/
def PVal.isSet : PVal → Prop
  | .none => False
  | .list xs => xs ≠ [] ∧ Option.none ∉ xs
  | _ => True

theorem checkAll_ok (o : PyObj) (l : List AName) :
    o.checkAll l = .ok () ↔ ∀ x ∈ l, o.checkKey x = .ok () := by
  induction l with
  | nil => simp [PyObj.checkAll]
  | cons x xs ih =>
    simp only [PyObj.checkAll, List.forall_mem_cons]
    cases h : o.checkKey x with
    | error e => simp
    | ok u => simp only [true_and]; exact ih

theorem checkAll_error (o : PyObj) (l : List AName) (e : Err)
    (h : o.checkAll l = .error e) : ∃ x ∈ l, o.checkKey x = .error e := by
  induction l with
  | nil => simp [PyObj.checkAll] at h
  | cons x xs ih =>
    simp only [PyObj.checkAll] at h
    cases hx : o.checkKey x with
    | error e' =>
      rw [hx] at h
      simp only at h
      injection h with h
      exact ⟨x, by simp, by rw [hx, h]⟩
    | ok u =>
      rw [hx] at h
      obtain ⟨y, hy, hy2⟩ := ih h
      exact ⟨y, by simp [hy], hy2⟩

theorem checkKey_ok (o : PyObj) (k : AName) :
    o.checkKey k = .ok () ↔ ∃ v, o.getAttr (stripUnderscore k) = .ok v ∧ v.isSet := by
  unfold PyObj.checkKey
  cases h : o.getAttr (stripUnderscore k) with
  | error e => simp
  | ok v =>
    cases v with
    | list xs =>
      simp only [Except.ok.injEq, exists_eq_left', PVal.isSet]
      split_ifs with hx
      · simp only [reduceCtorEq, false_iff]
        rintro ⟨h1, h2⟩
        rcases hx with hx | hx
        · exact h1 hx
        · exact h2 hx
      · push Not at hx
        simp [hx.1, hx.2]
    | _ => simp [PVal.isSet]

/-- C45: `is_changed` returns normally exactly if every checked parameter is set. -/
theorem C45_is_changed (o : PyObj) (incl excl : List AName) :
    o.isChanged incl excl = .ok () ↔
      ∀ k ∈ (if incl = [] then o.getParameters else incl), k ∉ excl →
        ∃ v, o.getAttr (stripUnderscore k) = .ok v ∧ v.isSet := by
  unfold PyObj.isChanged
  simp only
  rw [checkAll_ok]
  constructor
  · intro h k hk he
    exact (checkKey_ok o k).1 (h k (by rw [List.mem_filter]; exact ⟨hk, by simpa using he⟩))
  · intro h k hk
    rw [List.mem_filter] at hk
    exact (checkKey_ok o k).2 (h k hk.1 (by simpa using hk.2))

/-- C45: if the checked parameters can be read and none is a list, an unset one is reported as
`ValueError`. -/
theorem C45_is_changed_partial (o : PyObj) (incl excl : List AName)
    (hr : ∀ k ∈ (if incl = [] then o.getParameters else incl), k ∉ excl →
        ∃ v, o.getAttr (stripUnderscore k) = .ok v ∧ ∀ xs, v ≠ .list xs) :
    (o.isChanged incl excl = .ok () ∨ o.isChanged incl excl = .error .valueError) ∧
    (o.isChanged incl excl = .error .valueError ↔
      ∃ k ∈ (if incl = [] then o.getParameters else incl), k ∉ excl ∧
        o.getAttr (stripUnderscore k) = .ok .none) := by
  have herr : ∀ e, o.isChanged incl excl = .error e → e = .valueError ∧
      ∃ k ∈ (if incl = [] then o.getParameters else incl), k ∉ excl ∧
        o.getAttr (stripUnderscore k) = .ok .none := by
    intro e he
    obtain ⟨k, hk, hk2⟩ := checkAll_error _ _ _ he
    rw [List.mem_filter] at hk
    obtain ⟨v, hv, hv2⟩ := hr k hk.1 (by simpa using hk.2)
    unfold PyObj.checkKey at hk2
    rw [hv] at hk2
    cases v with
    | none =>
      simp only at hk2
      injection hk2 with hk2
      exact ⟨hk2.symm, k, hk.1, by simpa using hk.2, hv⟩
    | list xs => exact absurd rfl (hv2 xs)
    | _ => simp at hk2
  refine ⟨?_, ?_, ?_⟩
  · cases h : o.isChanged incl excl with
    | ok u => exact Or.inl rfl
    | error e => rw [(herr e h).1]; exact Or.inr rfl
  · intro h
    exact (herr _ h).2
  · rintro ⟨k, hk, hke, hkn⟩
    cases h : o.isChanged incl excl with
    | error e => rw [(herr e h).1]
    | ok u =>
      obtain ⟨v, hv, hs⟩ := (C45_is_changed o incl excl).1 h k hk hke
      rw [hkn] at hv
      injection hv with hv
      subst hv
      exact absurd hs (by simp [PVal.isSet])

/-- Parameters set as for a normalisation. -/
def normKw : AName → Option PVal := fun n =>
  if n = nm "name" then some (.str (nm "p")) else if n = nm "D0" then some (.tup [some 2, some 1])
  else if n = nm "Gg" then some (.tup [some 60, some 10])
  else if n = nm "Sn" then some (.tup [some 7, some 1])
  else if n = nm "Jtarget" then some (.num 0) else if n = nm "spincutModel" then some (.str (nm "const"))
  else if n = nm "_spincutPars" then some (.dict none) else none

/-- C45 fails for lists: an extrapolation model with its default fit range is reported with
`NameError` in place of `ValueError`. -/
theorem C45_list_fails : (construct .extLow fun n => if n = nm "Emin" ∨ n = nm "Emax" then
    some (.num 1) else if n = nm "name" then some (.str (nm "m")) else none).isChanged [] [] =
      .error .nameError := by decide +kernel

/-- C45 fails for the optional parameter `A`: it is meant to be left out of the check, but the list of
parameters contains `_A` and the list of exclusions `A`. -/
theorem C45_optional_fails : (construct .normPars normKw).isChangedNorm = .error .valueError ∧
    ((construct .normPars normKw).put (nm "_A") (.num 164)).isChangedNorm = .ok () := by
  decide +kernel

/-- C45 fails for `Emax` with `Sn` unset: the check raises `TypeError`. -/
theorem C45_check_emax_fails :
    (construct .normPars fun _ => none).isChanged [nm "Emax"] [] = .error .typeError := by decide

end Ompy
