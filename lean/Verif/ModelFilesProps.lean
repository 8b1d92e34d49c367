import Verif.ModelFiles
import Verif.ModelsProps
import Verif.RebinLemmas

/-!
# Property C113: model objects on disk, as dictionaries and as text
-/

namespace Ompy

/-! ### Objects -/

/-- No property is kept in the dictionary of an object. -/
def PyObj.NoProp (o : PyObj) : Prop := ∀ n ∈ o.dict.map (·.1), n ∉ o.cls.props

theorem dictSet_mem (d : List (AName × PVal)) (n m : AName) (v : PVal) (h : m ∈ (dictSet d n v).map (·.1)) :
    m = n ∨ m ∈ d.map (·.1) := by
  by_contra hc
  push Not at hc
  have h2 := (dictGet_none d m).2 hc.2
  have h3 := dictGet_set d n m v
  rw [if_neg (fun q => hc.1 q.symm), h2] at h3
  exact (dictGet_none _ _).1 h3 h

theorem put_noProp {o : PyObj} (h : o.NoProp) {n : AName} (hn : n ∉ o.cls.props) (v : PVal) : (o.put n v).NoProp := by
  intro m hm
  rcases dictSet_mem o.dict n m v hm with rfl | h'
  · exact hn
  · exact h m h'

theorem setAttr_noProp {o o' : PyObj} (h : o.NoProp) {n : AName} {v : PVal} (hs : o.setAttr n v = .ok o') : o'.NoProp := by
  have raw : o.rawSet n v = .ok o' → o'.NoProp := by
    intro hr
    unfold PyObj.rawSet at hr
    split_ifs at hr with hp
    · obtain ⟨m, w, hm, _, rfl⟩ := propSet_put hp hr
      exact put_noProp h (fun q => props_not_field _ _ q hm) w
    · injection hr with hr
      subst hr
      exact put_noProp h hp v
  unfold PyObj.setAttr at hs
  split_ifs at hs
  · split at hs
    · exact raw hs
    · simp at hs
    · simp at hs
  · exact raw hs

theorem construct_noProp (c : MClass) (kw : AName → Option PVal) : (construct c kw).NoProp := by
  have base : PyObj.NoProp ⟨c, c.fields.map fun f => (f.1, if f.1 = frozenName then f.2 else (kw f.1).getD f.2)⟩ := by
    intro n hn hp
    apply props_not_field c n hp
    unfold MClass.isField
    simpa using hn
  have h1 : ∀ c : MClass, frozenName ∉ c.props ∧ nm "model" ∉ c.props := by
    intro c
    cases c <;> decide
  unfold construct
  cases c <;> exact put_noProp base (by first | exact (h1 _).1 | exact (h1 _).2) _

/-- An object as made by the constructor and any assignments (not to the private flag). -/
def Made (o : PyObj) : Prop := ∃ (c : MClass) (kw : AName → Option PVal) (l : List (AName × PVal)),
  (∀ p ∈ l, p.1 ≠ frozenName) ∧ o = (construct c kw).assigns l

theorem assigns_noProp (l : List (AName × PVal)) : ∀ o : PyObj, o.NoProp → (o.assigns l).NoProp := by
  induction l with
  | nil => intro o h; exact h
  | cons p l ih =>
    obtain ⟨n, v⟩ := p
    intro o h
    simp only [PyObj.assigns]
    cases hs : o.setAttr n v with
    | error e => exact ih o h
    | ok o' => exact ih o' (setAttr_noProp h hs)

theorem Made.inv {o : PyObj} (h : Made o) : o.Inv ∧ o.NoProp := by
  obtain ⟨c, kw, l, hl, rfl⟩ := h
  exact ⟨(history_inv c kw l hl).1, assigns_noProp l _ (construct_noProp c kw)⟩

theorem getAttr_dict {o : PyObj} (h : o.NoProp) {n : AName} (hn : n ∈ o.dict.map (·.1)) :
    ∃ v, dictGet o.dict n = some v ∧ o.getAttr n = .ok v := by
  have h1 := mt (dictGet_none o.dict n).1 (by simpa using hn)
  cases hd : dictGet o.dict n with
  | none => exact absurd hd h1
  | some v =>
    refine ⟨v, rfl, ?_⟩
    unfold PyObj.getAttr
    rw [if_neg (h n hn), hd]

/-- Setting a name the class knows and that is not a property always works. -/
theorem setAttr_known {o : PyObj} (hi : o.Inv) {n : AName} (hp : n ∉ o.cls.props) (hk : o.cls.freezes → o.cls.known n) (v : PVal) :
    o.setAttr n v = .ok (o.put n v) := by
  have raw : o.rawSet n v = .ok (o.put n v) := by
    unfold PyObj.rawSet
    rw [if_neg hp]
  unfold PyObj.setAttr
  split_ifs with hf
  · have hh : o.hasAttr n = .ok true := by
      unfold PyObj.hasAttr PyObj.getAttr
      rw [if_neg hp]
      cases hd : dictGet o.dict n with
      | some w => rfl
      | none =>
        have hno := (dictGet_none o.dict n).1 hd
        have hm : n ∈ o.cls.methods := by
          rcases hk (hi.frozen.1 hf) with q | q | q
          · exact absurd (hi.fields n q) hno
          · exact absurd q hp
          · exact q
        simp only
        rw [if_pos hm]
    rw [hh]
    exact raw
  · exact raw

theorem loadKeys_spec (src : PyObj) (hs : src.NoProp) (ks : List AName) (hks : ∀ k ∈ ks, k ∈ src.dict.map (·.1) ∧ k ≠ frozenName) :
    ∀ o : PyObj, o.Inv → o.cls = src.cls → (src.cls.freezes → ∀ k ∈ ks, src.cls.known k) →
    ∃ o', src.loadKeys o ks = (o', .ok ()) ∧ o'.cls = o.cls ∧ o'.Inv ∧
      ∀ n, dictGet o'.dict n = if n ∈ ks then dictGet src.dict n else dictGet o.dict n := by
  induction ks with
  | nil =>
    intro o hi _ _
    exact ⟨o, rfl, rfl, hi, fun n => by simp⟩
  | cons k ks ih =>
    intro o hi hc hk
    obtain ⟨hmem, hfz⟩ := hks k (by simp)
    obtain ⟨v, hv, hg⟩ := getAttr_dict hs hmem
    have hp : k ∉ o.cls.props := by
      rw [hc]
      exact hs k hmem
    have hset := setAttr_known hi hp (fun hf => by
      rw [hc] at hf ⊢
      exact hk hf k (by simp)) v
    have hi' : (o.put k v).Inv := put_inv hi (fun hf => by
      rw [hc] at hf ⊢
      exact hk hf k (by simp)) hfz v
    obtain ⟨o', h1, h2, h3, h4⟩ := ih (fun q hq => hks q (by simp [hq])) (o.put k v) hi' hc (fun hf q hq => hk hf q (by simp [hq]))
    refine ⟨o', ?_, h2, h3, ?_⟩
    · simp only [PyObj.loadKeys, hg, hset]
      exact h1
    · intro n
      rw [h4 n]
      by_cases hn : n ∈ ks
      · rw [if_pos hn, if_pos (by simp [hn])]
      · rw [if_neg hn]
        simp only [PyObj.put, dictGet_set]
        by_cases hkn : k = n
        · subst hkn
          rw [if_pos rfl, if_pos (by simp), hv]
        · rw [if_neg hkn, if_neg]
          simp only [List.mem_cons, not_or]
          exact ⟨fun q => hkn q.symm, hn⟩

/-! ### Files -/

/-- **C113.** What has been saved can be loaded into any object of the same class: afterwards it has every parameter of the
saved object, and what is not a parameter (names with two underscores, above all the private flag) is as before. -/
theorem C113_round_trip_partial (P : Pickler) (d : PDisk) (p : AName) (o o' : PyObj) (ho : Made o) (ho' : Made o') (hc : o'.cls = o.cls)
    (hd : ∀ kv ∈ o.dict, P.dump kv.2 = none) (hr : ∀ kv ∈ o.dict, P.read kv.2 = none) :
    ∃ d' o'', o.save P d p = (d', .ok ()) ∧ (∀ q, q ≠ p → d' q = d q) ∧ o'.load P d' p = (o'', .ok ()) ∧ o''.cls = o.cls ∧
      ∀ n, dictGet o''.dict n = if n ∈ o.dict.map (·.1) ∧ hasDunder n = false then dictGet o.dict n else dictGet o'.dict n := by
  obtain ⟨hi, hnp⟩ := ho.inv
  obtain ⟨hi', _⟩ := ho'.inv
  have e1 : (o.dict.findSome? fun kv => P.dump kv.2) = none := by
    rw [List.findSome?_eq_none_iff]
    exact hd
  have e2 : (o.dict.findSome? fun kv => P.read kv.2) = none := by
    rw [List.findSome?_eq_none_iff]
    exact hr
  have hpar : ∀ n, n ∈ o.getParameters ↔ n ∈ o.dict.map (·.1) ∧ hasDunder n = false := by
    intro n
    unfold PyObj.getParameters
    rw [List.mem_filter]
    simp
  obtain ⟨o'', h1, h2, _, h4⟩ := loadKeys_spec o hnp o.getParameters (fun k hk => by
    obtain ⟨a, b⟩ := (hpar k).1 hk
    refine ⟨a, ?_⟩
    rintro rfl
    revert b
    decide) o' hi' hc (fun hf k hk => hi.known hf k ((hpar k).1 hk).1)
  refine ⟨d.set p (.pickled o.cls o.dict), o'', ?_, ?_, ?_, h2.trans hc, ?_⟩
  · unfold PyObj.save
    rw [e1]
  · intro q hq
    simp [PDisk.set, hq]
  · unfold PyObj.load
    simp only [PDisk.set, if_true]
    rw [e2]
    exact h1
  · intro n
    rw [h4 n]
    simp only [hpar n]

/-- Non-vacuity: parameters of the normalisation, saved and loaded into a new object. -/
example :
    let o := (construct .normPars fun n => if n = nm "name" then some (.str (nm "Dy")) else if n = nm "Sn" then some (.list [some 6, some 1]) else none).assigns
      [(nm "A", PVal.num 164), (nm "Emax", PVal.num 5)]
    let P : Pickler := ⟨fun _ => none, fun _ => none⟩
    let r := (construct .normPars fun _ => none).load P (o.save P (fun _ => none) (nm "f")).1 (nm "f")
    r.2 = .ok () ∧ r.1.getAttr (nm "A") = .ok (.num 164) ∧ r.1.getAttr (nm "Emax") = .ok (.num 5) ∧ r.1 = o := by decide +kernel

/-- **C113, fails.** Extrapolation models can be saved but never loaded: `pickle` looks for the method under its name in the
source.  The object that should be loaded stays as it is. -/
theorem C113_extrapolation_fails (P : Pickler) (d : PDisk) (p : AName) (o o' : PyObj) (hm : (nm "model", PVal.opaque 2) ∈ o.dict)
    (hd : ∀ kv ∈ o.dict, P.dump kv.2 = none) (hr : ∀ kv ∈ o.dict, kv.2 = .opaque 2 ∨ P.read kv.2 = none) :
    (o.save P d p).2 = .ok () ∧ o'.load P (o.save P d p).1 p = (o', .error .attributeError) := by
  have e1 : (o.dict.findSome? fun kv => P.dump kv.2) = none := by
    rw [List.findSome?_eq_none_iff]
    exact hd
  have e2 : (o.dict.findSome? fun kv => P.read kv.2) = some .attributeError := by
    have h0 : (o.dict.findSome? fun kv => P.read kv.2) ≠ none := by
      intro h
      rw [List.findSome?_eq_none_iff] at h
      have := h _ hm
      simp [Pickler.read] at this
    cases hf : o.dict.findSome? fun kv => P.read kv.2 with
    | none => exact absurd hf h0
    | some e =>
      obtain ⟨kv, hkv, he⟩ := List.exists_of_findSome?_eq_some hf
      rcases hr kv hkv with h | h
      · rw [h] at he
        simp [Pickler.read] at he
        rw [he]
      · rw [h] at he
        cases he
  unfold PyObj.save PyObj.load
  rw [e1]
  simp only [PDisk.set, if_true, e2, and_self]

/-- Every new extrapolation model is such an object. -/
theorem C113_extrapolation_model (c : MClass) (hc : c = .extLow ∨ c = .extHigh) (kw : AName → Option PVal) :
    dictGet (construct c kw).dict (nm "model") = some (.opaque 2) := by
  rcases hc with rfl | rfl <;> exact (dictGet_set _ _ _ _).trans (if_pos rfl)

example : (nm "model", PVal.opaque 2) ∈ (construct .extLow fun _ => none).dict := by decide +kernel

/-- **C113, fails.** A value that cannot be written destroys what has been saved before under the same name. -/
theorem C113_failed_save_fails (P : Pickler) (d : PDisk) (p : AName) (o o' : PyObj) (e : Err)
    (h : (o.save P d p).2 = .error e) : (o'.load P (o.save P d p).1 p) = (o', .error .runtimeError) := by
  unfold PyObj.save at *
  cases hf : o.dict.findSome? fun kv => P.dump kv.2 with
  | none =>
    rw [hf] at h
    cases h
  | some e' =>
    unfold PyObj.load
    simp [PDisk.set]

example : ((construct .results fun n => if n = nm "nld_model" then some (.opaque 7) else none).save ⟨fun _ => some .attributeError, fun _ => none⟩
    (fun _ => some (.pickled .results [])) (nm "f")).2 = .error .attributeError := by decide +kernel

/-- **C113.** A missing file is an IOError, and a file that cannot be read leaves the object as it is. -/
theorem C113_missing (P : Pickler) (d : PDisk) (p : AName) (o : PyObj) :
    (d p = none → o.load P d p = (o, .error .fileNotFound)) ∧ (d p = some .other → o.load P d p = (o, .error .runtimeError)) := by
  constructor <;> intro h <;> unfold PyObj.load <;> rw [h]

example : (construct .results fun _ => none).load ⟨fun _ => none, fun _ => none⟩ (fun _ => none) (nm "f") =
    (construct .results fun _ => none, .error .fileNotFound) := by decide +kernel

/-- **C113, fails.** Loading a file of another class raises an exception after some parameters have been replaced. -/
theorem C113_other_class_fails : ∃ (P : Pickler) (d : PDisk) (p : AName) (o o' : PyObj), Made o ∧ Made o' ∧
    (o.save P d p).2 = .ok () ∧ (o'.load P (o.save P d p).1 p).2 = .error .attributeError ∧
    (o'.load P (o.save P d p).1 p).1.getAttr (nm "name") = .ok (.str (nm "results")) ∧ o'.getAttr (nm "name") = .ok (.str (nm "Dy")) := by
  refine ⟨⟨fun _ => none, fun _ => none⟩, fun _ => none, nm "f",
    construct .results fun n => if n = nm "name" then some (.str (nm "results")) else none,
    construct .normPars fun n => if n = nm "name" then some (.str (nm "Dy")) else none,
    ⟨.results, _, [], by simp, rfl⟩, ⟨.normPars, _, [], by simp, rfl⟩, ?_, ?_, ?_, ?_⟩ <;> decide +kernel

/-! ### Dictionaries and texts -/

/-- Only `Emax` of the parameters of the normalisation can fail: it is taken from `Sn` if it is not set. -/
def EmaxFails (o : PyObj) (e : Err) : Prop :=
  o.cls = .normPars ∧ o.field (nm "_Emax") = .none ∧ (o.field (nm "Sn")).first = .error e

theorem getAttr_error {o : PyObj} {n : AName} {e : Err} (hn : n ∈ o.dirNames) (h : o.getAttr n = .error e) :
    n = nm "Emax" ∧ EmaxFails o e := by
  unfold PyObj.dirNames at hn
  rw [List.mem_dedup, List.mem_append, List.mem_append] at hn
  unfold PyObj.getAttr at h
  by_cases hp : n ∈ o.cls.props
  · rw [if_pos hp] at h
    have hc : ∀ c : MClass, ∀ p ∈ c.props, (p = nm "method" ∨ p = nm "shift_after" ∨ p = nm "spinMass" ∨ p = nm "spincutPars" ∨ p = nm "A" ∨
        (p = nm "Emax" ∧ c = .normPars)) := by
      intro c
      cases c <;> decide
    unfold PyObj.propGet at h
    rcases hc o.cls n hp with rfl | rfl | rfl | rfl | rfl | ⟨rfl, hcls⟩
    · simp at h
    · rw [if_neg (by decide), if_pos rfl] at h
      cases h
    · rw [if_neg (by decide), if_neg (by decide), if_pos rfl] at h
      cases h
    · rw [if_neg (by decide), if_neg (by decide), if_neg (by decide), if_pos rfl] at h
      cases h
    · rw [if_neg (by decide), if_neg (by decide), if_neg (by decide), if_neg (by decide), if_pos rfl] at h
      cases h
    · rw [if_neg (by decide), if_neg (by decide), if_neg (by decide), if_neg (by decide), if_neg (by decide), if_pos rfl] at h
      split_ifs at h with hE
      exact ⟨rfl, hcls, hE, h⟩
  · rw [if_neg hp] at h
    exfalso
    cases hd : dictGet o.dict n with
    | some v =>
      rw [hd] at h
      cases h
    | none =>
      rw [hd] at h
      have hm : n ∈ o.cls.methods := by
        rcases hn with (hn | hn) | hn
        · exact absurd hn ((dictGet_none _ _).1 hd)
        · exact absurd hn hp
        · exact hn
      simp only [if_pos hm] at h
      cases h

theorem mapM_error {α β : Type} (f : α → Except Err β) (e : Err) (l : List α) (h : l.mapM f = .error e) : ∃ x ∈ l, f x = .error e := by
  induction l with
  | nil => cases h
  | cons x l ih =>
    rw [List.mapM_cons] at h
    cases hx : f x with
    | error e' =>
      rw [hx] at h
      cases h
      exact ⟨x, by simp, hx⟩
    | ok y =>
      rw [hx] at h
      cases hl : l.mapM f with
      | error e' =>
        rw [hl] at h
        obtain ⟨z, hz, hz'⟩ := ih (by rw [hl]; exact h)
        exact ⟨z, by simp [hz], hz'⟩
      | ok ys =>
        rw [hl] at h
        cases h

theorem mapM_values {α β : Type} (f : α → Except Err β) (l : List α) (ys : List β) (h : l.mapM f = .ok ys) :
    (∀ x ∈ l, ∃ y ∈ ys, f x = .ok y) ∧ ∀ y ∈ ys, ∃ x ∈ l, f x = .ok y := by
  induction l generalizing ys with
  | nil =>
    cases h
    simp
  | cons x l ih =>
    rw [List.mapM_cons] at h
    cases hx : f x with
    | error e' =>
      rw [hx] at h
      cases h
    | ok y =>
      rw [hx] at h
      cases hl : l.mapM f with
      | error e' =>
        rw [hl] at h
        cases h
      | ok zs =>
        rw [hl] at h
        cases h
        obtain ⟨h1, h2⟩ := ih zs hl
        constructor
        · intro a ha
          rcases List.mem_cons.1 ha with rfl | ha
          · exact ⟨y, by simp, hx⟩
          · obtain ⟨b, hb, hb'⟩ := h1 a ha
            exact ⟨b, by simp [hb], hb'⟩
        · intro b hb
          rcases List.mem_cons.1 hb with rfl | hb
          · exact ⟨x, by simp, hx⟩
          · obtain ⟨a, ha, ha'⟩ := h2 b hb
            exact ⟨a, by simp [ha], ha'⟩

/-- **C113.** `asdict` contains every field and every property with its value — unless `Emax` is to be taken from an `Sn` that
has no first element. -/
theorem C113_asdict_partial (o : PyObj) (ho : Made o) (hE : ∀ e, ¬ EmaxFails o e) :
    ∃ l, o.asdict = .ok l ∧ (∀ n, o.cls.isField n ∨ n ∈ o.cls.props → ∃ v, o.getAttr n = .ok v ∧ (n, v) ∈ l) ∧
      ∀ nv ∈ l, o.getAttr nv.1 = .ok nv.2 := by
  obtain ⟨hi, _⟩ := ho.inv
  cases h : o.asdict with
  | error e =>
    exfalso
    obtain ⟨n, hn, hn'⟩ := mapM_error _ e _ h
    rw [List.mem_filter] at hn
    cases hg : o.getAttr n with
    | error e' => exact hE e' (getAttr_error hn.1 hg).2
    | ok v =>
      rw [hg] at hn'
      cases hn'
  | ok l =>
    obtain ⟨h1, h2⟩ := mapM_values _ _ _ h
    refine ⟨l, rfl, ?_, ?_⟩
    · intro n hn
      have hmem : n ∈ o.dirNames.filter fun n => !(startsDunder n || n ∈ modelMethods) := by
        rw [List.mem_filter]
        constructor
        · unfold PyObj.dirNames
          rw [List.mem_dedup, List.mem_append, List.mem_append]
          rcases hn with hn | hn
          · exact Or.inl (Or.inl (hi.fields n hn))
          · exact Or.inl (Or.inr hn)
        · have hall : ∀ c : MClass, (∀ n ∈ c.fields.map (·.1), (!(startsDunder n || n ∈ modelMethods)) = true) ∧
              ∀ n ∈ c.props, (!(startsDunder n || n ∈ modelMethods)) = true := by
            intro c
            cases c <;> decide +kernel
          rcases hn with hn | hn
          · exact (hall o.cls).1 n hn
          · exact (hall o.cls).2 n hn
      obtain ⟨nv, hnv, he⟩ := h1 n hmem
      cases hg : o.getAttr n with
      | error e =>
        rw [hg] at he
        cases he
      | ok v =>
        rw [hg] at he
        cases he
        exact ⟨v, rfl, hnv⟩
    · intro nv hnv
      obtain ⟨n, _, he⟩ := h2 nv hnv
      cases hg : o.getAttr n with
      | error e =>
        rw [hg] at he
        cases he
      | ok v =>
        rw [hg] at he
        cases he
        exact hg

/-- **C113, fails.** New parameters of the normalisation have no `Sn`: `asdict` raises TypeError, … -/
theorem C113_asdict_fails : (construct .normPars fun _ => none).asdict = .error .typeError := by decide +kernel

/-- … and once it works, the dictionary also contains methods. -/
theorem C113_asdict_methods_fails : ∃ o, Made o ∧ (o.asdict).map (fun l => decide ((nm "E_grid", PVal.opaque 1) ∈ l)) = .ok true :=
  ⟨construct .normPars fun n => if n = nm "Sn" then some (.list [some 6, some 1]) else none, ⟨.normPars, _, [], by simp, rfl⟩, by decide +kernel⟩

/-- **C113.** The text of an object has one line for every field but the name, with the value of the property if there is one —
unless `Emax` is to be taken from an `Sn` that cannot be indexed. -/
theorem C113_str_partial (o : PyObj) (ho : Made o) (hE : ∀ e, EmaxFails o e → e = .indexError) :
    ∃ l, o.str = .ok l ∧ l.length + 1 = o.cls.fields.length ∧ ∀ nv ∈ l, o.getAttr nv.1 = .ok nv.2 := by
  obtain ⟨hi, _⟩ := ho.inv
  have plain : ∀ n, o.cls.isField n → ∃ v, o.getAttr n = .ok v := fun n hn => ⟨_, getAttr_field hi hn⟩
  have key : ∀ n, o.cls.isField n → ∃ nv, o.strField n = .ok nv ∧ o.getAttr nv.1 = .ok nv.2 := by
    intro n hn
    obtain ⟨v, hv⟩ := plain n hn
    unfold PyObj.strField
    simp only [hv]
    split
    · rename_i r
      cases hr : o.getAttr r with
      | ok w => exact ⟨(r, w), rfl, hr⟩
      | error e =>
        by_cases he : e = .attributeError ∨ e = .indexError ∨ e = .assertion
        · rcases he with rfl | rfl | rfl <;> exact ⟨_, rfl, hv⟩
        · exfalso
          apply he
          -- an error other than a missing attribute comes from a property
          by_cases hd : r ∈ o.dirNames
          · exact Or.inr (Or.inl (hE e (getAttr_error hd hr).2))
          · left
            unfold PyObj.dirNames at hd
            rw [List.mem_dedup, List.mem_append, List.mem_append] at hd
            push Not at hd
            unfold PyObj.getAttr at hr
            rw [if_neg hd.1.2, (dictGet_none _ _).2 hd.1.1] at hr
            simp only at hr
            rw [if_neg hd.2] at hr
            cases hr
            rfl
    · exact ⟨_, rfl, hv⟩
  unfold PyObj.str
  cases h : ((o.cls.fields.map (·.1)).filter fun n => n ≠ nm "name").mapM o.strField with
  | error e =>
    exfalso
    obtain ⟨n, hn, he⟩ := mapM_error _ e _ h
    rw [List.mem_filter] at hn
    obtain ⟨nv, h1, _⟩ := key n hn.1
    rw [h1] at he
    cases he
  | ok l =>
    refine ⟨l, rfl, ?_, ?_⟩
    · have hlen : l.length = ((o.cls.fields.map (·.1)).filter fun n => n ≠ nm "name").length := by
        have : ∀ (xs : List AName) (ys : List (AName × PVal)), xs.mapM o.strField = .ok ys → ys.length = xs.length := by
          intro xs
          induction xs with
          | nil =>
            intro ys h
            cases h
            rfl
          | cons x xs ih =>
            intro ys h
            rw [List.mapM_cons] at h
            cases hx : o.strField x with
            | error e =>
              rw [hx] at h
              cases h
            | ok y =>
              rw [hx] at h
              cases hxs : xs.mapM o.strField with
              | error e =>
                rw [hxs] at h
                cases h
              | ok zs =>
                rw [hxs] at h
                cases h
                simp [ih zs hxs]
        exact this _ _ h
      rw [hlen]
      cases o.cls <;> decide +kernel
    · intro nv hnv
      obtain ⟨n, hn, he⟩ := (mapM_values _ _ _ h).2 nv hnv
      rw [List.mem_filter] at hn
      obtain ⟨nv', h1, h2⟩ := key n hn.1
      rw [h1] at he
      cases he
      exact h2

example : ((construct .normPars fun n => if n = nm "Sn" then some (.list [some 6, some 1]) else none).str).map
    (fun l => decide ((nm "Emax", PVal.num 6) ∈ l ∧ (nm "A", PVal.none) ∈ l ∧ (frozenName, PVal.bool true) ∈ l)) = .ok true := by decide +kernel

/-- **C113.** Which line a field has: a field without underscore is printed itself, a field with an underscore by the property
of that name, and by itself if there is nothing of that name. -/
theorem C113_str_lines (o : PyObj) (ho : Made o) (l : List (AName × PVal)) (h : o.str = .ok l) (n : AName) (hn : o.cls.isField n) (hne : n ≠ nm "name") :
    (∀ r v, n = '_' :: r → o.getAttr r = .ok v → (r, v) ∈ l) ∧
    (∀ r, n = '_' :: r → o.getAttr r = .error .attributeError → (n, o.field n) ∈ l) ∧
    ((∀ r, n ≠ '_' :: r) → (n, o.field n) ∈ l) := by
  obtain ⟨hi, _⟩ := ho.inv
  have hv := getAttr_field hi hn
  have hmem : n ∈ (o.cls.fields.map (·.1)).filter fun n => n ≠ nm "name" := by
    rw [List.mem_filter]
    exact ⟨hn, by simpa using hne⟩
  obtain ⟨nv, hnv, he⟩ := (mapM_values _ _ _ h).1 n hmem
  unfold PyObj.strField at he
  simp only [hv] at he
  refine ⟨?_, ?_, ?_⟩
  · rintro r v rfl hr
    simp only [hr] at he
    cases he
    exact hnv
  · rintro r rfl hr
    simp only [hr] at he
    cases he
    exact hnv
  · intro hno
    split at he
    · exact absurd rfl (hno _)
    · cases he
      exact hnv

example : ((construct .normPars fun n => if n = nm "Sn" then some (.list [some 6, some 1]) else none).str).map
    (fun l => decide ((nm "Sn", PVal.list [some 6, some 1]) ∈ l)) = .ok true := by decide +kernel

/-- **C113, fails.** New parameters of the normalisation cannot be printed. -/
theorem C113_str_fails : (construct .normPars fun _ => none).str = .error .typeError := by decide +kernel

end Ompy
