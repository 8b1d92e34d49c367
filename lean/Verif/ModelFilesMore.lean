import Verif.ModelFilesProps

/-!
# C113: further theorems, added after mutation tests
-/

namespace Ompy

/-- **C113.** Every new extrapolation model can be saved, whatever its fields are, if `pickle` can write these: the
method is no obstacle. -/
theorem C113_extrapolation_saved (P : Pickler) (d : PDisk) (p : AName) (c : MClass) (hc : c = .extLow ∨ c = .extHigh)
    (kw : AName → Option PVal) (hk : ∀ n v, kw n = some v → ∀ k, v ≠ .opaque k) :
    ((construct c kw).save P d p).2 = .ok () ∧
      ((construct c kw).save P d p).1 p = some (.pickled c (construct c kw).dict) := by
  have hset : ∀ (l : List (AName × PVal)) (n : AName) (v : PVal) (kv : AName × PVal), kv ∈ dictSet l n v →
      kv ∈ l ∨ kv = (n, v) := by
    intro l n v
    induction l with
    | nil =>
      intro kv h
      simp [dictSet] at h
      exact Or.inr h
    | cons a l ih =>
      intro kv h
      obtain ⟨m, w⟩ := a
      unfold dictSet at h
      split_ifs at h with hm
      · rcases List.mem_cons.1 h with h | h
        · right
          rw [h, hm]
        · exact Or.inl (by simp [h])
      · rcases List.mem_cons.1 h with h | h
        · exact Or.inl (by simp [h])
        · rcases ih kv h with h | h
          · exact Or.inl (by simp [h])
          · exact Or.inr h
  have hf : ∀ f ∈ c.fields, ∀ k, f.2 ≠ .opaque k := by
    intro f hf k hk
    have : (c.fields.all fun f => match f.2 with | .opaque _ => false | _ => true) = true := by
      rcases hc with rfl | rfl <;> decide +kernel
    have := List.all_eq_true.1 this f hf
    rw [hk] at this
    cases this
  have hcls : (construct c kw).cls = c := by
    rcases hc with rfl | rfl <;> rfl
  have hd : ∀ kv ∈ (construct c kw).dict, P.dump kv.2 = none := by
    have base : ∀ kv ∈ (c.fields.map fun f => (f.1, if f.1 = frozenName then f.2 else (kw f.1).getD f.2)),
        P.dump kv.2 = none := by
      intro kv h
      obtain ⟨f, hfm, rfl⟩ := List.mem_map.1 h
      have no : ∀ k, (if f.1 = frozenName then f.2 else (kw f.1).getD f.2) ≠ .opaque k := by
        intro k
        split_ifs
        · exact hf f hfm k
        · cases hv : kw f.1 with
          | none => exact hf f hfm k
          | some v => exact hk _ v hv k
      generalize (if f.1 = frozenName then f.2 else (kw f.1).getD f.2) = v at *
      show P.dump v = none
      unfold Pickler.dump
      split
      · rename_i k
        exact absurd rfl (no k)
      · rfl
    intro kv h
    have h' : kv ∈ dictSet (c.fields.map fun f => (f.1, if f.1 = frozenName then f.2 else (kw f.1).getD f.2))
        (nm "model") (.opaque 2) := by
      rcases hc with rfl | rfl <;> exact h
    rcases hset _ _ _ kv h' with h' | h'
    · exact base kv h'
    · rw [h']
      rfl
  have e1 : ((construct c kw).dict.findSome? fun kv => P.dump kv.2) = none := by
    rw [List.findSome?_eq_none_iff]
    exact hd
  unfold PyObj.save
  rw [e1]
  exact ⟨rfl, by simp [PDisk.set, hcls]⟩

example : ((construct .extLow fun n => if n = nm "T" then some (.num 1) else none).save
    ⟨fun _ => some .typeError, fun _ => none⟩ (fun _ => none) (nm "f")).2 = .ok () := by decide +kernel

/-- **C113.** A file with a value under the name of a property that cannot be computed (such as a value `Emax` without
`Sn`) cannot be loaded: the exception of the property is raised, after the parameters in front of it were set. -/
theorem C113_property_in_file (P : Pickler) (d : PDisk) (p : AName) (o : PyObj) (c : MClass) (l : List (AName × PVal))
    (hp : d p = some (.pickled c l)) (hr : ∀ kv ∈ l, P.read kv.2 = none) (n : AName) (hn : n ∈ PyObj.getParameters ⟨c, l⟩)
    (e : Err) (he : PyObj.getAttr ⟨c, l⟩ n = .error e) : ∃ o' e', o.load P d p = (o', .error e') := by
  have e2 : (l.findSome? fun kv => P.read kv.2) = none := by
    rw [List.findSome?_eq_none_iff]
    exact hr
  have key : ∀ (ks : List AName) (q : PyObj), n ∈ ks → ∃ o' e', PyObj.loadKeys ⟨c, l⟩ q ks = (o', .error e') := by
    intro ks
    induction ks with
    | nil => intro q h; simp at h
    | cons k ks ih =>
      intro q h
      unfold PyObj.loadKeys
      cases hg : PyObj.getAttr ⟨c, l⟩ k with
      | error e' => exact ⟨q, e', rfl⟩
      | ok v =>
        have hk : n ∈ ks := by
          rcases List.mem_cons.1 h with rfl | h
          · rw [he] at hg
            cases hg
          · exact h
        cases hs : q.setAttr k v with
        | error e' => exact ⟨q, e', by simp only [hs]⟩
        | ok q' =>
          simp only [hs]
          exact ih q' hk
  unfold PyObj.load
  rw [hp]
  simp only [e2]
  exact key _ o hn

example : (construct .normPars fun _ => none).load ⟨fun _ => none, fun _ => none⟩
    (fun _ => some (.pickled .normPars ((nm "Emax", .num 5) :: (construct .normPars fun _ => none).dict))) (nm "f") =
    (construct .normPars fun _ => none, .error .typeError) := by decide +kernel

end Ompy
