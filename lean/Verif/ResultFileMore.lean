import Verif.ResultFileProps
import Verif.ActionProps

/-!
# C142: what is loaded, and what later calls see
-/

namespace Ompy

variable {S A C : Type}

/-- **C142.** Reading a pickle ends at `STOP`: pieces that follow, as of a longer file that was overwritten, do not
matter. -/
theorem C142_stop (d : Dict PkVal) (h : (pkDump d).2 = true) (rest : List PkOp) : pkLoad ((pkDump d).1 ++ rest) = some d := by
  induction d with
  | nil => rfl
  | cons x t ih =>
    obtain ⟨k, v⟩ := x
    cases v with
    | handle => simp [pkDump] at h
    | str s =>
      have h' : (pkDump t).2 = true := by simpa [pkDump] using h
      simp [pkDump, pkLoad, ih h']
    | flag s =>
      have h' : (pkDump t).2 = true := by simpa [pkDump] using h
      simp [pkDump, pkLoad, ih h']
    | num s =>
      have h' : (pkDump t).2 = true := by simpa [pkDump] using h
      simp [pkDump, pkLoad, ih h']

theorem attr_update {V : Type} (f : Dict V) (hf : (f.map Prod.fst).Nodup) (k : String) :
    ∀ d : Dict V, (d.update f).get? k = (f.get? k).or (d.get? k) := by
  induction f with
  | nil => intro d; rfl
  | cons x t ih =>
    intro d
    obtain ⟨a, v⟩ := x
    rw [List.map_cons, List.nodup_cons] at hf
    have e : d.update ((a, v) :: t) = (d.set a v).update t := rfl
    rw [e, ih hf.2]
    have hget : ∀ s : Dict V, a ∉ s.map Prod.fst → s.get? a = none := by
      intro s
      induction s with
      | nil => intro _; rfl
      | cons y s ihs =>
        intro hn
        rw [List.map_cons, List.mem_cons, not_or] at hn
        obtain ⟨b, w⟩ := y
        simp only [Dict.get?, if_neg (fun h : b = a => hn.1 h.symm), ihs hn.2]
    have hset : ∀ s : Dict V, (s.set a v).get? k = if a = k then some v else s.get? k := by
      intro s
      induction s with
      | nil => simp [Dict.set, Dict.get?]
      | cons y s ihs =>
        obtain ⟨b, w⟩ := y
        by_cases hb : b = a
        · subst hb
          by_cases hk : b = k <;> simp [Dict.set, Dict.get?, hk]
        · by_cases hk : b = k
          · subst hk
            simp [Dict.set, Dict.get?, hb, Ne.symm hb]
          · simp [Dict.set, Dict.get?, hb, hk, ihs]
    rw [hset]
    by_cases hk : a = k
    · subst hk
      simp [Dict.get?, hget t hf.1]
    · simp [Dict.get?, hk]

/-- **C142.** After loading, the attributes in the file are those of the object, `path` and `regenerate` included; only
attributes that are not in the file stay. -/
theorem C142_attributes (cls : String) (work : Dict PkVal → A → Dict PkVal × Except Err Unit) (u f : Dict PkVal)
    (disk : String → Option (List PkOp)) (p : String) (l : List PkOp) (a : A)
    (hr : u.get? "regenerate" ≠ some (.flag true)) (hp : (pkKind cls work).file u = some p) (hd : disk p = some l)
    (hl : pkLoad l = some f) (hf : (f.map Prod.fst).Nodup) (j : ℕ) (hj : 1 ≤ j) :
    ((pkKind cls work).call u disk a j).disk = disk ∧ ((pkKind cls work).call u disk a j).phase = .done (.ok ()) ∧
      ∀ k, ((pkKind cls work).call u disk a j).obj.get? k = (f.get? k).or (u.get? k) := by
  have h1 : (pkKind cls work).call u disk a 1 = ⟨u.update f, disk, .done (.ok ())⟩ := by
    show (pkKind cls work).step ⟨u, disk, .start a⟩ = _
    have hr' : (pkKind cls work).regen u = false := by simpa [pkKind] using hr
    have hl' : (pkKind cls work).parse l = some f := hl
    simp only [NormKind.step, hr', hp, hd, hl']
    rfl
  rw [(pkKind cls work).call_settled u _ disk disk a _ 1 h1 j hj]
  exact ⟨rfl, rfl, fun k => attr_update f hf k u⟩

/-- **C142.** So an object that has loaded a result written with `regenerate=True` calculates again when it is called
again. -/
theorem C142_again (cls : String) (work : Dict PkVal → A → Dict PkVal × Except Err Unit) (w : NWorld (Dict PkVal) PkOp)
    (i : ℕ) (f : Dict PkVal) (p : String) (l : List PkOp) (a b : A) (hr : (w.objs i).get? "regenerate" ≠ some (.flag true))
    (hp : (pkKind cls work).file (w.objs i) = some p) (hd : w.disk p = some l) (hl : pkLoad l = some f)
    (hf : (f.map Prod.fst).Nodup) (hg : f.get? "regenerate" = some (.flag true)) (j : ℕ) (hj : 1 ≤ j) :
    let w' := (pkKind cls work).event w (.call i a j)
    (pkKind cls work).Fresh (w'.objs i) w'.disk ∧ (w'.disk = w.disk) ∧ (∀ n ≠ i, w'.objs n = w.objs n) ∧
      (pkKind cls work).call (w'.objs i) w'.disk b 1 = ⟨w'.objs i, w.disk, .work b⟩ := by
  intro w'
  obtain ⟨h1, -, h3⟩ := C142_attributes cls work (w.objs i) f w.disk p l a hr hp hd hl hf j hj
  have ho : w'.objs i = ((pkKind cls work).call (w.objs i) w.disk a j).obj := by simp [w', NormKind.event]
  have hdk : w'.disk = w.disk := h1
  have hfr : (pkKind cls work).Fresh (w'.objs i) w'.disk := by
    left
    have := h3 "regenerate"
    rw [hg, Option.some_or] at this
    rw [ho]
    simp only [pkKind, beq_iff_eq]
    exact this
  refine ⟨hfr, hdk, fun n hn => ?_, ?_⟩
  · simp [w', NormKind.event, Function.update_of_ne hn]
  · rw [(pkKind cls work).call_two _ _ b hfr, hdk]

/-- **C142.** After a complete calculation the object itself has the result, and a later call without `regenerate`
by another object finds it; a removed file makes the next call calculate. -/
theorem C142_later (K : NormKind S A C) (w : NWorld S C) (i : ℕ) (t : S) (a : A) (p : String) (hf : K.Fresh (w.objs i) w.disk)
    (hw : K.work (w.objs i) a = (t, .ok ())) (hs : K.saves t = true) (hp : K.file t = some p)
    (k : ℕ) (hk : (K.dump t).1.length + 4 ≤ k) :
    (K.run w [.call i a k]).objs i = t ∧ (∀ n ≠ i, (K.run w [.call i a k]).objs n = w.objs n) ∧
      (K.run w [.call i a k]).disk p = some (K.dump t).1 ∧
      ∀ u, K.file u = some p → K.Fresh u (K.run w [.call i a k, .remove p]).disk := by
  have hend : ∃ r, K.call (w.objs i) w.disk a k = ⟨t, Function.update w.disk p (some (K.dump t).1), .done r⟩ := by
    refine ⟨if (K.dump t).2 then .ok () else .error .pickling, ?_⟩
    refine K.call_settled _ _ _ _ a _ ((K.dump t).1.length + 4) ?_ k hk
    rw [show (K.dump t).1.length + 4 = (K.dump t).1.length + 1 + 3 from rfl, K.call_open _ t w.disk a p hf hw hs hp,
      Function.iterate_succ_apply', K.write_iter t p hp (K.dump t).2 (K.dump t).1.length w.disk [] (K.dump t).1 le_rfl]
    cases (K.dump t).2 <;> simp [NormKind.step]
  obtain ⟨r, hend⟩ := hend
  refine ⟨?_, fun n hn => ?_, ?_, fun u hu => .inr ⟨p, hu, ?_⟩⟩
  · simp [NormKind.run, NormKind.event, hend]
  · simp [NormKind.run, NormKind.event, Function.update_of_ne hn]
  · simp [NormKind.run, NormKind.event, hend]
  · simp [NormKind.run, NormKind.event]

/-- The object 1 loads what object 0 has written, and would calculate again. -/
example : (toyKind.run toyWorld [.call 0 (.num 1) 10, .call 1 (.num 2) 1]).objs 1 =
    [("path", .str "out"), ("regenerate", .flag true), ("_save_instance", .flag true), ("res", .num 1)] := by
  decide +kernel

end Ompy
