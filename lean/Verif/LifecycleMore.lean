import Verif.LifecycleProps

/-!
# C105, more: several programs on one directory, and which ensemble is extracted
-/

namespace Ompy

variable {Ens V N R : Type}

/-- **C105 (disagreement).** On a directory without a file the first program calculates; all later ones see its file and return its results, whatever they were given. -/
theorem C105_runs_fails (work : EnsWork V N R) (o : EnsObj Ens V N R) (os : List (EnsObj Ens V N R)) (disk : String → Option (EnsObj Ens V N R)) (p : String) (rs : List R)
    (hd : disk p = none) (hs : o.saveInstance = true) (hc : ((o.nldN.isSome && o.gsfN.isSome) ^^ o.simN.isSome) = true)
    (hw : work o.nldN o.gsfN o.simN o.extractor.nld o.extractor.gsf = (rs, none)) (ho : ∀ o' ∈ o :: os, o'.path = some p ∧ o'.regenerate = false) :
    ensRuns work (o :: os) disk = List.replicate (os.length + 1) (.ok (), some rs) := by
  obtain ⟨hp, hr⟩ := ho o List.mem_cons_self
  have hn : EnsWorld.normalizeNew work ⟨o, disk⟩ =
      (⟨{ o with res := some rs }, fun q => if q = p then some (EnsObj.pickled { o with res := some rs }) else disk q⟩, .ok ()) := by
    simp only [EnsWorld.normalizeNew, hc, hw, EnsWorld.save, hs, hp]
    rfl
  have hf : EnsWorld.normalize work ⟨o, disk⟩ = EnsWorld.normalizeNew work ⟨o, disk⟩ := by
    simp [EnsWorld.normalize, hr, EnsWorld.load, hp, hd]
  have key := C105_first_fails work ⟨o, disk⟩ _ p hp hs hn os fun o' h' => ho o' (List.mem_cons_of_mem _ h')
  unfold ensRuns
  dsimp only
  rw [hf, hn]
  dsimp only at key ⊢
  rw [key, List.replicate_succ]

example : ensRuns pairWork [EnsObj.new (⟨.val none, [1, 2], [3, 4], true, none, false⟩ : ExtrObj ℕ ℕ) (some 1) (some 2) none (some "dir") false,
    EnsObj.new ⟨.val none, [7], [8], true, none, false⟩ none none (some 5) (some "dir") false] (fun _ => none) =
      [(.ok (), some [(1, 3), (2, 4)]), (.ok (), some [(1, 3), (2, 4)])] := by decide +kernel

/-- **C105.** The ensemble of a call of `extract_from` is the argument if there is one, and the stored one otherwise; the call goes on exactly if there is an ensemble, a trapezoid and a
path. -/
theorem C105_choice (x : ExtrObj Ens V) (arg : Option Ens) (t : Bool) (e : Ens) :
    x.choose arg t = .ok e ↔ (arg = some e ∨ arg = none ∧ x.ensemble = .val (some e)) ∧ (t = true ∨ x.trapezoid = true) ∧ x.path ≠ none := by
  obtain ⟨ens, nld, gsf, tr, path, rg⟩ := x
  cases arg with
  | some a => cases t <;> cases tr <;> cases path <;> simp [ExtrObj.choose]
  | none =>
    cases ens with
    | missing => simp [ExtrObj.choose]
    | val o =>
      cases o with
      | none => simp [ExtrObj.choose]
      | some b => cases t <;> cases tr <;> cases path <;> simp [ExtrObj.choose]

example : (⟨.val (some 3), [], [], true, some "dir", false⟩ : ExtrObj ℕ ℕ).choose (some 5) false = .ok 5 ∧
    (⟨.val (some 3), [], [], true, some "dir", false⟩ : ExtrObj ℕ ℕ).choose none false = .ok 3 := by decide +kernel

end Ompy
