import Verif.ExtractLoop
import Verif.TrapezoidProps

/-!
# C80: the extraction of an ensemble
-/

namespace Ompy

variable {σ V : Type}

theorem extractMember_files (env : ExEnv σ V) (ens : ExEns) (i : ℕ) (s : ExState σ V) :
    (extractMember env ens i s).2.files = s.files := by
  unfold extractMember
  cases env.cut s.egMax (ens.member i) with
  | error e => rfl
  | ok m =>
    simp only
    cases curryStep i m s.egMax with
    | error e => rfl
    | ok g =>
      simp only
      cases env.cut g ens.std with
      | error e => rfl
      | ok sd =>
        simp only
        cases env.dec s.rng m sd with
        | error e => rfl
        | ok r => rfl

theorem extractLoop_files (env : ExEnv σ V) (ens : ExEns) (reg : Bool) (is : List ℕ) (hn : is.Nodup) (s s' : ExState σ V)
    (r : Except Err (List (V × V))) (h : extractLoop env ens reg is s = (r, s')) :
    (∀ i, i ∉ is → s'.files i = s.files i) ∧
    (∀ i, s'.files i = s.files i ∨ ∃ q : V × V, s'.files i = (some q.1, some q.2)) ∧
    (∀ rs, r = .ok rs → rs.length = is.length ∧ ∀ k (hk : k < is.length) (hk' : k < rs.length),
      s'.files is[k] = (some rs[k].1, some rs[k].2)) := by
  induction is generalizing s s' r with
  | nil =>
    simp only [extractLoop, Prod.mk.injEq] at h
    obtain ⟨rfl, rfl⟩ := h
    refine ⟨fun i _ => rfl, fun i => Or.inl rfl, fun rs hrs => ?_⟩
    simp only [Except.ok.injEq] at hrs
    subst hrs
    simp
  | cons i is ih =>
    have hn' : is.Nodup := (List.nodup_cons.1 hn).2
    have hi : i ∉ is := (List.nodup_cons.1 hn).1
    unfold extractLoop at h
    cases hb : (if reg then none else bothFiles (s.files i) : Option (V × V)) with
    | some q =>
      simp only [hb] at h
      obtain ⟨h1, h2⟩ := Prod.mk.inj h
      obtain ⟨f1, f2, f3⟩ := ih hn' s s' (extractLoop env ens reg is s).1 (by rw [← h2])
      have hq : s.files i = (some q.1, some q.2) := by
        split_ifs at hb
        unfold bothFiles at hb
        rcases hfi : s.files i with ⟨a, b⟩
        rw [hfi] at hb
        rcases a with _ | a <;> rcases b with _ | b <;> simp at hb
        rw [← hb]
      refine ⟨fun j hj => f1 j (fun hj' => hj (List.mem_cons_of_mem _ hj')), f2, fun rs hrs => ?_⟩
      rw [← h1] at hrs
      cases hl : (extractLoop env ens reg is s).1 with
      | error e => rw [hl] at hrs; simp [Except.map] at hrs
      | ok rs' =>
        rw [hl] at hrs
        simp only [Except.map, Except.ok.injEq] at hrs
        subst hrs
        obtain ⟨g1, g2⟩ := f3 rs' hl
        refine ⟨by simp [g1], fun k hk hk' => ?_⟩
        cases k with
        | zero => simp only [List.getElem_cons_zero]; rw [f1 i hi, hq]
        | succ k => simpa using g2 k (by simpa using hk) (by simpa using hk')
    | none =>
      simp only [hb] at h
      have hfm := extractMember_files env ens i s
      rcases hm : extractMember env ens i s with ⟨rr, s1⟩
      rw [hm] at hfm h
      simp only at hfm
      cases rr with
      | error e =>
        simp only [Prod.mk.injEq] at h
        obtain ⟨rfl, rfl⟩ := h
        exact ⟨fun j _ => by rw [hfm], fun j => Or.inl (by rw [hfm]), fun rs hrs => by simp at hrs⟩
      | ok q =>
        simp only at h
        set s2 : ExState σ V := { s1 with files := Function.update s1.files i (some q.1, some q.2) } with hs2
        obtain ⟨h1, h2⟩ := Prod.mk.inj h
        obtain ⟨f1, f2, f3⟩ := ih hn' s2 s' (extractLoop env ens reg is s2).1 (by rw [← h2])
        have hne : ∀ j, j ≠ i → s2.files j = s.files j := by
          intro j hj
          rw [hs2]
          simp only
          rw [Function.update_of_ne hj, hfm]
        have heq : s2.files i = (some q.1, some q.2) := by rw [hs2]; simp
        refine ⟨fun j hj => ?_, fun j => ?_, fun rs hrs => ?_⟩
        · rw [f1 j (fun hj' => hj (List.mem_cons_of_mem _ hj')), hne j (fun e => hj (by rw [e]; exact List.mem_cons_self))]
        · by_cases hji : j = i
          · right; subst hji; exact ⟨q, by rw [f1 j hi, heq]⟩
          · rcases f2 j with h | h
            · left; rw [h, hne j hji]
            · exact Or.inr h
        · rw [← h1] at hrs
          cases hl : (extractLoop env ens reg is s2).1 with
          | error e => rw [hl] at hrs; simp [Except.map] at hrs
          | ok rs' =>
            rw [hl] at hrs
            simp only [Except.map, Except.ok.injEq] at hrs
            subst hrs
            obtain ⟨g1, g2⟩ := f3 rs' hl
            refine ⟨by simp [g1], fun k hk hk' => ?_⟩
            cases k with
            | zero => simp only [List.getElem_cons_zero]; rw [f1 i hi, heq]
            | succ k => simpa using g2 k (by simpa using hk) (by simpa using hk')

/-- **C80.** After a successful extraction there is one result per member, every result is what the files of the
member hold, and no other file has changed.  Also after a failure a changed pair of files is complete. -/
theorem C80_files (env : ExEnv σ V) (ens : ExEns) (reg : Bool) (s : ExState σ V) :
    let out := extractStandard env ens reg s
    (∀ i, ens.size ≤ i → out.2.files i = s.files i) ∧
    (∀ i, out.2.files i = s.files i ∨ ∃ q : V × V, out.2.files i = (some q.1, some q.2)) ∧
    ∀ rs, out.1 = .ok rs → rs.length = ens.size ∧ ∀ k (hk : k < rs.length),
      out.2.files k = (some rs[k].1, some rs[k].2) := by
  intro out
  obtain ⟨f1, f2, f3⟩ := extractLoop_files env ens reg (List.range ens.size) List.nodup_range
    { s with rng := env.seed } out.2 out.1 rfl
  refine ⟨fun i hi => f1 i (by simpa using hi), f2, fun rs hrs => ?_⟩
  obtain ⟨g1, g2⟩ := f3 rs hrs
  simp only [List.length_range] at g1
  refine ⟨g1, fun k hk => ?_⟩
  have := g2 k (by simpa [g1] using hk) hk
  simpa using this

/-- Members whose files all exist are loaded. -/
theorem extractLoop_load (env : ExEnv σ V) (ens : ExEns) (is : List ℕ) (s : ExState σ V) (q : ℕ → V × V)
    (h : ∀ i ∈ is, s.files i = (some (q i).1, some (q i).2)) :
    extractLoop env ens false is s = (.ok (is.map q), s) := by
  induction is with
  | nil => rfl
  | cons i is ih =>
    have h1 := h i List.mem_cons_self
    have h2 := ih fun j hj => h j (List.mem_cons_of_mem _ hj)
    unfold extractLoop
    simp only [h1, bothFiles, h2, Bool.false_eq_true, if_false]
    rfl

/-- **C80.** A second extraction without `regenerate` returns the results of the first one and computes nothing,
whatever ensemble of the same size, cut, fit and seed it is given (results are not tied to their input). -/
theorem C80_reload (env env' : ExEnv σ V) (ens ens' : ExEns) (reg : Bool) (s : ExState σ V) (rs : List (V × V))
    (hsize : ens'.size = ens.size) (h : (extractStandard env ens reg s).1 = .ok rs) (g : Option ℚ) (z : σ) :
    extractStandard env' ens' false { egMax := g, rng := z, files := (extractStandard env ens reg s).2.files }
      = (.ok rs, { egMax := g, rng := env'.seed, files := (extractStandard env ens reg s).2.files }) := by
  obtain ⟨-, -, f3⟩ := C80_files env ens reg s
  obtain ⟨hl, hf⟩ := f3 rs h
  unfold extractStandard at hf ⊢
  rcases rs with _ | ⟨d, rs0⟩
  · simp only [List.length_nil] at hl
    rw [hsize, ← hl]
    rfl
  · rw [extractLoop_load env' ens' _ _ (fun i => (d :: rs0).getD i d)]
    · rw [Prod.mk.injEq]
      refine ⟨congrArg Except.ok ?_, rfl⟩
      apply List.ext_getElem
      · simp [hsize, hl]
      · intro k hk hk'
        simp only [List.getElem_map, List.getElem_range]
        rw [List.getD_eq_getElem _ _ hk']
    · intro i hi
      have hi' : i < (d :: rs0).length := by rw [hl, ← hsize]; simpa using hi
      rw [List.getD_eq_getElem _ _ hi']
      exact hf i hi'

/-- The result of a member when every cut is done with the limit `g` and no random numbers matter. -/
def directResult (env : ExEnv σ V) (ens : ExEns) (g : ℚ) (i : ℕ) (r : V × V) : Prop :=
  ∃ m sd, env.cut (some g) (ens.member i) = .ok m ∧ env.cut (some g) ens.std = .ok sd ∧
    (i = 0 → m.Eg.getLast? = some g) ∧ ∀ z, ∃ z', env.dec z m sd = .ok (r, z')

theorem extractLoop_direct (env : ExEnv σ V) (ens : ExEns) (reg : Bool) (g : ℚ) (is : List ℕ) (s : ExState σ V)
    (q : ℕ → V × V) (hg : s.egMax = some g) (hd : ∀ i ∈ is, directResult env ens g i (q i))
    (hf : reg = true ∨ ∀ i ∈ is, ∀ r, bothFiles (s.files i) = some r → r = q i) (hn : is.Nodup) :
    (extractLoop env ens reg is s).1 = .ok (is.map q) := by
  induction is generalizing s with
  | nil => rfl
  | cons i is ih =>
    have hi : i ∉ is := (List.nodup_cons.1 hn).1
    unfold extractLoop
    cases hb : (if reg then none else bothFiles (s.files i) : Option (V × V)) with
    | some r =>
      simp only
      rw [ih s hg (fun j hj => hd j (List.mem_cons_of_mem _ hj))
        (hf.imp id fun h j hj => h j (List.mem_cons_of_mem _ hj)) (List.nodup_cons.1 hn).2]
      have : r = q i := by
        rcases hf with hf | hf
        · rw [if_pos hf] at hb; simp at hb
        · split_ifs at hb
          exact hf i List.mem_cons_self r hb
      rw [this]
      rfl
    | none =>
      simp only
      obtain ⟨m, sd, h1, h2, h3, h4⟩ := hd i List.mem_cons_self
      obtain ⟨z', h4⟩ := h4 s.rng
      have hc : curryStep i m (some g) = .ok (some g) := by
        unfold curryStep
        by_cases hi : i = 0
        · rw [if_pos hi, h3 hi]
        · rw [if_neg hi]
      have hm : extractMember env ens i s = (.ok (q i), { s with egMax := some g, rng := z' }) := by
        simp only [extractMember, hg, h1, hc, h2, h4]
      rw [hm]
      simp only
      rw [ih _ rfl (fun j hj => hd j (List.mem_cons_of_mem _ hj)) ?_ (List.nodup_cons.1 hn).2]
      · rfl
      · refine hf.imp id fun h j hj r hr => ?_
        have hji : j ≠ i := fun e => hi (e ▸ hj)
        simp only [Function.update_of_ne hji] at hr
        exact h j (List.mem_cons_of_mem _ hj) r hr

/-- **C80 (partial).** With an explicit limit `Eg_max` that is the last energy of member 0 after the cut, and a fit
that does not use random numbers, an extraction gives for every member the fit of its own cut matrix, also when it
continues an interrupted one (the files of some members exist and hold these results) or starts afresh.  Missing: a
limit off the grid or not given (`C80_offgrid_fails`, `C80_resume_cut_fails`), random start values
(`C80_resume_random_fails`). -/
theorem C80_resume_partial (env : ExEnv σ V) (ens : ExEns) (reg : Bool) (g : ℚ) (s : ExState σ V)
    (q : ℕ → V × V) (hg : s.egMax = some g) (hd : ∀ i < ens.size, directResult env ens g i (q i))
    (hf : reg = true ∨ ∀ i < ens.size, ∀ r, bothFiles (s.files i) = some r → r = q i) :
    (extractStandard env ens reg s).1 = .ok ((List.range ens.size).map q) := by
  unfold extractStandard
  exact extractLoop_direct env ens reg g _ _ q hg (fun i hi => hd i (by simpa using hi))
    (hf.imp id fun h i hi => h i (by simpa using hi)) List.nodup_range

/-- The environment of the trapezoidal cut. -/
def trapEnv (exMin exMax egMin : ℚ) (dec : σ → Mat → Mat → Except Err ((V × V) × σ)) (seed : σ) : ExEnv σ V :=
  ⟨fun g m => m.trapezoid exMin exMax egMin g, dec, seed⟩

/-- **C80.** For a trapezoidal cut with the limit on the gamma axis of member 0, member 0 leaves the limit as it is. -/
theorem C80_limit_kept (m : Mat) (exMin exMax egMin g : ℚ) (hm : RegularMat m) (hmem : g ∈ m.Eg) (hlo : egMin ≤ g)
    (t : Mat) (ht : m.trapezoid exMin exMax egMin (some g) = .ok t) : curryStep 0 t (some g) = .ok (some g) := by
  have hE : t.Eg.getLast? = some g := by
    rcases le_or_gt g exMax with hg | hg
    · exact (C77_last_column_fails m t exMin exMax egMin g hm hg hmem hlo ht).1
    · obtain ⟨a, b⟩ := C77_above_fails m exMin exMax egMin g hm hg
      rcases Nat.lt_or_ge (m.Ex.filter (fun e => decide (exMin ≤ e ∧ e ≤ exMax))).length 2 with hl | hl
      · rw [b hl] at ht; simp at ht
      · obtain ⟨t', ht', -, tg, -⟩ := a hl
        rw [ht] at ht'
        obtain rfl := Except.ok.inj ht'
        rw [tg]
        exact filter_le_getLast m.Eg hm.2.2.2.2 egMin g hmem hlo
  simp only [curryStep, if_true, hE]

/-- **C80.** Without a limit, the one found for member 0 is used for the uncertainties and all later members: the
Action of the caller is changed for good, also for later extractions. -/
theorem C80_auto_limit (m t : Mat) (exMin exMax egMin : ℚ) (hm : RegularMat m)
    (p q : _) (hp : ((m.Ex.zip m.values).filter (fun p => decide (exMin ≤ p.1 ∧ p.1 ≤ exMax))).getLast? = some p)
    (hq : q ∈ m.Eg.zip p.2) (hqn : q.2 ≠ 0) (hqm : ∀ r ∈ m.Eg.zip p.2, r.2 ≠ 0 → r.1 ≤ q.1) (hlo : egMin ≤ q.1)
    (ht : m.trapezoid exMin exMax egMin none = .ok t) :
    m.trapezoid exMin exMax egMin (some q.1) = .ok t ∧ curryStep 0 t none = .ok (some q.1) := by
  have h := (C77_auto m exMin exMax egMin hm).2.2 p hp q hq hqn hqm
  rw [h] at ht
  refine ⟨ht, ?_⟩
  have := C80_limit_kept m exMin exMax egMin q.1 hm (List.of_mem_zip hq).1 hlo t ht
  unfold curryStep at this ⊢
  exact this

/-- A fit for the counterexamples: refuses matrices of different shape (ompy/extractor.py:352) and returns the axis and
the last row. -/
def axisFit (z : ℕ) (m sd : Mat) : Except Err ((List ℚ × List ℚ) × ℕ) :=
  if m.Eg.length ≠ sd.Eg.length ∨ m.Ex.length ≠ sd.Ex.length then .error .assertion
  else .ok ((m.Eg, m.values.getLastD []), z)

/-- C80 is false: with a limit off the grid two equal members are cut differently, because member 0 replaces the limit
for all others (here: no diagonal cut for member 0, a diagonal cut for member 1). -/
theorem C80_offgrid_fails :
    let m : Mat := ⟨[[1, 2, 3], [4, 5, 6], [7, 8, 9]], [1, 2, 3], [1, 2, 3], none, none⟩
    let env := trapEnv 1 3 1 axisFit 0
    (extractStandard env ⟨2, fun _ => m, m⟩ false ⟨some (7 / 2), 0, fun _ => (none, none)⟩).1
      = .ok [([1, 2, 3], [7, 8, 9]), ([1, 2, 3], [7, 8, 0])] := by decide +kernel

/-- C80 is false: without a limit a run resumed after member 0 differs from an uninterrupted one: member 1 is cut with
its own limit, the uncertainties with theirs, and the shapes differ. -/
theorem C80_resume_cut_fails :
    let m0 : Mat := ⟨[[1, 2, 3], [4, 5, 6], [7, 8, 9]], [1, 2, 3], [1, 2, 3], none, none⟩
    let m1 : Mat := ⟨[[1, 2, 3], [4, 5, 6], [7, 8, 0]], [1, 2, 3], [1, 2, 3], none, none⟩
    let env := trapEnv 1 3 1 axisFit 0
    let ens : ExEns := ⟨2, fun i => if i = 0 then m0 else m1, m0⟩
    let full := extractStandard env ens false ⟨none, 0, fun _ => (none, none)⟩
    full.1 = .ok [([1, 2, 3], [7, 8, 0]), ([1, 2, 3], [7, 8, 0])] ∧
    (extractStandard env ens false ⟨none, 0, fun i => if i = 0 then full.2.files 0 else (none, none)⟩).1
      = .error .assertion := by decide +kernel

/-- C80 is false: the random numbers are seeded once per run, so a member computed in a resumed run gets other start
values than in an uninterrupted one.  (The fit here returns the state of the generator and advances it.) -/
theorem C80_resume_random_fails :
    let m : Mat := ⟨[[1, 2], [3, 4]], [1, 2], [1, 2], none, none⟩
    let env : ExEnv ℕ ℕ := ⟨fun _ m => .ok m, fun z _ _ => .ok ((z, z), z + 1), 5⟩
    let ens : ExEns := ⟨3, fun _ => m, m⟩
    let full := extractStandard env ens false ⟨some 2, 0, fun _ => (none, none)⟩
    full.1 = .ok [(5, 5), (6, 6), (7, 7)] ∧
    (extractStandard env ens false ⟨some 2, 0, fun i => if i = 2 then (none, none) else full.2.files i⟩).1
      = .ok [(5, 5), (6, 6), (5, 5)] := by decide +kernel

/-- **C80.** Arguments of `extract_from`: those given win over the attributes; a missing ensemble or cut raises
ValueError; without a path the call fails with TypeError. -/
theorem C80_arguments {E A : Type} (e se : Option E) (t st : Option A) (reg : Option Bool) (sreg path : Bool)
    (alg : String) :
    (e = none → se = none → extractFrom e se t st reg sreg path alg = .error .valueError) ∧
    (t = none → st = none → extractFrom e se t st reg sreg path alg = .error .valueError) ∧
    (∀ x y, extractFrom (some x) se (some y) st reg sreg true "standard"
      = .ok (x, y, reg.getD sreg, .standard)) ∧
    (∀ (x : E) (y : A), extractFrom none (some x) none (some y) reg sreg true "standard"
      = .ok (x, y, reg.getD sreg, .standard)) ∧
    (∀ x y, e.or se = some x → t.or st = some y →
      extractFrom e se t st reg sreg false alg = .error .typeError) := by
  refine ⟨?_, ?_, fun x y => rfl, fun x y => rfl, ?_⟩
  · rintro rfl rfl; rfl
  · rintro rfl rfl
    unfold extractFrom
    cases e.or se <;> rfl
  · intro x y hx hy
    unfold extractFrom
    rw [hx, hy]
    rfl

/-- C80 is false: an unknown algorithm is accepted and does nothing; the second algorithm needs the ensemble as an
argument although the attribute is set. -/
theorem C80_algorithm_fails {E A : Type} (x : E) (y : A) (reg : Option Bool) (sreg : Bool) (alg : String)
    (h1 : alg ≠ "standard") (h2 : alg ≠ "rhosigchi") :
    extractFrom (some x) none (some y) none reg sreg true alg = .ok (x, y, reg.getD sreg, .nothing) ∧
    extractFrom none (some x) none (some y) reg sreg true "rhosigchi" = .error .attributeError := by
  refine ⟨?_, rfl⟩
  simp [extractFrom, h1, h2]

/-- The hypotheses of `C80_resume_partial` can be met: two members, one of them on file. -/
example : let m : Mat := ⟨[[1, 2, 3], [4, 5, 6], [7, 8, 9]], [1, 2, 3], [1, 2, 3], none, none⟩
    let env := trapEnv 1 3 1 axisFit 0
    let ens : ExEns := ⟨2, fun _ => m, m⟩
    (∀ i < ens.size, directResult env ens 2 i ([1, 2], [7, 0])) ∧
    (extractStandard env ens false ⟨some 2, 0, fun i => if i = 0 then (some [1, 2], some [7, 0]) else (none, none)⟩).1
      = .ok [([1, 2], [7, 0]), ([1, 2], [7, 0])] := by
  refine ⟨fun i _ => ?_, by decide +kernel⟩
  refine ⟨⟨[[0, 0], [0, 0], [7, 0]], [1, 2], [1, 2, 3], none, none⟩,
    ⟨[[0, 0], [0, 0], [7, 0]], [1, 2], [1, 2, 3], none, none⟩, ?_, ?_,
    fun _ => by decide +kernel, fun z => ⟨z, rfl⟩⟩ <;>
  · show Mat.trapezoid _ 1 3 1 (some 2) = _
    simp only
    decide +kernel

end Ompy
