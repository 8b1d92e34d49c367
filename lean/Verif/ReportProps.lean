import Verif.Report
import Verif.PriorProps
import Std.Data.String.ToNat
import Mathlib.Tactic.NormNum.GCD

/-!
# C93: the parameters that a fit reports
-/

namespace Ompy

/-- Rounding to a nearest integer. -/
def Nearest (rd : ℝ → ℤ) : Prop := ∀ x, |x - rd x| ≤ 1 / 2

theorem printed_err {rd : ℝ → ℤ} (hr : Nearest rd) (i : ℕ) (x : ℝ) : |printedWith rd i x - x| ≤ 1 / 2 / 10 ^ i := by
  unfold printedWith
  have h10 : (0 : ℝ) < 10 ^ i := by positivity
  have : (rd (x * 10 ^ i) : ℝ) / 10 ^ i - x = -((x * 10 ^ i - rd (x * 10 ^ i)) / 10 ^ i) := by
    field_simp
    ring
  rw [this, abs_neg, abs_div, abs_of_pos h10]
  exact div_le_div_of_nonneg_right (hr _) h10.le

/-- The decimals of a positive uncertainty: its first two digits, none if it is at least 10. -/
theorem decimals_spec {s : ℝ} (hs : 0 < s) : ∃ i : ℕ, decimals s = .ok i ∧ 10 ≤ s * 10 ^ i ∧ (0 < i → s * 10 ^ i < 100) := by
  set e := ⌊Real.logb 10 s⌋ with he
  have h1 : (10 : ℝ) ^ e ≤ s := by
    have := Int.floor_le (Real.logb 10 s)
    rw [Real.le_logb_iff_rpow_le (by norm_num) hs, Real.rpow_intCast] at this
    exact this
  have h2 : s < (10 : ℝ) ^ (e + 1) := by
    have := Int.lt_floor_add_one (Real.logb 10 s)
    rw [Real.logb_lt_iff_lt_rpow (by norm_num) hs] at this
    have e2 : ((⌊Real.logb 10 s⌋ : ℤ) : ℝ) + 1 = ((e + 1 : ℤ) : ℝ) := by push_cast; rfl
    rw [e2, Real.rpow_intCast] at this
    exact this
  refine ⟨(max 0 (-e + 1)).toNat, ?_, ?_, ?_⟩
  · unfold decimals
    rw [if_neg hs.ne', if_neg (not_lt.2 hs.le)]
  · by_cases hc : e ≤ 1
    · have hi : (((max 0 (-e + 1)).toNat : ℕ) : ℤ) = 1 - e := by omega
      rw [← zpow_natCast, hi]
      calc (10 : ℝ) = 10 ^ e * 10 ^ (1 - e) := by rw [← zpow_add₀ (by norm_num)]; simp
        _ ≤ s * 10 ^ (1 - e) := mul_le_mul_of_nonneg_right h1 (by positivity)
    · have hi : (max 0 (-e + 1)).toNat = 0 := by omega
      rw [hi, pow_zero, mul_one]
      calc (10 : ℝ) = 10 ^ (1 : ℤ) := by norm_num
        _ ≤ 10 ^ e := zpow_le_zpow_right₀ (by norm_num) (by omega)
        _ ≤ s := h1
  · intro h0
    have hi : (((max 0 (-e + 1)).toNat : ℕ) : ℤ) = 1 - e := by omega
    rw [← zpow_natCast, hi]
    calc s * 10 ^ (1 - e) < 10 ^ (e + 1) * 10 ^ (1 - e) := mul_lt_mul_of_pos_right h2 (by positivity)
      _ = 10 ^ (2 : ℤ) := by rw [← zpow_add₀ (by norm_num)]; congr 1; ring
      _ = 100 := by norm_num

/-- **C93.** Median and uncertainty are printed with rounding errors of at most 5 % of the uncertainty, an uncertainty is never printed as 0, and there are no more decimals than the first two digits of the
uncertainty ask for. -/
theorem C93_digits (rd : ℝ → ℤ) (hr : Nearest rd) (name : String) (m : Marginal) (h : m.lo < m.hi) :
    ∃ i : ℕ, decimals m.sigma = .ok i ∧ reportOne rd name m
        = .ok ((name, m.med, (m.hi - m.lo) / 2), (printedWith rd i m.med, printedWith rd i m.sigma)) ∧
      |printedWith rd i m.med - m.med| ≤ m.sigma / 20 ∧ |printedWith rd i m.sigma - m.sigma| ≤ m.sigma / 20 ∧
      0 < printedWith rd i m.sigma ∧ (0 < i → m.sigma / 100 < 1 / 10 ^ i) := by
  have hs : 0 < m.sigma := by unfold Marginal.sigma; linarith
  obtain ⟨i, h1, h2, h3⟩ := decimals_spec hs
  have h10 : (0 : ℝ) < 10 ^ i := by positivity
  have hb : 1 / 2 / (10 : ℝ) ^ i ≤ m.sigma / 20 := by
    rw [div_le_div_iff₀ h10 (by norm_num)]
    nlinarith
  have e2 := (printed_err hr i m.sigma).trans hb
  refine ⟨i, h1, ?_, (printed_err hr i m.med).trans hb, e2, ?_, fun h0 => ?_⟩
  · unfold reportOne
    rw [h1]
    rfl
  · have := (abs_le.1 e2).1
    linarith
  · rw [div_lt_div_iff₀ (by norm_num) h10]
    have := h3 h0
    linarith

theorem nearest_round : Nearest round := fun x => abs_sub_round x

/-- An uncertainty of one half: two decimals. -/
example : ∃ i : ℕ, decimals (1 / 2) = .ok i ∧ i = 2 := by
  obtain ⟨i, h1, h2, h3⟩ := decimals_spec (s := 1 / 2) (by norm_num)
  refine ⟨i, h1, ?_⟩
  rcases Nat.lt_or_ge i 2 with h | h
  · have : (10 : ℝ) ^ i ≤ 10 ^ 1 := pow_le_pow_right₀ (by norm_num) (by omega)
    linarith
  · rcases Nat.lt_or_ge 2 i with h' | h'
    · have : (10 : ℝ) ^ 3 ≤ 10 ^ i := pow_le_pow_right₀ (by norm_num) (by omega)
      have := h3 (by omega)
      linarith
    · omega

theorem report_ok (rd : ℝ → ℤ) (names : List String) (ms : List Marginal) (hs : ∀ m ∈ ms, m.lo < m.hi) :
    ∃ pr, report rd names ms = .ok ((names.zip ms).map fun p => (p.1, p.2.med, p.2.sigma), pr) := by
  have key : ∀ l : List (String × Marginal), (∀ p ∈ l, p.2.lo < p.2.hi) → ∃ pr : List ((String × ℝ × ℝ) × (ℝ × ℝ)),
      l.mapM (fun p => reportOne rd p.1 p.2) = Except.ok pr ∧ pr.map Prod.fst = l.map fun p => (p.1, p.2.med, p.2.sigma) := by
    intro l hl
    induction l with
    | nil => exact ⟨[], rfl, rfl⟩
    | cons p l ih =>
      obtain ⟨pr, h1, h2⟩ := ih fun q hq => hl q (List.mem_cons_of_mem _ hq)
      have hp : 0 < p.2.sigma := by have := hl p List.mem_cons_self; unfold Marginal.sigma; linarith
      obtain ⟨i, hi, -⟩ := decimals_spec hp
      have hr : reportOne rd p.1 p.2
          = .ok ((p.1, p.2.med, p.2.sigma), (printedWith rd i p.2.med, printedWith rd i p.2.sigma)) := by
        unfold reportOne; rw [hi]; rfl
      refine ⟨((p.1, p.2.med, p.2.sigma), (printedWith rd i p.2.med, printedWith rd i p.2.sigma)) :: pr, ?_, ?_⟩
      · simp only [List.mapM_cons, hr, h1, bind, Except.bind, pure, Except.pure]
      · simp [h2]
  obtain ⟨pr, h1, h2⟩ := key (names.zip ms) fun p hp => hs p.2 (List.of_mem_zip hp).2
  refine ⟨pr.map Prod.snd, ?_⟩
  unfold report
  rw [h1, ← h2]
  rfl

theorem lookup_zip {α : Type} (names : List String) (vals : List α) (hn : names.Nodup) (hl : names.length = vals.length) (k : ℕ)
    (hk : k < vals.length) : lookupPar (names.zip vals) (names[k]'(by omega)) = some vals[k] := by
  unfold lookupPar
  induction names generalizing vals k with
  | nil => simp at hl; omega
  | cons n ns ih =>
    match vals, hl with
    | v :: vs, hl =>
      cases k with
      | zero => simp
      | succ k =>
        have hne : n ≠ ns[k]'(by simp at hl hk; omega) := by
          intro he
          exact (List.nodup_cons.1 hn).1 (he ▸ List.getElem_mem _)
        simp only [List.zip_cons_cons, List.getElem_cons_succ]
        rw [List.find?_cons_of_neg (by simpa using hne)]
        exact ih vs (List.nodup_cons.1 hn).2 (by simpa using hl) k (by simpa using hk)

theorem lookup_map {α β : Type} (d : List (String × α)) (f : α → β) (name : String) :
    lookupPar (d.map fun p => (p.1, f p.2)) name = (lookupPar d name).map f := by
  unfold lookupPar
  induction d with
  | nil => rfl
  | cons p d ih =>
    by_cases h : (p.1 == name) = true
    · simp [h]
    · simp only [List.map_cons]
      have hb : (p.1 == name) = false := by simpa using h
      simp only [List.find?_cons, hb]
      exact ih

/-- **C93.** For a guess with the keys in the order of the cube, as both `initial_guess` give it, every parameter of the cube is reported under its own name with median and half the one-sigma interval. -/
theorem C93_names (rd : ℝ → ℤ) (opt : List (ℝ × ℝ) → List ℝ) (bounds : List (String × (ℝ × ℝ))) (B : ℝ)
    (hl : (opt (bounds.map Prod.snd)).length = 4) (ms : List Marginal) (hs : ∀ m ∈ ms, m.lo < m.hi) :
    (ms.length = 4 → ∃ r, report rd ((initialGuess opt bounds).map Prod.fst) ms = .ok r ∧
      ∀ k (hk : k < ms.length), lookupPar r.1 (cubeNld.getD k "") = some (ms[k].med, (ms[k].hi - ms[k].lo) / 2)) ∧
    (ms.length = 5 → ∃ r, report rd ((simGuess (initialGuess opt bounds) B).map Prod.fst) ms = .ok r ∧
      ∀ k (hk : k < ms.length), lookupPar r.1 (cubeSim.getD k "") = some (ms[k].med, (ms[k].hi - ms[k].lo) / 2)) := by
  have hk1 : (initialGuess opt bounds).map Prod.fst = cubeNld := by
    unfold initialGuess deNames
    rw [List.map_fst_zip (by simp [hl])]
    rfl
  have hk2 : (simGuess (initialGuess opt bounds) B).map Prod.fst = cubeSim := by
    unfold simGuess
    rw [List.map_append, hk1]
    rfl
  have main : ∀ names : List String, names.Nodup → ms.length = names.length → ∃ r, report rd names ms = .ok r ∧
      ∀ k (hk : k < ms.length), lookupPar r.1 (names.getD k "") = some (ms[k].med, (ms[k].hi - ms[k].lo) / 2) := by
    intro names hn hlen
    obtain ⟨pr, h⟩ := report_ok rd names ms hs
    refine ⟨_, h, fun k hk => ?_⟩
    simp only
    rw [lookup_map (names.zip ms) (fun m : Marginal => (m.med, m.sigma)), List.getD_eq_getElem _ _ (by omega),
      lookup_zip names ms hn hlen.symm k hk]
    rfl
  rw [hk1, hk2]
  exact ⟨fun h => main cubeNld (by decide) h, fun h => main cubeSim (by decide) h⟩

/-- A sampling of the level density. -/
example (opt : List (ℝ × ℝ) → List ℝ) (b : List (String × (ℝ × ℝ))) (h : (opt (b.map Prod.snd)).length = 4) :
    ∃ r, report round ((initialGuess opt b).map Prod.fst) [⟨1, 2, 1⟩, ⟨2, 3, 2⟩, ⟨3, 4, 3⟩, ⟨4, 6, 5⟩] = .ok r ∧
      lookupPar r.1 "Eshift" = some (5, 1) := by
  obtain ⟨r, h1, h2⟩ := (C93_names round opt b 0 h [⟨1, 2, 1⟩, ⟨2, 3, 2⟩, ⟨3, 4, 3⟩, ⟨4, 6, 5⟩] (by simp; norm_num)).1 rfl
  refine ⟨r, h1, ?_⟩
  have := h2 3 (by simp)
  norm_num [cubeNld] at this
  exact this

/-- **C93 (disagreement).** The names are taken from the order of the keys of the guess, the numbers from the order of the cube: with the keys in another order the parameters are exchanged without an
error. -/
theorem C93_order_fails (rd : ℝ → ℤ) (mA ma mT mE : Marginal) (h : ∀ m ∈ [mA, ma, mT, mE], m.lo < m.hi) :
    ∃ r, report rd ["alpha", "A", "T", "Eshift"] [mA, ma, mT, mE] = .ok r ∧
      lookupPar r.1 "alpha" = some (mA.med, mA.sigma) ∧ lookupPar r.1 "A" = some (ma.med, ma.sigma) := by
  obtain ⟨pr, hr⟩ := report_ok rd ["alpha", "A", "T", "Eshift"] _ h
  exact ⟨_, hr, rfl, rfl⟩

/-- **C93 (disagreement).** If one parameter has an interval of width 0, formatting its uncertainty raises, and the result of the whole sampling is lost. -/
theorem C93_zero_fails (rd : ℝ → ℤ) (names : List String) (ms : List Marginal) (k : ℕ) (hk : k < ms.length) (hl : names.length = ms.length)
    (h0 : ms[k].lo = ms[k].hi) (hle : ∀ m ∈ ms, m.lo ≤ m.hi) : report rd names ms = .error .runtimeError := by
  have key : ∀ l : List (String × Marginal), (∀ p ∈ l, p.2.lo ≤ p.2.hi) → (∃ p ∈ l, p.2.lo = p.2.hi) →
      l.mapM (fun p => reportOne rd p.1 p.2) = Except.error .runtimeError := by
    intro l hl hex
    induction l with
    | nil => obtain ⟨p, hp, -⟩ := hex; simp at hp
    | cons p l ih =>
      rcases eq_or_lt_of_le (hl p List.mem_cons_self) with he | hlt
      · have : reportOne rd p.1 p.2 = .error .runtimeError := by
          unfold reportOne decimals
          rw [if_pos (by unfold Marginal.sigma; rw [he]; simp)]
          rfl
        simp only [List.mapM_cons, this, bind, Except.bind]
      · have hp : 0 < p.2.sigma := by unfold Marginal.sigma; linarith
        obtain ⟨i, hi, -⟩ := decimals_spec hp
        have hex' : ∃ q ∈ l, q.2.lo = q.2.hi := by
          obtain ⟨q, hq, he⟩ := hex
          rcases List.mem_cons.1 hq with rfl | hq
          · exact absurd he hlt.ne
          · exact ⟨q, hq, he⟩
        have hr : reportOne rd p.1 p.2
            = .ok ((p.1, p.2.med, p.2.sigma), (printedWith rd i p.2.med, printedWith rd i p.2.sigma)) := by
          unfold reportOne; rw [hi]; rfl
        simp only [List.mapM_cons, hr, ih (fun q hq => hl q (List.mem_cons_of_mem _ hq)) hex', bind, Except.bind]
  unfold report
  rw [key (names.zip ms)]
  · rfl
  · exact fun p hp => hle p.2 (List.of_mem_zip hp).2
  · refine ⟨(names[k]'(by omega), ms[k]), ?_, h0⟩
    rw [List.mem_iff_getElem]
    exact ⟨k, by simp; omega, by simp⟩

example : report round ["A"] [⟨1, 1, 1⟩] = .error .runtimeError :=
  C93_zero_fails round ["A"] [⟨1, 1, 1⟩] 0 (by simp) rfl rfl (by simp)

/-- **C93 (partial: paths short enough for all members).** A directory with a name of at most `48 - d` characters serves all members with numbers of at most `d` digits. -/
theorem C93_path_partial (dirLen num d : ℕ) (hd : (Nat.repr num).length ≤ d) (h : dirLen + d ≤ 48) : checkPath dirLen num = .ok () := by
  unfold checkPath samplingPathLen
  rw [if_pos (by omega)]

/-- The default directory `multinest` and member 1000. -/
example : checkPath 9 1000 = .ok () := C93_path_partial 9 1000 4 (by decide +kernel) (by norm_num)

/-- **C93 (disagreement).** The check comes for each member when its turn has come: in a directory with a name of 47 characters the members 0 to 9 pass and the eleventh raises. -/
theorem C93_path_fails : (∀ num < 10, checkPath 47 num = .ok ()) ∧ checkPath 47 10 = .error .assertion := by
  constructor
  · decide +kernel
  · decide +kernel

theorem edge_spec (bounds : List (String × (ℝ × ℝ))) (p0 : List (String × ℝ)) (h : ∀ p ∈ p0, (lookupPar bounds p.1).isSome) :
    ∃ w, edgeWarnings bounds p0 = .ok w ∧
      ∀ name, name ∈ w ↔ ∃ p ∈ p0, p.1 = name ∧ ∃ b, lookupPar bounds name = some b ∧ (p.2 = b.1 ∨ p.2 = b.2) := by
  classical
  induction p0 with
  | nil => exact ⟨[], rfl, fun name => by simp⟩
  | cons p l ih =>
    obtain ⟨w, h1, h2⟩ := ih fun q hq => h q (List.mem_cons_of_mem _ hq)
    obtain ⟨b, hb⟩ := Option.isSome_iff_exists.1 (h p List.mem_cons_self)
    have hstep : edgeWarnings bounds (p :: l) = .ok (if p.2 = b.1 ∨ p.2 = b.2 then p.1 :: w else w) := by
      unfold edgeWarnings at h1 ⊢
      rw [List.foldrM_cons]
      simp only [bind, Except.bind]
      rw [h1]
      simp only [hb]
    refine ⟨_, hstep, fun name => ?_⟩
    by_cases hc : p.2 = b.1 ∨ p.2 = b.2
    · rw [if_pos hc, List.mem_cons, h2]
      constructor
      · rintro (rfl | ⟨q, hq, he⟩)
        · exact ⟨p, List.mem_cons_self, rfl, b, hb, hc⟩
        · exact ⟨q, List.mem_cons_of_mem _ hq, he⟩
      · rintro ⟨q, hq, he, hh⟩
        rcases List.mem_cons.1 hq with rfl | hq
        · exact Or.inl he.symm
        · exact Or.inr ⟨q, hq, he, hh⟩
    · rw [if_neg hc, h2]
      constructor
      · rintro ⟨q, hq, he⟩
        exact ⟨q, List.mem_cons_of_mem _ hq, he⟩
      · rintro ⟨q, hq, he, b', hb', hh⟩
        rcases List.mem_cons.1 hq with rfl | hq
        · rw [← he, hb] at hb'
          have : b = b' := Option.some.inj hb'
          subst this
          exact absurd hh hc
        · exact ⟨q, hq, he, b', hb', hh⟩

/-- **C93.** A parameter of the guess without bounds raises KeyError. -/
theorem C93_edges_refused (bounds : List (String × (ℝ × ℝ))) (p0 : List (String × ℝ)) (p : String × ℝ) (hp : p ∈ p0)
    (h : lookupPar bounds p.1 = none) : edgeWarnings bounds p0 = .error .keyError := by
  classical
  induction p0 with
  | nil => simp at hp
  | cons q l ih =>
    unfold edgeWarnings at ih ⊢
    rw [List.foldrM_cons]
    simp only [bind, Except.bind]
    rcases List.mem_cons.1 hp with rfl | hp
    · cases hf : List.foldrM (m := Except Err) (fun (p : String × ℝ) (acc : List String) =>
          match lookupPar bounds p.1 with
          | none => .error .keyError
          | some b => .ok (if p.2 = b.1 ∨ p.2 = b.2 then p.1 :: acc else acc)) [] l with
      | ok w => simp only [h]
      | error e =>
        have : ∀ (l : List (String × ℝ)) (e : Err), List.foldrM (m := Except Err) (fun (p : String × ℝ) (acc : List String) =>
          match lookupPar bounds p.1 with
          | none => .error .keyError
          | some b => .ok (if p.2 = b.1 ∨ p.2 = b.2 then p.1 :: acc else acc)) [] l = .error e → e = .keyError := by
          intro l
          induction l with
          | nil => intro e he; simp [pure, Except.pure] at he
          | cons r l ih' =>
            intro e he
            rw [List.foldrM_cons] at he
            simp only [bind, Except.bind] at he
            cases hg : List.foldrM (m := Except Err) (fun (p : String × ℝ) (acc : List String) =>
              match lookupPar bounds p.1 with
              | none => .error .keyError
              | some b => .ok (if p.2 = b.1 ∨ p.2 = b.2 then p.1 :: acc else acc)) [] l with
            | error e' =>
              rw [hg] at he
              exact (Except.error.inj he) ▸ ih' e' hg
            | ok w =>
              rw [hg] at he
              simp only at he
              cases hb : lookupPar bounds r.1 with
              | none => rw [hb] at he; exact (Except.error.inj he).symm
              | some b => rw [hb] at he; simp at he
        simp only [this l e hf]
    · rw [ih hp]

example : edgeWarnings [("A", (1, 2))] [("A", 2), ("T", 3)] = .error .keyError :=
  C93_edges_refused _ _ ("T", 3) (by simp) rfl

/-- **C93.** Exactly the parameters whose guess lies on one of its bounds are warned about. -/
theorem C93_edges (bounds : List (String × (ℝ × ℝ))) (p0 : List (String × ℝ)) (h : ∀ p ∈ p0, (lookupPar bounds p.1).isSome) :
    ∃ w, edgeWarnings bounds p0 = .ok w ∧
      ∀ name, name ∈ w ↔ ∃ p ∈ p0, p.1 = name ∧ ∃ b, lookupPar bounds name = some b ∧ (p.2 = b.1 ∨ p.2 = b.2) :=
  edge_spec bounds p0 h

example : ∃ w, edgeWarnings [("A", (1, 2)), ("T", (0, 5))] [("A", 2), ("T", 3)] = .ok w ∧ "A" ∈ w ∧ "T" ∉ w := by
  obtain ⟨w, h1, h2⟩ := C93_edges [("A", (1, 2)), ("T", (0, 5))] [("A", 2), ("T", 3)] (by simp [lookupPar])
  refine ⟨w, h1, (h2 "A").2 ⟨("A", 2), by simp, rfl, (1, 2), rfl, Or.inr rfl⟩, fun hc => ?_⟩
  obtain ⟨p, hp, he, b, hb, hh⟩ := (h2 "T").1 hc
  have hb' : b = (0, 5) := by
    have : lookupPar [("A", ((1 : ℝ), (2 : ℝ))), ("T", (0, 5))] "T" = some (0, 5) := rfl
    rw [this] at hb
    exact (Option.some.inj hb).symm
  simp only [List.mem_cons, List.not_mem_nil, or_false] at hp
  subst hb'
  rcases hp with rfl | rfl
  · simp at he
  · norm_num at hh

theorem nldSn_formula (g : ℝ → Except Err ℝ) (Jt s D : ℝ) (hg : spinHalfSum g Jt = .ok s) (hs : 0 < s) (hD : D ≠ 0) :
    nldSnFromD0 g D Jt = .ok (1000000 / (s * D)) := by
  unfold nldSnFromD0 recip
  rw [hg]
  simp only [bind, Except.bind]
  have : s * D * (1 / 1000000) ≠ 0 := by
    have := mul_ne_zero hs.ne' hD
    positivity
  rw [if_neg this]
  congr 1
  field_simp

/-- **C93.** The level density at the separation energy is inversely proportional to the resonance spacing, and its uncertainty is the relative one of the spacing, which is the change for a spacing that is
off by its uncertainty up to a term of second order. -/
theorem C93_sn_uncertainty (g : ℝ → Except Err ℝ) (Jt s D dD : ℝ) (hg : spinHalfSum g Jt = .ok s) (hs : 0 < s) (hD : 0 < D)
    (h0 : 0 ≤ dD) (hlt : dD < D) :
    ∃ n dn lo hi, nldSnWithError g (D, dD) Jt = .ok (n, dn) ∧ nldSnFromD0 g D Jt = .ok n ∧ 0 < n ∧ dn / n = dD / D ∧
      nldSnFromD0 g (D + dD) Jt = .ok lo ∧ nldSnFromD0 g (D - dD) Jt = .ok hi ∧
      lo = n - dn + n * (dD / D) ^ 2 / (1 + dD / D) ∧ hi = n + dn + n * (dD / D) ^ 2 / (1 - dD / D) := by
  have e1 := nldSn_formula g Jt s D hg hs hD.ne'
  have e2 := nldSn_formula g Jt s (D + dD) hg hs (by linarith)
  have e3 := nldSn_formula g Jt s (D - dD) hg hs (by linarith)
  have hD' : D - dD ≠ 0 := by linarith
  have hD2 : D + dD ≠ 0 := by linarith
  refine ⟨1000000 / (s * D), 1000000 / (s * D) * (dD / D), 1000000 / (s * (D + dD)), 1000000 / (s * (D - dD)), ?_, e1, by positivity, ?_, e2, e3, ?_, ?_⟩
  · unfold nldSnWithError
    rw [e1]
    rfl
  · field_simp
  · field_simp
    ring
  · have : 1 - dD / D ≠ 0 := by
      rw [sub_ne_zero]
      intro h
      rw [eq_div_iff hD.ne'] at h
      linarith
    field_simp
    ring

/-- A spacing of 2.2 ± 0.2 eV. -/
example : ∃ n dn, nldSnWithError (fun _ => .ok 1) (11 / 5, 1 / 5) 2 = .ok (n, dn) ∧ dn / n = 1 / 11 := by
  obtain ⟨n, dn, lo, hi, h1, -, -, h2, -⟩ := C93_sn_uncertainty (fun _ => .ok 1) 2 1 (11 / 5) (1 / 5)
    (by unfold spinHalfSum; norm_num [bind, Except.bind, pure, Except.pure]) (by norm_num) (by norm_num) (by norm_num) (by norm_num)
  exact ⟨n, dn, h1, by rw [h2]; norm_num⟩

/-- **C93 (disagreement).** The lower end of the one-sigma interval of a spacing corresponds to a level density above the interval that is used: the interval is not symmetric. -/
theorem C93_asymmetry_fails (g : ℝ → Except Err ℝ) (Jt s D dD : ℝ) (hg : spinHalfSum g Jt = .ok s) (hs : 0 < s) (hD : 0 < D)
    (h0 : 0 < dD) (hlt : dD < D) :
    ∃ n dn hi, nldSnWithError g (D, dD) Jt = .ok (n, dn) ∧ nldSnFromD0 g (D - dD) Jt = .ok hi ∧ n + dn < hi := by
  obtain ⟨n, dn, lo, hi, h1, -, hn, -, -, h2, -, h3⟩ := C93_sn_uncertainty g Jt s D dD hg hs hD h0.le hlt
  refine ⟨n, dn, hi, h1, h2, ?_⟩
  have hq : dD / D < 1 := (div_lt_one hD).2 hlt
  have : 0 < n * (dD / D) ^ 2 / (1 - dD / D) := by
    have : 0 < 1 - dD / D := by linarith
    positivity
  linarith

end Ompy
