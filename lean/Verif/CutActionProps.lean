import Verif.CutAction
import Verif.ActionProps
import Mathlib.Tactic.IntervalCases

/-!
# C141: an Action that cuts the matrices of an extraction keeps working
-/

namespace Ompy

variable {V R σ : Type}

/-! ### Binding of arguments -/

/-- Specification: a method can be called with `n` positional arguments and the keywords `keys`. -/
structure Callable (sg : ParSig) (n : ℕ) (keys : List String) : Prop where
  room : n ≤ sg.pos.length
  once : ∀ k ∈ keys, ∀ i < n, sg.pos[i]? ≠ some k
  home : ∀ k ∈ keys, sg.varKw = true ∨ (∃ i : ℕ, sg.pos[i]? = some k) ∨ k ∈ sg.kwOnly
  all : ∀ r ∈ sg.required, (∃ i < n, sg.pos[i]? = some r) ∨ r ∈ keys

theorem mem_take_iff (l : List String) (n : ℕ) (k : String) : k ∈ l.take n ↔ ∃ i < n, l[i]? = some k := by
  rw [List.mem_iff_getElem?]
  constructor
  · rintro ⟨i, hi⟩
    rw [List.getElem?_take] at hi
    split at hi
    · exact ⟨i, by assumption, hi⟩
    · simp at hi
  · rintro ⟨i, hi, h⟩
    exact ⟨i, by rw [List.getElem?_take, if_pos hi, h]⟩

/-- **C141.** A call is accepted exactly if the arguments fit the parameters; otherwise it is a TypeError. -/
theorem C141_accepts (sg : ParSig) (args : List V) (kw : Dict V) :
    (Callable sg args.length (kw.map Prod.fst) → bindArgs sg args kw = .ok (sg.pos.zip args ++ kw)) ∧
      (¬ Callable sg args.length (kw.map Prod.fst) → bindArgs sg args kw = .error .typeError) := by
  unfold bindArgs
  dsimp only
  constructor
  · rintro ⟨h1, h2, h3, h4⟩
    rw [if_neg (by omega), if_neg, if_neg, if_neg]
    · rintro ⟨r, hr, hn, hk⟩
      rcases h4 r hr with h | h
      · exact hn ((mem_take_iff _ _ _).2 h)
      · exact hk h
    · rintro ⟨hv, p, hp, hn, hk⟩
      rcases h3 p.1 (List.mem_map_of_mem hp) with h | ⟨i, h⟩ | h
      · rw [hv] at h; simp at h
      · exact hn (List.mem_of_getElem? h)
      · exact hk h
    · rintro ⟨p, hp, hn⟩
      obtain ⟨i, hi, h⟩ := (mem_take_iff _ _ _).1 hn
      exact h2 p.1 (List.mem_map_of_mem hp) i hi h
  · intro hn
    by_cases h1 : sg.pos.length < args.length
    · rw [if_pos h1]
    rw [if_neg h1]
    by_cases h2 : ∃ p ∈ kw, p.1 ∈ sg.pos.take args.length
    · rw [if_pos h2]
    rw [if_neg h2]
    by_cases h3 : sg.varKw = false ∧ ∃ p ∈ kw, p.1 ∉ sg.pos ∧ p.1 ∉ sg.kwOnly
    · rw [if_pos h3]
    rw [if_neg h3]
    rw [if_pos]
    by_contra h4
    refine hn ⟨by omega, ?_, ?_, ?_⟩
    · intro k hk i hi he
      obtain ⟨p, hp, rfl⟩ := List.mem_map.1 hk
      exact h2 ⟨p, hp, (mem_take_iff _ _ _).2 ⟨i, hi, he⟩⟩
    · intro k hk
      obtain ⟨p, hp, rfl⟩ := List.mem_map.1 hk
      by_cases hv : sg.varKw = true
      · exact Or.inl hv
      · right
        by_contra hc
        rw [not_or] at hc
        exact h3 ⟨by simpa using hv, p, hp, fun hm => hc.1 (List.mem_iff_getElem?.1 hm), hc.2⟩
    · intro r hr
      by_contra hc
      rw [not_or] at hc
      exact h4 ⟨r, hr, fun hm => hc.1 ((mem_take_iff _ _ _).1 hm), hc.2⟩

example : Callable ⟨["a", "b", "c"], ["a", "b"], [], false⟩ 1 ["b"] :=
  ⟨by decide, by decide, fun k hk => Or.inr (Or.inl ⟨1, by simp at hk; simp [hk]⟩), fun r hr => by
    simp at hr
    rcases hr with rfl | rfl
    · exact Or.inl ⟨0, by decide, by decide⟩
    · exact Or.inr (by decide)⟩

example : ¬ Callable ⟨["a", "b"], [], [], false⟩ 1 ["a"] := fun h => h.once "a" (by decide) 0 (by decide) (by decide)

theorem get?_append (d e : Dict V) (k : String) : Dict.get? (d ++ e) k = (Dict.get? d k).or (Dict.get? e k) := by
  induction d with
  | nil => simp [Dict.get?]
  | cons p d ih =>
    obtain ⟨a, b⟩ := p
    by_cases h : a = k
    · simp [Dict.get?, h]
    · simp [Dict.get?, h, ih]

theorem get?_none (d : Dict V) (k : String) : Dict.get? d k = none ↔ k ∉ d.map Prod.fst := by
  induction d with
  | nil => simp [Dict.get?]
  | cons p d ih =>
    obtain ⟨a, b⟩ := p
    by_cases h : a = k
    · simp [Dict.get?, h]
    · have h' : ¬ k = a := fun hh => h hh.symm
      simp only [Dict.get?, h, if_false, ih, List.map_cons, List.mem_cons, h', false_or]

theorem get?_zip (l : List String) (hl : l.Nodup) (args : List V) (k : String) (v : V) :
    Dict.get? (l.zip args) k = some v ↔ ∃ i : ℕ, l[i]? = some k ∧ args[i]? = some v := by
  induction l generalizing args with
  | nil => simp [Dict.get?]
  | cons a l ih =>
    cases args with
    | nil => simp [Dict.get?]
    | cons x args =>
      rw [List.nodup_cons] at hl
      simp only [List.zip_cons_cons, Dict.get?]
      by_cases h : a = k
      · rw [if_pos h]
        constructor
        · intro hx
          exact ⟨0, by simpa using h, by simpa using hx⟩
        · rintro ⟨i, h1, h2⟩
          cases i with
          | zero => simpa using h2
          | succ i =>
            rw [List.getElem?_cons_succ] at h1
            exact absurd (List.mem_of_getElem? h1) (h ▸ hl.1)
      · rw [if_neg h, ih hl.2]
        constructor
        · rintro ⟨i, h1, h2⟩
          exact ⟨i + 1, by simpa using h1, by simpa using h2⟩
        · rintro ⟨i, h1, h2⟩
          cases i with
          | zero => simp at h1; exact absurd h1 h
          | succ i => exact ⟨i, by simpa using h1, by simpa using h2⟩

/-- **C141.** What the parameters get: a parameter has a value exactly if the argument at its position or the keyword of
its name has it. -/
theorem C141_bound (sg : ParSig) (hp : sg.pos.Nodup) (args : List V) (kw d : Dict V) (h : bindArgs sg args kw = .ok d)
    (k : String) (v : V) :
    d.get? k = some v ↔ (∃ i : ℕ, sg.pos[i]? = some k ∧ args[i]? = some v) ∨ kw.get? k = some v := by
  have hc : Callable sg args.length (kw.map Prod.fst) := by
    by_contra hc
    rw [(C141_accepts sg args kw).2 hc] at h
    simp at h
  rw [(C141_accepts sg args kw).1 hc] at h
  injection h with h
  subst h
  rw [get?_append]
  constructor
  · intro h
    cases hz : Dict.get? (sg.pos.zip args) k with
    | none =>
      rw [hz] at h
      right
      simpa using h
    | some w =>
      rw [hz] at h
      left
      simp at h
      subst h
      exact (get?_zip _ hp _ _ _).1 hz
  · rintro (h | h)
    · rw [(get?_zip _ hp _ _ _).2 h]
      simp
    · cases hz : Dict.get? (sg.pos.zip args) k with
      | none => simpa using h
      | some w =>
        exfalso
        obtain ⟨i, h1, h2⟩ := (get?_zip _ hp _ _ _).1 hz
        have hk : k ∈ kw.map Prod.fst := by
          by_contra hk
          rw [(get?_none kw k).2 hk] at h
          simp at h
        refine hc.once k hk i ?_ h1
        by_contra hi
        rw [List.getElem?_eq_none (by omega)] at h2
        simp at h2

example : (bindArgs ⟨["a", "b", "c"], ["a", "b"], [], false⟩ [7] [("c", 9), ("b", 8)] : Except Err (Dict ℕ)) =
    .ok [("a", 7), ("c", 9), ("b", 8)] := by decide

/-! ### The keyword that is added -/

theorem set_keys (d : Dict V) (k0 : String) (v : V) (k : String) :
    k ∈ (Dict.set d k0 v).map Prod.fst ↔ k ∈ d.map Prod.fst ∨ k = k0 := by
  induction d with
  | nil => simp [Dict.set]
  | cons p d ih =>
    obtain ⟨a, b⟩ := p
    by_cases h : a = k0
    · simp only [Dict.set, h, if_true, List.map_cons, List.mem_cons]
      tauto
    · simp only [Dict.set, h, if_false, List.map_cons, List.mem_cons, ih]
      tauto

theorem get?_set_same (d : Dict V) (k0 : String) (v : V) : Dict.get? (Dict.set d k0 v) k0 = some v := by
  induction d with
  | nil => simp [Dict.set, Dict.get?]
  | cons p d ih =>
    obtain ⟨a, b⟩ := p
    by_cases h : a = k0
    · simp [Dict.set, Dict.get?, h]
    · simp [Dict.set, Dict.get?, h, ih]

theorem get?_set_other (d : Dict V) (k0 k : String) (v : V) (hk : k ≠ k0) :
    Dict.get? (Dict.set d k0 v) k = Dict.get? d k := by
  induction d with
  | nil => simp [Dict.set, Dict.get?, hk.symm]
  | cons p d ih =>
    obtain ⟨a, b⟩ := p
    by_cases h : a = k0
    · subst h
      simp [Dict.set, Dict.get?, hk.symm]
    · rw [Dict.set, if_neg h]
      by_cases h' : a = k <;> simp [Dict.get?, h', ih]

theorem update_one (d : Dict V) (k : String) (v : V) : Dict.update d [(k, v)] = Dict.set d k v := rfl

/-- **C141.** Adding a keyword to a call that works leaves a call that works exactly if the method has a parameter of that
name, or takes any keyword, and no positional argument fills it. -/
theorem C141_curry (sg : ParSig) (n : ℕ) (kw : Dict V) (k : String) (v : V)
    (hc : Callable sg n (kw.map Prod.fst)) :
    Callable sg n ((Dict.set kw k v).map Prod.fst) ↔
      (∀ i < n, sg.pos[i]? ≠ some k) ∧ (sg.varKw = true ∨ (∃ i : ℕ, sg.pos[i]? = some k) ∨ k ∈ sg.kwOnly) := by
  constructor
  · intro h
    have hk := (set_keys kw k v k).2 (Or.inr rfl)
    exact ⟨h.once k hk, h.home k hk⟩
  · rintro ⟨h1, h2⟩
    refine ⟨hc.room, ?_, ?_, ?_⟩
    · intro q hq
      rcases (set_keys kw k v q).1 hq with h | rfl
      · exact hc.once q h
      · exact h1
    · intro q hq
      rcases (set_keys kw k v q).1 hq with h | rfl
      · exact hc.home q h
      · exact h2
    · intro r hr
      rcases hc.all r hr with h | h
      · exact Or.inl h
      · exact Or.inr ((set_keys kw k v r).2 (Or.inl h))

/-- A recorded call that python accepts for a matrix. -/
def Call.Fits (c : Call V) : Prop := ∃ sg, matrixSig c.name = some sg ∧ Callable sg c.args.length (c.kwargs.map Prod.fst)

/-- The methods with a `**kwargs`. -/
def anyKeyword : List String := ["save", "plot", "plot_projection", "has_equal_binning"]

theorem sig_egMax (name : String) (sg : ParSig) (h : matrixSig name = some sg) (n : ℕ) (hn : n ≤ sg.pos.length) :
    ((∀ i < n, sg.pos[i]? ≠ some "Eg_max") ∧
      (sg.varKw = true ∨ (∃ i : ℕ, sg.pos[i]? = some "Eg_max") ∨ "Eg_max" ∈ sg.kwOnly)) ↔
      name ∈ anyKeyword ∨ (name = "trapezoid" ∧ n ≤ 3) := by
  have hm : ∀ (l : List String) (n : ℕ), (∀ i < n, l[i]? ≠ some "Eg_max") ↔ "Eg_max" ∉ l.take n := by
    intro l n
    rw [mem_take_iff]
    constructor
    · rintro h ⟨i, hi, he⟩
      exact h i hi he
    · exact fun h i hi he => h ⟨i, hi, he⟩
  have hm' : ∀ l : List String, (∃ i : ℕ, l[i]? = some "Eg_max") ↔ "Eg_max" ∈ l := fun l => List.mem_iff_getElem?.symm
  rw [hm, hm']
  unfold matrixSig at h
  split at h <;> cases h <;> simp only [List.length_cons, List.length_nil] at hn <;> interval_cases n <;> decide

/-- **C141.** After `curry(Eg_max=…)` the recorded calls fit exactly if each of them is a `trapezoid` with `Eg_max` not given by
position, or a method that takes any keyword. -/
theorem C141_replayable (a : Action V) (v : V) (h : ∀ c ∈ a.calls, c.Fits) :
    (∀ c ∈ (a.curry [("Eg_max", v)]).calls, c.Fits) ↔
      ∀ c ∈ a.calls, c.name ∈ anyKeyword ∨ (c.name = "trapezoid" ∧ c.args.length ≤ 3) := by
  have one : ∀ c ∈ a.calls, (Call.Fits { c with kwargs := Dict.update c.kwargs [("Eg_max", v)] }) ↔
      (c.name ∈ anyKeyword ∨ (c.name = "trapezoid" ∧ c.args.length ≤ 3)) := by
    intro c hc
    obtain ⟨sg, h1, h2⟩ := h c hc
    rw [← sig_egMax c.name sg h1 c.args.length h2.room, ← C141_curry sg c.args.length c.kwargs "Eg_max" v h2]
    constructor
    · rintro ⟨sg', h3, h4⟩
      dsimp only at h3 h4
      rw [h1] at h3
      injection h3 with h3
      subst h3
      exact h4
    · intro h4
      exact ⟨sg, h1, h4⟩
  constructor
  · intro hh c hc
    exact (one c hc).1 (hh _ (List.mem_map.2 ⟨c, hc, rfl⟩))
  · intro hh c hc
    obtain ⟨c0, hc0, rfl⟩ := List.mem_map.1 hc
    exact (one c0 hc0).2 (hh c0 hc0)

/-! ### Replaying -/

theorem direct_mem {exec : Exec V R σ} {cs : List (Call V)} {s s' : σ} {rs : List R} (h : Direct exec cs s rs s') :
    ∀ c ∈ cs, ∃ t t' r, exec c.name c.args c.kwargs t = (t', .ok r) := by
  induction h with
  | nil s => simp
  | cons c cs s s' s'' r rs h t ih =>
    intro c' hc'
    rcases List.mem_cons.1 hc' with rfl | hc'
    · exact ⟨s, s', r, h⟩
    · exact ih c' hc'

theorem exec_fits {body : String → Dict V → σ → σ × Except Err R} {c : Call V} {t t' : σ} {r : R}
    (h : matrixExec body c.name c.args c.kwargs t = (t', .ok r)) : c.Fits := by
  unfold matrixExec at h
  cases hs : matrixSig c.name with
  | none => rw [hs] at h; simp at h
  | some sg =>
    refine ⟨sg, hs, ?_⟩
    by_contra hc
    rw [hs] at h
    dsimp only at h
    rw [(C141_accepts sg c.args c.kwargs).2 hc] at h
    simp at h

/-- **C141.** An Action with a call that does not fit never finishes, whatever it is replayed on. -/
theorem C141_never (body : String → Dict V → σ → σ × Except Err R) (a : Action V) (h : ∃ c ∈ a.calls, ¬ c.Fits) (s : σ) :
    ∃ s' e, a.actOn (matrixExec body) s = (s', .error e) := by
  obtain ⟨c, hc, hn⟩ := h
  rcases hr : a.actOn (matrixExec body) s with ⟨s', e | rs⟩
  · exact ⟨s', e, rfl⟩
  · obtain ⟨t, t', r, hx⟩ := direct_mem ((C37_replay _ a s s' rs).1 hr) c hc
    exact absurd (exec_fits hx) hn

/-- The calls an extraction can add its keyword to. -/
def Call.Extendable (c : Call V) : Prop := c.name ∈ anyKeyword ∨ (c.name = "trapezoid" ∧ c.args.length ≤ 3)

/-- **C141.** Member 0 is extracted only with an Action whose calls all take the keyword `Eg_max`. -/
theorem C141_needs (body : String → Dict CutArg → Mat → Mat × Except Err R) (a a' : Action CutArg)
    (M S : Mat) (r : Mat × Mat) (h : extractCut (matrixExec body) 0 a M S = (.ok r, a')) : ∀ c ∈ a.calls, c.Extendable := by
  unfold extractCut at h
  rcases h1 : a.actOn (matrixExec body) M with ⟨m, e | rs⟩
  · rw [h1] at h; simp at h
  rw [h1] at h
  simp only [if_true] at h
  cases h2 : m.Eg.getLast? with
  | none => rw [h2] at h; simp at h
  | some e =>
    rw [h2] at h
    dsimp only at h
    have fits : ∀ c ∈ a.calls, c.Fits := fun c hc => by
      obtain ⟨t, t', r, hx⟩ := direct_mem ((C37_replay _ a _ _ _).1 h1) c hc
      exact exec_fits hx
    rcases h3 : (a.curry [("Eg_max", .num e)]).actOn (matrixExec body) S with ⟨s, er | rs'⟩
    · rw [h3] at h; simp at h
    · refine (C141_replayable a (.num e) fits).1 fun c hc => ?_
      obtain ⟨t, t', r, hx⟩ := direct_mem ((C37_replay _ _ _ _ _).1 h3) c hc
      exact exec_fits hx

/-- **C141.** If some call does not take the keyword, member 0 is not extracted; and if the Action worked on the member, it is
left in a state in which it fails on every matrix. -/
theorem C141_ruined (body : String → Dict CutArg → Mat → Mat × Except Err R) (a : Action CutArg) (M S m : Mat) (rs : List R)
    (e : ℚ) (h1 : a.actOn (matrixExec body) M = (m, .ok rs)) (h2 : m.Eg.getLast? = some e)
    (hn : ∃ c ∈ a.calls, ¬ c.Extendable) :
    (∃ er, (extractCut (matrixExec body) 0 a M S).1 = .error er) ∧
      ∀ t, ∃ t' er, (extractCut (matrixExec body) 0 a M S).2.actOn (matrixExec body) t = (t', .error er) := by
  have fits : ∀ c ∈ a.calls, c.Fits := fun c hc => by
    obtain ⟨t, t', r, hx⟩ := direct_mem ((C37_replay _ a _ _ _).1 h1) c hc
    exact exec_fits hx
  have bad : ∃ c ∈ (a.curry [("Eg_max", CutArg.num e)]).calls, ¬ c.Fits := by
    by_contra hb
    obtain ⟨c, hc, hx⟩ := hn
    refine hx ((C141_replayable a (.num e) fits).1 (fun c' hc' => ?_) c hc)
    by_contra hf
    exact hb ⟨c', hc', hf⟩
  have hE : ∃ er, extractCut (matrixExec body) 0 a M S = (.error er, a.curry [("Eg_max", .num e)]) := by
    obtain ⟨s', er, hs⟩ := C141_never body _ bad S
    refine ⟨er, ?_⟩
    unfold extractCut
    rw [h1]
    simp only [if_true, h2, hs]
  obtain ⟨er, hE⟩ := hE
  rw [hE]
  exact ⟨⟨er, rfl⟩, fun t => C141_never body _ bad t⟩

/-! ### A single trapezoidal cut -/

/-- The signature of `trapezoid`, for the specification. -/
def trapPars : List String := ["Ex_min", "Ex_max", "Eg_min", "Eg_max", "inplace"]

/-- Specification: the recorded call gives the parameter `k` the value `v`, by position or by keyword. -/
def Call.Gives (c : Call V) (k : String) (v : V) : Prop :=
  (∃ i : ℕ, trapPars[i]? = some k ∧ c.args[i]? = some v) ∨ c.kwargs.get? k = some v

/-- Specification: the recorded call leaves the parameter `k` to its default. -/
def Call.Leaves (c : Call V) (k : String) : Prop := ∀ v, ¬ c.Gives k v

/-- What `inplace` takes over from the cut copy. -/
def Mat.taking (m t : Mat) : Mat := { m with values := t.values, Ex := t.Ex, Eg := t.Eg, state := t.state }

theorem trap_fits {c : Call V} (hc : c.name = "trapezoid") (hf : c.Fits) :
    ∃ d, bindArgs ⟨trapPars, ["Ex_min", "Ex_max", "Eg_min"], [], false⟩ c.args c.kwargs = .ok d ∧
      ∀ k v, d.get? k = some v ↔ c.Gives k v := by
  obtain ⟨sg, h1, h2⟩ := hf
  rw [hc] at h1
  have : sg = ⟨trapPars, ["Ex_min", "Ex_max", "Eg_min"], [], false⟩ := by
    have : matrixSig "trapezoid" = some ⟨trapPars, ["Ex_min", "Ex_max", "Eg_min"], [], false⟩ := rfl
    rw [this] at h1
    exact (Option.some.inj h1).symm
  subst this
  refine ⟨_, (C141_accepts _ _ _).1 h2, fun k v => ?_⟩
  exact C141_bound ⟨trapPars, ["Ex_min", "Ex_max", "Eg_min"], [], false⟩ (by decide) c.args c.kwargs _
    ((C141_accepts _ _ _).1 h2) k v

theorem leaves_none {c : Call V} {d : Dict V} (hd : ∀ k v, d.get? k = some v ↔ c.Gives k v) {k : String}
    (h : c.Leaves k) : d.get? k = none := by
  cases hk : d.get? k with
  | none => rfl
  | some v => exact absurd ((hd k v).1 hk) (h v)

/-- One recorded `trapezoid` on a matrix. -/
theorem act_trap (rest : String → Dict CutArg → Mat → Mat × Except Err (Option Mat)) (names : List String) (c : Call CutArg)
    (hc : c.name = "trapezoid") (hf : c.Fits) (a b g : ℚ) (lim : Option ℚ) (inplace : Bool)
    (h1 : c.Gives "Ex_min" (.num a)) (h2 : c.Gives "Ex_max" (.num b)) (h3 : c.Gives "Eg_min" (.num g))
    (h4 : (lim = none ∧ (c.Leaves "Eg_max" ∨ c.Gives "Eg_max" .nil)) ∨ ∃ q, lim = some q ∧ c.Gives "Eg_max" (.num q))
    (h5 : (inplace = true ∧ c.Leaves "inplace") ∨ c.Gives "inplace" (.flag inplace)) (M : Mat) :
    Action.actOn (matrixExec (trapBody rest)) ⟨names, [c]⟩ M =
      match M.trapezoid a b g lim with
      | .error e => (M, .error e)
      | .ok t => if inplace then (M.taking t, .ok [none]) else (M, .ok [some t]) := by
  obtain ⟨d, hd, hg⟩ := trap_fits hc hf
  have e4 : CutArg.toLimit (d.get? "Eg_max") = .ok lim := by
    rcases h4 with ⟨rfl, h | h⟩ | ⟨q, rfl, h⟩
    · rw [leaves_none hg h]; rfl
    · rw [(hg _ _).2 h]; rfl
    · rw [(hg _ _).2 h]; rfl
  have e5 : CutArg.toFlag (d.get? "inplace") = inplace := by
    rcases h5 with ⟨rfl, h⟩ | h
    · rw [leaves_none hg h]; rfl
    · rw [(hg _ _).2 h]; rfl
  have hs : matrixSig "trapezoid" = some ⟨trapPars, ["Ex_min", "Ex_max", "Eg_min"], [], false⟩ := rfl
  have hx : matrixExec (trapBody rest) c.name c.args c.kwargs M = M.trapezoidCall a b g lim inplace := by
    unfold matrixExec
    rw [hc, hs]
    dsimp only
    rw [hd]
    dsimp only
    unfold trapBody
    rw [if_pos rfl, (hg _ _).2 h1, (hg _ _).2 h2, (hg _ _).2 h3, e4, e5]
    rfl
  unfold Action.actOn
  simp only [actLoop, hx]
  unfold Mat.trapezoidCall
  cases M.trapezoid a b g lim with
  | error e => rfl
  | ok t => cases inplace <;> rfl

theorem gives_set {c : Call V} {k k0 : String} {v w : V} (hk : k ≠ k0) :
    Call.Gives { c with kwargs := Dict.set c.kwargs k0 w } k v ↔ c.Gives k v := by
  unfold Call.Gives
  rw [get?_set_other _ _ _ _ hk]

/-- **C141.** With one recorded `trapezoid` whose `Eg_max` is not given by position, member 0 is cut with the recorded limits
and the uncertainties with the last energy of the member after the cut; the Action keeps its limits but has this energy as
`Eg_max`.  With an automatic or other limit it may be a different one. -/
theorem C141_cut (rest : String → Dict CutArg → Mat → Mat × Except Err (Option Mat)) (names : List String) (c : Call CutArg)
    (hc : c.name = "trapezoid") (hf : c.Fits) (hn : c.args.length ≤ 3) (a b g : ℚ) (lim : Option ℚ)
    (h1 : c.Gives "Ex_min" (.num a)) (h2 : c.Gives "Ex_max" (.num b)) (h3 : c.Gives "Eg_min" (.num g))
    (h4 : (lim = none ∧ (c.Leaves "Eg_max" ∨ c.Gives "Eg_max" .nil)) ∨ ∃ q, lim = some q ∧ c.Gives "Eg_max" (.num q))
    (h5 : c.Leaves "inplace") (M S m s : Mat) (a' : Action CutArg) :
    extractCut (matrixExec (trapBody rest)) 0 ⟨names, [c]⟩ M S = (.ok (m, s), a') ↔
      ∃ t u e, M.trapezoid a b g lim = .ok t ∧ t.Eg.getLast? = some e ∧ S.trapezoid a b g (some e) = .ok u ∧
        m = M.taking t ∧ s = S.taking u ∧
        a' = ⟨names, [{ c with kwargs := Dict.set c.kwargs "Eg_max" (.num e) }]⟩ := by
  have hM := act_trap rest names c hc hf a b g lim true h1 h2 h3 h4 (Or.inl ⟨rfl, h5⟩) M
  have hS : ∀ e, Action.actOn (matrixExec (trapBody rest))
      ⟨names, [{ c with kwargs := Dict.set c.kwargs "Eg_max" (.num e) }]⟩ S =
      match S.trapezoid a b g (some e) with
      | .error e => (S, .error e)
      | .ok t => (S.taking t, .ok [none]) := by
    intro e
    have hf' : Call.Fits { c with kwargs := Dict.set c.kwargs "Eg_max" (CutArg.num e) } := by
      have := (C141_replayable ⟨names, [c]⟩ (CutArg.num e) (by simpa using hf)).2
        (by simpa using Or.inr ⟨hc, hn⟩)
      exact this _ (List.mem_map.2 ⟨c, by simp, rfl⟩)
    have := act_trap rest names { c with kwargs := Dict.set c.kwargs "Eg_max" (CutArg.num e) } hc hf' a b g (some e) true
      ((gives_set (by decide)).2 h1) ((gives_set (by decide)).2 h2) ((gives_set (by decide)).2 h3)
      (Or.inr ⟨e, rfl, Or.inr (get?_set_same _ _ _)⟩)
      (Or.inl ⟨rfl, fun v hv => h5 v ((gives_set (by decide)).1 hv)⟩) S
    rw [this]
    rfl
  unfold extractCut
  rw [hM]
  cases hMt : M.trapezoid a b g lim with
  | error e => simp
  | ok t =>
    simp only [if_true]
    have hEg : (M.taking t).Eg = t.Eg := rfl
    rw [hEg]
    cases he : t.Eg.getLast? with
    | none =>
      simp only [Prod.mk.injEq, reduceCtorEq, false_and, false_iff]
      rintro ⟨t', u, e, h, h', -⟩
      cases h
      rw [he] at h'
      simp at h'
    | some e =>
      have hcur : Action.curry (⟨names, [c]⟩ : Action CutArg) [("Eg_max", .num e)] =
          ⟨names, [{ c with kwargs := Dict.set c.kwargs "Eg_max" (.num e) }]⟩ := rfl
      dsimp only
      rw [hcur, hS e]
      cases hu : S.trapezoid a b g (some e) with
      | error er =>
        simp only [Prod.mk.injEq, reduceCtorEq, false_and, false_iff]
        rintro ⟨t', u, e', h, h', h'', -⟩
        cases h
        rw [he] at h'
        cases h'
        rw [hu] at h''
        simp at h''
      | ok u =>
        simp only [Prod.mk.injEq, Except.ok.injEq]
        constructor
        · rintro ⟨⟨rfl, rfl⟩, rfl⟩
          exact ⟨t, u, e, rfl, he, hu, rfl, rfl, rfl⟩
        · rintro ⟨t', u', e', rfl, h', h'', rfl, rfl, rfl⟩
          rw [he] at h'
          cases h'
          rw [hu] at h''
          cases h''
          exact ⟨⟨rfl, rfl⟩, rfl⟩

/-- **C141.** The other members leave the Action as it is, and both matrices are cut with the same calls. -/
theorem C141_later {R : Type} (exec : Exec CutArg R Mat) (n : ℕ) (a : Action CutArg) (M S : Mat) :
    (extractCut exec (n + 1) a M S).2 = a ∧
      ∀ m s, (extractCut exec (n + 1) a M S).1 = .ok (m, s) ↔
        (∃ rs, Direct exec a.calls M rs m) ∧ ∃ rs, Direct exec a.calls S rs s := by
  unfold extractCut
  rcases h1 : a.actOn exec M with ⟨m, e | rs⟩
  · refine ⟨rfl, fun m' s => ?_⟩
    simp only [reduceCtorEq, false_iff]
    rintro ⟨⟨rs, h⟩, -⟩
    rw [(C37_replay exec a M m' rs).2 h] at h1
    simp at h1
  simp only [Nat.add_one_ne_zero, if_false]
  rcases h2 : a.actOn exec S with ⟨s, e | rs'⟩
  · refine ⟨rfl, fun m' s' => ?_⟩
    simp only [reduceCtorEq, false_iff]
    rintro ⟨-, rs, h⟩
    rw [(C37_replay exec a S s' rs).2 h] at h2
    simp at h2
  · refine ⟨rfl, fun m' s' => ?_⟩
    simp only [Except.ok.injEq, Prod.mk.injEq]
    constructor
    · rintro ⟨rfl, rfl⟩
      exact ⟨⟨rs, (C37_replay exec a _ _ _).1 h1⟩, ⟨rs', (C37_replay exec a _ _ _).1 h2⟩⟩
    · rintro ⟨⟨r1, h3⟩, ⟨r2, h4⟩⟩
      rw [(C37_replay exec a _ _ _).2 h3] at h1
      rw [(C37_replay exec a _ _ _).2 h4] at h2
      cases h1
      cases h2
      exact ⟨rfl, rfl⟩

/-- No other method is used in the examples. -/
def noOther (_ : String) (_ : Dict CutArg) (m : Mat) : Mat × Except Err (Option Mat) := (m, .ok none)

/-- A recorded `trapezoid(1, 3, 1)`, the third limit by keyword. -/
def mixedCall : Call CutArg := ⟨"trapezoid", [.num 1, .num 3], [("Eg_min", .num 1)]⟩

example : mixedCall.Gives "Ex_min" (.num 1) ∧ mixedCall.Gives "Ex_max" (.num 3) ∧ mixedCall.Gives "Eg_min" (.num 1) :=
  ⟨Or.inl ⟨0, by decide, by decide⟩, Or.inl ⟨1, by decide, by decide⟩, Or.inr (by decide)⟩

example : (extractCut (matrixExec (trapBody noOther)) 0 ⟨["trapezoid"], [mixedCall]⟩
      ⟨[[1, 2, 3], [4, 5, 6], [7, 8, 0]], [1, 2, 3], [1, 2, 3], none, none⟩
      ⟨[[1, 2, 3], [4, 5, 6], [7, 8, 9]], [1, 2, 3], [1, 2, 3], none, none⟩).1 =
    .ok (⟨[[0, 0], [0, 0], [7, 0]], [1, 2], [1, 2, 3], none, none⟩,
      ⟨[[0, 0], [0, 0], [7, 0]], [1, 2], [1, 2, 3], none, none⟩) := by decide +kernel

/-- **C141 (disagreement).** A limit `Eg_max` given by position is refused: `trapezoid(1, 3, 1, 3)` cuts the member, then the
added keyword makes it a TypeError; afterwards the Action, which worked before, fails on the same member. -/
theorem C141_positional_fails :
    let m : Mat := ⟨[[1, 2, 3], [4, 5, 6], [7, 8, 9]], [1, 2, 3], [1, 2, 3], none, none⟩
    let act : Action CutArg := ⟨["trapezoid"], [⟨"trapezoid", [.num 1, .num 3, .num 1, .num 3], []⟩]⟩
    let exec := matrixExec (trapBody noOther)
    (act.actOn exec m).2 = .ok [none] ∧ (extractCut exec 0 act m m).1 = .error .typeError ∧
      ((extractCut exec 0 act m m).2.actOn exec m).2 = .error .typeError ∧
      (extractCut exec 1 act m m).1 = .ok ((act.actOn exec m).1, (act.actOn exec m).1) := by decide +kernel

/-- **C141 (disagreement).** A second recorded call, here `remove_negative()`, is refused: the keyword is added to every
call. -/
theorem C141_second_call_fails :
    let m : Mat := ⟨[[1, 2, 3], [4, 5, 6], [7, 8, 9]], [1, 2, 3], [1, 2, 3], none, none⟩
    let act : Action CutArg := ⟨["trapezoid", "remove_negative"],
      [⟨"trapezoid", [], [("Ex_min", .num 1), ("Ex_max", .num 3), ("Eg_min", .num 1)]⟩, ⟨"remove_negative", [], []⟩]⟩
    let exec := matrixExec (trapBody noOther)
    (act.actOn exec m).2 = .ok [none, none] ∧ (extractCut exec 0 act m m).1 = .error .typeError ∧
      ((extractCut exec 0 act m m).2.actOn exec m).2 = .error .typeError := by decide +kernel

/-- **C141 (disagreement).** A cut recorded with `inplace=False` does nothing: the extraction goes on with the whole member
and the whole uncertainties, and the last energy of the whole member becomes the limit. -/
theorem C141_inplace_fails (rest : String → Dict CutArg → Mat → Mat × Except Err (Option Mat)) (names : List String)
    (c : Call CutArg) (hc : c.name = "trapezoid") (hf : c.Fits) (hn : c.args.length ≤ 3) (a b g : ℚ) (lim : Option ℚ)
    (h1 : c.Gives "Ex_min" (.num a)) (h2 : c.Gives "Ex_max" (.num b)) (h3 : c.Gives "Eg_min" (.num g))
    (h4 : (lim = none ∧ (c.Leaves "Eg_max" ∨ c.Gives "Eg_max" .nil)) ∨ ∃ q, lim = some q ∧ c.Gives "Eg_max" (.num q))
    (h5 : c.Gives "inplace" (.flag false)) (M S t u : Mat) (e : ℚ) (ht : M.trapezoid a b g lim = .ok t)
    (he : M.Eg.getLast? = some e) (hu : S.trapezoid a b g (some e) = .ok u) :
    extractCut (matrixExec (trapBody rest)) 0 ⟨names, [c]⟩ M S =
      (.ok (M, S), ⟨names, [{ c with kwargs := Dict.set c.kwargs "Eg_max" (.num e) }]⟩) := by
  have hM := act_trap rest names c hc hf a b g lim false h1 h2 h3 h4 (Or.inr h5) M
  have hf' : Call.Fits { c with kwargs := Dict.set c.kwargs "Eg_max" (CutArg.num e) } := by
    have := (C141_replayable ⟨names, [c]⟩ (CutArg.num e) (by simpa using hf)).2 (by simpa using Or.inr ⟨hc, hn⟩)
    exact this _ (List.mem_map.2 ⟨c, by simp, rfl⟩)
  have hS := act_trap rest names { c with kwargs := Dict.set c.kwargs "Eg_max" (CutArg.num e) } hc hf' a b g (some e) false
    ((gives_set (by decide)).2 h1) ((gives_set (by decide)).2 h2) ((gives_set (by decide)).2 h3)
    (Or.inr ⟨e, rfl, Or.inr (get?_set_same _ _ _)⟩) (Or.inr ((gives_set (by decide)).2 h5)) S
  have hcur : Action.curry (⟨names, [c]⟩ : Action CutArg) [("Eg_max", .num e)] =
      ⟨names, [{ c with kwargs := Dict.set c.kwargs "Eg_max" (.num e) }]⟩ := rfl
  unfold extractCut
  rw [hM, ht]
  dsimp only
  simp only [Bool.false_eq_true, if_false, if_true, he, hcur, hS, hu]

example : (extractCut (matrixExec (trapBody noOther)) 0
      ⟨["trapezoid"], [⟨"trapezoid", [.num 1, .num 2, .num 1], [("inplace", .flag false)]⟩]⟩
      ⟨[[1, 2, 3], [4, 5, 6], [7, 8, 9]], [1, 2, 3], [1, 2, 3], none, none⟩
      ⟨[[1, 2, 3], [4, 5, 6], [7, 8, 9]], [1, 2, 3], [1, 2, 3], none, none⟩).1 =
    .ok (⟨[[1, 2, 3], [4, 5, 6], [7, 8, 9]], [1, 2, 3], [1, 2, 3], none, none⟩,
      ⟨[[1, 2, 3], [4, 5, 6], [7, 8, 9]], [1, 2, 3], [1, 2, 3], none, none⟩) := by decide +kernel

/-! ### The limits `rhosigchi` reads -/

/-- A recorded `trapezoid` with the three limits as keywords. -/
def Call.HasLimits (c : Call V) (l : V × V × V) : Prop :=
  c.kwargs.get? "Ex_min" = some l.1 ∧ c.kwargs.get? "Ex_max" = some l.2.1 ∧ c.kwargs.get? "Eg_min" = some l.2.2

/-- **C141.** `rhosigchi` reads limits exactly if every recorded `trapezoid` has all three as keywords; they are those of the last
one.  Otherwise it is a KeyError. -/
theorem C141_limits (calls : List (Call V)) (acc : Option (V × V × V)) :
    (∀ r, rscReadLimits calls acc = .ok r ↔ (∀ c ∈ calls, c.name = "trapezoid" → ∃ l, c.HasLimits l) ∧
      (((∀ c ∈ calls, c.name ≠ "trapezoid") ∧ r = acc) ∨
        ∃ pre c post l, calls = pre ++ c :: post ∧ c.name = "trapezoid" ∧ (∀ x ∈ post, x.name ≠ "trapezoid") ∧ c.HasLimits l ∧
          r = some l)) ∧
    ((∃ c ∈ calls, c.name = "trapezoid" ∧ ∀ l, ¬ c.HasLimits l) → rscReadLimits calls acc = .error .keyError) := by
  induction calls generalizing acc with
  | nil =>
    refine ⟨fun r => ?_, by simp⟩
    simp only [rscReadLimits, Except.ok.injEq, List.not_mem_nil, false_imp_iff, implies_true, true_and]
    constructor
    · rintro rfl
      exact Or.inl rfl
    · rintro (rfl | ⟨pre, c, post, l, h, -⟩)
      · rfl
      · simp at h
  | cons c cs ih =>
    by_cases hc : c.name = "trapezoid"
    · by_cases hl : ∃ l, c.HasLimits l
      · obtain ⟨⟨x, y, z⟩, hl⟩ := hl
        have hr : rscReadLimits (c :: cs) acc = rscReadLimits cs (some (x, y, z)) := by
          simp only [rscReadLimits, hc, if_true]
          rw [hl.1, hl.2.1, hl.2.2]
        rw [hr]
        obtain ⟨i1, i2⟩ := ih (some (x, y, z))
        constructor
        · intro r
          rw [i1 r]
          constructor
          · rintro ⟨h1, h2⟩
            refine ⟨?_, Or.inr ?_⟩
            · intro c' hc' hn
              rcases List.mem_cons.1 hc' with rfl | hc'
              · exact ⟨_, hl⟩
              · exact h1 c' hc' hn
            · rcases h2 with ⟨h2, rfl⟩ | ⟨pre, c', post, l, rfl, h3, h4, h5, rfl⟩
              · exact ⟨[], c, cs, _, rfl, hc, h2, hl, rfl⟩
              · exact ⟨c :: pre, c', post, l, rfl, h3, h4, h5, rfl⟩
          · rintro ⟨h1, h2⟩
            refine ⟨fun c' hc' => h1 c' (List.mem_cons_of_mem _ hc'), ?_⟩
            rcases h2 with ⟨h2, -⟩ | ⟨pre, c', post, l, he, h3, h4, h5, rfl⟩
            · exact absurd hc (h2 c List.mem_cons_self)
            · cases pre with
              | nil =>
                simp only [List.nil_append, List.cons.injEq] at he
                obtain ⟨rfl, rfl⟩ := he
                refine Or.inl ⟨h4, ?_⟩
                obtain ⟨l1, l2, l3⟩ := l
                have e1 := hl.1.symm.trans h5.1
                have e2 := hl.2.1.symm.trans h5.2.1
                have e3 := hl.2.2.symm.trans h5.2.2
                simp only [Option.some.injEq] at e1 e2 e3
                rw [e1, e2, e3]
              | cons p pre =>
                simp only [List.cons_append, List.cons.injEq] at he
                exact Or.inr ⟨pre, c', post, l, he.2, h3, h4, h5, rfl⟩
        · rintro ⟨c', hc', hn, hx⟩
          rcases List.mem_cons.1 hc' with rfl | hc'
          · exact absurd hl (hx _)
          · exact i2 ⟨c', hc', hn, hx⟩
      · have hr : rscReadLimits (c :: cs) acc = .error .keyError := by
          simp only [rscReadLimits, hc, if_true]
          split
          · rename_i x y z h1 h2 h3
            exact absurd ⟨(x, y, z), h1, h2, h3⟩ hl
          · rfl
        rw [hr]
        refine ⟨fun r => ?_, fun _ => rfl⟩
        simp only [reduceCtorEq, false_iff]
        rintro ⟨h1, -⟩
        exact hl (h1 c List.mem_cons_self hc)
    · have hr : rscReadLimits (c :: cs) acc = rscReadLimits cs acc := by
        simp only [rscReadLimits, hc, if_false]
      rw [hr]
      obtain ⟨i1, i2⟩ := ih acc
      constructor
      · intro r
        rw [i1 r]
        constructor
        · rintro ⟨h1, h2⟩
          refine ⟨?_, ?_⟩
          · intro c' hc' hn
            rcases List.mem_cons.1 hc' with rfl | hc'
            · exact absurd hn hc
            · exact h1 c' hc' hn
          · rcases h2 with ⟨h2, rfl⟩ | ⟨pre, c', post, l, rfl, h3, h4, h5, rfl⟩
            · refine Or.inl ⟨fun c' hc' => ?_, rfl⟩
              rcases List.mem_cons.1 hc' with rfl | hc'
              · exact hc
              · exact h2 c' hc'
            · exact Or.inr ⟨c :: pre, c', post, l, rfl, h3, h4, h5, rfl⟩
        · rintro ⟨h1, h2⟩
          refine ⟨fun c' hc' => h1 c' (List.mem_cons_of_mem _ hc'), ?_⟩
          rcases h2 with ⟨h2, rfl⟩ | ⟨pre, c', post, l, he, h3, h4, h5, rfl⟩
          · exact Or.inl ⟨fun c' hc' => h2 c' (List.mem_cons_of_mem _ hc'), rfl⟩
          · cases pre with
            | nil =>
              simp only [List.nil_append, List.cons.injEq] at he
              obtain ⟨rfl, rfl⟩ := he
              exact absurd h3 hc
            | cons p pre =>
              simp only [List.cons_append, List.cons.injEq] at he
              exact Or.inr ⟨pre, c', post, l, he.2, h3, h4, h5, rfl⟩
      · rintro ⟨c', hc', hn, hx⟩
        rcases List.mem_cons.1 hc' with rfl | hc'
        · exact absurd hn hc
        · exact i2 ⟨c', hc', hn, hx⟩

example : rscReadLimits [⟨"cut", [0], []⟩, ⟨"trapezoid", [], [("Ex_min", 4), ("Ex_max", 5), ("Eg_min", 1)]⟩,
    ⟨"rebin", [0], []⟩] none = .ok (some ((4, 5, 1) : ℕ × ℕ × ℕ)) := by decide

/-- **C141.** For a recorded `trapezoid` with its limits as keywords both algorithms use the same limits. -/
theorem C141_same (names : List String) (c : Call CutArg) (hc : c.name = "trapezoid") (a b g : ℚ)
    (h1 : c.Gives "Ex_min" (.num a)) (h2 : c.Gives "Ex_max" (.num b)) (h3 : c.Gives "Eg_min" (.num g))
    (hk : c.args = []) :
    (rscReadLimits (⟨names, [c]⟩ : Action CutArg).calls none).bind rscUseLimits = .ok (a, b, g) := by
  have kw : ∀ k v, c.Gives k v → c.kwargs.get? k = some v := by
    rintro k v (⟨i, -, h⟩ | h)
    · rw [hk] at h; simp at h
    · exact h
  simp only [rscReadLimits, hc, if_true]
  rw [kw _ _ h1, kw _ _ h2, kw _ _ h3]
  rfl

/-- **C141 (disagreement).** Limits given by position work for the standard algorithm (`C141_cut`) and are a KeyError for
rhosigchi; an Action without `trapezoid`, e.g. two calls of `cut`, is a TypeError. -/
theorem C141_rhosigchi_fails :
    let m : Mat := ⟨[[1, 2, 3], [4, 5, 6], [7, 8, 9]], [1, 2, 3], [1, 2, 3], none, none⟩
    let act : Action CutArg := ⟨["trapezoid"], [⟨"trapezoid", [.num 1, .num 3, .num 1], []⟩]⟩
    (extractCut (matrixExec (trapBody noOther)) 0 act m m).1 =
        .ok (⟨[[0, 0, 0], [4, 0, 0], [7, 8, 0]], [1, 2, 3], [1, 2, 3], none, none⟩,
          ⟨[[0, 0, 0], [4, 0, 0], [7, 8, 0]], [1, 2, 3], [1, 2, 3], none, none⟩) ∧
      (rscReadLimits act.calls none).bind rscUseLimits = .error .keyError ∧
      ∀ calls : List (Call CutArg), (∀ c ∈ calls, c.name ≠ "trapezoid") →
        (rscReadLimits calls none).bind rscUseLimits = .error .typeError := by
  refine ⟨by decide +kernel, by decide +kernel, fun calls h => ?_⟩
  have := ((C141_limits calls none).1 none).2 ⟨fun c hc hn => absurd hn (h c hc), Or.inl ⟨h, rfl⟩⟩
  rw [this]
  rfl

end Ompy
