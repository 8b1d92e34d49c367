import Verif.Introspection
import Verif.MamaTextProps
import Mathlib.Data.List.TakeWhile

/-!
# C109: loggers and the plotting hook
-/

namespace Ompy

/-! ## The registry -/

theorem put_names (r : LogReg) (n : List Char) (e : LogEntry) : (r.put n e).map Prod.fst = r.map Prod.fst := by
  unfold LogReg.put
  rw [List.map_map]
  apply List.map_congr_left
  intro p _
  by_cases h : p.1 = n
  · simp [h]
  · simp [h]

theorem lookup_put_other (r : LogReg) (n m : List Char) (e : LogEntry) (h : m ≠ n) : (r.put n e).lookup m = r.lookup m := by
  induction r with
  | nil => rfl
  | cons p r ih =>
    obtain ⟨k, v⟩ := p
    show ((if k = n then (n, e) else (k, v)) :: LogReg.put r n e).lookup m = _
    by_cases hk : k = n
    · have hb : (m == k) = false := by simpa [hk] using h
      have hb' : (m == n) = false := by simpa using h
      rw [if_pos hk, List.lookup_cons, List.lookup_cons, hb, hb']
      exact ih
    · rw [if_neg hk, List.lookup_cons, List.lookup_cons]
      cases m == k
      · exact ih
      · rfl

theorem lookup_put_self (r : LogReg) (n : List Char) (e : LogEntry) (h : n ∈ r.map Prod.fst) : (r.put n e).lookup n = some e := by
  induction r with
  | nil => simp at h
  | cons p r ih =>
    obtain ⟨k, v⟩ := p
    show ((if k = n then (n, e) else (k, v)) :: LogReg.put r n e).lookup n = _
    by_cases hk : k = n
    · rw [if_pos hk, List.lookup_cons]; simp
    · have hb : (n == k) = false := by simpa using fun h => hk h.symm
      rw [if_neg hk, List.lookup_cons, hb]
      apply ih
      simp only [List.map_cons, List.mem_cons] at h
      rcases h with h | h
      · exact absurd h.symm hk
      · exact h

theorem put_put (r : LogReg) (n : List Char) (e f : LogEntry) : (r.put n e).put n f = r.put n f := by
  unfold LogReg.put
  rw [List.map_map]
  apply List.map_congr_left
  intro p _
  by_cases h : p.1 = n
  · simp [h]
  · simp [h]

theorem lookup_names (r : LogReg) (n : List Char) (e : LogEntry) (h : r.lookup n = some e) : n ∈ r.map Prod.fst := by
  induction r with
  | nil => simp at h
  | cons p r ih =>
    obtain ⟨k, v⟩ := p
    rw [List.lookup_cons] at h
    cases hb : n == k
    · rw [hb] at h
      exact List.mem_cons_of_mem _ (ih h)
    · have : n = k := by simpa using hb
      simp [this]

theorem lookup_append (r s : LogReg) (n : List Char) : (r ++ s).lookup n = (r.lookup n).or (s.lookup n) := by
  induction r with
  | nil => simp
  | cons p r ih =>
    obtain ⟨k, v⟩ := p
    rw [List.cons_append, List.lookup_cons, List.lookup_cons]
    cases n == k
    · exact ih
    · simp

/-- Making placeholders adds names at the end and changes no logger. -/
theorem fixParents_spec (ps : List (List Char)) (r : LogReg) :
    r.map Prod.fst <+: (fixParents ps r).map Prod.fst ∧
      ∀ n l hs, (fixParents ps r).lookup n = some (.logger l hs) ↔ r.lookup n = some (.logger l hs) := by
  induction ps generalizing r with
  | nil => exact ⟨List.prefix_rfl, fun n l hs => Iff.rfl⟩
  | cons p ps ih =>
    unfold fixParents
    cases hp : r.lookup p with
    | none =>
      obtain ⟨a, b⟩ := ih (r ++ [(p, .placeholder)])
      refine ⟨?_, fun n l hs => ?_⟩
      · refine List.IsPrefix.trans ?_ a
        rw [List.map_append]; exact List.prefix_append _ _
      · show (fixParents ps (r ++ [(p, .placeholder)])).lookup n = _ ↔ _
        rw [b, lookup_append]
        cases hn : r.lookup n with
        | none =>
          rw [List.lookup_cons]
          cases n == p <;> simp
        | some e => simp
    | some e =>
      cases e with
      | placeholder => exact ih r
      | logger l hs => exact ⟨List.prefix_rfl, fun n l hs => Iff.rfl⟩

/-- `getLogger` makes the name a logger, keeps the order of the names and changes no other logger. -/
theorem getLogger_spec (r : LogReg) (name : List Char) :
    r.map Prod.fst <+: (getLogger r name).map Prod.fst ∧ name ∈ (getLogger r name).map Prod.fst ∧
      (∃ l hs, (getLogger r name).lookup name = some (.logger l hs)) ∧
      ∀ n l hs, n ≠ name → ((getLogger r name).lookup n = some (.logger l hs) ↔ r.lookup n = some (.logger l hs)) := by
  unfold getLogger
  cases h : r.lookup name with
  | none =>
    obtain ⟨a, b⟩ := fixParents_spec (parentNames name) (r ++ [(name, .logger none [])])
    have hl : (fixParents (parentNames name) (r ++ [(name, .logger none [])])).lookup name = some (.logger none []) := by
      rw [b, lookup_append, h]; simp
    refine ⟨?_, lookup_names _ _ _ hl, ⟨_, _, hl⟩, fun n l hs hn => ?_⟩
    · refine List.IsPrefix.trans ?_ a
      rw [List.map_append]; exact List.prefix_append _ _
    · show (fixParents (parentNames name) (r ++ [(name, .logger none [])])).lookup n = _ ↔ _
      rw [b, lookup_append]
      have hb : (n == name) = false := by simpa using hn
      cases hr : r.lookup n with
      | none => rw [List.lookup_cons, hb]; simp
      | some e => simp
  | some e =>
    cases e with
    | placeholder =>
      obtain ⟨a, b⟩ := fixParents_spec (parentNames name) (r.put name (.logger none []))
      have hl : (fixParents (parentNames name) (r.put name (.logger none []))).lookup name = some (.logger none []) := by
        rw [b]; exact lookup_put_self r name _ (lookup_names _ _ _ h)
      refine ⟨?_, lookup_names _ _ _ hl, ⟨_, _, hl⟩, fun n l hs hn => ?_⟩
      · rw [put_names] at a; exact a
      · show (fixParents (parentNames name) (r.put name (.logger none []))).lookup n = _ ↔ _
        rw [b, lookup_put_other r name n _ hn]
    | logger l hs =>
      exact ⟨List.prefix_rfl, lookup_names _ _ _ h, ⟨l, hs, h⟩, fun n l hs _ => Iff.rfl⟩

/-- C109: asking for a logger gives it the level and one handler of this level, whatever it had before.  No other logger is changed, nothing is removed or
moved, and asking again with the same level changes nothing. -/
theorem C109_get (r : LogReg) (name : List Char) (level : ℕ) :
    (getLoggerOmpy r name level).lookup (loggerName name) = some (.logger (some level) [level]) ∧
      (∀ n l hs, n ≠ loggerName name →
        ((getLoggerOmpy r name level).lookup n = some (.logger l hs) ↔ r.lookup n = some (.logger l hs))) ∧
      r.map Prod.fst <+: (getLoggerOmpy r name level).map Prod.fst ∧
      getLoggerOmpy (getLoggerOmpy r name level) name level = getLoggerOmpy r name level := by
  obtain ⟨a, b, _, d⟩ := getLogger_spec r (loggerName name)
  have hs : (getLoggerOmpy r name level).lookup (loggerName name) = some (.logger (some level) [level]) :=
    lookup_put_self _ _ _ b
  refine ⟨hs, fun n l hs' hn => ?_, ?_, ?_⟩
  · rw [getLoggerOmpy, lookup_put_other _ _ _ _ hn]
    exact d n l hs' hn
  · rw [getLoggerOmpy, put_names]; exact a
  · have hg : getLogger (getLoggerOmpy r name level) (loggerName name) = getLoggerOmpy r name level := by
      rw [getLogger, hs]
    rw [getLoggerOmpy, hg]
    exact put_put _ _ _ _

/-- Two modules, one of them with an old handler. -/
def exampleReg : LogReg :=
  [("ompy.matrix".toList, .logger none []), ("ompy".toList, .placeholder), ("numpydoc".toList, .logger (some 30) [30]),
    ("ompy.vector".toList, .logger (some 10) [10, 10])]

example : getLoggerOmpy exampleReg "vector".toList 20 =
    [("ompy.matrix".toList, .logger none []), ("ompy".toList, .placeholder), ("numpydoc".toList, .logger (some 30) [30]),
      ("ompy.vector".toList, .logger (some 20) [20])] := by decide +kernel

/-! ## The list of loggers -/

theorem mapM_forall_ok {α β : Type} (f : α → Except Err β) (l : List α) :
    (∃ ys, l.mapM f = .ok ys) ↔ ∀ x ∈ l, ∃ y, f x = .ok y := by
  induction l with
  | nil => simp [pure, Except.pure]
  | cons x xs ih =>
    rw [List.mapM_cons]
    cases hx : f x with
    | error e =>
      constructor
      · rintro ⟨ys, h⟩; simp [bind, Except.bind] at h
      · intro h; obtain ⟨y, hy⟩ := h x (by simp); rw [hx] at hy; cases hy
    | ok y =>
      cases hxs : xs.mapM f with
      | error e =>
        constructor
        · rintro ⟨ys, h⟩; simp [bind, Except.bind] at h
        · intro h
          obtain ⟨ys, hy⟩ := ih.2 fun z hz => h z (List.mem_cons_of_mem _ hz)
          rw [hxs] at hy; cases hy
      | ok ys =>
        constructor
        · rintro _ z hz
          rcases List.mem_cons.1 hz with hz | hz
          · exact ⟨y, hz ▸ hx⟩
          · exact ih.1 ⟨ys, hxs⟩ z hz
        · intro _; exact ⟨y :: ys, rfl⟩

theorem cutAt_length (c : Char) (s : List Char) : 2 ≤ (cutAt c s).length ↔ c ∈ s := by
  by_cases h : c ∈ s
  · obtain ⟨w, t, rfl, hw⟩ := List.eq_append_cons_of_mem h
    rw [cutAt_append c w t hw]
    have := List.length_pos_of_ne_nil (cutAt_ne c t)
    simp only [List.length_cons, h, iff_true]; omega
  · rw [cutAt_notMem c s h]; simp [h]

/-- C109: exactly when the list of loggers can be made: every name of more than five characters that contains "ompy" contains a dot. -/
theorem C109_available_iff (r : LogReg) : (∃ xs, availableLoggers r = .ok xs) ↔
    ∀ n ∈ r.map Prod.fst, ompyChars <:+: n → 5 < n.length → '.' ∈ n := by
  unfold availableLoggers
  rw [mapM_forall_ok]
  have key : ∀ n : List Char, (∃ y, (match (cutAt '.' n)[1]? with
      | some s => (.ok s : Except Err (List Char))
      | none => .error .indexError) = .ok y) ↔ '.' ∈ n := by
    intro n
    rw [← cutAt_length]
    cases hq : (cutAt '.' n)[1]? with
    | none =>
      have := List.getElem?_eq_none_iff.1 hq
      constructor
      · rintro ⟨y, hy⟩; cases hy
      · intro h; omega
    | some s =>
      obtain ⟨h, _⟩ := List.getElem?_eq_some_iff.1 hq
      exact ⟨fun _ => by omega, fun _ => ⟨s, rfl⟩⟩
  constructor
  · intro h n hn ho hl
    exact (key n).1 (h n (List.mem_filter.2 ⟨hn, by simp [ho, hl]⟩))
  · intro h n hn
    obtain ⟨hn, hc⟩ := List.mem_filter.1 hn
    have hc := of_decide_eq_true hc
    exact (key n).2 (h n hn hc.1 hc.2)

/-- The names the package itself registers: the package, and modules of it. -/
def ModuleName (n : List Char) : Prop := ∃ x, x ≠ [] ∧ '.' ∉ x ∧ n = ompyChars ++ '.' :: x

theorem available_names (names : List (List Char))
    (h : ∀ n ∈ names, ¬ ompyChars <:+: n ∨ n = ompyChars ∨ ModuleName n) :
    ∃ xs, ((names.filter fun k => decide (ompyChars <:+: k ∧ 5 < k.length)).mapM fun k =>
        match (cutAt '.' k)[1]? with
        | some s => (.ok s : Except Err (List Char))
        | none => .error .indexError) = .ok xs ∧
      xs.map (fun x => ompyChars ++ '.' :: x) = names.filter fun n => decide (ompyChars <:+: n ∧ n ≠ ompyChars) := by
  induction names with
  | nil => exact ⟨[], rfl, rfl⟩
  | cons n names ih =>
    obtain ⟨xs, h1, h2⟩ := ih fun m hm => h m (List.mem_cons_of_mem _ hm)
    rcases h n (by simp) with hn | hn | ⟨x, hx, hd, hn⟩
    · refine ⟨xs, ?_, ?_⟩
      · rw [List.filter_cons_of_neg (by simp [hn])]; exact h1
      · rw [List.filter_cons_of_neg (by simp [hn])]; exact h2
    · refine ⟨xs, ?_, ?_⟩
      · rw [List.filter_cons_of_neg (by rw [hn]; decide)]; exact h1
      · rw [List.filter_cons_of_neg (by rw [hn]; simp)]; exact h2
    · have hi : ompyChars <:+: n := ⟨[], '.' :: x, by rw [hn]; rfl⟩
      have hp := List.length_pos_of_ne_nil hx
      have hl : 5 < n.length := by rw [hn]; simp [ompyChars]; omega
      have hne : n ≠ ompyChars := by
        intro he
        rw [he] at hl
        simp [ompyChars] at hl
      refine ⟨x :: xs, ?_, ?_⟩
      · rw [List.filter_cons_of_pos (by simp [hi, hl]), List.mapM_cons, h1, hn,
          cutAt_append '.' ompyChars x (by decide), cutAt_notMem '.' x hd]
        rfl
      · rw [List.filter_cons_of_pos (by simp [hi, hne]), List.map_cons, h2, hn]

/-- C109, as far as it holds: if all names that contain "ompy" are the package or modules of it, the list has the names of these modules, in the order in
which they were registered, each as often as it is there; and a listed name that does not begin with "ompy" leads back to the logger it was made from. -/
theorem C109_available_partial (r : LogReg)
    (h : ∀ n ∈ r.map Prod.fst, ¬ ompyChars <:+: n ∨ n = ompyChars ∨ ModuleName n) :
    ∃ xs, availableLoggers r = .ok xs ∧
      xs.map (fun x => ompyChars ++ '.' :: x) = (r.map Prod.fst).filter (fun n => decide (ompyChars <:+: n ∧ n ≠ ompyChars)) ∧
      ∀ x ∈ xs, ¬ ompyChars <+: x → loggerName x ∈ r.map Prod.fst := by
  obtain ⟨xs, h1, h2⟩ := available_names (r.map Prod.fst) h
  refine ⟨xs, h1, h2, fun x hx hn => ?_⟩
  have hm : ompyChars ++ '.' :: x ∈ xs.map fun x => ompyChars ++ '.' :: x := List.mem_map_of_mem hx
  rw [h2] at hm
  rw [loggerName, if_neg hn]
  exact (List.mem_filter.1 hm).1

example : availableLoggers exampleReg = .ok ["matrix".toList, "vector".toList] := by decide +kernel

/-- A logger asked for under a name that begins with "ompy" makes the list of loggers raise IndexError. -/
theorem C109_available_fails : availableLoggers exampleReg = .ok ["matrix".toList, "vector".toList] ∧
    availableLoggers (getLoggerOmpy exampleReg "ompy_run".toList 20) = .error .indexError := by decide +kernel

/-- Loggers of other packages are listed if "ompy" is part of their name, a module of a subpackage is listed under the name of the subpackage, and a module whose
name begins with "ompy" is not found again. -/
theorem C109_names_listed_fails :
    availableLoggers [("trompy.sound".toList, .logger none [])] = .ok ["sound".toList] ∧
      availableLoggers (getLogger [] "ompy.introspection.hooks".toList) = .ok ["introspection".toList, "introspection".toList] ∧
      availableLoggers [("ompy.ompyx".toList, .logger none [])] = .ok ["ompyx".toList] ∧
      loggerName "ompyx".toList ≠ "ompy.ompyx".toList := by decide +kernel

/-! ## Messages -/

theorem joinC_length (c : Char) (ws : List (List Char)) (h : ws ≠ []) : (joinC c ws).length + 1 = (ws.map fun w => w.length + 1).sum := by
  induction ws with
  | nil => exact absurd rfl h
  | cons w ws ih =>
    cases ws with
    | nil => simp [joinC]
    | cons v vs =>
      have := ih (by simp)
      simp only [joinC, List.length_append, List.length_cons, List.map_cons, List.sum_cons] at this ⊢
      omega

theorem joinC_take_lt (c : Char) (ws : List (List Char)) (i j : ℕ) (hij : i < j) (hj : j < ws.length) :
    (joinC c (ws.take (i + 1))).length < (joinC c (ws.take (j + 1))).length := by
  have e := List.take_append_drop (i + 1) (ws.take (j + 1))
  rw [List.take_take, min_eq_left (by omega)] at e
  have a := joinC_length c (ws.take (i + 1)) (List.ne_nil_of_length_pos (by rw [List.length_take]; omega))
  have b := joinC_length c (ws.take (j + 1)) (List.ne_nil_of_length_pos (by rw [List.length_take]; omega))
  rw [← e, List.map_append, List.sum_append, e] at b
  have p : 0 < (((ws.take (j + 1)).drop (i + 1)).map fun w => w.length + 1).sum := by
    obtain ⟨x, xs, hx⟩ : ∃ x xs, (ws.take (j + 1)).drop (i + 1) = x :: xs := by
      apply List.exists_cons_of_ne_nil
      apply List.ne_nil_of_length_pos
      rw [List.length_drop, List.length_take]; omega
    rw [hx]; simp
  omega

theorem joinC_cut (c : Char) (s : List Char) : joinC c (cutAt c s) = s := by
  induction s with
  | nil => rfl
  | cons x xs ih =>
    unfold cutAt
    obtain ⟨u, us, hu⟩ := List.exists_cons_of_ne_nil (cutAt_ne c xs)
    by_cases h : x = c
    · rw [if_pos h]
      rw [hu] at ih ⊢
      show [] ++ c :: joinC c (u :: us) = _
      rw [ih, h]; rfl
    · rw [if_neg h]
      rw [hu] at ih ⊢
      show joinC c ((x :: u) :: us) = _
      cases us with
      | nil => simp only [joinC] at ih ⊢; rw [ih]
      | cons v vs => simp only [joinC] at ih ⊢; rw [List.cons_append, ih]

/-- A logger and its parents have different names. -/
theorem chain_nodup (m : List Char) : (m :: parentNames m).Nodup := by
  have e : m = joinC '.' ((cutAt '.' m).take ((cutAt '.' m).length - 1 + 1)) := by
    have := List.length_pos_of_ne_nil (cutAt_ne '.' m)
    rw [show (cutAt '.' m).length - 1 + 1 = (cutAt '.' m).length by omega, List.take_length, joinC_cut]
  have hpos := List.length_pos_of_ne_nil (cutAt_ne '.' m)
  rw [List.nodup_cons]
  constructor
  · intro hm
    obtain ⟨hm, _⟩ := List.mem_filter.1 hm
    obtain ⟨k, hk, hkm⟩ := List.mem_map.1 hm
    rw [List.mem_reverse, List.mem_range] at hk
    have := joinC_take_lt '.' (cutAt '.' m) k ((cutAt '.' m).length - 1) hk (by omega)
    rw [hkm, ← e] at this
    omega
  · apply List.Nodup.filter
    apply List.Nodup.map_on
    · intro i hi j hj hij
      rw [List.mem_reverse, List.mem_range] at hi hj
      rcases lt_trichotomy i j with h | h | h
      · have := joinC_take_lt '.' (cutAt '.' m) i j h (by omega)
        rw [hij] at this; omega
      · exact h
      · have := joinC_take_lt '.' (cutAt '.' m) j i h (by omega)
        rw [hij] at this; omega
    · exact List.nodup_reverse.2 List.nodup_range

theorem chain_quiet (r : LogReg) (n : List Char) (level : ℕ) (hn : r.lookup n = some (.logger (some level) [level]))
    (hq : ∀ m l hs, m ≠ n → r.lookup m = some (.logger l hs) → l = none ∧ hs = []) (names : List (List Char)) (hd : names.Nodup) :
    let chain := names.filterMap fun n =>
      match r.lookup n with
      | some (.logger l hs) => some (l, hs)
      | _ => none
    chain.filterMap Prod.fst = (if n ∈ names then [level] else []) ∧ chain.flatMap Prod.snd = (if n ∈ names then [level] else []) := by
  induction names with
  | nil => simp
  | cons m names ih =>
    rw [List.nodup_cons] at hd
    obtain ⟨a, b⟩ := ih hd.2
    by_cases hm : m = n
    · subst hm
      rw [if_neg hd.1] at a b
      simp only [List.filterMap_cons, hn, List.flatMap_cons, List.mem_cons, true_or, if_true]
      exact ⟨by rw [a], by rw [b]; rfl⟩
    · have hmem : (n ∈ m :: names) ↔ n ∈ names := by simp [Ne.symm hm]
      simp only [hmem]
      cases hl : r.lookup m with
      | none => simp only [List.filterMap_cons, hl]; exact ⟨a, b⟩
      | some e =>
        cases e with
        | placeholder => simp only [List.filterMap_cons, hl]; exact ⟨a, b⟩
        | logger l hs =>
          obtain ⟨rfl, rfl⟩ := hq m l hs hm hl
          simp only [List.filterMap_cons, hl, List.flatMap_cons, List.nil_append]
          exact ⟨a, b⟩

/-- C109, as far as it holds: after one logger was asked for, where no logger had a level or handlers, a message of this logger or of one below it is written once
if it is at least of the level asked for, and nothing else is written. -/
theorem C109_written_partial (r : LogReg) (name : List Char) (level : ℕ)
    (hq : ∀ n l hs, r.lookup n = some (.logger l hs) → l = none ∧ hs = []) (m : List Char) (l : ℕ) :
    written (getLoggerOmpy r name level) m l = if loggerName name ∈ m :: parentNames m ∧ level ≤ l then 1 else 0 := by
  obtain ⟨a, b, _⟩ := C109_get r name level
  obtain ⟨c, d⟩ := chain_quiet (getLoggerOmpy r name level) (loggerName name) level a
    (fun m l hs hm h => hq m l hs ((b m l hs hm).1 h)) (m :: parentNames m) (chain_nodup m)
  have c' : (logChain (getLoggerOmpy r name level) m).filterMap Prod.fst = _ := c
  have d' : (logChain (getLoggerOmpy r name level) m).flatMap Prod.snd = _ := d
  show (if effectiveLevel (logChain (getLoggerOmpy r name level) m) ≤ l then
    (((logChain (getLoggerOmpy r name level) m).flatMap Prod.snd).filter (· ≤ l)).length else 0) = _
  by_cases h : loggerName name ∈ m :: parentNames m
  · rw [if_pos h] at c' d'
    have e : effectiveLevel (logChain (getLoggerOmpy r name level) m) = level := by rw [effectiveLevel, c']; rfl
    rw [d', e]
    by_cases hl : level ≤ l
    · rw [if_pos hl, if_pos ⟨h, hl⟩]; simp [hl]
    · rw [if_neg hl, if_neg fun h => hl h.2]
  · rw [if_neg h] at d'
    rw [d']
    have : ¬ (loggerName name ∈ m :: parentNames m ∧ level ≤ l) := fun h' => h h'.1
    rw [if_neg this]
    simp

example : written (getLoggerOmpy [("ompy.matrix".toList, .logger none [])] "ompy".toList 20) "ompy.matrix".toList 20 = 1 ∧
    written (getLoggerOmpy [("ompy.matrix".toList, .logger none [])] "ompy".toList 20) "ompy.matrix".toList 10 = 0 ∧
    written (getLoggerOmpy [("ompy.matrix".toList, .logger none [])] "vector".toList 20) "ompy.matrix".toList 20 = 0 := by
  decide +kernel

/-- After asking for the logger of the package and the logger of a module, each message of the module is written twice. -/
theorem C109_written_fails :
    written (getLoggerOmpy (getLoggerOmpy [] "ompy".toList 20) "matrix".toList 20) "ompy.matrix".toList 20 = 2 := by decide +kernel

/-! ## The names of returned variables -/

theorem dropWhile_ws (w s : List Char) (h : ∀ c ∈ w, isWs c = true) : (w ++ s).dropWhile isWs = s.dropWhile isWs := by
  induction w with
  | nil => rfl
  | cons c w ih =>
    rw [List.cons_append, List.dropWhile_cons, if_pos (h c (by simp))]
    exact ih fun d hd => h d (List.mem_cons_of_mem _ hd)

/-- Remove white space at the end. -/
def rstripWs (s : List Char) : List Char := (s.reverse.dropWhile isWs).reverse

theorem rstrip_append (s w : List Char) (h : ∀ c ∈ w, isWs c = true) : rstripWs (s ++ w) = rstripWs s := by
  unfold rstripWs
  rw [List.reverse_append, dropWhile_ws _ _ fun c hc => h c (List.mem_reverse.1 hc)]

theorem rstrip_split (s : List Char) : ∃ w, s = rstripWs s ++ w ∧ ∀ c ∈ w, isWs c = true := by
  refine ⟨(s.reverse.takeWhile isWs).reverse, ?_, ?_⟩
  · unfold rstripWs
    rw [← List.reverse_append, List.takeWhile_append_dropWhile, List.reverse_reverse]
  · intro c hc
    exact List.mem_takeWhile_imp (List.mem_reverse.1 hc)

theorem strip_eq (s : List Char) : stripWs s = rstripWs (s.dropWhile isWs) := rfl

/-- Removing at the end and at the beginning can be exchanged. -/
theorem strip_append (s w : List Char) (h : ∀ c ∈ w, isWs c = true) : stripWs (s ++ w) = stripWs s := by
  rw [strip_eq, strip_eq, List.dropWhile_append]
  split
  · rename_i he
    have : s.dropWhile isWs = [] := by simpa using he
    rw [this]
    have hw : w.dropWhile isWs = [] := by rw [List.dropWhile_eq_nil_iff]; exact h
    rw [hw]
  · exact rstrip_append _ _ h

theorem strip_prepend (w s : List Char) (h : ∀ c ∈ w, isWs c = true) : stripWs (w ++ s) = stripWs s := by
  rw [strip_eq, strip_eq, dropWhile_ws _ _ h]

theorem rstrip_cons (c : Char) (s : List Char) (h : isWs c = false) : rstripWs (c :: s) = c :: rstripWs s := by
  unfold rstripWs
  rw [List.reverse_cons, List.dropWhile_append]
  split
  · rename_i he
    have : s.reverse.dropWhile isWs = [] := by simpa using he
    rw [this, List.dropWhile_cons, if_neg (by simp [h])]
    rfl
  · simp

theorem rstrip_space (c : Char) (s : List Char) (h : rstripWs s ≠ []) : rstripWs (c :: s) = c :: rstripWs s := by
  unfold rstripWs at h ⊢
  rw [List.reverse_cons, List.dropWhile_append]
  split
  · rename_i he
    exact absurd (by simpa using he) (by simpa using h)
  · simp

theorem cutAt_end (c : Char) (s w : List Char) (h : c ∉ w) :
    ∃ init l, cutAt c s = init ++ [l] ∧ cutAt c (s ++ w) = init ++ [l ++ w] := by
  induction s with
  | nil => exact ⟨[], [], rfl, by rw [List.nil_append, cutAt_notMem c w h]; rfl⟩
  | cons x xs ih =>
    obtain ⟨init, l, a, b⟩ := ih
    rw [List.cons_append]
    unfold cutAt
    by_cases hx : x = c
    · exact ⟨[] :: init, l, by rw [if_pos hx, a]; rfl, by rw [if_pos hx, b]; rfl⟩
    · rw [if_neg hx, if_neg hx, a, b]
      cases init with
      | nil => exact ⟨[], x :: l, rfl, rfl⟩
      | cons i is => exact ⟨(x :: i) :: is, l, rfl, rfl⟩

theorem cut_strip (s w : List Char) (h : ∀ c ∈ w, isWs c = true) : (cutAt ',' (s ++ w)).map stripWs = (cutAt ',' s).map stripWs := by
  obtain ⟨init, l, a, b⟩ := cutAt_end ',' s w fun hc => absurd (h ',' hc) (by decide)
  rw [a, b, List.map_append, List.map_append, List.map_singleton, List.map_singleton, strip_append l w h]

/-- C109: of a line "return a, b, …" the names found are the expressions between the commas without surrounding white space, for every number of them, every
indentation and every white space after the line. -/
theorem C109_names (indent trail : List Char) (hi : ∀ c ∈ indent, isWs c = true) (ht : ∀ c ∈ trail, isWs c = true)
    (parts : List (List Char)) (hne : parts ≠ []) (hp : ∀ p ∈ parts, ',' ∉ p) :
    returnVarNames (indent ++ (['r', 'e', 't', 'u', 'r', 'n', ' '] ++ (joinC ',' parts ++ trail))) = parts.map stripWs := by
  have hs : stripWs (indent ++ (['r', 'e', 't', 'u', 'r', 'n', ' '] ++ (joinC ',' parts ++ trail))) =
      ['r', 'e', 't', 'u', 'r', 'n'] ++ rstripWs (' ' :: joinC ',' parts) := by
    rw [strip_prepend _ _ hi, ← List.append_assoc, strip_append _ _ ht, strip_eq]
    show rstripWs ('r' :: 'e' :: 't' :: 'u' :: 'r' :: 'n' :: ' ' :: joinC ',' parts) = _
    rw [rstrip_cons 'r' _ (by decide), rstrip_cons 'e' _ (by decide), rstrip_cons 't' _ (by decide), rstrip_cons 'u' _ (by decide),
      rstrip_cons 'r' _ (by decide), rstrip_cons 'n' _ (by decide)]
    rfl
  unfold returnVarNames
  rw [hs]
  obtain ⟨w, hw, hws⟩ := rstrip_split (joinC ',' parts)
  have hcut : (cutAt ',' (rstripWs (joinC ',' parts))).map stripWs = parts.map stripWs := by
    rw [← cut_strip _ w hws, ← hw, cutAt_join ',' parts hne hp]
  by_cases h0 : rstripWs (joinC ',' parts) = []
  · have h1 : rstripWs (' ' :: joinC ',' parts) = [] := by
      have : ' ' :: joinC ',' parts = [] ++ (' ' :: w) := by rw [hw, h0]; rfl
      rw [this, rstrip_append]
      · rfl
      · intro c hc
        rcases List.mem_cons.1 hc with hc | hc
        · rw [hc]; rfl
        · exact hws c hc
    rw [h1, ← hcut, h0]
    rfl
  · rw [rstrip_space ' ' _ h0, cutAt_append ' ' _ _ (by decide), List.tail_cons, joinC_cut, hcut]

example : returnVarNames "        return a, b,c \n".toList = ["a".toList, "b".toList, "c".toList] := by decide +kernel

/-- If the brackets of the returned tuple are closed on a line of their own, there is one name, without characters; inside calls the commas separate names too. -/
theorem C109_names_fails : returnVarNames "            b)\n".toList = [[]] ∧
    returnVarNames "    return f(a, b), c\n".toList = ["f(a".toList, "b)".toList, "c".toList] := by decide +kernel

/-! ## The hook -/

theorem hookItems_ok (names : List (List Char)) (l : List RItem) (i : ℕ) (h : i + l.length ≤ names.length) :
    ∃ fs, hookItems names i l = .ok fs ∧
      fs.count .object = l.countP (fun x => match x with | .mat _ _ => true | .vec _ => true | _ => false) ∧
      fs.countP (fun f => match f with | .mesh _ _ => true | _ => false) =
        l.countP (fun x => match x with | .arr s _ => s.length == 2 | _ => false) ∧
      fs.count .line = l.countP (fun x => match x with | .arr s _ => s.length == 1 | _ => false) := by
  induction l generalizing i with
  | nil => exact ⟨[], rfl, rfl, rfl, rfl⟩
  | cons x xs ih =>
    rw [List.length_cons] at h
    obtain ⟨fs, a, b, c, d⟩ := ih (i + 1) (by omega)
    cases x with
    | mat r k => exact ⟨.object :: fs, by simp only [hookItems, hookItem, a]; rfl, by simp [b], by simp [c], by simp [d]⟩
    | vec n => exact ⟨.object :: fs, by simp only [hookItems, hookItem, a]; rfl, by simp [b], by simp [c], by simp [d]⟩
    | other => exact ⟨fs, by simp only [hookItems, hookItem, a]; rfl, by simp [b], by simp [c], by simp [d]⟩
    | arr s data =>
      by_cases h1 : s.length = 1
      · exact ⟨.line :: fs, by simp only [hookItems, hookItem, h1, if_true, a]; rfl, by simp [b], by simp [c, h1], by simp [d, h1]⟩
      · by_cases h2 : s.length = 2
        · have hn : names[i]? = some names[i] := List.getElem?_eq_getElem (by omega)
          exact ⟨.mesh names[i] (decide (1000 < data.sum)) :: fs, by
            simp only [hookItems, hookItem, h2, hn, a]
            rfl, by simp [b], by simp [c, h2], by simp [d, h2]⟩
        · exact ⟨.blank :: fs, by
            simp only [hookItems, hookItem, if_neg h1, if_neg h2, a]
            rfl, by simp [b], by simp [c, h2], by simp [d, h1]⟩

/-- C109, as far as it holds: the hooked function returns what the function returns and the counter goes up by one, if the condition says no, or if the function
returns a tuple of as many things as its last line names (or fewer). Every matrix and every vector of the tuple is then drawn once by its own method, every
one-dimensional array is drawn as one line and every two-dimensional array as one mesh. -/
theorem C109_hook_partial (line : List Char) (condition : ℕ → Bool) (calls : ℕ) :
    (∀ v, condition calls = false → hookCall (.ok line) condition calls (.ok v) = (calls + 1, .ok (v, []))) ∧
      ∀ l, condition calls = true → l.length ≤ (returnVarNames line).length →
        ∃ fs, hookCall (.ok line) condition calls (.ok (.tup l)) = (calls + 1, .ok (.tup l, fs)) ∧
          fs.count .object = l.countP (fun x => match x with | .mat _ _ => true | .vec _ => true | _ => false) ∧
          fs.countP (fun f => match f with | .mesh _ _ => true | _ => false) =
            l.countP (fun x => match x with | .arr s _ => s.length == 2 | _ => false) ∧
          fs.count .line = l.countP (fun x => match x with | .arr s _ => s.length == 1 | _ => false) := by
  constructor
  · intro v hc
    simp only [hookCall, hc]
    rfl
  · intro l hc hl
    obtain ⟨fs, a, b, c, d⟩ := hookItems_ok (returnVarNames line) l 0 (by omega)
    refine ⟨fs, ?_, b, c, d⟩
    simp only [hookCall, hc, if_true, hookDraw, RetVal.iter, a]
    rfl

/-- C109: the title of a mesh is the name at the place of the array in the returned tuple, and its colours are logarithmic exactly if its sum is above 1000. -/
theorem C109_hook_title (names : List (List Char)) (pre post : List RItem) (n m : ℕ) (data : List ℚ) (i : ℕ) (fs : List HFig)
    (h : hookItems names i (pre ++ .arr [n, m] data :: post) = .ok fs) :
    ∃ t, names[i + pre.length]? = some t ∧ .mesh t (decide (1000 < data.sum)) ∈ fs := by
  induction pre generalizing i fs with
  | nil =>
    simp only [List.nil_append, hookItems, hookItem, List.length_cons, List.length_nil] at h
    cases hn : names[i]? with
    | none => simp [hn] at h
    | some t =>
      simp only [hn] at h
      cases hr : hookItems names (i + 1) post with
      | error e => simp [hr] at h
      | ok gs =>
        simp only [hr] at h
        refine ⟨t, by simp, ?_⟩
        have h := Except.ok.inj h
        rw [← h]
        simp
  | cons x xs ih =>
    rw [List.cons_append] at h
    simp only [hookItems] at h
    cases hx : hookItem names i x with
    | error e => simp [hx] at h
    | ok as =>
      simp only [hx] at h
      cases hr : hookItems names (i + 1) (xs ++ .arr [n, m] data :: post) with
      | error e => simp [hr] at h
      | ok gs =>
        simp only [hr] at h
        have h := Except.ok.inj h
        obtain ⟨t, ht, hm⟩ := ih (i + 1) gs hr
        refine ⟨t, ?_, ?_⟩
        · rw [List.length_cons, show i + (xs.length + 1) = i + 1 + xs.length by omega]; exact ht
        · rw [← h]; exact List.mem_append_right _ hm

example : hookCall (.ok "    return a, m, w\n".toList) (fun _ => true) 4 (.ok (.tup [.arr [1, 2] [500, 600], .mat 3 3, .arr [2, 1] [5, 6]])) =
    (5, .ok (.tup [.arr [1, 2] [500, 600], .mat 3 3, .arr [2, 1] [5, 6]], [.mesh "a".toList true, .object, .mesh "w".toList false])) := by
  decide +kernel

/-- The hook is not transparent: a function that returns a number (or nothing) raises TypeError under the hook; a function with the brackets of its return closed
on a line of their own raises IndexError; a returned generator is used up. A single matrix is not drawn as a matrix, but each of its rows as a line. -/
theorem C109_hook_fails (condition : ℕ → Bool) (h : condition 0 = true) :
    hookCall (.ok "    return x\n".toList) condition 0 (.ok (.one .other)) = (0, .error .typeError) ∧
      hookCall (.ok "            b)\n".toList) condition 0 (.ok (.tup [.mat 2 2, .arr [1, 1] [1]])) = (0, .error .indexError) ∧
      hookCall (.ok "    return x\n".toList) condition 0 (.ok (.gen [.mat 2 2])) = (1, .ok (.gen [], [.object])) ∧
      hookCall (.ok "    return m\n".toList) condition 0 (.ok (.one (.mat 2 5))) = (1, .ok (.one (.mat 2 5), [.line, .line])) := by
  refine ⟨?_, ?_, ?_, ?_⟩ <;> · simp only [hookCall, h, if_true]; decide +kernel

/-- C109, as far as it holds: if all calls succeed, the calls are numbered from 0 on, and the condition decides for call `k` with the number `k`. -/
theorem C109_calls_partial (line : List Char) (condition : ℕ → Bool) (l : List (List RItem)) (start : ℕ)
    (h : ∀ t ∈ l, t.length ≤ (returnVarNames line).length) :
    (hookRun (.ok line) condition start (l.map fun t => .ok (.tup t))).1 = start + l.length ∧
      ∀ (k : ℕ) (hk : k < l.length), ∃ fs, (hookRun (.ok line) condition start (l.map fun t => .ok (.tup t))).2[k]? =
        some (.ok (.tup l[k], fs)) ∧ (condition (start + k) = false → fs = []) ∧
        (condition (start + k) = true → hookItems (returnVarNames line) 0 l[k] = .ok fs) := by
  induction l generalizing start with
  | nil => exact ⟨rfl, fun k hk => absurd hk (by simp)⟩
  | cons t ts ih =>
    obtain ⟨a, b⟩ := ih (start + 1) fun s hs => h s (List.mem_cons_of_mem _ hs)
    obtain ⟨fs, hf⟩ : ∃ fs, hookCall (.ok line) condition start (.ok (.tup t)) = (start + 1, .ok (.tup t, fs)) ∧
        (condition start = false → fs = []) ∧ (condition start = true → hookItems (returnVarNames line) 0 t = .ok fs) := by
      cases hc : condition start with
      | false => exact ⟨[], by simp only [hookCall, hc]; rfl, (fun _ => rfl), (fun h => by cases h)⟩
      | true =>
        obtain ⟨fs, e, _⟩ := hookItems_ok (returnVarNames line) t 0 (by have := h t (by simp); omega)
        exact ⟨fs, by simp only [hookCall, hc, if_true, hookDraw, RetVal.iter, e]; rfl, (fun h => by cases h), fun _ => e⟩
    simp only [List.map_cons, hookRun, hf.1, List.length_cons]
    refine ⟨by rw [a]; omega, fun k hk => ?_⟩
    cases k with
    | zero => exact ⟨fs, rfl, hf.2⟩
    | succ k =>
      obtain ⟨gs, g⟩ := b k (by omega)
      rw [show start + (k + 1) = start + 1 + k by omega]
      exact ⟨gs, g⟩

/-- A call that raises is not counted: with a condition that asks for the second call the third one is drawn. -/
theorem C109_calls_fails : hookRun (.ok "    return v\n".toList) (fun i => i == 1) 0 [.error .valueError, .ok (.tup [.vec 3]), .ok (.tup [.vec 4])] =
    (2, [.error .valueError, .ok (.tup [.vec 3], []), .ok (.tup [.vec 4], [.object])]) := by decide +kernel

end Ompy
