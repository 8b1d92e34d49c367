import Verif.IntrospectionProps

/-!
# C109, more: levels of messages, and results that are one array
-/

namespace Ompy

/-- **C109.** A logger with a level of its own never writes a message below it, whatever levels and handlers its parents have. -/
theorem C109_own_level (r : LogReg) (m : List Char) (L : ℕ) (hs : List ℕ) (h : r.lookup m = some (.logger (some L) hs)) (l : ℕ) (hl : l < L) :
    written r m l = 0 := by
  have e : effectiveLevel (logChain r m) = L := by
    simp [effectiveLevel, logChain, h]
  show (if effectiveLevel (logChain r m) ≤ l then _ else 0) = 0
  rw [e, if_neg (by omega)]

example : written (getLoggerOmpy (getLoggerOmpy [] "ompy".toList 10) "matrix".toList 30) "ompy.matrix".toList 20 = 0 ∧
    written (getLoggerOmpy (getLoggerOmpy [] "ompy".toList 10) "matrix".toList 30) "ompy.vector".toList 20 = 1 := by decide +kernel

/-- **C109.** If no logger has a level, messages below WARNING are not written, whatever handlers there are; the others are written once by each handler on the way that accepts them. -/
theorem C109_default_level (r : LogReg) (h : ∀ n l hs, r.lookup n = some (.logger l hs) → l = none) (m : List Char) (l : ℕ) :
    written r m l = if 30 ≤ l then (((m :: parentNames m).flatMap fun n => match r.lookup n with
      | some (.logger _ hs) => hs
      | _ => []).filter (· ≤ l)).length else 0 := by
  have e : ∀ names : List (List Char), (names.filterMap fun n =>
      match r.lookup n with
      | some (.logger l hs) => some (l, hs)
      | _ => none).filterMap Prod.fst = [] ∧ (names.filterMap fun n =>
      match r.lookup n with
      | some (.logger l hs) => some (l, hs)
      | _ => none).flatMap Prod.snd = names.flatMap fun n => match r.lookup n with
      | some (.logger _ hs) => hs
      | _ => [] := by
    intro names
    induction names with
    | nil => exact ⟨rfl, rfl⟩
    | cons n names ih =>
      cases hn : r.lookup n with
      | none => simp only [List.filterMap_cons, hn, List.flatMap_cons, List.nil_append]; exact ih
      | some en =>
        cases en with
        | placeholder => simp only [List.filterMap_cons, hn, List.flatMap_cons, List.nil_append]; exact ih
        | logger lv hs =>
          have hl := h n lv hs hn
          subst hl
          simp only [List.filterMap_cons, hn, List.flatMap_cons]
          exact ⟨ih.1, by rw [ih.2]⟩
  obtain ⟨a, b⟩ := e (m :: parentNames m)
  have a' : (logChain r m).filterMap Prod.fst = [] := a
  have b' : (logChain r m).flatMap Prod.snd = _ := b
  have ef : effectiveLevel (logChain r m) = 30 := by rw [effectiveLevel, a']; rfl
  show (if effectiveLevel (logChain r m) ≤ l then (((logChain r m).flatMap Prod.snd).filter (· ≤ l)).length else 0) = _
  rw [ef, b']

example : written [("ompy".toList, .logger none [0, 40]), ("ompy.matrix".toList, .logger none [10])] "ompy.matrix".toList 30 = 2 ∧
    written [("ompy".toList, .logger none [0, 40]), ("ompy.matrix".toList, .logger none [10])] "ompy.matrix".toList 20 = 0 := by decide +kernel

/-- **C109 (disagreement).** What is drawn of a single result: nothing of a vector or of a one-dimensional array, a line for each row of a matrix or of a two-dimensional array; an array without
dimensions is a TypeError. -/
theorem C109_single_fails (line : List Char) (n m : ℕ) (data : List ℚ) (calls : ℕ) (condition : ℕ → Bool) (h : condition calls = true) :
    hookCall (.ok line) condition calls (.ok (.one (.vec n))) = (calls + 1, .ok (.one (.vec n), [])) ∧
      hookCall (.ok line) condition calls (.ok (.one (.arr [n] data))) = (calls + 1, .ok (.one (.arr [n] data), [])) ∧
      hookCall (.ok line) condition calls (.ok (.one (.mat n m))) = (calls + 1, .ok (.one (.mat n m), List.replicate n .line)) ∧
      hookCall (.ok line) condition calls (.ok (.one (.arr [n, m] data))) = (calls + 1, .ok (.one (.arr [n, m] data), List.replicate n .line)) ∧
      hookCall (.ok line) condition calls (.ok (.one (.arr [] data))) = (calls, .error .typeError) := by
  have ho : ∀ (k i : ℕ), hookItems (returnVarNames line) i (List.replicate k .other) = .ok [] := by
    intro k
    induction k with
    | zero => intro i; rfl
    | succ k ih => intro i; simp only [List.replicate_succ, hookItems, hookItem, ih]; rfl
  have hl : ∀ (l : List RItem) (i : ℕ), (∀ x ∈ l, ∃ d, x = .arr [m] d) → hookItems (returnVarNames line) i l = .ok (List.replicate l.length .line) := by
    intro l
    induction l with
    | nil => intro i _; rfl
    | cons x xs ih =>
      intro i hx
      obtain ⟨d, rfl⟩ := hx x (by simp)
      simp only [hookItems, hookItem, List.length_cons, List.length_nil, List.replicate_succ, ih (i + 1) fun y hy => hx y (List.mem_cons_of_mem _ hy)]
      rfl
  refine ⟨?_, ?_, ?_, ?_, ?_⟩
  · simp only [hookCall, h, if_true, hookDraw, RetVal.iter, ho]; rfl
  · simp only [hookCall, h, if_true, hookDraw, RetVal.iter, ho]; rfl
  · have e := hl (List.replicate n (.arr [m] [])) 0 fun x hx => ⟨[], (List.mem_replicate.1 hx).2⟩
    rw [List.length_replicate] at e
    simp only [hookCall, h, if_true, hookDraw, RetVal.iter, e]; rfl
  · have e := hl ((List.range n).map fun k : ℕ => .arr [m] ((data.drop (k * [m].prod)).take [m].prod)) 0 fun x hx => by
      obtain ⟨k, _, hk⟩ := List.mem_map.1 hx
      exact ⟨_, hk.symm⟩
    rw [List.length_map, List.length_range] at e
    simp only [hookCall, h, if_true, hookDraw, RetVal.iter, e]; rfl
  · simp only [hookCall, h, if_true, hookDraw, RetVal.iter]

/-- **C109.** The parts of an array that the loop visits are the whole array: put one after the other they are its data. -/
theorem C109_slabs (n m : ℕ) (t : List ℕ) (data : List ℚ) (h : data.length = (n :: m :: t).prod) :
    ∃ parts : List (List ℚ), (RetVal.one (.arr (n :: m :: t) data)).iter = .ok (parts.map fun d => .arr (m :: t) d) ∧
      parts.length = n ∧ parts.flatten = data ∧ ∀ d ∈ parts, d.length = (m :: t).prod := by
  refine ⟨(List.range n).map fun k : ℕ => (data.drop (k * (m :: t).prod)).take (m :: t).prod, ?_, by simp, ?_, ?_⟩
  · simp only [RetVal.iter, List.map_map]; rfl
  · rw [List.prod_cons] at h
    generalize (m :: t).prod = p at h ⊢
    induction n generalizing data with
    | zero => simp at h; simp [h]
    | succ n ih =>
      rw [List.range_succ_eq_map, List.map_cons, List.flatten_cons, List.map_map]
      have := ih (data.drop p) (by rw [List.length_drop, h]; rw [Nat.succ_mul]; omega)
      have e : ((fun k : ℕ => (data.drop (k * p)).take p) ∘ Nat.succ) = fun k : ℕ => ((data.drop p).drop (k * p)).take p := by
        funext k
        simp only [Function.comp, List.drop_drop]
        rw [show p + k * p = k.succ * p by rw [Nat.succ_mul]; omega]
      rw [e, this, Nat.zero_mul, List.drop_zero, List.take_append_drop]
  · intro d hd
    obtain ⟨k, hk, rfl⟩ := List.mem_map.1 hd
    rw [List.mem_range] at hk
    rw [List.prod_cons] at h
    rw [List.length_take, List.length_drop, h]
    have : (k + 1) * (m :: t).prod ≤ n * (m :: t).prod := Nat.mul_le_mul_right _ hk
    rw [Nat.succ_mul] at this
    omega

example : (RetVal.one (.arr [2, 1, 2] [1, 2, 3, 4])).iter = .ok [.arr [1, 2] [1, 2], .arr [1, 2] [3, 4]] := by decide +kernel

end Ompy
