import Verif.Action

/-!
# C37: recorded actions replay as the direct calls
-/

namespace Ompy

variable {V R σ : Type}

/-- Specification: calling the methods directly, one after the other, none of them raising. -/
inductive Direct (exec : Exec V R σ) : List (Call V) → σ → List R → σ → Prop
  | nil (s : σ) : Direct exec [] s [] s
  | cons (c : Call V) (cs : List (Call V)) (s s' s'' : σ) (r : R) (rs : List R)
      (h : exec c.name c.args c.kwargs s = (s', .ok r)) (t : Direct exec cs s' rs s'') :
      Direct exec (c :: cs) s (r :: rs) s''

theorem actLoop_ok (exec : Exec V R σ) (cs : List (Call V)) :
    ∀ (acc : List R) (s s' : σ) (rs : List R),
      actLoop exec cs acc s = (s', .ok rs) ↔ ∃ t, rs = acc ++ t ∧ Direct exec cs s t s' := by
  induction cs with
  | nil =>
    intro acc s s' rs
    constructor
    · intro h
      simp only [actLoop, Prod.mk.injEq, Except.ok.injEq] at h
      obtain ⟨rfl, rfl⟩ := h
      exact ⟨[], by simp, .nil s⟩
    · rintro ⟨t, rfl, ht⟩
      cases ht
      simp [actLoop]
  | cons c cs ih =>
    intro acc s s' rs
    unfold actLoop
    rcases hE : exec c.name c.args c.kwargs s with ⟨s1, e | r⟩
    · simp only [Prod.mk.injEq, reduceCtorEq, and_false, false_iff]
      rintro ⟨t, _, ht⟩
      cases ht with
      | cons _ _ _ s2 _ r rs h t =>
        rw [hE] at h
        simp at h
    · simp only
      rw [ih]
      constructor
      · rintro ⟨t, rfl, ht⟩
        exact ⟨r :: t, by simp, .cons c cs s s1 s' r t hE ht⟩
      · rintro ⟨t, rfl, ht⟩
        cases ht with
        | cons _ _ _ s2 _ r' rs' h t =>
          rw [hE] at h
          simp only [Prod.mk.injEq, Except.ok.injEq] at h
          obtain ⟨rfl, rfl⟩ := h
          exact ⟨rs', by simp, t⟩

/-- **C37.** `act_on` returns results `rs` and leaves the target in state `s'` exactly if calling the
recorded methods directly, in order, does. -/
theorem C37_replay (exec : Exec V R σ) (a : Action V) (s s' : σ) (rs : List R) :
    a.actOn exec s = (s', .ok rs) ↔ Direct exec a.calls s rs s' := by
  unfold Action.actOn
  rw [actLoop_ok]
  simp

/-- **C37.** `act_on` raises exactly if some call does: the calls before it were carried out, those after
it were not. -/
theorem C37_replay_error (exec : Exec V R σ) (a : Action V) (s s' : σ) (e : Err) :
    a.actOn exec s = (s', .error e) ↔
      ∃ pre c post s1 rs, a.calls = pre ++ c :: post ∧ Direct exec pre s rs s1 ∧
        exec c.name c.args c.kwargs s1 = (s', .error e) := by
  unfold Action.actOn
  generalize a.calls = cs
  have gen : ∀ (acc : List R) (s : σ), actLoop exec cs acc s = (s', .error e) ↔
      ∃ pre c post s1 rs, cs = pre ++ c :: post ∧ Direct exec pre s rs s1 ∧
        exec c.name c.args c.kwargs s1 = (s', .error e) := by
    induction cs with
    | nil => intro acc s; simp [actLoop]
    | cons c cs ih =>
      intro acc s
      unfold actLoop
      rcases hE : exec c.name c.args c.kwargs s with ⟨s1, e1 | r⟩
      · simp only [Prod.mk.injEq, Except.error.injEq]
        constructor
        · rintro ⟨rfl, rfl⟩
          exact ⟨[], c, cs, s, [], rfl, .nil s, hE⟩
        · rintro ⟨pre, c', post, s2, rs, heq, hd, hx⟩
          cases pre with
          | nil =>
            simp only [List.nil_append, List.cons.injEq] at heq
            obtain ⟨rfl, rfl⟩ := heq
            cases hd
            rw [hE] at hx
            simpa using hx
          | cons p pre =>
            simp only [List.cons_append, List.cons.injEq] at heq
            obtain ⟨rfl, rfl⟩ := heq
            cases hd with
            | cons _ _ _ s3 _ r rs h t =>
              rw [hE] at h
              simp at h
      · simp only
        rw [ih]
        constructor
        · rintro ⟨pre, c', post, s2, rs, rfl, hd, hx⟩
          exact ⟨c :: pre, c', post, s2, r :: rs, rfl, .cons c pre s s1 s2 r rs hE hd, hx⟩
        · rintro ⟨pre, c', post, s2, rs, heq, hd, hx⟩
          cases pre with
          | nil =>
            simp only [List.nil_append, List.cons.injEq] at heq
            obtain ⟨rfl, rfl⟩ := heq
            cases hd
            rw [hE] at hx
            simp at hx
          | cons p pre =>
            simp only [List.cons_append, List.cons.injEq] at heq
            obtain ⟨rfl, rfl⟩ := heq
            cases hd with
            | cons _ _ _ s3 _ r' rs' h t =>
              rw [hE] at h
              simp only [Prod.mk.injEq, Except.ok.injEq] at h
              obtain ⟨rfl, rfl⟩ := h
              exact ⟨pre, c', post, s2, rs', rfl, t, hx⟩
  exact gen [] s

/-! ### Histories of recording, currying and replaying -/

/-- What a program can do with an action. -/
inductive ActionOp (V : Type)
  | record (c : Call V)
  | curry (kw : Dict V)
  | act (target : ℕ)

/-- State of the program: the action, the targets, and the results of each replay. -/
structure Run (V R σ : Type) where
  action : Action V
  targets : ℕ → σ
  log : List (Except Err (List R))

/-- One step; recording under a name that is not patched leaves the action as it is. -/
def Run.step (exec : Exec V R σ) (w : Run V R σ) : ActionOp V → Run V R σ
  | .record c => match w.action.record c with
    | .ok a => { w with action := a }
    | .error _ => w
  | .curry kw => { w with action := w.action.curry kw }
  | .act t => { w with
      targets := Function.update w.targets t (w.action.actOn exec (w.targets t)).1,
      log := w.log ++ [(w.action.actOn exec (w.targets t)).2] }

/-- Specification: all keyword arguments curried in a history, in order. -/
def curried : List (ActionOp V) → Dict V
  | [] => []
  | .curry kw :: t => kw ++ curried t
  | _ :: t => curried t

/-- Specification: the calls an action holds after a history: each call recorded under a patched name,
in order, its kwargs updated with what was curried after it was recorded. -/
def expected (names : List String) : List (ActionOp V) → List (Call V)
  | [] => []
  | .record c :: t =>
    if c.name ∈ names then { c with kwargs := Dict.update c.kwargs (curried t) } :: expected names t
    else expected names t
  | _ :: t => expected names t

theorem update_append (d k1 k2 : Dict V) :
    Dict.update (Dict.update d k1) k2 = Dict.update d (k1 ++ k2) := by
  simp [Dict.update, List.foldl_append]

theorem update_nil (d : Dict V) : Dict.update d [] = d := rfl

/-- **C37.** After any history of recording, currying and replaying on any targets, the action holds
exactly the calls recorded, in order, each with the keyword arguments curried later; replays leave no
trace in the action. -/
theorem C37_history (exec : Exec V R σ) (ops : List (ActionOp V)) (w : Run V R σ)
    (hw : w.action.calls = []) :
    (ops.foldl (Run.step exec) w).action.names = w.action.names ∧
    (ops.foldl (Run.step exec) w).action.calls = expected w.action.names ops := by
  suffices gen : ∀ (ops : List (ActionOp V)) (w : Run V R σ),
      (ops.foldl (Run.step exec) w).action.names = w.action.names ∧
      (ops.foldl (Run.step exec) w).action.calls =
        (w.action.calls.map fun c => { c with kwargs := Dict.update c.kwargs (curried ops) })
          ++ expected w.action.names ops by
    obtain ⟨g1, g2⟩ := gen ops w
    exact ⟨g1, by rw [g2, hw]; rfl⟩
  intro ops
  induction ops with
  | nil => intro w; simp [curried, expected, update_nil]
  | cons o ops ih =>
    intro w
    rw [List.foldl_cons]
    obtain ⟨g1, g2⟩ := ih (w.step exec o)
    cases o with
    | record c =>
      by_cases hc : c.name ∈ w.action.names
      · have e : w.step exec (.record c) =
            { w with action := { w.action with calls := w.action.calls ++ [c] } } := by
          simp [Run.step, Action.record, hc]
        rw [e] at g1 g2 ⊢
        refine ⟨g1, ?_⟩
        rw [g2]
        simp [expected, hc, curried]
      · have e : w.step exec (.record c) = w := by simp [Run.step, Action.record, hc]
        rw [e] at g1 g2 ⊢
        refine ⟨g1, ?_⟩
        rw [g2]
        simp [expected, hc, curried]
    | curry kw =>
      refine ⟨g1, ?_⟩
      rw [g2]
      simp [Run.step, Action.curry, expected, curried, update_append]
    | act t =>
      refine ⟨g1, ?_⟩
      rw [g2]
      simp [Run.step, expected, curried]

theorem get_set (d : Dict V) (k k' : String) (v : V) :
    Dict.get? (Dict.set d k v) k' = if k = k' then some v else Dict.get? d k' := by
  induction d with
  | nil => simp [Dict.set, Dict.get?]
  | cons p t ih =>
    obtain ⟨k0, v0⟩ := p
    unfold Dict.set
    by_cases h0 : k0 = k
    · subst h0
      by_cases h1 : k0 = k' <;> simp [Dict.get?, h1]
    · rw [if_neg h0]
      unfold Dict.get?
      rw [ih]
      by_cases h1 : k0 = k'
      · subst h1
        simp [Ne.symm h0]
      · simp [h1]

/-- **C37.** What `curry` does to a recorded call: a curried keyword gets the (last) curried value,
every other keyword keeps its value; name and positional arguments stay. -/
theorem C37_curry_call (a : Action V) (kw : Dict V) (i : ℕ) (c : Call V) (h : a.calls[i]? = some c) :
    ∃ c', (a.curry kw).calls[i]? = some c' ∧ c'.name = c.name ∧ c'.args = c.args ∧
      (a.curry kw).calls.length = a.calls.length ∧
      ∀ k, Dict.get? c'.kwargs k =
        match Dict.get? kw.reverse k with
        | some v => some v
        | none => Dict.get? c.kwargs k := by
  refine ⟨{ c with kwargs := Dict.update c.kwargs kw }, by simp [Action.curry, h], rfl, rfl,
    by simp [Action.curry], ?_⟩
  intro k
  simp only
  generalize c.kwargs = d
  have key : ∀ (kw : Dict V) (d : Dict V), Dict.get? (Dict.update d kw) k =
      match Dict.get? kw.reverse k with
      | some v => some v
      | none => Dict.get? d k := by
    intro kw
    induction kw using List.reverseRecOn with
    | nil => intro d; simp [Dict.update, Dict.get?]
    | append_singleton t p ih =>
      intro d
      rw [← update_append]
      have e1 : Dict.update (Dict.update d t) [p] = Dict.set (Dict.update d t) p.1 p.2 := rfl
      rw [e1, get_set, ih d]
      simp only [List.reverse_append, List.reverse_cons, List.reverse_nil, List.nil_append,
        List.singleton_append]
      obtain ⟨k0, v0⟩ := p
      by_cases hk : k0 = k <;> simp [Dict.get?, hk]
  exact key kw d

/-- **C37.** `map` over distinct targets: the results, in order, are those of `act_on` for each
target from its state at the start; the other objects are left alone. -/
theorem C37_map (exec : Exec V R σ) (a : Action V) (ts : List ℕ) (hnd : ts.Nodup) (st : ℕ → σ)
    (hok : ∀ t ∈ ts, ∃ r, (a.actOn exec (st t)).2 = .ok r) :
    ∃ rs, (a.map exec ts st).2 = .ok rs ∧ rs.length = ts.length ∧
      (∀ i (h : i < ts.length) (h' : i < rs.length),
        (a.actOn exec (st ts[i])).2 = .ok rs[i]) ∧
      (∀ t, (a.map exec ts st).1 t = if t ∈ ts then (a.actOn exec (st t)).1 else st t) := by
  suffices gen : ∀ (ts : List ℕ) (acc : List (List R)) (st : ℕ → σ), ts.Nodup →
      (∀ t ∈ ts, ∃ r, (a.actOn exec (st t)).2 = .ok r) →
      ∃ rs, (mapLoop exec a ts acc st).2 = .ok (acc ++ rs) ∧ rs.length = ts.length ∧
        (∀ i (h : i < ts.length) (h' : i < rs.length),
          (a.actOn exec (st ts[i])).2 = .ok rs[i]) ∧
        (∀ t, (mapLoop exec a ts acc st).1 t =
          if t ∈ ts then (a.actOn exec (st t)).1 else st t) by
    obtain ⟨rs, h1, h2, h3, h4⟩ := gen ts [] st hnd hok
    exact ⟨rs, by simpa [Action.map] using h1, h2, h3, h4⟩
  intro ts
  induction ts with
  | nil => intro acc st _ _; exact ⟨[], by simp [mapLoop], rfl, by simp, by simp [mapLoop]⟩
  | cons t ts ih =>
    intro acc st hnd hok
    obtain ⟨hnt, hnd'⟩ := List.nodup_cons.1 hnd
    obtain ⟨r, hr⟩ := hok t List.mem_cons_self
    have hsplit : a.actOn exec (st t) = ((a.actOn exec (st t)).1, .ok r) := by
      rw [← hr]
    have hst : ∀ u ∈ ts, Function.update st t (a.actOn exec (st t)).1 u = st u := by
      intro u hu
      rw [Function.update_of_ne]
      rintro rfl
      exact hnt hu
    obtain ⟨rs, g1, g2, g3, g4⟩ := ih (acc ++ [r]) (Function.update st t (a.actOn exec (st t)).1)
      hnd' (fun u hu => by rw [hst u hu]; exact hok u (List.mem_cons_of_mem _ hu))
    have e : mapLoop exec a (t :: ts) acc st =
        mapLoop exec a ts (acc ++ [r]) (Function.update st t (a.actOn exec (st t)).1) := by
      conv_lhs => unfold mapLoop
      rw [hsplit]
    rw [e]
    refine ⟨r :: rs, by rw [g1]; simp, by simp [g2], ?_, ?_⟩
    · intro i h h'
      cases i with
      | zero => exact hr
      | succ i =>
        have hi : i < ts.length := by simpa using h
        have := g3 i hi (by simpa using h')
        rw [hst _ (List.getElem_mem hi)] at this
        exact this
    · intro u
      rw [g4 u]
      by_cases hu : u ∈ ts
      · rw [if_pos hu, hst u hu, if_pos (List.mem_cons_of_mem _ hu)]
      · rw [if_neg hu]
        by_cases hut : u = t
        · subst hut
          simp
        · rw [if_neg (by simp [hut, hu]), Function.update_of_ne hut]

/-- **C37.** Only 'Matrix' and 'Vector' (in any case) are accepted as base. -/
theorem C37_base (own : String → List String) (base : String) :
    ((∃ a : Action V, Action.new own base = .ok a ∧ a.calls = []) ↔
      base.toLower = "matrix" ∨ base.toLower = "vector") ∧
    ((Action.new own base : Except Err (Action V)) = .error .valueError ↔
      ¬(base.toLower = "matrix" ∨ base.toLower = "vector")) := by
  unfold Action.new
  by_cases h1 : base.toLower = "matrix"
  · simp [h1]
  · by_cases h2 : base.toLower = "vector"
    · simp [h2]
    · simp [h1, h2]

/-- A counter with methods `add` (keyword `n`) and `boom`. -/
def demoExec : Exec ℕ ℕ ℕ := fun name _ kw s =>
  if name = "add" then (s + (Dict.get? kw "n").getD 1, .ok s) else (s, .error .valueError)

example : (Action.actOn demoExec
    ((Action.mk ["add"] [⟨"add", [], []⟩, ⟨"add", [], [("n", 5)]⟩]).curry [("n", 7)]) 0)
    = (14, .ok [0, 7]) := by rfl

example : (Action.actOn demoExec
    (Action.mk ["add"] [⟨"add", [], []⟩, ⟨"add", [], [("n", 5)]⟩, ⟨"boom", [], []⟩]) 0).1 = 6 := by
  rfl

end Ompy
