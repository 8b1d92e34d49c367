import Verif.TornExtract
import Verif.TornFilesProps
import Verif.ExtractLoopProps

/-!
# C139: level density and strength function of a member belong together
-/

namespace Ompy

variable {V C S : Type}

/-! ## Saving -/

theorem pieces_act (k : XKey) (l : List C) (x : List C) (d : XDisk C) (hd : d k = some x) :
    (l.map (XEv.piece k)).foldl XEv.act d = Function.update d k (some (x ++ l)) := by
  induction l generalizing x d with
  | nil => simp [← hd]
  | cons y ys ih =>
    rw [List.map_cons, List.foldl_cons, ih (x ++ [y]) _ (by simp [XEv.act, hd])]
    simp [XEv.act]

/-- The disk after the first `n` operations of saving. -/
theorem save_take (fmt : FileFormat V C) (k : XKey) (v : V) (d : XDisk C) (n : ℕ) :
    ((saveEvents fmt k v).take n).foldl XEv.act d =
      if n = 0 then d else Function.update d k (some ((fmt.enc v).take (n - 1))) := by
  cases n with
  | zero => simp
  | succ n =>
    unfold saveEvents
    rw [List.take_succ_cons, List.foldl_cons, ← List.map_take, pieces_act k _ [] _ (by simp [XEv.act])]
    simp [XEv.act]

theorem save_all (fmt : FileFormat V C) (k : XKey) (v : V) (d : XDisk C) :
    (saveEvents fmt k v).foldl XEv.act d = Function.update d k (some (fmt.enc v)) := by
  have := save_take fmt k v d (saveEvents fmt k v).length
  rw [List.take_length] at this
  rw [this]
  simp [saveEvents]

theorem save_length (fmt : FileFormat V C) (k : XKey) (v : V) : (saveEvents fmt k v).length = (fmt.enc v).length + 1 := by
  simp [saveEvents]

/-! ## Files that belong together -/

/-- The strength function of a member, if there is a file, is from the same fit as the level density (`P`), which is complete. -/
def PairedAt (fmt : FileFormat V C) (P : V → V → Prop) (x y : Option (List C)) : Prop :=
  y = none ∨ ∃ a b l, P a b ∧ x = some (fmt.enc a) ∧ y = some l ∧ l <+: fmt.enc b

/-- The same for all members. -/
def Paired (fmt : FileFormat V C) (P : ℕ → V → V → Prop) (d : XDisk C) : Prop :=
  ∀ i, PairedAt fmt (P i) (d (.nld, i)) (d (.gsf, i))

theorem pair_take (fmt : FileFormat V C) (P : ℕ → V → V → Prop) (d : XDisk C) (hd : Paired fmt P d) (i : ℕ) (hi : d (.gsf, i) = none)
    (a b : V) (hP : P i a b) (n : ℕ) :
    Paired fmt P (((saveEvents fmt (.nld, i) a ++ saveEvents fmt (.gsf, i) b).take n).foldl XEv.act d) := by
  intro j
  rw [List.take_append, List.foldl_append, save_take, save_take, save_length]
  by_cases hj : j = i
  · subst hj
    by_cases h2 : n - ((fmt.enc a).length + 1) = 0
    · rw [if_pos h2]
      left
      split_ifs
      · exact hi
      · simpa using hi
    · rw [if_neg h2, if_neg (by omega)]
      right
      refine ⟨a, b, _, hP, ?_, by rw [Function.update_self], List.take_prefix _ _⟩
      rw [Function.update_of_ne (by simp), Function.update_self, List.take_of_length_le (by omega)]
  · have e : ∀ q : XKind, (if n - ((fmt.enc a).length + 1) = 0 then (if n = 0 then d else
        Function.update d (.nld, i) (some ((fmt.enc a).take (n - 1)))) else
        Function.update (if n = 0 then d else Function.update d (.nld, i) (some ((fmt.enc a).take (n - 1)))) (.gsf, i)
          (some ((fmt.enc b).take (n - ((fmt.enc a).length + 1) - 1)))) (q, j) = d (q, j) := by
      intro q
      split_ifs <;> simp [hj]
    rw [e, e]
    exact hd j

theorem bothThere_none {fmt : FileFormat V C} {P : ℕ → V → V → Prop} {d : XDisk C} (hd : Paired fmt P d) {i : ℕ}
    (h : bothThere d i = none) : d (.gsf, i) = none := by
  rcases hd i with h0 | ⟨a, b, l, _, h1, h2, _⟩
  · exact h0
  · unfold bothThere at h
    rw [h1, h2] at h
    simp at h

/-- Interrupting the loop anywhere leaves files that belong together. -/
theorem loop_paired {fmt : FileFormat V C} {P : ℕ → V → V → Prop} (fit : ℕ → S → Except Err ((V × V) × S))
    (hP : ∀ i s a b s', fit i s = .ok ((a, b), s') → P i a b) (is : List ℕ) (s : S) (d : XDisk C) (hd : Paired fmt P d) (n : ℕ) :
    Paired fmt P (((tornLoop fmt fit false is s d).1.take n).foldl XEv.act d) := by
  induction is generalizing s d n with
  | nil => simpa [tornLoop] using hd
  | cons i is ih =>
    unfold tornLoop
    simp only [Bool.false_eq_true, if_false]
    rcases hb : bothThere d i with _ | ⟨x, y⟩
    · simp only
      rcases hf : fit i s with e | ⟨⟨a, b⟩, s'⟩
      · simpa using hd
      · simp only
        rw [List.take_append, List.foldl_append]
        set ev := saveEvents fmt (.nld, i) a ++ saveEvents fmt (.gsf, i) b
        have full := pair_take fmt P d hd i (bothThere_none hd hb) a b (hP i s a b s' hf)
        by_cases hn : n ≤ ev.length
        · rw [Nat.sub_eq_zero_of_le hn]
          simpa using full n
        · rw [List.take_of_length_le (by omega)]
          refine ih s' _ ?_ _
          have := full ev.length
          rwa [List.take_length] at this
    · simp only
      split
      · exact ih s d hd n
      · simpa using hd

/-- What the loop returns. -/
theorem loop_result {fmt : FileFormat V C} {reload : V → V} (hfmt : fmt.Sound reload) {P : ℕ → V → V → Prop}
    (fit : ℕ → S → Except Err ((V × V) × S))
    (hP : ∀ i s a b s', fit i s = .ok ((a, b), s') → P i a b) (is : List ℕ) (s : S) (d : XDisk C) (hd : Paired fmt P d)
    (rs : List (V × V)) (h : (tornLoop fmt fit false is s d).2 = .ok rs) :
    List.Forall₂ (fun i r => ∃ a b, P i a b ∧ (r = (a, b) ∨ r = (reload a, reload b))) is rs := by
  induction is generalizing s d rs with
  | nil =>
    simp only [tornLoop, Except.ok.injEq] at h
    subst h
    exact List.Forall₂.nil
  | cons i is ih =>
    unfold tornLoop at h
    simp only [Bool.false_eq_true, if_false] at h
    rcases hb : bothThere d i with _ | ⟨x, y⟩
    · rw [hb] at h
      simp only at h
      rcases hf : fit i s with e | ⟨⟨a, b⟩, s'⟩
      · rw [hf] at h
        simp at h
      · rw [hf] at h
        simp only at h
        have full := pair_take fmt P d hd i (bothThere_none hd hb) a b (hP i s a b s' hf)
          (saveEvents fmt (.nld, i) a ++ saveEvents fmt (.gsf, i) b).length
        rw [List.take_length] at full
        rcases hr : (tornLoop fmt fit false is s' ((saveEvents fmt (.nld, i) a ++ saveEvents fmt (.gsf, i) b).foldl XEv.act d)).2 with e | rs'
        · rw [hr] at h
          simp [Except.map] at h
        · rw [hr] at h
          simp only [Except.map, Except.ok.injEq] at h
          subst h
          exact List.Forall₂.cons ⟨a, b, hP i s a b s' hf, Or.inl rfl⟩ (ih s' _ full rs' hr)
    · rw [hb] at h
      simp only at h
      rcases hx : fmt.dec x with _ | a'
      · rw [hx] at h
        simp at h
      rcases hy : fmt.dec y with _ | b'
      · rw [hx, hy] at h
        simp at h
      rw [hx, hy] at h
      simp only at h
      rcases hr : (tornLoop fmt fit false is s d).2 with e | rs'
      · rw [hr] at h
        simp [Except.map] at h
      · rw [hr] at h
        simp only [Except.map, Except.ok.injEq] at h
        subst h
        refine List.Forall₂.cons ?_ (ih s d hd rs' hr)
        have hxy : d (.nld, i) = some x ∧ d (.gsf, i) = some y := by
          unfold bothThere at hb
          split at hb
          · next u v h1 h2 =>
            simp only [Option.some.injEq, Prod.mk.injEq] at hb
            rw [h1, h2, hb.1, hb.2]
            exact ⟨rfl, rfl⟩
          · simp at hb
        rcases hd i with h0 | ⟨a, b, l, hp, h1, h2, h3⟩
        · rw [hxy.2] at h0
          simp at h0
        · rw [hxy.1] at h1
          rw [hxy.2] at h2
          simp only [Option.some.injEq] at h1 h2
          subst h1 h2
          have e1 : reload a = a' := by simpa [hfmt.full] using hx
          have e2 : y = fmt.enc b := by
            by_contra hne
            rw [hfmt.torn b y h3 hne] at hy
            simp at hy
          have e3 : reload b = b' := by
            rw [e2, hfmt.full] at hy
            simpa using hy
          exact ⟨a, b, hp, Or.inr (by rw [e1, e3])⟩

/-- The fit of member `i` in one of the calls gave this pair. -/
def FittedBy (runs : List (XRun V S)) (i : ℕ) (a b : V) : Prop := ∃ r ∈ runs, ∃ s s', r.fit i s = .ok ((a, b), s')

theorem runs_paired {fmt : FileFormat V C} {P : ℕ → V → V → Prop} (runs : List (XRun V S)) (hr : ∀ r ∈ runs, r.regenerate = false)
    (hP : ∀ r ∈ runs, ∀ i s a b s', r.fit i s = .ok ((a, b), s') → P i a b) (d : XDisk C) (hd : Paired fmt P d) :
    Paired fmt P (runs.foldl (XRun.disk fmt) d) := by
  induction runs generalizing d with
  | nil => exact hd
  | cons r rs ih =>
    rw [List.foldl_cons]
    refine ih (fun q hq => hr q (List.mem_cons_of_mem _ hq)) (fun q hq => hP q (List.mem_cons_of_mem _ hq)) _ ?_
    unfold XRun.disk
    rw [hr r List.mem_cons_self]
    exact loop_paired r.fit (hP r List.mem_cons_self) _ _ d hd _

/-- **C139** (part that holds). Starting without files, after any series of calls with `regenerate=False`, each with its own
ensemble, fit and random numbers and interrupted at any operation on the disk: if a further call ends without exception, it
gives for every member a level density and a strength function that come from one fit of this member. -/
theorem C139_pairs_partial {fmt : FileFormat V C} {reload : V → V} (hfmt : fmt.Sound reload) (runs : List (XRun V S)) (last : XRun V S)
    (hr : ∀ r ∈ runs ++ [last], r.regenerate = false) (rs : List (V × V))
    (h : last.result fmt (runs.foldl (XRun.disk fmt) fun _ => none) = .ok rs) :
    List.Forall₂ (fun i r => ∃ a b, FittedBy (runs ++ [last]) i a b ∧ (r = (a, b) ∨ r = (reload a, reload b)))
      (List.range last.size) rs := by
  have hp : Paired fmt (FittedBy (runs ++ [last])) (runs.foldl (XRun.disk fmt) fun _ => none) :=
    runs_paired runs (fun r h => hr r (by simp [h]))
      (fun r hm i s a b s' hf => ⟨r, by simp [hm], s, s', hf⟩) _ fun i => Or.inl rfl
  unfold XRun.result at h
  rw [hr last (by simp)] at h
  exact loop_result hfmt last.fit (fun i s a b s' hf => ⟨last, by simp, s, s', hf⟩) _ _ _ hp rs h

/-- **C139.** If the fits do not use random numbers (the result `q i` of member `i` is the same from every state), interruptions
never change a result. -/
theorem C139_never_wrong {fmt : FileFormat V C} {reload : V → V} (hfmt : fmt.Sound reload) (runs : List (XRun V S)) (last : XRun V S)
    (hr : ∀ r ∈ runs ++ [last], r.regenerate = false) (q : ℕ → V × V)
    (hq : ∀ r ∈ runs ++ [last], ∀ i s p s', r.fit i s = .ok (p, s') → p = q i) (rs : List (V × V))
    (h : last.result fmt (runs.foldl (XRun.disk fmt) fun _ => none) = .ok rs) :
    List.Forall₂ (fun i r => r = q i ∨ r = (reload (q i).1, reload (q i).2)) (List.range last.size) rs := by
  refine (C139_pairs_partial hfmt runs last hr rs h).imp fun i r hir => ?_
  obtain ⟨a, b, ⟨x, hx, s, s', hf⟩, hab⟩ := hir
  rw [← hq x hx i s _ s' hf]
  exact hab

/-- **C139, fails in general.** With `regenerate=True` level density and strength function may come from different fits: an
extraction of a member is finished, a second one with `regenerate=True` is interrupted after the level density is saved, and
a third one returns the new level density with the old strength function, without exception. -/
theorem C139_mixed_fails {fmt : FileFormat V C} {reload : V → V} (hfmt : fmt.Sound reload)
    (f1 f2 f3 : ℕ → S → Except Err ((V × V) × S)) (s1 s2 s3 t1 t2 : S) (a b a' b' : V)
    (h1 : f1 0 s1 = .ok ((a, b), t1)) (h2 : f2 0 s2 = .ok ((a', b'), t2)) (n : ℕ) (hn : (fmt.enc a).length + (fmt.enc b).length + 2 ≤ n) :
    XRun.result fmt ([⟨f1, s1, 1, false, n⟩, ⟨f2, s2, 1, true, (fmt.enc a').length + 1⟩].foldl (XRun.disk fmt) fun _ => none)
      ⟨f3, s3, 1, false, 0⟩ = .ok [(reload a', reload b)] := by
  have e1 : XRun.disk fmt (fun _ => none) ⟨f1, s1, 1, false, n⟩ =
      Function.update (Function.update (fun _ => none) (.nld, 0) (some (fmt.enc a))) (.gsf, 0) (some (fmt.enc b)) := by
    unfold XRun.disk
    simp only [List.range_one]
    unfold tornLoop
    simp only [Bool.false_eq_true, if_false, bothThere, h1, tornLoop, List.append_nil]
    rw [List.take_of_length_le (by simp [save_length]; omega), List.foldl_append, save_all, save_all]
  have e2 : ∀ d, XRun.disk fmt d ⟨f2, s2, 1, true, (fmt.enc a').length + 1⟩ = Function.update d (.nld, 0) (some (fmt.enc a')) := by
    intro d
    unfold XRun.disk
    simp only [List.range_one]
    unfold tornLoop
    simp only [if_true, h2, tornLoop, List.append_nil]
    rw [← save_length fmt (.nld, 0) a', List.take_left, save_all]
  simp only [List.foldl_cons, List.foldl_nil]
  rw [e1, e2]
  unfold XRun.result
  simp only [List.range_one]
  unfold tornLoop
  simp [bothThere, hfmt.full, tornLoop, Except.map]

/-- **C139.** When a call succeeds: with fits that do not raise, a further call with `regenerate=False` ends without exception
exactly if no file of a strength function is incomplete.  Incomplete level densities do no harm. -/
theorem C139_resumes_iff {fmt : FileFormat V C} {reload : V → V} (hfmt : fmt.Sound reload) (runs : List (XRun V S)) (last : XRun V S)
    (hr : ∀ r ∈ runs ++ [last], r.regenerate = false) (hf : ∀ i s, ∃ p s', last.fit i s = .ok (p, s')) :
    (∃ rs, last.result fmt (runs.foldl (XRun.disk fmt) fun _ => none) = .ok rs) ↔
      ∀ i < last.size, ¬ Broken fmt ((runs.foldl (XRun.disk fmt) fun _ => none) (.gsf, i)) := by
  have hp : Paired fmt (fun _ _ _ => True) (runs.foldl (XRun.disk fmt) fun _ => none) :=
    runs_paired runs (fun r h => hr r (by simp [h])) (fun r hm i s a b s' hf => trivial) _ fun i => Or.inl rfl
  set d := runs.foldl (XRun.disk fmt) fun _ => none
  have go : ∀ (is : List ℕ) (s : S) (d : XDisk C), Paired fmt (fun _ _ _ => True) d → is.Nodup →
      ((∃ rs, (tornLoop fmt last.fit false is s d).2 = .ok rs) ↔ ∀ i ∈ is, ¬ Broken fmt (d (.gsf, i))) := by
    intro is
    induction is with
    | nil => intro s d _ _; simp [tornLoop]
    | cons i is ih =>
      intro s d hd hnd
      obtain ⟨hi, hnd⟩ := List.nodup_cons.1 hnd
      unfold tornLoop
      simp only [Bool.false_eq_true, if_false]
      rcases hb : bothThere d i with _ | ⟨x, y⟩
      · obtain ⟨⟨a, b⟩, s', hfi⟩ := hf i s
        simp only [hfi]
        have full := pair_take fmt (fun _ _ _ => True) d hd i (bothThere_none hd hb) a b trivial
          (saveEvents fmt (.nld, i) a ++ saveEvents fmt (.gsf, i) b).length
        rw [List.take_length] at full
        have := ih s' _ full hnd
        have e : (∃ rs, Except.map ((a, b) :: ·) (tornLoop fmt last.fit false is s'
            ((saveEvents fmt (.nld, i) a ++ saveEvents fmt (.gsf, i) b).foldl XEv.act d)).2 = .ok rs) ↔
            ∃ rs, (tornLoop fmt last.fit false is s'
            ((saveEvents fmt (.nld, i) a ++ saveEvents fmt (.gsf, i) b).foldl XEv.act d)).2 = .ok rs := by
          rcases (tornLoop fmt last.fit false is s'
            ((saveEvents fmt (.nld, i) a ++ saveEvents fmt (.gsf, i) b).foldl XEv.act d)).2 with e | rs <;> simp [Except.map]
        rw [e, this]
        have h0 : ¬ Broken fmt (d (.gsf, i)) := by
          rw [bothThere_none hd hb]
          rintro ⟨l, hl, _⟩
          simp at hl
        simp only [List.mem_cons, forall_eq_or_imp, h0, not_false_iff, true_and]
        refine forall₂_congr fun j hj => ?_
        have hji : j ≠ i := fun h => hi (h ▸ hj)
        rw [List.foldl_append, save_all, save_all, Function.update_of_ne (by simp [hji]), Function.update_of_ne (by simp)]
      · simp only
        have hxy : d (.nld, i) = some x ∧ d (.gsf, i) = some y := by
          unfold bothThere at hb
          split at hb
          · next u v h1 h2 =>
            simp only [Option.some.injEq, Prod.mk.injEq] at hb
            rw [h1, h2, hb.1, hb.2]
            exact ⟨rfl, rfl⟩
          · simp at hb
        have hx : ∃ a, fmt.dec x = some a := by
          rcases hd i with h0 | ⟨a, b, l, hp, h1, h2, h3⟩
          · rw [hxy.2] at h0
            simp at h0
          · rw [hxy.1] at h1
            simp only [Option.some.injEq] at h1
            exact ⟨_, by rw [h1]; exact hfmt.full a⟩
        obtain ⟨a, hx⟩ := hx
        rcases hy : fmt.dec y with _ | b
        · simp only [hx]
          constructor
          · rintro ⟨rs, h⟩
            simp at h
          · intro h
            exact absurd ⟨y, hxy.2, hy⟩ (h i List.mem_cons_self)
        · simp only [hx]
          have h0 : ¬ Broken fmt (d (.gsf, i)) := by
            rintro ⟨l, hl, hl2⟩
            rw [hxy.2] at hl
            simp only [Option.some.injEq] at hl
            rw [← hl, hy] at hl2
            simp at hl2
          simp only [List.mem_cons, forall_eq_or_imp, h0, not_false_iff, true_and]
          rw [← ih s d hd hnd]
          rcases (tornLoop fmt last.fit false is s d).2 with e | rs <;> simp [Except.map]
  unfold XRun.result
  rw [hr last (by simp), go (List.range last.size) last.start d hp List.nodup_range]
  simp only [List.mem_range]

/-- **C139, fails in general.** Resuming: a call that is interrupted while the strength function of member 0 is written makes
every further call with `regenerate=False` raise. -/
theorem C139_resume_fails {fmt : FileFormat V C} {reload : V → V} (hfmt : fmt.Sound reload) (first : XRun V S)
    (hr : first.regenerate = false) (hs : 0 < first.size) (a b : V) (t : S) (h1 : first.fit 0 first.start = .ok ((a, b), t))
    (hn : (fmt.enc a).length + 2 ≤ first.stop) (hn' : first.stop < (fmt.enc a).length + (fmt.enc b).length + 2)
    (runs : List (XRun V S)) (hrs : ∀ r ∈ runs, r.regenerate = false) (last : XRun V S) (hl : last.regenerate = false)
    (hls : 0 < last.size) :
    last.result fmt (runs.foldl (XRun.disk fmt) (first.disk fmt fun _ => none)) = .error .valueError := by
  have range_cons : ∀ n, 0 < n → List.range n = 0 :: (List.range (n - 1)).map Nat.succ := by
    intro n hn
    obtain ⟨m, rfl⟩ : ∃ m, n = m + 1 := ⟨n - 1, by omega⟩
    rw [List.range_succ_eq_map]
    rfl
  have st : ∀ d : XDisk C, ∀ r : XRun V S, r.regenerate = false → 0 < r.size →
      (∃ x y, d (.nld, 0) = some x ∧ d (.gsf, 0) = some y ∧ fmt.dec y = none) →
      tornLoop fmt r.fit r.regenerate (List.range r.size) r.start d = ([], .error .valueError) := by
    rintro d r h h0 ⟨x, y, hx, hy, hd⟩
    rw [range_cons _ h0]
    unfold tornLoop
    simp only [h, Bool.false_eq_true, if_false, bothThere, hx, hy, hd]
    split
    · next h2 => simp at h2
    · rfl
  have keep : ∀ (rs : List (XRun V S)), (∀ r ∈ rs, r.regenerate = false) → ∀ d : XDisk C,
      (∃ x y, d (.nld, 0) = some x ∧ d (.gsf, 0) = some y ∧ fmt.dec y = none) →
      ∃ x y, (rs.foldl (XRun.disk fmt) d) (.nld, 0) = some x ∧ (rs.foldl (XRun.disk fmt) d) (.gsf, 0) = some y ∧ fmt.dec y = none := by
    intro rs
    induction rs with
    | nil => exact fun _ d h => h
    | cons r rs ih =>
      intro hr d hd
      rw [List.foldl_cons]
      refine ih (fun q hq => hr q (List.mem_cons_of_mem _ hq)) _ ?_
      unfold XRun.disk
      by_cases h0 : 0 < r.size
      · rw [st d r (hr r List.mem_cons_self) h0 hd]
        simpa using hd
      · rw [show r.size = 0 by omega]
        simpa [tornLoop] using hd
  unfold XRun.result
  rw [st _ last hl hls]
  refine keep runs hrs _ ?_
  have e : first.disk fmt (fun _ => none) = Function.update (Function.update (fun _ => none) (.nld, 0) (some (fmt.enc a))) (.gsf, 0)
      (some ((fmt.enc b).take (first.stop - (fmt.enc a).length - 2))) := by
    unfold XRun.disk
    rw [range_cons _ hs, hr]
    unfold tornLoop
    simp only [Bool.false_eq_true, if_false, bothThere, h1]
    rw [List.take_append_of_le_length (by simp [save_length]; omega), List.take_append, List.foldl_append, save_take, save_take,
      save_length, if_neg (by omega), if_neg (by omega), List.take_of_length_le (by omega)]
    rw [show first.stop - ((fmt.enc a).length + 1) - 1 = first.stop - (fmt.enc a).length - 2 by omega]
  rw [e]
  refine ⟨fmt.enc a, (fmt.enc b).take (first.stop - (fmt.enc a).length - 2), by simp, by rw [Function.update_self],
    hfmt.torn b _ (List.take_prefix _ _) fun h => ?_⟩
  have := congrArg List.length h
  rw [List.length_take] at this
  omega

/-- **C139.** With `regenerate=True` the results do not depend on the files. -/
theorem C139_regenerate (fmt : FileFormat V C) (r : XRun V S) (hr : r.regenerate = true) (d d' : XDisk C) :
    r.result fmt d = r.result fmt d' := by
  unfold XRun.result
  rw [hr]
  generalize List.range r.size = is
  generalize r.start = s
  induction is generalizing s d d' with
  | nil => rfl
  | cons i is ih =>
    unfold tornLoop
    simp only [if_true]
    rcases r.fit i s with e | ⟨⟨a, b⟩, s'⟩
    · rfl
    · simp only
      rw [ih]

/-- **C139.** With complete files the loop is that of C80. -/
theorem C139_whole {σ : Type} {fmt : FileFormat V C} (hfmt : fmt.Sound id) (env : ExEnv σ V) (ens : ExEns) (reg : Bool) (is : List ℕ)
    (hn : is.Nodup) (s : ExState σ V) (d : XDisk C) (h1 : ∀ i, d (.nld, i) = (s.files i).1.map fmt.enc)
    (h2 : ∀ i, d (.gsf, i) = (s.files i).2.map fmt.enc) :
    (tornLoop fmt (fitOf env ens) reg is (s.egMax, s.rng) d).2 = (extractLoop env ens reg is s).1 ∧
    ∀ i, ((tornLoop fmt (fitOf env ens) reg is (s.egMax, s.rng) d).1.foldl XEv.act d) (.nld, i) =
        ((extractLoop env ens reg is s).2.files i).1.map fmt.enc ∧
      ((tornLoop fmt (fitOf env ens) reg is (s.egMax, s.rng) d).1.foldl XEv.act d) (.gsf, i) =
        ((extractLoop env ens reg is s).2.files i).2.map fmt.enc := by
  have em : ∀ i (s : ExState σ V), (extractMember env ens i s).1 = (extractMember env ens i ⟨s.egMax, s.rng, fun _ => (none, none)⟩).1 ∧
      (extractMember env ens i s).2.egMax = (extractMember env ens i ⟨s.egMax, s.rng, fun _ => (none, none)⟩).2.egMax ∧
      (extractMember env ens i s).2.rng = (extractMember env ens i ⟨s.egMax, s.rng, fun _ => (none, none)⟩).2.rng ∧
      (extractMember env ens i s).2.files = s.files := by
    intro i s
    unfold extractMember
    simp only
    rcases env.cut s.egMax (ens.member i) with e | m
    · simp
    · simp only
      rcases curryStep i m s.egMax with e | g
      · simp
      · simp only
        rcases env.cut g ens.std with e | sd
        · simp
        · simp only
          rcases env.dec s.rng m sd with e | ⟨r, z⟩ <;> simp
  induction is generalizing s d with
  | nil => exact ⟨rfl, fun i => ⟨h1 i, h2 i⟩⟩
  | cons i is ih =>
    obtain ⟨hi, hn⟩ := List.nodup_cons.1 hn
    unfold tornLoop extractLoop
    have hb : bothThere d i = (bothFiles (s.files i)).map fun p => (fmt.enc p.1, fmt.enc p.2) := by
      unfold bothThere bothFiles
      rw [h1, h2]
      rcases s.files i with ⟨_ | x, _ | y⟩ <;> rfl
    have hbb : (if reg then none else bothThere d i) =
        (if reg then none else bothFiles (s.files i)).map fun p => (fmt.enc p.1, fmt.enc p.2) := by
      rw [hb]
      cases reg <;> rfl
    rw [hbb]
    rcases (if reg then none else bothFiles (s.files i)) with _ | ⟨a, b⟩
    · simp only [Option.map_none]
      obtain ⟨m1, m2, m3, m4⟩ := em i s
      have hfit : fitOf env ens i (s.egMax, s.rng) = match extractMember env ens i ⟨s.egMax, s.rng, fun _ => (none, none)⟩ with
        | (.error e, _) => .error e
        | (.ok r, s') => .ok (r, (s'.egMax, s'.rng)) := rfl
      rcases hx : extractMember env ens i ⟨s.egMax, s.rng, fun _ => (none, none)⟩ with ⟨o, t⟩
      rcases hy : extractMember env ens i s with ⟨o', t'⟩
      rw [hx, hy] at m1 m2 m3
      rw [hy] at m4
      simp only at m1 m2 m3 m4
      subst m1
      rw [hx] at hfit
      rcases o' with e | ⟨a, b⟩
      · simp only at hfit
        rw [hfit]
        simp only
        refine ⟨trivial, fun j => ?_⟩
        rw [m4]
        exact ⟨h1 j, h2 j⟩
      · simp only at hfit
        rw [hfit]
        simp only
        have := ih hn { t' with files := Function.update t'.files i (some a, some b) }
          ((saveEvents fmt (.nld, i) a ++ saveEvents fmt (.gsf, i) b).foldl XEv.act d)
          (by
            intro j
            rw [List.foldl_append, save_all, save_all, m4]
            by_cases hj : j = i
            · subst hj; simp
            · simp [hj, h1 j])
          (by
            intro j
            rw [List.foldl_append, save_all, save_all, m4]
            by_cases hj : j = i
            · subst hj; simp
            · simp [hj, h2 j])
        simp only at this
        rw [m2, m3] at this
        rw [m2, m3]
        refine ⟨by rw [this.1], fun j => ?_⟩
        have hj := this.2 j
        rw [List.foldl_append]
        exact hj
    · simp only [Option.map_some, hfmt.full, id]
      have := ih hn s d h1 h2
      exact ⟨by rw [this.1], this.2⟩

/-- **C139, fails in general,** also for the ensemble: member 0 is generated; with other data and `regenerate=True` it is generated
again, interrupted after the first file was closed; the next run returns the new raw spectrum with the old unfolded and
first-generation spectra ((3, 7, 12) and (4, 9, 14) belong together). -/
theorem C139_ensemble_fails :
    let old := sampleEns false false
    let new : Ens ℚ ℕ := { old with child := fun i => 10 * i + 4 }
    let d1 := ((old.step 0).run id fun _ => none).2
    let d2 := crashes { new with regenerate := true } d1 [[0]]
    ((old.step 0).run id fun _ => none).1 = .ok (3, 7, 12) ∧
    ((new.step 0).run id fun _ => none).1 = .ok (4, 9, 14) ∧
    ((new.step 0).run id d2).1 = .ok (4, 7, 12) := by
  decide +kernel

/-! ## Examples -/

/-- A fit with a state: the numbers of member `i` from the `s`-th random number. -/
def sampleFit (i s : ℕ) : Except Err ((NpyArr × NpyArr) × ℕ) :=
  .ok ((⟨(1, 1, [(i : ℚ) + s]), rfl⟩, ⟨(1, 1, [(i : ℚ) - s]), rfl⟩), s + 1)

/-- The numbers of a result. -/
def xNums (r : Except Err (List (NpyArr × NpyArr))) : Option (List (List ℚ × List ℚ)) :=
  match r with
  | .ok l => some (l.map fun p => (p.1.1.2.2, p.2.1.2.2))
  | _ => none

/-- Non-vacuity of `C139_pairs_partial`, `C139_resumes_iff`: interrupted in the file `nld_1`, the next call ends; its pairs are
each from one fit. -/
example : xNums (XRun.result npyFormat ([⟨sampleFit, 5, 2, false, 8⟩].foldl (XRun.disk npyFormat) fun _ => none)
    ⟨sampleFit, 7, 2, false, 0⟩) = some [([5], [-5]), ([8], [-6])] := by
  decide +kernel

/-- Non-vacuity of `C139_mixed_fails`: level density of the second fit, strength function of the first. -/
example : xNums (XRun.result npyFormat ([⟨sampleFit, 5, 1, false, 6⟩, ⟨sampleFit, 9, 1, true, 3⟩].foldl (XRun.disk npyFormat)
    fun _ => none) ⟨sampleFit, 7, 1, false, 0⟩) = some [([9], [-5])] := by
  decide +kernel

/-- Non-vacuity of `C139_resume_fails`: interrupted in the file `gsf_0`. -/
example : xNums (XRun.result npyFormat ([⟨sampleFit, 5, 1, false, 5⟩, ⟨sampleFit, 9, 1, false, 30⟩].foldl (XRun.disk npyFormat)
    fun _ => none) ⟨sampleFit, 7, 1, false, 0⟩) = none ∧
    xNums (XRun.result npyFormat ([⟨sampleFit, 5, 1, false, 5⟩, ⟨sampleFit, 9, 1, false, 30⟩].foldl (XRun.disk npyFormat)
    fun _ => none) ⟨sampleFit, 7, 1, true, 0⟩) = some [([7], [-7])] := by
  decide +kernel

end Ompy
