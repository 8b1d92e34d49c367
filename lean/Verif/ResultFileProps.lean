import Verif.ResultFile

/-!
# C142: result files of normalisers and interruptions
-/

namespace Ompy

variable {S A C : Type}

/-! ### Specification -/

/-- A format in which nothing that was written incompletely can be read: the whole pickle gives back what `pick` says,
and every shorter beginning of it, and everything written before `dump` raised, cannot be read. -/
structure NormKind.Sound (K : NormKind S A C) (pick : S → S) : Prop where
  whole : ∀ s, (K.dump s).2 = true → K.parse (K.dump s).1 = some (pick s)
  torn : ∀ s l, l <+: (K.dump s).1 → (l ≠ (K.dump s).1 ∨ (K.dump s).2 = false) → K.parse l = none

/-- The call calculates instead of loading. -/
def NormKind.Fresh (K : NormKind S A C) (s : S) (d : String → Option (List C)) : Prop :=
  K.regen s = true ∨ ∃ p, K.file s = some p ∧ d p = none

/-- How a call of an object `s` with files `d` that is not interrupted ends: the object, the files, the exception. -/
inductive NormKind.Ends (K : NormKind S A C) (s : S) (d : String → Option (List C)) (a : A) :
    S → (String → Option (List C)) → Except PErr Unit → Prop
  | loaded (p l f) : K.regen s = false → K.file s = some p → d p = some l → K.parse l = some f →
      Ends K s d a (K.upd s f) d (.ok ())
  | unreadable (p l) : K.regen s = false → K.file s = some p → d p = some l → K.parse l = none →
      Ends K s d a s d (.error .unpickling)
  | nowhere : K.regen s = false → K.file s = none → Ends K s d a s d (.error (.err .typeError))
  | failed (t e) : K.Fresh s d → K.work s a = (t, .error e) → Ends K s d a t d (.error (.err e))
  | unsaved (t) : K.Fresh s d → K.work s a = (t, .ok ()) → K.saves t = false → Ends K s d a t d (.ok ())
  | pathless (t) : K.Fresh s d → K.work s a = (t, .ok ()) → K.saves t = true → K.file t = none →
      Ends K s d a t d (.error (.err .typeError))
  | saved (t p) : K.Fresh s d → K.work s a = (t, .ok ()) → K.saves t = true → K.file t = some p →
      (K.dump t).2 = true → Ends K s d a t (Function.update d p (some (K.dump t).1)) (.ok ())
  | unpicklable (t p) : K.Fresh s d → K.work s a = (t, .ok ()) → K.saves t = true → K.file t = some p →
      (K.dump t).2 = false → Ends K s d a t (Function.update d p (some (K.dump t).1)) (.error .pickling)

/-- A file that can be read holds what `pick` leaves of a result that was calculated completely. -/
def NormKind.Honest (K : NormKind S A C) (pick : S → S) (d : String → Option (List C)) : Prop :=
  ∀ p l f, d p = some l → K.parse l = some f →
    ∃ s a t, K.work s a = (t, .ok ()) ∧ K.saves t = true ∧ K.file t = some p ∧ f = pick t

/-! ### Steps of a call -/

/-- A finished call stays as it is. -/
theorem NormKind.done_iter (K : NormKind S A C) (s : S) (d : String → Option (List C)) (r : Except PErr Unit) (k : ℕ) :
    K.step^[k] ⟨s, d, .done r⟩ = ⟨s, d, .done r⟩ := by
  induction k with
  | zero => rfl
  | succ k ih => rw [Function.iterate_succ_apply]; exact ih

/-- Writing the first `j` pieces. -/
theorem NormKind.write_iter (K : NormKind S A C) (s : S) (p : String) (hp : K.file s = some p) (b : Bool) (j : ℕ) :
    ∀ (d : String → Option (List C)) (pre left : List C), j ≤ left.length →
      K.step^[j] ⟨s, Function.update d p (some pre), .write left b⟩ =
        ⟨s, Function.update d p (some (pre ++ left.take j)), .write (left.drop j) b⟩ := by
  induction j with
  | zero => intro d pre left _; simp
  | succ j ih =>
    intro d pre left hl
    cases left with
    | nil => simp at hl
    | cons x xs =>
      rw [Function.iterate_succ_apply]
      have h : K.step ⟨s, Function.update d p (some pre), .write (x :: xs) b⟩ =
          ⟨s, Function.update d p (some (pre ++ [x])), .write xs b⟩ := by
        simp [NormKind.step, hp]
      rw [h, ih d (pre ++ [x]) xs (by simpa using hl)]
      simp

/-- The first steps of a call that calculates. -/
theorem NormKind.call_two (K : NormKind S A C) (s : S) (d : String → Option (List C)) (a : A) (hf : K.Fresh s d) :
    K.call s d a 1 = ⟨s, d, .work a⟩ := by
  show K.step ⟨s, d, .start a⟩ = _
  rcases hf with h | ⟨p, h1, h2⟩
  · simp [NormKind.step, h]
  · by_cases h : K.regen s = true
    · simp [NormKind.step, h]
    · simp [NormKind.step, h, h1, h2]

/-- The file is open. -/
theorem NormKind.call_open (K : NormKind S A C) (s t : S) (d : String → Option (List C)) (a : A) (p : String)
    (hf : K.Fresh s d) (hw : K.work s a = (t, .ok ())) (hs : K.saves t = true) (hp : K.file t = some p) (j : ℕ) :
    K.call s d a (j + 3) =
      K.step^[j] ⟨t, Function.update d p (some []), .write (K.dump t).1 (K.dump t).2⟩ := by
  have h1 := K.call_two s d a hf
  unfold NormKind.call at h1 ⊢
  rw [Function.iterate_add_apply]
  congr 1
  rw [show 3 = 2 + 1 from rfl, Function.iterate_add_apply, h1]
  simp [NormKind.step, hw, hs, hp]

/-- A call that has ended after `n` steps. -/
theorem NormKind.call_settled (K : NormKind S A C) (s t : S) (d d' : String → Option (List C)) (a : A)
    (r : Except PErr Unit) (n : ℕ) (h : K.call s d a n = ⟨t, d', .done r⟩) (k : ℕ) (hk : n ≤ k) :
    K.call s d a k = ⟨t, d', .done r⟩ := by
  obtain ⟨m, rfl⟩ := Nat.exists_eq_add_of_le hk
  unfold NormKind.call at h ⊢
  rw [Nat.add_comm, Function.iterate_add_apply, h, K.done_iter]

/-! ### Theorems -/

/-- Every call comes to an end, in one of the eight ways, and nothing changes afterwards. -/
theorem C142_ends (K : NormKind S A C) (s : S) (d : String → Option (List C)) (a : A) :
    ∃ n t d' r, K.Ends s d a t d' r ∧ ∀ k ≥ n, K.call s d a k = ⟨t, d', .done r⟩ := by
  by_cases hf : K.Fresh s d
  · have h1 := K.call_two s d a hf
    have h2 : K.call s d a 2 = K.step (K.call s d a 1) := by
      unfold NormKind.call; exact Function.iterate_succ_apply' _ _ _
    have h3 : K.call s d a 3 = K.step (K.call s d a 2) := by
      unfold NormKind.call; exact Function.iterate_succ_apply' _ _ _
    rcases hw : K.work s a with ⟨t, (e | u)⟩
    · refine ⟨2, t, d, _, .failed t e hf hw, K.call_settled s t d d a _ 2 ?_⟩
      rw [h2, h1]; simp [NormKind.step, hw]
    · cases u
      have h2' : K.call s d a 2 = ⟨t, d, .save⟩ := by rw [h2, h1]; simp [NormKind.step, hw]
      by_cases hs : K.saves t = true
      · cases hp : K.file t with
        | none =>
          refine ⟨3, t, d, _, .pathless t hf hw hs hp, K.call_settled s t d d a _ 3 ?_⟩
          rw [h3, h2']; simp [NormKind.step, hs, hp]
        | some p =>
          have hend : ∀ r, K.step ⟨t, Function.update d p (some (K.dump t).1), .write [] (K.dump t).2⟩ =
                ⟨t, Function.update d p (some (K.dump t).1), .done r⟩ →
              ∀ k ≥ (K.dump t).1.length + 1 + 3, K.call s d a k =
                ⟨t, Function.update d p (some (K.dump t).1), .done r⟩ := by
            intro r hr
            apply K.call_settled
            rw [K.call_open s t d a p hf hw hs hp, Function.iterate_succ_apply',
              K.write_iter t p hp (K.dump t).2 (K.dump t).1.length d [] (K.dump t).1 le_rfl]
            simpa using hr
          cases hb : (K.dump t).2 with
          | true => exact ⟨_, t, _, _, .saved t p hf hw hs hp hb, hend _ (by simp [NormKind.step, hb])⟩
          | false => exact ⟨_, t, _, _, .unpicklable t p hf hw hs hp hb, hend _ (by simp [NormKind.step, hb])⟩
      · have hs' : K.saves t = false := by simpa using hs
        refine ⟨3, t, d, _, .unsaved t hf hw hs', K.call_settled s t d d a _ 3 ?_⟩
        rw [h3, h2']; simp [NormKind.step, hs]
  · have hr : K.regen s = false := by
      by_contra h; exact hf (.inl (by simpa using h))
    have h1 : K.call s d a 1 = K.step ⟨s, d, .start a⟩ := rfl
    cases hp : K.file s with
    | none =>
      refine ⟨1, s, d, _, .nowhere hr hp, K.call_settled s s d d a _ 1 ?_⟩
      rw [h1]; simp [NormKind.step, hr, hp]
    | some p =>
      cases hd : d p with
      | none => exact absurd (.inr ⟨p, hp, hd⟩) hf
      | some l =>
        cases hl : K.parse l with
        | none =>
          refine ⟨1, s, d, _, .unreadable p l hr hp hd hl, K.call_settled s s d d a _ 1 ?_⟩
          rw [h1]; simp [NormKind.step, hr, hp, hd, hl]
        | some f =>
          refine ⟨1, _, d, _, .loaded p l f hr hp hd hl, K.call_settled s _ d d a _ 1 ?_⟩
          rw [h1]; simp [NormKind.step, hr, hp, hd, hl]

/-- A call that does not come to opening a file leaves all files as they are. -/
theorem NormKind.call_untouched (K : NormKind S A C) (s : S) (d : String → Option (List C)) (a : A)
    (hgo : ¬ ∃ t p, K.Fresh s d ∧ K.work s a = (t, .ok ()) ∧ K.saves t = true ∧ K.file t = some p) (k : ℕ) :
    (K.call s d a k).disk = d := by
  have key : (K.call s d a k).disk = d ∧ ((K.call s d a k = ⟨s, d, .start a⟩) ∨
      (K.call s d a k = ⟨s, d, .work a⟩ ∧ K.Fresh s d) ∨
      (∃ t, K.call s d a k = ⟨t, d, .save⟩ ∧ K.Fresh s d ∧ K.work s a = (t, .ok ())) ∨
      (∃ t r, K.call s d a k = ⟨t, d, .done r⟩)) := by
    induction k with
    | zero => exact ⟨rfl, .inl rfl⟩
    | succ k ih =>
      have hsucc : K.call s d a (k + 1) = K.step (K.call s d a k) := by
        unfold NormKind.call; exact Function.iterate_succ_apply' _ _ _
      rw [hsucc]
      obtain ⟨-, h | ⟨h, hf⟩ | ⟨t, h, hf, hw⟩ | ⟨t, r, h⟩⟩ := ih
      · rw [h]
        by_cases hr : K.regen s = true
        · have : K.step ⟨s, d, .start a⟩ = ⟨s, d, .work a⟩ := by simp [NormKind.step, hr]
          rw [this]; exact ⟨rfl, .inr (.inl ⟨rfl, .inl hr⟩)⟩
        · cases hp : K.file s with
          | none =>
            have : K.step ⟨s, d, .start a⟩ = ⟨s, d, .done (.error (.err .typeError))⟩ := by
              simp [NormKind.step, hr, hp]
            rw [this]; exact ⟨rfl, .inr (.inr (.inr ⟨_, _, rfl⟩))⟩
          | some p =>
            cases hd : d p with
            | none =>
              have : K.step ⟨s, d, .start a⟩ = ⟨s, d, .work a⟩ := by simp [NormKind.step, hr, hp, hd]
              rw [this]; exact ⟨rfl, .inr (.inl ⟨rfl, .inr ⟨p, hp, hd⟩⟩)⟩
            | some l =>
              cases hl : K.parse l with
              | none =>
                have : K.step ⟨s, d, .start a⟩ = ⟨s, d, .done (.error .unpickling)⟩ := by
                  simp [NormKind.step, hr, hp, hd, hl]
                rw [this]; exact ⟨rfl, .inr (.inr (.inr ⟨_, _, rfl⟩))⟩
              | some f =>
                have : K.step ⟨s, d, .start a⟩ = ⟨K.upd s f, d, .done (.ok ())⟩ := by
                  simp [NormKind.step, hr, hp, hd, hl]
                rw [this]; exact ⟨rfl, .inr (.inr (.inr ⟨_, _, rfl⟩))⟩
      · rw [h]
        rcases hw : K.work s a with ⟨t, (e | u)⟩
        · have : K.step ⟨s, d, .work a⟩ = ⟨t, d, .done (.error (.err e))⟩ := by simp [NormKind.step, hw]
          rw [this]; exact ⟨rfl, .inr (.inr (.inr ⟨_, _, rfl⟩))⟩
        · have : K.step ⟨s, d, .work a⟩ = ⟨t, d, .save⟩ := by simp [NormKind.step, hw]
          rw [this]; exact ⟨rfl, .inr (.inr (.inl ⟨t, rfl, hf, rfl⟩))⟩
      · rw [h]
        by_cases hs : K.saves t = true
        · cases hp : K.file t with
          | none =>
            have : K.step ⟨t, d, .save⟩ = ⟨t, d, .done (.error (.err .typeError))⟩ := by
              simp [NormKind.step, hs, hp]
            rw [this]; exact ⟨rfl, .inr (.inr (.inr ⟨_, _, rfl⟩))⟩
          | some p => exact absurd ⟨t, p, hf, hw, hs, hp⟩ hgo
        · have : K.step ⟨t, d, .save⟩ = ⟨t, d, .done (.ok ())⟩ := by simp [NormKind.step, hs]
          rw [this]; exact ⟨rfl, .inr (.inr (.inr ⟨_, _, rfl⟩))⟩
      · rw [h]; exact ⟨rfl, .inr (.inr (.inr ⟨t, r, rfl⟩))⟩
  exact key.1

/-- The files while a call is under way: nothing is touched before the calculation is complete, then the file holds
the first pieces of the new pickle, in the end all of them; other files are never touched. -/
theorem C142_files (K : NormKind S A C) (s : S) (d : String → Option (List C)) (a : A) (k : ℕ) :
    (K.call s d a k).disk = d ∨
      ∃ t p, K.Fresh s d ∧ K.work s a = (t, .ok ()) ∧ K.saves t = true ∧ K.file t = some p ∧ 3 ≤ k ∧
        (K.call s d a k).obj = t ∧
        (K.call s d a k).disk = Function.update d p (some ((K.dump t).1.take (k - 3))) := by
  by_cases hgo : ∃ t p, K.Fresh s d ∧ K.work s a = (t, .ok ()) ∧ K.saves t = true ∧ K.file t = some p
  · obtain ⟨t, p, hf, hw, hs, hp⟩ := hgo
    have h1 := K.call_two s d a hf
    have h2 : K.call s d a 2 = ⟨t, d, .save⟩ := by
      have : K.call s d a 2 = K.step (K.call s d a 1) := by
        unfold NormKind.call; exact Function.iterate_succ_apply' _ _ _
      rw [this, h1]; simp [NormKind.step, hw]
    match k with
    | 0 => exact .inl rfl
    | 1 => rw [h1]; exact .inl rfl
    | 2 => rw [h2]; exact .inl rfl
    | j + 3 =>
      right
      refine ⟨t, p, hf, hw, hs, hp, by omega, ?_⟩
      rw [K.call_open s t d a p hf hw hs hp, Nat.add_sub_cancel]
      by_cases hj : j ≤ (K.dump t).1.length
      · rw [K.write_iter t p hp _ j d [] _ hj]; simp
      · obtain ⟨i, rfl⟩ := Nat.exists_eq_add_of_lt (not_le.1 hj)
        have e : (K.dump t).1.length + i + 1 = i + 1 + (K.dump t).1.length := by omega
        have hh : ∃ r, K.step^[i + 1 + (K.dump t).1.length]
              ⟨t, Function.update d p (some []), .write (K.dump t).1 (K.dump t).2⟩ =
            ⟨t, Function.update d p (some (K.dump t).1), .done r⟩ := by
          rw [Function.iterate_add_apply, K.write_iter t p hp _ _ d [] _ le_rfl, Function.iterate_succ_apply]
          cases hb : (K.dump t).2 with
          | true => exact ⟨_, by simpa [NormKind.step] using K.done_iter t _ (.ok ()) i⟩
          | false => exact ⟨_, by simpa [NormKind.step] using K.done_iter t _ (.error .pickling) i⟩
        obtain ⟨r, hr⟩ := hh
        rw [e, hr, List.take_of_length_le (by omega)]
        exact ⟨rfl, rfl⟩
  · exact .inl (K.call_untouched s d a hgo k)

/-- A file after a call, wherever it was interrupted: as before, or unreadable, or the new result. -/
theorem C142_old_none_new (K : NormKind S A C) (pick : S → S) (hK : K.Sound pick) (s : S)
    (d : String → Option (List C)) (a : A) (k : ℕ) (p : String) :
    (K.call s d a k).disk p = d p ∨ (∃ l, (K.call s d a k).disk p = some l ∧ K.parse l = none) ∨
      (K.work s a = ((K.call s d a k).obj, .ok ()) ∧ K.saves (K.call s d a k).obj = true ∧
        K.file (K.call s d a k).obj = some p ∧
        ∃ l, (K.call s d a k).disk p = some l ∧ K.parse l = some (pick (K.call s d a k).obj)) := by
  rcases C142_files K s d a k with h | ⟨t, q, hf, hw, hs, hq, -, ho, hd⟩
  · rw [h]; exact .inl rfl
  · by_cases hpq : p = q
    · subst hpq
      right
      by_cases hc : (K.dump t).1.take (k - 3) ≠ (K.dump t).1 ∨ (K.dump t).2 = false
      · left
        refine ⟨(K.dump t).1.take (k - 3), by rw [hd]; simp, hK.torn t _ (List.take_prefix _ _) hc⟩
      · right
        simp only [ne_eq, not_or, not_not] at hc
        rw [ho]
        refine ⟨hw, hs, hq, (K.dump t).1, by rw [hd, hc.1]; simp, hK.whole t (by simpa using hc.2)⟩
    · left; rw [hd]; simp [Function.update_of_ne hpq]

/-- Over every history of calls, interruptions, new objects and deleted files: a file that can be read holds a result
that was calculated completely, by an object that saves to this file. -/
theorem C142_never_wrong (K : NormKind S A C) (pick : S → S) (hK : K.Sound pick) (h : List (NEvent S A)) :
    ∀ w : NWorld S C, K.Honest pick w.disk → K.Honest pick (K.run w h).disk := by
  induction h with
  | nil => intro w hw; exact hw
  | cons e h ih =>
    intro w hw
    refine ih (K.event w e) ?_
    cases e with
    | call i a k =>
      intro p l f hl hf
      rcases C142_old_none_new K pick hK (w.objs i) w.disk a k p with h1 | ⟨l', h1, h2⟩ | ⟨h1, h2, h3, l', h4, h5⟩
      · exact hw p l f (h1 ▸ hl) hf
      · have : some l' = some l := h1.symm.trans hl
        cases this
        rw [h2] at hf; cases hf
      · have : some l' = some l := h4.symm.trans hl
        cases this
        rw [h5] at hf; cases hf
        exact ⟨_, _, _, h1, h2, h3, rfl⟩
    | put i s => exact hw
    | remove q =>
      intro p l f hl hf
      by_cases hpq : p = q
      · subst hpq; simp [NormKind.event] at hl
      · exact hw p l f (by simpa [NormKind.event, Function.update_of_ne hpq] using hl) hf

/-- What a later call that does not calculate gives: with files as they are after any history it either raises, or
its attributes are updated with those of a complete result. -/
theorem C142_load (K : NormKind S A C) (pick : S → S) (hK : K.Sound pick) (h : List (NEvent S A)) (w : NWorld S C)
    (hw : K.Honest pick w.disk) (s : S) (a : A) (hnf : ¬ K.Fresh s (K.run w h).disk) :
    (∃ r, ∀ k ≥ 1, K.call s (K.run w h).disk a k = ⟨s, (K.run w h).disk, .done (.error r)⟩) ∨
      ∃ s0 a0 t, K.work s0 a0 = (t, .ok ()) ∧ K.file t = K.file s ∧
        ∀ k ≥ 1, K.call s (K.run w h).disk a k = ⟨K.upd s (pick t), (K.run w h).disk, .done (.ok ())⟩ := by
  have hh := C142_never_wrong K pick hK h w hw
  generalize (K.run w h).disk = d at hh hnf ⊢
  have hr : K.regen s = false := by
    by_contra hc; exact hnf (.inl (by simpa using hc))
  have h1 : K.call s d a 1 = K.step ⟨s, d, .start a⟩ := rfl
  cases hp : K.file s with
  | none =>
    left
    refine ⟨.err .typeError, K.call_settled s s d d a _ 1 ?_⟩
    rw [h1]; simp [NormKind.step, hr, hp]
  | some p =>
    cases hd : d p with
    | none => exact absurd (.inr ⟨p, hp, hd⟩) hnf
    | some l =>
      cases hl : K.parse l with
      | none =>
        left
        refine ⟨.unpickling, K.call_settled s s d d a _ 1 ?_⟩
        rw [h1]; simp [NormKind.step, hr, hp, hd, hl]
      | some f =>
        right
        obtain ⟨s0, a0, t, e1, -, e3, rfl⟩ := hh p l f hd hl
        refine ⟨s0, a0, t, e1, e3, K.call_settled s _ d d a _ 1 ?_⟩
        rw [h1]; simp [NormKind.step, hr, hp, hd, hl]

/-- Interrupted between opening the file and the last piece, a new calculation destroys the earlier result, whatever
it was, and leaves a file that cannot be read. -/
theorem C142_lost (K : NormKind S A C) (pick : S → S) (hK : K.Sound pick) (s t : S) (d : String → Option (List C))
    (a : A) (p : String) (hf : K.Fresh s d) (hw : K.work s a = (t, .ok ())) (hs : K.saves t = true)
    (hp : K.file t = some p) (k : ℕ) (h3 : 3 ≤ k) (hk : k < 3 + (K.dump t).1.length) :
    ∃ l, (K.call s d a k).disk p = some l ∧ K.parse l = none := by
  obtain ⟨j, rfl⟩ := Nat.exists_eq_add_of_le h3
  rw [Nat.add_comm 3 j, K.call_open s t d a p hf hw hs hp, K.write_iter t p hp _ j d [] _ (by omega)]
  refine ⟨(K.dump t).1.take j, by simp, hK.torn t _ (List.take_prefix _ _) (.inl ?_)⟩
  intro hc
  have := congrArg List.length hc
  simp only [List.length_take] at this
  omega

/-- A file that cannot be read stays: every call of an object that would load it raises and changes nothing, and so
does every series of such calls. -/
theorem C142_stuck (K : NormKind S A C) (w : NWorld S C) (p : String) (l : List C) (hd : w.disk p = some l)
    (hl : K.parse l = none) (h : List (NEvent S A))
    (hh : ∀ e ∈ h, ∃ i a k, e = .call i a k ∧ K.regen (w.objs i) = false ∧ K.file (w.objs i) = some p) :
    K.run w h = w ∧ ∀ i a, K.regen (w.objs i) = false → K.file (w.objs i) = some p →
      ∀ k ≥ 1, (K.call (w.objs i) w.disk a k).phase = .done (.error .unpickling) := by
  have hone : ∀ s a, K.regen s = false → K.file s = some p →
      ∀ k ≥ 1, K.call s w.disk a k = ⟨s, w.disk, .done (.error .unpickling)⟩ := by
    intro s a hr hp
    refine K.call_settled s s w.disk w.disk a _ 1 ?_
    show K.step ⟨s, w.disk, .start a⟩ = _
    simp [NormKind.step, hr, hp, hd, hl]
  refine ⟨?_, fun i a hr hp k hk => by rw [hone _ a hr hp k hk]⟩
  induction h with
  | nil => rfl
  | cons e h ih =>
    obtain ⟨i, a, k, rfl, hr, hp⟩ := hh e (by simp)
    have he : K.event w (.call i a k) = w := by
      rcases Nat.eq_zero_or_pos k with rfl | hk
      · simp [NormKind.event, NormKind.call]
      · simp only [NormKind.event, hone _ a hr hp k hk, Function.update_eq_self]
    show K.run (K.event w (.call i a k)) h = w
    rw [he]
    exact ih fun e' he' => hh e' (by simp [he'])

/-- With `regenerate` a call that is not interrupted repairs every file: it ends without exception, and every object
that loads the file afterwards gets this result. -/
theorem C142_repair (K : NormKind S A C) (pick : S → S) (hK : K.Sound pick) (s t : S) (d : String → Option (List C))
    (a : A) (p : String) (hf : K.Fresh s d) (hw : K.work s a = (t, .ok ())) (hs : K.saves t = true)
    (hp : K.file t = some p) (hb : (K.dump t).2 = true) :
    ∀ k ≥ (K.dump t).1.length + 4, (K.call s d a k).phase = .done (.ok ()) ∧ (K.call s d a k).obj = t ∧
      (∀ q ≠ p, (K.call s d a k).disk q = d q) ∧
      ∀ u b, K.regen u = false → K.file u = some p → ∀ j ≥ 1,
        K.call u (K.call s d a k).disk b j = ⟨K.upd u (pick t), (K.call s d a k).disk, .done (.ok ())⟩ := by
  have hend : ∀ k ≥ (K.dump t).1.length + 4, K.call s d a k =
      ⟨t, Function.update d p (some (K.dump t).1), .done (.ok ())⟩ := by
    apply K.call_settled
    rw [show (K.dump t).1.length + 4 = (K.dump t).1.length + 1 + 3 from rfl, K.call_open s t d a p hf hw hs hp,
      Function.iterate_succ_apply', K.write_iter t p hp (K.dump t).2 (K.dump t).1.length d [] (K.dump t).1 le_rfl]
    simp [NormKind.step, hb]
  intro k hk
  rw [hend k hk]
  refine ⟨rfl, rfl, fun q hq => by simp [Function.update_of_ne hq], fun u b hr hu => ?_⟩
  refine K.call_settled u _ _ _ b _ 1 ?_
  show K.step ⟨u, Function.update d p (some (K.dump t).1), .start b⟩ = _
  simp [NormKind.step, hr, hu, hK.whole t hb]

/-- An attribute that cannot be pickled: the call raises after the whole calculation, the result is in the object, and
whatever was in the file before, it cannot be read any more. -/
theorem C142_unpicklable (K : NormKind S A C) (pick : S → S) (hK : K.Sound pick) (s t : S)
    (d : String → Option (List C)) (a : A) (p : String) (hf : K.Fresh s d) (hw : K.work s a = (t, .ok ()))
    (hs : K.saves t = true) (hp : K.file t = some p) (hb : (K.dump t).2 = false) :
    ∀ k ≥ (K.dump t).1.length + 4, (K.call s d a k).phase = .done (.error .pickling) ∧ (K.call s d a k).obj = t ∧
      ∃ l, (K.call s d a k).disk p = some l ∧ K.parse l = none := by
  have hend : ∀ k ≥ (K.dump t).1.length + 4, K.call s d a k =
      ⟨t, Function.update d p (some (K.dump t).1), .done (.error .pickling)⟩ := by
    apply K.call_settled
    rw [show (K.dump t).1.length + 4 = (K.dump t).1.length + 1 + 3 from rfl, K.call_open s t d a p hf hw hs hp,
      Function.iterate_succ_apply', K.write_iter t p hp (K.dump t).2 (K.dump t).1.length d [] (K.dump t).1 le_rfl]
    simp [NormKind.step, hb]
  intro k hk
  rw [hend k hk]
  exact ⟨rfl, rfl, (K.dump t).1, by simp, hK.torn t _ (List.prefix_refl _) (.inr hb)⟩

/-! ### Pickles -/

/-- What `dill` has written completely it reads back. -/
theorem pkLoad_dump (d : Dict PkVal) (h : (pkDump d).2 = true) : pkLoad (pkDump d).1 = some d := by
  induction d with
  | nil => rfl
  | cons x t ih =>
    obtain ⟨k, v⟩ := x
    cases v with
    | handle => simp [pkDump] at h
    | str q => simp only [pkDump] at h ⊢; simp [pkLoad, ih h]
    | flag q => simp only [pkDump] at h ⊢; simp [pkLoad, ih h]
    | num q => simp only [pkDump] at h ⊢; simp [pkLoad, ih h]

/-- A beginning of a pickle cannot be read. -/
theorem pkLoad_torn (d : Dict PkVal) : ∀ l, l <+: (pkDump d).1 → (l ≠ (pkDump d).1 ∨ (pkDump d).2 = false) →
    pkLoad l = none := by
  induction d with
  | nil =>
    intro l hl h
    cases l with
    | nil => rfl
    | cons x xs =>
      simp only [pkDump, List.cons_prefix_cons, List.prefix_nil] at hl
      obtain ⟨rfl, rfl⟩ := hl
      simp [pkDump] at h
  | cons x t ih =>
    obtain ⟨k, v⟩ := x
    intro l hl h
    cases l with
    | nil => rfl
    | cons y ys =>
      have hcase : ∀ u : PkVal, (pkDump ((k, v) :: t)) = (.attr k u :: (pkDump t).1, (pkDump t).2) →
          pkLoad (y :: ys) = none := by
        intro u hu
        rw [hu] at hl h
        simp only [List.cons_prefix_cons] at hl
        obtain ⟨rfl, hl⟩ := hl
        have := ih ys hl (by simpa using h)
        simp [pkLoad, this]
      cases v with
      | handle => simp [pkDump] at hl
      | str q => exact hcase _ rfl
      | flag q => exact hcase _ rfl
      | num q => exact hcase _ rfl

/-- Pickles are such a format: a complete one is read back as it is, and nothing incomplete can be read. -/
theorem C142_pickle (cls : String) (work : Dict PkVal → A → Dict PkVal × Except Err Unit) :
    (pkKind cls work).Sound id :=
  ⟨fun s h => pkLoad_dump s h, fun s l h1 h2 => pkLoad_torn s l h1 h2⟩

/-! ### Examples -/

/-- A normaliser whose result is its argument. -/
def toyWork (s : Dict PkVal) (a : PkVal) : Dict PkVal × Except Err Unit := (s.set "res" a, .ok ())

/-- An object that calculates anew, or loads. -/
def toyObj (regen : Bool) : Dict PkVal :=
  [("path", .str "out"), ("regenerate", .flag regen), ("_save_instance", .flag true)]

/-- Its kind. -/
abbrev toyKind : NormKind (Dict PkVal) PkVal PkOp := pkKind "NormalizerNLD" toyWork

/-- Object 0 calculates, object 1 loads. -/
def toyWorld : NWorld (Dict PkVal) PkOp := ⟨fun i => toyObj (i == 0), fun _ => none⟩

/-- The file. -/
def toyFile : String := "out/NormalizerNLD.pkl"

example : toyKind.Fresh (toyObj true) toyWorld.disk := .inl rfl

example : toyKind.Honest id toyWorld.disk := by intro p l f h; cases h

/-- The object after the calculation. -/
def toyDone : Dict PkVal := toyObj true ++ [("res", .num 2)]

example : toyKind.work (toyObj true) (.num 2) = (toyDone, .ok ()) ∧ toyKind.saves toyDone = true ∧
    toyKind.file toyDone = some toyFile ∧ (toyKind.dump toyDone).2 = true ∧ (toyKind.dump toyDone).1.length = 5 :=
  ⟨by rfl, by decide +kernel, by decide +kernel, by decide +kernel, by decide +kernel⟩

example : ¬ toyKind.Fresh (toyObj false) (toyKind.run toyWorld [.call 0 (.num 1) 10]).disk := by
  rintro (h | ⟨p, h1, h2⟩)
  · exact absurd h (by decide +kernel)
  · have h3 : toyKind.file (toyObj false) = some toyFile := by decide +kernel
    rw [h3] at h1
    cases h1
    exact absurd h2 (by decide +kernel)

-- A finished calculation, a second one interrupted while saving, then a third one: unreadable, then readable again.
example : ([[.call 0 (.num 1) 10], [.call 0 (.num 1) 10, .call 0 (.num 2) 5],
      [.call 0 (.num 1) 10, .call 0 (.num 2) 5, .call 0 (.num 3) 10]].map fun h =>
        ((toyKind.run toyWorld h).disk toyFile).map fun l => (pkLoad l).map fun d => d.get? "res") =
    [some (some (some (.num 1))), some none, some (some (some (.num 3)))] := by decide +kernel

/-- A result is there and can be loaded; a later calculation is interrupted while it saves; from then on every call
that would load raises, although a complete result had been there. -/
theorem C142_resume_fails :
    ∃ h : List (NEvent (Dict PkVal) PkVal), ∃ e : NEvent (Dict PkVal) PkVal,
      (∃ u, (toyKind.call (toyObj false) (toyKind.run toyWorld h).disk (.num 2) 1).phase = .done (.ok u)) ∧
      ∀ a, ∀ k ≥ 1, toyKind.call (toyObj false) (toyKind.run toyWorld (h ++ [e])).disk a k =
        ⟨toyObj false, (toyKind.run toyWorld (h ++ [e])).disk, .done (.error .unpickling)⟩ := by
  refine ⟨[.call 0 (.num 1) 10], .call 0 (.num 2) 5, ⟨(), by rfl⟩, fun a => ?_⟩
  refine toyKind.call_settled _ _ _ _ a _ 1 ?_
  have hd : (toyKind.run toyWorld ([.call 0 (.num 1) 10] ++ [.call 0 (.num 2) 5])).disk toyFile =
      some [.attr "path" (.str "out"), .attr "regenerate" (.flag true)] := by decide +kernel
  generalize (toyKind.run toyWorld ([.call 0 (.num 1) 10] ++ [.call 0 (.num 2) 5])).disk = d at hd
  have h1 : toyKind.regen (toyObj false) = false := by decide +kernel
  have h2 : toyKind.file (toyObj false) = some toyFile := by decide +kernel
  have h3 : toyKind.parse [.attr "path" (.str "out"), .attr "regenerate" (.flag true)] = none := by decide +kernel
  show toyKind.step ⟨toyObj false, d, .start a⟩ = _
  simp [NormKind.step, h1, h2, hd, h3]

/-- An object with an open file among its attributes destroys the earlier result as well. -/
theorem C142_dump_fails :
    (toyKind.call (toyObj true ++ [("log", .handle)]) (toyKind.run toyWorld [.call 0 (.num 1) 10]).disk (.num 2) 12).phase
        = .done (.error .pickling) ∧
      ((toyKind.call (toyObj true ++ [("log", .handle)]) (toyKind.run toyWorld [.call 0 (.num 1) 10]).disk
        (.num 2) 12).disk toyFile).map pkLoad = some none := ⟨by rfl, by decide +kernel⟩

end Ompy
