import Verif.TornFiles
import Verif.EnsembleProps

/-!
# C138: interruptions while a file is written
-/

namespace Ompy

variable {M S α C V : Type}

/-! ## What is meant -/

/-- A file can be read as soon as it is complete, and not before. -/
structure FileFormat.Sound (fmt : FileFormat M C) (reload : M → M) : Prop where
  full : ∀ m, fmt.dec (fmt.enc m) = some (reload m)
  torn : ∀ m l, l <+: fmt.enc m → l ≠ fmt.enc m → fmt.dec l = none

/-- There is a file, and reading it raises. -/
def Broken (fmt : FileFormat M C) (x : Option (List C)) : Prop := ∃ l, x = some l ∧ fmt.dec l = none

/-- The process of member `i` has ended. -/
def TPool.result (s : TPool M α C) (i : ℕ) : Option (Except Err α) := (s.procs i).prog.done

/-- **C138.** Files of arrays: every beginning of a file is refused, the whole file gives the array. -/
theorem C138_npy : npyFormat.Sound id := by
  have fm : ∀ l : List ℚ, (l.map NpyPiece.num).filterMap NpyPiece.num? = l := by
    intro l
    induction l with
    | nil => rfl
    | cons x l ih => simp [NpyPiece.num?, ih]
  constructor
  · rintro ⟨⟨r, c, l⟩, h⟩
    simp only at h
    unfold npyFormat npySave
    simp only [npyLoad, fm]
    rw [dif_pos h.ge]
    refine congrArg some (Subtype.ext ?_)
    simp [← h]
    rfl
  · rintro ⟨⟨r, c, l⟩, h⟩ p hp hne
    simp only at h
    unfold npyFormat npySave at hp hne ⊢
    simp only at hp hne ⊢
    cases p with
    | nil => rfl
    | cons x xs =>
      rw [List.cons_prefix_cons] at hp
      obtain ⟨rfl, hxs⟩ := hp
      have hlt : xs.length < l.length := by
        have := hxs.length_le
        rw [List.length_map] at this
        refine lt_of_le_of_ne this fun h2 => hne ?_
        rw [hxs.eq_of_length (by simpa using h2)]
      have : (xs.filterMap NpyPiece.num?).length < r * c := by
        rw [← h]
        exact lt_of_le_of_lt (List.length_filterMap_le _ _) hlt
      exact dif_neg (not_le.mpr this)

/-! ## Simulation by whole files -/

/-- The content of a file and what it stands for. -/
def AbsAt (fmt : FileFormat M C) (x : Option (List C)) (o : Option M) : Prop :=
  (x = none ∧ o = none) ∨ (∃ m, x = some (fmt.enc m) ∧ o = some m) ∨ (Broken fmt x ∧ o = none)

/-- A file is open for writing. -/
def TPool.writing (t : TPool M α C) (k : EKey) : Prop := ∃ m c xs, t.procs k.2 = ⟨.write k m c, some xs⟩

/-- Steps with pieces and steps with whole files; `d0` are the files at the start. -/
structure Sim (fmt : FileFormat M C) (d0 : TDisk C) (t : TPool M α C) (s : PoolState M α) : Prop where
  procs : ∀ i, ((∃ k : EKey, k.2 = i ∧ Broken fmt (d0 k)) ∧ t.procs i = ⟨.fail .valueError, none⟩) ∨
    ((t.procs i).prog = s.procs i ∧ ∀ xs, (t.procs i).pend = some xs →
      ∃ k m c l, s.procs i = .write k m c ∧ t.disk k = some l ∧ l ++ xs = fmt.enc m)
  disk : ∀ k, t.writing k ∨ (t.disk k = none ∧ s.disk k = none) ∨ (∃ m, t.disk k = some (fmt.enc m) ∧ s.disk k = some m) ∨
    (t.disk k = d0 k ∧ Broken fmt (d0 k) ∧ s.disk k = none)

theorem sim_step {fmt : FileFormat M C} {reload : M → M} (hf : fmt.Sound reload) {d0 : TDisk C} {t : TPool M α C} {s : PoolState M α}
    (h : Sim fmt d0 t s) (hc : ∀ i, (s.procs i).Confined i) (a : ℕ) :
    Sim fmt d0 (tpoolStep fmt t a) s ∨ Sim fmt d0 (tpoolStep fmt t a) (poolStep reload s a) := by
  rcases h.procs a with ⟨hb, hfail⟩ | ⟨hp, hpend⟩
  · left
    have e : tpoolStep fmt t a = t := by
      unfold tpoolStep
      rw [hfail]
      simp only [TProc.next]
      rw [← hfail, Function.update_eq_self]
    rw [e]
    exact h
  · have hca := hc a
    -- the pending files of other processes are not touched
    have pk : ∀ i k m c, s.procs i = .write k m c → k.2 = i := by
      intro i k m c hi
      have := hc i
      rw [hi] at this
      exact this.1
    rcases hta : t.procs a with ⟨p, pend⟩
    rw [hta] at hp hpend
    simp only at hp hpend
    subst hp
    rcases hsa : s.procs a with x | err | ⟨k, c⟩ | ⟨k, m, c⟩
    · left
      have e1 : ∀ i, (tpoolStep fmt t a).procs i = if i = a then ⟨.ret x, none⟩ else t.procs i := by
        intro i
        unfold tpoolStep
        rw [hta, hsa]
        simp only [TProc.next]
        by_cases hi : i = a
        · subst hi; simp
        · simp [hi]
      have e2 : (tpoolStep fmt t a).disk = t.disk := by
        unfold tpoolStep
        rw [hta, hsa]
        rfl
      refine ⟨fun i => ?_, fun k => ?_⟩
      · rw [e1, e2]
        by_cases hi : i = a
        · subst hi
          right
          simp [hsa]
        · rw [if_neg hi]
          exact h.procs i
      · rw [e2]
        rcases h.disk k with hw | hr
        · obtain ⟨m, c, xs, hw⟩ := hw
          by_cases hi : k.2 = a
          · rw [hi, hta, hsa] at hw
            simp at hw
          · left
            exact ⟨m, c, xs, by rw [e1, if_neg hi]; exact hw⟩
        · exact Or.inr hr
    · left
      have e1 : ∀ i, (tpoolStep fmt t a).procs i = if i = a then ⟨.fail err, none⟩ else t.procs i := by
        intro i
        unfold tpoolStep
        rw [hta, hsa]
        simp only [TProc.next]
        by_cases hi : i = a
        · subst hi; simp
        · simp [hi]
      have e2 : (tpoolStep fmt t a).disk = t.disk := by
        unfold tpoolStep
        rw [hta, hsa]
        rfl
      refine ⟨fun i => ?_, fun k => ?_⟩
      · rw [e1, e2]
        by_cases hi : i = a
        · subst hi
          right
          simp [hsa]
        · rw [if_neg hi]
          exact h.procs i
      · rw [e2]
        rcases h.disk k with hw | hr
        · obtain ⟨m, c, xs, hw⟩ := hw
          by_cases hi : k.2 = a
          · rw [hi, hta, hsa] at hw
            simp at hw
          · left
            exact ⟨m, c, xs, by rw [e1, if_neg hi]; exact hw⟩
        · exact Or.inr hr
    · -- reading
      rw [hsa] at hca
      have hk : k.2 = a := hca.1
      have nw : ¬ t.writing k := by
        rintro ⟨m, c, xs, hw⟩
        rw [hk, hta, hsa] at hw
        simp at hw
      have keep : ∀ q : TProc M α C, ∀ k', t.writing k' →
          TPool.writing ⟨Function.update t.procs a q, t.disk⟩ k' := by
        rintro q k' ⟨m, c, xs, hw⟩
        by_cases hi : k'.2 = a
        · rw [hi, hta, hsa] at hw
          simp at hw
        · exact ⟨m, c, xs, by simpa [hi] using hw⟩
      rcases h.disk k with hw | ⟨h1, h2⟩ | ⟨m, h1, h2⟩ | ⟨h1, h2, h3⟩
      · exact absurd hw nw
      · right
        have e : tpoolStep fmt t a = ⟨Function.update t.procs a ⟨c none, none⟩, t.disk⟩ := by
          unfold tpoolStep
          rw [hta, hsa]
          simp only [TProc.next, h1]
        have es : poolStep reload s a = ⟨Function.update s.procs a (c none), s.disk⟩ := by
          unfold poolStep
          rw [hsa]
          simp [Prog.next, h2]
        rw [e, es]
        refine ⟨fun i => ?_, fun k' => ?_⟩
        · by_cases hi : i = a
          · subst hi
            right
            simp
          · simpa [hi] using h.procs i
        · exact (h.disk k').imp (keep _ k') id
      · right
        have e : tpoolStep fmt t a = ⟨Function.update t.procs a ⟨c (some (reload m)), none⟩, t.disk⟩ := by
          unfold tpoolStep
          rw [hta, hsa]
          simp only [TProc.next, h1, hf.full]
        have es : poolStep reload s a = ⟨Function.update s.procs a (c (some (reload m))), s.disk⟩ := by
          unfold poolStep
          rw [hsa]
          simp [Prog.next, h2]
        rw [e, es]
        refine ⟨fun i => ?_, fun k' => ?_⟩
        · by_cases hi : i = a
          · subst hi
            right
            simp
          · simpa [hi] using h.procs i
        · exact (h.disk k').imp (keep _ k') id
      · left
        obtain ⟨l, hl1, hl2⟩ := h2
        have e : tpoolStep fmt t a = ⟨Function.update t.procs a ⟨.fail .valueError, none⟩, t.disk⟩ := by
          unfold tpoolStep
          rw [hta, hsa]
          simp only [TProc.next, h1, hl1, hl2]
        rw [e]
        refine ⟨fun i => ?_, fun k' => ?_⟩
        · by_cases hi : i = a
          · subst hi
            left
            exact ⟨⟨k, hk, l, hl1, hl2⟩, by simp⟩
          · simpa [hi] using h.procs i
        · exact (h.disk k').imp (keep _ k') id
    · -- writing
      rw [hsa] at hca
      have hk : k.2 = a := hca.1
      have other : ∀ i, i ≠ a → ∀ x, ((∃ k : EKey, k.2 = i ∧ Broken fmt (d0 k)) ∧ t.procs i = ⟨.fail .valueError, none⟩) ∨
          ((t.procs i).prog = s.procs i ∧ ∀ xs, (t.procs i).pend = some xs →
            ∃ k' m' c' l, s.procs i = .write k' m' c' ∧ Function.update t.disk k x k' = some l ∧ l ++ xs = fmt.enc m') := by
        intro i hi x
        refine (h.procs i).imp id fun hh => ⟨hh.1, fun xs hxs => ?_⟩
        obtain ⟨k', m', c', l, h1, h2, h3⟩ := hh.2 xs hxs
        refine ⟨k', m', c', l, h1, ?_, h3⟩
        have hne : k' ≠ k := by
          rintro rfl
          exact hi (by rw [← pk i _ _ _ h1, hk])
        rw [Function.update_of_ne hne]
        exact h2
      have dother : ∀ (ys : List C) (x : Option (List C)) (k' : EKey),
          TPool.writing ⟨Function.update t.procs a ⟨.write k m c, some ys⟩, Function.update t.disk k x⟩ k' ∨
          (Function.update t.disk k x k' = none ∧ s.disk k' = none) ∨
          (∃ m, Function.update t.disk k x k' = some (fmt.enc m) ∧ s.disk k' = some m) ∨
          (Function.update t.disk k x k' = d0 k' ∧ Broken fmt (d0 k') ∧ s.disk k' = none) := by
        intro ys x k'
        by_cases hkk : k' = k
        · subst hkk
          left
          refine ⟨m, c, ys, ?_⟩
          rw [hk]
          simp
        · rcases h.disk k' with hw | hr
          · left
            obtain ⟨m', c', xs, hw⟩ := hw
            by_cases hi : k'.2 = a
            · rw [hi, hta, hsa] at hw
              simp only [TProc.mk.injEq, Prog.write.injEq] at hw
              exact absurd hw.1.1.symm hkk
            · exact ⟨m', c', xs, by simpa [hi] using hw⟩
          · right
            rw [Function.update_of_ne hkk]
            exact hr
      rcases pend with _ | ⟨_ | ⟨x, xs⟩⟩
      · left
        have e : tpoolStep fmt t a = ⟨Function.update t.procs a ⟨.write k m c, some (fmt.enc m)⟩,
            Function.update t.disk k (some [])⟩ := by
          unfold tpoolStep
          rw [hta, hsa]
          rfl
        rw [e]
        refine ⟨fun i => ?_, dother _ _⟩
        by_cases hi : i = a
        · subst hi
          right
          refine ⟨by simp [hsa], fun xs hxs => ⟨k, m, c, [], hsa, by simp, ?_⟩⟩
          simp only [Function.update_self, Option.some.injEq] at hxs
          simpa using hxs.symm
        · simpa [hi] using other i hi (some [])
      · right
        obtain ⟨k', m', c', l, h1, h2, h3⟩ := hpend [] rfl
        rw [hsa] at h1
        simp only [Prog.write.injEq] at h1
        obtain ⟨rfl, rfl, rfl⟩ := h1
        rw [List.append_nil] at h3
        have e : tpoolStep fmt t a = ⟨Function.update t.procs a ⟨c, none⟩, t.disk⟩ := by
          unfold tpoolStep
          rw [hta, hsa]
          rfl
        have es : poolStep reload s a = ⟨Function.update s.procs a c, Function.update s.disk k (some m)⟩ := by
          unfold poolStep
          rw [hsa]
          simp [Prog.next]
        rw [e, es]
        refine ⟨fun i => ?_, fun k' => ?_⟩
        · by_cases hi : i = a
          · subst hi
            right
            simp
          · simpa [hi] using h.procs i
        · by_cases hkk : k' = k
          · subst hkk
            right; right; left
            exact ⟨m, by rw [h2, h3], by simp⟩
          · rcases h.disk k' with hw | hr
            · left
              obtain ⟨m', c', xs, hw⟩ := hw
              by_cases hi : k'.2 = a
              · rw [hi, hta, hsa] at hw
                simp only [TProc.mk.injEq, Prog.write.injEq] at hw
                exact absurd hw.1.1.symm hkk
              · exact ⟨m', c', xs, by simpa [hi] using hw⟩
            · right
              simp only [Function.update_of_ne hkk]
              exact hr
      · left
        obtain ⟨k', m', c', l, h1, h2, h3⟩ := hpend (x :: xs) rfl
        rw [hsa] at h1
        simp only [Prog.write.injEq] at h1
        obtain ⟨rfl, rfl, rfl⟩ := h1
        have e : tpoolStep fmt t a = ⟨Function.update t.procs a ⟨.write k m c, some xs⟩,
            Function.update t.disk k (some (l ++ [x]))⟩ := by
          unfold tpoolStep
          rw [hta, hsa]
          simp only [TProc.next, h2, Option.getD_some]
        rw [e]
        refine ⟨fun i => ?_, dother _ _⟩
        by_cases hi : i = a
        · subst hi
          right
          refine ⟨by simp [hsa], fun ys hys => ⟨k, m, c, l ++ [x], hsa, by simp, ?_⟩⟩
          simp only [Function.update_self, Option.some.injEq] at hys
          subst hys
          rw [← h3]
          simp
        · simpa [hi] using other i hi (some (l ++ [x]))

/-- Every run with pieces is a run with whole files, as far as it gets. -/
theorem sim_run {fmt : FileFormat M C} {reload : M → M} (hf : fmt.Sound reload) (progs : ℕ → Prog M α)
    (hc : ∀ i, (progs i).Confined i) (d0 : TDisk C) (c0 : Disk M) (h0 : ∀ k, AbsAt fmt (d0 k) (c0 k)) (sched : List ℕ) :
    ∃ sched', Sim fmt d0 (tpoolRun fmt sched ⟨fun i => ⟨progs i, none⟩, d0⟩) (poolRun reload sched' ⟨progs, c0⟩) := by
  induction sched using List.reverseRecOn with
  | nil =>
    refine ⟨[], ⟨fun i => Or.inr ⟨rfl, by intro xs h; simp [tpoolRun] at h⟩, fun k => Or.inr ?_⟩⟩
    rcases h0 k with h | h | ⟨h1, h2⟩
    · exact Or.inl h
    · exact Or.inr (Or.inl h)
    · exact Or.inr (Or.inr ⟨rfl, h1, h2⟩)
  | append_singleton l a ih =>
    obtain ⟨l', hl⟩ := ih
    have e : tpoolRun fmt (l ++ [a]) ⟨fun i => ⟨progs i, none⟩, d0⟩ =
        tpoolStep fmt (tpoolRun fmt l ⟨fun i => ⟨progs i, none⟩, d0⟩) a := by simp [tpoolRun]
    have es : poolRun reload (l' ++ [a]) ⟨progs, c0⟩ = poolStep reload (poolRun reload l' ⟨progs, c0⟩) a := by simp [poolRun]
    rcases sim_step hf hl (pool_inv reload progs hc c0 l').1 a with h | h
    · exact ⟨l', by rw [e]; exact h⟩
    · exact ⟨l' ++ [a], by rw [e, es]; exact h⟩

/-- The files after an interruption stand for whole good files, or are broken. -/
theorem good_after {fmt : FileFormat M C} {reload : M → M} (hf : fmt.Sound reload) (G : EKey → M → Prop) (progs : ℕ → Prog M α)
    (hc : ∀ i, (progs i).Confined i) (d0 : TDisk C) (c0 : Disk M) (h0 : ∀ k, AbsAt fmt (d0 k) (c0 k))
    (hd : ∀ k m, c0 k = some m → G k m) (hs : ∀ i, (progs i).SafeAt reload G c0) (sched : List ℕ) :
    ∃ c : Disk M, (∀ k, AbsAt fmt ((tpoolRun fmt sched ⟨fun i => ⟨progs i, none⟩, d0⟩).disk k) (c k)) ∧ ∀ k m, c k = some m → G k m := by
  obtain ⟨sched', hS⟩ := sim_run hf progs hc d0 c0 h0 sched
  obtain ⟨safe, good⟩ := pool_good reload G progs hc c0 hd hs sched'
  set t := tpoolRun fmt sched ⟨fun i => ⟨progs i, none⟩, d0⟩
  set s := poolRun reload sched' ⟨progs, c0⟩
  have key : ∀ k, ∃ o, AbsAt fmt (t.disk k) o ∧ ∀ m, o = some m → G k m := by
    intro k
    rcases hS.disk k with ⟨m, c, xs, hw⟩ | ⟨h1, h2⟩ | ⟨m, h1, h2⟩ | ⟨h1, h2, h3⟩
    · rcases hS.procs k.2 with ⟨_, hfail⟩ | ⟨hp, hpend⟩
      · rw [hw] at hfail
        simp at hfail
      · rw [hw] at hp hpend
        simp only at hp
        obtain ⟨k', m', c', l, g1, g2, g3⟩ := hpend xs rfl
        rw [← hp] at g1
        simp only [Prog.write.injEq] at g1
        obtain ⟨rfl, rfl, rfl⟩ := g1
        have hG : G k m := by
          have := safe k.2
          rw [← hp] at this
          exact this.1
        by_cases hx : xs = []
        · subst hx
          rw [List.append_nil] at g3
          refine ⟨some m, Or.inr (Or.inl ⟨m, by rw [g2, g3], rfl⟩), ?_⟩
          rintro m' ⟨⟩
          exact hG
        · refine ⟨none, Or.inr (Or.inr ⟨⟨l, g2, ?_⟩, rfl⟩), by simp⟩
          refine hf.torn m l ⟨xs, g3⟩ fun h => hx ?_
          rw [h] at g3
          simpa using g3
    · exact ⟨none, Or.inl ⟨h1, rfl⟩, by simp⟩
    · refine ⟨some m, Or.inr (Or.inl ⟨m, h1, rfl⟩), ?_⟩
      rintro m' ⟨⟩
      exact good k m h2
    · exact ⟨none, Or.inr (Or.inr ⟨by rw [h1]; exact h2, rfl⟩), by simp⟩
  choose c hc1 hc2 using key
  exact ⟨c, hc1, hc2⟩

theorem crashes_good {fmt : FileFormat M C} (e : Ens M S) (hf : fmt.Sound e.reload) (hr : e.regenerate = false) (hb : e.hasBg = false)
    (vals : M → V) (ht : Transparent e vals) (scheds : List (List ℕ)) :
    ∃ c : Disk M, (∀ k, AbsAt fmt (e.tcrashes fmt (fun _ => none) scheds k) (c k)) ∧ GoodDisk e vals c := by
  have pair : ∀ d i, PairedBg e d i := fun d i h => by rw [hb] at h; simp at h
  induction scheds using List.reverseRecOn with
  | nil => exact ⟨fun _ => none, fun _ => Or.inl ⟨rfl, rfl⟩, fun k m h => by simp at h⟩
  | append_singleton l sched ih =>
    obtain ⟨c, h1, h2⟩ := ih
    have e1 : e.tcrashes fmt (fun _ => none) (l ++ [sched]) =
        (e.tpool fmt (e.tcrashes fmt (fun _ => none) l) sched).disk := by simp [Ens.tcrashes]
    rw [e1]
    exact good_after hf (GoodFile e vals) e.step e.step_confined _ c h1 h2
      (fun i => (step_good e hr ht i c h2 (pair _ i)).1) sched

/-! ## Theorems -/

/-- **C138.** Without background: generation may be interrupted any number of times, also in the middle of writing a
file.  If a member of a later run ends without exception, its values are those of an uninterrupted run. -/
theorem C138_never_wrong {fmt : FileFormat M C} (e : Ens M S) (hf : fmt.Sound e.reload) (hr : e.regenerate = false)
    (hb : e.hasBg = false) (vals : M → V) (ht : Transparent e vals) (scheds : List (List ℕ)) (sched : List ℕ) (i : ℕ)
    (r : M × M × M) (h : (e.tpool fmt (e.tcrashes fmt (fun _ => none) scheds) sched).result i = some (.ok r)) :
    ((e.step i).run e.reload fun _ => none).1.map (vals3 vals) = .ok (vals3 vals r) := by
  have pair : ∀ d i, PairedBg e d i := fun d i h => by rw [hb] at h; simp at h
  obtain ⟨c, h1, h2⟩ := crashes_good e hf hr hb vals ht scheds
  obtain ⟨sched', hS⟩ := sim_run hf e.step e.step_confined _ c h1 sched
  rcases hS.procs i with ⟨_, hfail⟩ | ⟨hp, _⟩
  · unfold TPool.result Ens.tpool at h
    rw [hfail] at h
    simp [Prog.done] at h
  · unfold TPool.result Ens.tpool at h
    rw [hp] at h
    have := (C40_schedule e c sched' i _ h).1
    rw [(step_good e hr ht i _ (fun k m h => by simp at h) (pair _ i)).2, ← (step_good e hr ht i c h2 (pair _ i)).2, ← this]
    rfl

/-- **C138** (the part of resuming that holds).  If no file of the member is broken, a later run that has ended for this
member gives the values, or the exception, of an uninterrupted run. -/
theorem C138_resume_partial {fmt : FileFormat M C} (e : Ens M S) (hf : fmt.Sound e.reload) (hr : e.regenerate = false)
    (hb : e.hasBg = false) (vals : M → V) (ht : Transparent e vals) (scheds : List (List ℕ)) (sched : List ℕ) (i : ℕ)
    (hi : ∀ f, ¬ Broken fmt (e.tcrashes fmt (fun _ => none) scheds (f, i)))
    (r : Except Err (M × M × M)) (h : (e.tpool fmt (e.tcrashes fmt (fun _ => none) scheds) sched).result i = some r) :
    r.map (vals3 vals) = ((e.step i).run e.reload fun _ => none).1.map (vals3 vals) := by
  have pair : ∀ d i, PairedBg e d i := fun d i h => by rw [hb] at h; simp at h
  obtain ⟨c, h1, h2⟩ := crashes_good e hf hr hb vals ht scheds
  obtain ⟨sched', hS⟩ := sim_run hf e.step e.step_confined _ c h1 sched
  rcases hS.procs i with ⟨⟨⟨f, j⟩, hk, hbr⟩, hfail⟩ | ⟨hp, _⟩
  · simp only at hk
    subst hk
    exact absurd hbr (hi f)
  · unfold TPool.result Ens.tpool at h
    rw [hp] at h
    have := (C40_schedule e c sched' i _ h).1
    rw [(step_good e hr ht i _ (fun k m h => by simp at h) (pair _ i)).2, ← (step_good e hr ht i c h2 (pair _ i)).2, ← this]

/-- The file `k` is read before it is written and before the program ends. -/
def Prog.Guards (k : EKey) : Prog M α → Prop
  | .ret _ => False
  | .fail _ => True
  | .read k' c => k' = k ∨ ∀ x, (c x).Guards k
  | .write k' _ c => k' ≠ k ∧ c.Guards k

theorem Prog.Guards.bind {β : Type} {k : EKey} {p : Prog M α} (hp : p.Guards k) (f : α → Prog M β) : (p.bind f).Guards k := by
  induction p with
  | ret a => exact hp.elim
  | fail e => trivial
  | read k' c ih => exact hp.imp id fun h x => ih x (h x)
  | write k' m c ih => exact ⟨hp.1, ih hp.2⟩

/-- The file `k` is not written before the program goes on. -/
def Prog.Avoids (k : EKey) : Prog M α → Prop
  | .ret _ => True
  | .fail _ => True
  | .read _ c => ∀ x, (c x).Avoids k
  | .write k' _ c => k' ≠ k ∧ c.Avoids k

theorem Prog.Avoids.bind {β : Type} {k : EKey} {p : Prog M α} (hp : p.Avoids k) {f : α → Prog M β} (hf : ∀ a, (f a).Avoids k) :
    (p.bind f).Avoids k := by
  induction p with
  | ret a => exact hf a
  | fail e => trivial
  | read k' c ih => exact fun x => ih x (hp x)
  | write k' m c ih => exact ⟨hp.1, ih hp.2⟩

theorem Prog.Avoids.guards {β : Type} {k : EKey} {p : Prog M α} (hp : p.Avoids k) {f : α → Prog M β} (hf : ∀ a, (f a).Guards k) :
    (p.bind f).Guards k := by
  induction p with
  | ret a => exact hf a
  | fail e => trivial
  | read k' c ih => exact Or.inr fun x => ih x (hp x)
  | write k' m c ih => exact ⟨hp.1, ih hp.2⟩

theorem load_guards (e : Ens M S) (hr : e.regenerate = false) (k : EKey) {β : Type} (f : Option M → Prog M β) :
    ((e.load k).bind f).Guards k := by
  unfold Ens.load
  rw [if_neg (by simp [hr])]
  exact Or.inl rfl

theorem load_avoids (e : Ens M S) (k k' : EKey) : (e.load k).Avoids k' := by
  unfold Ens.load
  split_ifs
  · trivial
  · exact fun x => trivial

theorem ofExcept_avoids (x : Except Err α) (k : EKey) : (Prog.ofExcept x : Prog M α).Avoids k := by
  cases x <;> trivial

theorem actProg_avoids (e : Ens M S) (f : EFile) (m : M) (k : EKey) : (e.actProg f m).Avoids k := by
  unfold Ens.actProg
  split <;> trivial

theorem gen_avoids (e : Ens M S) (f : EFile) (i : ℕ) (s : S) {k : EKey} (hk : (f, i) ≠ k) : (e.generatePerturbed f i s).Avoids k := by
  refine (load_avoids e _ k).bind fun x => ?_
  cases x with
  | some m => exact (actProg_avoids e _ _ k).bind fun _ => trivial
  | none => exact (ofExcept_avoids _ k).bind fun p => ⟨hk, (actProg_avoids e _ _ k).bind fun _ => trivial⟩

theorem sub_avoids (e : Ens M S) (i : ℕ) (a b : M) {k : EKey} (hk : (.raw, i) ≠ k) : (e.subtractBg i a b).Avoids k := by
  refine (load_avoids e _ k).bind fun x => ?_
  cases x with
  | some m => exact actProg_avoids e _ _ k
  | none => exact (ofExcept_avoids _ k).bind fun p => ⟨hk, actProg_avoids e _ _ k⟩

theorem unf_avoids (e : Ens M S) (i : ℕ) (a : M) {k : EKey} (hk : (.unfolded, i) ≠ k) : (e.unfold i a).Avoids k := by
  refine (load_avoids e _ k).bind fun x => ?_
  cases x with
  | some m => exact (actProg_avoids e _ _ k).bind fun _ => trivial
  | none => exact (ofExcept_avoids _ k).bind fun p => ⟨hk, (actProg_avoids e _ _ k).bind fun _ => trivial⟩

theorem raw_avoids (e : Ens M S) (i : ℕ) {k : EKey} (h1 : (.raw, i) ≠ k) (h2 : (.prompt, i) ≠ k) (h3 : (.bg, i) ≠ k) :
    (e.rawStage i).Avoids k := by
  unfold Ens.rawStage
  split_ifs
  · exact (gen_avoids e _ i _ h2).bind fun p => (gen_avoids e _ i _ h3).bind fun b => sub_avoids e i _ _ h1
  · exact (gen_avoids e _ i _ h1).bind fun p => trivial

/-- The files a member needs. -/
def needed (e : Ens M S) (f : EFile) : Prop :=
  f = .raw ∨ f = .unfolded ∨ f = .firstgen ∨ (e.hasBg = true ∧ (f = .prompt ∨ f = .bg))

theorem step_guards (e : Ens M S) (hr : e.regenerate = false) (i : ℕ) (f : EFile) (hf : needed e f) : (e.step i).Guards (f, i) := by
  unfold Ens.step
  rcases hf with rfl | rfl | rfl | ⟨hb, rfl | rfl⟩
  · apply Prog.Guards.bind
    unfold Ens.rawStage
    split_ifs
    · exact (gen_avoids e _ i _ (by simp)).guards fun p => (gen_avoids e _ i _ (by simp)).guards fun b => load_guards e hr _ _
    · exact (load_guards e hr _ _).bind _
  · refine (raw_avoids e i (by simp) (by simp) (by simp)).guards fun r => ?_
    exact (load_guards e hr _ _).bind _
  · refine (raw_avoids e i (by simp) (by simp) (by simp)).guards fun r => (unf_avoids e i _ (by simp)).guards fun u => ?_
    exact (load_guards e hr _ _).bind _
  · apply Prog.Guards.bind
    unfold Ens.rawStage
    rw [if_pos hb]
    exact (load_guards e hr _ _).bind _
  · apply Prog.Guards.bind
    unfold Ens.rawStage
    rw [if_pos hb]
    exact (gen_avoids e _ i _ (by simp)).guards fun p => (load_guards e hr _ _).bind _

/-- Invariant: the broken file stays and its process does not get past it. -/
theorem broken_run {fmt : FileFormat M C} (progs : ℕ → Prog M α) (hc : ∀ i, (progs i).Confined i) (d0 : TDisk C) (k : EKey)
    (hk : (progs k.2).Guards k) (hd : Broken fmt (d0 k)) (sched : List ℕ) :
    let t := tpoolRun fmt sched ⟨fun i => ⟨progs i, none⟩, d0⟩
    t.disk k = d0 k ∧ (t.procs k.2).prog.Guards k ∧ ∀ i, (t.procs i).prog.Confined i := by
  induction sched using List.reverseRecOn with
  | nil => exact ⟨rfl, hk, hc⟩
  | append_singleton l a ih =>
    intro t'
    have e : t' = tpoolStep fmt (tpoolRun fmt l ⟨fun i => ⟨progs i, none⟩, d0⟩) a := by simp [t', tpoolRun]
    set t := tpoolRun fmt l ⟨fun i => ⟨progs i, none⟩, d0⟩
    obtain ⟨i1, i2, i3⟩ := ih
    have ha := i3 a
    have cf : ((t.procs a).next fmt t.disk).1.prog.Confined a := by
      rcases htp : t.procs a with ⟨p, pend⟩
      rw [htp] at ha
      unfold TProc.next
      rcases p with x | err | ⟨k', c⟩ | ⟨k', m, c⟩ <;> simp only
      · trivial
      · trivial
      · split
        · exact ha.2 _
        · split
          · exact ha.2 _
          · trivial
      · rcases pend with _ | ⟨_ | ⟨x, xs⟩⟩
        · exact ha
        · exact ha.2
        · exact ha
    have dk : ((t.procs a).next fmt t.disk).2 k = t.disk k := by
      rcases htp : t.procs a with ⟨p, pend⟩
      rw [htp] at ha
      unfold TProc.next
      rcases p with x | err | ⟨k', c⟩ | ⟨k', m, c⟩ <;> simp only
      · split
        · rfl
        · split <;> rfl
      · have hne : k ≠ k' := by
          intro h
          subst h
          have h2 : k.2 = a := ha.1
          rw [h2, htp] at i2
          exact i2.1 rfl
        rcases pend with _ | ⟨_ | ⟨x, xs⟩⟩
        · simp [hne]
        · rfl
        · simp [hne]
    have gd : k.2 = a → ((t.procs a).next fmt t.disk).1.prog.Guards k := by
      intro h
      rw [h] at i2
      rcases htp : t.procs a with ⟨p, pend⟩
      rw [htp] at i2
      unfold TProc.next
      rcases p with x | err | ⟨k', c⟩ | ⟨k', m, c⟩ <;> simp only
      · exact i2
      · trivial
      · rcases i2 with rfl | i2
        · obtain ⟨y, hy1, hy2⟩ := hd
          rw [i1, hy1]
          simp only [hy2]
          trivial
        · split
          · exact i2 _
          · split
            · exact i2 _
            · trivial
      · rcases pend with _ | ⟨_ | ⟨x, xs⟩⟩
        · exact i2
        · exact i2.2
        · exact i2
    rw [e]
    unfold tpoolStep
    refine ⟨dk.trans i1, ?_, fun i => ?_⟩
    · by_cases h : k.2 = a
      · simp only [h, Function.update_self]
        exact gd h
      · simp only [Function.update_of_ne h]
        exact i2
    · by_cases h : i = a
      · subst h
        simp only [Function.update_self]
        exact cf
      · simp only [Function.update_of_ne h]
        exact i3 i

/-- **C138.** A broken file is never repaired: if a file that a member needs is broken, then after any number of further
generations, complete or interrupted, it is still the same and the member does not end without exception. -/
theorem C138_stuck {fmt : FileFormat M C} (e : Ens M S) (hr : e.regenerate = false) (i : ℕ) (f : EFile) (hf : needed e f)
    (d : TDisk C) (hd : Broken fmt (d (f, i))) (scheds : List (List ℕ)) (sched : List ℕ) :
    e.tcrashes fmt d scheds (f, i) = d (f, i) ∧
    ∀ r, (e.tpool fmt (e.tcrashes fmt d scheds) sched).result i ≠ some (.ok r) := by
  have keep : e.tcrashes fmt d scheds (f, i) = d (f, i) := by
    induction scheds using List.reverseRecOn with
    | nil => rfl
    | append_singleton l s ih =>
      have e1 : e.tcrashes fmt d (l ++ [s]) = (e.tpool fmt (e.tcrashes fmt d l) s).disk := by simp [Ens.tcrashes]
      rw [e1]
      exact (broken_run e.step e.step_confined (e.tcrashes fmt d l) (f, i) (step_guards e hr i f hf)
        (by rw [ih]; exact hd) s).1.trans ih
  refine ⟨keep, fun r h => ?_⟩
  have := (broken_run e.step e.step_confined (e.tcrashes fmt d scheds) (f, i) (step_guards e hr i f hf)
    (by rw [keep]; exact hd) sched).2.1
  unfold TPool.result Ens.tpool at h
  simp only at this
  rcases hp : ((tpoolRun fmt sched ⟨fun i => ⟨e.step i, none⟩, e.tcrashes fmt d scheds⟩).procs i).prog with x | err | ⟨k', c⟩ | ⟨k', m, c⟩
  · rw [hp] at this
    exact this
  · rw [hp] at h
    simp [Prog.done] at h
  · rw [hp] at h
    simp [Prog.done] at h
  · rw [hp] at h
    simp [Prog.done] at h

/-- **C138, fails in general.** Resuming: for every ensemble without background, an interruption right after the first
file of a member was opened leaves a file with which no later run, with `regenerate=False`, gives the member. -/
theorem C138_resume_fails {fmt : FileFormat M C} (e : Ens M S) (hr : e.regenerate = false)
    (hb : e.hasBg = false) (h0 : fmt.dec [] = none) (i : ℕ) (m : M) (s : S) (hg : e.gen .raw (e.child i) = .ok (m, s))
    (scheds : List (List ℕ)) (sched : List ℕ) (r : M × M × M) :
    (e.tpool fmt (e.tcrashes fmt (fun _ => none) ([i, i] :: scheds)) sched).result i ≠ some (.ok r) := by
  have e1 : e.tcrashes fmt (fun _ => none) ([i, i] :: scheds) = e.tcrashes fmt (e.tpool fmt (fun _ => none) [i, i]).disk scheds := by
    simp [Ens.tcrashes]
  rw [e1]
  refine (C138_stuck e hr i .raw (Or.inl rfl) _ ⟨[], ?_, h0⟩ scheds sched).2 r
  unfold Ens.tpool tpoolRun Ens.step Ens.rawStage Ens.generatePerturbed Ens.load
  simp [tpoolStep, hb, hr, Prog.bind, TProc.next, hg, Prog.ofExcept]

/-- **C138.** With `regenerate=True` the members are those of a run on an empty disk, whatever broken files there are. -/
theorem C138_regenerate {fmt : FileFormat M C} (e : Ens M S) (hr : e.regenerate = true) (d : TDisk C) (sched : List ℕ) (i : ℕ)
    (r : Except Err (M × M × M)) (h : (e.tpool fmt d sched).result i = some r) :
    r = ((e.step i).run e.reload fun _ => none).1 := by
  have nr : ∀ i, (e.step i).NoRead := by
    intro i
    have gp : ∀ f s, (e.generatePerturbed f i s).NoRead := by
      intro f s
      unfold Ens.generatePerturbed
      rw [load_regenerate e hr]
      exact (ofExcept_noRead _).bind fun p => (actProg_noRead e _ _).bind fun _ => trivial
    have h1 : (e.rawStage i).NoRead := by
      unfold Ens.rawStage
      split_ifs
      · refine (gp _ _).bind fun p => (gp _ _).bind fun b => ?_
        unfold Ens.subtractBg
        rw [load_regenerate e hr]
        exact (ofExcept_noRead _).bind fun m => actProg_noRead e _ _
      · exact (gp _ _).bind fun _ => trivial
    refine h1.bind fun a => ?_
    have h2 : (e.unfold i a).NoRead := by
      unfold Ens.unfold
      rw [load_regenerate e hr]
      exact (ofExcept_noRead _).bind fun p => (actProg_noRead e _ _).bind fun _ => trivial
    refine h2.bind fun b => ?_
    have h3 : (e.firstGeneration i b.2).NoRead := by
      unfold Ens.firstGeneration
      rw [load_regenerate e hr]
      exact (ofExcept_noRead _).bind fun p => (actProg_noRead e _ _).bind fun _ => trivial
    refine h3.bind fun c => ?_
    unfold Ens.finish
    by_cases hi : i = 0
    · simp only [if_pos hi]
      show Prog.NoRead _
      split_ifs <;> trivial
    · simp only [if_neg hi]
      split_ifs <;> trivial
  have inv : ∀ sched : List ℕ, ∀ i, ((e.tpool fmt d sched).procs i).prog.NoRead ∧
      ∀ d', (((e.tpool fmt d sched).procs i).prog.run e.reload d').1 = ((e.step i).run e.reload fun _ => none).1 := by
    intro sched
    induction sched using List.reverseRecOn with
    | nil => exact fun i => ⟨nr i, fun d' => (nr i).run e.reload _ _⟩
    | append_singleton l a ih =>
      intro i
      have e1 : e.tpool fmt d (l ++ [a]) = tpoolStep fmt (e.tpool fmt d l) a := by simp [Ens.tpool, tpoolRun]
      rw [e1]
      unfold tpoolStep
      by_cases hia : i = a
      · subst hia
        simp only [Function.update_self]
        obtain ⟨j1, j2⟩ := ih i
        rcases htp : (e.tpool fmt d l).procs i with ⟨p, pend⟩
        rw [htp] at j1 j2
        unfold TProc.next
        rcases p with x | err | ⟨k', c⟩ | ⟨k', m, c⟩ <;> simp only
        · exact ⟨j1, j2⟩
        · exact ⟨j1, j2⟩
        · exact j1.elim
        · rcases pend with _ | ⟨_ | ⟨x, xs⟩⟩
          · exact ⟨j1, j2⟩
          · exact ⟨j1, fun d' => ((show c.NoRead from j1).run e.reload d' _).trans (j2 d')⟩
          · exact ⟨j1, j2⟩
      · simp only [Function.update_of_ne hia]
        exact ih i
  have := (inv sched i).2 fun _ => none
  unfold TPool.result at h
  rw [← this, Prog.done_run e.reload h]

/-- **C138.** Every process ends if it is given enough steps, whatever the files are. -/
theorem C138_ends {fmt : FileFormat M C} (e : Ens M S) (d : TDisk C) (sched : List ℕ) (i : ℕ) :
    ∃ n r, (e.tpool fmt d (sched ++ List.replicate n i)).result i = some r := by
  have go : ∀ (p : Prog M (M × M × M)) (t : TPool M (M × M × M) C), (t.procs i).prog = p →
      ∃ n r, (tpoolRun fmt (List.replicate n i) t).result i = some r := by
    intro p
    have one : ∀ t : TPool M (M × M × M) C, ∀ n r, (tpoolRun fmt (List.replicate n i) (tpoolStep fmt t i)).result i = some r →
        (tpoolRun fmt (List.replicate (n + 1) i) t).result i = some r := by
      intro t n r h
      simpa [tpoolRun, List.replicate_succ] using h
    induction p with
    | ret a => exact fun t h => ⟨0, .ok a, by simp [tpoolRun, TPool.result, h, Prog.done]⟩
    | fail err => exact fun t h => ⟨0, .error err, by simp [tpoolRun, TPool.result, h, Prog.done]⟩
    | read k c ih =>
      intro t h
      rcases htp : t.procs i with ⟨p, pend⟩
      rw [htp] at h
      simp only at h
      subst h
      rcases hd : t.disk k with _ | l
      · obtain ⟨n, r, hn⟩ := ih none (tpoolStep fmt t i) (by simp [tpoolStep, htp, TProc.next, hd])
        exact ⟨n + 1, r, one t n r hn⟩
      · rcases hl : fmt.dec l with _ | m
        · refine ⟨1, .error .valueError, ?_⟩
          simp [tpoolRun, TPool.result, tpoolStep, htp, TProc.next, hd, hl, Prog.done]
        · obtain ⟨n, r, hn⟩ := ih (some m) (tpoolStep fmt t i) (by simp [tpoolStep, htp, TProc.next, hd, hl])
          exact ⟨n + 1, r, one t n r hn⟩
    | write k m c ih =>
      have rest : ∀ (xs : List C) (t : TPool M (M × M × M) C), t.procs i = ⟨.write k m c, some xs⟩ →
          ∃ n r, (tpoolRun fmt (List.replicate n i) t).result i = some r := by
        intro xs
        induction xs with
        | nil =>
          intro t h
          obtain ⟨n, r, hn⟩ := ih (tpoolStep fmt t i) (by simp [tpoolStep, h, TProc.next])
          exact ⟨n + 1, r, one t n r hn⟩
        | cons x xs ih2 =>
          intro t h
          obtain ⟨n, r, hn⟩ := ih2 (tpoolStep fmt t i) (by simp [tpoolStep, h, TProc.next])
          exact ⟨n + 1, r, one t n r hn⟩
      intro t h
      rcases htp : t.procs i with ⟨p, pend⟩
      rw [htp] at h
      simp only at h
      subst h
      rcases pend with _ | xs
      · obtain ⟨n, r, hn⟩ := rest (fmt.enc m) (tpoolStep fmt t i) (by simp [tpoolStep, htp, TProc.next])
        exact ⟨n + 1, r, one t n r hn⟩
      · exact rest xs t htp
  obtain ⟨n, r, h⟩ := go _ (e.tpool fmt d sched) rfl
  refine ⟨n, r, ?_⟩
  simpa [Ens.tpool, tpoolRun] using h

/-! ## Examples -/

/-- An array with `f` applied to each number. -/
def NpyArr.map (f : ℚ → ℚ) (a : NpyArr) : NpyArr := ⟨(a.1.1, a.1.2.1, a.1.2.2.map f), by simpa using a.2⟩

/-- A sample of an ensemble of arrays with one row of two numbers. -/
def sampleNpy (regen : Bool) : Ens NpyArr ℕ where
  hasBg := false
  regenerate := regen
  child i := 10 * i + 3
  gen _ s := .ok (⟨(1, 2, [(s : ℚ), s + 1]), rfl⟩, s + 1)
  sub a _ := .ok a
  unf m := (m, .ok (m.map (2 * ·)))
  fg m := (m, .ok (m.map (· + 5)))
  act _ m := (m, .ok ())
  sameShape _ _ _ := true
  reload m := m

/-- Non-vacuity of C138: the sample meets the hypotheses. -/
example : npyFormat.Sound (sampleNpy false).reload ∧ Transparent (sampleNpy false) (fun m => m) ∧ (sampleNpy false).hasBg = false ∧
    npyFormat.dec [] = none := by
  refine ⟨C138_npy, ⟨?_, ?_, ?_, ?_, ?_, ?_, ?_, ?_⟩, rfl, rfl⟩ <;> intros <;> simp_all [sampleNpy]

/-- The numbers of the files of a result. -/
def npyNums (r : Option (Except Err (NpyArr × NpyArr × NpyArr))) : Option (List ℚ) :=
  match r with
  | some (.ok (a, b, c)) => some (a.1.2.2 ++ b.1.2.2 ++ c.1.2.2)
  | _ => none

/-- Non-vacuity of `C138_never_wrong`, `C138_resume_partial`: interrupted after the file `raw_1` was closed, the next run
reads it and ends with the values of the uninterrupted run. -/
example : (((sampleNpy false).tcrashes npyFormat (fun _ => none) [[1, 1, 1, 1, 1, 1]]) (.raw, 1) =
      some [.header 1 2, .num 13, .num 14]) ∧
    npyNums (((sampleNpy false).tpool npyFormat ((sampleNpy false).tcrashes npyFormat (fun _ => none) [[1, 1, 1, 1, 1, 1]])
      (List.replicate 13 1)).result 1) = some [13, 14, 26, 28, 31, 33] := by
  decide +kernel

/-- Non-vacuity of `C138_stuck`: interrupted after the first number, the file stays as it is and the next run raises. -/
example : (((sampleNpy false).tcrashes npyFormat (fun _ => none) [[1, 1, 1, 1], [1, 1, 1]]) (.raw, 1) =
      some [.header 1 2, .num 13]) ∧
    npyLoad [.header 1 2, .num 13] = none ∧ (npyLoad [.header 1 2, .num 13, .num 14]).isSome ∧
    (((sampleNpy false).tpool npyFormat ((sampleNpy false).tcrashes npyFormat (fun _ => none) [[1, 1, 1, 1], [1, 1, 1]])
      [1]).procs 1).prog.done.isSome ∧
    npyNums (((sampleNpy false).tpool npyFormat ((sampleNpy false).tcrashes npyFormat (fun _ => none) [[1, 1, 1, 1], [1, 1, 1]])
      (List.replicate 19 1)).result 1) = none ∧
    npyNums (((sampleNpy true).tpool npyFormat ((sampleNpy false).tcrashes npyFormat (fun _ => none) [[1, 1, 1, 1], [1, 1, 1]])
      (List.replicate 19 1)).result 1) = some [13, 14, 26, 28, 31, 33] := by
  decide +kernel

end Ompy
