import Verif.Ensemble
import Verif.UnfolderProps
import Mathlib.Data.List.Sort

/-!
# C39, C40, C41: generation, interruption and loading of ensembles
-/

namespace Ompy

section Programs

variable {M S α β V : Type}

namespace Prog

/-- All file operations concern member `i`. -/
def Confined (i : ℕ) : Prog M α → Prop
  | ret _ => True
  | fail _ => True
  | read k c => k.2 = i ∧ ∀ x, (c x).Confined i
  | write k _ c => k.2 = i ∧ c.Confined i

/-- At most `n` file operations. -/
def Within : ℕ → Prog M α → Prop
  | _, ret _ => True
  | _, fail _ => True
  | 0, _ => False
  | n + 1, read _ c => ∀ x, (c x).Within n
  | n + 1, write _ _ c => c.Within n

theorem Confined.bind {i : ℕ} {p : Prog M α} (hp : p.Confined i) {f : α → Prog M β}
    (hf : ∀ a, (f a).Confined i) : (p.bind f).Confined i := by
  induction p with
  | ret a => exact hf a
  | fail e => trivial
  | read k c ih => exact ⟨hp.1, fun x => ih x (hp.2 x)⟩
  | write k m c ih => exact ⟨hp.1, ih hp.2⟩

theorem Within.mono {n m : ℕ} {p : Prog M α} (h : p.Within n) (hnm : n ≤ m) : p.Within m := by
  induction p generalizing n m with
  | ret a => cases m <;> trivial
  | fail e => cases m <;> trivial
  | read k c ih =>
    cases n with
    | zero => exact h.elim
    | succ n =>
      cases m with
      | zero => omega
      | succ m => exact fun x => ih x (h x) (by omega)
  | write k mm c ih =>
    cases n with
    | zero => exact h.elim
    | succ n =>
      cases m with
      | zero => omega
      | succ m => exact ih (show c.Within n from h) (by omega)

theorem Within.bind {n m : ℕ} {p : Prog M α} (hp : p.Within n) {f : α → Prog M β}
    (hf : ∀ a, (f a).Within m) : (p.bind f).Within (n + m) := by
  induction p generalizing n with
  | ret a => exact (hf a).mono (by omega)
  | fail e => cases h : n + m <;> trivial
  | read k c ih =>
    cases n with
    | zero => exact hp.elim
    | succ n =>
      rw [show n + 1 + m = n + m + 1 by omega]
      exact fun x => ih x (hp x)
  | write k mm c ih =>
    cases n with
    | zero => exact hp.elim
    | succ n =>
      rw [show n + 1 + m = n + m + 1 by omega]
      exact ih (show c.Within n from hp)

theorem run_bind (reload : M → M) (p : Prog M α) (f : α → Prog M β) (d : Disk M) :
    (p.bind f).run reload d =
      match p.run reload d with
      | (.ok a, d') => (f a).run reload d'
      | (.error e, d') => (.error e, d') := by
  induction p generalizing d with
  | ret a => rfl
  | fail e => rfl
  | read k c ih => exact ih _ d
  | write k m c ih => exact ih _

theorem run_next (reload : M → M) (p : Prog M α) (d : Disk M) :
    (p.next reload d).1.run reload (p.next reload d).2 = p.run reload d := by
  cases p <;> rfl

theorem next_confined {i : ℕ} (reload : M → M) {p : Prog M α} (hp : p.Confined i) (d : Disk M) :
    (p.next reload d).1.Confined i := by
  cases p with
  | ret a => trivial
  | fail e => trivial
  | read k c => exact hp.2 _
  | write k m c => exact hp.2

theorem next_frame {i : ℕ} (reload : M → M) {p : Prog M α} (hp : p.Confined i) (d : Disk M) (k : EKey)
    (hk : k.2 ≠ i) : (p.next reload d).2 k = d k := by
  cases p with
  | ret a => rfl
  | fail e => rfl
  | read k c => rfl
  | write k' m c =>
    have : k ≠ k' := by rintro rfl; exact hk hp.1
    simp [next, this]

theorem run_frame {i : ℕ} (reload : M → M) {p : Prog M α} (hp : p.Confined i) (d : Disk M) (k : EKey)
    (hk : k.2 ≠ i) : (p.run reload d).2 k = d k := by
  induction p generalizing d with
  | ret a => rfl
  | fail e => rfl
  | read k' c ih => exact ih _ (hp.2 _) d
  | write k' m c ih =>
    have hne : k ≠ k' := by rintro rfl; exact hk hp.1
    rw [run, ih hp.2]
    simp [hne]

/-- A program confined to member `i` sees only the files of member `i`. -/
theorem run_congr {i : ℕ} (reload : M → M) {p : Prog M α} (hp : p.Confined i) (d d' : Disk M)
    (h : ∀ f, d (f, i) = d' (f, i)) :
    (p.run reload d).1 = (p.run reload d').1 ∧
      ∀ f, (p.run reload d).2 (f, i) = (p.run reload d').2 (f, i) := by
  induction p generalizing d d' with
  | ret a => exact ⟨rfl, h⟩
  | fail e => exact ⟨rfl, h⟩
  | read k c ih =>
    obtain ⟨kf, ki⟩ := k
    have hk : ki = i := hp.1
    subst hk
    rw [run, run, h kf]
    exact ih _ (hp.2 _) d d' h
  | write k m c ih =>
    obtain ⟨kf, ki⟩ := k
    have hk : ki = i := hp.1
    subst hk
    rw [run, run]
    refine ih hp.2 _ _ fun f => ?_
    by_cases hf : f = kf
    · subst hf; simp
    · rw [Function.update_of_ne (by simpa using hf), Function.update_of_ne (by simpa using hf), h f]

theorem done_run (reload : M → M) {p : Prog M α} {r : Except Err α} (h : p.done = some r) (d : Disk M) :
    p.run reload d = (r, d) := by
  cases p with
  | ret a => simp [done] at h; rw [run, h]
  | fail e => simp [done] at h; rw [run, h]
  | read k c => simp [done] at h
  | write k m c => simp [done] at h

theorem next_of_done (reload : M → M) {p : Prog M α} (h : p.done ≠ none) (d : Disk M) :
    p.next reload d = (p, d) := by
  cases p with
  | ret a => rfl
  | fail e => rfl
  | read k c => simp [done] at h
  | write k m c => simp [done] at h

theorem next_within {n : ℕ} (reload : M → M) {p : Prog M α} (h : p.Within (n + 1)) (d : Disk M) :
    (p.next reload d).1.Within n := by
  cases p with
  | ret a => cases n <;> trivial
  | fail e => cases n <;> trivial
  | read k c => exact h _
  | write k m c => exact h

theorem within_zero {p : Prog M α} (h : p.Within 0) : p.done ≠ none := by
  cases p with
  | ret a => simp [done]
  | fail e => simp [done]
  | read k c => exact h.elim
  | write k m c => exact h.elim

end Prog

theorem ofExcept_confined (i : ℕ) (x : Except Err α) : (Prog.ofExcept x : Prog M α).Confined i := by
  cases x <;> trivial

theorem ofExcept_within (n : ℕ) (x : Except Err α) : (Prog.ofExcept x : Prog M α).Within n := by
  cases x <;> cases n <;> trivial

namespace Ens

variable (e : Ens M S)

theorem load_confined (f : EFile) (i : ℕ) : (e.load (f, i)).Confined i := by
  unfold load
  split_ifs
  · trivial
  · exact ⟨rfl, fun _ => trivial⟩

theorem load_within (k : EKey) : (e.load k).Within 1 := by
  unfold load
  split_ifs
  · trivial
  · exact fun x => trivial

theorem actProg_confined (f : EFile) (m : M) (i : ℕ) : (e.actProg f m).Confined i := by
  unfold actProg
  split <;> trivial

theorem actProg_within (f : EFile) (m : M) (n : ℕ) : (e.actProg f m).Within n := by
  unfold actProg
  split <;> cases n <;> trivial

theorem generatePerturbed_confined (f : EFile) (i : ℕ) (s : S) :
    (e.generatePerturbed f i s).Confined i := by
  refine Prog.Confined.bind (e.load_confined f i) fun x => ?_
  cases x with
  | some m => exact Prog.Confined.bind (e.actProg_confined f m i) fun _ => trivial
  | none =>
    refine Prog.Confined.bind (ofExcept_confined i _) fun p => ⟨rfl, ?_⟩
    exact Prog.Confined.bind (e.actProg_confined f _ i) fun _ => trivial

theorem generatePerturbed_within (f : EFile) (i : ℕ) (s : S) : (e.generatePerturbed f i s).Within 2 := by
  refine Prog.Within.bind (n := 1) (m := 1) (e.load_within _) fun x => ?_
  cases x with
  | some m => exact (e.actProg_within f m 1).bind (m := 0) fun _ => trivial
  | none =>
    refine Prog.Within.bind (n := 0) (m := 1) (ofExcept_within 0 _) fun p => ?_
    exact (e.actProg_within f _ 0).bind (m := 0) fun _ => trivial

theorem subtractBg_confined (i : ℕ) (a b : M) : (e.subtractBg i a b).Confined i := by
  refine Prog.Confined.bind (e.load_confined .raw i) fun x => ?_
  cases x with
  | some m => exact e.actProg_confined .raw m i
  | none => exact Prog.Confined.bind (ofExcept_confined i _) fun p => ⟨rfl, e.actProg_confined .raw p i⟩

theorem subtractBg_within (i : ℕ) (a b : M) : (e.subtractBg i a b).Within 2 := by
  refine Prog.Within.bind (n := 1) (m := 1) (e.load_within _) fun x => ?_
  cases x with
  | some m => exact e.actProg_within .raw m 1
  | none => exact Prog.Within.bind (n := 0) (m := 1) (ofExcept_within 0 _) fun p => e.actProg_within .raw p 0

theorem unfold_confined (i : ℕ) (a : M) : (e.unfold i a).Confined i := by
  refine Prog.Confined.bind (e.load_confined .unfolded i) fun x => ?_
  cases x with
  | some m => exact Prog.Confined.bind (e.actProg_confined _ m i) fun _ => trivial
  | none =>
    refine Prog.Confined.bind (ofExcept_confined i _) fun p => ⟨rfl, ?_⟩
    exact Prog.Confined.bind (e.actProg_confined _ p i) fun _ => trivial

theorem unfold_within (i : ℕ) (a : M) : (e.unfold i a).Within 2 := by
  refine Prog.Within.bind (n := 1) (m := 1) (e.load_within _) fun x => ?_
  cases x with
  | some m => exact (e.actProg_within _ m 1).bind (m := 0) fun _ => trivial
  | none =>
    refine Prog.Within.bind (n := 0) (m := 1) (ofExcept_within 0 _) fun p => ?_
    exact (e.actProg_within _ p 0).bind (m := 0) fun _ => trivial

theorem firstGeneration_confined (i : ℕ) (a : M) : (e.firstGeneration i a).Confined i := by
  refine Prog.Confined.bind (e.load_confined .firstgen i) fun x => ?_
  cases x with
  | some m => exact Prog.Confined.bind (e.actProg_confined _ m i) fun _ => trivial
  | none =>
    refine Prog.Confined.bind (ofExcept_confined i _) fun p => ⟨rfl, ?_⟩
    exact Prog.Confined.bind (e.actProg_confined _ p i) fun _ => trivial

theorem firstGeneration_within (i : ℕ) (a : M) : (e.firstGeneration i a).Within 2 := by
  refine Prog.Within.bind (n := 1) (m := 1) (e.load_within _) fun x => ?_
  cases x with
  | some m => exact (e.actProg_within _ m 1).bind (m := 0) fun _ => trivial
  | none =>
    refine Prog.Within.bind (n := 0) (m := 1) (ofExcept_within 0 _) fun p => ?_
    exact (e.actProg_within _ p 0).bind (m := 0) fun _ => trivial

theorem rawStage_confined (i : ℕ) : (e.rawStage i).Confined i := by
  unfold rawStage
  split_ifs
  · exact Prog.Confined.bind (e.generatePerturbed_confined _ _ _) fun p =>
      Prog.Confined.bind (e.generatePerturbed_confined _ _ _) fun b => e.subtractBg_confined _ _ _
  · exact Prog.Confined.bind (e.generatePerturbed_confined _ _ _) fun p => trivial

theorem rawStage_within (i : ℕ) : (e.rawStage i).Within 6 := by
  unfold rawStage
  split_ifs
  · exact Prog.Within.bind (n := 2) (m := 4) (e.generatePerturbed_within _ _ _) fun p =>
      Prog.Within.bind (n := 2) (m := 2) (e.generatePerturbed_within _ _ _) fun b =>
        e.subtractBg_within _ _ _
  · exact Prog.Within.bind (n := 2) (m := 4) (e.generatePerturbed_within _ _ _) fun p => trivial

theorem finish_confined (i : ℕ) (a b c : M) : (e.finish i a b c).Confined i := by
  unfold finish
  by_cases h0 : i = 0
  · simp only [if_pos h0]
    refine ⟨h0.symm, ?_⟩
    split_ifs <;> trivial
  · simp only [if_neg h0]
    split_ifs <;> trivial

theorem finish_within (i : ℕ) (a b c : M) : (e.finish i a b c).Within 1 := by
  unfold finish
  by_cases h0 : i = 0
  · simp only [if_pos h0]
    show Prog.Within 0 _
    split_ifs <;> trivial
  · simp only [if_neg h0]
    split_ifs <;> trivial

theorem step_confined (i : ℕ) : (e.step i).Confined i :=
  Prog.Confined.bind (e.rawStage_confined i) fun _ =>
    Prog.Confined.bind (e.unfold_confined i _) fun _ =>
      Prog.Confined.bind (e.firstGeneration_confined i _) fun _ => e.finish_confined i _ _ _

theorem step_within (i : ℕ) : (e.step i).Within 11 :=
  Prog.Within.bind (n := 6) (m := 5) (e.rawStage_within i) fun _ =>
    Prog.Within.bind (n := 2) (m := 3) (e.unfold_within i _) fun _ =>
      Prog.Within.bind (n := 2) (m := 1) (e.firstGeneration_within i _) fun _ => e.finish_within i _ _ _

end Ens

/-! ### C40 -/

/-- Invariant of the pool: what is left of member `i` on the present disk is what its whole program would
have done alone on the disk at the start. -/
theorem pool_inv (reload : M → M) (progs : ℕ → Prog M α) (hc : ∀ i, (progs i).Confined i) (d : Disk M)
    (sched : List ℕ) :
    let s := poolRun reload sched ⟨progs, d⟩
    (∀ i, (s.procs i).Confined i) ∧
    (∀ i, ((s.procs i).run reload s.disk).1 = ((progs i).run reload d).1) ∧
    ∀ i f, ((s.procs i).run reload s.disk).2 (f, i) = ((progs i).run reload d).2 (f, i) := by
  induction sched using List.reverseRecOn with
  | nil => exact ⟨hc, fun _ => rfl, fun _ _ => rfl⟩
  | append_singleton l a ih =>
    intro s
    have hs : s = poolStep reload (poolRun reload l ⟨progs, d⟩) a := by simp [s, poolRun]
    rw [hs]
    set t := poolRun reload l ⟨progs, d⟩ with ht
    obtain ⟨c1, c2, c3⟩ := ih
    have other : ∀ i, i ≠ a → ∀ f, ((t.procs a).next reload t.disk).2 (f, i) = t.disk (f, i) :=
      fun i hi f => Prog.next_frame reload (c1 a) t.disk (f, i) hi
    refine ⟨?_, ?_, ?_⟩
    · intro i
      simp only [poolStep]
      by_cases hia : i = a
      · subst hia
        rw [Function.update_self]
        exact Prog.next_confined reload (c1 i) _
      · rw [Function.update_of_ne hia]
        exact c1 i
    · intro i
      simp only [poolStep]
      by_cases hia : i = a
      · subst hia
        rw [Function.update_self, Prog.run_next]
        exact c2 i
      · rw [Function.update_of_ne hia, ← c2 i]
        exact (Prog.run_congr reload (c1 i) _ _ (other i hia)).1
    · intro i f
      simp only [poolStep]
      by_cases hia : i = a
      · subst hia
        rw [Function.update_self, Prog.run_next]
        exact c3 i f
      · rw [Function.update_of_ne hia, ← c3 i f]
        exact (Prog.run_congr reload (c1 i) _ _ (other i hia)).2 f

/-- **C40.** Whatever the order in which the processes make their file operations: a member that is finished
has the result it would have alone, on the disk at the start, and its files are those it would have written
alone. -/
theorem C40_schedule (e : Ens M S) (d : Disk M) (sched : List ℕ) (i : ℕ) (r : Except Err (M × M × M))
    (h : ((e.pool d sched).procs i).done = some r) :
    r = ((e.step i).run e.reload d).1 ∧
      ∀ f, (e.pool d sched).disk (f, i) = ((e.step i).run e.reload d).2 (f, i) := by
  obtain ⟨_, h2, h3⟩ := pool_inv e.reload e.step e.step_confined d sched
  have hr := Prog.done_run e.reload h (e.pool d sched).disk
  constructor
  · have := h2 i
    rw [show poolRun e.reload sched ⟨e.step, d⟩ = e.pool d sched from rfl, hr] at this
    exact this
  · intro f
    have := h3 i f
    rw [show poolRun e.reload sched ⟨e.step, d⟩ = e.pool d sched from rfl, hr] at this
    exact this

theorem pool_within (e : Ens M S) (d : Disk M) (sched : List ℕ) (i : ℕ) :
    ((e.pool d sched).procs i).Within (11 - sched.count i) := by
  induction sched using List.reverseRecOn with
  | nil => exact e.step_within i
  | append_singleton l a ih =>
    have hs : e.pool d (l ++ [a]) = poolStep e.reload (e.pool d l) a := by simp [Ens.pool, poolRun]
    rw [hs]
    simp only [poolStep]
    by_cases hia : i = a
    · subst hia
      rw [Function.update_self, List.count_append, List.count_singleton_self]
      cases hn : 11 - l.count i with
      | zero =>
        rw [hn] at ih
        rw [Prog.next_of_done _ (Prog.within_zero ih)]
        exact ih.mono (by omega)
      | succ n =>
        rw [hn] at ih
        exact (Prog.next_within e.reload ih _).mono (by omega)
    · rw [Function.update_of_ne hia, List.count_append, List.count_singleton]
      simpa [Ne.symm hia] using ih

/-- **C40.** Eleven file operations are enough for every member: every schedule that grants them finishes. -/
theorem C40_finishes (e : Ens M S) (d : Disk M) (sched : List ℕ) (i : ℕ) (h : 11 ≤ sched.count i) :
    ∃ r, ((e.pool d sched).procs i).done = some r := by
  have hw := pool_within e d sched i
  rw [show 11 - sched.count i = 0 by omega] at hw
  exact Option.ne_none_iff_exists'.1 (Prog.within_zero hw)

theorem serial_frame (e : Ens M S) (d : Disk M) (n : ℕ) :
    ∀ i, n ≤ i → ∀ f, (e.generateSerial n d).2 (f, i) = d (f, i) := by
  induction n with
  | zero => intro i _ f; rfl
  | succ n ih =>
    intro i hi f
    rw [Ens.generateSerial]
    rcases hg : e.generateSerial n d with ⟨_ | l, d'⟩
    · simp only
      have := ih i (by omega) f
      rw [hg] at this
      exact this
    · simp only
      have h1 := ih i (by omega) f
      rw [hg] at h1
      have h2 := Prog.run_frame e.reload (e.step_confined n) d' (f, i) (by simp; omega)
      rcases hr : (e.step n).run e.reload d' with ⟨_ | r, d''⟩ <;> rw [hr] at h2 <;> simp only <;>
        exact h2.trans h1

/-- **C40.** The members of `generate(n)` in one process: each is what its step gives alone on the disk at the
start (an exception is that of the first member that raises). -/
theorem C40_serial (e : Ens M S) (d : Disk M) (n : ℕ) :
    (e.generateSerial n d).1 = (List.range n).mapM fun i => ((e.step i).run e.reload d).1 := by
  induction n with
  | zero => rfl
  | succ n ih =>
    rw [Ens.generateSerial, List.range_succ, List.mapM_append, ← ih]
    have hf := serial_frame e d n n (le_refl n)
    rcases hg : e.generateSerial n d with ⟨err | l, d'⟩
    · rfl
    · rw [hg] at hf
      have hc := (Prog.run_congr e.reload (e.step_confined n) d' d hf).1
      simp only
      rcases hr : (e.step n).run e.reload d' with ⟨err | r, d''⟩
      · rw [hr] at hc
        simp only at hc
        simp [← hc, bind, Except.bind]
      · rw [hr] at hc
        simp only at hc
        simp [← hc, bind, Except.bind, pure, Except.pure]

/-- **C40.** The first `k` members of `generate(n)` are the members of `generate(k)`. -/
theorem C40_prefix (e : Ens M S) (d : Disk M) (n k : ℕ) (hk : k ≤ n) (l : List (M × M × M))
    (h : (e.generateSerial n d).1 = .ok l) :
    l.length = n ∧ (e.generateSerial k d).1 = .ok (l.take k) := by
  induction n generalizing l with
  | zero =>
    have : k = 0 := by omega
    subst this
    simp only [Ens.generateSerial, Except.ok.injEq] at h ⊢
    subst h
    exact ⟨rfl, rfl⟩
  | succ n ih =>
    have h0 := h
    rw [Ens.generateSerial] at h
    rcases hg : e.generateSerial n d with ⟨err | l', d'⟩
    · rw [hg] at h
      simp at h
    · rw [hg] at h
      simp only at h
      rcases hr : (e.step n).run e.reload d' with ⟨err | r, d''⟩
      · rw [hr] at h
        simp at h
      · rw [hr] at h
        simp only [Except.ok.injEq] at h
        subst h
        have hl : l'.length = n := by
          rcases Nat.eq_zero_or_pos n with hz | _
          · subst hz
            simp only [Ens.generateSerial, Prod.mk.injEq, Except.ok.injEq] at hg
            rw [← hg.1]
            rfl
          · have : ∀ n d l d', e.generateSerial n d = (.ok l, d') → l.length = n := by
              intro n
              induction n with
              | zero =>
                intro d l d' h
                simp only [Ens.generateSerial, Prod.mk.injEq, Except.ok.injEq] at h
                rw [← h.1]
                rfl
              | succ n ihn =>
                intro d l d' h
                rw [Ens.generateSerial] at h
                rcases hg : e.generateSerial n d with ⟨err | l', d1⟩
                · rw [hg] at h; simp at h
                · rw [hg] at h
                  simp only at h
                  rcases hr : (e.step n).run e.reload d1 with ⟨err | r, d2⟩
                  · rw [hr] at h; simp at h
                  · rw [hr] at h
                    simp only [Prod.mk.injEq, Except.ok.injEq] at h
                    rw [← h.1]
                    simp [ihn _ _ _ hg]
            exact this _ _ _ _ hg
        refine ⟨by simp [hl], ?_⟩
        rcases Nat.lt_or_eq_of_le hk with hlt | rfl
        · rw [List.take_append_of_le_length (by omega)]
          exact (ih (by omega) l' (by rw [hg])).2
        · rw [h0, List.take_of_length_le (by simp [hl])]

theorem load_regenerate (e : Ens M S) (h : e.regenerate = true) (k : EKey) : e.load k = .ret none := by
  rw [Ens.load, if_pos h]

/-- The program looks for no file. -/
def Prog.NoRead : Prog M α → Prop
  | .ret _ => True
  | .fail _ => True
  | .read _ _ => False
  | .write _ _ c => c.NoRead

theorem Prog.NoRead.bind {p : Prog M α} (hp : p.NoRead) {f : α → Prog M β} (hf : ∀ a, (f a).NoRead) :
    (p.bind f).NoRead := by
  induction p with
  | ret a => exact hf a
  | fail e => trivial
  | read k c ih => exact hp.elim
  | write k m c ih => exact ih hp

theorem Prog.NoRead.run (reload : M → M) {p : Prog M α} (hp : p.NoRead) (d d' : Disk M) :
    (p.run reload d).1 = (p.run reload d').1 := by
  induction p generalizing d d' with
  | ret a => rfl
  | fail e => rfl
  | read k c ih => exact hp.elim
  | write k m c ih => exact ih hp _ _

theorem ofExcept_noRead (x : Except Err α) : (Prog.ofExcept x : Prog M α).NoRead := by
  cases x <;> trivial

theorem actProg_noRead (e : Ens M S) (f : EFile) (m : M) : (e.actProg f m).NoRead := by
  unfold Ens.actProg
  split <;> trivial

/-- **C40.** With `regenerate=True` the members do not depend on the files that are there. -/
theorem C40_regenerate (e : Ens M S) (h : e.regenerate = true) (i : ℕ) (d d' : Disk M) :
    ((e.step i).run e.reload d).1 = ((e.step i).run e.reload d').1 := by
  apply Prog.NoRead.run
  have gp : ∀ f s, (e.generatePerturbed f i s).NoRead := by
    intro f s
    unfold Ens.generatePerturbed
    rw [load_regenerate e h]
    exact (ofExcept_noRead _).bind fun p => (actProg_noRead e _ _).bind fun _ => trivial
  have hraw : (e.rawStage i).NoRead := by
    unfold Ens.rawStage
    split_ifs
    · refine (gp _ _).bind fun p => (gp _ _).bind fun b => ?_
      unfold Ens.subtractBg
      rw [load_regenerate e h]
      exact (ofExcept_noRead _).bind fun p => actProg_noRead e _ _
    · exact (gp _ _).bind fun _ => trivial
  refine hraw.bind fun r => Prog.NoRead.bind ?_ fun ru => Prog.NoRead.bind ?_ fun uf => ?_
  · unfold Ens.unfold
    rw [load_regenerate e h]
    exact (ofExcept_noRead _).bind fun p => (actProg_noRead e _ _).bind fun _ => trivial
  · unfold Ens.firstGeneration
    rw [load_regenerate e h]
    exact (ofExcept_noRead _).bind fun p => (actProg_noRead e _ _).bind fun _ => trivial
  · unfold Ens.finish
    by_cases h0 : i = 0
    · simp only [if_pos h0]
      show Prog.NoRead _
      split_ifs <;> trivial
    · simp only [if_neg h0]
      split_ifs <;> trivial

/-! ### C39 -/

/-- The action on a matrix, as a value. -/
def actE (e : Ens M S) (f : EFile) (m : M) : Except Err M :=
  match (e.act f m).2 with
  | .ok _ => .ok (e.act f m).1
  | .error err => .error err

/-- What an uninterrupted generation saves as `prompt+bg_<i>`. -/
def promptSaved (e : Ens M S) (i : ℕ) : Except Err M := (e.gen .prompt (e.child i)).map Prod.fst

/-- … as `bg_<i>`: drawn with the generator in the state after the prompt matrix. -/
def bgSaved (e : Ens M S) (i : ℕ) : Except Err M :=
  match e.gen .prompt (e.child i) with
  | .error err => .error err
  | .ok p =>
    match actE e .prompt p.1 with
    | .error err => .error err
    | .ok _ => (e.gen .bg p.2).map Prod.fst

/-- … as `raw_<i>`. -/
def rawSaved (e : Ens M S) (i : ℕ) : Except Err M :=
  if e.hasBg then
    match promptSaved e i with
    | .error err => .error err
    | .ok p =>
      match actE e .prompt p with
      | .error err => .error err
      | .ok p' =>
        match bgSaved e i with
        | .error err => .error err
        | .ok b =>
          match actE e .bg b with
          | .error err => .error err
          | .ok b' => e.sub p' b'
  else (e.gen .raw (e.child i)).map Prod.fst

/-- The raw member. -/
def rawMember (e : Ens M S) (i : ℕ) : Except Err M :=
  match rawSaved e i with
  | .error err => .error err
  | .ok r => actE e .raw r

/-- … as `unfolded_<i>`. -/
def unfSaved (e : Ens M S) (i : ℕ) : Except Err M :=
  match rawMember e i with
  | .error err => .error err
  | .ok r => (e.unf r).2

/-- The unfolded member. -/
def unfMember (e : Ens M S) (i : ℕ) : Except Err M :=
  match unfSaved e i with
  | .error err => .error err
  | .ok u => actE e .unfolded u

/-- … as `firstgen_<i>`. -/
def fgSaved (e : Ens M S) (i : ℕ) : Except Err M :=
  match unfMember e i with
  | .error err => .error err
  | .ok u => (e.fg u).2

/-- The first-generation member. -/
def fgMember (e : Ens M S) (i : ℕ) : Except Err M :=
  match fgSaved e i with
  | .error err => .error err
  | .ok u => actE e .firstgen u

/-- The member of an uninterrupted generation, without reference to files. -/
def member (e : Ens M S) (i : ℕ) : Except Err (M × M × M) :=
  match rawMember e i with
  | .error err => .error err
  | .ok r =>
    match unfMember e i with
    | .error err => .error err
    | .ok u =>
      match fgMember e i with
      | .error err => .error err
      | .ok f => if e.sameShape r u f then .ok (r, u, f) else .error .assertion

/-- The methods depend only on what a file keeps (`vals`: values and axes), and leave their argument as it
is. -/
structure Transparent (e : Ens M S) (vals : M → V) : Prop where
  reload : ∀ m, vals (e.reload m) = vals m
  act : ∀ f a b, vals a = vals b → (actE e f a).map vals = (actE e f b).map vals
  sub : ∀ a a' b b', vals a = vals a' → vals b = vals b' → (e.sub a b).map vals = (e.sub a' b').map vals
  unf : ∀ a b, vals a = vals b → (e.unf a).2.map vals = (e.unf b).2.map vals
  unf_arg : ∀ a, vals (e.unf a).1 = vals a
  fg : ∀ a b, vals a = vals b → (e.fg a).2.map vals = (e.fg b).2.map vals
  fg_arg : ∀ a, vals (e.fg a).1 = vals a
  shape : ∀ a a' b b' c c', vals a = vals a' → vals b = vals b' → vals c = vals c' →
    e.sameShape a b c = e.sameShape a' b' c'

/-- The content of a file agrees with the uninterrupted run. -/
def GoodFile (e : Ens M S) (vals : M → V) : EKey → M → Prop
  | (.raw, i), m => (rawSaved e i).map vals = .ok (vals m)
  | (.prompt, i), m => e.hasBg = true → (promptSaved e i).map vals = .ok (vals m)
  | (.bg, i), m => e.hasBg = true → (bgSaved e i).map vals = .ok (vals m)
  | (.unfolded, i), m => (unfSaved e i).map vals = .ok (vals m)
  | (.firstgen, i), m => (fgSaved e i).map vals = .ok (vals m)
  | (.firstgenMain, _), _ => True

/-- All files of the members agree with the uninterrupted run. -/
def GoodDisk (e : Ens M S) (vals : M → V) (d : Disk M) : Prop := ∀ k m, d k = some m → GoodFile e vals k m

/-- No file of a prompt matrix without the background of the same member. -/
def PairedBg (e : Ens M S) (d : Disk M) (i : ℕ) : Prop :=
  e.hasBg = true → d (.prompt, i) ≠ none → d (.bg, i) ≠ none

/-- Along the run of the program on `d`, every file written is good. -/
def Prog.SafeAt (reload : M → M) (G : EKey → M → Prop) : Prog M α → Disk M → Prop
  | .ret _, _ => True
  | .fail _, _ => True
  | .read k c, d => (c ((d k).map reload)).SafeAt reload G d
  | .write k m c, d => G k m ∧ c.SafeAt reload G (Function.update d k (some m))

theorem Prog.safeAt_bind (reload : M → M) (G : EKey → M → Prop) (p : Prog M α) (f : α → Prog M β)
    (d : Disk M) (hp : p.SafeAt reload G d)
    (hf : ∀ a d', p.run reload d = (.ok a, d') → (f a).SafeAt reload G d') :
    (p.bind f).SafeAt reload G d := by
  induction p generalizing d with
  | ret a => exact hf a d rfl
  | fail e => trivial
  | read k c ih => exact ih _ d hp hf
  | write k m c ih => exact ⟨hp.1, ih _ hp.2 hf⟩

theorem Prog.safeAt_next (reload : M → M) (G : EKey → M → Prop) (p : Prog M α) (d : Disk M)
    (hp : p.SafeAt reload G d) (hd : ∀ k m, d k = some m → G k m) :
    (p.next reload d).1.SafeAt reload G (p.next reload d).2 ∧
      ∀ k m, (p.next reload d).2 k = some m → G k m := by
  cases p with
  | ret a => exact ⟨trivial, hd⟩
  | fail e => exact ⟨trivial, hd⟩
  | read k c => exact ⟨hp, hd⟩
  | write k m c =>
    refine ⟨hp.2, ?_⟩
    intro k' m' h
    by_cases hk : k' = k
    · subst hk
      simp only [Prog.next, Function.update_self, Option.some.injEq] at h
      subst h
      exact hp.1
    · simp only [Prog.next] at h
      rw [Function.update_of_ne hk] at h
      exact hd k' m' h

theorem Prog.safeAt_congr (reload : M → M) (G : EKey → M → Prop) {i : ℕ} (p : Prog M α) (hc : p.Confined i)
    (d d' : Disk M) (h : ∀ f, d (f, i) = d' (f, i)) (hp : p.SafeAt reload G d) : p.SafeAt reload G d' := by
  induction p generalizing d d' with
  | ret a => trivial
  | fail e => trivial
  | read k c ih =>
    obtain ⟨kf, ki⟩ := k
    have hk : ki = i := hc.1
    subst hk
    have hp' : (c ((d (kf, ki)).map reload)).SafeAt reload G d := hp
    rw [h kf] at hp'
    exact ih _ (hc.2 _) d d' h hp'
  | write k m c ih =>
    obtain ⟨kf, ki⟩ := k
    have hk : ki = i := hc.1
    subst hk
    refine ⟨hp.1, ih hc.2 _ _ (fun f => ?_) hp.2⟩
    by_cases hf : f = kf
    · subst hf; simp
    · rw [Function.update_of_ne (by simpa using hf), Function.update_of_ne (by simpa using hf), h f]

/-- Files stay good under every schedule. -/
theorem pool_good (reload : M → M) (G : EKey → M → Prop) (progs : ℕ → Prog M α)
    (hc : ∀ i, (progs i).Confined i) (d : Disk M) (hd : ∀ k m, d k = some m → G k m)
    (hs : ∀ i, (progs i).SafeAt reload G d) (sched : List ℕ) :
    let s := poolRun reload sched ⟨progs, d⟩
    (∀ i, (s.procs i).SafeAt reload G s.disk) ∧ ∀ k m, s.disk k = some m → G k m := by
  induction sched using List.reverseRecOn with
  | nil => exact ⟨hs, hd⟩
  | append_singleton l a ih =>
    intro s
    have hs' : s = poolStep reload (poolRun reload l ⟨progs, d⟩) a := by simp [s, poolRun]
    rw [hs']
    have hconf := (pool_inv reload progs hc d l).1
    set t := poolRun reload l ⟨progs, d⟩ with ht
    obtain ⟨i1, i2⟩ := ih
    obtain ⟨n1, n2⟩ := Prog.safeAt_next reload G (t.procs a) t.disk (i1 a) i2
    refine ⟨?_, n2⟩
    intro i
    simp only [poolStep]
    by_cases hia : i = a
    · subst hia
      rw [Function.update_self]
      exact n1
    · rw [Function.update_of_ne hia]
      exact Prog.safeAt_congr reload G _ (hconf i) t.disk _
        (fun f => (Prog.next_frame reload (hconf a) t.disk (f, i) hia).symm) (i1 i)

theorem run_actProg (e : Ens M S) (f : EFile) (m : M) (d : Disk M) :
    (e.actProg f m).run e.reload d = (actE e f m, d) := by
  unfold Ens.actProg actE
  rcases (e.act f m).2 with err | u <;> rfl

theorem safe_actProg (e : Ens M S) (G : EKey → M → Prop) (f : EFile) (m : M) (d : Disk M) :
    (e.actProg f m).SafeAt e.reload G d := by
  unfold Ens.actProg
  rcases (e.act f m).2 with err | u <;> trivial

theorem run_load (e : Ens M S) (hr : e.regenerate = false) (k : EKey) (d : Disk M) :
    (e.load k).run e.reload d = (.ok ((d k).map e.reload), d) := by
  rw [Ens.load, if_neg (by simp [hr])]
  rfl

theorem safe_load (e : Ens M S) (G : EKey → M → Prop) (k : EKey) (d : Disk M) :
    (e.load k).SafeAt e.reload G d := by
  unfold Ens.load
  split_ifs <;> trivial

theorem run_ofExcept (reload : M → M) (x : Except Err α) (d : Disk M) :
    (Prog.ofExcept x : Prog M α).run reload d = (x, d) := by
  cases x <;> rfl

theorem safe_ofExcept (reload : M → M) (G : EKey → M → Prop) (x : Except Err α) (d : Disk M) :
    (Prog.ofExcept x : Prog M α).SafeAt reload G d := by
  cases x <;> trivial

/-- A stage that looks for its file, otherwise computes, saves and goes on. -/
def cachedProg {γ δ : Type} (e : Ens M S) (k : EKey) (x : Except Err γ) (mat : γ → M)
    (onSome : M → Prog M δ) (onNone : γ → Prog M δ) : Prog M δ :=
  (e.load k).bind fun
    | some m => onSome m
    | none => (Prog.ofExcept x).bind fun c => .write k (mat c) (onNone c)

/-- Its result. -/
def cachedResult {γ δ : Type} (o : Option M) (x : Except Err γ) (rs : M → Except Err δ)
    (rn : γ → Except Err δ) : Except Err δ :=
  match o with
  | some m => rs m
  | none =>
    match x with
    | .ok c => rn c
    | .error err => .error err

theorem cached_run {γ δ : Type} (e : Ens M S) (hr : e.regenerate = false) (k : EKey)
    (x : Except Err γ) (mat : γ → M) (onSome : M → Prog M δ) (onNone : γ → Prog M δ)
    (rs : M → Except Err δ) (rn : γ → Except Err δ)
    (h1 : ∀ m d, (onSome m).run e.reload d = (rs m, d)) (h2 : ∀ c d, (onNone c).run e.reload d = (rn c, d))
    (d : Disk M) :
    ((cachedProg e k x mat onSome onNone).run e.reload d).1 = cachedResult ((d k).map e.reload) x rs rn ∧
    ∀ k', k' ≠ k → ((cachedProg e k x mat onSome onNone).run e.reload d).2 k' = d k' := by
  unfold cachedProg cachedResult
  rw [Prog.run_bind, run_load e hr]
  rcases d k with _ | m
  · simp only [Option.map_none]
    rw [Prog.run_bind, run_ofExcept]
    rcases x with err | c
    · exact ⟨rfl, fun _ _ => rfl⟩
    · simp only [Prog.run]
      rw [h2]
      exact ⟨rfl, fun k' hk' => Function.update_of_ne hk' _ _⟩
  · simp only [Option.map_some]
    rw [h1]
    exact ⟨rfl, fun _ _ => rfl⟩

/-- A stage that looks for its file, otherwise computes, saves and goes on. -/
theorem cached_stage {γ δ : Type} (e : Ens M S) (hr : e.regenerate = false) (G : EKey → M → Prop) (k : EKey)
    (x : Except Err γ) (mat : γ → M) (onSome : M → Prog M δ) (onNone : γ → Prog M δ)
    (rs : M → Except Err δ) (rn : γ → Except Err δ)
    (h1 : ∀ m d, (onSome m).run e.reload d = (rs m, d)) (h2 : ∀ c d, (onNone c).run e.reload d = (rn c, d))
    (s1 : ∀ m d, (onSome m).SafeAt e.reload G d) (s2 : ∀ c d, (onNone c).SafeAt e.reload G d) (d : Disk M)
    (hG : d k = none → ∀ c, x = .ok c → G k (mat c)) :
    (cachedProg e k x mat onSome onNone).SafeAt e.reload G d ∧
      (∀ k', k' ≠ k → ((cachedProg e k x mat onSome onNone).run e.reload d).2 k' = d k') ∧
      ((cachedProg e k x mat onSome onNone).run e.reload d).1 = cachedResult ((d k).map e.reload) x rs rn := by
  obtain ⟨r1, r2⟩ := cached_run e hr k x mat onSome onNone rs rn h1 h2 d
  refine ⟨?_, r2, r1⟩
  apply Prog.safeAt_bind
  · exact safe_load e G k d
  · intro a d' ha
    rw [run_load e hr] at ha
    simp only [Prod.mk.injEq, Except.ok.injEq] at ha
    obtain ⟨rfl, rfl⟩ := ha
    rcases hd : d k with _ | m
    · simp only [Option.map_none]
      apply Prog.safeAt_bind
      · exact safe_ofExcept _ _ _ _
      · intro c d'' hc
        rw [run_ofExcept] at hc
        simp only [Prod.mk.injEq] at hc
        obtain ⟨rfl, rfl⟩ := hc
        exact ⟨hG hd c rfl, s2 _ _⟩
    · exact s1 _ _

theorem run_act_pair {δ : Type} (e : Ens M S) (f : EFile) (m : M) (g : M → δ) (d : Disk M) :
    ((e.actProg f m).bind fun m' => Prog.ret (g m')).run e.reload d = ((actE e f m).map g, d) := by
  rw [Prog.run_bind, run_actProg]
  rcases actE e f m with err | u <;> rfl

theorem safe_act_pair {δ : Type} (e : Ens M S) (G : EKey → M → Prop) (f : EFile) (m : M) (g : M → δ)
    (d : Disk M) : ((e.actProg f m).bind fun m' => Prog.ret (g m')).SafeAt e.reload G d :=
  Prog.safeAt_bind _ _ _ _ _ (safe_actProg e G f m d) fun _ _ _ => trivial

theorem map_eq_ok {x : Except Err α} {g : α → β} {b : β} (h : x.map g = .ok b) : ∃ a, x = .ok a ∧ g a = b := by
  rcases x with err | a
  · simp [Except.map] at h
  · simp only [Except.map, Except.ok.injEq] at h
    exact ⟨a, rfl, h⟩

theorem map_eq_error {x : Except Err α} {g : α → β} {b : Err} (h : x.map g = .error b) : x = .error b := by
  rcases x with err | a
  · simpa [Except.map] using h
  · simp [Except.map] at h

/-- Two results with equal images: both errors, or both values with equal images. -/
theorem map_eq_cases {x y : Except Err α} {g : α → β} (h : x.map g = y.map g) :
    (∃ err, x = .error err ∧ y = .error err) ∨ ∃ a b, x = .ok a ∧ y = .ok b ∧ g a = g b := by
  rcases x with err | a <;> rcases y with err' | b <;> simp only [Except.map] at h
  · left; exact ⟨err, rfl, by rw [Except.error.injEq] at h; rw [h]⟩
  · simp at h
  · simp at h
  · right; exact ⟨a, b, rfl, rfl, by simpa using h⟩

variable {vals : M → V}

theorem unf_stage (e : Ens M S) (hr : e.regenerate = false) (ht : Transparent e vals) (i : ℕ) (d : Disk M)
    (hg : ∀ m, d (.unfolded, i) = some m → GoodFile e vals (.unfolded, i) m) (a r : M)
    (hra : rawMember e i = .ok r) (hv : vals a = vals r) :
    (e.unfold i a).SafeAt e.reload (GoodFile e vals) d ∧
      (∀ k', k' ≠ (.unfolded, i) → ((e.unfold i a).run e.reload d).2 k' = d k') ∧
      ((e.unfold i a).run e.reload d).1.map (fun p => (vals p.1, vals p.2)) =
        (unfMember e i).map fun u => (vals r, vals u) := by
  have hu : (e.unf a).2.map vals = (unfSaved e i).map vals := by
    unfold unfSaved
    rw [hra]
    exact ht.unf a r hv
  have hprog : e.unfold i a = cachedProg e (.unfolded, i) (e.unf a).2 (fun m => m)
      (fun m => (e.actProg .unfolded m).bind fun u => .ret (a, u))
      (fun m => (e.actProg .unfolded m).bind fun u => .ret ((e.unf a).1, u)) := rfl
  have key := cached_stage e hr (GoodFile e vals) (.unfolded, i) (e.unf a).2 (fun m => m)
    (fun m => (e.actProg .unfolded m).bind fun u => .ret (a, u))
    (fun m => (e.actProg .unfolded m).bind fun u => .ret ((e.unf a).1, u))
    (fun m => (actE e .unfolded m).map fun u => (a, u))
    (fun m => (actE e .unfolded m).map fun u => ((e.unf a).1, u))
    (fun m d => run_act_pair e _ m _ d) (fun m d => run_act_pair e _ m _ d)
    (fun m d => safe_act_pair e _ _ m _ d) (fun m d => safe_act_pair e _ _ m _ d) d
    (by
      intro _ c hc
      show (unfSaved e i).map vals = .ok (vals c)
      rw [← hu, hc]
      rfl)
  rw [hprog]
  refine ⟨key.1, key.2.1, ?_⟩
  rw [key.2.2]
  unfold cachedResult unfMember
  rcases hd : d (.unfolded, i) with _ | m
  · simp only [Option.map_none]
    rcases map_eq_cases hu with ⟨err, e1, e2⟩ | ⟨x, y, e1, e2, e3⟩
    · rw [e1, e2]; rfl
    · rw [e1, e2]
      simp only
      rcases map_eq_cases (ht.act .unfolded x y e3) with ⟨err, f1, f2⟩ | ⟨x', y', f1, f2, f3⟩
      · rw [f1, f2]; rfl
      · rw [f1, f2]
        simp only [Except.map, ht.unf_arg, hv, f3]
  · simp only [Option.map_some]
    obtain ⟨y, hy, hyv⟩ := map_eq_ok (show (unfSaved e i).map vals = .ok (vals m) from hg _ hd)
    rw [hy]
    simp only
    rcases map_eq_cases (ht.act .unfolded (e.reload m) y (by rw [ht.reload, hyv])) with
      ⟨err, f1, f2⟩ | ⟨x', y', f1, f2, f3⟩
    · rw [f1, f2]; rfl
    · rw [f1, f2]
      simp only [Except.map, hv, f3]

theorem fg_stage (e : Ens M S) (hr : e.regenerate = false) (ht : Transparent e vals) (i : ℕ) (d : Disk M)
    (hg : ∀ m, d (.firstgen, i) = some m → GoodFile e vals (.firstgen, i) m) (a r : M)
    (hra : unfMember e i = .ok r) (hv : vals a = vals r) :
    (e.firstGeneration i a).SafeAt e.reload (GoodFile e vals) d ∧
      (∀ k', k' ≠ (.firstgen, i) → ((e.firstGeneration i a).run e.reload d).2 k' = d k') ∧
      ((e.firstGeneration i a).run e.reload d).1.map (fun p => (vals p.1, vals p.2)) =
        (fgMember e i).map fun u => (vals r, vals u) := by
  have hu : (e.fg a).2.map vals = (fgSaved e i).map vals := by
    unfold fgSaved
    rw [hra]
    exact ht.fg a r hv
  have hprog : e.firstGeneration i a = cachedProg e (.firstgen, i) (e.fg a).2 (fun m => m)
      (fun m => (e.actProg .firstgen m).bind fun u => .ret (a, u))
      (fun m => (e.actProg .firstgen m).bind fun u => .ret ((e.fg a).1, u)) := rfl
  have key := cached_stage e hr (GoodFile e vals) (.firstgen, i) (e.fg a).2 (fun m => m)
    (fun m => (e.actProg .firstgen m).bind fun u => .ret (a, u))
    (fun m => (e.actProg .firstgen m).bind fun u => .ret ((e.fg a).1, u))
    (fun m => (actE e .firstgen m).map fun u => (a, u))
    (fun m => (actE e .firstgen m).map fun u => ((e.fg a).1, u))
    (fun m d => run_act_pair e _ m _ d) (fun m d => run_act_pair e _ m _ d)
    (fun m d => safe_act_pair e _ _ m _ d) (fun m d => safe_act_pair e _ _ m _ d) d
    (by
      intro _ c hc
      show (fgSaved e i).map vals = .ok (vals c)
      rw [← hu, hc]
      rfl)
  rw [hprog]
  refine ⟨key.1, key.2.1, ?_⟩
  rw [key.2.2]
  unfold cachedResult fgMember
  rcases hd : d (.firstgen, i) with _ | m
  · simp only [Option.map_none]
    rcases map_eq_cases hu with ⟨err, e1, e2⟩ | ⟨x, y, e1, e2, e3⟩
    · rw [e1, e2]; rfl
    · rw [e1, e2]
      simp only
      rcases map_eq_cases (ht.act .firstgen x y e3) with ⟨err, f1, f2⟩ | ⟨x', y', f1, f2, f3⟩
      · rw [f1, f2]; rfl
      · rw [f1, f2]
        simp only [Except.map, ht.fg_arg, hv, f3]
  · simp only [Option.map_some]
    obtain ⟨y, hy, hyv⟩ := map_eq_ok (show (fgSaved e i).map vals = .ok (vals m) from hg _ hd)
    rw [hy]
    simp only
    rcases map_eq_cases (ht.act .firstgen (e.reload m) y (by rw [ht.reload, hyv])) with
      ⟨err, f1, f2⟩ | ⟨x', y', f1, f2, f3⟩
    · rw [f1, f2]; rfl
    · rw [f1, f2]
      simp only [Except.map, hv, f3]

/-- `generate_perturbed`. -/
theorem gen_stage (e : Ens M S) (hr : e.regenerate = false) (G : EKey → M → Prop) (f : EFile) (i : ℕ) (s : S)
    (d : Disk M) (hG : d (f, i) = none → ∀ p, e.gen f s = .ok p → G (f, i) p.1) :
    (e.generatePerturbed f i s).SafeAt e.reload G d ∧
      (∀ k', k' ≠ (f, i) → ((e.generatePerturbed f i s).run e.reload d).2 k' = d k') ∧
      ((e.generatePerturbed f i s).run e.reload d).1 = cachedResult ((d (f, i)).map e.reload) (e.gen f s)
        (fun m => (actE e f m).map fun m' => (m', s)) (fun p => (actE e f p.1).map fun m' => (m', p.2)) :=
  cached_stage e hr G (f, i) (e.gen f s) (fun p => p.1)
    (fun m => (e.actProg f m).bind fun m' => .ret (m', s))
    (fun p => (e.actProg f p.1).bind fun m' => .ret (m', p.2))
    (fun m => (actE e f m).map fun m' => (m', s)) (fun p => (actE e f p.1).map fun m' => (m', p.2))
    (fun m d => run_act_pair e _ m _ d) (fun p d => run_act_pair e _ p.1 _ d)
    (fun m d => safe_act_pair e _ _ m _ d) (fun p d => safe_act_pair e _ _ p.1 _ d) d hG

theorem sub_stage (e : Ens M S) (hr : e.regenerate = false) (G : EKey → M → Prop) (i : ℕ) (a b : M)
    (d : Disk M) (hG : d (.raw, i) = none → ∀ p, e.sub a b = .ok p → G (.raw, i) p) :
    (e.subtractBg i a b).SafeAt e.reload G d ∧
      (∀ k', k' ≠ (.raw, i) → ((e.subtractBg i a b).run e.reload d).2 k' = d k') ∧
      ((e.subtractBg i a b).run e.reload d).1 = cachedResult ((d (.raw, i)).map e.reload) (e.sub a b)
        (actE e .raw) (actE e .raw) :=
  cached_stage e hr G (.raw, i) (e.sub a b) (fun p => p)
    (fun m => e.actProg .raw m) (fun m => e.actProg .raw m) (actE e .raw) (actE e .raw)
    (fun m d => run_actProg e _ m d) (fun p d => run_actProg e _ p d)
    (fun m d => safe_actProg e _ _ m d) (fun p d => safe_actProg e _ _ p d) d hG

theorem prompt_stage (e : Ens M S) (hr : e.regenerate = false) (ht : Transparent e vals) (hb : e.hasBg = true)
    (i : ℕ) (d : Disk M) (hg : GoodDisk e vals d) (hp : PairedBg e d i) :
    (e.generatePerturbed .prompt i (e.child i)).SafeAt e.reload (GoodFile e vals) d ∧
    (∀ k', k' ≠ (.prompt, i) → ((e.generatePerturbed .prompt i (e.child i)).run e.reload d).2 k' = d k') ∧
    ((∃ err, ((e.generatePerturbed .prompt i (e.child i)).run e.reload d).1 = .error err ∧
        rawSaved e i = .error err) ∨
      ∃ p' s pS pS', ((e.generatePerturbed .prompt i (e.child i)).run e.reload d).1 = .ok (p', s) ∧
        promptSaved e i = .ok pS ∧ actE e .prompt pS = .ok pS' ∧ vals p' = vals pS' ∧
        (d (.bg, i) = none → bgSaved e i = (e.gen .bg s).map Prod.fst)) := by
  obtain ⟨k1, k2, k3⟩ := gen_stage e hr (GoodFile e vals) .prompt i (e.child i) d (by
    intro _ p hpk _
    unfold promptSaved
    rw [hpk]
    rfl)
  refine ⟨k1, k2, ?_⟩
  rw [k3]
  unfold cachedResult
  rcases hd : d (.prompt, i) with _ | m
  · simp only [Option.map_none]
    rcases hgen : e.gen .prompt (e.child i) with err | p
    · left
      refine ⟨err, rfl, ?_⟩
      rw [rawSaved, if_pos hb, promptSaved, hgen]
      rfl
    · simp only
      rcases hact : actE e .prompt p.1 with err | p'
      · left
        refine ⟨err, rfl, ?_⟩
        rw [rawSaved, if_pos hb, promptSaved, hgen]
        simp only [Except.map, hact]
      · right
        refine ⟨p', p.2, p.1, p', rfl, ?_, hact, rfl, ?_⟩
        · rw [promptSaved, hgen]; rfl
        · intro _
          rw [bgSaved, hgen]
          simp only [hact]
  · simp only [Option.map_some]
    obtain ⟨y, hy, hyv⟩ := map_eq_ok (show (promptSaved e i).map vals = .ok (vals m) from hg _ _ hd hb)
    rcases map_eq_cases (ht.act .prompt (e.reload m) y (by rw [ht.reload, hyv])) with
      ⟨err, f1, f2⟩ | ⟨x', y', f1, f2, f3⟩
    · left
      refine ⟨err, by rw [f1]; rfl, ?_⟩
      rw [rawSaved, if_pos hb, hy]
      simp only [f2]
    · right
      refine ⟨x', e.child i, y, y', by rw [f1]; rfl, hy, f2, f3, ?_⟩
      intro hn
      exact absurd hn (hp hb (by rw [hd]; simp))

theorem raw_stage (e : Ens M S) (hr : e.regenerate = false) (ht : Transparent e vals) (i : ℕ) (d : Disk M)
    (hg : GoodDisk e vals d) (hp : PairedBg e d i) :
    (e.rawStage i).SafeAt e.reload (GoodFile e vals) d ∧
    (∀ k', k' ≠ (.prompt, i) → k' ≠ (.bg, i) → k' ≠ (.raw, i) →
      ((e.rawStage i).run e.reload d).2 k' = d k') ∧
    ((e.rawStage i).run e.reload d).1.map vals = (rawMember e i).map vals := by
  unfold Ens.rawStage
  by_cases hb : e.hasBg = true
  · rw [if_pos hb]
    obtain ⟨p1, p2, p3⟩ := prompt_stage e hr ht hb i d hg hp
    rcases hrun : (e.generatePerturbed .prompt i (e.child i)).run e.reload d with ⟨r1, d1⟩
    rw [hrun] at p2 p3
    simp only at p2 p3
    rcases p3 with ⟨err, h1, h2⟩ | ⟨p', s, pS, pS', h1, h2, h3, h4, h5⟩
    · subst h1
      refine ⟨?_, ?_, ?_⟩
      · apply Prog.safeAt_bind _ _ _ _ _ p1
        intro a d' ha
        rw [hrun] at ha
        simp at ha
      · intro k' hk _ _
        rw [Prog.run_bind, hrun]
        exact p2 k' hk
      · rw [Prog.run_bind, hrun]
        rw [rawMember, h2]
    · subst h1
      have dbg : d1 (.bg, i) = d (.bg, i) := p2 _ (by simp)
      have draw : d1 (.raw, i) = d (.raw, i) := p2 _ (by simp)
      obtain ⟨b1, b2, b3⟩ := gen_stage e hr (GoodFile e vals) .bg i s d1 (by
        intro hn b hb' _
        rw [dbg] at hn
        rw [h5 hn, hb']
        rfl)
      -- the result of the background stage
      have hbres : (∃ err, ((e.generatePerturbed .bg i s).run e.reload d1).1 = .error err ∧
          rawSaved e i = .error err) ∨
          ∃ b' s' bS bS', ((e.generatePerturbed .bg i s).run e.reload d1).1 = .ok (b', s') ∧
            bgSaved e i = .ok bS ∧ actE e .bg bS = .ok bS' ∧ vals b' = vals bS' := by
        rw [b3, dbg]
        unfold cachedResult
        rcases hd : d (.bg, i) with _ | m
        · simp only [Option.map_none]
          have h5' := h5 hd
          rcases hgen : e.gen .bg s with err | b
          · left
            refine ⟨err, rfl, ?_⟩
            rw [hgen] at h5'
            rw [rawSaved, if_pos hb, h2]
            simp only [h3, h5', Except.map]
          · rw [hgen] at h5'
            simp only
            rcases hact : actE e .bg b.1 with err | b'
            · left
              refine ⟨err, rfl, ?_⟩
              rw [rawSaved, if_pos hb, h2]
              simp only [h3, h5', Except.map, hact]
            · right
              exact ⟨b', b.2, b.1, b', rfl, h5', hact, rfl⟩
        · simp only [Option.map_some]
          obtain ⟨y, hy, hyv⟩ := map_eq_ok (show (bgSaved e i).map vals = .ok (vals m) from hg _ _ hd hb)
          rcases map_eq_cases (ht.act .bg (e.reload m) y (by rw [ht.reload, hyv])) with
            ⟨err, f1, f2⟩ | ⟨x', y', f1, f2, f3⟩
          · left
            refine ⟨err, by rw [f1]; rfl, ?_⟩
            rw [rawSaved, if_pos hb, h2]
            simp only [h3, hy, f2]
          · right
            exact ⟨x', s, y, y', by rw [f1]; rfl, hy, f2, f3⟩
      rcases hrun2 : (e.generatePerturbed .bg i s).run e.reload d1 with ⟨r2, d2⟩
      rw [hrun2] at b2 hbres
      simp only at b2 hbres
      rcases hbres with ⟨err, g1, g2⟩ | ⟨b', s', bS, bS', g1, g2, g3, g4⟩
      · subst g1
        refine ⟨?_, ?_, ?_⟩
        · apply Prog.safeAt_bind _ _ _ _ _ p1
          intro a d' ha
          rw [hrun] at ha
          simp only [Prod.mk.injEq, Except.ok.injEq] at ha
          obtain ⟨rfl, rfl⟩ := ha
          apply Prog.safeAt_bind _ _ _ _ _ b1
          intro a d' ha
          rw [hrun2] at ha
          simp at ha
        · intro k' hk hk2 _
          rw [Prog.run_bind, hrun]
          simp only
          rw [Prog.run_bind, hrun2]
          exact (b2 k' hk2).trans (p2 k' hk)
        · rw [Prog.run_bind, hrun]
          simp only
          rw [Prog.run_bind, hrun2, rawMember, g2]
      · subst g1
        have hsv : (e.sub p' b').map vals = (rawSaved e i).map vals := by
          rw [rawSaved, if_pos hb, h2]
          simp only [h3, g2, g3]
          exact ht.sub _ _ _ _ h4 g4
        have draw2 : d2 (.raw, i) = d (.raw, i) := (b2 _ (by simp)).trans draw
        obtain ⟨s1, s2, s3⟩ := sub_stage e hr (GoodFile e vals) i p' b' d2 (by
          intro _ r hr'
          show (rawSaved e i).map vals = .ok (vals r)
          rw [← hsv, hr']
          rfl)
        refine ⟨?_, ?_, ?_⟩
        · apply Prog.safeAt_bind _ _ _ _ _ p1
          intro a d' ha
          rw [hrun] at ha
          simp only [Prod.mk.injEq, Except.ok.injEq] at ha
          obtain ⟨rfl, rfl⟩ := ha
          apply Prog.safeAt_bind _ _ _ _ _ b1
          intro a d' ha
          rw [hrun2] at ha
          simp only [Prod.mk.injEq, Except.ok.injEq] at ha
          obtain ⟨rfl, rfl⟩ := ha
          exact s1
        · intro k' hk hk2 hk3
          rw [Prog.run_bind, hrun]
          simp only
          rw [Prog.run_bind, hrun2]
          exact (s2 k' hk3).trans ((b2 k' hk2).trans (p2 k' hk))
        · rw [Prog.run_bind, hrun]
          simp only
          rw [Prog.run_bind, hrun2]
          simp only
          rw [s3, draw2]
          unfold cachedResult rawMember
          rcases hd : d (.raw, i) with _ | m
          · simp only [Option.map_none]
            rcases map_eq_cases hsv with ⟨err, e1, e2⟩ | ⟨x, y, e1, e2, e3⟩
            · rw [e1, e2]
            · rw [e1, e2]
              exact ht.act .raw x y e3
          · simp only [Option.map_some]
            obtain ⟨y, hy, hyv⟩ := map_eq_ok (show (rawSaved e i).map vals = .ok (vals m) from hg _ _ hd)
            rw [hy]
            exact ht.act .raw _ y (by rw [ht.reload, hyv])
  · rw [if_neg hb]
    have hraw : rawSaved e i = (e.gen .raw (e.child i)).map Prod.fst := by rw [rawSaved, if_neg hb]
    obtain ⟨k1, k2, k3⟩ := gen_stage e hr (GoodFile e vals) .raw i (e.child i) d (by
      intro _ p hpk
      show (rawSaved e i).map vals = .ok (vals p.1)
      rw [hraw, hpk]
      rfl)
    refine ⟨?_, ?_, ?_⟩
    · exact Prog.safeAt_bind _ _ _ _ _ k1 fun _ _ _ => trivial
    · intro k' _ _ hk
      rw [Prog.run_bind]
      have := k2 k' hk
      rcases hrun : (e.generatePerturbed .raw i (e.child i)).run e.reload d with ⟨r1 | r1, d1⟩ <;>
        rw [hrun] at this <;> exact this
    · rw [Prog.run_bind]
      have hres : (((e.generatePerturbed .raw i (e.child i)).run e.reload d).1.map fun p => vals p.1) =
          (rawMember e i).map vals := by
        rw [k3]
        unfold cachedResult rawMember
        rcases hd : d (.raw, i) with _ | m
        · simp only [Option.map_none]
          rw [hraw]
          rcases hgen : e.gen .raw (e.child i) with err | p
          · rfl
          · simp only [Except.map]
            rcases actE e .raw p.1 with err | q <;> rfl
        · simp only [Option.map_some]
          obtain ⟨y, hy, hyv⟩ := map_eq_ok (show (rawSaved e i).map vals = .ok (vals m) from hg _ _ hd)
          rw [hy]
          simp only
          rw [← ht.act .raw (e.reload m) y (by rw [ht.reload, hyv])]
          rcases actE e .raw (e.reload m) with err | q <;> rfl
      rcases hrun : (e.generatePerturbed .raw i (e.child i)).run e.reload d with ⟨r1 | r1, d1⟩ <;>
        rw [hrun] at hres <;> exact hres

/-- The values of a member. -/
def vals3 (vals : M → V) (p : M × M × M) : V × V × V := (vals p.1, vals p.2.1, vals p.2.2)

/-- A step on a disk whose files agree with the uninterrupted run gives the uninterrupted member and writes
only files that agree. -/
theorem step_good (e : Ens M S) (hr : e.regenerate = false) (ht : Transparent e vals) (i : ℕ) (d : Disk M)
    (hg : GoodDisk e vals d) (hp : PairedBg e d i) :
    (e.step i).SafeAt e.reload (GoodFile e vals) d ∧
      ((e.step i).run e.reload d).1.map (vals3 vals) = (member e i).map (vals3 vals) := by
  obtain ⟨r1, r2, r3⟩ := raw_stage e hr ht i d hg hp
  unfold Ens.step
  rcases hrun : (e.rawStage i).run e.reload d with ⟨o1, d1⟩
  rw [hrun] at r2 r3
  simp only at r2 r3
  rcases map_eq_cases r3 with ⟨err, e1, e2⟩ | ⟨a, r, e1, e2, e3⟩
  · subst e1
    constructor
    · apply Prog.safeAt_bind _ _ _ _ _ r1
      intro a d' ha
      rw [hrun] at ha
      simp at ha
    · rw [Prog.run_bind, hrun, member, e2]
  · subst e1
    have du : d1 (.unfolded, i) = d (.unfolded, i) := r2 _ (by simp) (by simp) (by simp)
    have df : d1 (.firstgen, i) = d (.firstgen, i) := r2 _ (by simp) (by simp) (by simp)
    obtain ⟨u1, u2, u3⟩ := unf_stage e hr ht i d1 (fun m hm => hg _ _ (by rw [← du]; exact hm)) a r e2 e3
    rcases hrun2 : (e.unfold i a).run e.reload d1 with ⟨o2, d2⟩
    rw [hrun2] at u2 u3
    simp only at u2 u3
    have df2 : d2 (.firstgen, i) = d (.firstgen, i) := (u2 _ (by simp)).trans df
    rcases hum : unfMember e i with err | u
    · rw [hum] at u3
      have ho := map_eq_error (show o2.map _ = .error err from u3)
      subst ho
      constructor
      · apply Prog.safeAt_bind _ _ _ _ _ r1
        intro a' d' ha
        rw [hrun] at ha
        simp only [Prod.mk.injEq, Except.ok.injEq] at ha
        obtain ⟨rfl, rfl⟩ := ha
        apply Prog.safeAt_bind _ _ _ _ _ u1
        intro a' d' ha
        rw [hrun2] at ha
        simp at ha
      · rw [Prog.run_bind, hrun]
        simp only
        rw [Prog.run_bind, hrun2, member, e2]
        simp only [hum]
    · rw [hum] at u3
      obtain ⟨ru, ho, hru⟩ := map_eq_ok (show o2.map _ = .ok (vals r, vals u) from u3)
      subst ho
      simp only [Prod.mk.injEq] at hru
      obtain ⟨f1, f2, f3⟩ := fg_stage e hr ht i d2 (fun m hm => hg _ _ (by rw [← df2]; exact hm)) ru.2 u hum
        hru.2
      rcases hrun3 : (e.firstGeneration i ru.2).run e.reload d2 with ⟨o3, d3⟩
      rw [hrun3] at f3
      simp only at f3
      have hfin : ∀ x y z d', (e.finish i x y z).SafeAt e.reload (GoodFile e vals) d' := by
        intro x y z d'
        unfold Ens.finish
        by_cases h0 : i = 0
        · simp only [if_pos h0]
          refine ⟨trivial, ?_⟩
          split_ifs <;> trivial
        · simp only [if_neg h0]
          split_ifs <;> trivial
      refine ⟨?_, ?_⟩
      · apply Prog.safeAt_bind _ _ _ _ _ r1
        intro a' d' ha
        rw [hrun] at ha
        simp only [Prod.mk.injEq, Except.ok.injEq] at ha
        obtain ⟨rfl, rfl⟩ := ha
        apply Prog.safeAt_bind _ _ _ _ _ u1
        intro a' d' ha
        rw [hrun2] at ha
        simp only [Prod.mk.injEq, Except.ok.injEq] at ha
        obtain ⟨rfl, rfl⟩ := ha
        apply Prog.safeAt_bind _ _ _ _ _ f1
        intro a' d' _
        exact hfin _ _ _ _
      · rw [Prog.run_bind, hrun]
        simp only
        rw [Prog.run_bind, hrun2]
        simp only
        rw [Prog.run_bind, hrun3, member, e2]
        simp only [hum]
        rcases hfm : fgMember e i with err | f
        · rw [hfm] at f3
          have ho := map_eq_error (show o3.map _ = .error err from f3)
          subst ho
          rfl
        · rw [hfm] at f3
          obtain ⟨uf, ho, huf⟩ := map_eq_ok (show o3.map _ = .ok (vals u, vals f) from f3)
          subst ho
          simp only [Prod.mk.injEq] at huf
          simp only
          have hsh := ht.shape ru.1 r uf.1 u uf.2 f hru.1 huf.1 huf.2
          have hfr : ((e.finish i ru.1 uf.1 uf.2).run e.reload d3).1 =
              if e.sameShape ru.1 uf.1 uf.2 then .ok (ru.1, uf.1, uf.2) else .error .assertion := by
            unfold Ens.finish
            by_cases h0 : i = 0
            · simp only [if_pos h0, Prog.run]
              split_ifs <;> rfl
            · simp only [if_neg h0]
              split_ifs <;> rfl
          rw [hfr, hsh]
          split_ifs
          · simp only [Except.map, vals3, hru.1, huf.1, huf.2]
          · rfl

/-- The disk after a series of interrupted generations: each list is the schedule until the crash. -/
def crashes (e : Ens M S) (d : Disk M) (scheds : List (List ℕ)) : Disk M :=
  scheds.foldl (fun d sched => (e.pool d sched).disk) d

/-- **C39.** Without background: generation may be interrupted any number of times, after any file operation of
any of the processes; the next complete run gives the members of an uninterrupted run. -/
theorem C39_resume_without_bg (e : Ens M S) (hr : e.regenerate = false) (hb : e.hasBg = false)
    (ht : Transparent e vals) (scheds : List (List ℕ)) (i : ℕ) :
    ((e.step i).run e.reload (crashes e (fun _ => none) scheds)).1.map (vals3 vals) =
      ((e.step i).run e.reload fun _ => none).1.map (vals3 vals) := by
  have pair : ∀ d i, PairedBg e d i := fun d i h => by rw [hb] at h; simp at h
  have good : ∀ scheds : List (List ℕ), GoodDisk e vals (crashes e (fun _ => none) scheds) := by
    intro l
    induction l using List.reverseRecOn with
    | nil => intro k m h; simp [crashes] at h
    | append_singleton l sched ih =>
      have hc : crashes e (fun _ => none) (l ++ [sched]) =
          (e.pool (crashes e (fun _ => none) l) sched).disk := by simp [crashes]
      rw [hc]
      exact (pool_good e.reload (GoodFile e vals) e.step e.step_confined _ ih
        (fun i => (step_good e hr ht i _ ih (pair _ i)).1) sched).2
  rw [(step_good e hr ht i _ (good scheds) (pair _ i)).2,
    (step_good e hr ht i (fun _ => none) (good []) (pair _ i)).2]

/-- **C39** (part that holds, with background). The members are those of an uninterrupted run if no interruption
fell between the saving of `prompt+bg_<i>` and that of `bg_<i>`. -/
theorem C39_resume_bg_partial (e : Ens M S) (hr : e.regenerate = false) (ht : Transparent e vals)
    (scheds : List (List ℕ))
    (hp : ∀ n ≤ scheds.length, ∀ i, PairedBg e (crashes e (fun _ => none) (scheds.take n)) i) (i : ℕ) :
    ((e.step i).run e.reload (crashes e (fun _ => none) scheds)).1.map (vals3 vals) =
      ((e.step i).run e.reload fun _ => none).1.map (vals3 vals) := by
  have good : ∀ n ≤ scheds.length, GoodDisk e vals (crashes e (fun _ => none) (scheds.take n)) := by
    intro n
    induction n with
    | zero => intro _ k m h; simp [crashes] at h
    | succ n ih =>
      intro hn
      have ihn := ih (by omega)
      have hc : crashes e (fun _ => none) (scheds.take (n + 1)) =
          (e.pool (crashes e (fun _ => none) (scheds.take n)) (scheds[n]'(by omega))).disk := by
        rw [List.take_succ_eq_append_getElem (by omega)]
        unfold crashes
        rw [List.foldl_append]
        rfl
      rw [hc]
      exact (pool_good e.reload (GoodFile e vals) e.step e.step_confined _ ihn
        (fun i => (step_good e hr ht i _ ihn (hp n (by omega) i)).1) _).2
  have h0 : GoodDisk e vals (fun _ => none : Disk M) := fun k m h => by simp at h
  have hl := good scheds.length (le_refl _)
  have pl := hp scheds.length (le_refl _)
  rw [List.take_length] at hl pl
  rw [(step_good e hr ht i _ hl (pl i)).2,
    (step_good e hr ht i _ h0 (fun _ h => by simp at h)).2]

end Programs

/-- Members are numbers; the generator state is counted up with every draw. -/
def sampleEns (bg : Bool) (mutating : Bool) : Ens ℚ ℕ where
  hasBg := bg
  regenerate := false
  child i := 10 * i + 3
  gen _ s := .ok ((s : ℚ), s + 1)
  sub a b := .ok (a - b)
  unf m := (m, .ok (2 * m))
  fg m := (if mutating then m + 1 else m, .ok (m + 5))
  act f m := (if f = .unfolded then m + 1 else m, .ok ())
  sameShape _ _ _ := true
  reload m := m

/-- Non-vacuity of C39: the sample without background satisfies the hypotheses. -/
example : Transparent (sampleEns false false) (fun m => m) ∧ (sampleEns false false).hasBg = false ∧
    ((Ens.step (sampleEns false false) 1).run id fun _ => none).1 = .ok (13, 27, 32) := by
  refine ⟨⟨?_, ?_, ?_, ?_, ?_, ?_, ?_, ?_⟩, rfl, by decide +kernel⟩ <;> intros <;>
    simp_all [sampleEns]

/-- Non-vacuity of C39: an interruption of member 1 after the raw matrix was saved. -/
example : (crashes (sampleEns false false) (fun _ => none) [[1, 1]]) (.raw, 1) = some 13 ∧
    (crashes (sampleEns false false) (fun _ => none) [[1, 1]]) (.unfolded, 1) = none := by
  decide +kernel

/-- **C39** fails with background: interrupted between `prompt+bg_0` and `bg_0`, the background is drawn anew from
the start of the random sequence and the member differs from that of an uninterrupted run. -/
theorem C39_bg_fails :
    ((Ens.step (sampleEns true false) 0).run id (crashes (sampleEns true false) (fun _ => none) [[0, 0]])).1 =
      .ok (0, 1, 6) ∧
    ((Ens.step (sampleEns true false) 0).run id fun _ => none).1 = .ok (-1, -1, 4) := by
  decide +kernel

/-- **C39** fails if the first-generation method changes its argument (any callable is accepted): interrupted after
`firstgen_0` was saved, the unfolded member differs. -/
theorem C39_mutating_method_fails :
    ((Ens.step (sampleEns false true) 0).run id
      (crashes (sampleEns false true) (fun _ => none) [[0, 0, 0, 0, 0, 0]])).1 = .ok (3, 7, 12) ∧
    ((Ens.step (sampleEns false true) 0).run id fun _ => none).1 = .ok (3, 8, 12) := by
  decide +kernel

/-! ### C41 -/

section Load

variable {M : Type}

theorem filterMap_total (disk : Disk M) (c : EKey → M) (l : List EKey)
    (h : ∀ k ∈ l, disk k = some (c k)) : l.filterMap disk = l.map c := by
  induction l with
  | nil => rfl
  | cons k ks ih =>
    rw [List.filterMap_cons, h k (by simp), List.map_cons, ih fun q hq => h q (by simp [hq])]

/-- **C41** (part that holds). If the directory lists the files of each kind in the order of the member numbers,
member `i` of the loaded ensemble is what was saved for member `i`. -/
theorem C41_ascending_partial (disk : Disk M) (n : ℕ) (hn : 0 < n) (raw unf fg : ℕ → M) (main : M)
    (hm : disk (.firstgenMain, 0) = some main) (h1 : ∀ i < n, disk (.raw, i) = some (raw i))
    (h2 : ∀ i < n, disk (.unfolded, i) = some (unf i)) (h3 : ∀ i < n, disk (.firstgen, i) = some (fg i))
    (listing : List EKey)
    (hl : ∀ f : EFile, f = .raw ∨ f = .unfolded ∨ f = .firstgen →
      (listing.filter fun k => k.1 = f) = (List.range n).map fun i => (f, i)) :
    loadEnsemble disk listing =
      .ok ((List.range n).map raw, (List.range n).map unf, (List.range n).map fg) := by
  have fm : ∀ (f : EFile) (c : ℕ → M), (∀ i < n, disk (f, i) = some (c i)) →
      ((List.range n).map fun i => (f, i)).filterMap disk = (List.range n).map c := by
    intro f c hc
    rw [filterMap_total disk (fun k => c k.2), List.map_map]
    · rfl
    · intro k hk
      rw [List.mem_map] at hk
      obtain ⟨i, hi, rfl⟩ := hk
      exact hc i (List.mem_range.1 hi)
  unfold loadEnsemble
  rw [if_neg (by rw [hm]; simp)]
  simp only [hl .raw (by simp), hl .unfolded (by simp), hl .firstgen (by simp), List.length_map,
    List.length_range, fm _ _ h1, fm _ _ h2, fm _ _ h3]
  rw [if_neg (by simp), if_neg (by omega)]

/-- **C41** (part that holds). Whatever the order of the listing, each loaded list is a permutation of what was
saved, so that quantities that do not depend on the order, as the standard deviations, are right. -/
theorem C41_permutation_partial (disk : Disk M) (n : ℕ) (hn : 0 < n) (raw unf fg : ℕ → M) (main : M)
    (hm : disk (.firstgenMain, 0) = some main) (h1 : ∀ i < n, disk (.raw, i) = some (raw i))
    (h2 : ∀ i < n, disk (.unfolded, i) = some (unf i)) (h3 : ∀ i < n, disk (.firstgen, i) = some (fg i))
    (listing : List EKey)
    (hl : ∀ f : EFile, f = .raw ∨ f = .unfolded ∨ f = .firstgen →
      (listing.filter fun k => k.1 = f).Perm ((List.range n).map fun i => (f, i))) :
    ∃ r u g, loadEnsemble disk listing = .ok (r, u, g) ∧ r.Perm ((List.range n).map raw) ∧
      u.Perm ((List.range n).map unf) ∧ g.Perm ((List.range n).map fg) := by
  have fm : ∀ (f : EFile) (c : ℕ → M), (∀ i < n, disk (f, i) = some (c i)) →
      (listing.filter fun k => k.1 = f).Perm ((List.range n).map fun i => (f, i)) →
      ((listing.filter fun k => k.1 = f).filterMap disk).Perm ((List.range n).map c) := by
    intro f c hc hp
    have := hp.filterMap disk
    rw [filterMap_total disk (fun k => c k.2) ((List.range n).map fun i => (f, i)), List.map_map] at this
    · exact this
    · intro k hk
      rw [List.mem_map] at hk
      obtain ⟨i, hi, rfl⟩ := hk
      exact hc i (List.mem_range.1 hi)
  have len : ∀ f : EFile, f = .raw ∨ f = .unfolded ∨ f = .firstgen →
      (listing.filter fun k => k.1 = f).length = n := by
    intro f hf
    rw [(hl f hf).length_eq]
    simp
  refine ⟨_, _, _, ?_, fm .raw raw h1 (hl _ (by simp)), fm .unfolded unf h2 (hl _ (by simp)),
    fm .firstgen fg h3 (hl _ (by simp))⟩
  unfold loadEnsemble
  rw [if_neg (by rw [hm]; simp)]
  simp only [len .raw (by simp), len .unfolded (by simp), len .firstgen (by simp)]
  rw [if_neg (by simp), if_neg (by omega)]

/-- **C41.** Different numbers of files, or none, are refused. -/
theorem C41_corrupt (disk : Disk M) (main : M) (hm : disk (.firstgenMain, 0) = some main)
    (listing : List EKey)
    (h : ¬ ((listing.filter fun k => k.1 = .raw).length = (listing.filter fun k => k.1 = .unfolded).length ∧
      (listing.filter fun k => k.1 = .unfolded).length = (listing.filter fun k => k.1 = .firstgen).length) ∨
      (listing.filter fun k => k.1 = .raw) = []) :
    loadEnsemble disk listing = .error .assertion := by
  unfold loadEnsemble
  rw [if_neg (by rw [hm]; simp)]
  simp only
  by_cases h' : (listing.filter fun k => k.1 = .raw).length = (listing.filter fun k => k.1 = .unfolded).length ∧
      (listing.filter fun k => k.1 = .unfolded).length = (listing.filter fun k => k.1 = .firstgen).length
  · rw [if_neg (not_not.2 h')]
    rcases h with h | h
    · exact absurd h' h
    · rw [h, if_pos (by simp)]
  · rw [if_pos h']

end Load

/-- Every file holds the number of its member. -/
def numberedDisk : Disk ℕ := fun k => some k.2

/-- **C41** fails for a directory order that differs between the kinds: raw member 0 is combined with the unfolded
matrix of member 1. -/
theorem C41_order_fails :
    loadEnsemble numberedDisk
      [(.raw, 0), (.raw, 1), (.unfolded, 1), (.unfolded, 0), (.firstgen, 0), (.firstgen, 1)] =
      .ok ([0, 1], [1, 0], [0, 1]) := by
  decide +kernel

/-- Alphabetical order of names, for names given by their digits (the `.` after the number sorts before the
digits). -/
def lexLe : List ℕ → List ℕ → Bool
  | [], _ => true
  | _ :: _, [] => false
  | a :: as, b :: bs => a < b || (a == b && lexLe as bs)

/-- The listing of `n ≤ 100` members in alphabetical order of the file names `<kind>_<i>.npy`. -/
def nameOrder (n : ℕ) : List EKey :=
  let name := fun i : ℕ => if i < 10 then [i] else [i / 10, i % 10]
  let sorted := (List.range n).insertionSort fun a b => lexLe (name a) (name b) = true
  [EFile.raw, .unfolded, .firstgen].flatMap fun f => sorted.map fun i => (f, i)

/-- **C41** fails for 11 members even if the directory is listed in alphabetical order: the third member loaded is
number 10. -/
theorem C41_alphabetical_fails :
    (loadEnsemble numberedDisk (nameOrder 11)).toOption.map (fun p => p.1) =
      some [0, 1, 10, 2, 3, 4, 5, 6, 7, 8, 9] := by
  decide +kernel

/-- Non-vacuity of C40: two members, interleaved, with background. -/
example :
    let s := (sampleEns true false).pool (fun _ => none)
      [0, 1, 1, 0, 1, 0, 0, 1, 1, 1, 0, 0, 1, 0, 1, 0, 0, 1, 1, 0, 0, 1, 0]
    (s.procs 0).done = some (.ok (-1, -1, 4)) ∧ (s.procs 1).done = some (.ok (-1, -1, 4)) ∧
      s.disk (.prompt, 1) = some 13 := by
  decide +kernel

/-! ### C51: loading what was generated -/

section Reload

variable {M S α V : Type} {vals : M → V}

theorem Prog.run_keeps (reload : M → M) (p : Prog M α) (d : Disk M) (k : EKey) (h : d k ≠ none) :
    (p.run reload d).2 k ≠ none := by
  induction p generalizing d with
  | ret a => exact h
  | fail e => exact h
  | read k' c ih => exact ih _ d h
  | write k' m c ih =>
    apply ih
    by_cases hk : k = k'
    · subst hk; simp
    · rw [Function.update_of_ne hk]; exact h

theorem cached_present {γ δ : Type} (e : Ens M S) (k : EKey) (x : Except Err γ) (mat : γ → M)
    (onSome : M → Prog M δ) (onNone : γ → Prog M δ) (d d' : Disk M) (r : δ)
    (h : (cachedProg e k x mat onSome onNone).run e.reload d = (.ok r, d')) : d' k ≠ none := by
  unfold cachedProg at h
  rw [Prog.run_bind] at h
  have hwrite : ∀ c, ((Prog.write k (mat c) (onNone c)).run e.reload d).2 k ≠ none := by
    intro c
    rw [Prog.run]
    exact Prog.run_keeps _ _ _ _ (by simp)
  have hnone : ((Prog.ofExcept x).bind fun c => Prog.write k (mat c) (onNone c)).run e.reload d
      = (.ok r, d') → d' k ≠ none := by
    intro h
    rw [Prog.run_bind, run_ofExcept] at h
    rcases x with err | c
    · simp at h
    · simp only at h
      have := hwrite c
      rw [h] at this
      exact this
  unfold Ens.load at h
  split_ifs at h with hr
  · simp only [Prog.run] at h
    exact hnone h
  · simp only [Prog.run] at h
    rcases hd : d k with _ | m
    · rw [hd] at h
      exact hnone h
    · rw [hd] at h
      have := Prog.run_keeps e.reload (onSome (e.reload m)) d k (by rw [hd]; simp)
      simp only [Option.map_some] at h
      rw [h] at this
      exact this

theorem bind_ok {β : Type} (reload : M → M) (p : Prog M α) (f : α → Prog M β) (d d' : Disk M) (b : β)
    (h : (p.bind f).run reload d = (.ok b, d')) :
    ∃ a d1, p.run reload d = (.ok a, d1) ∧ (f a).run reload d1 = (.ok b, d') := by
  rw [Prog.run_bind] at h
  rcases hp : p.run reload d with ⟨err | a, d1⟩
  · rw [hp] at h; simp at h
  · rw [hp] at h
    exact ⟨a, d1, rfl, h⟩

/-- A member that was made has left its three files. -/
theorem step_present (e : Ens M S) (i : ℕ) (d d' : Disk M) (r : M × M × M)
    (h : (e.step i).run e.reload d = (.ok r, d')) :
    d' (.raw, i) ≠ none ∧ d' (.unfolded, i) ≠ none ∧ d' (.firstgen, i) ≠ none := by
  obtain ⟨a, d1, h1, h⟩ := bind_ok _ _ _ _ _ _ h
  obtain ⟨ru, d2, h2, h⟩ := bind_ok _ _ _ _ _ _ h
  obtain ⟨uf, d3, h3, h⟩ := bind_ok _ _ _ _ _ _ h
  have later : ∀ k, d3 k ≠ none → d' k ≠ none := by
    intro k hk
    have := Prog.run_keeps e.reload (e.finish i ru.1 uf.1 uf.2) d3 k hk
    rw [h] at this
    exact this
  have later2 : ∀ k, d2 k ≠ none → d3 k ≠ none := by
    intro k hk
    have := Prog.run_keeps e.reload (e.firstGeneration i ru.2) d2 k hk
    rw [h3] at this
    exact this
  have later1 : ∀ k, d1 k ≠ none → d2 k ≠ none := by
    intro k hk
    have := Prog.run_keeps e.reload (e.unfold i a) d1 k hk
    rw [h2] at this
    exact this
  refine ⟨later _ (later2 _ (later1 _ ?_)), later _ (later2 _ ?_), later _ ?_⟩
  · unfold Ens.rawStage at h1
    split_ifs at h1
    · obtain ⟨p, e1, _, h1⟩ := bind_ok _ _ _ _ _ _ h1
      obtain ⟨b, e2, _, h1⟩ := bind_ok _ _ _ _ _ _ h1
      exact cached_present e (.raw, i) (e.sub p.1 b.1) (fun p => p) (fun m => e.actProg .raw m)
        (fun m => e.actProg .raw m) _ _ _ h1
    · obtain ⟨p, e1, h0, h1⟩ := bind_ok _ _ _ _ _ _ h1
      have hk := cached_present e (.raw, i) (e.gen .raw (e.child i)) (fun p => p.1)
        (fun m => (e.actProg .raw m).bind fun m' => .ret (m', e.child i))
        (fun p => (e.actProg .raw p.1).bind fun m' => .ret (m', p.2)) _ _ _ h0
      simp only [Prog.run, Prod.mk.injEq, Except.ok.injEq] at h1
      rw [← h1.2]
      exact hk
  · exact cached_present e (.unfolded, i) (e.unf a).2 (fun m => m)
      (fun m => (e.actProg .unfolded m).bind fun u => .ret (a, u))
      (fun m => (e.actProg .unfolded m).bind fun u => .ret ((e.unf a).1, u)) _ _ _ h2
  · exact cached_present e (.firstgen, i) (e.fg ru.2).2 (fun m => m)
      (fun m => (e.actProg .firstgen m).bind fun u => .ret (ru.2, u))
      (fun m => (e.actProg .firstgen m).bind fun u => .ret ((e.fg ru.2).1, u)) _ _ _ h3

/-- **C51** (part that holds). If the actions change nothing and the directory lists the members in order, loading
the directory of a finished generation gives back the members of that generation. -/
theorem C51_load_generated_partial (e : Ens M S) (hr : e.regenerate = false) (ht : Transparent e vals)
    (hact : ∀ f m, (actE e f m).map vals = .ok (vals m)) (n : ℕ) (hn : 0 < n) (sched : List ℕ)
    (r : ℕ → M × M × M)
    (hdone : ∀ i < n, ((e.pool (fun _ => none) sched).procs i).done = some (.ok (r i)))
    (listing : List EKey)
    (hl : ∀ f : EFile, f = .raw ∨ f = .unfolded ∨ f = .firstgen →
      (listing.filter fun k => k.1 = f) = (List.range n).map fun i => (f, i)) :
    ∃ R U F, loadEnsemble (e.pool (fun _ => none) sched).disk listing = .ok (R, U, F) ∧
      R.map vals = (List.range n).map (fun i => vals (r i).1) ∧
      U.map vals = (List.range n).map (fun i => vals (r i).2.1) ∧
      F.map vals = (List.range n).map (fun i => vals (r i).2.2) := by
  set d0 : Disk M := fun _ => none with hd0
  have good0 : GoodDisk e vals d0 := fun k m h => by simp [d0] at h
  have pair0 : ∀ i, PairedBg e d0 i := fun i _ h => by simp [d0] at h
  have good := (pool_good e.reload (GoodFile e vals) e.step e.step_confined d0 good0
    (fun i => (step_good e hr ht i _ good0 (pair0 i)).1) sched).2
  rw [show poolRun e.reload sched ⟨e.step, d0⟩ = e.pool d0 sched from rfl] at good
  set D := (e.pool d0 sched).disk with hD
  -- each member: files present, with the values of the member
  have each : ∀ i < n, ∃ a b c, D (.raw, i) = some a ∧ D (.unfolded, i) = some b ∧ D (.firstgen, i) = some c ∧
      vals a = vals (r i).1 ∧ vals b = vals (r i).2.1 ∧ vals c = vals (r i).2.2 := by
    intro i hi
    obtain ⟨c1, c2⟩ := C40_schedule e d0 sched i _ (hdone i hi)
    rcases hrun : (e.step i).run e.reload d0 with ⟨o, d'⟩
    rw [hrun] at c1 c2
    simp only at c1 c2
    subst c1
    obtain ⟨p1, p2, p3⟩ := step_present e i d0 d' (r i) hrun
    have res := (step_good e hr ht i d0 good0 (pair0 i)).2
    rw [hrun] at res
    have res' : (member e i).map (vals3 vals) = .ok (vals3 vals (r i)) := res.symm
    obtain ⟨mm, hm1, hm2⟩ := map_eq_ok res'
    obtain ⟨a, ha⟩ := Option.ne_none_iff_exists'.1 p1
    obtain ⟨b, hb⟩ := Option.ne_none_iff_exists'.1 p2
    obtain ⟨c, hc⟩ := Option.ne_none_iff_exists'.1 p3
    have Da : D (.raw, i) = some a := by rw [hD, c2, ha]
    have Db : D (.unfolded, i) = some b := by rw [hD, c2, hb]
    have Dc : D (.firstgen, i) = some c := by rw [hD, c2, hc]
    have ga : (rawSaved e i).map vals = .ok (vals a) := good _ _ Da
    have gb : (unfSaved e i).map vals = .ok (vals b) := good _ _ Db
    have gc : (fgSaved e i).map vals = .ok (vals c) := good _ _ Dc
    have acted : ∀ (f : EFile) (x : Except Err M) (y : M), x.map vals = .ok (vals y) →
        (match x with
          | .error err => Except.error err
          | .ok q => actE e f q).map vals = .ok (vals y) := by
      intro f x y hx
      obtain ⟨q, hq, hqv⟩ := map_eq_ok hx
      rw [hq]
      simp only
      rw [hact, hqv]
    have ra : (rawMember e i).map vals = .ok (vals a) := acted .raw _ a ga
    have ub : (unfMember e i).map vals = .ok (vals b) := acted .unfolded _ b gb
    have fc : (fgMember e i).map vals = .ok (vals c) := acted .firstgen _ c gc
    obtain ⟨x, hx, hxv⟩ := map_eq_ok ra
    obtain ⟨y, hy, hyv⟩ := map_eq_ok ub
    obtain ⟨z, hz, hzv⟩ := map_eq_ok fc
    unfold member at hm1
    rw [hx] at hm1
    simp only [hy, hz] at hm1
    split_ifs at hm1
    simp only [Except.ok.injEq] at hm1
    subst hm1
    simp only [vals3, Prod.mk.injEq] at hm2
    exact ⟨a, b, c, Da, Db, Dc, by rw [← hxv]; exact hm2.1, by rw [← hyv]; exact hm2.2.1,
      by rw [← hzv]; exact hm2.2.2⟩
  have fmain : ∃ m, D (.firstgenMain, 0) = some m := by
    obtain ⟨c1, c2⟩ := C40_schedule e d0 sched 0 _ (hdone 0 hn)
    rcases hrun : (e.step 0).run e.reload d0 with ⟨o, d'⟩
    rw [hrun] at c1 c2
    simp only at c1 c2
    subst c1
    obtain ⟨a, d1, _, h⟩ := bind_ok _ _ _ _ _ _ hrun
    obtain ⟨ru, d2, _, h⟩ := bind_ok _ _ _ _ _ _ h
    obtain ⟨uf, d3, _, h⟩ := bind_ok _ _ _ _ _ _ h
    apply Option.ne_none_iff_exists'.1
    rw [hD, c2]
    unfold Ens.finish at h
    simp only [if_true] at h
    have : ∀ p : Prog M (M × M × M), ((Prog.write (.firstgenMain, 0) uf.2 p).run e.reload d3).2
        (.firstgenMain, 0) ≠ none := by
      intro p
      rw [Prog.run]
      exact Prog.run_keeps _ _ _ _ (by simp)
    have := this (if e.sameShape ru.1 uf.1 uf.2 then .ret (ru.1, uf.1, uf.2) else .fail .assertion)
    rw [h] at this
    exact this
  obtain ⟨main, hmain⟩ := fmain
  have hx : ∀ i, ∃ a b c, i < n → D (.raw, i) = some a ∧ D (.unfolded, i) = some b ∧
      D (.firstgen, i) = some c ∧
      vals a = vals (r i).1 ∧ vals b = vals (r i).2.1 ∧ vals c = vals (r i).2.2 := by
    intro i
    by_cases hi : i < n
    · obtain ⟨a, b, c, h⟩ := each i hi
      exact ⟨a, b, c, fun _ => h⟩
    · exact ⟨main, main, main, fun h => absurd h hi⟩
  choose A B C habc using hx
  refine ⟨_, _, _, C41_ascending_partial D n hn A B C main hmain (fun i hi => (habc i hi).1)
    (fun i hi => (habc i hi).2.1) (fun i hi => (habc i hi).2.2.1) listing hl, ?_, ?_, ?_⟩ <;>
  · rw [List.map_map]
    apply List.map_congr_left
    intro i hi
    have := habc i (List.mem_range.1 hi)
    simp only [Function.comp]
    tauto

/-- **C51** fails with an action: the files hold the matrices before the action, so the loaded unfolded member
(here 6) is not the one that was generated (7, to which the action was applied). -/
theorem C51_action_lost_fails :
    let s := (sampleEns false false).pool (fun _ => none) (List.replicate 11 0)
    (s.procs 0).done = some (.ok (3, 7, 12)) ∧
      loadEnsemble s.disk [(.raw, 0), (.unfolded, 0), (.firstgen, 0)] = .ok ([3], [6], [12]) := by
  decide +kernel

end Reload

end Ompy
