import Verif.FitFiles
import Mathlib.Data.List.Infix
import Mathlib.Data.Set.Insert

/-!
# C140: fits that run at the same time use their own files
-/

namespace Ompy

variable {C R : Type}

/-! ### Specifications -/

/-- No file name starts with both. -/
def Sep (b b' : List Char) : Prop := ∀ s s', b ++ s ≠ b' ++ s'

/-- A program that reads only files it has written itself; `W` are those written so far. -/
def FitProg.Fresh : Set (List Char) → FitProg C R → Prop
  | _, .ret _ => True
  | W, .read s k => s ∈ W ∧ ∀ c, (k c).Fresh W
  | W, .write s _ k => k.Fresh (insert s W)

/-! ### Names -/

theorem digits_underscore {n m : ℕ} {s s' : List Char} (h : Nat.toDigits 10 n ++ '_' :: s = Nat.toDigits 10 m ++ '_' :: s') :
    n = m ∧ s = s' := by
  have key : ∀ (a b : List Char), '_' ∉ a → '_' ∉ b → a ++ '_' :: s = b ++ '_' :: s' → a = b ∧ s = s' := by
    intro a
    induction a with
    | nil =>
      intro b _ hb h
      cases b with
      | nil => simpa using h
      | cons y b =>
        simp only [List.nil_append, List.cons_append, List.cons.injEq] at h
        exact absurd (h.1 ▸ List.mem_cons_self) hb
    | cons x a ih =>
      intro b ha hb h
      cases b with
      | nil =>
        simp only [List.nil_append, List.cons_append, List.cons.injEq] at h
        exact absurd (h.1 ▸ List.mem_cons_self) ha
      | cons y b =>
        simp only [List.cons_append, List.cons.injEq] at h
        obtain ⟨h1, h2⟩ := ih b (fun hx => ha (List.mem_cons_of_mem _ hx)) (fun hx => hb (List.mem_cons_of_mem _ hx)) h.2
        exact ⟨by rw [h.1, h1], h2⟩
  obtain ⟨h1, h2⟩ := key _ _ Nat.underscore_not_in_toDigits Nat.underscore_not_in_toDigits h
  refine ⟨?_, h2⟩
  rw [← Nat.ofDigitChars_ten_toDigits (n := n), h1, Nat.ofDigitChars_ten_toDigits]

/-- **C140.** In one directory the names of files tell the fit they belong to: kind and number of the fit, and the rest of
the name. -/
theorem C140_names (j j' : FitJob) (hd : j.dir = j'.dir) (s s' : List Char) :
    j.base ++ s = j'.base ++ s' ↔ j = j' ∧ s = s' := by
  constructor
  · intro h
    obtain ⟨dir, kind, num⟩ := j
    obtain ⟨dir', kind', num'⟩ := j'
    simp only at hd
    subst hd
    simp only [FitJob.base, List.append_assoc, List.cons_append, List.append_cancel_left_eq, List.cons.injEq, true_and,
      List.nil_append] at h
    cases kind <;> cases kind' <;> simp [FitKind.stem] at h
    all_goals
      obtain ⟨h1, h2⟩ := digits_underscore h
      subst h1
      exact ⟨rfl, h2⟩
  · rintro ⟨rfl, rfl⟩
    rfl

example : (FitJob.mk ['m'] .nld 1).base ++ ['1', '_'] ≠ (FitJob.mk ['m'] .nld 11).base :=
  fun h => absurd ((C140_names ⟨['m'], .nld, 1⟩ ⟨['m'], .nld, 11⟩ rfl ['1', '_'] []).1 (by rw [List.append_nil]; exact h)).1 (by decide)

/-- **C140.** Two different fits never share a file, if they use the same directory, or directories none of which lies in the
other. -/
theorem C140_separate (j j' : FitJob) (hj : j ≠ j')
    (hd : j.dir = j'.dir ∨ (¬ (j.dir ++ ['/']) <+: (j'.dir ++ ['/']) ∧ ¬ (j'.dir ++ ['/']) <+: (j.dir ++ ['/']))) :
    Sep j.base j'.base := by
  intro s s' h
  rcases hd with hd | ⟨h1, h2⟩
  · exact hj ((C140_names j j' hd s s').1 h).1
  · have e1 : (j.dir ++ ['/']) <+: (j.base ++ s) := ⟨j.kind.stem ++ (Nat.toDigits 10 j.num ++ ['_']) ++ s, by simp [FitJob.base]⟩
    have e2 : (j'.dir ++ ['/']) <+: (j.base ++ s) := by
      rw [h]
      exact ⟨j'.kind.stem ++ (Nat.toDigits 10 j'.num ++ ['_']) ++ s', by simp [FitJob.base]⟩
    rcases List.prefix_or_prefix_of_prefix e1 e2 with h3 | h3
    · exact h1 h3
    · exact h2 h3

example : Sep (FitJob.mk ['m'] .nld 0).base (FitJob.mk ['m'] .sim 0).base ∧ Sep (FitJob.mk ['m'] .nld 0).base (FitJob.mk ['m', '2'] .nld 0).base :=
  ⟨C140_separate _ _ (by decide) (Or.inl rfl), C140_separate _ _ (by decide) (Or.inr (by decide))⟩

/-! ### Any schedule -/

theorem steps_succ (b : List Char) (n : ℕ) (p : FitProg C R) (d : FitDisk C) :
    p.steps b (n + 1) d = ((p.steps b n d).1.next b (p.steps b n d).2) := by
  induction n generalizing p d with
  | zero => rfl
  | succ n ih =>
    rw [FitProg.steps, ih]
    rfl

theorem next_frame (b : List Char) (p : FitProg C R) (d : FitDisk C) (x : List Char) (hx : ∀ s, x ≠ b ++ s) :
    (p.next b d).2 x = d x := by
  cases p with
  | ret r => rfl
  | read s k => rfl
  | write s c k => exact Function.update_of_ne (hx s) _ _

theorem next_agree (b : List Char) (p : FitProg C R) (d d' : FitDisk C) (h : ∀ s, d (b ++ s) = d' (b ++ s)) :
    (p.next b d).1 = (p.next b d').1 ∧ ∀ s, (p.next b d).2 (b ++ s) = (p.next b d').2 (b ++ s) := by
  cases p with
  | ret r => exact ⟨rfl, h⟩
  | read s k => exact ⟨by simp only [FitProg.next, h], h⟩
  | write s c k =>
    refine ⟨rfl, fun s' => ?_⟩
    simp only [FitProg.next, Function.update_apply, List.append_cancel_left_eq]
    split
    · rfl
    · exact h s'

/-- **C140.** Whatever the order of the steps of the processes, each fit is where it would be after as many steps alone, and
so are its files; files of no fit stay as they were. -/
theorem C140_isolated (jobs : ℕ → FitJob) (hs : ∀ i k, i ≠ k → Sep (jobs i).base (jobs k).base) (progs : ℕ → FitProg C R)
    (d : FitDisk C) (sched : List ℕ) :
    (∀ i, (fitPoolRun jobs sched ⟨progs, d⟩).procs i = ((progs i).steps (jobs i).base (sched.count i) d).1 ∧
      ∀ s, (fitPoolRun jobs sched ⟨progs, d⟩).disk ((jobs i).base ++ s)
        = ((progs i).steps (jobs i).base (sched.count i) d).2 ((jobs i).base ++ s)) ∧
    ∀ x, (∀ i s, x ≠ (jobs i).base ++ s) → (fitPoolRun jobs sched ⟨progs, d⟩).disk x = d x := by
  induction sched using List.reverseRecOn with
  | nil => exact ⟨fun i => ⟨rfl, fun s => rfl⟩, fun x _ => rfl⟩
  | append_singleton l a ih =>
    obtain ⟨ih1, ih2⟩ := ih
    have hrun : fitPoolRun jobs (l ++ [a]) ⟨progs, d⟩ = fitPoolStep jobs (fitPoolRun jobs l ⟨progs, d⟩) a := by
      simp [fitPoolRun]
    rw [hrun]
    generalize fitPoolRun jobs l ⟨progs, d⟩ = t at ih1 ih2
    refine ⟨fun i => ?_, fun x hx => ?_⟩
    · by_cases hia : i = a
      · subst hia
        have hc : (l ++ [i]).count i = l.count i + 1 := by simp
        rw [hc, steps_succ]
        obtain ⟨e1, e2⟩ := ih1 i
        have := next_agree (jobs i).base (t.procs i) t.disk ((progs i).steps (jobs i).base (l.count i) d).2 e2
        rw [e1] at this
        simp only [fitPoolStep, Function.update_self]
        rw [e1]
        exact this
      · have hc : (l ++ [a]).count i = l.count i := by
          simp [List.count_append, Ne.symm hia]
        rw [hc]
        obtain ⟨e1, e2⟩ := ih1 i
        refine ⟨?_, fun s => ?_⟩
        · simp only [fitPoolStep, Function.update_of_ne hia]
          exact e1
        · simp only [fitPoolStep]
          rw [next_frame _ _ _ _ (fun s' => hs i a hia s s')]
          exact e2 s
    · simp only [fitPoolStep]
      rw [next_frame _ _ _ _ (fun s' => hx a s')]
      exact ih2 x hx

theorem steps_exec (b : List Char) (p : FitProg C R) (d : FitDisk C) :
    ∃ n, ∀ m, ((p.steps b m d).1.done = none ∧ m < n) ∨ ((p.steps b m d) = (.ret (p.exec b d).1, (p.exec b d).2) ∧ n ≤ m) := by
  induction p generalizing d with
  | ret r =>
    refine ⟨0, fun m => Or.inr ⟨?_, Nat.zero_le _⟩⟩
    induction m with
    | zero => rfl
    | succ m ih =>
      rw [FitProg.steps]
      exact ih
  | read s k ih =>
    obtain ⟨n, hn⟩ := ih (d (b ++ s)) d
    refine ⟨n + 1, fun m => ?_⟩
    cases m with
    | zero => exact Or.inl ⟨rfl, Nat.succ_pos _⟩
    | succ m =>
      rcases hn m with h | h
      · exact Or.inl ⟨h.1, Nat.succ_lt_succ h.2⟩
      · exact Or.inr ⟨h.1, Nat.succ_le_succ h.2⟩
  | write s c k ih =>
    obtain ⟨n, hn⟩ := ih (Function.update d (b ++ s) c)
    refine ⟨n + 1, fun m => ?_⟩
    cases m with
    | zero => exact Or.inl ⟨rfl, Nat.succ_pos _⟩
    | succ m =>
      rcases hn m with h | h
      · exact Or.inl ⟨h.1, Nat.succ_lt_succ h.2⟩
      · exact Or.inr ⟨h.1, Nat.succ_le_succ h.2⟩

/-- Two fits, of a level density and of both, that take turns. -/
example : (fitPoolRun (fun i => ⟨['m'], if i = 0 then .nld else .sim, i⟩) [0, 1, 1, 0]
      ⟨fun i => FitProg.write ['p'] (some i) (.read ['p'] fun c => .ret (.ok c)), fun _ => none⟩).procs 0 = .ret (.ok (some 0)) := by
  have h := ((C140_isolated (C := ℕ) (R := Option ℕ) (fun i : ℕ => ⟨['m'], if i = 0 then .nld else .sim, i⟩)
    (fun i k h => C140_separate _ _ (fun e => h (congrArg FitJob.num e)) (Or.inl rfl))
    (fun i => FitProg.write ['p'] (some i) (.read ['p'] fun c => .ret (.ok c))) (fun _ => none) [0, 1, 1, 0]).1 0).1
  exact h

theorem ens_separate (dir : List Char) (kind : FitKind) (i k : ℕ) (h : i ≠ k) :
    Sep (ensJobs dir kind i).base (ensJobs dir kind k).base :=
  C140_separate _ _ (fun e => h (congrArg FitJob.num e)) (Or.inl rfl)

/-- **C140.** The fits of the members of an ensemble do not disturb each other: under every schedule a member that has ended
has the result it would have alone, and it has ended once it has made enough steps, however the others stand. -/
theorem C140_members (dir : List Char) (kind : FitKind) (fits : ℕ → FitProg C R) (d : FitDisk C) (i : ℕ) :
    ∃ n, ∀ sched : List ℕ,
      ((fitPoolRun (ensJobs dir kind) sched (ensFitPool dir kind fits d)).procs i).done
        = if n ≤ sched.count i then some ((optimizeProg (ensJobs dir kind i) (fits i)).exec (ensJobs dir kind i).base d).1 else none := by
  obtain ⟨n, hn⟩ := steps_exec (ensJobs dir kind i).base (optimizeProg (ensJobs dir kind i) (fits i)) d
  refine ⟨n, fun sched => ?_⟩
  have h := ((C140_isolated (ensJobs dir kind) (ens_separate dir kind)
    (fun i => optimizeProg (ensJobs dir kind i) (fits i)) d sched).1 i).1
  unfold ensFitPool
  rw [h]
  rcases hn (sched.count i) with h1 | h1
  · rw [h1.1, if_neg (by omega)]
  · rw [h1.1, if_pos h1.2]
    rfl

/-- Three members, the last of which ends first. -/
example : ∃ n, ∀ sched : List ℕ,
    ((fitPoolRun (ensJobs ['m'] .nld) sched (ensFitPool ['m'] .nld (fun i => FitProg.write ['p'] (some i) (.read ['p'] fun c => .ret (.ok c))) fun _ => none)).procs 2).done
      = if n ≤ sched.count 2 then some (.ok (some 2)) else none := by
  obtain ⟨n, hn⟩ := C140_members (R := Option ℕ) ['m'] .nld (fun i => FitProg.write ['p'] (some i) (.read ['p'] fun c => .ret (.ok c))) (fun _ => none) 2
  refine ⟨n, fun sched => ?_⟩
  rw [hn sched]
  congr 1

/-- **C140.** A member whose base name is too long for MultiNest fails without touching a file; these are the members the check of
C93 speaks of. -/
theorem C140_path (j : FitJob) (fit : FitProg C R) :
    optimizeProg j fit = match checkPath j.dir.length j.num with | .ok () => fit | .error e => .ret (.error e) := by
  have hl : j.base.length = samplingPathLen j.dir.length j.num := by
    have h1 : (Nat.repr j.num).length = (Nat.toDigits 10 j.num).length := by
      rw [← String.length_toList, Nat.toList_repr]
    have h2 : j.kind.stem.length = 9 := by cases j.kind <;> rfl
    unfold samplingPathLen FitJob.base
    rw [h1]
    simp [h2]
    omega
  unfold optimizeProg checkPath
  rw [hl]
  split <;> rfl

example : optimizeProg ⟨List.replicate 47 'm', .nld, 10⟩ (FitProg.ret (.ok 1) : FitProg ℕ ℕ) = .ret (.error .assertion) := by
  rw [C140_path, show checkPath (FitJob.mk (List.replicate 47 'm') .nld 10).dir.length (FitJob.mk (List.replicate 47 'm') .nld 10).num = .error .assertion from by decide +kernel]

/-! ### Files that are there before -/

theorem fresh_exec (b : List Char) (p : FitProg C R) (W : Set (List Char)) (h : p.Fresh W) (d d' : FitDisk C)
    (hd : ∀ s ∈ W, d (b ++ s) = d' (b ++ s)) : (p.exec b d).1 = (p.exec b d').1 := by
  induction p generalizing W d d' with
  | ret r => rfl
  | read s k ih =>
    simp only [FitProg.exec]
    rw [hd s h.1]
    exact ih _ W (h.2 _) d d' hd
  | write s c k ih =>
    refine ih _ h _ _ fun s' hs' => ?_
    simp only [Function.update_apply, List.append_cancel_left_eq]
    split
    · rfl
    · rename_i hne
      exact hd s' ((Set.mem_insert_iff.1 hs').resolve_left hne)

/-- **C140.** A fit that reads only what it has written gives the same result whatever files there are. -/
theorem C140_fresh (b : List Char) (p : FitProg C R) (h : p.Fresh ∅) (d d' : FitDisk C) : (p.exec b d).1 = (p.exec b d').1 :=
  fresh_exec b p ∅ h d d' fun _ hs => absurd hs (Set.notMem_empty _)

theorem optimize_fresh (j : FitJob) {p : FitProg C R} {W : Set (List Char)} (h : p.Fresh W) : (optimizeProg j p).Fresh W := by
  unfold optimizeProg
  split
  · exact h
  · trivial

theorem loop_fresh (dir : List Char) (kind : FitKind) (fits : ℕ → FitProg C R) (hf : ∀ i, (fits i).Fresh ∅) (l : List ℕ) (d : FitDisk C) :
    (fitLoop dir kind fits l d).1
      = l.mapM fun i => ((optimizeProg (ensJobs dir kind i) (fits i)).exec (ensJobs dir kind i).base fun _ => none).1 := by
  induction l generalizing d with
  | nil => rfl
  | cons i l ih =>
    have h0 := C140_fresh (ensJobs dir kind i).base _ (optimize_fresh (ensJobs dir kind i) (hf i)) d fun _ => none
    rw [List.mapM_cons, ← h0, fitLoop]
    rcases hx : (optimizeProg (ensJobs dir kind i) (fits i)).exec (ensJobs dir kind i).base d with ⟨e | r, d1⟩
    · rfl
    · simp only
      rcases hy : fitLoop dir kind fits l d1 with ⟨e | rs, d2⟩
      · have := ih d1
        rw [hy] at this
        simp only at this
        rw [← this]
        rfl
      · have := ih d1
        rw [hy] at this
        simp only at this
        rw [← this]
        rfl

/-- **C140.** If the process pool breaks down at any point and the members are run one after the other instead, the results
are those each member has alone in an empty directory; if it does not break down, each result is the same as well. -/
theorem C140_fallback (dir : List Char) (kind : FitKind) (fits : ℕ → FitProg C R) (hf : ∀ i, (fits i).Fresh ∅) (N : ℕ) (d : FitDisk C)
    (sched : List ℕ) :
    (fitLoop dir kind fits (List.range N) (fitPoolRun (ensJobs dir kind) sched (ensFitPool dir kind fits d)).disk).1
      = (List.range N).mapM (fun i => ((optimizeProg (ensJobs dir kind i) (fits i)).exec (ensJobs dir kind i).base fun _ => none).1) ∧
    ∀ i r, ((fitPoolRun (ensJobs dir kind) sched (ensFitPool dir kind fits d)).procs i).done = some r →
      r = ((optimizeProg (ensJobs dir kind i) (fits i)).exec (ensJobs dir kind i).base fun _ => none).1 := by
  refine ⟨loop_fresh dir kind fits hf _ _, fun i r hr => ?_⟩
  obtain ⟨n, hn⟩ := C140_members dir kind fits d i
  rw [hn sched] at hr
  split at hr
  · rw [← Option.some.inj hr]
    exact C140_fresh _ _ (optimize_fresh _ (hf i)) _ _
  · cases hr

/-- Files of an earlier run, here all holding 7, and a pool that stops after three steps. -/
example : (fitLoop ['m'] .sim (fun i => FitProg.write ['p'] (some i) (.read ['p'] fun c => .ret (.ok c))) (List.range 2)
      (fitPoolRun (ensJobs ['m'] .sim) [1, 0, 1] (ensFitPool ['m'] .sim (fun i => FitProg.write ['p'] (some i) (.read ['p'] fun c => .ret (.ok c))) fun _ => some 7)).disk).1
    = .ok [some 0, some 1] := by
  have hf : ∀ i : ℕ, (FitProg.write ['p'] (some i) (.read ['p'] fun c => .ret (.ok c)) : FitProg ℕ (Option ℕ)).Fresh ∅ :=
    fun i => ⟨by simp, fun _ => trivial⟩
  rw [(C140_fallback ['m'] .sim _ hf 2 _ _).1]
  decide +kernel

/-! ### MultiNest -/

theorem multinest_exec (state post : List Char) (hsp : post ≠ state) (sample : Option C → C) (result : Option C → Except Err R) (resume : Bool)
    (b : List Char) (d : FitDisk C) :
    ((multinestProg state post sample result resume).exec b d).1
      = result (some (sample (if resume then d (b ++ state) else none))) := by
  cases resume with
  | false =>
    simp [multinestProg, FitProg.exec, hsp]
  | true =>
    simp [multinestProg, FitProg.exec, hsp]

/-- **C140.** With the default keywords the sampling starts anew: files that are there do not matter, and the result is that
of the data. -/
theorem C140_default (state post : List Char) (hsp : post ≠ state) (sample : Option C → C) (result : Option C → Except Err R)
    (b : List Char) (d : FitDisk C) :
    (multinestProg state post sample result (resumeArg defaultFitKw)).Fresh ∅ ∧
      ((multinestProg state post sample result (resumeArg defaultFitKw)).exec b d).1 = result (some (sample none)) := by
  have h : resumeArg defaultFitKw = false := rfl
  rw [h, multinest_exec state post hsp]
  exact ⟨⟨by simp, fun _ => trivial⟩, rfl⟩

example : (fitLoop ['m'] .nld (fun i => multinestProg ['s'] ['p'] (fun _ => i * i) (fun c => .ok c) (resumeArg defaultFitKw)) (List.range 3) (fun _ => some 7)).1
    = .ok [some 0, some 1, some 4] := by
  rw [(loop_fresh _ _ _ (fun i => (C140_default ['s'] ['p'] (by decide) _ _ [] fun _ => none).1) _ _)]
  decide +kernel

/-- **C140 (disagreement).** `multinest_kwargs`, documented as additional keywords, replaces the defaults: set to a dictionary
without `resume` — another seed, say — the sampling goes on from the files of an earlier fit with other data. -/
theorem C140_resume_fails (kw : List FitKw) (hk : ∀ b, FitKw.resume b ∉ kw) (state post : List Char) (hsp : post ≠ state)
    (sample : Option C → C) (result : Option C → Except Err R) (b : List Char) (d : FitDisk C) :
    ((multinestProg state post sample result (resumeArg kw)).exec b d).1 = result (some (sample (d (b ++ state)))) := by
  have h : resumeArg kw = true := by
    unfold resumeArg
    rw [List.findSome?_eq_none_iff.2]
    · rfl
    · intro k hkk
      cases k with
      | resume c => exact absurd hkk (hk c)
      | seed n => rfl
      | other n => rfl
  rw [h, multinest_exec state post hsp]
  rfl

/-- The points of an earlier fit, here 5, are taken over. -/
example : ((multinestProg ['s'] ['p'] (fun o => o.getD 3) (fun c => .ok c) (resumeArg [.seed 1])).exec ['m', '/'] (fun _ => some 5)).1 = .ok (some 5) ∧
    ((multinestProg ['s'] ['p'] (fun o => o.getD 3) (fun c => .ok c) (resumeArg defaultFitKw)).exec ['m', '/'] (fun _ => some 5)).1 = .ok (some 3) :=
  ⟨C140_resume_fails [.seed 1] (by simp) ['s'] ['p'] (by decide) _ _ _ _, (C140_default ['s'] ['p'] (by decide) _ _ _ _).2⟩

/-- **C140 (disagreement).** The base name has only the number of the member in it.  Two programs that normalise at the same
time in the same directory — two ensembles, or two single normalisations, which are both number 0 — may get each other's
results without any error, although each reads only what it has written: here the first gets the samples of the second. -/
theorem C140_shared_fails (j : FitJob) (state post : List Char) (hsp : post ≠ state) (x y : C) (d : FitDisk C) :
    let fit : C → FitProg C (Option C) := fun z => multinestProg state post (fun _ => z) (fun c => .ok c) (resumeArg defaultFitKw)
    let t := fitPoolRun (fun _ => j) [0, 0, 1, 1, 0, 1] ⟨fun i => fit (if i = 0 then x else y), d⟩
    (t.procs 0).done = some (.ok (some y)) ∧ (t.procs 1).done = some (.ok (some y)) ∧
      ((fit x).exec j.base d).1 = .ok (some x) := by
  have h : resumeArg defaultFitKw = false := rfl
  simp only [h]
  refine ⟨?_, ?_, multinest_exec state post hsp _ _ false j.base d⟩
  · simp [fitPoolRun, fitPoolStep, multinestProg, FitProg.next, FitProg.done, hsp]
  · simp [fitPoolRun, fitPoolStep, multinestProg, FitProg.next, FitProg.done, hsp]

end Ompy
