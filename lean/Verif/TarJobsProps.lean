import Verif.TarJobs
import Verif.FileIOProps

/-!
# C148: tar files written and read by several processes
-/

namespace Ompy

/-- Specification: the process only uses files with names in `N`: its archive, its temporary files, and the files it
extracts. -/
def TarProc.inside (N : Set String) (fs : FS) : TarProc → Prop
  | .saveOpen p objs => tarPath p ∈ N ∧ ∀ k < objs.length, tmpName p k ∈ N
  | .saveWrite p num objs _ => tarPath p ∈ N ∧ ∀ k < objs.length, tmpName p (num + k) ∈ N
  | .saveAdd p num objs _ => tarPath p ∈ N ∧ ∀ k < objs.length + 1, tmpName p (num + k) ∈ N
  | .saveUnlink p num objs _ => tarPath p ∈ N ∧ ∀ k < objs.length + 1, tmpName p (num + k) ∈ N
  | .loadOpen p => tarPath p ∈ N ∧ ∀ ms, fs (tarPath p) = some (.tar ms) → ∀ m ∈ ms, m.1 ∈ N
  | .extract _ names _ => ∀ n ∈ names, n ∈ N
  | .read _ name names _ => name ∈ N ∧ ∀ n ∈ names, n ∈ N
  | .unlink _ name names _ => name ∈ N ∧ ∀ n ∈ names, n ∈ N
  | .done _ => True

/-- Specification: two disks agree on the files in `N`. -/
def SameOn (N : Set String) (fs fs' : FS) : Prop := ∀ q ∈ N, fs q = fs' q

theorem sameOn_set {N : Set String} {fs fs' : FS} (h : SameOn N fs fs') (p : String) (f : Option File) :
    SameOn N (fs.set p f) (fs'.set p f) := by
  intro q hq
  unfold FS.set
  split_ifs
  · rfl
  · exact h q hq

theorem set_off {N : Set String} (fs : FS) {p : String} (hp : p ∈ N) (f : Option File) :
    ∀ q ∉ N, (fs.set p f) q = fs q := by
  intro q hq
  exact set_other fs p q f fun h => hq (h ▸ hp)

/-- A step looks at and changes only the files of the process. -/
theorem tstep_frame (member : String → String) (N : Set String) (t : TarProc) (fs fs' : FS) (hi : t.inside N fs)
    (h : SameOn N fs fs') :
    (t.step member fs).1 = (t.step member fs').1 ∧ SameOn N (t.step member fs).2 (t.step member fs').2 ∧
      (∀ q ∉ N, (t.step member fs).2 q = fs q) ∧ (t.step member fs).1.inside N (t.step member fs).2 ∧
      t.inside N fs' := by
  have keep : ∀ r : Except Err (List NArr), (TarProc.done r).inside N fs := fun _ => trivial
  cases t with
  | saveOpen p objs =>
    refine ⟨rfl, sameOn_set h _ _, set_off fs hi.1 _, ⟨hi.1, ?_⟩, hi⟩
    intro k hk
    rw [Nat.zero_add]
    exact hi.2 k hk
  | saveWrite p num objs ms =>
    cases objs with
    | nil => exact ⟨rfl, sameOn_set h _ _, set_off fs hi.1 _, trivial, hi⟩
    | cons o objs =>
      have h0 : tmpName p num ∈ N := hi.2 0 (by simp)
      exact ⟨rfl, sameOn_set h _ _, set_off fs h0 _, ⟨hi.1, hi.2⟩, hi⟩
  | saveAdd p num objs ms =>
    have h0 : tmpName p num ∈ N := hi.2 0 (by simp)
    have e := h _ h0
    simp only [TarProc.step, ← e]
    split
    · exact ⟨rfl, sameOn_set h _ _, set_off fs hi.1 _, ⟨hi.1, hi.2⟩, hi⟩
    · exact ⟨rfl, h, fun _ _ => rfl, trivial, hi⟩
    · exact ⟨rfl, h, fun _ _ => rfl, trivial, hi⟩
  | saveUnlink p num objs ms =>
    have h0 : tmpName p num ∈ N := hi.2 0 (by simp)
    have e := h _ h0
    simp only [TarProc.step, ← e]
    split
    · refine ⟨rfl, sameOn_set h _ _, set_off fs h0 _, ⟨hi.1, fun k hk => ?_⟩, hi⟩
      have := hi.2 (k + 1) (by omega)
      rwa [show num + (k + 1) = num + 1 + k by omega] at this
    · exact ⟨rfl, h, fun _ _ => rfl, trivial, hi⟩
  | loadOpen p =>
    have e := h _ hi.1
    have hi' : (TarProc.loadOpen p).inside N fs' := ⟨hi.1, fun ms hm => hi.2 ms (by rw [e]; exact hm)⟩
    refine ⟨?_, ?_, ?_, ?_, hi'⟩ <;> simp only [TarProc.step, ← e]
    · split <;> rfl
    · split <;> exact h
    · split <;> exact fun _ _ => rfl
    · split
      · rename_i ms hm
        intro n hn
        obtain ⟨m, hm', rfl⟩ := List.mem_map.1 hn
        exact hi.2 ms hm m hm'
      · trivial
      · trivial
  | extract ms names objs =>
    cases names with
    | nil => exact ⟨rfl, h, fun _ _ => rfl, trivial, hi⟩
    | cons name names =>
      have h0 : name ∈ N := hi name List.mem_cons_self
      have hr : ∀ n ∈ names, n ∈ N := fun n hn => hi n (List.mem_cons_of_mem _ hn)
      simp only [TarProc.step]
      split
      · exact ⟨rfl, sameOn_set h _ _, set_off fs h0 _, ⟨h0, hr⟩, hi⟩
      · exact ⟨rfl, h, fun _ _ => rfl, trivial, hi⟩
  | read ms name names objs =>
    have e := h _ hi.1
    simp only [TarProc.step, ← e]
    split
    · exact ⟨rfl, h, fun _ _ => rfl, ⟨hi.1, hi.2⟩, hi⟩
    · exact ⟨rfl, h, fun _ _ => rfl, trivial, hi⟩
    · exact ⟨rfl, h, fun _ _ => rfl, trivial, hi⟩
  | unlink ms name names objs =>
    have e := h _ hi.1
    simp only [TarProc.step, ← e]
    split
    · exact ⟨rfl, sameOn_set h _ _, set_off fs hi.1 _, hi.2, hi⟩
    · exact ⟨rfl, h, fun _ _ => rfl, trivial, hi⟩
  | done r => exact ⟨rfl, h, fun _ _ => rfl, trivial, hi⟩

/-- The files of a process stay its files when others change other files. -/
theorem inside_congr (N : Set String) (t : TarProc) (fs fs' : FS) (h : SameOn N fs fs') (hi : t.inside N fs) :
    t.inside N fs' := (tstep_frame id N t fs fs' hi h).2.2.2.2

/-- **C148.** Any number of processes that save and load tar files at the same time, in any order of their steps, do not notice
each other if no two of them use a file of the same name: each is where it would be alone on the disk after
as many steps, its files are what they would be, and all other files are as before. -/
theorem C148_separate {ι : Type} [DecidableEq ι] (member : String → String) (N : ι → Set String)
    (hN : ∀ i j, i ≠ j → Disjoint (N i) (N j)) (sched : List ι) : ∀ (t : ι → TarProc) (fs : FS),
    (∀ i, (t i).inside (N i) fs) →
    (∀ i, (tarRun member sched (t, fs)).1 i = (TarProc.iter member (sched.count i) (t i, fs)).1 ∧
      SameOn (N i) (tarRun member sched (t, fs)).2 (TarProc.iter member (sched.count i) (t i, fs)).2) ∧
    ∀ q, (∀ i, q ∉ N i) → (tarRun member sched (t, fs)).2 q = fs q := by
  -- a process alone does not notice other files either
  have alone : ∀ (n : ℕ) (i : ι) (a : TarProc) (fs fs' : FS), a.inside (N i) fs → SameOn (N i) fs fs' →
      (TarProc.iter member n (a, fs)).1 = (TarProc.iter member n (a, fs')).1 ∧
        SameOn (N i) (TarProc.iter member n (a, fs)).2 (TarProc.iter member n (a, fs')).2 := by
    intro n
    induction n with
    | zero => intro i a fs fs' _ h; exact ⟨rfl, h⟩
    | succ n ih =>
      intro i a fs fs' hi h
      obtain ⟨h1, h2, -, h4, -⟩ := tstep_frame member (N i) a fs fs' hi h
      have e : a.step member fs' = ((a.step member fs).1, (a.step member fs').2) := Prod.ext h1.symm rfl
      simp only [TarProc.iter]
      rw [e]
      exact ih i _ _ _ h4 h2
  induction sched with
  | nil => intro t fs _; exact ⟨fun i => ⟨rfl, fun _ _ => rfl⟩, fun _ _ => rfl⟩
  | cons j sched ih =>
    intro t fs hi
    obtain ⟨-, -, hoff, hin, -⟩ := tstep_frame member (N j) (t j) fs fs (hi j) (fun _ _ => rfl)
    have same : ∀ i, i ≠ j → SameOn (N i) fs ((t j).step member fs).2 := by
      intro i hij q hq
      exact (hoff q fun hq' => Set.disjoint_left.1 (hN i j hij) hq hq').symm
    have hi' : ∀ i, (Function.update t j ((t j).step member fs).1 i).inside (N i) ((t j).step member fs).2 := by
      intro i
      by_cases hij : i = j
      · subst hij; rw [Function.update_self]; exact hin
      · rw [Function.update_of_ne hij]
        exact inside_congr _ _ _ _ (same i hij) (hi i)
    obtain ⟨h1, h2⟩ := ih _ _ hi'
    refine ⟨fun i => ?_, fun q hq => ?_⟩
    · simp only [tarRun]
      by_cases hij : i = j
      · subst hij
        have := h1 i
        rw [Function.update_self] at this
        rw [List.count_cons_self]
        exact this
      · have := h1 i
        rw [Function.update_of_ne hij] at this
        rw [List.count_cons_of_ne (fun h => hij h.symm)]
        obtain ⟨a1, a2⟩ := alone (sched.count i) i (t i) fs _ (hi i) (same i hij)
        exact ⟨this.1.trans a1.symm, fun q hq => (this.2 q hq).trans (a2 q hq).symm⟩
    · simp only [tarRun]
      rw [h2 q hq]
      exact hoff q (hq j)

/-! ### A process alone -/

theorem iter_add (member : String → String) (m n : ℕ) : ∀ s : TarProc × FS,
    TarProc.iter member (m + n) s = TarProc.iter member n (TarProc.iter member m s) := by
  induction m with
  | zero => intro s; rw [Nat.zero_add]; rfl
  | succ m ih => intro s; rw [Nat.succ_add]; exact ih _

theorem iter_done (member : String → String) (r : Except Err (List NArr)) (fs : FS) (n : ℕ) :
    TarProc.iter member n (.done r, fs) = (.done r, fs) := by
  induction n with
  | zero => rfl
  | succ n ih => exact ih

theorem tmp_ne_tar (p : FPath) (k : ℕ) (q : FPath) : tmpName p k ≠ tarPath q := by
  intro h
  have h1 : ∃ l : List Char, (tmpName p k).toList = l ++ ['.', 'n', 'p', 'y'] := ⟨_, by
    unfold tmpName
    rw [String.toList_append]
    rfl⟩
  have h2 : ∃ l : List Char, (tarPath q).toList = l ++ ['.', 't', 'a', 'r'] := by
    unfold tarPath FPath.str
    split_ifs with hs
    · exact ⟨_, by rw [hs, String.toList_append]; rfl⟩
    · exact ⟨_, by rw [String.toList_append]; rfl⟩
  obtain ⟨l1, h1⟩ := h1
  obtain ⟨l2, h2⟩ := h2
  rw [h, h2] at h1
  have := congrArg List.getLast? h1
  simp at this

theorem tarLoop_off (member : String → String) (p : FPath) (os : List NArr) : ∀ (k : ℕ) (ms : List (String × NArr))
    (fs fs' : FS), (∀ q, q ≠ tarPath p → fs q = fs' q) →
    (tarLoop member p k os ms fs).1 = (tarLoop member p k os ms fs').1 ∧
      ∀ q, q ≠ tarPath p → (tarLoop member p k os ms fs).2 q = (tarLoop member p k os ms fs').2 q := by
  induction os with
  | nil => intro k ms fs fs' h; exact ⟨rfl, h⟩
  | cons o os ih =>
    intro k ms fs fs' h
    simp only [tarLoop]
    apply ih
    intro q hq
    simp only [FS.set]
    split_ifs
    · rfl
    · exact h q hq

theorem iter_save (member : String → String) (p : FPath) (os : List NArr) : ∀ (k : ℕ) (ms : List (String × NArr)) (fs : FS),
    TarProc.iter member (3 * os.length + 1) (.saveWrite p k os ms, fs) =
      (.done (.ok []), (tarLoop member p k os ms fs).2.set (tarPath p) (some (.tar (tarLoop member p k os ms fs).1))) := by
  induction os with
  | nil => intro k ms fs; rfl
  | cons o os ih =>
    intro k ms fs
    have hne : tmpName p k ≠ tarPath p := tmp_ne_tar p k p
    have e : 3 * (o :: os).length + 1 = 3 + (3 * os.length + 1) := by simp; ring
    rw [e, iter_add]
    have e3 : TarProc.iter member 3 (.saveWrite p k (o :: os) ms, fs) =
        (.saveWrite p (k + 1) os (ms ++ [(member (tmpName p k), o)]),
          ((fs.set (tmpName p k) (some (.npy o))).set (tarPath p)
            (some (.tar (ms ++ [(member (tmpName p k), o)])))).set (tmpName p k) none) := by
      simp only [TarProc.iter, TarProc.step, set_same]
      rw [set_other _ _ _ _ hne, set_same]
    rw [e3, ih]
    simp only [tarLoop]
    obtain ⟨h1, h2⟩ := tarLoop_off member p os (k + 1) (ms ++ [(member (tmpName p k), o)])
      (((fs.set (tmpName p k) (some (.npy o))).set (tarPath p)
        (some (.tar (ms ++ [(member (tmpName p k), o)])))).set (tmpName p k) none)
      ((fs.set (tmpName p k) (some (.npy o))).set (tmpName p k) none) (by
        intro q hq
        simp only [FS.set]
        split_ifs <;> rfl)
    rw [h1]
    refine Prod.ext rfl ?_
    funext q
    simp only [FS.set]
    split_ifs with hq
    · rfl
    · exact h2 q hq

/-- **C148.** Alone on the disk, saving ends without exception after `3 n + 2` steps with the disk of `saveTar` (C23). -/
theorem C148_save_alone (member : String → String) (p : FPath) (objs : List NArr) (fs : FS) :
    TarProc.iter member (3 * objs.length + 2) (.saveOpen p objs, fs) = (.done (.ok []), saveTar member objs p fs) :=
  iter_save member p objs 0 [] (fs.set (tarPath p) (some (.tar [])))

theorem lastNamed_of_mem (ms : List (String × NArr)) (h : (ms.map Prod.fst).Nodup) (m : String × NArr) (hm : m ∈ ms) :
    lastNamed ms m.1 = some m.2 := by
  unfold lastNamed
  rw [Option.map_eq_some_iff]
  have hex : ∃ x, ms.reverse.find? (fun x => x.1 == m.1) = some x := by
    rw [← Option.isSome_iff_exists, List.find?_isSome]
    exact ⟨m, by simpa using hm, by simp⟩
  obtain ⟨x, hx⟩ := hex
  refine ⟨x, hx, ?_⟩
  have hx1 : x ∈ ms := by simpa using List.mem_of_find?_eq_some hx
  have hx2 : x.1 = m.1 := by simpa using List.find?_some hx
  rw [List.inj_on_of_nodup_map h hx1 hm hx2]

theorem iter_load (member : String → String) (all : List (String × NArr)) (h : (all.map Prod.fst).Nodup)
    (ms : List (String × NArr)) : (∀ m ∈ ms, m ∈ all) → ∀ (acc : List NArr) (fs : FS),
    TarProc.iter member (3 * ms.length + 1) (.extract all (ms.map Prod.fst) acc, fs) =
      (.done (.ok (untarLoop ms acc fs).1), (untarLoop ms acc fs).2) := by
  induction ms with
  | nil => intro _ acc fs; rfl
  | cons m ms ih =>
    intro hall acc fs
    obtain ⟨name, a⟩ := m
    have e : 3 * ((name, a) :: ms).length + 1 = 3 + (3 * ms.length + 1) := by simp; ring
    have hl := lastNamed_of_mem all h (name, a) (hall _ List.mem_cons_self)
    rw [e, iter_add]
    have e3 : TarProc.iter member 3 (.extract all (((name, a) :: ms).map Prod.fst) acc, fs) =
        (.extract all (ms.map Prod.fst) (acc ++ [a]), (fs.set name (some (.npy a))).set name none) := by
      simp only [List.map_cons, TarProc.iter, TarProc.step]
      simp only at hl
      simp only [hl, set_same]
    rw [e3, ih fun m hm => hall m (List.mem_cons_of_mem _ hm)]
    rfl

/-- **C148.** Alone on the disk, loading ends with the result and the disk of `loadTar` (C23), for archives without two members
of one name. -/
theorem C148_load_alone (member : String → String) (p : FPath) (fs : FS)
    (h : ∀ ms, fs (tarPath p) = some (.tar ms) → (ms.map Prod.fst).Nodup) :
    ∃ n, ∀ k, TarProc.iter member (n + k) (.loadOpen p, fs) = (.done (loadTar p fs).1, (loadTar p fs).2) := by
  unfold loadTar
  rcases hf : fs (tarPath p) with _ | f
  · exact ⟨1, fun k => by rw [iter_add]; simp only [TarProc.iter, TarProc.step, hf, iter_done]⟩
  · cases f with
    | tar ms =>
      refine ⟨3 * ms.length + 1 + 1, fun k => ?_⟩
      rw [iter_add]
      have : TarProc.iter member (3 * ms.length + 1 + 1) (.loadOpen p, fs) =
          TarProc.iter member (3 * ms.length + 1) (.extract ms (ms.map Prod.fst) [], fs) := by
        simp only [TarProc.iter, TarProc.step, hf]
      rw [this, iter_load member ms (h ms hf) ms (fun _ hm => hm), iter_done]
    | npy a => exact ⟨1, fun k => by rw [iter_add]; simp only [TarProc.iter, TarProc.step, hf, iter_done]⟩
    | txt a b => exact ⟨1, fun k => by rw [iter_add]; simp only [TarProc.iter, TarProc.step, hf, iter_done]⟩
    | csv a => exact ⟨1, fun k => by rw [iter_add]; simp only [TarProc.iter, TarProc.step, hf, iter_done]⟩
    | mama a b c => exact ⟨1, fun k => by rw [iter_add]; simp only [TarProc.iter, TarProc.step, hf, iter_done]⟩

example : TarProc.iter id 8 (.saveOpen ⟨"a", ".tar"⟩ [.d1 [1], .d1 [2]], fun _ => none) =
    (.done (.ok []), saveTar id [.d1 [1], .d1 [2]] ⟨"a", ".tar"⟩ fun _ => none) :=
  C148_save_alone id ⟨"a", ".tar"⟩ [.d1 [1], .d1 [2]] _

example : (TarProc.iter id 8 (.loadOpen ⟨"a", ".tar"⟩, fun q => if q = "a.tar" then
    some (.tar [("a0.npy", .d1 [1]), ("a1.npy", .d1 [2])]) else none)).1 = .done (.ok [.d1 [1], .d1 [2]]) := by
  decide +kernel

/-- **C148.** A process that saves and one that loads, with different archives and different temporary and extracted files: whatever
the order of the steps, when both are done the loader has the result it has alone, and the archive saved is the one that is
written alone. -/
theorem C148_save_and_load (member : String → String) (p q : FPath) (a : List NArr) (all : List (String × NArr)) (fs : FS)
    (hf : fs (tarPath q) = some (.tar all)) (hnd : (all.map Prod.fst).Nodup) (hpq : tarPath p ≠ tarPath q)
    (hp : tarPath p ∉ all.map Prod.fst) (htmp : ∀ k < a.length, tmpName p k ∉ all.map Prod.fst) :
    ∃ n, ∀ sched : List Bool, n ≤ sched.count true → n ≤ sched.count false →
      let r := tarRun member sched (fun i => if i then .saveOpen p a else .loadOpen q, fs)
      r.1 true = .done (.ok []) ∧ r.1 false = .done (.ok (all.map Prod.snd)) ∧
        r.2 (tarPath p) = saveTar member a p fs (tarPath p) := by
  obtain ⟨n, hn⟩ := C148_load_alone member q fs (fun ms h => by rw [hf] at h; cases h; exact hnd)
  refine ⟨max n (3 * a.length + 2), fun sched h1 h2 => ?_⟩
  intro r
  obtain ⟨hs, -⟩ := C148_separate member
    (fun i : Bool => if i then {x | x = tarPath p ∨ ∃ k < a.length, x = tmpName p k}
      else {x | x = tarPath q ∨ x ∈ all.map Prod.fst})
    (by
      have hd : Disjoint {x | x = tarPath p ∨ ∃ k < a.length, x = tmpName p k}
          {x | x = tarPath q ∨ x ∈ all.map Prod.fst} := by
        rw [Set.disjoint_left]
        rintro x (rfl | ⟨k, hk, rfl⟩) (h | h)
        · exact hpq h
        · exact hp h
        · exact tmp_ne_tar p k q h
        · exact htmp k hk h
      intro i j hij
      cases i <;> cases j
      · exact absurd rfl hij
      · exact hd.symm
      · exact hd
      · exact absurd rfl hij)
    sched (fun i => if i then .saveOpen p a else .loadOpen q) fs
    (by
      intro i
      cases i
      · refine ⟨Or.inl rfl, fun ms h m hm => Or.inr ?_⟩
        rw [hf] at h
        cases h
        exact List.mem_map_of_mem hm
      · exact ⟨Or.inl rfl, fun k hk => Or.inr ⟨k, hk, rfl⟩⟩)
  have ht1 := hs true
  have hf1 := hs false
  simp only [if_true, Bool.false_eq_true, if_false] at ht1 hf1
  obtain ⟨m1, e1⟩ := Nat.exists_eq_add_of_le ((le_max_right n (3 * a.length + 2)).trans h1)
  obtain ⟨m2, e2⟩ := Nat.exists_eq_add_of_le ((le_max_left n (3 * a.length + 2)).trans h2)
  rw [e1, iter_add, C148_save_alone, iter_done] at ht1
  rw [e2, hn] at hf1
  refine ⟨ht1.1, ?_, ht1.2 _ (Or.inl rfl)⟩
  rw [hf1.1]
  have : (loadTar q fs).1 = .ok (all.map Prod.snd) := by
    unfold loadTar
    rw [hf]
    exact congrArg Except.ok (by rw [(untar_spec all [] fs).1]; rfl)
  rw [this]

/-! ### When the names are different -/

theorem digit_length (k : ℕ) (h : k < 10) : (toString k).toList.length = 1 := by
  interval_cases k <;> decide +kernel

/-- Specification: the files `save_tar` uses for up to ten arrays. -/
def saveNames (p : FPath) : Set String := {q | q = tarPath p ∨ ∃ k < 10, q = tmpName p k}

/-- **C148.** Saving at most ten arrays each to paths that have a suffix and differ in what stands before it uses no file
twice. -/
theorem C148_names (p q : FPath) (hp : p.suffix ≠ "") (hq : q.suffix ≠ "") (hne : p.stem ≠ q.stem)
    (ht : tarPath p ≠ tarPath q) : Disjoint (saveNames p) (saveNames q) := by
  rw [Set.disjoint_left]
  rintro n (rfl | ⟨k, hk, rfl⟩) (h | ⟨j, hj, h⟩)
  · exact ht h
  · exact tmp_ne_tar q j p h.symm
  · exact tmp_ne_tar p k q h
  · unfold tmpName at h
    rw [if_neg hp, if_neg hq] at h
    have h' := congrArg String.toList h
    simp only [String.toList_append] at h'
    have hl : (p.stem.toList ++ (toString k).toList).length = (q.stem.toList ++ (toString j).toList).length := by
      have := congrArg List.length h'
      rw [List.length_append, List.length_append (bs := ".npy".toList)] at this
      exact Nat.add_right_cancel this
    have h1 := (List.append_inj h' hl).1
    have hl2 : p.stem.toList.length = q.stem.toList.length := by
      rw [List.length_append, List.length_append, digit_length k hk, digit_length j hj] at hl
      omega
    exact hne (String.toList_inj.1 (List.append_inj h1 hl2).1)

/-- **C148.** Two vectors or matrices saved at the same time to such paths: whatever the order of the steps, when both are done
neither has raised, and each archive is the one that is written without the other. -/
theorem C148_two_saves (member : String → String) (p q : FPath) (hp : p.suffix ≠ "") (hq : q.suffix ≠ "")
    (hne : p.stem ≠ q.stem) (ht : tarPath p ≠ tarPath q) (a b : List NArr) (ha : a.length ≤ 10) (hb : b.length ≤ 10)
    (fs : FS) (sched : List Bool) (h1 : 3 * a.length + 2 ≤ sched.count true) (h2 : 3 * b.length + 2 ≤ sched.count false) :
    let r := tarRun member sched (fun i => if i then .saveOpen p a else .saveOpen q b, fs)
    r.1 true = .done (.ok []) ∧ r.1 false = .done (.ok []) ∧
      r.2 (tarPath p) = saveTar member a p fs (tarPath p) ∧ r.2 (tarPath q) = saveTar member b q fs (tarPath q) := by
  intro r
  have hdis := C148_names p q hp hq hne ht
  obtain ⟨hs, -⟩ := C148_separate member (fun i : Bool => if i then saveNames p else saveNames q)
    (by
      intro i j hij
      cases i <;> cases j
      · exact absurd rfl hij
      · exact hdis.symm
      · exact hdis
      · exact absurd rfl hij)
    sched (fun i => if i then .saveOpen p a else .saveOpen q b) fs
    (by
      intro i
      cases i
      · exact ⟨Or.inl rfl, fun k hk => Or.inr ⟨k, by omega, rfl⟩⟩
      · exact ⟨Or.inl rfl, fun k hk => Or.inr ⟨k, by omega, rfl⟩⟩)
  have fin : ∀ (n : ℕ) (x : FPath) (l : List NArr), 3 * l.length + 2 ≤ n →
      TarProc.iter member n (.saveOpen x l, fs) = (.done (.ok []), saveTar member l x fs) := by
    intro n x l hn
    obtain ⟨m, rfl⟩ := Nat.exists_eq_add_of_le hn
    rw [iter_add, C148_save_alone, iter_done]
  have ht1 := hs true
  have hf1 := hs false
  simp only [if_true, Bool.false_eq_true, if_false] at ht1 hf1
  rw [fin _ p a h1] at ht1
  rw [fin _ q b h2] at hf1
  exact ⟨ht1.1, hf1.1, ht1.2 _ (Or.inl rfl), hf1.2 _ (Or.inl rfl)⟩

example : (tarRun id [true, false, true, false, false, true, true, false, true, false]
      ((fun i : Bool => if i then .saveOpen ⟨"a", ".tar"⟩ [.d1 [1]] else .saveOpen ⟨"b", ".tar"⟩ [.d1 [2]]), fun _ => none)).2
      "a.tar" = some (.tar [("a0.npy", .d1 [1])]) := by
  decide +kernel

/-- **C148, for paths that differ only in the suffix this fails:** `run.1` and `run.2` saved as tar at the same time use the same
temporary file. The first process ends without exception, but its archive holds the array of the second one; the second process
raises `FileNotFoundError`. -/
theorem C148_same_stem_fails :
    let s : Bool → TarProc := fun i => if i then .saveOpen ⟨"run", ".1"⟩ [.d1 [1]] else .saveOpen ⟨"run", ".2"⟩ [.d1 [2]]
    let r := tarRun id [true, false, true, false, true, false, true, false, true, false] (s, fun _ => none)
    r.2 "run.1.tar" = some (.tar [("run0.npy", .d1 [2])]) ∧ r.2 "run.2.tar" = some (.tar [("run0.npy", .d1 [2])]) ∧
      r.1 true = .done (.ok []) ∧ r.1 false = .done (.error .fileNotFound) := by
  decide +kernel

/-! ### Readers of one archive -/

/-- What holds of a process that reads the archive `all`: it has the first arrays of it. -/
def TarProc.reading (all : List (String × NArr)) (p : FPath) : TarProc → Prop
  | .loadOpen q => q = p
  | .extract ms names objs => ms = all ∧ ∃ d, d ++ names = all.map Prod.fst ∧ objs = (all.take d.length).map Prod.snd
  | .read ms name names objs =>
    ms = all ∧ ∃ d, d ++ name :: names = all.map Prod.fst ∧ objs = (all.take d.length).map Prod.snd
  | .unlink ms name names objs =>
    ms = all ∧ ∃ d, d ++ name :: names = all.map Prod.fst ∧ objs = (all.take (d.length + 1)).map Prod.snd
  | .done (.ok objs) => objs = all.map Prod.snd
  | .done (.error e) => e = .fileNotFound
  | _ => False

/-- The process has extracted the file it is about to read. -/
def TarProc.reads : TarProc → Option String
  | .read _ name _ _ => some name
  | _ => none

/-- Readers of one archive stay readers of it. -/
theorem readers_inv {ι : Type} [DecidableEq ι] (member : String → String) (p : FPath) (all : List (String × NArr))
    (hnd : (all.map Prod.fst).Nodup) (htar : tarPath p ∉ all.map Prod.fst) (sched : List ι) : ∀ (t : ι → TarProc) (fs : FS),
    fs (tarPath p) = some (.tar all) → (∀ i, (t i).reading all p) →
    (∀ i name, (t i).reads = some name → ∀ f, fs name = some f → ∃ a, lastNamed all name = some a ∧ f = .npy a) →
    ∀ i, ((tarRun member sched (t, fs)).1 i).reading all p := by
  induction sched with
  | nil => intro t fs _ h _; exact h
  | cons j sched ih =>
    intro t fs hf hr hd
    simp only [tarRun]
    -- the step of process `j`
    have key : ((t j).step member fs).1.reading all p ∧ ((t j).step member fs).2 (tarPath p) = some (.tar all) ∧
        (∀ name f, ((t j).step member fs).2 name = some f → fs name = some f ∨ ∃ a, lastNamed all name = some a ∧ f = .npy a) ∧
        ∀ name, ((t j).step member fs).1.reads = some name →
          ∀ f, ((t j).step member fs).2 name = some f → ∃ a, lastNamed all name = some a ∧ f = .npy a := by
      have hj := hr j
      have hdj := hd j
      generalize t j = x at hj hdj
      cases x with
      | saveOpen p objs => exact hj.elim
      | saveWrite p num objs ms => exact hj.elim
      | saveAdd p num objs ms => exact hj.elim
      | saveUnlink p num objs ms => exact hj.elim
      | loadOpen q =>
        have hq : q = p := hj
        subst hq
        simp only [TarProc.step, hf]
        exact ⟨⟨rfl, [], rfl, rfl⟩, trivial, fun _ _ h => Or.inl h, fun _ h => by simp [TarProc.reads] at h⟩
      | extract ms names objs =>
        obtain ⟨rfl, d, hd1, hd2⟩ := hj
        cases names with
        | nil =>
          simp only [TarProc.step]
          refine ⟨?_, hf, fun _ _ h => Or.inl h, fun _ h => by simp [TarProc.reads] at h⟩
          show objs = _
          have : d.length = ms.length := by
            rw [List.append_nil] at hd1
            rw [hd1, List.length_map]
          rw [hd2, this, List.take_length]
        | cons name names =>
          have hmem : name ∈ ms.map Prod.fst := by rw [← hd1]; simp
          obtain ⟨m, hm, rfl⟩ := List.mem_map.1 hmem
          have hl := lastNamed_of_mem ms hnd m hm
          have hne : tarPath p ≠ m.1 := fun h => htar (h ▸ hmem)
          simp only [TarProc.step, hl]
          refine ⟨⟨rfl, d, hd1, hd2⟩, by rw [set_other _ _ _ _ hne]; exact hf, ?_, ?_⟩
          · intro name f h
            unfold FS.set at h
            split_ifs at h with hn
            · cases h; subst hn; exact Or.inr ⟨_, hl, rfl⟩
            · exact Or.inl h
          · intro name h f hf'
            simp only [TarProc.reads, Option.some.injEq] at h
            subst h
            rw [set_same] at hf'
            cases hf'
            exact ⟨_, hl, rfl⟩
      | read ms name names objs =>
        obtain ⟨rfl, d, hd1, hd2⟩ := hj
        have hmem : name ∈ ms.map Prod.fst := by rw [← hd1]; simp
        simp only [TarProc.step]
        rcases hfn : fs name with _ | f
        · exact ⟨rfl, hf, fun _ _ h => Or.inl h, fun _ h => by simp [TarProc.reads] at h⟩
        · obtain ⟨a, hl, rfl⟩ := hdj name rfl f hfn
          simp only
          refine ⟨⟨rfl, d, hd1, ?_⟩, hf, fun _ _ h => Or.inl h, fun _ h => by simp [TarProc.reads] at h⟩
          have hlen : d.length < ms.length := by
            have := congrArg List.length hd1
            simp at this
            omega
          have hname : (ms[d.length]).1 = name := by
            have h1 : (ms.map Prod.fst)[d.length]'(by simpa using hlen) = name := by
              simp only [← hd1]
              simp
            simpa using h1
          have h2 := lastNamed_of_mem ms hnd ms[d.length] (List.getElem_mem hlen)
          rw [hname, hl] at h2
          rw [hd2, List.take_add_one, List.getElem?_eq_getElem hlen, List.map_append]
          simp only [Option.some.injEq] at h2
          simp [h2]
      | unlink ms name names objs =>
        obtain ⟨rfl, d, hd1, hd2⟩ := hj
        have hmem : name ∈ ms.map Prod.fst := by rw [← hd1]; simp
        have hne : tarPath p ≠ name := fun h => htar (h ▸ hmem)
        simp only [TarProc.step]
        rcases hfn : fs name with _ | f
        · exact ⟨rfl, hf, fun _ _ h => Or.inl h, fun _ h => by simp [TarProc.reads] at h⟩
        · simp only
          refine ⟨⟨rfl, d ++ [name], by rw [List.append_assoc]; exact hd1, by simpa using hd2⟩,
            by rw [set_other _ _ _ _ hne]; exact hf, ?_, fun _ h => by simp [TarProc.reads] at h⟩
          intro n f' h
          unfold FS.set at h
          split_ifs at h with hn
          exact Or.inl h
      | done r => exact ⟨hj, hf, fun _ _ h => Or.inl h, fun _ h => by simp [TarProc.step, TarProc.reads] at h⟩
    obtain ⟨k1, k2, k3, k4⟩ := key
    refine ih _ _ k2 ?_ ?_
    · intro i
      by_cases hij : i = j
      · subst hij; rw [Function.update_self]; exact k1
      · rw [Function.update_of_ne hij]; exact hr i
    · intro i name hn f hf'
      by_cases hij : i = j
      · subst hij; rw [Function.update_self] at hn; exact k4 name hn f hf'
      · rw [Function.update_of_ne hij] at hn
        rcases k3 name f hf' with h | h
        · exact hd i name hn f h
        · exact h

/-- **C148.** Any number of processes that load the same archive at the same time, in any order of their steps: none of them gets
other arrays than those of the archive; at worst one raises `FileNotFoundError`. Full statement: none raises. -/
theorem C148_readers_partial {ι : Type} [DecidableEq ι] (member : String → String) (p : FPath) (all : List (String × NArr))
    (hnd : (all.map Prod.fst).Nodup) (htar : tarPath p ∉ all.map Prod.fst) (fs : FS)
    (hf : fs (tarPath p) = some (.tar all)) (sched : List ι) (i : ι) (r : Except Err (List NArr))
    (h : (tarRun member sched ((fun _ => .loadOpen p), fs)).1 i = .done r) :
    r = .ok (all.map Prod.snd) ∨ r = .error .fileNotFound := by
  have := readers_inv member p all hnd htar sched (fun _ => .loadOpen p) fs hf (fun _ => rfl)
    (fun _ _ h => by simp [TarProc.reads] at h) i
  rw [h] at this
  cases r with
  | ok objs => exact Or.inl (congrArg Except.ok this)
  | error e => exact Or.inr (congrArg Except.error this)

/-- An archive of two arrays. -/
def twoArrays : FS := fun q => if q = "a.tar" then some (.tar [("a0.npy", .d1 [1]), ("a1.npy", .d1 [2])]) else none

example : twoArrays (tarPath ⟨"a", ".tar"⟩) = some (.tar [("a0.npy", .d1 [1]), ("a1.npy", .d1 [2])]) ∧
    (TarProc.loadOpen ⟨"a", ".tar"⟩).reading [("a0.npy", .d1 [1]), ("a1.npy", .d1 [2])] ⟨"a", ".tar"⟩ ∧
    tarPath ⟨"a", ".tar"⟩ ∉ ["a0.npy", "a1.npy"] := by
  refine ⟨by decide +kernel, rfl, by decide +kernel⟩

/-- **C148, the full statement fails:** one of two processes that load the same archive raises `FileNotFoundError`, because the
other has removed the extracted file. -/
theorem C148_readers_fails :
    let s : Bool → TarProc := fun _ => .loadOpen ⟨"a", ".tar"⟩
    let r := tarRun id ([true, true, false, false, true, true, false] ++ List.replicate 10 true) (s, twoArrays)
    r.1 true = .done (.ok [.d1 [1], .d1 [2]]) ∧ r.1 false = .done (.error .fileNotFound) := by
  decide +kernel

end Ompy
