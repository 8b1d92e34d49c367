import Verif.TarJobsProps

/-!
# C148: archives with several members of one name
-/

namespace Ompy

theorem lastNamed_append (l : List (String × NArr)) (m : String × NArr) (name : String) :
    lastNamed (l ++ [m]) name = if m.1 = name then some m.2 else lastNamed l name := by
  unfold lastNamed
  rw [List.reverse_append, List.reverse_singleton, List.singleton_append, List.find?_cons]
  by_cases h : m.1 = name
  · simp [h]
  · have : (m.1 == name) = false := by simpa using h
    rw [this, if_neg h]

/-- The member taken is the last of its name. -/
theorem lastNamed_spec (all : List (String × NArr)) : ∀ (i : ℕ) (hi : i < all.length),
    ∃ (j : ℕ) (hj : j < all.length), i ≤ j ∧ all[j].1 = all[i].1 ∧ lastNamed all all[i].1 = some all[j].2 ∧
      ∀ (k : ℕ) (hk : k < all.length), j < k → all[k].1 ≠ all[i].1 := by
  induction all using List.reverseRecOn with
  | nil => intro i hi; simp at hi
  | append_singleton l m ih =>
    intro i hi
    have hlen : (l ++ [m]).length = l.length + 1 := by simp
    by_cases hm : m.1 = (l ++ [m])[i].1
    · refine ⟨l.length, by simp, by omega, ?_, ?_, ?_⟩
      · simpa using hm
      · rw [lastNamed_append, if_pos hm]; simp
      · intro k hk hjk; omega
    · have hil : i < l.length := by
        rcases Nat.lt_or_ge i l.length with h | h
        · exact h
        · exfalso
          have : i = l.length := by omega
          subst this
          apply hm
          simp
      have ei : (l ++ [m])[i] = l[i] := List.getElem_append_left hil
      obtain ⟨j, hj, h1, h2, h3, h4⟩ := ih i hil
      have ej : (l ++ [m])[j]'(by omega) = l[j] := List.getElem_append_left hj
      refine ⟨j, by omega, h1, ?_, ?_, ?_⟩
      · rw [ej, ei]; exact h2
      · rw [lastNamed_append, if_neg hm, ej, ei]; exact h3
      · intro k hk hjk
        rw [ei]
        rcases Nat.lt_or_ge k l.length with h | h
        · rw [List.getElem_append_left h]
          exact h4 k h hjk
        · have : k = l.length := by omega
          subst this
          rw [ei] at hm
          simpa using hm

theorem iter_load_any (member : String → String) (all ms : List (String × NArr)) : (∀ m ∈ ms, m ∈ all) →
    ∀ (acc : List NArr) (fs : FS), ∃ fs', TarProc.iter member (3 * ms.length + 1) (.extract all (ms.map Prod.fst) acc, fs) =
      (.done (.ok (acc ++ ms.map fun m => (lastNamed all m.1).getD (.d0 0))), fs') := by
  induction ms with
  | nil => intro _ acc fs; exact ⟨fs, by simp [TarProc.iter, TarProc.step]⟩
  | cons m ms ih =>
    intro hall acc fs
    obtain ⟨i, hi, hm⟩ := List.getElem_of_mem (hall m List.mem_cons_self)
    obtain ⟨j, hj, -, -, h3, -⟩ := lastNamed_spec all i hi
    rw [hm] at h3
    have e : 3 * (m :: ms).length + 1 = 3 + (3 * ms.length + 1) := by simp; ring
    obtain ⟨fs', h⟩ := ih (fun x hx => hall x (List.mem_cons_of_mem _ hx)) (acc ++ [all[j].2])
      ((fs.set m.1 (some (.npy all[j].2))).set m.1 none)
    refine ⟨fs', ?_⟩
    rw [e, iter_add]
    have e3 : TarProc.iter member 3 (.extract all ((m :: ms).map Prod.fst) acc, fs) =
        (.extract all (ms.map Prod.fst) (acc ++ [all[j].2]), (fs.set m.1 (some (.npy all[j].2))).set m.1 none) := by
      simp only [List.map_cons, TarProc.iter, TarProc.step, h3, set_same]
    rw [e3, h]
    simp [h3]

/-- **C148.** Loading any archive, also one with several members of one name: as many arrays as members, and each is the array of
the last member of that name. -/
theorem C148_duplicates (member : String → String) (p : FPath) (all : List (String × NArr)) (fs : FS)
    (hf : fs (tarPath p) = some (.tar all)) :
    ∃ objs : List NArr, (∃ n, (TarProc.iter member n (.loadOpen p, fs)).1 = .done (.ok objs)) ∧
      objs.length = all.length ∧ ∀ (i : ℕ) (hi : i < all.length), ∃ (j : ℕ) (hj : j < all.length), i ≤ j ∧
        all[j].1 = all[i].1 ∧ objs[i]? = some all[j].2 ∧ ∀ (k : ℕ) (hk : k < all.length), j < k → all[k].1 ≠ all[i].1 := by
  obtain ⟨fs', h⟩ := iter_load_any member all all (fun _ h => h) [] fs
  refine ⟨all.map fun m => (lastNamed all m.1).getD (.d0 0), ⟨3 * all.length + 1 + 1, ?_⟩, by simp, ?_⟩
  · have e : TarProc.iter member (3 * all.length + 1 + 1) (.loadOpen p, fs) =
        TarProc.iter member (3 * all.length + 1) (.extract all (all.map Prod.fst) [], fs) := by
      simp only [TarProc.iter, TarProc.step, hf]
    rw [e, h, List.nil_append]
  · intro i hi
    obtain ⟨j, hj, h1, h2, h3, h4⟩ := lastNamed_spec all i hi
    refine ⟨j, hj, h1, h2, ?_, h4⟩
    rw [List.getElem?_map, List.getElem?_eq_getElem hi]
    simp [h3]

example : (TarProc.iter id 8 (.loadOpen ⟨"a", ".tar"⟩, fun q => if q = "a.tar" then
    some (.tar [("x.npy", .d1 [1]), ("x.npy", .d1 [2])]) else none)).1 = .done (.ok [.d1 [2], .d1 [2]]) := by
  decide +kernel

end Ompy
