import Verif.SaveTxt
import Verif.FileIOProps
import Std.Data.String.ToNat
import Mathlib.Data.List.TakeWhile

/-!
# C92: the results of a normalisation as text files
-/

namespace Ompy

/-- The three kinds of files. -/
def txtKinds : List String := ["nld_", "gsf_", "samples_"]

theorem dropSuffix_nodot (l : List Char) (h : '.' ∉ l) : dropSuffix l = l := by
  unfold dropSuffix
  rw [List.span_eq_takeWhile_dropWhile]
  have : l.reverse.dropWhile (· ≠ '.') = [] := by
    rw [List.dropWhile_eq_nil_iff]
    intro x hx
    have : x ≠ '.' := fun he => h (by rw [← he]; exact List.mem_reverse.1 hx)
    simpa using this
  rw [this]

theorem dropSuffix_dot (l t : List Char) (ht : '.' ∉ t) (h0 : t ≠ []) (hl : l ≠ []) : dropSuffix (l ++ '.' :: t) = l := by
  unfold dropSuffix
  rw [List.span_eq_takeWhile_dropWhile]
  have hr : (l ++ '.' :: t).reverse = t.reverse ++ '.' :: l.reverse := by simp
  have hall : ∀ x ∈ t.reverse, (decide (x ≠ '.')) = true := by
    intro x hx
    have : x ≠ '.' := fun he => ht (by rw [← he]; exact List.mem_reverse.1 hx)
    simpa using this
  have h1 : (l ++ '.' :: t).reverse.dropWhile (· ≠ '.') = '.' :: l.reverse := by
    rw [hr, List.dropWhile_append_of_pos hall]
    simp
  have h2 : (l ++ '.' :: t).reverse.takeWhile (· ≠ '.') = t.reverse := by
    rw [hr, List.takeWhile_append_of_pos hall]
    simp
  rw [h1, h2]
  simp [h0, hl]

theorem kind_nodot {k : String} (hk : k ∈ txtKinds) : '.' ∉ k.toList := by
  simp only [txtKinds, List.mem_cons, List.not_mem_nil, or_false] at hk
  rcases hk with rfl | rfl | rfl <;> decide

theorem kind_ne {k : String} (hk : k ∈ txtKinds) : k.toList ≠ [] := by
  simp only [txtKinds, List.mem_cons, List.not_mem_nil, or_false] at hk
  rcases hk with rfl | rfl | rfl <;> decide

/-- **C92 (partial: suffixes without a dot).** The file of a suffix is named after it, so that different suffixes have different files. -/
theorem C92_names_partial (dir kind suffix : String) (hk : kind ∈ txtKinds) (hs : '.' ∉ suffix.toList) :
    (txtPath dir kind suffix).str = dir ++ (kind ++ suffix) ++ ".txt" := by
  unfold txtPath FPath.str txtStem
  simp only
  rw [dropSuffix_nodot]
  · rw [String.ofList_toList]
  · rw [String.toList_append, List.mem_append]
    rintro (h | h)
    · exact kind_nodot hk h
    · exact hs h

/-- **C92 (disagreement).** Of a suffix with a dot everything from the last dot on is dropped, so that the results of different suffixes overwrite each other. -/
theorem C92_names_fails (dir kind s t t' : String) (hk : kind ∈ txtKinds) (ht : '.' ∉ t.toList) (ht' : '.' ∉ t'.toList)
    (h0 : t ≠ "") (h0' : t' ≠ "") :
    txtPath dir kind (s ++ "." ++ t) = txtPath dir kind (s ++ "." ++ t') := by
  have key : ∀ u : String, '.' ∉ u.toList → u ≠ "" → txtStem (kind ++ (s ++ "." ++ u)) = kind ++ s := by
    intro u hu hu0
    unfold txtStem
    have e : (kind ++ (s ++ "." ++ u)).toList = (kind ++ s).toList ++ '.' :: u.toList := by
      simp [String.toList_append]
    rw [e, dropSuffix_dot _ _ hu (by simpa using hu0), String.ofList_toList]
    rw [String.toList_append]
    exact List.append_ne_nil_of_left_ne_nil (kind_ne hk) _
  unfold txtPath
  rw [key t ht h0, key t' ht' h0']

/-- The run labelled `T=1.5` overwrites the run labelled `T=1.7`. -/
example : (txtPath "out/" "nld_" "T=1.5").str = "out/nld_T=1.txt" ∧ (txtPath "out/" "nld_" "T=1.7").str = "out/nld_T=1.txt" := by
  decide +kernel

/-- The file of member `i`. -/
def memberFile (dir kind : String) (i : ℕ) : String := dir ++ (kind ++ Nat.repr i) ++ ".txt"

theorem repr_nodot (i : ℕ) : '.' ∉ (Nat.repr i).toList := by
  intro h
  rw [Nat.toList_repr] at h
  have := Nat.isDigit_of_mem_toDigits (by norm_num) (by norm_num) h
  revert this
  decide

theorem path_member (dir kind : String) (hk : kind ∈ txtKinds) (i : ℕ) :
    (txtPath dir kind (Nat.repr i)).str = memberFile dir kind i :=
  C92_names_partial dir kind _ hk (repr_nodot i)

theorem memberFile_inj {dir k k' : String} (hk : k ∈ txtKinds) (hk' : k' ∈ txtKinds) {i j : ℕ}
    (h : memberFile dir k i = memberFile dir k' j) : k = k' ∧ i = j := by
  unfold memberFile at h
  have h1 := congrArg String.toList h
  simp only [String.toList_append, List.append_assoc] at h1
  have h2 := List.append_cancel_left h1
  have h3 : k.toList ++ (Nat.repr i).toList = k'.toList ++ (Nat.repr j).toList := by
    have : (k.toList ++ (Nat.repr i).toList) ++ ".txt".toList = (k'.toList ++ (Nat.repr j).toList) ++ ".txt".toList := by
      simpa using h2
    exact List.append_cancel_right this
  have hkk : k = k' := by
    simp only [txtKinds, List.mem_cons, List.not_mem_nil, or_false] at hk hk'
    rcases hk with rfl | rfl | rfl <;> rcases hk' with rfl | rfl | rfl <;> first | rfl | (exfalso; simp at h3)
  subst hkk
  exact ⟨rfl, Nat.repr_injective (String.toList_injective (List.append_cancel_left h3))⟩

/-- The text file of a vector: energies in keV, values and standard deviations. -/
def vecTxt (f : Fmt) (v : Vec ℚ) : Option File :=
  match v.toKeV with
  | .error _ => none
  | .ok w => some (.txt (columns1D w).length ((columnStack (columns1D w)).map fun r => r.map f.rt))

theorem txt_type (p : FPath) (hp : p.suffix = ".txt") : pickFiletype p none = "txt" := by
  unfold pickFiletype filetypeFromSuffix
  rw [hp]
  decide +kernel

theorem save_txt_ok (f : Fmt) (v : Vec ℚ) (stem : String) (fs : FS) (hu : v.units = "keV" ∨ v.units = "MeV") :
    v.save f ⟨stem, ".txt"⟩ none "keV" fs = .ok (fs.set (stem ++ ".txt") (vecTxt f v)) := by
  have hft : pickFiletype ⟨stem, ".txt"⟩ none = "txt" := by
    exact txt_type _ rfl
  obtain ⟨w, h1, -⟩ := saveUnits_ok v "keV" (Or.inr ⟨Or.inl rfl, hu⟩)
  have h1' : v.toKeV = .ok w := by simpa [saveUnits] using h1
  unfold vecTxt
  rw [h1']
  simp [Vec.save, h1, hft, bind, Except.bind, FPath.str]

/-- What loading a text file gives depends on that file alone. -/
theorem load_txt_congr (t : Vec ℚ) (p : FPath) (hp : p.suffix = ".txt") (fs fs' : FS) (h : fs p.str = fs' p.str) :
    (t.load p none fs).1 = (t.load p none fs').1 := by
  have hft : pickFiletype p none = "txt" := txt_type p hp
  unfold Vec.load
  simp only [hft]
  rw [if_neg (by decide), if_pos trivial, if_neg (by decide), if_pos trivial, h]

/-- A member whose results can be saved. -/
structure ResTxt.good (r : ResTxt) : Prop where
  nldUnits : r.nld.units = "keV" ∨ r.nld.units = "MeV"
  gsfUnits : r.gsf.units = "keV" ∨ r.gsf.units = "MeV"
  samples : ∃ n, r.samples ≠ [] ∧ ∀ p ∈ r.samples, p.2.length = n

/-- The text file of the samples: a row for every parameter. -/
def samplesTxt (f : Fmt) (s : List (String × List ℚ)) : File :=
  .txt ((s.map Prod.snd).getD 0 []).length (s.map fun p => p.2.map f.rt)

theorem samplesTable_ok (s : List (String × List ℚ)) (n : ℕ) (h0 : s ≠ []) (h : ∀ p ∈ s, p.2.length = n) :
    samplesTable s = .ok (s.map Prod.snd) := by
  have key : ∀ l : List (String × List ℚ), (∀ p ∈ l, p.2.length = n) →
      l.mapM (fun p => sampleRow n p.2) = Except.ok (l.map Prod.snd) := by
    intro l hl
    induction l with
    | nil => rfl
    | cons p l ih =>
      have hp : sampleRow n p.2 = .ok p.2 := by
        unfold sampleRow; rw [if_pos (hl p List.mem_cons_self)]
      simp only [List.mapM_cons, hp, ih fun q hq => hl q (List.mem_cons_of_mem _ hq), bind, Except.bind, pure, Except.pure,
        List.map_cons]
  match s, h0 with
  | p :: ps, _ =>
    unfold samplesTable
    simp only
    rw [h p List.mem_cons_self]
    exact key _ h

theorem saveResults_ok (f : Fmt) (dir : String) (r : ResTxt) (hr : r.good) (i : ℕ) (d : TxtDisk) :
    saveResults f dir r.nld r.gsf r.samples (Nat.repr i) d =
      (⟨((d.fs.set (memberFile dir "nld_" i) (vecTxt f r.nld)).set (memberFile dir "gsf_" i) (vecTxt f r.gsf)).set
          (memberFile dir "samples_" i) (some (samplesTxt f r.samples)),
        fun q => if q = memberFile dir "samples_" i then some (r.samples.map Prod.fst) else d.header q⟩, .ok ()) := by
  have p1 := path_member dir "nld_" (by simp [txtKinds]) i
  have p2 := path_member dir "gsf_" (by simp [txtKinds]) i
  have p3 := path_member dir "samples_" (by simp [txtKinds]) i
  obtain ⟨n, s0, sl⟩ := hr.samples
  unfold saveResults
  have e1 : ∀ fs, r.nld.save f (txtPath dir "nld_" (Nat.repr i)) none "keV" fs
      = .ok (fs.set (memberFile dir "nld_" i) (vecTxt f r.nld)) := by
    intro fs
    rw [← p1]
    exact save_txt_ok f r.nld _ fs hr.nldUnits
  have e2 : ∀ fs, r.gsf.save f (txtPath dir "gsf_" (Nat.repr i)) none "keV" fs
      = .ok (fs.set (memberFile dir "gsf_" i) (vecTxt f r.gsf)) := by
    intro fs
    rw [← p2]
    exact save_txt_ok f r.gsf _ fs hr.gsfUnits
  rw [e1]
  simp only
  rw [e2]
  simp only
  unfold saveSamples
  rw [samplesTable_ok _ n s0 sl, p3]
  simp only [samplesTxt, List.map_map]
  rfl

/-- The member files with numbers in a range. -/
def isMemberFile (dir : String) (lo hi : ℕ) (q : String) : Prop :=
  ∃ k ∈ txtKinds, ∃ i, lo ≤ i ∧ i < hi ∧ q = memberFile dir k i

theorem saveFrom_spec (f : Fmt) (dir : String) (res : List ResTxt) (hg : ∀ r ∈ res, r.good) :
    ∀ (i : ℕ) (d : TxtDisk), ∃ d', saveFrom f dir i res d = (d', .ok ()) ∧
      (∀ q, ¬ isMemberFile dir i (i + res.length) q → d'.fs q = d.fs q ∧ d'.header q = d.header q) ∧
      ∀ j (hj : j < res.length),
        d'.fs (memberFile dir "nld_" (i + j)) = vecTxt f res[j].nld ∧
        d'.fs (memberFile dir "gsf_" (i + j)) = vecTxt f res[j].gsf ∧
        d'.fs (memberFile dir "samples_" (i + j)) = some (samplesTxt f res[j].samples) ∧
        d'.header (memberFile dir "samples_" (i + j)) = some (res[j].samples.map Prod.fst) := by
  have kn : "nld_" ∈ txtKinds := by simp [txtKinds]
  have kg : "gsf_" ∈ txtKinds := by simp [txtKinds]
  have ks : "samples_" ∈ txtKinds := by simp [txtKinds]
  induction res with
  | nil =>
    intro i d
    exact ⟨d, rfl, fun q _ => ⟨rfl, rfl⟩, fun j hj => by simp at hj⟩
  | cons r rs ih =>
    intro i d
    have hr := saveResults_ok f dir r (hg r List.mem_cons_self) i d
    set d1 : TxtDisk := ⟨((d.fs.set (memberFile dir "nld_" i) (vecTxt f r.nld)).set (memberFile dir "gsf_" i) (vecTxt f r.gsf)).set
          (memberFile dir "samples_" i) (some (samplesTxt f r.samples)),
        fun q => if q = memberFile dir "samples_" i then some (r.samples.map Prod.fst) else d.header q⟩ with hd1
    obtain ⟨d', h1, h2, h3⟩ := ih (fun r' hr' => hg r' (List.mem_cons_of_mem _ hr')) (i + 1) d1
    refine ⟨d', ?_, ?_, ?_⟩
    · unfold saveFrom
      rw [hr]
      exact h1
    · intro q hq
      have hq1 : ¬ isMemberFile dir (i + 1) (i + 1 + rs.length) q := by
        rintro ⟨k, hk, m, hm1, hm2, he⟩
        exact hq ⟨k, hk, m, by omega, by simp only [List.length_cons]; omega, he⟩
      have hne : ∀ k ∈ txtKinds, q ≠ memberFile dir k i := fun k hk he =>
        hq ⟨k, hk, i, le_refl _, by simp only [List.length_cons]; omega, he⟩
      obtain ⟨a, b⟩ := h2 q hq1
      rw [a, b, hd1]
      simp only
      rw [set_other _ _ _ _ (hne _ ks), set_other _ _ _ _ (hne _ kg), set_other _ _ _ _ (hne _ kn), if_neg (hne _ ks)]
      exact ⟨rfl, rfl⟩
    · intro j hj
      cases j with
      | succ j =>
        have := h3 j (by simpa using hj)
        have e : i + 1 + j = i + (j + 1) := by omega
        rw [e] at this
        simpa using this
      | zero =>
        have hout : ∀ k ∈ txtKinds, ¬ isMemberFile dir (i + 1) (i + 1 + rs.length) (memberFile dir k i) := by
          rintro k hk ⟨k', hk', m, hm1, hm2, he⟩
          have := (memberFile_inj hk hk' he).2
          omega
        have dn : ∀ {k k' : String}, k ∈ txtKinds → k' ∈ txtKinds → k ≠ k' → memberFile dir k i ≠ memberFile dir k' i :=
          fun hk hk' hne he => hne (memberFile_inj hk hk' he).1
        simp only [Nat.add_zero, List.getElem_cons_zero]
        rw [(h2 _ (hout _ kn)).1, (h2 _ (hout _ kg)).1, (h2 _ (hout _ ks)).1, (h2 _ (hout _ ks)).2, hd1]
        simp only
        refine ⟨?_, ?_, ?_, ?_⟩
        · rw [set_other _ _ _ _ (dn kn ks (by decide)), set_other _ _ _ _ (dn kn kg (by decide)), set_same]
        · rw [set_other _ _ _ _ (dn kg ks (by decide)), set_same]
        · rw [set_same]
        · simp

/-- A saved vector can be loaded: energies in keV, values and standard deviations, up to the digits printed. -/
def LoadsAs (f : Fmt) (fs : FS) (stem : String) (v : Vec ℚ) : Prop :=
  ∀ t : Vec ℚ, (t.load ⟨stem, ".txt"⟩ none fs).1 =
    .ok { t with values := v.values.map f.rt, E := v.physical.map f.rt, std := v.std.map fun s => s.map f.rt }

theorem loads_of_file (f : Fmt) (fs : FS) (stem : String) (v : Vec ℚ) (hc : v.consistent = true)
    (hu : v.units = "keV" ∨ v.units = "MeV") (hn : 2 ≤ v.values.length) (h : fs (stem ++ ".txt") = vecTxt f v) :
    LoadsAs f fs stem v := by
  intro t
  have hft : pickFiletype ⟨stem, ".txt"⟩ none = "txt" := by
    exact txt_type _ rfl
  obtain ⟨fs', h1, h2⟩ := C23_vector_txt_partial f v t ⟨stem, ".txt"⟩ none "keV" fs hc (Or.inr ⟨Or.inl rfl, hu⟩) hft hn
  rw [save_txt_ok f v stem fs hu] at h1
  have e := Except.ok.inj h1
  have : (t.load ⟨stem, ".txt"⟩ none fs).1 = (t.load ⟨stem, ".txt"⟩ none fs').1 := by
    apply load_txt_congr _ _ rfl
    rw [← e]
    show fs (stem ++ ".txt") = _
    rw [h]
    exact (set_same _ _ _).symm
  rw [this, h2]
  rfl

/-- **C92.** Saving the results of an ensemble writes, for every member, its level density, its strength function (both loaded back in keV, whatever units the vectors had) and the
table of its samples with the names of the parameters as header; no other file is changed. -/
theorem C92_files (f : Fmt) (dir : String) (suffix : Option String) (res : List ResTxt) (d : TxtDisk) (hg : ∀ r ∈ res, r.good)
    (hc : ∀ r ∈ res, r.nld.consistent = true ∧ r.gsf.consistent = true ∧ 2 ≤ r.nld.values.length ∧ 2 ≤ r.gsf.values.length) :
    ∃ d', saveAllTxt f dir suffix res d = (d', .ok ()) ∧
      (∀ i (hi : i < res.length), LoadsAs f d'.fs (dir ++ ("nld_" ++ Nat.repr i)) res[i].nld ∧
        LoadsAs f d'.fs (dir ++ ("gsf_" ++ Nat.repr i)) res[i].gsf ∧
        d'.fs (dir ++ ("samples_" ++ Nat.repr i) ++ ".txt")
          = some (.txt ((res[i].samples.map Prod.snd).getD 0 []).length (res[i].samples.map fun p => p.2.map f.rt)) ∧
        d'.header (dir ++ ("samples_" ++ Nat.repr i) ++ ".txt") = some (res[i].samples.map Prod.fst)) ∧
      ∀ q, ¬ isMemberFile dir 0 res.length q → d'.fs q = d.fs q := by
  obtain ⟨d', h1, h2, h3⟩ := saveFrom_spec f dir res hg 0 d
  refine ⟨d', h1, fun i hi => ?_, fun q hq => (h2 q (by simpa using hq)).1⟩
  have h := h3 i hi
  simp only [Nat.zero_add] at h
  have hr := List.getElem_mem hi
  obtain ⟨c1, c2, c3, c4⟩ := hc _ hr
  exact ⟨loads_of_file f _ _ _ c1 (hg _ hr).nldUnits c3 h.1, loads_of_file f _ _ _ c2 (hg _ hr).gsfUnits c4 h.2.1, h.2.2.1, h.2.2.2⟩

/-- A format that prints exactly, and one result. -/
def exactFmt : Fmt := ⟨id, id, id, id⟩

/-- One result. -/
def oneRes : ResTxt := ⟨⟨[1, 2], [3, 4], none, "MeV"⟩, ⟨[1, 2], [5, 6], none, "MeV"⟩, [("A", [1, 2, 3]), ("alpha", [4, 5, 6])]⟩

example : ((saveAllTxt exactFmt "out/" none [oneRes] ⟨fun _ => none, fun _ => none⟩).1.fs "out/nld_0.txt")
    = some (.txt 2 [[1000, 3], [2000, 4]]) := by
  obtain ⟨d', h1, -, h3⟩ := saveFrom_spec exactFmt "out/" [oneRes] (fun r hr => by
    rw [List.mem_singleton] at hr
    subst hr
    exact ⟨Or.inr rfl, Or.inr rfl, 3, by simp [oneRes], by simp [oneRes]⟩) 0 ⟨fun _ => none, fun _ => none⟩
  have h := (h3 0 (by simp)).1
  have e : memberFile "out/" "nld_" 0 = "out/nld_0.txt" := by decide +kernel
  unfold saveAllTxt
  rw [h1]
  simp only
  rw [← e]
  simp only [Nat.add_zero] at h
  rw [h]
  decide +kernel

/-- **C92 (disagreement).** The argument `suffix` of the ensemble has no influence: a second call with another suffix overwrites the files of the first. -/
theorem C92_suffix_fails (f : Fmt) (dir : String) (s s' : Option String) (res : List ResTxt) :
    saveAllTxt f dir s res = saveAllTxt f dir s' res := rfl

/-- **C92 (disagreement).** Files of an earlier ensemble with more members stay: afterwards the directory holds members of two ensembles. -/
theorem C92_stale_fails (f : Fmt) (dir : String) (s : Option String) (res : List ResTxt) (d : TxtDisk) (hg : ∀ r ∈ res, r.good)
    (k : String) (hk : k ∈ txtKinds) (i : ℕ) (hi : res.length ≤ i) :
    (saveAllTxt f dir s res d).1.fs (memberFile dir k i) = d.fs (memberFile dir k i) := by
  obtain ⟨d', h1, h2, -⟩ := saveFrom_spec f dir res hg 0 d
  unfold saveAllTxt
  rw [h1]
  refine (h2 _ ?_).1
  rintro ⟨k', hk', m, -, hm, he⟩
  have := (memberFile_inj hk hk' he).2
  omega

/-- **C92.** Samples with different numbers of values per parameter (other than one) raise ValueError; level density and strength function have been written by then, the table of the samples
has not. No parameters at all: the same with StopIteration. -/
theorem C92_samples_refused (f : Fmt) (dir : String) (r : ResTxt) (i : ℕ) (d : TxtDisk)
    (hu : r.nld.units = "keV" ∨ r.nld.units = "MeV") (hg : r.gsf.units = "keV" ∨ r.gsf.units = "MeV") (s : String × List ℚ)
    (ss : List (String × List ℚ)) (hs : r.samples = s :: ss) (p : String × List ℚ) (hp : p ∈ ss)
    (hl : p.2.length ≠ s.2.length) (h1 : p.2.length ≠ 1) :
    ∃ d', saveResults f dir r.nld r.gsf r.samples (Nat.repr i) d = (d', .error .valueError) ∧
      d'.fs (memberFile dir "nld_" i) = vecTxt f r.nld ∧ d'.fs (memberFile dir "gsf_" i) = vecTxt f r.gsf ∧
      d'.fs (memberFile dir "samples_" i) = d.fs (memberFile dir "samples_" i) := by
  have kn : "nld_" ∈ txtKinds := by simp [txtKinds]
  have kg : "gsf_" ∈ txtKinds := by simp [txtKinds]
  have ks : "samples_" ∈ txtKinds := by simp [txtKinds]
  have dn : ∀ {k k' : String}, k ∈ txtKinds → k' ∈ txtKinds → k ≠ k' → memberFile dir k i ≠ memberFile dir k' i :=
    fun hk hk' hne he => hne (memberFile_inj hk hk' he).1
  have rowErr : ∀ (n : ℕ) (v : List ℚ) (e : Err), sampleRow n v = .error e → e = .valueError := by
    intro n v e he
    unfold sampleRow at he
    by_cases hh : v.length = n
    · rw [if_pos hh] at he; cases he
    · rw [if_neg hh] at he
      match v with
      | [] => simp at he; exact he.symm
      | [x] => simp at he
      | _ :: _ :: _ => simp at he; exact he.symm
  have hbad : sampleRow s.2.length p.2 = .error .valueError := by
    unfold sampleRow
    rw [if_neg hl]
    match hv : p.2 with
    | [] => rfl
    | [x] => rw [hv] at h1; simp at h1
    | _ :: _ :: _ => rfl
  have htab : samplesTable r.samples = .error .valueError := by
    rw [hs]
    unfold samplesTable
    simp only
    have hmem : p ∈ s :: ss := List.mem_cons_of_mem _ hp
    generalize s.2.length = n at hbad
    generalize s :: ss = l at hmem
    induction l with
    | nil => simp at hmem
    | cons q l ih =>
      simp only [List.mapM_cons, bind, Except.bind]
      cases hq : sampleRow n q.2 with
      | error e => rw [rowErr _ _ _ hq]
      | ok v =>
        simp only
        rcases List.mem_cons.1 hmem with rfl | hm
        · rw [hbad] at hq; cases hq
        · rw [ih hm]
  have e1 : ∀ fs, r.nld.save f (txtPath dir "nld_" (Nat.repr i)) none "keV" fs
      = .ok (fs.set (memberFile dir "nld_" i) (vecTxt f r.nld)) := by
    intro fs
    rw [← path_member dir "nld_" kn i]
    exact save_txt_ok f r.nld _ fs hu
  have e2 : ∀ fs, r.gsf.save f (txtPath dir "gsf_" (Nat.repr i)) none "keV" fs
      = .ok (fs.set (memberFile dir "gsf_" i) (vecTxt f r.gsf)) := by
    intro fs
    rw [← path_member dir "gsf_" kg i]
    exact save_txt_ok f r.gsf _ fs hg
  unfold saveResults
  rw [e1]
  simp only
  rw [e2]
  simp only
  unfold saveSamples
  rw [htab]
  refine ⟨_, rfl, ?_, ?_, ?_⟩
  · simp only
    rw [set_other _ _ _ _ (dn kn kg (by decide)), set_same]
  · simp only
    rw [set_same]
  · simp only
    rw [set_other _ _ _ _ (dn ks kg (by decide)), set_other _ _ _ _ (dn ks kn (by decide))]

example : samplesTable [("A", [1, 2]), ("alpha", [1, 2, 3])] = .error .valueError := by decide +kernel

example : samplesTable [("A", [1, 2]), ("alpha", [3])] = .ok [[1, 2], [3, 3]] := by decide +kernel

end Ompy
