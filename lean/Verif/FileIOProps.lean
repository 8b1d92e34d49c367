import Verif.FileIO
import Verif.VectorProps
import Verif.MatrixProps

/-!
# C23, C24: files
-/

namespace Ompy

theorem set_same (fs : FS) (p : String) (f : Option File) : fs.set p f p = f := by simp [FS.set]

theorem set_other (fs : FS) (p q : String) (f : Option File) (h : q ≠ p) : fs.set p f q = fs q := by
  simp [FS.set, h]

/-- What a program does with files. -/
inductive DiskOp
  | saveV (v : Vec ℚ) (p : FPath) (ft : Option String) (units : String)
  | loadV (t : Vec ℚ) (p : FPath) (ft : Option String)
  | saveM (corner : ℚ) (m : Mat) (p : FPath) (ft : Option String) (which : String)
  | loadM (t : Mat) (p : FPath) (ft : Option String)

/-- The disk after an operation; a raising save leaves it as it was. -/
def DiskOp.run (f : Fmt) (fs : FS) : DiskOp → FS
  | .saveV v p ft units => match v.save f p ft units fs with | .ok fs' => fs' | .error _ => fs
  | .loadV t p ft => (t.load p ft fs).2
  | .saveM c m p ft which => match m.save f c p ft which fs with | .ok fs' => fs' | .error _ => fs
  | .loadM t p ft => (t.load p ft fs).2

/-! ### C23: vectors -/

/-- Specification: the energies that `save(units=…)` puts into the file. -/
def savedE (v : Vec ℚ) (units : String) : List ℚ :=
  if units = "keV" then v.physical
  else if units = "MeV" then v.physical.map (· / 1000)
  else v.E

/-- Specification: the units argument makes sense for the vector. -/
def unitsOk (v : Vec ℚ) (units : String) : Prop :=
  units = "same" ∨ ((units = "keV" ∨ units = "MeV") ∧ (v.units = "keV" ∨ v.units = "MeV"))

theorem saveUnits_ok (v : Vec ℚ) (units : String) (h : unitsOk v units) :
    ∃ w, saveUnits v units = .ok w ∧ w.E = savedE v units ∧ w.values = v.values ∧ w.std = v.std := by
  rcases h with rfl | ⟨hu, hv⟩
  · exact ⟨v, rfl, rfl, rfl, rfl⟩
  · obtain ⟨E, values, std, u⟩ := v
    simp only at hv
    rcases hu with rfl | rfl <;> rcases hv with rfl | rfl <;>
      simp [saveUnits, Vec.toMeV, Vec.toKeV, savedE, Vec.physical, List.map_map, Function.comp_def]

theorem savedE_length (v : Vec ℚ) (units : String) : (savedE v units).length = v.E.length := by
  unfold savedE Vec.physical
  split_ifs <;> simp

theorem column_stack (cols : List (List ℚ)) (n : ℕ) (hn : ∀ c ∈ cols, c.length = n) (k : ℕ)
    (hk : k < cols.length) : column (columnStack cols) k = cols[k] := by
  have h0 : (cols.getD 0 []).length = n := by
    rw [List.getD_eq_getElem _ _ (by omega)]
    exact hn _ (List.getElem_mem _)
  apply List.ext_getElem
  · simp only [column, columnStack, List.length_map, List.length_range, h0]
    exact (hn _ (List.getElem_mem hk)).symm
  · intro i h1 h2
    simp [column, columnStack, List.getD_eq_getElem?_getD, hk, List.getElem?_eq_getElem h2]

theorem columnStack_length (cols : List (List ℚ)) (n : ℕ) (hn : ∀ c ∈ cols, c.length = n)
    (h : cols ≠ []) : (columnStack cols).length = n := by
  have h0 : (cols.getD 0 []).length = n := by
    have : 0 < cols.length := List.length_pos_iff.2 h
    rw [List.getD_eq_getElem _ _ this]
    exact hn _ (List.getElem_mem _)
  simp only [columnStack, List.length_map, List.length_range, h0]

theorem columns_len (v : Vec ℚ) (hc : v.consistent = true) :
    ∀ c ∈ columns1D v, c.length = v.values.length := by
  rw [consistent_iff] at hc
  intro c h
  unfold columns1D at h
  cases hs : v.std with
  | none =>
    rw [hs] at h
    simp only [List.mem_cons, List.not_mem_nil, or_false] at h
    rcases h with rfl | rfl
    · exact hc.1
    · rfl
  | some s =>
    rw [hs] at h
    simp only [List.mem_cons, List.not_mem_nil, or_false] at h
    rcases h with rfl | rfl | rfl
    · exact hc.1
    · rfl
    · exact hc.2 _ hs

theorem split_columns (v : Vec ℚ) (hc : v.consistent = true) :
    split1D (.d2 (columns1D v).length (columnStack (columns1D v))) = .ok (v.values, v.E, v.std) := by
  have hl := columns_len v hc
  unfold split1D
  cases hs : v.std with
  | none =>
    have e : columns1D v = [v.E, v.values] := by simp [columns1D, hs]
    rw [e] at hl ⊢
    have c0 := column_stack _ _ hl 0 (by simp)
    have c1 := column_stack _ _ hl 1 (by simp)
    simp only [List.getElem_cons_zero, List.getElem_cons_succ] at c0 c1
    simp [c0, c1]
  | some s =>
    have e : columns1D v = [v.E, v.values, s] := by simp [columns1D, hs]
    rw [e] at hl ⊢
    have c0 := column_stack _ _ hl 0 (by simp)
    have c1 := column_stack _ _ hl 1 (by simp)
    have c2 := column_stack _ _ hl 2 (by simp)
    simp only [List.getElem_cons_zero, List.getElem_cons_succ] at c0 c1 c2
    simp [c0, c1, c2]

/-- The content that ends up in the object loaded into. -/
def loaded (t v : Vec ℚ) (units : String) : Vec ℚ :=
  { t with values := v.values, E := savedE v units, std := v.std }

theorem loaded_consistent (t v : Vec ℚ) (units : String) (hc : v.consistent = true) :
    (loaded t v units).consistent = true := by
  rw [consistent_iff] at hc ⊢
  simp only [loaded, savedE_length]
  exact hc

theorem w_consistent (v w : Vec ℚ) (units : String) (hc : v.consistent = true)
    (hE : w.E = savedE v units) (hv : w.values = v.values) (hs : w.std = v.std) :
    w.consistent = true := by
  rw [consistent_iff] at hc ⊢
  rw [hE, hv, hs, savedE_length]
  exact hc

/-- **C23.** npy: saving to a name ending in `.npy` and loading it into any vector object gives back
energies (in the units asked for), values, and std or its absence. -/
theorem C23_vector_numpy (f : Fmt) (v t : Vec ℚ) (p : FPath) (ft : Option String) (units : String)
    (fs : FS) (hc : v.consistent = true) (hu : unitsOk v units) (hft : pickFiletype p ft = "numpy")
    (hp : p.suffix = ".npy") :
    ∃ fs', v.save f p ft units fs = .ok fs' ∧ t.load p ft fs' = (.ok (loaded t v units), fs') := by
  obtain ⟨w, h1, h2, h3, h4⟩ := saveUnits_ok v units hu
  have hw := w_consistent v w units hc h2 h3 h4
  refine ⟨fs.set (npyTarget p) (some (.npy (.d2 (columns1D w).length (columnStack (columns1D w))))),
    by simp [Vec.save, h1, hft, bind, Except.bind], ?_⟩
  have ht : npyTarget p = p.str := by simp [npyTarget, hp]
  have hsp := split_columns w hw
  rw [h2, h3, h4] at hsp
  have hl := loaded_consistent t v units hc
  unfold Vec.load
  simp only [hft, if_true, ht, set_same, hsp, bind, Except.bind]
  simp only [finishLoad]
  unfold loaded at hl ⊢
  rw [if_pos hl]

/-- **C23** (false part). `filetype='numpy'` with a name that does not end in `.npy` is written to
`name.npy`, and loading the name given to `save` finds no file. -/
theorem C23_numpy_suffix_fails :
    let v : Vec ℚ := ⟨[1, 2], [3, 4], none, "keV"⟩
    let p : FPath := ⟨"spec", ".dat"⟩
    let fs := DiskOp.run ⟨id, id, id, id⟩ (fun _ => none) (.saveV v p (some "numpy") "keV")
    fs "spec.dat.npy" ≠ none ∧ (v.load p (some "numpy") fs).1 = .error .fileNotFound := by
  decide +kernel

/-- **C23** (partial). txt: as for npy, up to printing and parsing the numbers, for at least two
bins. -/
theorem C23_vector_txt_partial (f : Fmt) (v t : Vec ℚ) (p : FPath) (ft : Option String)
    (units : String) (fs : FS) (hc : v.consistent = true) (hu : unitsOk v units)
    (hft : pickFiletype p ft = "txt") (hn : 2 ≤ v.values.length) :
    ∃ fs', v.save f p ft units fs = .ok fs' ∧ t.load p ft fs' =
      (.ok { t with values := v.values.map f.rt, E := (savedE v units).map f.rt,
                    std := v.std.map fun s => s.map f.rt }, fs') := by
  obtain ⟨w, h1, h2, h3, h4⟩ := saveUnits_ok v units hu
  have hw := w_consistent v w units hc h2 h3 h4
  have hl := columns_len w hw
  have hne : columns1D w ≠ [] := by unfold columns1D; split <;> simp
  have hlen := columnStack_length _ _ hl hne
  have hcl : 2 ≤ (columns1D w).length := by unfold columns1D; split <;> simp
  refine ⟨fs.set p.str (some (.txt (columns1D w).length
      ((columnStack (columns1D w)).map fun r => r.map f.rt))),
    by simp [Vec.save, h1, hft, bind, Except.bind], ?_⟩
  have hload : loadtxt (columns1D w).length ((columnStack (columns1D w)).map fun r => r.map f.rt)
      = .d2 (columns1D w).length ((columnStack (columns1D w)).map fun r => r.map f.rt) := by
    have hlen2 : 2 ≤ ((columnStack (columns1D w)).map fun r => r.map f.rt).length := by
      rw [List.length_map, hlen, h3]; exact hn
    unfold loadtxt
    split
    · simp_all
    · simp_all
    · rw [if_neg (by omega)]
  -- the columns of the printed table are the printed columns
  have hstk : (columnStack (columns1D w)).map (fun r => r.map f.rt)
      = columnStack ((columns1D w).map fun c => c.map f.rt) := by
    unfold columnStack
    have e0 : (((columns1D w).map fun c => c.map f.rt).getD 0 []).length
        = ((columns1D w).getD 0 []).length := by
      rw [List.getD_eq_getElem _ _ (by simp; omega), List.getD_eq_getElem _ _ (by omega)]
      simp
    rw [e0, List.map_map]
    apply List.map_congr_left
    intro i hi
    simp only [Function.comp, List.map_map]
    apply List.map_congr_left
    intro c hcm
    have hci : i < c.length := by
      rw [hl c hcm]
      rw [List.mem_range] at hi
      rw [List.getD_eq_getElem _ _ (by omega), hl _ (List.getElem_mem _)] at hi
      exact hi
    simp [List.getD_eq_getElem?_getD, hci]
  have hw' : (⟨w.E.map f.rt, w.values.map f.rt, w.std.map fun s => s.map f.rt, w.units⟩
      : Vec ℚ).consistent = true := by
    rw [consistent_iff] at hw ⊢
    simp only [List.length_map]
    refine ⟨hw.1, ?_⟩
    intro s hs
    cases hws : w.std with
    | none => rw [hws] at hs; simp at hs
    | some s0 =>
      rw [hws] at hs
      simp only [Option.map_some, Option.some.injEq] at hs
      subst hs
      simpa using hw.2 s0 hws
  have hcols : columns1D ⟨w.E.map f.rt, w.values.map f.rt, w.std.map fun s => s.map f.rt, w.units⟩
      = (columns1D w).map fun c => c.map f.rt := by
    unfold columns1D
    cases w.std <;> simp
  have hsp := split_columns _ hw'
  rw [hcols, List.length_map, ← hstk] at hsp
  simp only [h2, h3, h4] at hsp
  unfold Vec.load
  simp only [hft, set_same, hload, hsp, bind, Except.bind, finishLoad]
  rw [if_neg (by decide), if_pos trivial]
  have hfin : ({ t with values := v.values.map f.rt, E := (savedE v units).map f.rt,
                        std := v.std.map fun s => s.map f.rt } : Vec ℚ).consistent = true := by
    rw [consistent_iff] at hw' ⊢
    simp only [h2, h3, h4] at hw'
    exact hw'
  rw [if_pos hfin]

/-- **C23** (false part). txt with a single bin: `np.loadtxt` returns a 1D array and `load` raises an
IndexError, for every such vector. -/
theorem C23_txt_single_bin_fails (f : Fmt) (v t : Vec ℚ) (p : FPath) (ft : Option String)
    (units : String) (fs : FS) (hc : v.consistent = true) (hu : unitsOk v units)
    (hft : pickFiletype p ft = "txt") (hn : v.values.length = 1) :
    ∃ fs', v.save f p ft units fs = .ok fs' ∧ t.load p ft fs' = (.error .indexError, fs') := by
  obtain ⟨w, h1, h2, h3, h4⟩ := saveUnits_ok v units hu
  have hw := w_consistent v w units hc h2 h3 h4
  have hl := columns_len w hw
  have hne : columns1D w ≠ [] := by unfold columns1D; split <;> simp
  have hlen := columnStack_length _ _ hl hne
  have hcl : 2 ≤ (columns1D w).length := by unfold columns1D; split <;> simp
  refine ⟨fs.set p.str (some (.txt (columns1D w).length
      ((columnStack (columns1D w)).map fun r => r.map f.rt))),
    by simp [Vec.save, h1, hft, bind, Except.bind], ?_⟩
  rw [h3, hn] at hlen
  obtain ⟨r, hr⟩ := List.length_eq_one_iff.1 hlen
  unfold Vec.load
  simp only [hft, set_same, hr, List.map_cons, List.map_nil, loadtxt]
  rw [if_neg (by decide), if_pos trivial, if_neg (by omega)]
  rfl

/-- **C23.** csv: as for npy, up to printing and parsing the numbers. -/
theorem C23_vector_csv (f : Fmt) (v t : Vec ℚ) (p : FPath) (ft : Option String)
    (units : String) (fs : FS) (hc : v.consistent = true) (hu : unitsOk v units)
    (hft : pickFiletype p ft = "csv") :
    ∃ fs', v.save f p ft units fs = .ok fs' ∧ t.load p ft fs' =
      (.ok { t with values := v.values.map f.rt, E := (savedE v units).map f.rt,
                    std := v.std.map fun s => s.map f.rt }, fs') := by
  obtain ⟨w, h1, h2, h3, h4⟩ := saveUnits_ok v units hu
  have hfin : ({ t with values := v.values.map f.rt, E := (savedE v units).map f.rt,
                        std := v.std.map fun s => s.map f.rt } : Vec ℚ).consistent = true := by
    rw [consistent_iff] at hc ⊢
    simp only [List.length_map, savedE_length]
    refine ⟨hc.1, ?_⟩
    intro s hs
    cases hws : v.std with
    | none => rw [hws] at hs; simp at hs
    | some s0 =>
      rw [hws] at hs
      simp only [Option.map_some, Option.some.injEq] at hs
      subst hs
      simpa using hc.2 s0 hws
  cases hs : v.std with
  | none =>
    rw [hs] at h4 hfin
    refine ⟨fs.set p.str (some (.csv [("E", w.E.map f.rt), ("values", w.values.map f.rt)])),
      by simp [Vec.save, h1, hft, bind, Except.bind, h4], ?_⟩
    simp only [Option.map_none] at hfin
    simp [Vec.load, hft, set_same, csvColumn, finishLoad, h2, h3, hfin]
  | some s =>
    rw [hs] at h4 hfin
    refine ⟨fs.set p.str (some (.csv [("E", w.E.map f.rt), ("values", w.values.map f.rt),
      ("std", s.map f.rt)])), by simp [Vec.save, h1, hft, bind, Except.bind, h4], ?_⟩
    simp only [Option.map_some] at hfin
    simp [Vec.load, hft, set_same, csvColumn, finishLoad, h2, h3, hfin]

theorem tarLoop_members (member : String → String) (p : FPath) (os : List NArr) :
    ∀ (num : ℕ) (acc : List (String × NArr)) (fs : FS),
      (tarLoop member p num os acc fs).1 =
        acc ++ os.zipIdx.map fun x => (member (tmpName p (num + x.2)), x.1) := by
  induction os with
  | nil => intro num acc fs; simp [tarLoop]
  | cons o os ih =>
    intro num acc fs
    rw [tarLoop]
    rw [ih]
    simp only [List.zipIdx_cons, List.map_cons, List.append_assoc, List.singleton_append]
    congr 1
    simp only [Nat.add_zero, List.cons.injEq, true_and, Nat.zero_add]
    rw [List.zipIdx_succ, List.map_map]
    apply List.map_congr_left
    rintro ⟨a, k⟩ _
    simp only [Function.comp, Prod.map]
    rw [show num + 1 + k = num + (k + 1) by omega]

theorem tarLoop_frame (member : String → String) (p : FPath) (os : List NArr) :
    ∀ (num : ℕ) (acc : List (String × NArr)) (fs : FS) (q : String),
      (∀ k, k < os.length → q ≠ tmpName p (num + k)) →
      (tarLoop member p num os acc fs).2 q = fs q := by
  induction os with
  | nil => intro num acc fs q _; simp [tarLoop]
  | cons o os ih =>
    intro num acc fs q h
    rw [tarLoop]
    rw [ih]
    · have := h 0 (by simp)
      rw [Nat.add_zero] at this
      rw [set_other _ _ _ _ this, set_other _ _ _ _ this]
    · intro k hk
      have := h (k + 1) (by simpa using hk)
      rw [show num + 1 + k = num + (k + 1) by omega]
      exact this

theorem untar_spec (ms : List (String × NArr)) : ∀ (acc : List NArr) (fs : FS),
    (untarLoop ms acc fs).1 = acc ++ ms.map Prod.snd ∧
    ∀ q, (∀ m ∈ ms, q ≠ m.1) → (untarLoop ms acc fs).2 q = fs q := by
  induction ms with
  | nil => intro acc fs; simp [untarLoop]
  | cons m ms ih =>
    intro acc fs
    obtain ⟨name, a⟩ := m
    rw [untarLoop]
    obtain ⟨i1, i2⟩ := ih (acc ++ [a]) ((fs.set name (some (.npy a))).set name none)
    refine ⟨by rw [i1]; simp, ?_⟩
    intro q hq
    have hqn := hq (name, a) List.mem_cons_self
    rw [i2 q fun m hm => hq m (List.mem_cons_of_mem _ hm), set_other _ _ _ _ hqn,
      set_other _ _ _ _ hqn]

/-- What `load_tar` gets back from `save_tar`. -/
theorem tar_round_trip (member : String → String) (os : List NArr) (p : FPath) (fs : FS) :
    (loadTar p (saveTar member os p fs)).1 = .ok os := by
  have h : saveTar member os p fs (tarPath p) = some (.tar
      (tarLoop member p 0 os [] (fs.set (tarPath p) (some (.tar [])))).1) := by
    simp [saveTar, FS.set]
  unfold loadTar
  rw [h]
  simp only
  rw [(untar_spec _ _ _).1, tarLoop_members]
  simp only [List.nil_append, List.map_map]
  congr 1
  have : (Prod.snd ∘ fun x : NArr × ℕ => (member (tmpName p (0 + x.2)), x.1)) = Prod.fst := by
    funext x; rfl
  rw [this, List.zipIdx_map_fst]

/-- **C23** (partial). tar: energies, values and std come back; a vector without std comes back
without std only if the object loaded into has none. -/
theorem C23_vector_tar_partial (f : Fmt) (v t : Vec ℚ) (p : FPath) (ft : Option String)
    (units : String) (fs : FS) (hc : v.consistent = true) (hu : unitsOk v units)
    (hft : pickFiletype p ft = "tar") (ht : v.std = none → t.std = none) :
    ∃ fs', v.save f p ft units fs = .ok fs' ∧ (t.load p ft fs').1 = .ok (loaded t v units) := by
  obtain ⟨w, h1, h2, h3, h4⟩ := saveUnits_ok v units hu
  have hl := loaded_consistent t v units hc
  cases hs : v.std with
  | none =>
    rw [hs] at h4
    refine ⟨saveTar f.member [.d1 w.values, .d1 w.E] p fs,
      by simp [Vec.save, h1, hft, bind, Except.bind, h4], ?_⟩
    have hr := tar_round_trip f.member [.d1 w.values, .d1 w.E] p fs
    unfold Vec.load
    simp only [hft]
    rcases hL : loadTar p (saveTar f.member [.d1 w.values, .d1 w.E] p fs) with ⟨r, fs2⟩
    rw [hL] at hr
    simp only at hr
    subst hr
    simp only [loaded, hs, finishLoad, h2, h3] at hl ⊢
    rw [if_neg (by decide), if_neg (by decide), if_pos trivial]
    simp only [ht hs]
    rw [if_pos hl]
  | some s =>
    rw [hs] at h4
    refine ⟨saveTar f.member [.d1 w.values, .d1 w.E, .d1 s] p fs,
      by simp [Vec.save, h1, hft, bind, Except.bind, h4], ?_⟩
    have hr := tar_round_trip f.member [.d1 w.values, .d1 w.E, .d1 s] p fs
    unfold Vec.load
    simp only [hft]
    rcases hL : loadTar p (saveTar f.member [.d1 w.values, .d1 w.E, .d1 s] p fs) with ⟨r, fs2⟩
    rw [hL] at hr
    simp only at hr
    subst hr
    simp only [loaded, hs, finishLoad, h2, h3] at hl ⊢
    rw [if_neg (by decide), if_neg (by decide), if_pos trivial, if_pos hl]

/-- **C23** (false part). Loading a tar without std into an object that has one keeps the old std. -/
theorem C23_tar_stale_std_fails :
    let v : Vec ℚ := ⟨[1, 2], [3, 4], none, "keV"⟩
    let t : Vec ℚ := ⟨[1, 2], [7, 7], some [9, 9], "keV"⟩
    let p : FPath := ⟨"spec", ".tar"⟩
    let fs := DiskOp.run ⟨id, id, id, id⟩ (fun _ => none) (.saveV v p none "keV")
    (t.load p none fs).1 = .ok ⟨[1, 2], [3, 4], some [9, 9], "keV"⟩ := by
  decide +kernel

/-! ### C23: matrices -/

theorem unpack_pack (n : ℕ) (corner : ℚ) (vals : List (List ℚ)) (Eg Ex : List ℚ)
    (h : vals.length = Ex.length) :
    unpack2D (.d2 (n + 1) (pack2D corner vals Eg Ex)) = .ok (vals, Eg, Ex) := by
  unfold pack2D unpack2D
  simp only [List.tail_cons]
  have e1 : List.map List.tail (List.zipWith (fun e r => e :: r) Ex vals) = vals := by
    apply List.ext_getElem
    · simp [h]
    · intro k k1 k2; simp
  have e2 : column (List.zipWith (fun e r => e :: r) Ex vals) 0 = Ex := by
    unfold column
    apply List.ext_getElem
    · simp [h]
    · intro k k1 k2; simp
  rw [e1, e2]

/-- Specification: the matrix object after loading. -/
def loadedM (t : Mat) (vals : List (List ℚ)) (Eg Ex : List ℚ) : Mat :=
  { t with values := vals, Eg := Eg, Ex := Ex }

/-- The attributes kept from the object loaded into fit the new shape. -/
def fitsM (t : Mat) (vals : List (List ℚ)) (Eg Ex : List ℚ) : Prop :=
  (loadedM t vals Eg Ex).consistent = true

/-- **C23.** npy and tar: saving values (or std) of a matrix and loading gives the same array and axes;
`std` and `state` of the object loaded into stay. -/
theorem C23_matrix_binary (f : Fmt) (corner : ℚ) (m t : Mat) (vals : List (List ℚ)) (p : FPath)
    (ft : Option String) (which : String) (fs : FS) (hw : whichValues m which = .ok vals)
    (hlen : vals.length = m.Ex.length) (hfit : fitsM t vals m.Eg m.Ex)
    (hft : (pickFiletype p ft = "numpy" ∧ p.suffix = ".npy") ∨ pickFiletype p ft = "tar") :
    ∃ fs', m.save f corner p ft which fs = .ok fs' ∧
      (t.load p ft fs').1 = .ok (loadedM t vals m.Eg m.Ex) := by
  unfold fitsM at hfit
  rcases hft with ⟨hft, hp⟩ | hft
  · refine ⟨fs.set (npyTarget p) (some (.npy (.d2 (m.Eg.length + 1)
      (pack2D corner vals m.Eg m.Ex)))), by simp [Mat.save, hw, hft, bind, Except.bind], ?_⟩
    have ht : npyTarget p = p.str := by simp [npyTarget, hp]
    unfold Mat.load
    simp only [hft, if_true, ht, set_same, unpack_pack _ _ _ _ _ hlen, bind, Except.bind, finishLoadM]
    unfold loadedM at hfit ⊢
    rw [if_pos hfit]
  · refine ⟨saveTar f.member [.d2 m.Eg.length vals, .d1 m.Eg, .d1 m.Ex] p fs,
      by simp [Mat.save, hw, hft, bind, Except.bind], ?_⟩
    have hr := tar_round_trip f.member [.d2 m.Eg.length vals, .d1 m.Eg, .d1 m.Ex] p fs
    unfold Mat.load
    simp only [hft]
    rcases hL : loadTar p (saveTar f.member [.d2 m.Eg.length vals, .d1 m.Eg, .d1 m.Ex] p fs)
      with ⟨r, fs2⟩
    rw [hL] at hr
    simp only at hr
    subst hr
    simp only [finishLoadM]
    unfold loadedM at hfit ⊢
    rw [hfit]
    rfl

/-- **C23.** txt, for a matrix with at least one row and one column, up to printing and parsing. -/
theorem C23_matrix_txt (f : Fmt) (corner : ℚ) (m t : Mat) (vals : List (List ℚ)) (p : FPath)
    (ft : Option String) (which : String) (fs : FS) (hw : whichValues m which = .ok vals)
    (hlen : vals.length = m.Ex.length) (h1 : 1 ≤ m.Ex.length) (h2 : 1 ≤ m.Eg.length)
    (hfit : fitsM t (vals.map fun r => r.map f.rt) (m.Eg.map f.rt) (m.Ex.map f.rt))
    (hft : pickFiletype p ft = "txt") :
    ∃ fs', m.save f corner p ft which fs = .ok fs' ∧
      (t.load p ft fs').1 = .ok (loadedM t (vals.map fun r => r.map f.rt) (m.Eg.map f.rt)
        (m.Ex.map f.rt)) := by
  unfold fitsM at hfit
  refine ⟨fs.set p.str (some (.txt (m.Eg.length + 1)
      ((pack2D 0 vals m.Eg m.Ex).map fun r => r.map f.rt))),
      by simp [Mat.save, hw, hft, bind, Except.bind], ?_⟩
  have hpk : (pack2D 0 vals m.Eg m.Ex).map (fun r => r.map f.rt)
      = pack2D (f.rt 0) (vals.map fun r => r.map f.rt) (m.Eg.map f.rt) (m.Ex.map f.rt) := by
    unfold pack2D
    simp [List.map_zipWith, List.zipWith_map]
  have hload : loadtxt (m.Eg.length + 1) ((pack2D 0 vals m.Eg m.Ex).map fun r => r.map f.rt)
      = .d2 (m.Eg.length + 1) ((pack2D 0 vals m.Eg m.Ex).map fun r => r.map f.rt) := by
    have hlen2 : 2 ≤ ((pack2D 0 vals m.Eg m.Ex).map fun r => r.map f.rt).length := by
      simp [pack2D, hlen]; omega
    generalize (pack2D 0 vals m.Eg m.Ex).map (fun r => r.map f.rt) = L at hlen2
    unfold loadtxt
    split
    · simp at hlen2
    · simp at hlen2
    · rw [if_neg (by omega)]
  unfold Mat.load
  simp only [hft, set_same, hload]
  rw [hpk, unpack_pack _ _ _ _ _ (by simp [hlen])]
  rw [if_neg (by decide), if_pos trivial]
  simp only [bind, Except.bind, finishLoadM]
  unfold loadedM at hfit ⊢
  rw [if_pos hfit]

/-- **C23.** The error branches: `which='std'` without std is a RuntimeError, another `which` a
NotImplementedError, an unknown file type a ValueError. -/
theorem C23_matrix_save_errors (f : Fmt) (corner : ℚ) (m : Mat) (p : FPath) (ft : Option String)
    (which : String) (fs : FS) :
    (which.toLower = "std" → m.std = none → m.save f corner p ft which fs = .error .runtimeError) ∧
    (which.toLower ≠ "values" → which.toLower ≠ "std" →
      m.save f corner p ft which fs = .error .notImplemented) ∧
    (which.toLower = "values" → pickFiletype p ft ∉ ["numpy", "txt", "tar", "mama"] →
      m.save f corner p ft which fs = .error .valueError) := by
  refine ⟨?_, ?_, ?_⟩
  · intro h1 h2
    simp [Mat.save, whichValues, h1, h2, bind, Except.bind]
  · intro h1 h2
    simp [Mat.save, whichValues, h1, h2, bind, Except.bind]
  · intro h1 h2
    simp only [List.mem_cons, List.not_mem_nil, or_false, not_or] at h2
    simp [Mat.save, whichValues, h1, h2, bind, Except.bind]

/-! ### C23: other files, histories -/

/-- Specification: the names an operation may write or remove: for a save the file itself, for
`tar` also the up to three temporary files, for a load from `tar` the names of the members. -/
def DiskOp.touches (fs : FS) : DiskOp → String → Prop
  | .saveV _ p ft _, q | .saveM _ _ p ft _, q =>
    if pickFiletype p ft = "tar" then q = tarPath p ∨ ∃ k < 3, q = tmpName p k
    else if pickFiletype p ft = "numpy" then q = npyTarget p
    else q = p.str
  | .loadV _ p ft, q | .loadM _ p ft, q =>
    pickFiletype p ft = "tar" ∧ ∃ ms, fs (tarPath p) = some (.tar ms) ∧ ∃ m ∈ ms, q = m.1

theorem saveTar_frame (member : String → String) (os : List NArr) (hos : os.length ≤ 3) (p : FPath)
    (fs : FS) (q : String) (h1 : q ≠ tarPath p) (h2 : ∀ k < 3, q ≠ tmpName p k) :
    saveTar member os p fs q = fs q := by
  unfold saveTar
  simp only
  rw [set_other _ _ _ _ h1, tarLoop_frame, set_other _ _ _ _ h1]
  intro k hk
  rw [Nat.zero_add]
  exact h2 k (by omega)

theorem loadTar_frame (p : FPath) (fs : FS) (q : String)
    (h : ∀ ms, fs (tarPath p) = some (.tar ms) → ∀ m ∈ ms, q ≠ m.1) :
    (loadTar p fs).2 q = fs q := by
  unfold loadTar
  split
  · rename_i ms hms
    exact (untar_spec ms [] fs).2 q (h ms hms)
  · rfl
  · rfl

/-- **C23.** Every operation leaves all files alone except the ones it names and, for tar, the
temporary files next to the archive. -/
theorem C23_frame (f : Fmt) (fs : FS) (op : DiskOp) (q : String) (h : ¬op.touches fs q) :
    op.run f fs q = fs q := by
  cases op with
  | saveV v p ft units =>
    simp only [DiskOp.touches] at h
    simp only [DiskOp.run]
    cases hs : v.save f p ft units fs with
    | error e => rfl
    | ok fs' =>
      simp only
      unfold Vec.save at hs
      cases hw : saveUnits v units with
      | error e => rw [hw] at hs; simp [bind, Except.bind] at hs
      | ok w =>
        rw [hw] at hs
        simp only [bind, Except.bind] at hs
        by_cases c1 : pickFiletype p ft = "numpy"
        · simp only [c1, if_true, Except.ok.injEq] at hs h
          rw [← hs]
          exact set_other _ _ _ _ (by simpa using h)
        · rw [if_neg c1] at hs
          by_cases c2 : pickFiletype p ft = "txt"
          · simp only [c2, if_true, Except.ok.injEq] at hs h
            rw [← hs]
            exact set_other _ _ _ _ (by simpa using h)
          · rw [if_neg c2] at hs
            by_cases c3 : pickFiletype p ft = "tar"
            · simp only [c3, if_true, Except.ok.injEq, not_or, not_exists, not_and] at hs h
              rw [← hs]
              apply saveTar_frame
              · split <;> simp
              · exact h.1
              · exact h.2
            · rw [if_neg c3] at hs
              rw [if_neg c3, if_neg c1] at h
              by_cases c4 : pickFiletype p ft = "mama"
              · rw [if_pos c4] at hs
                have : ∃ fl, fs' = fs.set p.str fl := by
                  generalize (if w.units = "keV" then Except.ok w else w.toKeV) = z at hs
                  cases z with
                  | error e => simp at hs
                  | ok z =>
                    simp only [mamaWrite1D] at hs
                    split_ifs at hs
                    cases hcal : vecCalibration v.E with
                    | error e => rw [hcal] at hs; simp [bind, Except.bind] at hs
                    | ok ab =>
                      rw [hcal] at hs
                      simp only [bind, Except.bind, Except.ok.injEq] at hs
                      exact ⟨_, hs.symm⟩
                obtain ⟨fl, rfl⟩ := this
                exact set_other _ _ _ _ h
              · rw [if_neg c4] at hs
                by_cases c5 : pickFiletype p ft = "csv"
                · simp only [c5, if_true, Except.ok.injEq] at hs
                  rw [← hs]
                  exact set_other _ _ _ _ h
                · rw [if_neg c5] at hs; simp at hs
  | loadV t p ft =>
    simp only [DiskOp.touches, not_and, not_exists] at h
    simp only [DiskOp.run]
    unfold Vec.load
    simp only
    by_cases c1 : pickFiletype p ft = "numpy"
    · rw [if_pos c1]
    · rw [if_neg c1]
      by_cases c2 : pickFiletype p ft = "txt"
      · rw [if_pos c2]
      · rw [if_neg c2]
        by_cases c3 : pickFiletype p ft = "tar"
        · rw [if_pos c3]
          have := loadTar_frame p fs q (fun ms hms m hm => h c3 ms hms m hm)
          split <;> simp_all
        · rw [if_neg c3]
          split_ifs <;> rfl
  | saveM corner m p ft which =>
    simp only [DiskOp.touches] at h
    simp only [DiskOp.run]
    cases hs : m.save f corner p ft which fs with
    | error e => rfl
    | ok fs' =>
      simp only
      unfold Mat.save at hs
      simp only [bind, Except.bind] at hs
      cases hw : whichValues m which with
      | error e => rw [hw] at hs; simp at hs
      | ok vals =>
        rw [hw] at hs
        simp only at hs
        by_cases c1 : pickFiletype p ft = "numpy"
        · simp only [c1, if_true, Except.ok.injEq] at hs h
          rw [← hs]
          exact set_other _ _ _ _ (by simpa using h)
        · rw [if_neg c1] at hs
          by_cases c2 : pickFiletype p ft = "txt"
          · simp only [c2, if_true, Except.ok.injEq] at hs h
            rw [← hs]
            exact set_other _ _ _ _ (by simpa using h)
          · rw [if_neg c2] at hs
            by_cases c3 : pickFiletype p ft = "tar"
            · simp only [c3, if_true, Except.ok.injEq, not_or, not_exists, not_and] at hs h
              rw [← hs]
              apply saveTar_frame
              · simp
              · exact h.1
              · exact h.2
            · rw [if_neg c3] at hs
              rw [if_neg c3, if_neg c1] at h
              by_cases c4 : pickFiletype p ft = "mama"
              · rw [if_pos c4] at hs
                have : ∃ fl, fs' = fs.set p.str fl := by
                  simp only [mamaWrite2D] at hs
                  split_ifs at hs
                  cases hx : vecCalibration m.Ex with
                  | error e => rw [hx] at hs; simp [bind, Except.bind] at hs
                  | ok ab =>
                    cases hg : vecCalibration m.Eg with
                    | error e => rw [hx, hg] at hs; simp [bind, Except.bind] at hs
                    | ok cd =>
                      rw [hx, hg] at hs
                      simp only [bind, Except.bind, Except.ok.injEq] at hs
                      exact ⟨_, hs.symm⟩
                obtain ⟨fl, rfl⟩ := this
                exact set_other _ _ _ _ h
              · rw [if_neg c4] at hs; simp at hs
  | loadM t p ft =>
    simp only [DiskOp.touches, not_and, not_exists] at h
    simp only [DiskOp.run]
    unfold Mat.load
    simp only
    by_cases c1 : pickFiletype p ft = "numpy"
    · rw [if_pos c1]
    · rw [if_neg c1]
      by_cases c2 : pickFiletype p ft = "txt"
      · rw [if_pos c2]
      · rw [if_neg c2]
        by_cases c3 : pickFiletype p ft = "tar"
        · rw [if_pos c3]
          have := loadTar_frame p fs q (fun ms hms m hm => h c3 ms hms m hm)
          split <;> simp_all
        · rw [if_neg c3]

/-- Specification: no operation of a history touches the name. -/
def Untouched (f : Fmt) (q : String) : List DiskOp → FS → Prop
  | [], _ => True
  | op :: ops, fs => ¬op.touches fs q ∧ Untouched f q ops (op.run f fs)

/-- **C23.** Histories: after any sequence of saves and loads that does not touch the name, a vector
saved as npy is still read back unchanged, into any object. -/
theorem C23_history (f : Fmt) (v t : Vec ℚ) (p : FPath) (ft : Option String) (units : String)
    (before after : List DiskOp) (fs : FS) (hc : v.consistent = true) (hu : unitsOk v units)
    (hft : pickFiletype p ft = "numpy") (hp : p.suffix = ".npy")
    (hun : Untouched f p.str after
      ((DiskOp.saveV v p ft units).run f (before.foldl (DiskOp.run f) fs))) :
    (t.load p ft ((before ++ [DiskOp.saveV v p ft units] ++ after).foldl (DiskOp.run f) fs)).1
      = .ok (loaded t v units) := by
  rw [List.foldl_append, List.foldl_append]
  simp only [List.foldl_cons, List.foldl_nil]
  generalize before.foldl (DiskOp.run f) fs = fs0 at *
  obtain ⟨fs', h1, h2⟩ := C23_vector_numpy f v t p ft units fs0 hc hu hft hp
  have hrun : (DiskOp.saveV v p ft units).run f fs0 = fs' := by simp [DiskOp.run, h1]
  rw [hrun] at hun ⊢
  have key : ∀ (after : List DiskOp) (fs1 : FS), Untouched f p.str after fs1 →
      (after.foldl (DiskOp.run f) fs1) p.str = fs1 p.str := by
    intro after
    induction after with
    | nil => intro fs1 _; rfl
    | cons op ops ih =>
      intro fs1 h
      rw [List.foldl_cons, ih _ h.2, C23_frame f fs1 op p.str h.1]
  have hk := key after fs' hun
  have : t.load p ft (after.foldl (DiskOp.run f) fs') =
      ((t.load p ft fs').1, after.foldl (DiskOp.run f) fs') := by
    unfold Vec.load
    simp only [hft, if_true, hk]
  rw [this, h2]

/-- **C23** (false part). Saving to `v.tar` overwrites and then deletes a file `v0.npy` next to it. -/
theorem C23_tar_clobbers_fails :
    let other : Vec ℚ := ⟨[1, 2], [3, 4], none, "keV"⟩
    let fs := DiskOp.run ⟨id, id, id, id⟩ (fun _ => none) (.saveV other ⟨"v0", ".npy"⟩ none "keV")
    fs "v0.npy" ≠ none ∧
      DiskOp.run ⟨id, id, id, id⟩ fs (.saveV other ⟨"v", ".tar"⟩ none "keV") "v0.npy" = none := by
  decide +kernel

/-- A path without suffix: the temporary files are `0.npy`, `1.npy`, … in the working directory. -/
theorem C23_tar_no_suffix_fails :
    let fs : FS := fun q => if q = "0.npy" then some (.npy (.d1 [1])) else none
    DiskOp.run ⟨id, id, id, id⟩ fs
      (.saveV ⟨[1, 2], [3, 4], none, "keV"⟩ ⟨"data/spec", ""⟩ (some "tar") "keV") "0.npy" = none := by
  decide +kernel

/-! ### C24: MAMA -/

theorem calibration_grid (a w : ℚ) (n : ℕ) (hn : 2 ≤ n) : vecCalibration (grid a w n) = .ok (a, w) := by
  obtain ⟨k, rfl⟩ : ∃ k, n = k + 2 := ⟨n - 2, by omega⟩
  have : grid a w (k + 2) = a :: (a + w) :: (grid (a + 2 * w) w k) := by
    unfold grid
    rw [List.range_succ_eq_map, List.range_succ_eq_map]
    simp only [List.map_cons, List.map_map]
    simp only [Nat.cast_zero, mul_zero, add_zero, Nat.cast_succ, zero_add, mul_one, List.cons.injEq,
      true_and, Nat.succ_eq_add_one]
    apply List.map_congr_left
    intro i _
    simp [Function.comp]
    ring
  rw [this]
  simp [vecCalibration]

theorem calAxis_linear (a w : ℚ) (n : ℕ) : calAxis a w 0 n = grid a w n := by
  unfold calAxis grid
  simp

/-- **C24.** A keV vector on an equidistant axis comes back with the printed calibration, at every
index, and the printed values; the object loaded into keeps its std. -/
theorem C24_vector_round_trip (f : Fmt) (v t : Vec ℚ) (p : FPath) (ft : Option String) (units : String)
    (fs : FS) (a w : ℚ) (hE : v.E = grid a w v.values.length) (hn : 2 ≤ v.values.length)
    (hmax : v.values.length ≤ 8192) (hkeV : v.units = "keV")
    (hu : units = "keV" ∨ units = "MeV" ∨ units = "same") (hft : pickFiletype p ft = "mama")
    (h0 : f.rc 0 = 0) (ht : ∀ s, t.std = some s → s.length = v.values.length) :
    ∃ fs', v.save f p ft units fs = .ok fs' ∧
      t.load p ft fs' = (.ok { t with values := v.values.map f.rv,
                                      E := grid (f.rc a) (f.rc w) v.values.length }, fs') := by
  obtain ⟨E, values, std, u⟩ := v
  simp only at *
  subst hkeV
  have hcal : vecCalibration E = .ok (a, w) := by rw [hE]; exact calibration_grid a w _ hn
  refine ⟨fs.set p.str (some (.mama [f.rc a, f.rc w, f.rc 0] 1 (values.map fun x => [f.rv x]))), ?_, ?_⟩
  · rcases hu with rfl | rfl | rfl <;>
      simp [Vec.save, saveUnits, Vec.toKeV, Vec.toMeV, hft, bind, Except.bind, mamaWrite1D, hcal,
        Nat.not_lt.2 hmax]
  · have hload : loadtxt 1 (values.map fun x => [f.rv x]) = .d1 (values.map f.rv) := by
      have : 2 ≤ (values.map fun x => [f.rv x]).length := by simpa using hn
      unfold loadtxt
      split
      · simp_all
      · simp_all
      · simp [column, Function.comp_def]
    have hcons : ({ t with values := values.map f.rv,
                           E := grid (f.rc a) (f.rc w) values.length } : Vec ℚ).consistent = true := by
      rw [consistent_iff]
      simp only [grid_length, List.length_map, true_and]
      exact ht
    simp [Vec.load, hft, mamaRead, set_same, hload, h0, calAxis_linear, finishLoad, hcons]

/-- **C24.** With `Eg` and `Ex` equidistant a matrix comes back with `Eg` and `Ex` in place, up to the
printed calibration and values. -/
theorem C24_matrix_round_trip (f : Fmt) (corner : ℚ) (m t : Mat) (p : FPath) (ft : Option String)
    (which : String) (fs : FS) (g0 gw x0 xw : ℚ) (ng nx : ℕ)
    (hEg : m.Eg = grid g0 gw ng) (hEx : m.Ex = grid x0 xw nx) (hv : hasShape m.values nx ng = true)
    (hng : 2 ≤ ng) (hnx : 2 ≤ nx) (hng' : ng ≤ 2048) (hnx' : nx ≤ 2048)
    (hw : which.toLower = "values") (hft : pickFiletype p ft = "mama") (h0 : f.rc 0 = 0)
    (hfit : fitsM t (m.values.map fun r => r.map f.rv) (grid (f.rc g0) (f.rc gw) ng)
      (grid (f.rc x0) (f.rc xw) nx)) :
    ∃ fs', m.save f corner p ft which fs = .ok fs' ∧
      t.load p ft fs' = (.ok (loadedM t (m.values.map fun r => r.map f.rv)
        (grid (f.rc g0) (f.rc gw) ng) (grid (f.rc x0) (f.rc xw) nx)), fs') := by
  obtain ⟨values, Eg, Ex, std, state⟩ := m
  simp only at *
  have hcg : vecCalibration Eg = .ok (g0, gw) := by rw [hEg]; exact calibration_grid _ _ _ hng
  have hcx : vecCalibration Ex = .ok (x0, xw) := by rw [hEx]; exact calibration_grid _ _ _ hnx
  have lg : Eg.length = ng := by rw [hEg, grid_length]
  have lx : Ex.length = nx := by rw [hEx, grid_length]
  have lv : values.length = nx := by
    simp only [hasShape, Bool.and_eq_true, beq_iff_eq] at hv
    exact hv.1
  refine ⟨fs.set p.str (some (.mama [f.rc g0, f.rc gw, f.rc 0, f.rc x0, f.rc xw, f.rc 0] ng
    (values.map fun r => r.map f.rv))), ?_, ?_⟩
  · simp only [Mat.save, whichValues, hw, hft, bind, Except.bind, mamaWrite2D, hcg, hcx, lg, lx]
    rw [if_pos trivial]
    simp only
    rw [if_neg (by decide), if_neg (by decide), if_neg (by decide), if_pos trivial, if_neg (by omega)]
  · have hload : loadtxt ng (values.map fun r => r.map f.rv) = .d2 ng (values.map fun r => r.map f.rv) := by
      have : 2 ≤ (values.map fun r => r.map f.rv).length := by rw [List.length_map, lv]; exact hnx
      unfold loadtxt
      split
      · simp_all
      · simp_all
      · rw [if_neg (by omega)]
    unfold fitsM loadedM at hfit
    unfold loadedM
    simp [Mat.load, hft, mamaRead, set_same, hload, h0, calAxis_linear, finishLoadM, lv, hfit]

/-- **C24.** The error of the axis read back: with calibration printed to relative precision `ε`,
bin `k` is off by at most `ε(|a| + k|w|)`. -/
theorem C24_axis_precision (rc : ℚ → ℚ) (ε : ℚ) (h : ∀ x, |rc x - x| ≤ ε * |x|) (a w : ℚ) (n k : ℕ)
    (hk : k < n) :
    |(grid (rc a) (rc w) n).getD k 0 - (grid a w n).getD k 0| ≤ ε * (|a| + k * |w|) := by
  rw [grid_getD _ _ hk, grid_getD _ _ hk]
  have h1 := abs_le.1 (h a)
  have h2 := abs_le.1 (h w)
  have hk0 : (0 : ℚ) ≤ k := Nat.cast_nonneg k
  rw [abs_le]
  constructor <;> nlinarith [mul_le_mul_of_nonneg_right h2.1 hk0, mul_le_mul_of_nonneg_right h2.2 hk0]

/-- **C24.** Only equidistant axes are representable: if the axis read back is the one written, it is
equidistant. -/
theorem C24_only_equidistant (f : Fmt) (v t v' : Vec ℚ) (p : FPath) (ft : Option String)
    (units : String) (fs fs' fs'' : FS) (h0 : f.rc 0 = 0) (hft : pickFiletype p ft = "mama")
    (hsave : v.save f p ft units fs = .ok fs') (hload : t.load p ft fs' = (.ok v', fs''))
    (hE : v'.E = v.E) : ∃ a w, v.E = grid a w v.E.length := by
  unfold Vec.save at hsave
  cases hw : saveUnits v units with
  | error e => rw [hw] at hsave; simp [bind, Except.bind] at hsave
  | ok w =>
    rw [hw] at hsave
    simp only [bind, Except.bind, hft] at hsave
    rw [if_neg (by decide), if_neg (by decide), if_neg (by decide), if_pos trivial] at hsave
    generalize (if w.units = "keV" then Except.ok w else w.toKeV) = z at hsave
    cases z with
    | error e => simp at hsave
    | ok z =>
      simp only [mamaWrite1D] at hsave
      split_ifs at hsave
      cases hcal : vecCalibration v.E with
      | error e => rw [hcal] at hsave; simp [bind, Except.bind] at hsave
      | ok ab =>
        obtain ⟨a, b⟩ := ab
        rw [hcal] at hsave
        simp only [bind, Except.bind, Except.ok.injEq] at hsave
        rw [← hsave] at hload
        unfold Vec.load at hload
        simp only [hft, mamaRead, set_same, h0] at hload
        rw [if_neg (by decide), if_neg (by decide), if_neg (by decide), if_neg (by decide)] at hload
        cases hl : loadtxt 1 (v.values.map fun x => [f.rv x]) with
        | d0 x => rw [hl] at hload; simp at hload
        | d2 n r => rw [hl] at hload; simp at hload
        | d1 l =>
          rw [hl] at hload
          simp only [finishLoad, Prod.mk.injEq] at hload
          obtain ⟨hload, -⟩ := hload
          split_ifs at hload
          simp only [Except.ok.injEq] at hload
          rw [← hload] at hE
          simp only [calAxis_linear] at hE
          refine ⟨f.rc a, f.rc b, ?_⟩
          have : v.E.length = l.length := by rw [← hE]; simp
          rw [this, ← hE]

/-- **C24** (false part). An MeV vector is written with its MeV calibration although the file says keV
and the copy was converted: reading gives energies 1000 times too small. -/
theorem C24_MeV_fails :
    let v : Vec ℚ := ⟨[1, 2, 3], [3, 4, 5], none, "MeV"⟩
    let p : FPath := ⟨"spec", ".m"⟩
    let fs := DiskOp.run ⟨id, id, id, id⟩ (fun _ => none) (.saveV v p none "keV")
    (Vec.load ⟨[], [], none, "keV"⟩ p none fs).1 = .ok ⟨[1, 2, 3], [3, 4, 5], none, "keV"⟩ ∧
      v.physical = [1000, 2000, 3000] := by
  decide +kernel

/-- **C24** (false part). `save(which='std')` to MAMA writes the values. -/
theorem C24_std_writes_values_fails :
    let m : Mat := ⟨[[1, 2], [3, 4]], [1, 2], [1, 2], some [[9, 9], [9, 9]], none⟩
    let p : FPath := ⟨"mat", ".m"⟩
    let fs := DiskOp.run ⟨id, id, id, id⟩ (fun _ => none) (.saveM 0 m p none "std")
    (m.load p none fs).1 = .ok m := by
  decide +kernel

/-- A round trip through npy in MeV. -/
example :
    let v : Vec ℚ := ⟨[1000, 2000], [3, 4], some [1, 1], "keV"⟩
    let fs := DiskOp.run ⟨id, id, id, id⟩ (fun _ => none) (.saveV v ⟨"spec", ".npy"⟩ none "MeV")
    (Vec.load ⟨[], [], none, "MeV"⟩ ⟨"spec", ".npy"⟩ none fs).1
        = .ok ⟨[1, 2], [3, 4], some [1, 1], "MeV"⟩ := by
  decide +kernel

end Ompy
