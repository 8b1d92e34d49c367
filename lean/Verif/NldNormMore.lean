import Verif.NldNormProps
import Verif.NldLikeProps

/-!
# C64 and C66, further theorems
-/

namespace Ompy

variable {P B R : Type}

/-- **C64.** `Vector.error` on equal bins: a bin contributes the squared difference over the variance, a
bin with zero variance contributes nothing; without standard deviations the variance is 1; those of
both are added in quadrature. -/
theorem C64_error (close : ℚ → ℚ → Bool) (n : ℕ) (E F : ℕ → ℚ) (v w s t : ℕ → ℝ) (u u' : String)
    (hE : ∀ k < n, close (E k) (F k) = true) :
    let term := fun var : ℕ → ℝ =>
      ∑ k ∈ Finset.range n, if var k = 0 then 0 else (v k - w k) ^ 2 / var k
    (tabVec n E v s u).error close (tabVec0 n F w u') none = .ok (term fun k => s k ^ 2) ∧
    (tabVec0 n E v u).error close (tabVec0 n F w u') none = .ok (term fun _ => 1) ∧
    (tabVec0 n E v u).error close (tabVec0 n F w u') (some ((List.range n).map t)) =
      .ok (term fun k => t k ^ 2) ∧
    (tabVec n E v s u).error close (tabVec0 n F w u') (some ((List.range n).map t)) =
      .ok (term fun k => s k ^ 2 + t k ^ 2) := by
  have hb : ∀ x y : Option (List ℝ), sameBins close ⟨(List.range n).map E, (List.range n).map v, x, u⟩
      ⟨(List.range n).map F, (List.range n).map w, y, u'⟩ = true := by
    intro x y
    unfold sameBins
    simp only [List.length_map, List.length_range, beq_self_eq_true, Bool.true_and, List.all_eq_true]
    intro b hb
    rw [zipWith_map_range] at hb
    obtain ⟨k, hk, rfl⟩ := List.mem_map.1 hb
    exact hE k (List.mem_range.1 hk)
  refine ⟨?_, ?_, ?_, ?_⟩ <;>
  · unfold Vec.error tabVec0
    try unfold tabVec
    rw [if_pos (hb _ _)]
    simp only [zipWith_map_range, List.map_map, sum_map_range_real, div0R, Function.comp_def]

/-- Non-vacuity: one bin of two has no uncertainty. -/
example : (tabVec 2 (fun k => (k : ℚ)) (fun _ => 3) (fun k => (k : ℝ)) "MeV").error (fun a b => a == b)
    (tabVec0 2 (fun k => (k : ℚ)) (fun _ => 1) "MeV") none = .ok 4 := by
  have h := (C64_error (fun a b => a == b) 2 (fun k : ℕ => (k : ℚ)) (fun k : ℕ => (k : ℚ)) (fun _ => 3)
    (fun _ => 1) (fun k : ℕ => (k : ℝ)) (fun _ => 0) "MeV" "MeV" (by simp)).1
  rw [h]
  norm_num [Finset.sum_range_succ]

/-- **C66.** Without a file a normaliser with `regenerate=False` does the same as one with
`regenerate=True`: limits, parameters and results come out alike. -/
theorem C66_no_file (fit : NldFitIn P B → Except Err (NldPopt R)) (check : P → Except Err Unit)
    (s : NldState P B R) (a : NldCall P B) (p : String) (hp : s.obj.path = some p)
    (hd : s.disk p = none) : s.normalize fit check a = s.normalizeNew fit check a := by
  unfold NldState.normalize
  by_cases hr : s.obj.regenerate = true
  · rw [if_pos hr]
  · rw [if_neg hr, hp]
    simp only [hd]

theorem fitAndSave_error {fit : NldFitIn P B → Except Err (NldPopt R)} {s s' : NldState P B R}
    {nldIn : Vec ℝ} {low high : ℚ × ℚ} {bounds : B} {pars : P} {num : ℕ} {e : Err}
    (hfit : ∀ x, fit x = .error e) (hs : s.obj.res = none) {r : Except Err Unit}
    (h : s.fitAndSave fit nldIn low high bounds pars num = (s', r)) :
    r ≠ .ok () ∧ s'.obj.res = none ∧ s'.disk = s.disk := by
  unfold NldState.fitAndSave at h
  cases hv : nldIn.toMeV with
  | error e =>
    rw [hv] at h
    simp only [Prod.mk.injEq] at h
    obtain ⟨rfl, rfl⟩ := h
    exact ⟨by simp, hs, rfl⟩
  | ok v =>
    rw [hv] at h
    dsimp only at h
    cases hc : s.obj.discrete with
    | none =>
      rw [hc] at h
      simp only [Prod.mk.injEq] at h
      obtain ⟨rfl, rfl⟩ := h
      exact ⟨by simp, hs, rfl⟩
    | some c =>
      rw [hc] at h
      simp only [hfit, Prod.mk.injEq] at h
      obtain ⟨rfl, rfl⟩ := h
      exact ⟨by simp, hs, rfl⟩

/-- **C66.** When the fit fails, no results of an earlier normalisation are left that could be taken for
those of this one, and nothing is saved. -/
theorem C66_failed_fit (fit : NldFitIn P B → Except Err (NldPopt R)) (check : P → Except Err Unit)
    (s : NldState P B R) (a : NldCall P B) (hr : s.obj.regenerate = true) (e : Err)
    (hfit : ∀ x, fit x = .error e) (low high : ℚ × ℚ) (d : ℕ) (dv nldIn : Vec ℝ) (pars : P) (bounds : B)
    (h1 : given a.low s.obj.low = some low) (h2 : given a.high s.obj.high = some high)
    (h3 : given a.discrete s.obj.discrete = some d) (h4 : (vcell s.heap d).toMeV = .ok dv)
    (h5 : given (a.nld.map (vcell (s.heap.set d dv))) s.obj.nld = some nldIn)
    (h6 : given a.pars s.obj.pars = some pars) (h7 : check pars = .ok ())
    (h8 : given a.bounds s.obj.bounds = some bounds) :
    (s.normalize fit check a).2 ≠ .ok () ∧ (s.normalize fit check a).1.obj.res = none ∧
      (s.normalize fit check a).1.disk = s.disk := by
  unfold NldState.normalize
  rw [if_pos hr]
  unfold NldState.normalizeNew
  rw [selfIfNone_ok.2 h1, selfIfNone_ok.2 h2, selfIfNone_ok.2 h3]
  simp only [h4, selfIfNone_ok.2 h5, selfIfNone_ok.2 h6, h7, selfIfNone_ok.2 h8]
  have key := fun (x : NldState P B R) (hx : x.obj.res = none) =>
    fitAndSave_error (s := x) (nldIn := nldIn) (low := low) (high := high) (bounds := bounds)
      (pars := pars) (num := a.num) hfit hx (Prod.mk.eta (p := x.fitAndSave fit nldIn low high bounds pars a.num)).symm
  obtain ⟨k1, k2, k3⟩ := key { heap := s.heap.set d dv, disk := s.disk, obj := { s.obj with
    low := some low, high := some high, pars := some pars, bounds := some bounds, res := none } } rfl
  exact ⟨k1, k2, k3⟩

/-- The normaliser of the witnesses with results of an earlier normalisation. -/
noncomputable def stOld : NldState Unit Unit Unit :=
  ⟨[levW, levK], { objW (some 0) none with res := some ⟨nldW, ⟨1, 0, ()⟩⟩ }, fun _ => none⟩

/-- Non-vacuity: a fit that fails removes them. -/
example : stOld.obj.res ≠ none ∧
    (stOld.normalize (fun _ => .error .runtimeError) (fun _ => .ok ()) (callW (some 1))).1.obj.res =
      none := by
  refine ⟨by simp [stOld], ?_⟩
  exact (C66_failed_fit (fun _ => .error .runtimeError) (fun _ => .ok ()) stOld (callW (some 1)) rfl
    .runtimeError (fun _ => rfl) (1, 2) (1, 2) 1 _ nldW () () rfl rfl rfl toMeV_levK rfl rfl rfl rfl).2.1

theorem save_disk {s s' : NldState P B R} (h : s.save = (s', .ok ())) (p : String)
    (hs : s.obj.saveInstance = true) (hp : s.obj.path = some p) :
    s'.disk p = some ⟨s'.obj, s'.obj.discrete.map (vcell s'.heap)⟩ ∧ ∀ q ≠ p, s'.disk q = s.disk q := by
  unfold NldState.save at h
  rw [if_pos hs, hp] at h
  simp only [Prod.mk.injEq, and_true] at h
  rw [← h]
  exact ⟨by simp, fun q hq => by simp [hq]⟩

theorem fitAndSave_disk {fit : NldFitIn P B → Except Err (NldPopt R)} {s s' : NldState P B R}
    {nldIn : Vec ℝ} {low high : ℚ × ℚ} {bounds : B} {pars : P} {num : ℕ}
    (h : s.fitAndSave fit nldIn low high bounds pars num = (s', .ok ())) (p : String)
    (hs : s.obj.saveInstance = true) (hp : s.obj.path = some p) :
    s'.disk p = some ⟨s'.obj, s'.obj.discrete.map (vcell s'.heap)⟩ ∧ ∀ q ≠ p, s'.disk q = s.disk q := by
  unfold NldState.fitAndSave at h
  cases hv : nldIn.toMeV with
  | error e => rw [hv] at h; simp at h
  | ok v =>
    rw [hv] at h
    dsimp only at h
    cases hc : s.obj.discrete with
    | none => rw [hc] at h; simp at h
    | some c =>
      rw [hc] at h
      dsimp only at h
      split at h
      · simp at h
      · exact save_disk h p hs hp

/-- **C66.** After a successful normalisation with saving switched on the file in the directory of the
normaliser holds the whole object with its known levels, and no other file has changed. -/
theorem C66_file (fit : NldFitIn P B → Except Err (NldPopt R)) (check : P → Except Err Unit)
    (s s' : NldState P B R) (a : NldCall P B) (hr : s.obj.regenerate = true) (p : String)
    (hs : s.obj.saveInstance = true) (hp : s.obj.path = some p)
    (h : s.normalize fit check a = (s', .ok ())) :
    s'.disk p = some ⟨s'.obj, s'.obj.discrete.map (vcell s'.heap)⟩ ∧ ∀ q ≠ p, s'.disk q = s.disk q := by
  unfold NldState.normalize at h
  rw [if_pos hr] at h
  unfold NldState.normalizeNew at h
  cases h1 : selfIfNone a.low s.obj.low with
  | error e => rw [h1] at h; simp at h
  | ok low =>
  cases h2 : selfIfNone a.high s.obj.high with
  | error e => rw [h1, h2] at h; simp at h
  | ok high =>
  cases h3 : selfIfNone a.discrete s.obj.discrete with
  | error e => rw [h1, h2, h3] at h; simp at h
  | ok d =>
  cases h4 : (vcell s.heap d).toMeV with
  | error e => rw [h1, h2, h3] at h; simp [h4] at h
  | ok dv =>
  cases h5 : selfIfNone (a.nld.map (vcell (s.heap.set d dv))) s.obj.nld with
  | error e => rw [h1, h2, h3] at h; simp [h4, h5] at h
  | ok nldIn =>
  cases h6 : selfIfNone a.pars s.obj.pars with
  | error e => rw [h1, h2, h3] at h; simp [h4, h5, h6] at h
  | ok pars =>
  cases h7 : check pars with
  | error e => rw [h1, h2, h3] at h; simp [h4, h5, h6, h7] at h
  | ok u =>
  cases h8 : selfIfNone a.bounds s.obj.bounds with
  | error e => rw [h1, h2, h3] at h; simp [h4, h5, h6, h7, h8] at h
  | ok bounds =>
  rw [h1, h2, h3] at h
  simp only [h4, h5, h6, h7, h8] at h
  exact fitAndSave_disk h p hs hp

/-- **C66.** What one normaliser saved another one in the same directory restores: results, limits and
the known levels, which are a copy. -/
theorem C66_restore (fit fit' : NldFitIn P B → Except Err (NldPopt R)) (check : P → Except Err Unit)
    (s s' t : NldState P B R) (a b : NldCall P B) (hr : s.obj.regenerate = true) (p : String)
    (hs : s.obj.saveInstance = true) (hp : s.obj.path = some p)
    (h : s.normalize fit check a = (s', .ok ()))
    (ht : t.obj.regenerate = false) (tp : t.obj.path = some p) (td : t.disk = s'.disk) :
    (t.normalize fit' check b).2 = .ok () ∧
    (t.normalize fit' check b).1.obj.res = s'.obj.res ∧
    (t.normalize fit' check b).1.obj.low = s'.obj.low ∧
    (t.normalize fit' check b).1.obj.discrete.map (vcell (t.normalize fit' check b).1.heap) =
      s'.obj.discrete.map (vcell s'.heap) ∧
    ∀ r < t.heap.length, vcell (t.normalize fit' check b).1.heap r = vcell t.heap r := by
  have hf := (C66_file fit check s s' a hr p hs hp h).1
  unfold NldState.normalize
  rw [if_neg (by simp [ht]), tp]
  simp only [td, hf]
  unfold NldState.restore
  cases hd : s'.obj.discrete with
  | none => simp [hd]
  | some c =>
    simp only [Option.map_some]
    refine ⟨trivial, trivial, trivial, ?_, ?_⟩
    · simp [vcell]
    · intro r hr
      unfold vcell
      simp [List.getElem?_append_left hr]

/-- Non-vacuity: the normaliser of the witnesses with a directory. -/
example : ∃ s' : NldState Unit Unit Unit,
    NldState.normalize (P := Unit) (B := Unit) (R := Unit) fitW (fun _ => .ok ())
      ⟨[levW, levK], { objW (some 0) none with saveInstance := true, path := some "d" }, fun _ => none⟩
      (callW (some 1)) = (s', .ok ()) ∧ (s'.disk "d").map (fun f => f.discrete) = some (some levW) := by
  simp [NldState.normalize, NldState.normalizeNew, NldState.fitAndSave, NldState.save, objW, callW,
    selfIfNone, vcell, toMeV_nldW, toMeV_levK, fitW, std_nldW, val_levW]

end Ompy
