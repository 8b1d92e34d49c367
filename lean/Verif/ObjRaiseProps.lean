import Verif.ObjHistoryProps

/-!
# Objects after a call that raised
-/

namespace Ompy

/-- `rebin` in place (ompy/vector.py:422-425, ompy/matrix.py:741-747) assigns attributes before the last check. -/
def PyCall.isRebin : PyCall → Bool
  | .onVec _ (.rebin ..) => true
  | .onMat _ (.rebin ..) => true
  | _ => false

/-- The call changed no object and left all arrays in use as they were. -/
def WorldSame (s s' : World) : Prop := s'.objs = s.objs ∧ Touched s.mem s'.mem []

theorem WorldSame.refl (s : World) : WorldSame s s := ⟨rfl, Touched.refl _ _⟩

theorem WorldSame.vals {s s' : World} (g : s.good) (u : WorldSame s s') : s'.vals = s.vals := by
  unfold World.vals
  rw [u.1]
  apply List.map_congr_left
  intro o ho
  exact u.2.view o (g o ho).2 (by simp)

theorem set_self {s : World} {k : ℕ} {o : AnyObj} (hk : s.objs[k]? = some o) : s.objs.set k o = s.objs := by
  obtain ⟨hl, e⟩ := List.getElem?_eq_some_iff.mp hk
  rw [← e, List.set_getElem_self]

theorem setVec_raise {s : World} {k : ℕ} {o : VObj} (hk : s.objs[k]? = some (.vec o)) {r : Memory × VObj × Except Err Unit}
    (h : ∀ e, r.2.2 = .error e → r.2.1 = o ∧ Touched s.mem r.1 []) {e : Err} (he : (s.setVec k r).2 = .error e) : WorldSame s (s.setVec k r).1 := by
  obtain ⟨h1, h2⟩ := h e he
  exact ⟨by simp only [World.setVec, h1, set_self hk], h2⟩

theorem setMat_raise {s : World} {k : ℕ} {o : MObj} (hk : s.objs[k]? = some (.mat o)) {r : Memory × MObj × Except Err Unit}
    (h : ∀ e, r.2.2 = .error e → r.2.1 = o ∧ Touched s.mem r.1 []) {e : Err} (he : (s.setMat k r).2 = .error e) : WorldSame s (s.setMat k r).1 := by
  obtain ⟨h1, h2⟩ := h e he
  exact ⟨by simp only [World.setMat, h1, set_self hk], h2⟩

theorem addVec_raise {s : World} {r : Memory × Except Err (Option VObj)} (t : Touched s.mem r.1 []) {e : Err} (he : (s.addVec r).2 = .error e) :
    WorldSame s (s.addVec r).1 := by
  obtain ⟨h, r⟩ := r
  rcases r with e | (_ | o)
  · exact ⟨rfl, t⟩
  · cases he
  · cases he

theorem addMat_raise {s : World} {r : Memory × Except Err (Option MObj)} (t : Touched s.mem r.1 []) {e : Err} (he : (s.addMat r).2 = .error e) :
    WorldSame s (s.addMat r).1 := by
  obtain ⟨h, r⟩ := r
  rcases r with e | (_ | o)
  · exact ⟨rfl, t⟩
  · cases he
  · cases he

theorem vecCall_raise {s : World} {k : ℕ} {o : VObj} (hk : s.objs[k]? = some (.vec o)) (ex rt : ℚ → ℚ) (c : VCall) (hc : (PyCall.onVec k c).isRebin = false) {e : Err}
    (he : (s.vecCall ex rt k o c).2 = .error e) : WorldSame s (s.vecCall ex rt k o c).1 := by
  cases c with
  | cut a b =>
    refine setVec_raise hk (r := (s.mem, VObj.cut s.mem o a b)) (fun e h => ?_) he
    unfold VObj.cut at h ⊢
    simp only at h ⊢
    split at h
    · exact ⟨rfl, Touched.refl _ _⟩
    · cases h
  | cutCopy a b => exact addVec_raise (returnVec_touched _ _) he
  | rebin mids q => cases hc
  | rebinCopy mids q =>
    simp only [World.vecCall] at he ⊢
    split
    · exact WorldSame.refl s
    · rename_i h r ha
      rw [ha] at he
      exact addVec_raise ((argOpt_touched ha).trans (returnVec_touched _ _)) he
  | toMeV =>
    refine setVec_raise hk (fun e h => ?_) he
    unfold VObj.toMeV at h ⊢
    split_ifs at h ⊢
    exact ⟨rfl, Touched.refl _ _⟩
  | toKeV =>
    refine setVec_raise hk (fun e h => ?_) he
    unfold VObj.toKeV at h ⊢
    split_ifs at h ⊢
    exact ⟨rfl, Touched.refl _ _⟩
  | closest a right =>
    simp only [World.vecCall] at he ⊢
    split
    · exact WorldSame.refl s
    · rename_i m r ha
      rw [ha] at he
      refine setVec_raise hk (fun e h => ?_) he
      unfold VObj.closest at h ⊢
      split at h
      · exact ⟨rfl, arg_touched ha⟩
      · cases h
  | closestCopy a right =>
    simp only [World.vecCall] at he ⊢
    split
    · exact WorldSame.refl s
    · rename_i h r ha
      rw [ha] at he
      exact addVec_raise ((arg_touched ha).trans (returnVec_touched _ _)) he
  | transform c a => cases he
  | transformCopy c a => cases he
  | cumulative q =>
    refine setVec_raise hk (fun e h => ?_) he
    unfold VObj.renew at h ⊢
    split at h
    · exact ⟨rfl, Touched.refl _ _⟩
    · cases h
  | cumulativeCopy q => exact addVec_raise (returnVec_touched _ _) he
  | setItem j x =>
    refine setVec_raise hk (fun e h => ?_) he
    unfold VObj.setItem at h ⊢
    split_ifs at h ⊢
    exact ⟨rfl, Touched.refl _ _⟩
  | copy => cases he

theorem write_raise {h : Memory} {o : MObj} {r : Except Err (List (List ℚ))} {e : Err} (he : (MObj.write h o r).2.2 = .error e) :
    (MObj.write h o r).2.1 = o ∧ Touched h (MObj.write h o r).1 [] := by
  cases r with
  | error e => exact ⟨rfl, Touched.refl _ _⟩
  | ok d => cases he

theorem shift_raise {h : Memory} {o : MObj} {sign : ℚ} {e : Err} (he : (MObj.shiftBins h o sign).2.2 = .error e) :
    (MObj.shiftBins h o sign).2.1 = o ∧ Touched h (MObj.shiftBins h o sign).1 [] := by
  unfold MObj.shiftBins at he ⊢
  split at he
  · cases he
  · exact ⟨rfl, Touched.refl _ _⟩
  · exact ⟨rfl, Touched.refl _ _⟩

theorem matCall_raise {s : World} {k : ℕ} {o : MObj} (hk : s.objs[k]? = some (.mat o)) (c : MCall) (hc : (PyCall.onMat k c).isRebin = false) {e : Err}
    (he : (s.matCall k o c).2 = .error e) : WorldSame s (s.matCall k o c).1 := by
  cases c with
  | cut ax a b i j =>
    refine setMat_raise hk (r := (s.mem, MObj.cut s.mem o ax a b i j)) (fun e h => ?_) he
    unfold MObj.cut at h ⊢
    split at h
    · exact ⟨rfl, Touched.refl _ _⟩
    · split_ifs at h ⊢
      exact ⟨rfl, Touched.refl _ _⟩
  | cutCopy ax a b i j => exact addMat_raise (returnMat_touched _ _) he
  | rebin ax mids q => cases hc
  | rebinCopy ax mids q =>
    simp only [World.matCall] at he ⊢
    split
    · exact WorldSame.refl s
    · rename_i h r ha
      rw [ha] at he
      exact addMat_raise ((argOpt_touched ha).trans (rebinCopy_touched _ _ _ _ _)) he
  | fill eg ex q => exact setMat_raise hk (fun e h => write_raise h) he
  | cutDiagonal p q => exact setMat_raise hk (fun e h => write_raise h) he
  | removeNegative => cases he
  | toLowerBin => exact setMat_raise hk (fun e h => shift_raise h) he
  | toMidBin => exact setMat_raise hk (fun e h => shift_raise h) he
  | trapezoid a b c d =>
    refine setMat_raise hk (fun e h => ?_) he
    unfold MObj.trapezoid at h ⊢
    split at h
    · exact ⟨rfl, Touched.refl _ _⟩
    · cases h
  | copy => cases he

theorem step_raise (s : World) (ex rt : ℚ → ℚ) (c : PyCall) (hc : c.isRebin = false) {e : Err} (he : (s.step ex rt c).2 = .error e) :
    WorldSame s (s.step ex rt c).1 := by
  cases c with
  | newVec values E std units =>
    simp only [World.step] at he ⊢
    split
    · exact WorldSame.refl s
    · rename_i h1 rv e1
      simp only [e1] at he
      split
      · exact WorldSame.refl s
      · rename_i h2 re e2
        simp only [e2] at he
        split
        · exact WorldSame.refl s
        · rename_i h3 rs e3
          simp only [e3] at he
          have t1 := arg_touched e1
          have t2 := arg_touched e2
          have t3 := argOpt_touched e3
          exact addVec_raise (t1.trans (t2.trans (t3.trans (returnVec_touched _ _)))) he
  | newMat values Eg Ex std state =>
    simp only [World.step] at he ⊢
    split
    · exact WorldSame.refl s
    · rename_i h1 rv e1
      simp only [e1] at he
      split
      · exact WorldSame.refl s
      · rename_i h2 rg e2
        simp only [e2] at he
        split
        · exact WorldSame.refl s
        · rename_i h3 rx e3
          simp only [e3] at he
          split
          · exact WorldSame.refl s
          · rename_i h4 rs e4
            simp only [e4] at he
            have t := (arg2_touched e1).trans ((arg_touched e2).trans ((arg_touched e3).trans ((argOpt2_touched e4).trans
              (makeMat_touched h4 ⟨h4.read2 rv, h4.read1 rg, h4.read1 rx, none, state⟩))))
            split_ifs at he ⊢
            exact ⟨rfl, t⟩
  | onVec k c =>
    simp only [World.step] at he ⊢
    split
    · rename_i o hk
      rw [hk] at he
      exact vecCall_raise hk ex rt c hc he
    · exact WorldSame.refl s
  | onMat k c =>
    simp only [World.step] at he ⊢
    split
    · rename_i o hk
      rw [hk] at he
      exact matCall_raise hk c hc he
    · exact WorldSame.refl s

/-- A call that raises, other than `rebin` in place, changes nothing: after any program the caller has the same objects with the same numbers as before the call. -/
theorem C145_raise_keeps (ex rt : ℚ → ℚ) (cs : List PyCall) (c : PyCall) (hc : c.isRebin = false) (e : Err)
    (he : ((World.start.run ex rt cs).1.step ex rt c).2 = .error e) :
    ((World.start.run ex rt cs).1.step ex rt c).1.vals = (World.start.run ex rt cs).1.vals :=
  WorldSame.vals (run_good start_good ex rt cs) (step_raise _ ex rt c hc he)

/-- Shifting the bins of a matrix with one gamma energy raises after the width for the other axis was found. -/
example : (World.start.run id id [.newMat (.lit [[1], [2]]) (.lit [0]) (.lit [0, 4]) none none, .onMat 0 .toLowerBin]).2.map Except.toBool = [true, false] ∧
    (World.start.run id id [.newMat (.lit [[1], [2]]) (.lit [0]) (.lit [0, 4]) none none, .onMat 0 .toLowerBin]).1.vals = [.mat ⟨[[1], [2]], [0], [0, 4], none, none⟩] := by
  decide +kernel

/-! ### `rebin` in place -/

theorem rebinVec_raise {h : Memory} {o : VObj} {mids : Option Ref1} {q : Option ℚ} (g : (AnyObj.vec o).good h.next) (hm : ∀ x ∈ mids, x.buf < h.next) {e : Err}
    (he : (VObj.rebin h o mids q).2.2 = .error e) : (VObj.rebin h o mids q).2.1 = o ∨ ¬(AnyObj.vec (VObj.rebin h o mids q).2.1).stdSame := by
  by_cases hs : (AnyObj.vec (VObj.rebin h o mids q).2.1).stdSame
  · left
    have ga := (rebinVec_good g hm q).1
    have key : ∀ (m : Memory) (p : VObj), (AnyObj.vec p).axes → (AnyObj.vec p).stdSame → (p.view m).verify = .ok () := by
      intro m p h1 h2
      have h3 := (axes_view m (.vec p)).mpr h1
      have h4 := (std_view m (.vec p)).mpr h2
      simp only [AnyObj.view, ObjVal.axesFit, ObjVal.stdFits] at h3 h4
      unfold Vec.verify
      rw [if_pos]
      unfold Vec.consistent
      cases hp : (p.view m).std with
      | none => simp [h3]
      | some t => simp [h3, h4 t hp]
    unfold VObj.rebin at he hs ga ⊢
    split
    · rfl
    · rename_i m em
      simp only [em] at he hs ga
      split
      · rfl
      · rename_i r er
        simp only [er] at he hs ga
        cases mids with
        | some a => exact absurd ((key _ _ ga hs).symm.trans he) (by simp)
        | none => exact absurd ((key _ _ ga hs).symm.trans he) (by simp)
  · exact .inr hs

theorem rebinOne_raise {h : Memory} {o : MObj} {isEx : Bool} {mids : Option Ref1} {q : Option ℚ} (g : (AnyObj.mat o).good h.next) (hm : ∀ x ∈ mids, x.buf < h.next) {e : Err}
    (he : (MObj.rebinOne h o isEx mids q).2.2 = .error e) : (MObj.rebinOne h o isEx mids q).2.1 = o ∨ ¬(AnyObj.mat (MObj.rebinOne h o isEx mids q).2.1).stdSame := by
  by_cases hs : (AnyObj.mat (MObj.rebinOne h o isEx mids q).2.1).stdSame
  · left
    have ga := (rebinOne_good g isEx hm q).1
    have key : ∀ (m : Memory) (p : MObj), (AnyObj.mat p).axes → (AnyObj.mat p).stdSame → (p.view m).verify = .ok () := by
      intro m p h1 h2
      have h3 := (axes_view m (.mat p)).mpr h1
      have h4 := (std_view m (.mat p)).mpr h2
      simp only [AnyObj.view, ObjVal.axesFit, ObjVal.stdFits] at h3 h4
      have sh : ∀ (w : List (List ℚ)), w.map List.length = (p.view m).values.map List.length → hasShape w (p.view m).Ex.length (p.view m).Eg.length = true := by
        intro w hw
        have := rows_of_lengths hw (p.view m).Eg.length
        unfold hasShape
        simp only [Bool.and_eq_true, beq_iff_eq, List.all_eq_true]
        exact ⟨by rw [this.1, h3.1], this.2.mpr h3.2⟩
      unfold Mat.verify
      rw [if_pos]
      unfold Mat.consistent
      rw [sh _ rfl]
      cases hp : (p.view m).std with
      | none => simp
      | some t => simp [sh t (h4 t hp)]
    unfold MObj.rebinOne at he hs ga ⊢
    split
    · rfl
    · rename_i m em
      simp only [em] at he hs ga
      split
      · rfl
      · rename_i r er
        simp only [er] at he hs ga
        exact absurd ((key _ _ ga hs).symm.trans he) (by simp)
  · exact .inr hs

/-- `rebin` of a vector in place: if it raises, nothing has changed or the standard deviations of the vector do not fit its values any more. -/
theorem C145_rebin_vec (ex rt : ℚ → ℚ) (cs : List PyCall) (k : ℕ) (mids : Option Arg) (q : Option ℚ) (e : Err)
    (he : ((World.start.run ex rt cs).1.step ex rt (.onVec k (.rebin mids q))).2 = .error e) :
    ((World.start.run ex rt cs).1.step ex rt (.onVec k (.rebin mids q))).1.vals = (World.start.run ex rt cs).1.vals ∨
      ∃ v, ((World.start.run ex rt cs).1.step ex rt (.onVec k (.rebin mids q))).1.vals[k]? = some (.vec v) ∧ ¬(ObjVal.vec v).stdFits := by
  have g := run_good start_good ex rt cs
  generalize (World.start.run ex rt cs).1 = s at g he ⊢
  simp only [World.step] at he ⊢
  split
  · rename_i o hk
    simp only [hk, World.vecCall] at he ⊢
    split
    · exact .inl rfl
    · rename_i h r ha
      simp only [ha, World.setVec] at he
      have t := argOpt_touched ha
      rcases rebinVec_raise (good_mono t.le (g _ (List.mem_of_getElem? hk))) (argOpt_used g ha) he with h1 | h1
      · left
        refine WorldSame.vals g ⟨?_, t.trans (rebinVec_touched _ _ _ _)⟩
        simp only [World.setVec, h1, set_self hk]
      · right
        refine ⟨(VObj.rebin h o r q).2.1.view (VObj.rebin h o r q).1, ?_, fun hf => h1 ((std_view _ (.vec _)).mp hf)⟩
        rw [World.vals_get]
        simp only [World.setVec]
        rw [List.getElem?_set_self (List.getElem?_eq_some_iff.mp hk).1]
        rfl
  · exact .inl rfl

/-- `rebin` of one axis of a matrix in place: if it raises, nothing has changed or the standard deviations of the matrix do not fit its values any more. -/
theorem C145_rebin_mat_partial (ex rt : ℚ → ℚ) (cs : List PyCall) (k ax : ℕ) (hax : ax ≠ 2) (mids : Option Arg) (q : Option ℚ) (e : Err)
    (he : ((World.start.run ex rt cs).1.step ex rt (.onMat k (.rebin ax mids q))).2 = .error e) :
    ((World.start.run ex rt cs).1.step ex rt (.onMat k (.rebin ax mids q))).1.vals = (World.start.run ex rt cs).1.vals ∨
      ∃ m, ((World.start.run ex rt cs).1.step ex rt (.onMat k (.rebin ax mids q))).1.vals[k]? = some (.mat m) ∧ ¬(ObjVal.mat m).stdFits := by
  have g := run_good start_good ex rt cs
  generalize (World.start.run ex rt cs).1 = s at g he ⊢
  simp only [World.step] at he ⊢
  split
  · rename_i o hk
    simp only [hk, World.matCall] at he ⊢
    split
    · exact .inl rfl
    · rename_i h r ha
      simp only [ha, World.setMat, MObj.rebin, if_neg hax] at he ⊢
      have t := argOpt_touched ha
      rcases rebinOne_raise (good_mono t.le (g _ (List.mem_of_getElem? hk))) (argOpt_used g ha) he with h1 | h1
      · left
        refine WorldSame.vals g ⟨?_, t.trans (rebinOne_touched _ _ _ _ _)⟩
        simp only [h1, set_self hk]
      · right
        refine ⟨(MObj.rebinOne h o (decide (ax ≠ 0)) r q).2.1.view (MObj.rebinOne h o (decide (ax ≠ 0)) r q).1, ?_, fun hf => h1 ((std_view _ (.mat _)).mp hf)⟩
        rw [World.vals_get]
        simp only
        rw [List.getElem?_set_self (List.getElem?_eq_some_iff.mp hk).1]
        rfl
  · exact .inl rfl

/-- `rebin` of both axes in place raises at the second axis, for a matrix with one excitation energy and no standard deviations: the first axis has been rebinned. -/
theorem C145_rebin_mat_fails :
    ∃ cs : List PyCall, (World.start.run id id cs).2.map Except.toBool = [true] ∧
      ((World.start.run id id cs).1.step id id (.onMat 0 (.rebin 2 none (some 2)))).2.toBool = false ∧
      (World.start.run id id cs).1.vals = [.mat ⟨[[1, 2, 3, 4]], [0, 1, 2, 3], [5], none, none⟩] ∧
      ((World.start.run id id cs).1.step id id (.onMat 0 (.rebin 2 none (some 2)))).1.vals = [.mat ⟨[[3, 7]], [0, 3], [5], none, none⟩] :=
  ⟨[.newMat (.lit [[1, 2, 3, 4]]) (.lit [0, 1, 2, 3]) (.lit [5]) none none], by decide +kernel⟩

/-- `rebin` of both axes in place: if it raises, nothing has changed, or the standard deviations of the matrix do not fit its values any more, or the matrix is as after `rebin` of the
gamma axis only. -/
theorem C145_rebin_both (ex rt : ℚ → ℚ) (cs : List PyCall) (k : ℕ) (mids : Option Arg) (q : Option ℚ) (e : Err)
    (he : ((World.start.run ex rt cs).1.step ex rt (.onMat k (.rebin 2 mids q))).2 = .error e) :
    ((World.start.run ex rt cs).1.step ex rt (.onMat k (.rebin 2 mids q))).1.vals = (World.start.run ex rt cs).1.vals ∨
      (∃ m, ((World.start.run ex rt cs).1.step ex rt (.onMat k (.rebin 2 mids q))).1.vals[k]? = some (.mat m) ∧ ¬(ObjVal.mat m).stdFits) ∨
      (((World.start.run ex rt cs).1.step ex rt (.onMat k (.rebin 0 mids q))).2 = .ok () ∧
        ((World.start.run ex rt cs).1.step ex rt (.onMat k (.rebin 2 mids q))).1.vals = ((World.start.run ex rt cs).1.step ex rt (.onMat k (.rebin 0 mids q))).1.vals) := by
  have g := run_good start_good ex rt cs
  generalize (World.start.run ex rt cs).1 = s at g he ⊢
  have g0 := worldStep_good g ex rt (.onMat k (.rebin 0 mids q))
  simp only [World.step] at he g0 ⊢
  split
  · rename_i o hk
    simp only [hk, World.matCall] at he g0 ⊢
    split
    · exact .inl rfl
    · rename_i h r ha
      simp only [ha, World.setMat, MObj.rebin] at he g0 ⊢
      simp only [↓reduceIte, ne_eq, not_true_eq_false, decide_false, OfNat.zero_ne_ofNat] at he g0 ⊢
      have t := argOpt_touched ha
      have go := good_mono t.le (g _ (List.mem_of_getElem? hk))
      have hm := argOpt_used g ha
      have hl := (List.getElem?_eq_some_iff.mp hk).1
      have t1 := rebinOne_touched h o false r q
      have r1 := @rebinOne_raise h o false r q go hm
      have g1 := rebinOne_good go false hm q
      rcases e1 : MObj.rebinOne h o false r q with ⟨h1, o1, x | x⟩
      · rw [e1] at r1 t1
        simp only
        rcases r1 rfl with h2 | h2
        · left
          refine WorldSame.vals g ⟨?_, t.trans t1⟩
          simp only at h2
          simp only [h2, set_self hk]
        · right
          left
          refine ⟨o1.view h1, ?_, fun hf => h2 ((std_view _ (.mat _)).mp hf)⟩
          rw [World.vals_get]
          simp only
          rw [List.getElem?_set_self hl]
          rfl
      · simp only [e1] at he g0 g1 t1 ⊢
        rcases rebinOne_raise g1 (fun x hx => lt_of_lt_of_le (hm x hx) t1.le) he with h2 | h2
        · right
          right
          refine ⟨trivial, WorldSame.vals g0 ⟨?_, rebinOne_touched _ _ _ _ _⟩⟩
          simp only [h2]
        · right
          left
          refine ⟨(MObj.rebinOne h1 o1 true r q).2.1.view (MObj.rebinOne h1 o1 true r q).1, ?_, fun hf => h2 ((std_view _ (.mat _)).mp hf)⟩
          rw [World.vals_get]
          simp only
          rw [List.getElem?_set_self hl]
          rfl
  · exact .inl rfl

/-- Both cases of `rebin` of one axis: the factor is not positive, and the standard deviations have four columns. -/
example :
    (World.start.run id id [.newMat (.lit [[1, 2, 3, 4]]) (.lit [0, 1, 2, 3]) (.lit [5]) (some (.lit [[1, 1, 1, 1]])) none, .onMat 0 (.rebin 0 none (some 0)),
      .onMat 0 (.rebin 0 none (some 2))]).2.map Except.toBool = [true, false, false] ∧
    (World.start.run id id [.newMat (.lit [[1, 2, 3, 4]]) (.lit [0, 1, 2, 3]) (.lit [5]) (some (.lit [[1, 1, 1, 1]])) none, .onMat 0 (.rebin 0 none (some 0)),
      .onMat 0 (.rebin 0 none (some 2))]).1.vals = [.mat ⟨[[3, 7]], [0, 3], [5], some [[1, 1, 1, 1]], none⟩] := by decide +kernel

end Ompy
