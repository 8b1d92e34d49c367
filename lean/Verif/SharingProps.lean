import Verif.SharingLemmas

/-!
# Which objects share arrays: programs

What is expected of a program (`runOwn`) and which calls are careful are defined in `Verif/SharingLemmas.lean`.
-/

namespace Ompy

/-! ### Programs -/

theorem step_own {s : World} (ha : s.apart) (ex rt : ℚ → ℚ) (c : PyCall) (hc : c.careful = true) :
    (s.step ex rt c).1.apart ∧ ((s.step ex rt c).1.vals, (s.step ex rt c).2) = stepOwn ex rt s.vals c := by
  cases c with
  | newVec values E std units =>
    unfold World.step stepOwn
    rcases arg_spec ha values with ⟨h1, rv, e1, t1, b1, v1, _⟩ | ⟨e, e1, v1⟩
    · have k1 := World.apart_keep ha t1
      have a2 := arg_spec k1.1 E
      rw [k1.2] at a2
      simp only [e1, v1]
      rcases a2 with ⟨h2, re, e2, t2, b2, v2, _⟩ | ⟨e, e2, v2⟩
      · have k2 := World.apart_keep ha (t1.trans t2)
        have a3 := argOpt_spec k2.1 std
        rw [k2.2] at a3
        simp only [e2, v2]
        rcases a3 with ⟨h3, rs, e3, t3, b3, v3, _⟩ | ⟨e, e3, v3⟩
        · simp only [e3, v3]
          have le2 := t2.le
          have q1 : h3.read1 rv = h1.read1 rv := by rw [t3.read1 rv (by simp only; simp only at le2; omega) (by simp), t2.read1 rv b1 (by simp)]
          have q2 : h3.read1 re = h2.read1 re := t3.read1 re b2 (by simp)
          rw [q1, q2]
          exact returnVec_add ha (t1.trans (t2.trans t3)) _
        · simp only [e3, v3]
          exact ⟨ha, trivial⟩
      · simp only [e2, v2]
        exact ⟨ha, trivial⟩
    · simp only [e1, v1]
      exact ⟨ha, trivial⟩
  | newMat values Eg Ex std state =>
    unfold World.step stepOwn
    rcases arg2_spec ha values with ⟨h1, rv, e1, t1, b1, v1, _⟩ | ⟨e, e1, v1⟩
    · have k1 := World.apart_keep ha t1
      have a2 := arg_spec k1.1 Eg
      rw [k1.2] at a2
      simp only [e1, v1]
      rcases a2 with ⟨h2, rg, e2, t2, b2, v2, _⟩ | ⟨e, e2, v2⟩
      · have k2 := World.apart_keep ha (t1.trans t2)
        have a3 := arg_spec k2.1 Ex
        rw [k2.2] at a3
        simp only [e2, v2]
        rcases a3 with ⟨h3, rx, e3, t3, b3, v3, _⟩ | ⟨e, e3, v3⟩
        · have k3 := World.apart_keep ha (t1.trans (t2.trans t3))
          have a4 := argOpt2_spec k3.1 std
          rw [k3.2] at a4
          simp only [e3, v3]
          rcases a4 with ⟨h4, rs, e4, t4, b4, v4, w4⟩ | ⟨e, e4, v4⟩
          · simp only [e4, v4]
            have w := w4 hc
            have le1 := t1.le
            have le2 := t2.le
            have le3 := t3.le
            have le4 := t4.le
            simp only at le2 le3 le4
            have q1 : h4.read2 rv = h1.read2 rv := by
              rw [t4.read2 rv (by simp only; omega) (by simp), t3.read2 rv (by simp only; omega) (by simp), t2.read2 rv b1 (by simp)]
            have q2 : h4.read1 rg = h2.read1 rg := by rw [t4.read1 rg (by simp only; omega) (by simp), t3.read1 rg b2 (by simp)]
            have q3 : h4.read1 rx = h3.read1 rx := t4.read1 rx b3 (by simp)
            rw [q1, q2, q3]
            obtain ⟨fr, vw⟩ := MObj.make_fresh h4 ⟨h1.read2 rv, h2.read1 rg, h3.read1 rx, none, state⟩
            generalize MObj.make h4 ⟨h1.read2 rv, h2.read1 rg, h3.read1 rx, none, state⟩ = a at *
            obtain ⟨h5, n⟩ := a
            simp only at fr vw ⊢
            have tt : Touched s.mem h4 [] := t1.trans (t2.trans (t3.trans t4))
            have hn : n.std = none := by
              have := congrArg Mat.std vw
              simpa [MObj.view] using this
            have vn : MObj.view h5 { n with std := rs } = ⟨h1.read2 rv, h2.read1 rg, h3.read1 rx, rs.map h4.read2, state⟩ := by
              have x1 := congrArg Mat.values vw
              have x2 := congrArg Mat.Eg vw
              have x3 := congrArg Mat.Ex vw
              have x4 := congrArg Mat.state vw
              simp only [MObj.view] at x1 x2 x3 x4
              simp only [MObj.view, x1, x2, x3, x4, Mat.mk.injEq, true_and, and_true]
              cases rs with
              | none => rfl
              | some r => simp [fr.touched.read2 r (w r rfl).2.1 (by simp)]
            have frn : Fresh h3 h5 (.mat { n with std := rs }) := by
              have us := fr.fine.used
              have sp := fr.fine.separate
              have ow := fr.own
              have le5 := fr.touched.le
              obtain ⟨n1, n2, n3, n4⟩ := fr.fine.simple
              obtain ⟨nv, ng, nx, ns, nst⟩ := n
              simp only at hn
              subst hn
              cases rs with
              | none =>
                exact ⟨t4.trans fr.touched, fr.fine, fun b hb => le_trans le4 (fr.own b hb)⟩
              | some r =>
                have wr := w r rfl
                simp only at wr
                simp [AnyObj.bufs] at us sp ow
                refine ⟨t4.trans fr.touched, ⟨?_, ?_, n1, n2, n3, by simpa using wr.2.2⟩, ?_⟩
                · simp [AnyObj.bufs]; omega
                · simp [AnyObj.bufs]; omega
                · simp [AnyObj.bufs]; omega
            rw [vn]
            unfold Mat.new
            simp only [Option.getD_some]
            by_cases hcon : (⟨h1.read2 rv, h2.read1 rg, h3.read1 rx, rs.map h4.read2, state⟩ : Mat).consistent = true
            · simp only [hcon, if_true]
              have ad := World.apart_add ha (frn.after (t1.trans (t2.trans t3)))
              refine ⟨ad.1, ?_⟩
              simp only [ad.2, moreMat, AnyObj.view, vn]
            · simp only [hcon]
              have kp := World.apart_keep ha (tt.trans fr.touched)
              exact ⟨kp.1, by simp [moreMat, kp.2]⟩
          · simp only [e4, v4]
            exact ⟨ha, trivial⟩
        · simp only [e3, v3]
          exact ⟨ha, trivial⟩
      · simp only [e2, v2]
        exact ⟨ha, trivial⟩
    · simp only [e1, v1]
      exact ⟨ha, trivial⟩
  | onVec k c =>
    simp only [World.step, stepOwn, World.vals_get]
    cases hk : s.objs[k]? with
    | none => exact ⟨ha, rfl⟩
    | some p =>
      cases p with
      | vec o => exact vec_call ha hk ex rt c hc
      | mat o => exact ⟨ha, rfl⟩
  | onMat k c =>
    simp only [World.step, stepOwn, World.vals_get]
    cases hk : s.objs[k]? with
    | none => exact ⟨ha, rfl⟩
    | some p =>
      cases p with
      | mat o => exact mat_call ha hk c hc
      | vec o => exact ⟨ha, rfl⟩

theorem start_apart : World.start.apart := ⟨by simp [World.start], by simp [World.start]⟩

/-- Whatever objects a program starts with, as long as they have separate arrays: if its calls are careful, the objects have separate arrays at the end, and the numbers of all
objects and the outcomes of all calls are those of a program in which every object has its own numbers. -/
theorem C136_own_numbers_partial (ex rt : ℚ → ℚ) (s : World) (ha : s.apart) (cs : List PyCall) (hc : ∀ c ∈ cs, c.careful = true) :
    (s.run ex rt cs).1.apart ∧ (s.run ex rt cs).1.vals = (runOwn ex rt s.vals cs).1 ∧ (s.run ex rt cs).2 = (runOwn ex rt s.vals cs).2 := by
  induction cs generalizing s with
  | nil => exact ⟨ha, rfl, rfl⟩
  | cons c cs ih =>
    have st := step_own ha ex rt c (hc c (by simp))
    have e1 : (s.step ex rt c).1.vals = (stepOwn ex rt s.vals c).1 := congrArg Prod.fst st.2
    have e2 : (s.step ex rt c).2 = (stepOwn ex rt s.vals c).2 := congrArg Prod.snd st.2
    have := ih (s.step ex rt c).1 st.1 (fun d hd => hc d (by simp [hd]))
    rw [e1] at this
    simp only [World.run, runOwn, e2]
    exact ⟨this.1, this.2.1, by rw [this.2.2]⟩

/-- The program of the next theorems: two vectors on different energies. -/
def twoVectors : List PyCall :=
  [.newVec (.lit [1, 2]) (.lit [0, 1]) none "keV", .newVec (.lit [5, 6]) (.lit [1, 3]) none "keV"]

/-- A matrix. -/
def oneMatrix : List PyCall := [.newMat (.lit [[1, 2], [3, 4]]) (.lit [0, 2]) (.lit [0, 4]) none none]

/-- A careful program with views, writes and copies. -/
def carefulSample : List PyCall :=
  twoVectors ++ oneMatrix ++
    [.onVec 0 (.cut (some 1) none), .onVec 0 .copy, .onVec 0 .toMeV, .onVec 1 (.rebin (some (.lit [0, 4])) none), .onVec 3 (.rebinCopy (some (.vecE 0)) none),
      .onMat 2 (.rebin 1 (some (.lit [0, 2])) none), .onMat 2 .toLowerBin, .onMat 2 (.fill 1 1 5), .onMat 2 (.cut 7 none none true true)]

example : ∀ c ∈ carefulSample, c.careful = true := by decide +kernel

example : (World.start.run id id carefulSample).1.vals = (runOwn id id [] carefulSample).1 :=
  (C136_own_numbers_partial id id World.start start_apart carefulSample (by decide +kernel)).2.1

example : (World.start.run id id (twoVectors ++ [.onVec 0 (.cut (some 1) none), .onVec 0 .copy, .onVec 0 .toMeV])).1.vals =
    [.vec ⟨[1 / 1000], [2], none, "MeV"⟩, .vec ⟨[1, 3], [5, 6], none, "keV"⟩, .vec ⟨[1], [2], none, "keV"⟩] := by decide +kernel

/-! ### Other programs -/

/-- Not for all programs: `a.rebin(mids=b.E)` and then `b.to_MeV()` changes the energies of `a`. -/
theorem C136_own_numbers_fails :
    ¬ ∀ (ex rt : ℚ → ℚ) (s : World), s.apart → ∀ cs : List PyCall, (s.run ex rt cs).1.vals = (runOwn ex rt s.vals cs).1 := by
  intro h
  have := h id id World.start start_apart (twoVectors ++ [.onVec 0 (.rebin (some (.vecE 1)) none), .onVec 1 .toMeV])
  revert this
  decide +kernel

/-- Each kind of call that is not careful can do it: `rebin` and `closest` of a vector, `rebin` of one axis and of both axes of a matrix in place, `rebin` of both axes that
returns a new matrix, and a new matrix with the `values` of another as `std`. -/
theorem C136_each_kind_fails :
    (World.start.run id id (twoVectors ++ [.onVec 0 (.rebin (some (.vecE 1)) none), .onVec 0 .toMeV])).1.vals[1]? = some (.vec ⟨[1 / 1000, 3 / 1000], [5, 6], none, "keV"⟩) ∧
    (World.start.run id id (twoVectors ++ [.onVec 0 (.closest (.vecE 1) true), .onVec 0 .toMeV])).1.vals[1]? = some (.vec ⟨[1 / 1000, 3 / 1000], [5, 6], none, "keV"⟩) ∧
    (World.start.run id id (oneMatrix ++ [.onMat 0 (.rebin 1 (some (.matEg 0)) none), .onMat 0 .toLowerBin])).1.vals.map (fun v => match v with
      | .mat m => (m.Eg, m.Ex)
      | .vec v => (v.E, v.values)) = [([-2, 0], [-2, 0])] ∧
    (World.start.run id id (oneMatrix ++ [.onMat 0 (.rebin 2 (some (.lit [0, 2])) none), .onMat 0 .toLowerBin])).1.vals.map (fun v => match v with
      | .mat m => (m.Eg, m.Ex)
      | .vec v => (v.E, v.values)) = [([-2, 0], [-2, 0])] ∧
    (World.start.run id id (oneMatrix ++ [.onMat 0 (.rebinCopy 2 (some (.matEg 0)) none), .onMat 0 .toLowerBin])).1.vals.map (fun v => match v with
      | .mat m => (m.Eg, m.Ex)
      | .vec v => (v.E, v.values)) = [([-1, 1], [-2, 2]), ([0, 2], [-1, 1])] ∧
    (World.start.run id id (oneMatrix ++ [.newMat (.lit [[1, 1], [1, 1]]) (.matEg 0) (.matEx 0) (some (.matValues 0)) none, .onMat 0 (.fill 0 0 10)])).1.vals[1]? =
      some (.mat ⟨[[1, 1], [1, 1]], [0, 2], [0, 4], some [[11, 2], [3, 4]], none⟩) := by
  decide +kernel

/-! ### What a call can reach -/

/-- The object a call may write to: none for constructors and for methods that return something. -/
def PyCall.written : PyCall → Option ℕ
  | .newVec .. => none
  | .newMat .. => none
  | .onVec _ (.cutCopy ..) => none
  | .onVec _ (.rebinCopy ..) => none
  | .onVec _ (.closestCopy ..) => none
  | .onVec _ (.transformCopy ..) => none
  | .onVec _ (.cumulativeCopy ..) => none
  | .onVec _ .copy => none
  | .onVec k _ => some k
  | .onMat _ (.cutCopy ..) => none
  | .onMat _ (.rebinCopy ..) => none
  | .onMat _ .copy => none
  | .onMat k _ => some k

theorem arg_touched {s : World} {a : Arg} {h : Memory} {r : Ref1} (e : s.arg a = .ok (h, r)) : Touched s.mem h [] := by
  cases a with
  | lit d =>
    cases e
    exact touched_new1 _ _
  | vecE k =>
    simp only [World.arg] at e
    split at e
    · cases e
      exact Touched.refl _ _
    · cases e
  | vecValues k =>
    simp only [World.arg] at e
    split at e
    · cases e
      exact Touched.refl _ _
    · cases e
  | matEg k =>
    simp only [World.arg] at e
    split at e
    · cases e
      exact Touched.refl _ _
    · cases e
  | matEx k =>
    simp only [World.arg] at e
    split at e
    · cases e
      exact Touched.refl _ _
    · cases e

theorem argOpt_touched {s : World} {a : Option Arg} {h : Memory} {r : Option Ref1} (e : s.argOpt a = .ok (h, r)) : Touched s.mem h [] := by
  cases a with
  | none =>
    cases e
    exact Touched.refl _ _
  | some a =>
    simp only [World.argOpt] at e
    split at e
    · rename_i h' r' he
      cases e
      exact arg_touched he
    · cases e

theorem arg2_touched {s : World} {a : Arg2} {h : Memory} {r : Ref2} (e : s.arg2 a = .ok (h, r)) : Touched s.mem h [] := by
  cases a with
  | lit d =>
    cases e
    exact touched_new2 _ _
  | matValues k =>
    simp only [World.arg2] at e
    split at e
    · cases e
      exact Touched.refl _ _
    · cases e
  | matStd k =>
    simp only [World.arg2] at e
    split at e
    · cases e
      exact Touched.refl _ _
    · cases e

theorem argOpt2_touched {s : World} {a : Option Arg2} {h : Memory} {r : Option Ref2} (e : s.argOpt2 a = .ok (h, r)) : Touched s.mem h [] := by
  cases a with
  | none =>
    cases e
    exact Touched.refl _ _
  | some a =>
    simp only [World.argOpt2] at e
    split at e
    · rename_i h' r' he
      cases e
      exact arg2_touched he
    · cases e

theorem rebinVec_touched (h : Memory) (o : VObj) (mids : Option Ref1) (q : Option ℚ) : Touched h (VObj.rebin h o mids q).1 [] := by
  unfold VObj.rebin
  split
  · exact Touched.refl _ _
  · split
    · exact Touched.refl _ _
    · cases mids with
      | some a => exact touched_new1 _ _
      | none => exact (touched_new1 _ _).trans (touched_new1 _ _)

theorem rebinOne_touched (h : Memory) (o : MObj) (isEx : Bool) (mids : Option Ref1) (q : Option ℚ) : Touched h (MObj.rebinOne h o isEx mids q).1 [] := by
  unfold MObj.rebinOne
  split
  · exact Touched.refl _ _
  · split
    · exact Touched.refl _ _
    · cases mids with
      | none => exact (touched_new2 _ _).trans (touched_new1 _ _)
      | some a => exact touched_new2 _ _

theorem rebinMat_touched (h : Memory) (o : MObj) (ax : ℕ) (mids : Option Ref1) (q : Option ℚ) : Touched h (MObj.rebin h o ax mids q).1 [] := by
  unfold MObj.rebin
  split
  · have t := rebinOne_touched h o false mids q
    split
    · rename_i e
      rw [e] at t
      exact t
    · rename_i e
      rw [e] at t
      exact t.trans (rebinOne_touched _ _ _ _ _)
  · exact rebinOne_touched _ _ _ _ _

theorem makeVec_touched (h : Memory) (v : Vec ℚ) : Touched h (VObj.make h v).1 [] := (VObj.make_fresh h v).1.touched

theorem makeMat_touched (h : Memory) (m : Mat) : Touched h (MObj.make h m).1 [] := (MObj.make_fresh h m).1.touched

theorem rebinCopy_touched (h : Memory) (o : MObj) (ax : ℕ) (mids : Option Ref1) (q : Option ℚ) : Touched h (MObj.rebinCopy h o ax mids q).1 [] := by
  unfold MObj.rebinCopy
  split
  · split
    · exact Touched.refl _ _
    · rename_i m _
      simp only
      have t := rebinOne_touched (MObj.make h m).1 (MObj.make h m).2 true mids q
      have u := makeMat_touched h m
      split
      · rename_i e
        rw [e] at t
        exact u.trans t
      · rename_i e
        rw [e] at t
        exact u.trans t
  · unfold returnMat
    split
    · exact Touched.refl _ _
    · exact makeMat_touched _ _

theorem returnVec_touched (h : Memory) (r : Except Err (Vec ℚ)) : Touched h (returnVec h r).1 [] := by
  unfold returnVec
  split
  · exact Touched.refl _ _
  · exact makeVec_touched _ _

theorem returnMat_touched (h : Memory) (r : Except Err Mat) : Touched h (returnMat h r).1 [] := by
  unfold returnMat
  split
  · exact Touched.refl _ _
  · exact makeMat_touched _ _

/-- What a call may do: write to the arrays of object `k` and replace it, or write to no array and add an object. -/
def Reach (s s' : World) (w : Option ℕ) : Prop :=
  (Touched s.mem s'.mem [] ∧ ∃ l, s'.objs = s.objs ++ l) ∨
    ∃ k o o', w = some k ∧ s.objs[k]? = some o ∧ Touched s.mem s'.mem o.bufs ∧ s'.objs = s.objs.set k o'

theorem reaches_addVec {s : World} (r : Memory × Except Err (Option VObj)) (t : Touched s.mem r.1 []) (w : Option ℕ) : Reach s (s.addVec r).1 w := by
  obtain ⟨h, r⟩ := r
  rcases r with e | (_ | o)
  · exact .inl ⟨t, [], by simp [World.addVec]⟩
  · exact .inl ⟨t, [], by simp [World.addVec]⟩
  · exact .inl ⟨t, [.vec o], by simp [World.addVec]⟩

theorem reaches_addMat {s : World} (r : Memory × Except Err (Option MObj)) (t : Touched s.mem r.1 []) (w : Option ℕ) : Reach s (s.addMat r).1 w := by
  obtain ⟨h, r⟩ := r
  rcases r with e | (_ | o)
  · exact .inl ⟨t, [], by simp [World.addMat]⟩
  · exact .inl ⟨t, [], by simp [World.addMat]⟩
  · exact .inl ⟨t, [.mat o], by simp [World.addMat]⟩

theorem reaches_same (s : World) (w : Option ℕ) : Reach s s w := .inl ⟨Touched.refl _ _, [], by simp⟩

theorem reaches_setVec {s : World} {k : ℕ} {o : VObj} (hk : s.objs[k]? = some (.vec o)) (r : Memory × VObj × Except Err Unit)
    (t : Touched s.mem r.1 (AnyObj.vec o).bufs) : Reach s (s.setVec k r).1 (some k) := .inr ⟨k, _, _, rfl, hk, t, rfl⟩

theorem reaches_setMat {s : World} {k : ℕ} {o : MObj} (hk : s.objs[k]? = some (.mat o)) (r : Memory × MObj × Except Err Unit)
    (t : Touched s.mem r.1 (AnyObj.mat o).bufs) : Reach s (s.setMat k r).1 (some k) := .inr ⟨k, _, _, rfl, hk, t, rfl⟩

theorem reaches_vec {s : World} {k : ℕ} {o : VObj} (hk : s.objs[k]? = some (.vec o)) (ex rt : ℚ → ℚ) (c : VCall) :
    Reach s (s.vecCall ex rt k o c).1 (PyCall.onVec k c).written := by
  cases c with
  | cut a b => exact reaches_setVec hk _ (Touched.refl _ _)
  | cutCopy a b => exact reaches_addVec _ (returnVec_touched _ _) _
  | rebin mids q =>
    simp only [World.vecCall]
    split
    · exact reaches_same _ _
    · rename_i h r he
      exact reaches_setVec hk _ (((argOpt_touched he).trans (rebinVec_touched _ _ _ _)).mono (by simp))
  | rebinCopy mids q =>
    simp only [World.vecCall]
    split
    · exact reaches_same _ _
    · rename_i h r he
      exact reaches_addVec _ ((argOpt_touched he).trans (returnVec_touched _ _)) _
  | toMeV =>
    refine reaches_setVec hk _ ?_
    unfold VObj.toMeV
    split
    · exact Touched.refl _ _
    · split
      · exact (touched_put _ _ _).mono (by simp [AnyObj.bufs])
      · exact Touched.refl _ _
  | toKeV =>
    refine reaches_setVec hk _ ?_
    unfold VObj.toKeV
    split
    · exact Touched.refl _ _
    · split
      · exact (touched_put _ _ _).mono (by simp [AnyObj.bufs])
      · exact Touched.refl _ _
  | closest a right =>
    simp only [World.vecCall]
    split
    · exact reaches_same _ _
    · rename_i h r he
      refine reaches_setVec hk _ (Touched.mono (bs := []) ?_ (by simp))
      unfold VObj.closest
      split
      · exact arg_touched he
      · exact (arg_touched he).trans ((touched_new1 _ _).trans (touched_newOpt1 _ _))
  | closestCopy a right =>
    simp only [World.vecCall]
    split
    · exact reaches_same _ _
    · rename_i h r he
      exact reaches_addVec _ ((arg_touched he).trans (returnVec_touched _ _)) _
  | transform c a => exact reaches_setVec hk _ (((touched_new1 _ _).trans (touched_newOpt1 _ _)).mono (by simp))
  | transformCopy c a => exact reaches_addVec _ (returnVec_touched _ _) _
  | cumulative q =>
    refine reaches_setVec hk _ (Touched.mono (bs := []) ?_ (by simp))
    unfold VObj.renew
    split
    · exact Touched.refl _ _
    · exact (touched_new1 _ _).trans (touched_newOpt1 _ _)
  | cumulativeCopy q => exact reaches_addVec _ (returnVec_touched _ _) _
  | setItem j x =>
    refine reaches_setVec hk _ ?_
    unfold VObj.setItem
    split
    · exact (touched_put _ _ _).mono (by simp [AnyObj.bufs])
    · exact Touched.refl _ _
  | copy => exact reaches_addVec _ (returnVec_touched _ _) _

theorem write_touched (h : Memory) (o : MObj) (r : Except Err (List (List ℚ))) : Touched h (MObj.write h o r).1 (AnyObj.mat o).bufs := by
  unfold MObj.write
  split
  · exact Touched.refl _ _
  · exact (touched_put _ _ _).mono (by simp [AnyObj.bufs])

theorem shift_touched (h : Memory) (o : MObj) (sign : ℚ) : Touched h (MObj.shiftBins h o sign).1 (AnyObj.mat o).bufs := by
  unfold MObj.shiftBins
  split
  · exact ((touched_put _ _ _).mono (by simp [AnyObj.bufs])).trans ((touched_put _ _ _).mono (by simp [AnyObj.bufs]))
  · exact Touched.refl _ _
  · exact Touched.refl _ _

theorem reaches_mat {s : World} {k : ℕ} {o : MObj} (hk : s.objs[k]? = some (.mat o)) (c : MCall) :
    Reach s (s.matCall k o c).1 (PyCall.onMat k c).written := by
  cases c with
  | cut ax a b i j => exact reaches_setMat hk _ (Touched.refl _ _)
  | cutCopy ax a b i j => exact reaches_addMat _ (returnMat_touched _ _) _
  | rebin ax mids q =>
    simp only [World.matCall]
    split
    · exact reaches_same _ _
    · rename_i h r he
      exact reaches_setMat hk _ (((argOpt_touched he).trans (rebinMat_touched _ _ _ _ _)).mono (by simp))
  | rebinCopy ax mids q =>
    simp only [World.matCall]
    split
    · exact reaches_same _ _
    · rename_i h r he
      exact reaches_addMat _ ((argOpt_touched he).trans (rebinCopy_touched _ _ _ _ _)) _
  | fill eg ex q => exact reaches_setMat hk _ (write_touched _ _ _)
  | cutDiagonal p q => exact reaches_setMat hk _ (write_touched _ _ _)
  | removeNegative => exact reaches_setMat hk _ ((touched_new2 _ _).mono (by simp))
  | toLowerBin => exact reaches_setMat hk _ (shift_touched _ _ _)
  | toMidBin => exact reaches_setMat hk _ (shift_touched _ _ _)
  | trapezoid a b c d =>
    refine reaches_setMat hk _ (Touched.mono (bs := []) ?_ (by simp))
    unfold MObj.trapezoid
    split
    · exact Touched.refl _ _
    · exact (touched_new2 _ _).trans ((touched_new1 _ _).trans (touched_new1 _ _))
  | copy =>
    refine reaches_addMat _ ?_ _
    unfold MObj.copy
    simp only
    split
    · exact makeMat_touched _ _
    · exact makeMat_touched _ _

theorem reaches_step (s : World) (ex rt : ℚ → ℚ) (c : PyCall) : Reach s (s.step ex rt c).1 c.written := by
  cases c with
  | newVec values E std units =>
    simp only [World.step]
    split
    · exact reaches_same _ _
    · rename_i h1 rv e1
      split
      · exact reaches_same _ _
      · rename_i h2 re e2
        split
        · exact reaches_same _ _
        · rename_i h3 rs e3
          have t1 := arg_touched e1
          have t2 := arg_touched e2
          have t3 := argOpt_touched e3
          exact reaches_addVec _ (t1.trans (t2.trans (t3.trans (returnVec_touched _ _)))) _
  | newMat values Eg Ex std state =>
    simp only [World.step]
    split
    · exact reaches_same _ _
    · rename_i h1 rv e1
      split
      · exact reaches_same _ _
      · rename_i h2 rg e2
        split
        · exact reaches_same _ _
        · rename_i h3 rx e3
          split
          · exact reaches_same _ _
          · rename_i h4 rs e4
            have t := (arg2_touched e1).trans ((arg_touched e2).trans ((arg_touched e3).trans ((argOpt2_touched e4).trans
              (makeMat_touched h4 ⟨h4.read2 rv, h4.read1 rg, h4.read1 rx, none, state⟩))))
            split
            · exact .inl ⟨t, _, rfl⟩
            · exact .inl ⟨t, [], by simp⟩
  | onVec k c =>
    simp only [World.step]
    split
    · rename_i o hk
      exact reaches_vec hk ex rt c
    · exact reaches_same _ _
  | onMat k c =>
    simp only [World.step]
    split
    · rename_i o hk
      exact reaches_mat hk c
    · exact reaches_same _ _

/-- Whatever arrays objects share: a call changes no object that has no array in common with the object it writes to.  Constructors and methods that return something change no
object at all. -/
theorem C136_frame (ex rt : ℚ → ℚ) (s : World) (c : PyCall) (j : ℕ) (p : AnyObj) (hp : s.objs[j]? = some p) (hu : ∀ b ∈ p.bufs, b < s.mem.next)
    (hd : ∀ k o, c.written = some k → s.objs[k]? = some o → k ≠ j ∧ ∀ b ∈ p.bufs, b ∉ o.bufs) :
    (s.step ex rt c).1.objs[j]? = some p ∧ p.view (s.step ex rt c).1.mem = p.view s.mem ∧ (s.step ex rt c).1.vals[j]? = s.vals[j]? := by
  have key : (s.step ex rt c).1.objs[j]? = some p ∧ p.view (s.step ex rt c).1.mem = p.view s.mem := by
    rcases reaches_step s ex rt c with ⟨t, l, hl⟩ | ⟨k, o, o', hw, hk, t, hs⟩
    · refine ⟨?_, t.view p hu (by simp)⟩
      rw [hl, List.getElem?_append_left (List.getElem?_eq_some_iff.mp hp).1, hp]
    · have h1 := hd k o hw hk
      refine ⟨?_, t.view p hu h1.2⟩
      rw [hs, List.getElem?_set_ne h1.1, hp]
  refine ⟨key.1, key.2, ?_⟩
  rw [World.vals_get, World.vals_get, key.1, hp]
  simp [key.2]

/-- After `twoVectors` and a cut of the first vector: the second has no array in common with it. -/
example : (World.start.run id id (twoVectors ++ [.onVec 0 (.cut (some 1) none)])).1.objs.map AnyObj.bufs = [[3, 2], [7, 6]] := by decide +kernel

/-- `a.rebin(mids=b.E)`, then `b.to_MeV()`: the energies of `a` are divided by 1000, but its units stay. -/
theorem C136_rebin_shares (ex rt : ℚ → ℚ) (s : World) (ha : s.apart) (k j : ℕ) (hkj : k ≠ j) (v w : Vec ℚ) (hv : s.vals[k]? = some (.vec v))
    (hw : s.vals[j]? = some (.vec w)) (hu : w.units = "keV") (hok : (s.step ex rt (.onVec k (.rebin (some (.vecE j)) none))).2 = .ok ()) :
    ∃ v', ((s.step ex rt (.onVec k (.rebin (some (.vecE j)) none))).1.step ex rt (.onVec j .toMeV)).1.vals[k]? = some (.vec v') ∧
      v'.E = w.E.map (· / 1000) ∧ v'.units = v.units := by
  rw [World.vals_get] at hv hw
  cases hko : s.objs[k]? with
  | none => simp [hko] at hv
  | some p =>
    cases hjo : s.objs[j]? with
    | none => simp [hjo] at hw
    | some q =>
      cases p with
      | mat o => simp [hko, AnyObj.view] at hv
      | vec o =>
        cases q with
        | mat o => simp [hjo, AnyObj.view] at hw
        | vec a =>
          simp only [hko, Option.map_some, AnyObj.view, Option.some.injEq, ObjVal.vec.injEq] at hv
          simp only [hjo, Option.map_some, AnyObj.view, Option.some.injEq, ObjVal.vec.injEq] at hw
          subst hv hw
          have fa := ha.fine j _ hjo
          have hal := fa.used a.E.buf (by simp [AnyObj.bufs])
          have hkl : k < s.objs.length := (List.getElem?_eq_some_iff.mp hko).1
          simp only [World.step, hko, World.vecCall, World.argOpt, World.arg, hjo] at hok ⊢
          have key : ∃ h1 rv, VObj.rebin s.mem o (some a.E) none = (h1, { o with values := rv, E := a.E }, (VObj.rebin s.mem o (some a.E) none).2.2) ∧ Touched s.mem h1 [] := by
            have hok' : (VObj.rebin s.mem o (some a.E) none).2.2 = .ok () := hok
            unfold VObj.rebin at hok' ⊢
            simp only [Option.map_some, rebinMids] at hok' ⊢
            split
            · rename_i e he
              rw [he] at hok'
              cases hok'
            · exact ⟨_, _, rfl, touched_new1 _ _⟩
          obtain ⟨h1, rv, he, t1⟩ := key
          rw [he]
          simp only [World.setVec]
          rw [List.getElem?_set_ne hkj, hjo]
          simp only
          have eu : a.units = "keV" := hu
          have r1 : h1.read1 a.E = s.mem.read1 a.E := t1.read1 _ hal (by simp)
          have nd := fa.simple.1
          refine ⟨VObj.view (h1.store1 a.E ((h1.read1 a.E).map (· / 1000))) { o with values := rv, E := a.E }, ?_, ?_, ?_⟩
          · rw [World.vals_get]
            rw [List.getElem?_set_ne hkj.symm, List.getElem?_set_self hkl]
            simp [VObj.toMeV, eu, AnyObj.view]
          · simp only [VObj.view]
            rw [read1_store1 _ _ _ nd (by simp [read1_length]), r1]
          · rfl

example : ∃ v', (((World.start.run id id twoVectors).1.step id id (.onVec 0 (.rebin (some (.vecE 1)) none))).1.step id id (.onVec 1 .toMeV)).1.vals[0]? = some (.vec v') ∧
      v'.E = [1, 3].map (· / 1000) ∧ v'.units = "keV" :=
  C136_rebin_shares id id _ (C136_own_numbers_partial id id World.start start_apart twoVectors (by decide +kernel)).1 0 1 (by decide) ⟨[0, 1], [1, 2], none, "keV"⟩
    ⟨[1, 3], [5, 6], none, "keV"⟩ (by decide +kernel) (by decide +kernel) rfl (by decide +kernel)

/-- `m.rebin('Ex', mids=m.Eg)` makes both axes one array; `to_lower_bin` then moves them by a whole bin. -/
theorem C136_one_axis (ex rt : ℚ → ℚ) (s : World) (ha : s.apart) (k : ℕ) (m : Mat) (hm : s.vals[k]? = some (.mat m)) (d : ℚ) (hd : halfBin m.Eg = .ok d)
    (hok : (s.step ex rt (.onMat k (.rebin 1 (some (.matEg k)) none))).2 = .ok ()) :
    ∃ m', ((s.step ex rt (.onMat k (.rebin 1 (some (.matEg k)) none))).1.step ex rt (.onMat k .toLowerBin)).1.vals[k]? = some (.mat m') ∧
      m'.Eg = m.Eg.map (· - 2 * d) ∧ m'.Ex = m.Eg.map (· - 2 * d) := by
  rw [World.vals_get] at hm
  cases hko : s.objs[k]? with
  | none => simp [hko] at hm
  | some p =>
    cases p with
    | vec o => simp [hko, AnyObj.view] at hm
    | mat o =>
      simp only [hko, Option.map_some, AnyObj.view, Option.some.injEq, ObjVal.mat.injEq] at hm
      subst hm
      have f := ha.fine k _ hko
      have hal := f.used o.Eg.buf (by simp [AnyObj.bufs])
      have hkl : k < s.objs.length := (List.getElem?_eq_some_iff.mp hko).1
      simp only [World.step, hko, World.matCall, World.argOpt, World.arg] at hok ⊢
      have key : ∃ h1 rv, MObj.rebin s.mem o 1 (some o.Eg) none = (h1, { o with values := rv, Ex := o.Eg }, (MObj.rebin s.mem o 1 (some o.Eg) none).2.2) ∧ Touched s.mem h1 [] := by
        have hok' : (MObj.rebin s.mem o 1 (some o.Eg) none).2.2 = .ok () := hok
        simp only [MObj.rebin, MObj.rebinOne, Option.map_some, rebinMids, newAxis, ne_eq, Nat.reduceEqDiff, if_false, if_true, one_ne_zero, not_false_eq_true, decide_true] at hok' ⊢
        split
        · rename_i e he
          rw [he] at hok'
          cases hok'
        · exact ⟨_, _, rfl, touched_new2 _ _⟩
      obtain ⟨h1, rv, he, t1⟩ := key
      rw [he]
      simp only [World.setMat]
      rw [List.getElem?_set_self hkl]
      simp only
      have r1 : h1.read1 o.Eg = s.mem.read1 o.Eg := t1.read1 _ hal (by simp)
      have nd := f.simple.2.1
      have hd' : halfBin (s.mem.read1 o.Eg) = .ok d := hd
      have h2 : ∀ q : Memory, q.read1 o.Eg = s.mem.read1 o.Eg → ((q.store1 o.Eg ((q.read1 o.Eg).map (· + -1 * d))).store1 o.Eg
          (((q.store1 o.Eg ((q.read1 o.Eg).map (· + -1 * d))).read1 o.Eg).map (· + -1 * d))).read1 o.Eg = (s.mem.read1 o.Eg).map (· - 2 * d) := by
        intro q hq
        rw [read1_store1 _ _ _ nd (by simp [read1_length]), read1_store1 _ _ _ nd (by simp [read1_length]), hq, List.map_map]
        apply List.map_congr_left
        intro x _
        simp only [Function.comp]
        ring
      have h3 := h2 h1 r1
      refine ⟨MObj.view ((h1.store1 o.Eg ((h1.read1 o.Eg).map (· + -1 * d))).store1 o.Eg
          (((h1.store1 o.Eg ((h1.read1 o.Eg).map (· + -1 * d))).read1 o.Eg).map (· + -1 * d))) { o with values := rv, Ex := o.Eg }, ?_, h3, h3⟩
      rw [World.vals_get]
      simp only [MObj.shiftBins, r1, hd', List.set_set, List.getElem?_set_self hkl, Option.map_some, AnyObj.view]

example : ∃ m', (((World.start.run id id oneMatrix).1.step id id (.onMat 0 (.rebin 1 (some (.matEg 0)) none))).1.step id id (.onMat 0 .toLowerBin)).1.vals[0]? = some (.mat m') ∧
      m'.Eg = [0, 2].map (· - 2 * 1) ∧ m'.Ex = [0, 2].map (· - 2 * 1) :=
  C136_one_axis id id _ (C136_own_numbers_partial id id World.start start_apart oneMatrix (by decide +kernel)).1 0 ⟨[[1, 2], [3, 4]], [0, 2], [0, 4], none, none⟩
    (by decide +kernel) 1 (by decide +kernel) (by decide +kernel)

end Ompy
