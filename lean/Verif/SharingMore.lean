import Verif.SharingProps

/-!
# Which objects share arrays: calls that write into no array
-/

namespace Ompy

/-- The calls that write into an array that exists already. -/
def PyCall.writes : PyCall → Bool
  | .onVec _ .toMeV => true
  | .onVec _ .toKeV => true
  | .onVec _ (.setItem ..) => true
  | .onMat _ (.fill ..) => true
  | .onMat _ (.cutDiagonal ..) => true
  | .onMat _ .toLowerBin => true
  | .onMat _ .toMidBin => true
  | _ => false

theorem no_writes_touched (ex rt : ℚ → ℚ) (s : World) (c : PyCall) (hc : c.writes = false) : Touched s.mem (s.step ex rt c).1.mem [] := by
  cases c with
  | newVec values E std units =>
    rcases reaches_step s ex rt (.newVec values E std units) with ⟨t, _⟩ | ⟨k, o, o', hw, _⟩
    · exact t
    · cases hw
  | newMat values Eg Ex std state =>
    rcases reaches_step s ex rt (.newMat values Eg Ex std state) with ⟨t, _⟩ | ⟨k, o, o', hw, _⟩
    · exact t
    · cases hw
  | onVec k c =>
    simp only [World.step]
    split
    · rename_i o hk
      cases c with
      | toMeV => cases hc
      | toKeV => cases hc
      | setItem j x => cases hc
      | cut a b => exact Touched.refl _ _
      | cutCopy a b =>
        rcases reaches_vec hk ex rt (.cutCopy a b) with ⟨t, _⟩ | ⟨k, o, o', hw, _⟩
        · exact t
        · cases hw
      | rebin mids q =>
        simp only [World.vecCall]
        split
        · exact Touched.refl _ _
        · rename_i h r he
          exact (argOpt_touched he).trans (rebinVec_touched _ _ _ _)
      | rebinCopy mids q =>
        rcases reaches_vec hk ex rt (.rebinCopy mids q) with ⟨t, _⟩ | ⟨k, o, o', hw, _⟩
        · exact t
        · cases hw
      | closest a right =>
        simp only [World.vecCall]
        split
        · exact Touched.refl _ _
        · rename_i h r he
          simp only [World.setVec, VObj.closest]
          split
          · exact arg_touched he
          · exact (arg_touched he).trans ((touched_new1 _ _).trans (touched_newOpt1 _ _))
      | closestCopy a right =>
        rcases reaches_vec hk ex rt (.closestCopy a right) with ⟨t, _⟩ | ⟨k, o, o', hw, _⟩
        · exact t
        · cases hw
      | transform c a => exact (touched_new1 _ _).trans (touched_newOpt1 _ _)
      | transformCopy c a =>
        rcases reaches_vec hk ex rt (.transformCopy c a) with ⟨t, _⟩ | ⟨k, o, o', hw, _⟩
        · exact t
        · cases hw
      | cumulative q =>
        simp only [World.vecCall, World.setVec, VObj.renew]
        split
        · exact Touched.refl _ _
        · exact (touched_new1 _ _).trans (touched_newOpt1 _ _)
      | cumulativeCopy q =>
        rcases reaches_vec hk ex rt (.cumulativeCopy q) with ⟨t, _⟩ | ⟨k, o, o', hw, _⟩
        · exact t
        · cases hw
      | copy =>
        rcases reaches_vec hk ex rt .copy with ⟨t, _⟩ | ⟨k, o, o', hw, _⟩
        · exact t
        · cases hw
    · exact Touched.refl _ _
  | onMat k c =>
    simp only [World.step]
    split
    · rename_i o hk
      cases c with
      | fill eg ex q => cases hc
      | cutDiagonal p q => cases hc
      | toLowerBin => cases hc
      | toMidBin => cases hc
      | cut ax a b i j => exact Touched.refl _ _
      | cutCopy ax a b i j =>
        rcases reaches_mat hk (.cutCopy ax a b i j) with ⟨t, _⟩ | ⟨k, o, o', hw, _⟩
        · exact t
        · cases hw
      | rebin ax mids q =>
        simp only [World.matCall]
        split
        · exact Touched.refl _ _
        · rename_i h r he
          exact (argOpt_touched he).trans (rebinMat_touched _ _ _ _ _)
      | rebinCopy ax mids q =>
        rcases reaches_mat hk (.rebinCopy ax mids q) with ⟨t, _⟩ | ⟨k, o, o', hw, _⟩
        · exact t
        · cases hw
      | removeNegative => exact touched_new2 _ _
      | trapezoid a b c d =>
        simp only [World.matCall, World.setMat, MObj.trapezoid]
        split
        · exact Touched.refl _ _
        · exact (touched_new2 _ _).trans ((touched_new1 _ _).trans (touched_new1 _ _))
      | copy =>
        rcases reaches_mat hk .copy with ⟨t, _⟩ | ⟨k, o, o', hw, _⟩
        · exact t
        · cases hw
    · exact Touched.refl _ _

/-- Calls that write into no array (all but seven methods) change no object but their own, whatever objects share. -/
theorem C136_no_writes (ex rt : ℚ → ℚ) (s : World) (c : PyCall) (hc : c.writes = false) (j : ℕ) (p : AnyObj) (hp : s.objs[j]? = some p) (hu : ∀ b ∈ p.bufs, b < s.mem.next)
    (hj : c.written ≠ some j) : (s.step ex rt c).1.objs[j]? = some p ∧ p.view (s.step ex rt c).1.mem = p.view s.mem := by
  refine ⟨?_, (no_writes_touched ex rt s c hc).view p hu (by simp)⟩
  rcases reaches_step s ex rt c with ⟨t, l, hl⟩ | ⟨k, o, o', hw, hk, t, hs⟩
  · rw [hl, List.getElem?_append_left (List.getElem?_eq_some_iff.mp hp).1, hp]
  · have : k ≠ j := by
      rintro rfl
      exact hj hw
    rw [hs, List.getElem?_set_ne this, hp]

/-- A matrix whose `std` is the array of values of another keeps it when that is cleared of negative numbers. -/
example : (World.start.run id id (oneMatrix ++ [.newMat (.lit [[1, 1], [1, 1]]) (.matEg 0) (.matEx 0) (some (.matValues 0)) none, .onMat 0 .removeNegative])).1.vals[1]? =
    some (.mat ⟨[[1, 1], [1, 1]], [0, 2], [0, 4], some [[1, 2], [3, 4]], none⟩) := by decide +kernel

/-- The copy of a matrix has new arrays; both its axes are one array just if those of the matrix are. -/
theorem C136_copy (h : Memory) (o : MObj) :
    ((MObj.copy h o).2.Ex = (MObj.copy h o).2.Eg ↔ o.Ex = o.Eg) ∧ (∀ b ∈ (AnyObj.mat (MObj.copy h o).2).bufs, h.next ≤ b) ∧
      (MObj.copy h o).2.view (MObj.copy h o).1 = o.view h := by
  obtain ⟨fr, vw⟩ := MObj.make_fresh h (o.view h)
  have sp := fr.fine.separate
  have ow := fr.own
  unfold MObj.copy
  simp only
  by_cases he : o.Ex = o.Eg
  · rw [if_pos he]
    generalize MObj.make h (o.view h) = a at *
    obtain ⟨h1, ⟨nv, ng, nx, ns, nt⟩⟩ := a
    refine ⟨⟨fun _ => he, fun _ => rfl⟩, ?_, ?_⟩
    · intro b hb
      apply ow
      simp [AnyObj.bufs] at hb ⊢
      tauto
    · have x1 := congrArg Mat.values vw
      have x2 := congrArg Mat.Eg vw
      have x4 := congrArg Mat.std vw
      have x5 := congrArg Mat.state vw
      simp only [MObj.view] at x1 x2 x4 x5 ⊢
      rw [x1, x2, x4, x5, he]
  · rw [if_neg he]
    generalize MObj.make h (o.view h) = a at *
    obtain ⟨h1, ⟨nv, ng, nx, ns, nt⟩⟩ := a
    refine ⟨⟨fun e => ?_, fun e => absurd e he⟩, ow, vw⟩
    simp only at e
    simp [AnyObj.bufs, e] at sp

example : (World.start.run id id (oneMatrix ++ [.onMat 0 (.rebin 1 (some (.matEg 0)) none), .onMat 0 .copy])).1.objs.map AnyObj.bufs = [[6, 4, 4], [7, 8, 8]] := by decide +kernel

end Ompy
