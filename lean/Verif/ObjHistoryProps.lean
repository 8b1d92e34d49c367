import Verif.SharingMore
import Verif.VectorProps

/-!
# Objects after any program

Programs of constructors and methods of `Sharing.lean`: arrays may be shared, calls may raise and the caller may go on.
-/

namespace Ompy

/-! ### What is stated -/

/-- The shapes of values and axes fit: one value for each energy, one row for each excitation energy and one column for each gamma energy. -/
def ObjVal.axesFit : ObjVal → Prop
  | .vec v => v.values.length = v.E.length
  | .mat m => m.values.length = m.Ex.length ∧ ∀ r ∈ m.values, r.length = m.Eg.length

/-- The standard deviations, if there are any, have the shape of the values. -/
def ObjVal.stdFits : ObjVal → Prop
  | .vec v => ∀ s ∈ v.std, s.length = v.values.length
  | .mat m => ∀ s ∈ m.std, s.map List.length = m.values.map List.length

/-! ### Shapes of arrays -/

/-- The shapes of values and axes fit, by the arrays. -/
def AnyObj.axes : AnyObj → Prop
  | .vec o => o.values.pos.length = o.E.pos.length
  | .mat o => o.values.pos.length = o.Ex.pos.length ∧ ∀ r ∈ o.values.pos, r.length = o.Eg.pos.length

/-- The shape of `std` is that of `values`, by the arrays. -/
def AnyObj.stdSame : AnyObj → Prop
  | .vec o => ∀ s ∈ o.std, s.pos.length = o.values.pos.length
  | .mat o => ∀ s ∈ o.std, s.pos.map List.length = o.values.pos.map List.length

/-- Arrays of fitting shapes in memory in use. -/
def AnyObj.good (n : ℕ) (o : AnyObj) : Prop := o.axes ∧ ∀ b ∈ o.bufs, b < n

/-- All objects are good. -/
def World.good (s : World) : Prop := ∀ o ∈ s.objs, o.good s.mem.next

theorem axes_view (h : Memory) (o : AnyObj) : (o.view h).axesFit ↔ o.axes := by
  cases o with
  | vec o => simp [AnyObj.view, ObjVal.axesFit, AnyObj.axes, VObj.view, read1_length]
  | mat o => simp [AnyObj.view, ObjVal.axesFit, AnyObj.axes, MObj.view, read1_length, Memory.read2]

theorem std_view (h : Memory) (o : AnyObj) : (o.view h).stdFits ↔ o.stdSame := by
  cases o with
  | vec o => simp [AnyObj.view, ObjVal.stdFits, AnyObj.stdSame, VObj.view, read1_length]
  | mat o => simp [AnyObj.view, ObjVal.stdFits, AnyObj.stdSame, MObj.view, read2_lengths]

theorem good_mono {n m : ℕ} (h : n ≤ m) {o : AnyObj} (g : o.good n) : o.good m := ⟨g.1, fun b hb => lt_of_lt_of_le (g.2 b hb) h⟩

theorem all_set {P : AnyObj → Prop} {l : List AnyObj} (hl : ∀ o ∈ l, P o) (k : ℕ) {o' : AnyObj} (ho : P o') : ∀ o ∈ l.set k o', P o := by
  intro o h
  rcases List.mem_or_eq_of_mem_set h with h | rfl
  · exact hl o h
  · exact ho

theorem all_add {P : AnyObj → Prop} {l : List AnyObj} (hl : ∀ o ∈ l, P o) {o' : AnyObj} (ho : P o') : ∀ o ∈ l ++ [o'], P o := by
  intro o h
  rcases List.mem_append.mp h with h | h
  · exact hl o h
  · rw [List.mem_singleton.mp h]
    exact ho

theorem new1_length (h : Memory) (d : List ℚ) : (h.new1 d).2.pos.length = d.length := by simp [Memory.new1]

theorem new2_lengths (h : Memory) (d : List (List ℚ)) : (h.new2 d).2.pos.map List.length = d.map List.length := by
  have := read2_lengths (h.new2 d).1 (h.new2 d).2
  rw [read2_new2] at this
  exact this.symm

theorem rows_of_lengths {α β : Type} {l : List (List α)} {d : List (List β)} (h : l.map List.length = d.map List.length) (n : ℕ) :
    (l.length = d.length) ∧ ((∀ r ∈ l, r.length = n) ↔ ∀ r ∈ d, r.length = n) := by
  refine ⟨by simpa using congrArg List.length h, ?_⟩
  have a : ∀ {γ : Type} (x : List (List γ)), (∀ r ∈ x, r.length = n) ↔ ∀ k ∈ x.map List.length, k = n := by
    intro γ x
    simp
  rw [a, a, h]

theorem rebin1D_length {c a m r : List ℚ} (h : rebin1D c a m = .ok r) : r.length = m.length := by
  unfold rebin1D at h
  split at h
  · simp only at h
    split at h
    · cases h
    · split at h
      · cases h
      · cases h
        simp
  · cases h

theorem mapM_rowLengths {γ : Type} {f : γ → Except Err (List ℚ)} {n : ℕ} (hf : ∀ x r, f x = .ok r → r.length = n) :
    ∀ {l : List γ} {v : List (List ℚ)}, l.mapM f = .ok v → v.length = l.length ∧ ∀ r ∈ v, r.length = n := by
  intro l
  induction l with
  | nil =>
    intro v h
    cases h
    simp
  | cons x l ih =>
    intro v h
    rw [List.mapM_cons] at h
    cases hx : f x with
    | error e => simp [hx, bind, Except.bind] at h
    | ok r =>
      cases hl : l.mapM f with
      | error e => simp [hx, hl, bind, Except.bind] at h
      | ok w =>
        simp only [hx, hl, bind, Except.bind, pure, Except.pure, Except.ok.injEq] at h
        subst h
        have := ih hl
        simp only [List.length_cons, this.1, List.mem_cons, true_and]
        rintro r' (rfl | hr)
        · exact hf x _ hx
        · exact this.2 r' hr

theorem rebin2D_rowsShape {c : List (List ℚ)} {n : ℕ} {a m : List ℚ} {v : List (List ℚ)} (h : rebin2D c n a m 1 = .ok v) :
    v.length = c.length ∧ ∀ r ∈ v, r.length = m.length := by
  simp only [rebin2D] at h
  exact mapM_rowLengths (fun x r hr => rebin1D_length hr) h

theorem rebin2D_colsShape {c : List (List ℚ)} {n : ℕ} {a m : List ℚ} {v : List (List ℚ)} (h : rebin2D c n a m 0 = .ok v) :
    v.length = m.length ∧ ∀ r ∈ v, r.length = n := by
  simp only [rebin2D] at h
  cases hc : (List.range n).mapM fun j : ℕ => rebin1D (colOf c j) a m with
  | error e => simp [hc, bind, Except.bind] at h
  | ok cols =>
    simp only [hc, bind, Except.bind, pure, Except.pure] at h
    have hl := (mapM_rowLengths (n := m.length) (fun x r hr => rebin1D_length hr) hc).1
    simp only [ne_eq, zero_ne_one, not_false_eq_true, and_true, not_true_eq_false, ↓reduceIte, Except.ok.injEq] at h
    subst h
    simp only [fromCols, List.length_map, List.length_range, List.mem_map, true_and, forall_exists_index, and_imp]
    rintro r i _ rfl
    simpa using hl

/-! ### Arguments -/

theorem bufs_vec {n : ℕ} {o : VObj} (h : (AnyObj.vec o).good n) : o.E.buf < n ∧ o.values.buf < n ∧ ∀ r ∈ o.std, r.buf < n := by
  refine ⟨h.2 _ (by simp [AnyObj.bufs]), h.2 _ (by simp [AnyObj.bufs]), fun r hr => h.2 _ ?_⟩
  have e : o.std = some r := hr
  simp [AnyObj.bufs, e]

theorem bufs_mat {n : ℕ} {o : MObj} (h : (AnyObj.mat o).good n) : o.values.buf < n ∧ o.Eg.buf < n ∧ o.Ex.buf < n ∧ ∀ r ∈ o.std, r.buf < n := by
  refine ⟨h.2 _ (by simp [AnyObj.bufs]), h.2 _ (by simp [AnyObj.bufs]), h.2 _ (by simp [AnyObj.bufs]), fun r hr => h.2 _ ?_⟩
  have e : o.std = some r := hr
  simp [AnyObj.bufs, e]

theorem good_vec {n : ℕ} {o : VObj} (ha : o.values.pos.length = o.E.pos.length) (h1 : o.E.buf < n) (h2 : o.values.buf < n) (h3 : ∀ r ∈ o.std, r.buf < n) :
    (AnyObj.vec o).good n := by
  refine ⟨ha, fun b hb => ?_⟩
  obtain ⟨E, v, s, u⟩ := o
  cases s with
  | none =>
    simp only [AnyObj.bufs, Option.map_none, Option.toList_none, List.mem_cons, List.not_mem_nil, or_false] at hb
    rcases hb with rfl | rfl <;> assumption
  | some s =>
    simp only [AnyObj.bufs, Option.map_some, Option.toList_some, List.mem_cons, List.not_mem_nil, or_false] at hb
    rcases hb with rfl | rfl | rfl
    · exact h1
    · exact h2
    · exact h3 _ rfl

theorem good_mat {n : ℕ} {o : MObj} (ha : (AnyObj.mat o).axes) (h1 : o.values.buf < n) (h2 : o.Eg.buf < n) (h3 : o.Ex.buf < n) (h4 : ∀ r ∈ o.std, r.buf < n) :
    (AnyObj.mat o).good n := by
  refine ⟨ha, fun b hb => ?_⟩
  obtain ⟨v, g, x, s, u⟩ := o
  cases s with
  | none =>
    simp only [AnyObj.bufs, Option.map_none, Option.toList_none, List.mem_cons, List.not_mem_nil, or_false] at hb
    rcases hb with rfl | rfl | rfl <;> assumption
  | some s =>
    simp only [AnyObj.bufs, Option.map_some, Option.toList_some, List.mem_cons, List.not_mem_nil, or_false] at hb
    rcases hb with rfl | rfl | rfl | rfl
    · exact h1
    · exact h2
    · exact h3
    · exact h4 _ rfl

theorem arg_used {s : World} (g : s.good) {a : Arg} {h : Memory} {r : Ref1} (e : s.arg a = .ok (h, r)) : r.buf < h.next := by
  cases a with
  | lit d =>
    cases e
    simp
  | vecE k =>
    simp only [World.arg] at e
    split at e
    · rename_i o hk
      cases e
      exact (bufs_vec (g _ (List.mem_of_getElem? hk))).1
    · cases e
  | vecValues k =>
    simp only [World.arg] at e
    split at e
    · rename_i o hk
      cases e
      exact (bufs_vec (g _ (List.mem_of_getElem? hk))).2.1
    · cases e
  | matEg k =>
    simp only [World.arg] at e
    split at e
    · rename_i o hk
      cases e
      exact (bufs_mat (g _ (List.mem_of_getElem? hk))).2.1
    · cases e
  | matEx k =>
    simp only [World.arg] at e
    split at e
    · rename_i o hk
      cases e
      exact (bufs_mat (g _ (List.mem_of_getElem? hk))).2.2.1
    · cases e

theorem argOpt_used {s : World} (g : s.good) {a : Option Arg} {h : Memory} {r : Option Ref1} (e : s.argOpt a = .ok (h, r)) : ∀ x ∈ r, x.buf < h.next := by
  cases a with
  | none =>
    cases e
    simp
  | some a =>
    simp only [World.argOpt] at e
    split at e
    · rename_i h' r' he
      cases e
      intro x hx
      cases hx
      exact arg_used g he
    · cases e

theorem argOpt2_used {s : World} (g : s.good) {a : Option Arg2} {h : Memory} {r : Option Ref2} (e : s.argOpt2 a = .ok (h, r)) : ∀ x ∈ r, x.buf < h.next := by
  cases a with
  | none =>
    cases e
    simp
  | some a =>
    simp only [World.argOpt2] at e
    split at e
    · rename_i h' r' he
      cases e
      intro x hx
      cases hx
      cases a with
      | lit d =>
        cases he
        simp
      | matValues k =>
        simp only [World.arg2] at he
        split at he
        · rename_i o hk
          cases he
          exact (bufs_mat (g _ (List.mem_of_getElem? hk))).1
        · cases he
      | matStd k =>
        simp only [World.arg2] at he
        split at he
        · rename_i v g' x' r'' u hk
          cases he
          exact (bufs_mat (g _ (List.mem_of_getElem? hk))).2.2.2 _ rfl
        · cases he
    · cases e

/-! ### Methods in place -/

theorem makeVec_good (h : Memory) (v : Vec ℚ) (hv : v.values.length = v.E.length) : (AnyObj.vec (VObj.make h v).2).good (VObj.make h v).1.next := by
  have f := VObj.make_fresh h v
  refine ⟨(axes_view (VObj.make h v).1 _).mp ?_, f.1.fine.used⟩
  simp only [AnyObj.view, f.2, ObjVal.axesFit, hv]

theorem makeMat_good (h : Memory) (m : Mat) (hv : (ObjVal.mat m).axesFit) : (AnyObj.mat (MObj.make h m).2).good (MObj.make h m).1.next := by
  have f := MObj.make_fresh h m
  refine ⟨(axes_view (MObj.make h m).1 _).mp ?_, f.1.fine.used⟩
  simp only [AnyObj.view, f.2, hv]

theorem rebinVec_good {h : Memory} {o : VObj} (g : (AnyObj.vec o).good h.next) {mids : Option Ref1} (hm : ∀ x ∈ mids, x.buf < h.next) (q : Option ℚ) :
    (AnyObj.vec (VObj.rebin h o mids q).2.1).good (VObj.rebin h o mids q).1.next := by
  have gb := bufs_vec g
  unfold VObj.rebin
  split
  · exact g
  · rename_i m em
    split
    · exact g
    · rename_i r er
      have hl := rebin1D_length er
      cases mids with
      | some a =>
        have : m.length = a.pos.length := by
          cases q with
          | none =>
            simp only [Option.map_some, rebinMids, Except.ok.injEq] at em
            rw [← em, read1_length]
          | some q => simp [rebinMids] at em
        have ha := hm a rfl
        refine good_vec ?_ ?_ ?_ ?_
        · simp only [new1_length, hl, this]
        · simp only [new1_next]
          omega
        · simp
        · intro r hr
          simp only [new1_next]
          have := gb.2.2 r hr
          omega
      | none =>
        refine good_vec ?_ ?_ ?_ ?_
        · simp only [new1_length, hl]
        · simp
        · simp
        · intro r hr
          simp only [new1_next]
          have := gb.2.2 r hr
          omega

theorem rebinOne_good {h : Memory} {o : MObj} (g : (AnyObj.mat o).good h.next) (isEx : Bool) {mids : Option Ref1} (hm : ∀ x ∈ mids, x.buf < h.next) (q : Option ℚ) :
    (AnyObj.mat (MObj.rebinOne h o isEx mids q).2.1).good (MObj.rebinOne h o isEx mids q).1.next := by
  have gb := bufs_mat g
  have ga := g.1
  simp only [AnyObj.axes] at ga
  unfold MObj.rebinOne
  split
  · exact g
  · rename_i m em
    split
    · exact g
    · rename_i r er
      have key : ∃ ra hn, newAxis (h.new2 r).1 mids m = (hn, ra) ∧ h.next + 1 ≤ hn.next ∧ ra.buf < hn.next ∧ ra.pos.length = m.length := by
        cases mids with
        | none => exact ⟨_, _, rfl, by simp, by simp, new1_length _ _⟩
        | some a =>
          refine ⟨_, _, rfl, by simp, by simpa using Nat.lt_succ_of_lt (hm a rfl), ?_⟩
          cases q with
          | none =>
            simp only [Option.map_some, rebinMids, Except.ok.injEq] at em
            rw [← em, read1_length]
          | some q => simp [rebinMids] at em
      obtain ⟨ra, hn, e, hle, hb, hl⟩ := key
      simp only [e]
      cases isEx with
      | true =>
        simp only [↓reduceIte] at er
        have hr := rebin2D_colsShape er
        rw [read1_length] at hr
        simp only [↓reduceIte]
        refine good_mat ?_ ?_ ?_ hb ?_
        · have := rows_of_lengths (new2_lengths h r) o.Eg.pos.length
          exact ⟨by simp only [this.1, hr.1, hl], this.2.mpr hr.2⟩
        · simp only [new2_buf]
          omega
        · have := gb.2.1
          simp only
          omega
        · intro x hx
          have := gb.2.2.2 x hx
          omega
      | false =>
        simp only [Bool.false_eq_true, ↓reduceIte] at er
        have hr := rebin2D_rowsShape er
        simp only [Bool.false_eq_true, ↓reduceIte]
        refine good_mat ?_ ?_ hb ?_ ?_
        · have := rows_of_lengths (new2_lengths h r) ra.pos.length
          refine ⟨?_, this.2.mpr ?_⟩
          · simp only [this.1, hr.1]
            simpa [Memory.read2] using ga.1
          · rw [hl]
            exact hr.2
        · simp only [new2_buf]
          omega
        · have := gb.2.2.1
          simp only
          omega
        · intro x hx
          have := gb.2.2.2 x hx
          omega

theorem rebinMat_good {h : Memory} {o : MObj} (g : (AnyObj.mat o).good h.next) (ax : ℕ) {mids : Option Ref1} (hm : ∀ x ∈ mids, x.buf < h.next) (q : Option ℚ) :
    (AnyObj.mat (MObj.rebin h o ax mids q).2.1).good (MObj.rebin h o ax mids q).1.next := by
  unfold MObj.rebin
  split
  · have g1 := rebinOne_good g false hm q
    have t := rebinOne_touched h o false mids q
    split
    · rename_i e
      rw [e] at g1
      exact g1
    · rename_i h1 o1 e
      rw [e] at g1 t
      exact rebinOne_good g1 true (fun x hx => lt_of_lt_of_le (hm x hx) t.le) q
  · exact rebinOne_good g _ hm q

theorem pySlice_len {α β : Type} {l : List α} {m : List β} (h : l.length = m.length) (a b : ℤ) : (pySlice l a b).length = (pySlice m a b).length :=
  pySlice_length_congr l m a b h

theorem matCut_axes {h : Memory} {o : MObj} (g : (AnyObj.mat o).axes) (ax : ℕ) (a b : Option ℚ) (i j : Bool) : (AnyObj.mat (MObj.cut h o ax a b i j).1).axes := by
  unfold MObj.cut
  split
  · exact g
  · split
    · refine ⟨by simpa [Ref2.cols] using g.1, ?_⟩
      intro r hr
      simp only [Ref2.cols, List.mem_map] at hr
      obtain ⟨r0, hr0, rfl⟩ := hr
      exact pySlice_len (g.2 r0 hr0) _ _
    · split
      · refine ⟨pySlice_len g.1 _ _, ?_⟩
        intro r hr
        exact g.2 r ((pySlice_sublist _ _ _).subset hr)
      · exact g

theorem matCut_good {h : Memory} {n : ℕ} {o : MObj} (g : (AnyObj.mat o).good n) (ax : ℕ) (a b : Option ℚ) (i j : Bool) :
    (AnyObj.mat (MObj.cut h o ax a b i j).1).good n := by
  refine ⟨matCut_axes g.1 ax a b i j, ?_⟩
  have : (AnyObj.mat (MObj.cut h o ax a b i j).1).bufs = (AnyObj.mat o).bufs := by
    unfold MObj.cut
    split
    · rfl
    · split
      · rfl
      · split <;> rfl
  rw [this]
  exact g.2

theorem Mat.cut_axes {m r : Mat} (g : (ObjVal.mat m).axesFit) {ax : ℕ} {a b : Option ℚ} {i j : Bool} (h : m.cut ax a b i j = .ok r) : (ObjVal.mat r).axesFit := by
  unfold Mat.cut at h
  simp only at h
  split at h
  · cases h
  · split at h
    · cases h
      refine ⟨by simpa using g.1, ?_⟩
      intro r hr
      simp only [List.mem_map] at hr
      obtain ⟨r0, hr0, rfl⟩ := hr
      exact pySlice_len (g.2 r0 hr0) _ _
    · split at h
      · cases h
        refine ⟨pySlice_len g.1 _ _, ?_⟩
        intro r hr
        exact g.2 r ((pySlice_sublist _ _ _).subset hr)
      · cases h

theorem diagShift_length {m : Mat} {d : ℚ} {s : List (Option ℚ)} (h : diagShift m d = .ok s) : s.length = m.Eg.length := by
  unfold diagShift at h
  split at h
  · split at h
    · cases h
    · cases h
      simp [meshEg]
  · cases h
    simp

theorem trapezoid_rest {m1 t : Mat} (g1 : (ObjVal.mat m1).axesFit) {b c e : ℚ}
    (h : (do let m2 ← m1.cut 0 (some c) (some e) true true; let s ← diagShift m2 (e - b); pure (maskDiag m2 s) : Except Err Mat) = .ok t) : (ObjVal.mat t).axesFit := by
  cases h2 : m1.cut 0 (some c) (some e) true true with
  | error e => simp [h2, bind, Except.bind] at h
  | ok m2 =>
    have g2 := Mat.cut_axes g1 h2
    simp only [h2, bind, Except.bind] at h
    cases h3 : diagShift m2 (e - b) with
    | error e => simp [h3] at h
    | ok s =>
      simp only [h3, pure, Except.pure, Except.ok.injEq] at h
      subst h
      have hs := diagShift_length h3
      have g21 := g2.1
      refine ⟨by simp [maskDiag, g21], ?_⟩
      intro r hr
      simp only [maskDiag] at hr ⊢
      rw [List.mem_iff_getElem] at hr
      obtain ⟨i, hi, rfl⟩ := hr
      simp only [List.length_zipWith] at hi
      rw [List.getElem_zipWith]
      simp only [List.length_zipWith, List.length_zip, hs]
      have := g2.2 (m2.values[i]'(by omega)) (List.getElem_mem _)
      omega

theorem trapezoid_axes {m t : Mat} (g : (ObjVal.mat m).axesFit) {a b c : ℚ} {d : Option ℚ} (h : m.trapezoid a b c d = .ok t) : (ObjVal.mat t).axesFit := by
  unfold Mat.trapezoid at h
  cases h1 : m.cut 1 (some a) (some b) true true with
  | error e => simp [h1, bind, Except.bind] at h
  | ok m1 =>
    have g1 := Mat.cut_axes g h1
    rw [h1] at h
    cases d with
    | some e => exact trapezoid_rest (b := b) (c := c) (e := e) g1 h
    | none =>
      cases h2 : autoEgMax m1 with
      | error e => simp [h2, bind, Except.bind] at h
      | ok e =>
        simp only [h2, bind, Except.bind] at h
        exact trapezoid_rest (b := b) (c := c) (e := e) g1 h

theorem removeNegative_lengths (v : List (List ℚ)) : (removeNegativeQ v).map List.length = v.map List.length := by
  simp [removeNegativeQ, Function.comp_def]

theorem renew_good {h : Memory} {o : VObj} (g : (AnyObj.vec o).good h.next) {r : Except Err (Vec ℚ)} (hr : ∀ v, r = .ok v → v.values.length = o.E.pos.length) :
    (AnyObj.vec (VObj.renew h o r).2.1).good (VObj.renew h o r).1.next := by
  have gb := bufs_vec g
  unfold VObj.renew
  split
  · exact g
  · rename_i v
    have t := (touched_newOpt1 (h.new1 v.values).1 v.std).le
    have u := (newOpt1_spec (h.new1 v.values).1 v.std).2
    simp only [new1_next] at t
    refine good_vec ?_ ?_ ?_ ?_
    · simp only [new1_length]
      exact hr v rfl
    · simp only
      omega
    · simp only [new1_buf]
      omega
    · intro x hx
      exact (u x hx).2.1

theorem transform_length (v : Vec ℚ) (hv : v.values.length = v.E.length) (ex : ℚ → ℚ) (c a : ℚ) : (v.transform id ex c a).values.length = v.E.length := by
  simp [Vec.transform, hv]

theorem cumulative_length {v w : Vec ℚ} (hv : v.values.length = v.E.length) {rt : ℚ → ℚ} {q : CumFactor} (h : v.cumulative id rt q = .ok w) :
    w.values.length = v.E.length ∧ w.E = v.E := by
  unfold Vec.cumulative at h
  cases hf : cumFactor v.E q with
  | error e => simp [hf, bind, Except.bind] at h
  | ok x =>
    simp only [hf, bind, Except.bind, pure, Except.pure, Except.ok.injEq] at h
    subst h
    simp [cumsum, cumsumFrom_length, hv]

theorem Vec.cut_axes {v w : Vec ℚ} (hv : v.values.length = v.E.length) {a b : Option ℚ} (h : v.cut a b = .ok w) : w.values.length = w.E.length := by
  unfold Vec.cut at h
  cases h1 : orElseE a (listMin v.E) with
  | error e => simp [h1, bind, Except.bind] at h
  | ok lo =>
    cases h2 : orElseE b (listMax v.E) with
    | error e => simp [h1, h2, bind, Except.bind] at h
    | ok hi =>
      cases h3 : index v.E lo with
      | error e => simp [h1, h2, h3, bind, Except.bind] at h
      | ok i =>
        cases h4 : index v.E hi with
        | error e => simp [h1, h2, h3, h4, bind, Except.bind] at h
        | ok j =>
          simp only [h1, h2, h3, h4, bind, Except.bind, pure, Except.pure, Except.ok.injEq] at h
          subst h
          exact pySlice_len hv _ _

theorem Vec.new_axes {v e : List ℚ} {s : Option (List ℚ)} {u : String} {w : Vec ℚ} (h : Vec.new (some v) (some e) s u = .ok w) :
    w.values.length = w.E.length ∧ ∀ x ∈ w.std, x.length = w.values.length := by
  simp only [Vec.new] at h
  split at h
  · rename_i hc
    cases h
    cases s with
    | none =>
      simp only [Vec.consistent, Bool.and_true, beq_iff_eq] at hc
      exact ⟨hc.symm, by simp⟩
    | some s =>
      simp only [Vec.consistent, Bool.and_eq_true, beq_iff_eq] at hc
      exact ⟨hc.1.symm, fun x hx => by cases hx; exact hc.2⟩
  · cases h

theorem Mat.consistent_axes {m : Mat} (h : m.consistent = true) : (ObjVal.mat m).axesFit ∧ (ObjVal.mat m).stdFits := by
  obtain ⟨v, g, x, s, u⟩ := m
  have key : ∀ (w : List (List ℚ)), hasShape w x.length g.length = true → w.length = x.length ∧ ∀ r ∈ w, r.length = g.length := by
    intro w hw
    simpa [hasShape] using hw
  cases s with
  | none =>
    simp only [Mat.consistent, Bool.and_true] at h
    exact ⟨key v h, by simp [ObjVal.stdFits]⟩
  | some s =>
    simp only [Mat.consistent, Bool.and_eq_true] at h
    have hv := key v h.1
    have hs := key s h.2
    refine ⟨hv, ?_⟩
    intro t ht
    cases ht
    apply List.ext_getElem
    · simp [hv.1, hs.1]
    · intro i h1 h2
      simp only [List.getElem_map]
      rw [hv.2 _ (List.getElem_mem _), hs.2 _ (List.getElem_mem _)]

theorem verify_axes {m : Mat} (h : m.verify = .ok ()) : (ObjVal.mat m).axesFit ∧ (ObjVal.mat m).stdFits := by
  unfold Mat.verify at h
  split at h
  · exact Mat.consistent_axes (by assumption)
  · cases h

theorem rebinOneCopy_axes {m r : Mat} {isEx : Bool} {mids : Option (List ℚ)} {q : Option ℚ} (h : m.rebinOneCopy isEx mids q = .ok r) :
    (ObjVal.mat r).axesFit ∧ r.std = none := by
  unfold Mat.rebinOneCopy at h
  cases h1 : rebinMids (if isEx then m.Ex else m.Eg) mids q with
  | error e => simp [h1, bind, Except.bind] at h
  | ok n =>
    simp only [h1, bind, Except.bind] at h
    split at h
    · cases h
    · split at h
      · cases h
      · rename_i v _ _ hv
        simp only [pure, Except.pure, Except.ok.injEq] at h
        subst h
        exact ⟨(verify_axes hv).1, by cases isEx <;> rfl⟩

theorem shift_next (h : Memory) (o : MObj) (sign : ℚ) : (MObj.shiftBins h o sign).2.1 = o ∧ h.next ≤ (MObj.shiftBins h o sign).1.next := by
  refine ⟨?_, (shift_touched h o sign).le⟩
  unfold MObj.shiftBins
  split <;> rfl

theorem write_next (h : Memory) (o : MObj) (r : Except Err (List (List ℚ))) : (MObj.write h o r).2.1 = o ∧ h.next ≤ (MObj.write h o r).1.next := by
  refine ⟨?_, (write_touched h o r).le⟩
  unfold MObj.write
  split <;> rfl

/-! ### One call -/

theorem setVec_good {s : World} (g : s.good) (k : ℕ) {r : Memory × VObj × Except Err Unit} (hr : (AnyObj.vec r.2.1).good r.1.next) (hn : s.mem.next ≤ r.1.next) :
    (s.setVec k r).1.good := all_set (P := AnyObj.good r.1.next) (fun o ho => good_mono hn (g o ho)) k hr

theorem setMat_good {s : World} (g : s.good) (k : ℕ) {r : Memory × MObj × Except Err Unit} (hr : (AnyObj.mat r.2.1).good r.1.next) (hn : s.mem.next ≤ r.1.next) :
    (s.setMat k r).1.good := all_set (P := AnyObj.good r.1.next) (fun o ho => good_mono hn (g o ho)) k hr

theorem addVec_good {s : World} (g : s.good) {r : Memory × Except Err (Option VObj)} (hr : ∀ o, r.2 = .ok (some o) → (AnyObj.vec o).good r.1.next)
    (hn : s.mem.next ≤ r.1.next) : (s.addVec r).1.good := by
  obtain ⟨h, r⟩ := r
  rcases r with e | (_ | o)
  · exact fun o ho => good_mono hn (g o ho)
  · exact fun o ho => good_mono hn (g o ho)
  · exact all_add (P := AnyObj.good h.next) (fun o ho => good_mono hn (g o ho)) (hr o rfl)

theorem addMat_good {s : World} (g : s.good) {r : Memory × Except Err (Option MObj)} (hr : ∀ o, r.2 = .ok (some o) → (AnyObj.mat o).good r.1.next)
    (hn : s.mem.next ≤ r.1.next) : (s.addMat r).1.good := by
  obtain ⟨h, r⟩ := r
  rcases r with e | (_ | o)
  · exact fun o ho => good_mono hn (g o ho)
  · exact fun o ho => good_mono hn (g o ho)
  · exact all_add (P := AnyObj.good h.next) (fun o ho => good_mono hn (g o ho)) (hr o rfl)

theorem returnVec_good {h : Memory} {r : Except Err (Vec ℚ)} (hr : ∀ v, r = .ok v → v.values.length = v.E.length) :
    ∀ o, (returnVec h r).2 = .ok (some o) → (AnyObj.vec o).good (returnVec h r).1.next := by
  intro o ho
  cases r with
  | error e => simp [returnVec] at ho
  | ok v =>
    simp only [returnVec, Except.ok.injEq, Option.some.injEq] at ho
    subst ho
    exact makeVec_good h v (hr v rfl)

theorem returnMat_good {h : Memory} {r : Except Err Mat} (hr : ∀ m, r = .ok m → (ObjVal.mat m).axesFit) :
    ∀ o, (returnMat h r).2 = .ok (some o) → (AnyObj.mat o).good (returnMat h r).1.next := by
  intro o ho
  cases r with
  | error e => simp [returnMat] at ho
  | ok v =>
    simp only [returnMat, Except.ok.injEq, Option.some.injEq] at ho
    subst ho
    exact makeMat_good h v (hr v rfl)

theorem rebinCopyVec_axes {v w : Vec ℚ} {m : Option (List ℚ)} {q : Option ℚ} (h : v.rebinCopy m q = .ok w) : w.values.length = w.E.length ∧ w.std = none := by
  unfold Vec.rebinCopy at h
  cases h1 : rebinMids v.E m q with
  | error e => simp [h1, bind, Except.bind] at h
  | ok n =>
    cases h2 : rebin1D v.values v.E n with
    | error e => simp [h1, h2, bind, Except.bind] at h
    | ok r =>
      simp only [h1, h2, bind, Except.bind] at h
      refine ⟨(Vec.new_axes h).1, ?_⟩
      simp only [Vec.new] at h
      split at h
      · cases h
        rfl
      · cases h

theorem closest_axes {v w : Vec ℚ} {e : List ℚ} {right : Bool} (h : v.closest e right = .ok w) :
    w.values.length = e.length ∧ w.E = e ∧ ∀ x ∈ w.std, x.length = e.length := by
  unfold Vec.closest at h
  split at h
  · cases h
    refine ⟨by simp, rfl, ?_⟩
    intro x hx
    cases hs : v.std with
    | none => simp [hs] at hx
    | some t =>
      simp only [hs, Option.map_some, Option.mem_def, Option.some.injEq] at hx
      subst hx
      simp
  · cases h

theorem cutVec_good {h : Memory} {n : ℕ} {o : VObj} (g : (AnyObj.vec o).good n) (a b : Option ℚ) : (AnyObj.vec (VObj.cut h o a b).1).good n := by
  have gb := bufs_vec g
  have ga := g.1
  unfold VObj.cut
  simp only
  split
  · exact g
  · refine good_vec (pySlice_len ga _ _) gb.1 gb.2.1 ?_
    intro r hr
    simp only [Option.mem_def, Option.map_eq_some_iff] at hr
    obtain ⟨t, ht, rfl⟩ := hr
    exact gb.2.2 t ht

theorem closest_good {h : Memory} {o : VObj} (g : (AnyObj.vec o).good h.next) {a : Ref1} (ha : a.buf < h.next) (right : Bool) :
    (AnyObj.vec (VObj.closest h o a right).2.1).good (VObj.closest h o a right).1.next := by
  unfold VObj.closest
  split
  · exact g
  · rename_i v hv
    have t := (touched_newOpt1 (h.new1 v.values).1 v.std).le
    have u := (newOpt1_spec (h.new1 v.values).1 v.std).2
    have hl := (closest_axes hv).1
    rw [read1_length] at hl
    simp only [new1_next] at t
    refine good_vec ?_ ?_ ?_ ?_
    · simp only [new1_length]
      exact hl
    · simp only
      omega
    · simp only [new1_buf]
      omega
    · intro x hx
      exact (u x hx).2.1

theorem vecCall_good {s : World} (g : s.good) {k : ℕ} {o : VObj} (hk : s.objs[k]? = some (.vec o)) (ex rt : ℚ → ℚ) (c : VCall) :
    (s.vecCall ex rt k o c).1.good := by
  have go := g _ (List.mem_of_getElem? hk)
  have gv : ∀ h : Memory, (o.view h).values.length = (o.view h).E.length := fun h => (axes_view h (.vec o)).mpr go.1
  cases c with
  | cut a b => exact setVec_good g k (r := (s.mem, VObj.cut s.mem o a b)) (cutVec_good go a b) (le_refl _)
  | cutCopy a b => exact addVec_good g (returnVec_good fun v hv => Vec.cut_axes (gv _) hv) (returnVec_touched _ _).le
  | rebin mids q =>
    simp only [World.vecCall]
    split
    · exact g
    · rename_i h r he
      have t := argOpt_touched he
      exact setVec_good g k (rebinVec_good (good_mono t.le go) (argOpt_used g he) q) (t.trans (rebinVec_touched _ _ _ _)).le
  | rebinCopy mids q =>
    simp only [World.vecCall]
    split
    · exact g
    · rename_i h r he
      exact addVec_good g (returnVec_good fun v hv => (rebinCopyVec_axes hv).1) ((argOpt_touched he).trans (returnVec_touched _ _)).le
  | toMeV =>
    refine setVec_good g k ?_ ?_ <;> unfold VObj.toMeV <;> split
    · exact go
    · split
      · exact ⟨go.1, go.2⟩
      · exact go
    · exact le_refl _
    · split <;> exact le_refl _
  | toKeV =>
    refine setVec_good g k ?_ ?_ <;> unfold VObj.toKeV <;> split
    · exact go
    · split
      · exact ⟨go.1, go.2⟩
      · exact go
    · exact le_refl _
    · split <;> exact le_refl _
  | closest a right =>
    simp only [World.vecCall]
    split
    · exact g
    · rename_i h r he
      have t := arg_touched he
      refine setVec_good g k (closest_good (good_mono t.le go) (arg_used g he) right) (le_trans t.le ?_)
      unfold VObj.closest
      split
      · exact le_refl _
      · exact ((touched_new1 _ _).trans (touched_newOpt1 _ _)).le
  | closestCopy a right =>
    simp only [World.vecCall]
    split
    · exact g
    · rename_i h r he
      refine addVec_good g (returnVec_good fun v hv => ?_) ((arg_touched he).trans (returnVec_touched _ _)).le
      rw [(closest_axes hv).1, (closest_axes hv).2.1]
  | transform c a =>
    refine setVec_good g k (renew_good go fun v hv => ?_) ((touched_new1 _ _).trans (touched_newOpt1 _ _)).le
    cases hv
    rw [transform_length _ (gv _)]
    simp [VObj.view, read1_length]
  | transformCopy c a =>
    refine addVec_good g (returnVec_good fun v hv => ?_) (returnVec_touched _ _).le
    cases hv
    rw [transform_length _ (gv _)]
    rfl
  | cumulative q =>
    refine setVec_good g k (renew_good go fun v hv => ?_) ?_
    · rw [(cumulative_length (gv _) hv).1]
      simp [VObj.view, read1_length]
    · unfold VObj.renew
      split
      · exact le_refl _
      · exact ((touched_new1 _ _).trans (touched_newOpt1 _ _)).le
  | cumulativeCopy q =>
    refine addVec_good g (returnVec_good fun v hv => ?_) (returnVec_touched _ _).le
    rw [(cumulative_length (gv _) hv).1, (cumulative_length (gv _) hv).2]
  | setItem j x =>
    refine setVec_good g k ?_ ?_ <;> unfold VObj.setItem <;> split
    · exact ⟨go.1, go.2⟩
    · exact go
    · exact le_refl _
    · exact le_refl _
  | copy =>
    refine addVec_good g (returnVec_good fun v hv => ?_) (returnVec_touched _ _).le
    cases hv
    exact gv _

theorem Mat.new_axes {v : List (List ℚ)} {n : ℕ} {a b : Option (List ℚ)} {c : Option (List (List ℚ))} {u : Option MState} {m : Mat} (h : Mat.new v n a b c u = .ok m) :
    (ObjVal.mat m).axesFit ∧ (ObjVal.mat m).stdFits := by
  simp only [Mat.new] at h
  split at h
  · cases h
    exact Mat.consistent_axes (by assumption)
  · cases h

theorem cutCopy_axes {m r : Mat} {ax : ℕ} {a b : Option ℚ} {i j : Bool} (h : m.cutCopy ax a b i j = .ok r) : (ObjVal.mat r).axesFit ∧ (ObjVal.mat r).stdFits := by
  unfold Mat.cutCopy at h
  cases h1 : m.cut ax a b i j with
  | error e => simp [h1, bind, Except.bind] at h
  | ok c =>
    simp only [h1, bind, Except.bind] at h
    exact Mat.new_axes h

theorem rebinCopy_good {h : Memory} {o : MObj} (ax : ℕ) {mids : Option Ref1} (hm : ∀ x ∈ mids, x.buf < h.next) (q : Option ℚ) :
    ∀ n, (MObj.rebinCopy h o ax mids q).2 = .ok (some n) → (AnyObj.mat n).good (MObj.rebinCopy h o ax mids q).1.next := by
  unfold MObj.rebinCopy
  split
  · split
    · intro n hn
      cases hn
    · rename_i m em
      simp only
      have g1 := makeMat_good h m (rebinOneCopy_axes em).1
      have g2 := rebinOne_good g1 true (fun x hx => lt_of_lt_of_le (hm x hx) (makeMat_touched h m).le) q
      split
      · intro n hn
        cases hn
      · rename_i h2 n' e
        rw [e] at g2
        intro n hn
        cases hn
        exact g2
  · exact returnMat_good fun m hm => (rebinOneCopy_axes hm).1

theorem trapezoid_good {h : Memory} {o : MObj} (g : (AnyObj.mat o).good h.next) (a b c : ℚ) (d : Option ℚ) :
    (AnyObj.mat (MObj.trapezoid h o a b c d).2.1).good (MObj.trapezoid h o a b c d).1.next := by
  have gb := bufs_mat g
  unfold MObj.trapezoid
  split
  · exact g
  · rename_i t ht
    have ga := trapezoid_axes ((axes_view h (.mat o)).mpr g.1) ht
    refine good_mat ?_ ?_ ?_ ?_ ?_
    · have := rows_of_lengths (new2_lengths h t.values) t.Eg.length
      simp only [AnyObj.axes, new1_length]
      exact ⟨by rw [this.1, ga.1], this.2.mpr ga.2⟩
    · simp
      omega
    · simp
    · simp
    · intro x hx
      have := gb.2.2.2 x hx
      simp
      omega

theorem copy_good {h : Memory} {o : MObj} (g : (AnyObj.mat o).good h.next) : (AnyObj.mat (MObj.copy h o).2).good (MObj.copy h o).1.next := by
  have gm := makeMat_good h (o.view h) ((axes_view h (.mat o)).mpr g.1)
  unfold MObj.copy
  simp only
  split
  · rename_i e
    have gb := bufs_mat gm
    refine good_mat ⟨?_, gm.1.2⟩ gb.1 gb.2.1 gb.2.1 gb.2.2.2
    have f := (MObj.make_fresh h (o.view h)).2
    have h1 := congrArg (fun m : Mat => m.values.length) f
    have h2 := congrArg (fun m : Mat => m.Eg.length) f
    simp only [MObj.view, Memory.read2, Memory.read1, List.length_map] at h1 h2 ⊢
    have h3 := g.1.1
    rw [e] at h3
    omega
  · exact gm

theorem matCall_good {s : World} (g : s.good) {k : ℕ} {o : MObj} (hk : s.objs[k]? = some (.mat o)) (c : MCall) : (s.matCall k o c).1.good := by
  have go := g _ (List.mem_of_getElem? hk)
  cases c with
  | cut ax a b i j => exact setMat_good g k (r := (s.mem, MObj.cut s.mem o ax a b i j)) (matCut_good go ax a b i j) (le_refl _)
  | cutCopy ax a b i j => exact addMat_good g (returnMat_good fun m hm => (cutCopy_axes hm).1) (returnMat_touched _ _).le
  | rebin ax mids q =>
    simp only [World.matCall]
    split
    · exact g
    · rename_i h r he
      have t := argOpt_touched he
      exact setMat_good g k (rebinMat_good (good_mono t.le go) ax (argOpt_used g he) q) (t.trans (rebinMat_touched _ _ _ _ _)).le
  | rebinCopy ax mids q =>
    simp only [World.matCall]
    split
    · exact g
    · rename_i h r he
      exact addMat_good g (rebinCopy_good ax (argOpt_used g he) q) ((argOpt_touched he).trans (rebinCopy_touched _ _ _ _ _)).le
  | fill eg ex q =>
    have w := write_next s.mem o (((o.view s.mem).fill eg ex q).map Mat.values)
    exact setMat_good g k (by rw [w.1]; exact good_mono w.2 go) w.2
  | cutDiagonal p q =>
    have w := write_next s.mem o (((o.view s.mem).cutDiagonal p q true).2.map fun _ => ((o.view s.mem).cutDiagonal p q true).1.values)
    exact setMat_good g k (by rw [w.1]; exact good_mono w.2 go) w.2
  | removeNegative =>
    have gb := bufs_mat go
    refine setMat_good g k (good_mat ?_ ?_ ?_ ?_ ?_) (touched_new2 _ _).le
    · have := rows_of_lengths ((new2_lengths s.mem (removeNegativeQ (s.mem.read2 o.values))).trans ((removeNegative_lengths _).trans (read2_lengths s.mem o.values))) o.Eg.pos.length
      have ga := go.1
      simp only [AnyObj.axes] at ga
      exact ⟨by simp only [MObj.removeNegative, this.1, ga.1], this.2.mpr ga.2⟩
    · simp [MObj.removeNegative]
    · have := gb.2.1
      simp [MObj.removeNegative]
      omega
    · have := gb.2.2.1
      simp [MObj.removeNegative]
      omega
    · intro x hx
      have := gb.2.2.2 x hx
      simp [MObj.removeNegative]
      omega
  | toLowerBin =>
    have w := shift_next s.mem o (-1)
    exact setMat_good g k (by rw [w.1]; exact good_mono w.2 go) w.2
  | toMidBin =>
    have w := shift_next s.mem o 1
    exact setMat_good g k (by rw [w.1]; exact good_mono w.2 go) w.2
  | trapezoid a b c d =>
    refine setMat_good g k (trapezoid_good go a b c d) ?_
    unfold MObj.trapezoid
    split
    · exact le_refl _
    · exact ((touched_new2 _ _).trans ((touched_new1 _ _).trans (touched_new1 _ _))).le
  | copy =>
    refine addMat_good g (fun n hn => ?_) ?_
    · cases hn
      exact copy_good go
    · unfold MObj.copy
      simp only
      split <;> exact (makeMat_touched _ _).le

theorem worldStep_good {s : World} (g : s.good) (ex rt : ℚ → ℚ) (c : PyCall) : (s.step ex rt c).1.good := by
  cases c with
  | newVec values E std units =>
    simp only [World.step]
    split
    · exact g
    · rename_i h1 rv e1
      split
      · exact g
      · rename_i h2 re e2
        split
        · exact g
        · rename_i h3 rs e3
          have t1 := arg_touched e1
          have t2 := arg_touched e2
          have t3 := argOpt_touched e3
          exact addVec_good g (returnVec_good fun v hv => (Vec.new_axes hv).1) (t1.trans (t2.trans (t3.trans (returnVec_touched _ _)))).le
  | newMat values Eg Ex std state =>
    simp only [World.step]
    split
    · exact g
    · rename_i h1 rv e1
      split
      · exact g
      · rename_i h2 rg e2
        split
        · exact g
        · rename_i h3 rx e3
          split
          · exact g
          · rename_i h4 rs e4
            have t1 := arg2_touched e1
            have t2 := arg_touched e2
            have t3 := arg_touched e3
            have t4 := argOpt2_touched e4
            have t5 := makeMat_touched h4 ⟨h4.read2 rv, h4.read1 rg, h4.read1 rx, none, state⟩
            have t : s.mem.next ≤ _ := (t1.trans (t2.trans (t3.trans (t4.trans t5)))).le
            have gs : World.good ⟨h3, s.objs⟩ := fun o ho => good_mono (t1.trans (t2.trans t3)).le (g o ho)
            have us := argOpt2_used gs e4
            split
            · rename_i hc
              refine all_add (P := AnyObj.good _) (fun o ho => good_mono t (g o ho)) ?_
              have ax := (axes_view _ (.mat _)).mp (Mat.consistent_axes hc).1
              have f := (MObj.make_fresh h4 ⟨h4.read2 rv, h4.read1 rg, h4.read1 rx, none, state⟩).1.fine.used
              refine good_mat ax (f _ (by simp [AnyObj.bufs])) (f _ (by simp [AnyObj.bufs])) (f _ (by simp [AnyObj.bufs])) ?_
              intro x hx
              exact lt_of_lt_of_le (us x hx) t5.le
            · exact fun o ho => good_mono t (g o ho)
  | onVec k c =>
    simp only [World.step]
    split
    · rename_i o hk
      exact vecCall_good g hk ex rt c
    · exact g
  | onMat k c =>
    simp only [World.step]
    split
    · rename_i o hk
      exact matCall_good g hk c
    · exact g

theorem run_good {s : World} (g : s.good) (ex rt : ℚ → ℚ) (cs : List PyCall) : (s.run ex rt cs).1.good := by
  induction cs generalizing s with
  | nil => exact g
  | cons c cs ih => exact ih (worldStep_good g ex rt c)

theorem start_good : World.start.good := by simp [World.good, World.start]

/-! ### Values and axes -/

/-- After any program — arrays shared in any way, calls that raised and were caught, methods in place that stopped half way — every vector has one value for each energy and every
matrix one row for each excitation energy and one column for each gamma energy. -/
theorem C144_axes_fit (ex rt : ℚ → ℚ) (cs : List PyCall) : ∀ o ∈ (World.start.run ex rt cs).1.vals, o.axesFit := by
  intro o ho
  simp only [World.vals, List.mem_map] at ho
  obtain ⟨p, hp, rfl⟩ := ho
  exact (axes_view _ p).mpr (run_good start_good ex rt cs p hp).1

/-- A vector with standard deviations is rebinned (which raises at the check of the shapes) and a matrix twice along both axes with one array, the second time in vain. -/
def roughProgram : List PyCall :=
  [.newVec (.lit [1, 2, 3, 4]) (.lit [0, 1, 2, 3]) (some (.lit [1, 1, 1, 1])) "keV", .onVec 0 (.rebin none (some 2)),
    .newMat (.lit [[1, 2, 3, 4], [5, 6, 7, 8]]) (.lit [0, 1, 2, 3]) (.lit [0, 1]) none none, .onMat 1 (.rebin 2 (some (.vecE 0)) none), .onMat 1 (.cut 0 (some 3) none true true),
    .onMat 1 (.rebin 2 none (some 2))]

example : (World.start.run id id roughProgram).2.map Except.toBool = [true, false, true, true, true, false] ∧
    ((World.start.run id id roughProgram).1.vals.map fun o => match o with
      | .vec v => (v.values.length, v.E.length, v.std.map fun s => [s.length])
      | .mat m => (m.values.length, m.Eg.length, some (m.values.map List.length))) = [(2, 2, some [4]), (2, 1, some [1, 1])] := by decide +kernel

/-! ### Standard deviations -/

/-- Methods in place that leave `std` of a matrix as it was while values and axes get another shape: `cut`, ompy/matrix.py:546-550, `trapezoid`, 683-687. -/
def PyCall.cutsMat : PyCall → Option ℕ
  | .onMat k (.cut ..) => some k
  | .onMat k (.trapezoid ..) => some k
  | _ => none

/-- The object has standard deviations. -/
def AnyObj.hasStd : AnyObj → Bool
  | .vec o => o.std.isSome
  | .mat o => o.std.isSome

/-- A program without exceptions in which no matrix with standard deviations is cut in place. -/
def World.calm (ex rt : ℚ → ℚ) (s : World) : List PyCall → Prop
  | [] => True
  | c :: cs => (s.step ex rt c).2 = .ok () ∧ (∀ k o, c.cutsMat = some k → s.objs[k]? = some o → o.hasStd = false) ∧ World.calm ex rt (s.step ex rt c).1 cs

theorem stdSame_mat_none {o : MObj} (h : o.std = none) : (AnyObj.mat o).stdSame := by simp [AnyObj.stdSame, h]

theorem makeVec_std (h : Memory) (v : Vec ℚ) (hv : (ObjVal.vec v).stdFits) : (AnyObj.vec (VObj.make h v).2).stdSame := by
  refine (std_view (VObj.make h v).1 _).mp ?_
  simp only [AnyObj.view, (VObj.make_fresh h v).2, hv]

theorem makeMat_std (h : Memory) (m : Mat) (hv : (ObjVal.mat m).stdFits) : (AnyObj.mat (MObj.make h m).2).stdSame := by
  refine (std_view (MObj.make h m).1 _).mp ?_
  simp only [AnyObj.view, (MObj.make_fresh h m).2, hv]

theorem addVec_std {s : World} (g : ∀ o ∈ s.objs, o.stdSame) {r : Memory × Except Err (Option VObj)} (hr : ∀ o, r.2 = .ok (some o) → (AnyObj.vec o).stdSame) :
    ∀ o ∈ (s.addVec r).1.objs, o.stdSame := by
  obtain ⟨h, r⟩ := r
  rcases r with e | (_ | o)
  · exact g
  · exact g
  · exact all_add g (hr o rfl)

theorem addMat_std {s : World} (g : ∀ o ∈ s.objs, o.stdSame) {r : Memory × Except Err (Option MObj)} (hr : ∀ o, r.2 = .ok (some o) → (AnyObj.mat o).stdSame) :
    ∀ o ∈ (s.addMat r).1.objs, o.stdSame := by
  obtain ⟨h, r⟩ := r
  rcases r with e | (_ | o)
  · exact g
  · exact g
  · exact all_add g (hr o rfl)

theorem returnVec_std {h : Memory} {r : Except Err (Vec ℚ)} (hr : ∀ v, r = .ok v → (ObjVal.vec v).stdFits) :
    ∀ o, (returnVec h r).2 = .ok (some o) → (AnyObj.vec o).stdSame := by
  intro o ho
  cases r with
  | error e => simp [returnVec] at ho
  | ok v =>
    simp only [returnVec, Except.ok.injEq, Option.some.injEq] at ho
    subst ho
    exact makeVec_std h v (hr v rfl)

theorem returnMat_std {h : Memory} {r : Except Err Mat} (hr : ∀ v, r = .ok v → (ObjVal.mat v).stdFits) :
    ∀ o, (returnMat h r).2 = .ok (some o) → (AnyObj.mat o).stdSame := by
  intro o ho
  cases r with
  | error e => simp [returnMat] at ho
  | ok v =>
    simp only [returnMat, Except.ok.injEq, Option.some.injEq] at ho
    subst ho
    exact makeMat_std h v (hr v rfl)

theorem Vec.cut_std {v w : Vec ℚ} (hv : (ObjVal.vec v).stdFits) {a b : Option ℚ} (h : v.cut a b = .ok w) : (ObjVal.vec w).stdFits := by
  unfold Vec.cut at h
  cases h1 : orElseE a (listMin v.E) with
  | error e => simp [h1, bind, Except.bind] at h
  | ok lo =>
    cases h2 : orElseE b (listMax v.E) with
    | error e => simp [h1, h2, bind, Except.bind] at h
    | ok hi =>
      cases h3 : index v.E lo with
      | error e => simp [h1, h2, h3, bind, Except.bind] at h
      | ok i =>
        cases h4 : index v.E hi with
        | error e => simp [h1, h2, h3, h4, bind, Except.bind] at h
        | ok j =>
          simp only [h1, h2, h3, h4, bind, Except.bind, pure, Except.pure, Except.ok.injEq] at h
          subst h
          intro x hx
          simp only [Option.mem_def, Option.map_eq_some_iff] at hx
          obtain ⟨t, ht, rfl⟩ := hx
          exact pySlice_len (hv t ht) _ _

theorem transform_std {v : Vec ℚ} (ha : v.values.length = v.E.length) (hv : (ObjVal.vec v).stdFits) (ex : ℚ → ℚ) (c a : ℚ) : (ObjVal.vec (v.transform id ex c a)).stdFits := by
  intro x hx
  simp only [Vec.transform, Option.mem_def, Option.map_eq_some_iff] at hx
  obtain ⟨t, ht, rfl⟩ := hx
  have := hv t ht
  simp [Vec.transform, ha, this]

theorem cumulative_std {v w : Vec ℚ} (hv : (ObjVal.vec v).stdFits) {rt : ℚ → ℚ} {q : CumFactor} (h : v.cumulative id rt q = .ok w) : (ObjVal.vec w).stdFits := by
  unfold Vec.cumulative at h
  cases hf : cumFactor v.E q with
  | error e => simp [hf, bind, Except.bind] at h
  | ok x =>
    simp only [hf, bind, Except.bind, pure, Except.pure, Except.ok.injEq] at h
    subst h
    intro x hx
    simp only [Option.mem_def, Option.map_eq_some_iff] at hx
    obtain ⟨t, ht, rfl⟩ := hx
    have := hv t ht
    simp [cumsum, cumsumFrom_length, this]

theorem closest_std {v w : Vec ℚ} {e : List ℚ} {right : Bool} (h : v.closest e right = .ok w) : (ObjVal.vec w).stdFits := by
  have := closest_axes h
  intro x hx
  rw [this.2.2 x hx, this.1]

theorem newOpt1_length (h : Memory) (d : Option (List ℚ)) : (h.newOpt1 d).2.map (fun r => r.pos.length) = d.map List.length := by
  cases d with
  | none => rfl
  | some d => simp [Memory.newOpt1, new1_length]

/-- New arrays for `values` and `std` of a vector whose shapes fit. -/
theorem renewed_std (h : Memory) (v : Vec ℚ) (hv : (ObjVal.vec v).stdFits) (E : Ref1) (u : String) :
    (AnyObj.vec ⟨E, (h.new1 v.values).2, ((h.new1 v.values).1.newOpt1 v.std).2, u⟩).stdSame := by
  intro x hx
  have := newOpt1_length (h.new1 v.values).1 v.std
  simp only at hx
  rw [hx] at this
  cases hs : v.std with
  | none => simp [hs] at this
  | some t =>
    simp only [hs, Option.map_some, Option.some.injEq] at this
    simp only [new1_length, this]
    exact hv t hs

theorem verifyVec_std {v : Vec ℚ} (h : v.verify = .ok ()) : (ObjVal.vec v).stdFits := by
  unfold Vec.verify at h
  split at h
  · rename_i hc
    intro x hx
    have e : v.std = some x := hx
    simp only [Vec.consistent, e, Bool.and_eq_true, beq_iff_eq] at hc
    exact hc.2
  · cases h

theorem rebinVec_std {h : Memory} {o : VObj} (mids : Option Ref1) (q : Option ℚ) (hok : (VObj.rebin h o mids q).2.2 = .ok ()) :
    (AnyObj.vec (VObj.rebin h o mids q).2.1).stdSame := by
  unfold VObj.rebin at hok ⊢
  split
  · rename_i e
    rw [e] at hok
    cases hok
  · rename_i m em
    rw [em] at hok
    simp only at hok
    split
    · rename_i e
      rw [e] at hok
      cases hok
    · rename_i r er
      rw [er] at hok
      cases mids with
      | some a => exact (std_view _ (.vec _)).mp (verifyVec_std hok)
      | none => exact (std_view _ (.vec _)).mp (verifyVec_std hok)

theorem rebinOne_stdSame {h : Memory} {o : MObj} (isEx : Bool) (mids : Option Ref1) (q : Option ℚ) (hok : (MObj.rebinOne h o isEx mids q).2.2 = .ok ()) :
    (AnyObj.mat (MObj.rebinOne h o isEx mids q).2.1).stdSame := by
  unfold MObj.rebinOne at hok ⊢
  split
  · rename_i e
    rw [e] at hok
    cases hok
  · rename_i m em
    rw [em] at hok
    simp only at hok
    split
    · rename_i e
      rw [e] at hok
      cases hok
    · rename_i r er
      rw [er] at hok
      exact (std_view _ (.mat _)).mp (verify_axes hok).2

theorem rebinMat_std {h : Memory} {o : MObj} (ax : ℕ) (mids : Option Ref1) (q : Option ℚ) (hok : (MObj.rebin h o ax mids q).2.2 = .ok ()) :
    (AnyObj.mat (MObj.rebin h o ax mids q).2.1).stdSame := by
  unfold MObj.rebin at hok ⊢
  split
  · rename_i hax
    rw [if_pos hax] at hok
    split
    · rename_i e
      rw [e] at hok
      cases hok
    · rename_i h1 o1 e
      rw [e] at hok
      exact rebinOne_stdSame true mids q hok
  · rename_i hax
    rw [if_neg hax] at hok
    exact rebinOne_stdSame _ mids q hok

theorem vecCall_std {s : World} (ga : s.good) (g : ∀ o ∈ s.objs, o.stdSame) {k : ℕ} {o : VObj} (hk : s.objs[k]? = some (.vec o)) (ex rt : ℚ → ℚ) (c : VCall)
    (hok : (s.vecCall ex rt k o c).2 = .ok ()) : ∀ p ∈ (s.vecCall ex rt k o c).1.objs, p.stdSame := by
  have go := g _ (List.mem_of_getElem? hk)
  have gv : ∀ h : Memory, (o.view h).values.length = (o.view h).E.length := fun h => (axes_view h (.vec o)).mpr (ga _ (List.mem_of_getElem? hk)).1
  have gs : ∀ h : Memory, (ObjVal.vec (o.view h)).stdFits := fun h => (std_view h (.vec o)).mpr go
  cases c with
  | cut a b =>
    refine all_set g k ?_
    unfold VObj.cut
    simp only
    split
    · exact go
    · intro r hr
      simp only [Option.mem_def, Option.map_eq_some_iff] at hr
      obtain ⟨t, ht, rfl⟩ := hr
      exact pySlice_len (go t ht) _ _
  | cutCopy a b => exact addVec_std g (returnVec_std fun v hv => Vec.cut_std (gs _) hv)
  | rebin mids q =>
    simp only [World.vecCall] at hok ⊢
    split
    · exact g
    · rename_i h r he
      rw [he] at hok
      exact all_set g k (rebinVec_std r q hok)
  | rebinCopy mids q =>
    simp only [World.vecCall]
    split
    · exact g
    · exact addVec_std g (returnVec_std fun v hv => by simp [ObjVal.stdFits, (rebinCopyVec_axes hv).2])
  | toMeV =>
    refine all_set g k ?_
    unfold VObj.toMeV
    split
    · exact go
    · split <;> exact go
  | toKeV =>
    refine all_set g k ?_
    unfold VObj.toKeV
    split
    · exact go
    · split <;> exact go
  | closest a right =>
    simp only [World.vecCall]
    split
    · exact g
    · rename_i h r he
      refine all_set g k ?_
      unfold VObj.closest
      split
      · exact go
      · rename_i v hv
        exact renewed_std h v (closest_std hv) _ _
  | closestCopy a right =>
    simp only [World.vecCall]
    split
    · exact g
    · exact addVec_std g (returnVec_std fun v hv => closest_std hv)
  | transform c a => exact all_set g k (renewed_std s.mem _ (transform_std (gv _) (gs _) ex c a) _ _)
  | transformCopy c a =>
    refine addVec_std g (returnVec_std fun v hv => ?_)
    cases hv
    exact transform_std (gv _) (gs _) ex c a
  | cumulative q =>
    refine all_set g k ?_
    unfold VObj.renew
    split
    · exact go
    · rename_i v hv
      exact renewed_std s.mem v (cumulative_std (gs _) hv) _ _
  | cumulativeCopy q => exact addVec_std g (returnVec_std fun v hv => cumulative_std (gs _) hv)
  | setItem j x =>
    refine all_set g k ?_
    unfold VObj.setItem
    split <;> exact go
  | copy =>
    refine addVec_std g (returnVec_std fun v hv => ?_)
    cases hv
    exact gs _

theorem rebinCopy_std {h : Memory} {o : MObj} (ax : ℕ) (mids : Option Ref1) (q : Option ℚ) :
    ∀ n, (MObj.rebinCopy h o ax mids q).2 = .ok (some n) → (AnyObj.mat n).stdSame := by
  unfold MObj.rebinCopy
  split
  · split
    · intro n hn
      cases hn
    · rename_i m em
      simp only
      have g2 := rebinOne_stdSame (h := (MObj.make h m).1) (o := (MObj.make h m).2) true mids q
      split
      · intro n hn
        cases hn
      · rename_i h2 n' e
        rw [e] at g2
        intro n hn
        cases hn
        exact g2 rfl
  · exact returnMat_std fun m hm => by simp [ObjVal.stdFits, (rebinOneCopy_axes hm).2]

theorem matCall_std {s : World} (g : ∀ o ∈ s.objs, o.stdSame) {k : ℕ} {o : MObj} (hk : s.objs[k]? = some (.mat o)) (c : MCall)
    (hok : (s.matCall k o c).2 = .ok ()) (hc : (PyCall.onMat k c).cutsMat = some k → o.std = none) : ∀ p ∈ (s.matCall k o c).1.objs, p.stdSame := by
  have go := g _ (List.mem_of_getElem? hk)
  have gs : ∀ h : Memory, (ObjVal.mat (o.view h)).stdFits := fun h => (std_view h (.mat o)).mpr go
  cases c with
  | cut ax a b i j =>
    refine all_set g k (stdSame_mat_none ?_)
    have := hc rfl
    unfold MObj.cut
    split
    · exact this
    · split
      · exact this
      · split <;> exact this
  | cutCopy ax a b i j => exact addMat_std g (returnMat_std fun m hm => (cutCopy_axes hm).2)
  | rebin ax mids q =>
    simp only [World.matCall] at hok ⊢
    split
    · exact g
    · rename_i h r he
      rw [he] at hok
      exact all_set g k (rebinMat_std ax r q hok)
  | rebinCopy ax mids q =>
    simp only [World.matCall]
    split
    · exact g
    · exact addMat_std g (rebinCopy_std ax _ q)
  | fill eg ex q => exact all_set g k (by rw [(write_next s.mem o _).1]; exact go)
  | cutDiagonal p q => exact all_set g k (by rw [(write_next s.mem o _).1]; exact go)
  | removeNegative =>
    refine all_set g k ?_
    intro x hx
    simp only [MObj.removeNegative]
    rw [new2_lengths, removeNegative_lengths, read2_lengths]
    exact go x hx
  | toLowerBin => exact all_set g k (by rw [(shift_next s.mem o _).1]; exact go)
  | toMidBin => exact all_set g k (by rw [(shift_next s.mem o _).1]; exact go)
  | trapezoid a b c d =>
    refine all_set g k (stdSame_mat_none ?_)
    have := hc rfl
    unfold MObj.trapezoid
    split <;> exact this
  | copy =>
    refine addMat_std g (fun n hn => ?_)
    cases hn
    have m := makeMat_std s.mem (o.view s.mem) (gs _)
    unfold MObj.copy
    simp only
    split
    · exact m
    · exact m

theorem step_std {s : World} (ga : s.good) (g : ∀ o ∈ s.objs, o.stdSame) (ex rt : ℚ → ℚ) (c : PyCall) (hok : (s.step ex rt c).2 = .ok ())
    (hc : ∀ k o, c.cutsMat = some k → s.objs[k]? = some o → o.hasStd = false) : ∀ p ∈ (s.step ex rt c).1.objs, p.stdSame := by
  cases c with
  | newVec values E std units =>
    simp only [World.step]
    split
    · exact g
    · split
      · exact g
      · split
        · exact g
        · exact addVec_std g (returnVec_std fun v hv => (Vec.new_axes hv).2)
  | newMat values Eg Ex std state =>
    simp only [World.step]
    split
    · exact g
    · split
      · exact g
      · split
        · exact g
        · split
          · exact g
          · split
            · rename_i hc
              exact all_add g ((std_view _ (.mat _)).mp (Mat.consistent_axes hc).2)
            · exact g
  | onVec k c =>
    simp only [World.step] at hok ⊢
    split
    · rename_i o hk
      rw [hk] at hok
      exact vecCall_std ga g hk ex rt c hok
    · exact g
  | onMat k c =>
    simp only [World.step] at hok ⊢
    split
    · rename_i o hk
      rw [hk] at hok
      refine matCall_std g hk c hok fun h => ?_
      simpa [AnyObj.hasStd] using hc k _ h hk
    · exact g

/-- After a program without exceptions in which no matrix with standard deviations is cut in place, all standard deviations have the shape of the values.  Without these conditions
this fails, see below. -/
theorem C144_std_fits_partial (ex rt : ℚ → ℚ) (cs : List PyCall) (h : World.start.calm ex rt cs) : ∀ o ∈ (World.start.run ex rt cs).1.vals, o.stdFits := by
  have key : ∀ (cs : List PyCall) (s : World), s.good → (∀ o ∈ s.objs, o.stdSame) → s.calm ex rt cs → ∀ o ∈ (s.run ex rt cs).1.objs, o.stdSame := by
    intro cs
    induction cs with
    | nil => exact fun s _ g _ => g
    | cons c cs ih => exact fun s ga g h => ih _ (worldStep_good ga ex rt c) (step_std ga g ex rt c h.1 h.2.1) h.2.2
  intro o ho
  simp only [World.vals, List.mem_map] at ho
  obtain ⟨p, hp, rfl⟩ := ho
  exact (std_view _ p).mpr (key cs _ start_good (by simp [World.start]) h p hp)

theorem ok_of_toBool {r : Except Err Unit} (h : r.toBool = true) : r = .ok () := by
  cases r with
  | error e => cases h
  | ok u => rfl

/-- A matrix with standard deviations is rebinned to as many bins, a vector cut and summed up. -/
example : World.start.calm id id
    [.newMat (.lit [[1, 2], [3, 4]]) (.lit [0, 2]) (.lit [0, 4]) (some (.lit [[1, 1], [1, 1]])) none, .onMat 0 (.rebin 0 (some (.lit [1, 3])) none),
      .newVec (.lit [1, 2]) (.matEg 0) (some (.lit [1, 1])) "keV", .onVec 1 (.cut (some 2) none), .onVec 1 (.cumulative .none)] :=
  ⟨ok_of_toBool (by decide +kernel), by simp [PyCall.cutsMat], ok_of_toBool (by decide +kernel), by simp [PyCall.cutsMat], ok_of_toBool (by decide +kernel), by simp [PyCall.cutsMat],
    ok_of_toBool (by decide +kernel), by simp [PyCall.cutsMat], ok_of_toBool (by decide +kernel), by simp [PyCall.cutsMat], trivial⟩

/-- Standard deviations of another shape than the values: a matrix after `cut` or `trapezoid` in place, none of which raises, and a vector after `rebin` in place, which raises. -/
theorem C144_std_fits_fails :
    (∃ cs : List PyCall, (World.start.run id id cs).2.all Except.toBool = true ∧
      (World.start.run id id cs).1.vals = [.mat ⟨[[2], [4]], [2], [0, 4], some [[1, 1], [1, 1]], none⟩]) ∧
    (∃ cs : List PyCall, (World.start.run id id cs).2.all Except.toBool = true ∧
      (World.start.run id id cs).1.vals = [.mat ⟨[[3, 0]], [0, 2], [4], some [[1, 1], [1, 1]], none⟩]) ∧
    ∃ cs : List PyCall, (World.start.run id id cs).2.map Except.toBool = [true, false] ∧
      (World.start.run id id cs).1.vals = [.vec ⟨[0, 3], [3, 7], some [1, 1, 1, 1], "keV"⟩] := by
  refine ⟨⟨[.newMat (.lit [[1, 2], [3, 4]]) (.lit [0, 2]) (.lit [0, 4]) (some (.lit [[1, 1], [1, 1]])) none, .onMat 0 (.cut 0 (some 2) none true true)], ?_⟩,
    ⟨[.newMat (.lit [[1, 2], [3, 4]]) (.lit [0, 2]) (.lit [0, 4]) (some (.lit [[1, 1], [1, 1]])) none, .onMat 0 (.trapezoid 4 4 0 (some 2))], ?_⟩,
    [.newVec (.lit [1, 2, 3, 4]) (.lit [0, 1, 2, 3]) (some (.lit [1, 1, 1, 1])) "keV", .onVec 0 (.rebin none (some 2))], ?_⟩ <;> decide +kernel

end Ompy
