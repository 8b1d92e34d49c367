import Verif.CppArrays

/-!
# Properties of the arrays handed to C++

C129: which memory `iterate` works on, what it may change, and how elements of arrays are found.
-/

namespace Ompy

/-! ## What is meant -/

/-- The array can be handed over without a copy. -/
def NpArr.Shared (t : CType) (a : NpArr) : Prop := a.ctype = t ∧ a.cOrder = true

/-- The elements C++ sees: those of the array if it is shared, converted ones otherwise. -/
def Seen (t : CType) (m : Mem) (a : NpArr) (f : ℕ → ℚ) : Prop :=
  (a.Shared t → f = m.cell a.buf) ∧ (¬ a.Shared t → ∀ k, f k = castTo t (m.cell a.buf k))

/-- The C++ function writes to the memory of `rho` and `sig` only. -/
def OnlyWrites (core : IterCore) : Prop :=
  ∀ a m b, b ≠ a.rho.data → b ≠ a.sig.data → (core a m).1.cell b = m.cell b

/-- The array is accepted by the class `Array`: at most three axes, and not both read-only and shared. -/
def NpArr.Accepted (t : CType) (a : NpArr) : Prop := a.shape.length ≤ 3 ∧ (a.Shared t → a.writable = true)

/-- Blocks in use. -/
def IterArgs.Allocated (m : Mem) (a : IterArgs NpArr) : Prop :=
  a.FgN.buf < m.next ∧ a.sFgN.buf < m.next ∧ a.rho.buf < m.next ∧ a.sig.buf < m.next ∧ a.igmax.buf < m.next

instance (t : CType) (a : NpArr) : Decidable (a.Shared t) := by unfold NpArr.Shared; infer_instance

/-! ## Conversions -/

lemma forcecast_shared {t : CType} {a : NpArr} (h : a.Shared t) (m : Mem) : forcecast t m a = (m, a) := if_pos h

lemma forcecast_copy {t : CType} {a : NpArr} (h : ¬ a.Shared t) (m : Mem) :
    forcecast t m a = (⟨m.next + 1, Function.update m.cell m.next fun k => castTo t (m.cell a.buf k)⟩,
      ⟨t, true, true, a.shape, m.next⟩) := if_neg h

lemma forcecast_next (t : CType) (m : Mem) (a : NpArr) : m.next ≤ (forcecast t m a).1.next := by
  by_cases h : a.Shared t
  · rw [forcecast_shared h]
  · rw [forcecast_copy h]
    exact Nat.le_succ _

lemma forcecast_old (t : CType) (m : Mem) (a : NpArr) {b : ℕ} (hb : b < m.next) :
    (forcecast t m a).1.cell b = m.cell b := by
  by_cases h : a.Shared t
  · rw [forcecast_shared h]
  · rw [forcecast_copy h]
    exact Function.update_of_ne hb.ne _ _

lemma forcecast_seen (t : CType) (m : Mem) (a : NpArr) : Seen t m a ((forcecast t m a).1.cell (forcecast t m a).2.buf) := by
  refine ⟨fun h => ?_, fun h k => ?_⟩
  · rw [forcecast_shared h]
  · rw [forcecast_copy h]
    simp

lemma forcecast_buf (t : CType) (m : Mem) (a : NpArr) (ha : a.buf < m.next) :
    (forcecast t m a).2.buf < (forcecast t m a).1.next := by
  by_cases h : a.Shared t
  · rw [forcecast_shared h]
    exact ha
  · rw [forcecast_copy h]
    exact Nat.lt_succ_self _

lemma forcecast_new {t : CType} {a : NpArr} (h : ¬ a.Shared t) (m : Mem) : (forcecast t m a).2.buf = m.next := by
  rw [forcecast_copy h]

lemma forcecast_shape (t : CType) (m : Mem) (a : NpArr) : (forcecast t m a).2.shape = a.shape := by
  by_cases h : a.Shared t
  · rw [forcecast_shared h]
  · rw [forcecast_copy h]

lemma cppArr_accepted {t : CType} {a : NpArr} (h : a.Accepted t) (m : Mem) :
    cppArr (forcecast t m a).2 = .ok ⟨(forcecast t m a).2.buf, a.shape.length, a.shape.getD 0 1, a.shape.getD 1 1,
      a.shape.getD 2 1⟩ := by
  have w : (forcecast t m a).2.writable = true := by
    by_cases hs : a.Shared t
    · rw [forcecast_shared hs]
      exact h.2 hs
    · rw [forcecast_copy hs]
  unfold cppArr
  rw [if_neg (by rw [w]; decide), forcecast_shape, if_neg (by have := h.1; omega)]

lemma cppArr_refused {t : CType} {a : NpArr} (h : ¬ a.Accepted t) (m : Mem) : ∃ e, cppArr (forcecast t m a).2 = .error e := by
  unfold cppArr
  split
  · exact ⟨_, rfl⟩
  · next w =>
    rw [if_pos]
    · exact ⟨_, rfl⟩
    · rw [forcecast_shape]
      by_contra hl
      refine h ⟨by omega, fun hs => ?_⟩
      rw [forcecast_shared hs] at w
      simpa using w

/-! ## The call -/

/-- The object `Array` made of an array whose memory is `b`. -/
def NpArr.view (a : NpArr) (b : ℕ) : CppArr := ⟨b, a.shape.length, a.shape.getD 0 1, a.shape.getD 1 1, a.shape.getD 2 1⟩

/-- **C129.** If the arrays are accepted, `iterate` runs on arrays of the same shapes.  It sees the elements of the arrays
handed in, converted where the type or the order differ, and works on the memory of every array that is shared.  All
memory in use is as before when it starts. -/
theorem C129_call (core : IterCore) (m : Mem) (a : IterArgs NpArr) (hal : a.Allocated m) (h1 : a.FgN.Accepted .f64)
    (h2 : a.sFgN.Accepted .f64) (h3 : a.rho.Accepted .f64) (h4 : a.sig.Accepted .f64) (h5 : a.igmax.Accepted .i32) :
    ∃ (m' : Mem) (b1 b2 b3 b4 b5 : ℕ),
      iterateProxy core m a = core ⟨a.FgN.view b1, a.sFgN.view b2, a.rho.view b3, a.sig.view b4, a.igmax.view b5⟩ m' ∧
      (∀ b < m.next, m'.cell b = m.cell b) ∧
      Seen .f64 m a.FgN (m'.cell b1) ∧ Seen .f64 m a.sFgN (m'.cell b2) ∧ Seen .f64 m a.rho (m'.cell b3) ∧
      Seen .f64 m a.sig (m'.cell b4) ∧ Seen .i32 m a.igmax (m'.cell b5) ∧
      (a.rho.Shared .f64 → b3 = a.rho.buf) ∧ (a.sig.Shared .f64 → b4 = a.sig.buf) ∧
      (¬ a.rho.Shared .f64 → m.next ≤ b3) ∧ (¬ a.sig.Shared .f64 → m.next ≤ b4) := by
  obtain ⟨a1, a2, a3, a4, a5⟩ := hal
  have n1 := forcecast_next .f64 m a.FgN
  set c1 := forcecast .f64 m a.FgN with e1
  have n2 := forcecast_next .f64 c1.1 a.sFgN
  set c2 := forcecast .f64 c1.1 a.sFgN with e2
  have n3 := forcecast_next .f64 c2.1 a.rho
  set c3 := forcecast .f64 c2.1 a.rho with e3
  have n4 := forcecast_next .f64 c3.1 a.sig
  set c4 := forcecast .f64 c3.1 a.sig with e4
  have n5 := forcecast_next .i32 c4.1 a.igmax
  set c5 := forcecast .i32 c4.1 a.igmax with e5
  have k1 : ∀ b < m.next, c1.1.cell b = m.cell b := fun b hb => forcecast_old _ _ _ hb
  have k2 : ∀ b < c1.1.next, c2.1.cell b = c1.1.cell b := fun b hb => forcecast_old _ _ _ hb
  have k3 : ∀ b < c2.1.next, c3.1.cell b = c2.1.cell b := fun b hb => forcecast_old _ _ _ hb
  have k4 : ∀ b < c3.1.next, c4.1.cell b = c3.1.cell b := fun b hb => forcecast_old _ _ _ hb
  have k5 : ∀ b < c4.1.next, c5.1.cell b = c4.1.cell b := fun b hb => forcecast_old _ _ _ hb
  have u1 := forcecast_buf .f64 m a.FgN a1
  have u2 := forcecast_buf .f64 c1.1 a.sFgN (by omega)
  have u3 := forcecast_buf .f64 c2.1 a.rho (by omega)
  have u4 := forcecast_buf .f64 c3.1 a.sig (by omega)
  rw [← e1] at u1
  rw [← e2] at u2
  rw [← e3] at u3
  rw [← e4] at u4
  have lift : ∀ {t : CType} {m1 : Mem} {x : NpArr} {f : ℕ → ℚ}, m1.cell x.buf = m.cell x.buf → Seen t m1 x f → Seen t m x f := by
    intro t m1 x f h hs
    unfold Seen at hs ⊢
    rwa [h] at hs
  refine ⟨c5.1, c1.2.buf, c2.2.buf, c3.2.buf, c4.2.buf, c5.2.buf, ?_, fun b hb => ?_, ?_, ?_, ?_, ?_, ?_, ?_, ?_, ?_, ?_⟩
  · unfold iterateProxy
    simp only [← e1]
    simp only [← e2]
    simp only [← e3]
    simp only [← e4]
    simp only [← e5]
    have r1 := cppArr_accepted h1 m
    have r2 := cppArr_accepted h2 c1.1
    have r3 := cppArr_accepted h3 c2.1
    have r4 := cppArr_accepted h4 c3.1
    have r5 := cppArr_accepted h5 c4.1
    rw [← e1] at r1
    rw [← e2] at r2
    rw [← e3] at r3
    rw [← e4] at r4
    rw [← e5] at r5
    rw [r1, r2, r3, r4, r5]
    rfl
  · rw [k5 b (by omega), k4 b (by omega), k3 b (by omega), k2 b (by omega), k1 b hb]
  · rw [k5 _ (by omega), k4 _ (by omega), k3 _ (by omega), k2 _ u1]
    exact forcecast_seen _ _ _
  · rw [k5 _ (by omega), k4 _ (by omega), k3 _ u2]
    exact lift (k1 _ a2) (forcecast_seen _ _ _)
  · rw [k5 _ (by omega), k4 _ u3]
    exact lift (by rw [k2 _ (by omega), k1 _ a3]) (forcecast_seen _ _ _)
  · rw [k5 _ u4]
    exact lift (by rw [k3 _ (by omega), k2 _ (by omega), k1 _ a4]) (forcecast_seen _ _ _)
  · exact lift (by rw [k4 _ (by omega), k3 _ (by omega), k2 _ (by omega), k1 _ a5]) (forcecast_seen _ _ _)
  · intro h
    rw [e3, forcecast_shared h]
  · intro h
    rw [e4, forcecast_shared h]
  · intro h
    rw [e3, forcecast_new h]
    omega
  · intro h
    rw [e4, forcecast_new h]
    omega

/-- **C129.** An array with more than three axes, or one that is shared and read-only, even one that is only read, is an
error, and no memory in use changes. -/
theorem C129_refused (core : IterCore) (m : Mem) (a : IterArgs NpArr)
    (h : ¬ (a.FgN.Accepted .f64 ∧ a.sFgN.Accepted .f64 ∧ a.rho.Accepted .f64 ∧ a.sig.Accepted .f64 ∧ a.igmax.Accepted .i32)) :
    (∃ e, (iterateProxy core m a).2 = .error e) ∧ ∀ b < m.next, (iterateProxy core m a).1.cell b = m.cell b := by
  have n1 := forcecast_next .f64 m a.FgN
  set c1 := forcecast .f64 m a.FgN with e1
  have n2 := forcecast_next .f64 c1.1 a.sFgN
  set c2 := forcecast .f64 c1.1 a.sFgN with e2
  have n3 := forcecast_next .f64 c2.1 a.rho
  set c3 := forcecast .f64 c2.1 a.rho with e3
  have n4 := forcecast_next .f64 c3.1 a.sig
  set c4 := forcecast .f64 c3.1 a.sig with e4
  set c5 := forcecast .i32 c4.1 a.igmax with e5
  have keep : ∀ b < m.next, c5.1.cell b = m.cell b := by
    intro b hb
    rw [e5, forcecast_old _ _ _ (by omega), e4, forcecast_old _ _ _ (by omega), e3, forcecast_old _ _ _ (by omega), e2,
      forcecast_old _ _ _ (by omega), e1, forcecast_old _ _ _ hb]
  have bad : (∃ e, cppArr c1.2 = .error e) ∨ (∃ e, cppArr c2.2 = .error e) ∨ (∃ e, cppArr c3.2 = .error e) ∨
      (∃ e, cppArr c4.2 = .error e) ∨ ∃ e, cppArr c5.2 = .error e := by
    by_cases h1 : a.FgN.Accepted .f64
    · by_cases h2 : a.sFgN.Accepted .f64
      · by_cases h3 : a.rho.Accepted .f64
        · by_cases h4 : a.sig.Accepted .f64
          · exact .inr (.inr (.inr (.inr (cppArr_refused (fun h5 => h ⟨h1, h2, h3, h4, h5⟩) _))))
          · exact .inr (.inr (.inr (.inl (cppArr_refused h4 _))))
        · exact .inr (.inr (.inl (cppArr_refused h3 _)))
      · exact .inr (.inl (cppArr_refused h2 _))
    · exact .inl (cppArr_refused h1 _)
  unfold iterateProxy
  simp only [← e1]
  simp only [← e2]
  simp only [← e3]
  simp only [← e4]
  simp only [← e5]
  rcases r1 : cppArr c1.2 with e | x1
  · exact ⟨⟨e, rfl⟩, keep⟩
  rcases r2 : cppArr c2.2 with e | x2
  · exact ⟨⟨e, rfl⟩, keep⟩
  rcases r3 : cppArr c3.2 with e | x3
  · exact ⟨⟨e, rfl⟩, keep⟩
  rcases r4 : cppArr c4.2 with e | x4
  · exact ⟨⟨e, rfl⟩, keep⟩
  rcases r5 : cppArr c5.2 with e | x5
  · exact ⟨⟨e, rfl⟩, keep⟩
  simp [r1, r2, r3, r4, r5] at bad

/-- **C129.** The first array that is shared and read-only is reported as `ValueError`, also if it is only read. -/
theorem C129_readonly (core : IterCore) (m : Mem) (a : IterArgs NpArr) (h : a.FgN.Shared .f64)
    (hw : a.FgN.writable = false) : (iterateProxy core m a).2 = .error .valueError := by
  unfold iterateProxy
  have : cppArr (forcecast .f64 m a.FgN).2 = .error .valueError := by
    rw [forcecast_shared h, cppArr, if_pos hw]
  simp only [this]

/-- **C129.** Whatever the types and orders of the arrays are, no memory in use except that of `rho` and `sig` changes:
the spectra, their uncertainties and the limits are inputs only. -/
theorem C129_inputs (core : IterCore) (hc : OnlyWrites core) (m : Mem) (a : IterArgs NpArr) (hal : a.Allocated m) {b : ℕ}
    (hb : b < m.next) (hr : b ≠ a.rho.buf) (hs : b ≠ a.sig.buf) : (iterateProxy core m a).1.cell b = m.cell b := by
  by_cases h : a.FgN.Accepted .f64 ∧ a.sFgN.Accepted .f64 ∧ a.rho.Accepted .f64 ∧ a.sig.Accepted .f64 ∧ a.igmax.Accepted .i32
  · obtain ⟨m', b1, b2, b3, b4, b5, e, k, -, -, -, -, -, s3, s4, n3, n4⟩ :=
      C129_call core m a hal h.1 h.2.1 h.2.2.1 h.2.2.2.1 h.2.2.2.2
    rw [e, hc, k b hb]
    · show b ≠ b3
      by_cases hx : a.rho.Shared .f64
      · rwa [s3 hx]
      · have := n3 hx
        omega
    · show b ≠ b4
      by_cases hx : a.sig.Shared .f64
      · rwa [s4 hx]
      · have := n4 hx
        omega
  · exact (C129_refused core m a h).2 b hb

/-- **C129 (disagreement).** The results are written into the arrays handed in only if these are of type `double` and
in C order; otherwise they go to a copy and are lost without any error: for every outcome the array is as before. -/
theorem C129_lost_fails (core : IterCore) (hc : OnlyWrites core) (m : Mem) (a : IterArgs NpArr) (hal : a.Allocated m)
    (hd : a.rho.buf ≠ a.sig.buf) :
    (¬ a.rho.Shared .f64 → (iterateProxy core m a).1.cell a.rho.buf = m.cell a.rho.buf) ∧
    (¬ a.sig.Shared .f64 → (iterateProxy core m a).1.cell a.sig.buf = m.cell a.sig.buf) := by
  by_cases h : a.FgN.Accepted .f64 ∧ a.sFgN.Accepted .f64 ∧ a.rho.Accepted .f64 ∧ a.sig.Accepted .f64 ∧ a.igmax.Accepted .i32
  · obtain ⟨m', b1, b2, b3, b4, b5, e, k, -, -, -, -, -, s3, s4, n3, n4⟩ :=
      C129_call core m a hal h.1 h.2.1 h.2.2.1 h.2.2.2.1 h.2.2.2.2
    obtain ⟨-, -, a3, a4, -⟩ := hal
    refine ⟨fun hx => ?_, fun hx => ?_⟩
    · have := n3 hx
      rw [e, hc, k _ a3]
      · show _ ≠ b3
        omega
      · show _ ≠ b4
        by_cases hy : a.sig.Shared .f64
        · rwa [s4 hy]
        · have := n4 hy
          omega
    · have := n4 hx
      rw [e, hc, k _ a4]
      · show _ ≠ b3
        by_cases hy : a.rho.Shared .f64
        · rw [s3 hy]
          exact hd.symm
        · have := n3 hy
          omega
      · show _ ≠ b4
        omega
  · obtain ⟨-, -, a3, a4, -⟩ := hal
    exact ⟨fun _ => (C129_refused core m a h).2 _ a3, fun _ => (C129_refused core m a h).2 _ a4⟩

/-- **C129.** Limits that fit into 32 bits are seen as they are, all others are not. -/
theorem C129_int (z : ℤ) : toInt32 (z : ℚ) = z ↔ -2 ^ 31 ≤ z ∧ z < 2 ^ 31 := by
  have t : truncZ (z : ℚ) = z := by
    unfold truncZ
    split <;> simp
  unfold toInt32
  rw [t]
  constructor
  · intro h
    have h1 := Int.emod_nonneg (z + 2 ^ 31) (by norm_num : (2 : ℤ) ^ 32 ≠ 0)
    have h2 := Int.emod_lt_of_pos (z + 2 ^ 31) (by norm_num : (0 : ℤ) < 2 ^ 32)
    norm_num at h1 h2 h ⊢
    omega
  · rintro ⟨h1, h2⟩
    norm_num at h1 h2 ⊢
    omega

/-! ## The iteration of `RhoSigChi.lean` -/

lemma iterateCore_onlyWrites (junk : ℕ → ℚ) (jmin jmax igmin iu0 : ℤ) (nit : ℕ) :
    OnlyWrites (iterateCore junk jmin jmax igmin iu0 nit) := by
  intro a m b h1 h2
  unfold iterateCore
  dsimp only
  split
  · show Function.update _ _ _ _ = _
    rw [Function.update_of_ne h2, Function.update_of_ne h1]
  · show Function.update _ _ _ _ = _
    rw [Function.update_of_ne h2, Function.update_of_ne h1]

/-- An array made by `np.zeros` with two axes and then filled. -/
def NpArr.Fresh2 (a : NpArr) (nx ny : ℕ) : Prop := a.ctype = .f64 ∧ a.cOrder = true ∧ a.writable = true ∧ a.shape = [nx, ny]

/-- **C129.** As `pyrhosigchi` calls it, with arrays of doubles from `np.zeros` and limits of Python's integer type below
`2^31`, the iteration runs on the elements of these arrays, and the arrays hold its results afterwards. -/
theorem C129_results (junk : ℕ → ℚ) (jmin jmax igmin iu0 : ℤ) (nit : ℕ) (m : Mem) (a : IterArgs NpArr) (hal : a.Allocated m)
    {nF mF nS mS nR mR nT mT n : ℕ} (hF : a.FgN.Fresh2 nF mF) (hS : a.sFgN.Fresh2 nS mS) (hR : a.rho.Fresh2 nR mR)
    (hT : a.sig.Fresh2 nT mT) (hi : a.igmax.ctype = .i64) (hn : a.igmax.shape = [n]) (hd : a.rho.buf ≠ a.sig.buf)
    (lim : ℕ → ℤ) (hl : ∀ k, m.cell a.igmax.buf k = lim k) (hb : ∀ k < n, -2 ^ 31 ≤ lim k ∧ lim k < 2 ^ 31) {r : CArr × CArr}
    (h : RscIn.iterate cppAccess ⟨⟨nF, mF, m.cell a.FgN.buf⟩, ⟨nS, mS, m.cell a.sFgN.buf⟩, jmin, jmax, igmin,
      (List.range n).map lim, iu0⟩ ⟨nR, mR, m.cell a.rho.buf⟩ ⟨nT, mT, m.cell a.sig.buf⟩ nit = .ok r) :
    (iterateProxy (iterateCore junk jmin jmax igmin iu0 nit) m a).2 = .ok () ∧
    (iterateProxy (iterateCore junk jmin jmax igmin iu0 nit) m a).1.cell a.rho.buf = r.1.cell ∧
    (iterateProxy (iterateCore junk jmin jmax igmin iu0 nit) m a).1.cell a.sig.buf = r.2.cell := by
  have acc : ∀ {x : NpArr} {p q : ℕ}, x.Fresh2 p q → x.Accepted .f64 := fun hx =>
    ⟨by rw [hx.2.2.2]; simp, fun _ => hx.2.2.1⟩
  have sh : ∀ {x : NpArr} {p q : ℕ}, x.Fresh2 p q → x.Shared .f64 := fun hx => ⟨hx.1, hx.2.1⟩
  have nsh : ¬ a.igmax.Shared .i32 := fun hx => by
    rw [hx.1] at hi
    cases hi
  obtain ⟨m', b1, b2, b3, b4, b5, e, k, s1, s2, s3, s4, s5, t3, t4, -, -⟩ :=
    C129_call (iterateCore junk jmin jmax igmin iu0 nit) m a hal (acc hF) (acc hS) (acc hR) (acc hT)
      ⟨by rw [hn]; simp, fun hx => absurd hx nsh⟩
  have v1 := s1.1 (sh hF)
  have v2 := s2.1 (sh hS)
  have v3 := s3.1 (sh hR)
  have v4 := s4.1 (sh hT)
  have ig : (List.range n).map (fun k => truncZ (m'.cell b5 k)) = (List.range n).map lim := by
    apply List.map_congr_left
    intro k hk
    rw [s5.2 nsh k, hl]
    show truncZ ((toInt32 (lim k : ℚ) : ℤ) : ℚ) = lim k
    rw [(C129_int (lim k)).2 (hb k (List.mem_range.1 hk))]
    unfold truncZ
    split <;> simp
  have run : iterateProxy (iterateCore junk jmin jmax igmin iu0 nit) m a =
      (⟨m'.next, Function.update (Function.update m'.cell b3 r.1.cell) b4 r.2.cell⟩, .ok ()) := by
    rw [e]
    unfold iterateCore
    simp only [NpArr.view, CppArr.view, CppArr.size, hF.2.2.2, hS.2.2.2, hR.2.2.2, hT.2.2.2, hn, v1, v2, v3, v4,
      List.getD_cons_zero, List.getD_cons_succ, List.getD_nil, mul_one, ig, h]
  rw [run]
  rw [t3 (sh hR), t4 (sh hT)]
  refine ⟨rfl, ?_, ?_⟩
  · show Function.update _ _ _ _ = _
    rw [Function.update_of_ne hd, Function.update_self]
  · show Function.update _ _ _ _ = _
    rw [Function.update_self]

/-- Memory for the examples: spectra and uncertainties 1, first guesses 2 and 1, limit 1. -/
def iterMem : Mem := ⟨5, fun b k => if b = 2 ∧ k = 0 then 2 else if b = 2 ∨ b = 3 then (if k = 0 then 1 else 0) else 1⟩

/-- Arguments for the examples; `rho` is in C order or not. -/
def iterArgs (c : Bool) : IterArgs NpArr :=
  ⟨⟨.f64, true, true, [1, 1], 0⟩, ⟨.f64, true, true, [1, 1], 1⟩, ⟨.f64, c, true, [2, 1], 2⟩, ⟨.f64, true, true, [2, 1], 3⟩,
    ⟨.i64, true, true, [1], 4⟩⟩

/-- **C129 (disagreement).** A call that succeeds and fills `rho` in C order leaves it alone in Fortran order. -/
theorem C129_order_fails :
    (iterateProxy (iterateCore (fun _ => 0) 0 1 0 0 2) iterMem (iterArgs true)).2 = .ok () ∧
    (iterateProxy (iterateCore (fun _ => 0) 0 1 0 0 2) iterMem (iterArgs false)).2 = .ok () ∧
    (iterateProxy (iterateCore (fun _ => 0) 0 1 0 0 2) iterMem (iterArgs true)).1.cell 2 1 = 2 ∧
    (iterateProxy (iterateCore (fun _ => 0) 0 1 0 0 2) iterMem (iterArgs false)).1.cell 2 1 = 0 := by
  refine ⟨by decide +kernel, by decide +kernel, by decide +kernel, by decide +kernel⟩

example : (iterateProxy (iterateCore (fun _ => 0) 0 1 0 0 2) iterMem (iterArgs false)).1.cell 4 = iterMem.cell 4 :=
  C129_inputs _ (iterateCore_onlyWrites _ _ _ _ _ _) iterMem (iterArgs false)
    (by unfold IterArgs.Allocated; decide) (by decide) (by decide) (by decide)

/-- The hypotheses of `C129_results` can be met. -/
example : ∃ r : CArr × CArr,
    (iterateProxy (iterateCore (fun _ => 0) 0 1 0 0 2) iterMem (iterArgs true)).1.cell 2 = r.1.cell ∧ r.1.cell 1 = 2 := by
  cases h : RscIn.iterate cppAccess ⟨⟨1, 1, iterMem.cell 0⟩, ⟨1, 1, iterMem.cell 1⟩, 0, 1, 0, (List.range 1).map fun _ => 1, 0⟩
      ⟨2, 1, iterMem.cell 2⟩ ⟨2, 1, iterMem.cell 3⟩ 2 with
  | error e =>
    have : (RscIn.iterate cppAccess ⟨⟨1, 1, iterMem.cell 0⟩, ⟨1, 1, iterMem.cell 1⟩, 0, 1, 0, (List.range 1).map fun _ => 1, 0⟩
      ⟨2, 1, iterMem.cell 2⟩ ⟨2, 1, iterMem.cell 3⟩ 2).isOk = true := by decide +kernel
    rw [h] at this
    cases this
  | ok r =>
    have res := C129_results (fun _ => 0) 0 1 0 0 2 iterMem (iterArgs true) (by unfold IterArgs.Allocated; decide)
      (nF := 1) (mF := 1) (nS := 1) (mS := 1) (nR := 2) (mR := 1) (nT := 2) (mT := 1) (n := 1) ⟨rfl, rfl, rfl, rfl⟩
      ⟨rfl, rfl, rfl, rfl⟩ ⟨rfl, rfl, rfl, rfl⟩ ⟨rfl, rfl, rfl, rfl⟩ rfl rfl (by decide) (fun _ => 1)
      (fun k => by simp [iterMem, iterArgs]) (fun k _ => by norm_num) h
    refine ⟨r, res.2.1, ?_⟩
    rw [← res.2.1]
    exact C129_order_fails.2.2.1

/-! ## Elements of arrays -/

/-- **C129.** In an array with two axes every element has a cell of its own, and every cell between `begin()` and `end()`
belongs to an element. A row that is not there is an error. -/
theorem C129_layout (a : NpArr) {nx ny : ℕ} (hs : a.shape = [nx, ny]) {x : CppArr} (hx : cppArr a = .ok x) :
    x.size = nx * ny ∧
    (∀ i < nx, ∀ j < ny, x.at2 i j = .ok (i * ny + j) ∧ i * ny + j < x.size) ∧
    (∀ i < nx, ∀ j < ny, ∀ i' < nx, ∀ j' < ny, x.at2 i j = x.at2 i' j' → i = i' ∧ j = j') ∧
    (∀ k < x.size, ∃ i < nx, ∃ j < ny, x.at2 i j = .ok k) ∧
    (∀ i j, nx ≤ i → x.at2 i j = .error .runtimeError) := by
  have hx' : x = ⟨a.buf, 2, nx, ny, 1⟩ := by
    unfold cppArr at hx
    rw [hs] at hx
    split at hx
    · cases hx
    · rw [if_neg (by simp)] at hx
      simp only [List.length_cons, List.length_nil, List.getD_cons_zero, List.getD_cons_succ, List.getD_nil,
        Except.ok.injEq] at hx
      exact hx.symm
  subst hx'
  have lt : ∀ i < nx, ∀ j < ny, i * ny + j < nx * ny := by
    intro i hi j hj
    have := Nat.mul_le_mul_right ny hi
    rw [Nat.succ_mul] at this
    omega
  have cell : ∀ i < nx, ∀ j < ny, (⟨a.buf, 2, nx, ny, 1⟩ : CppArr).at2 i j = .ok (i * ny + j) := by
    intro i hi j hj
    unfold CppArr.at2
    have := lt i hi j hj
    rw [if_neg (by simp), if_neg (by simpa using hi), if_neg (by simpa [CppArr.size] using this)]
  refine ⟨by simp [CppArr.size], fun i hi j hj => ⟨cell i hi j hj, by simpa [CppArr.size] using lt i hi j hj⟩, ?_, ?_, ?_⟩
  · intro i hi j hj i' hi' j' hj' h
    rw [cell i hi j hj, cell i' hi' j' hj', Except.ok.injEq] at h
    have d : (i * ny + j) / ny = (i' * ny + j') / ny := by rw [h]
    have m : (i * ny + j) % ny = (i' * ny + j') % ny := by rw [h]
    have p : 0 < ny := by omega
    rw [mul_comm, Nat.mul_add_div p, Nat.div_eq_of_lt hj, mul_comm i', Nat.mul_add_div p, Nat.div_eq_of_lt hj'] at d
    rw [Nat.mul_add_mod_self_right, Nat.mod_eq_of_lt hj, Nat.mul_add_mod_self_right, Nat.mod_eq_of_lt hj'] at m
    exact ⟨by omega, m⟩
  · intro k hk
    have hk' : k < nx * ny := by simpa [CppArr.size] using hk
    have p : 0 < ny := Nat.pos_of_ne_zero (fun h => by simp [h] at hk')
    have hi : k / ny < nx := Nat.div_lt_of_lt_mul (by rwa [mul_comm])
    refine ⟨k / ny, hi, k % ny, Nat.mod_lt _ p, ?_⟩
    rw [cell _ hi _ (Nat.mod_lt _ p), mul_comm, Nat.div_add_mod]
  · intro i j hi
    unfold CppArr.at2
    rw [if_neg (by simp), if_pos (by simpa using hi)]

/-- **C129.** Between `begin()` and `end()` are all elements of an array with up to three axes; elements of a list are
found up to its length. -/
theorem C129_size (a : NpArr) {x : CppArr} (hx : cppArr a = .ok x) :
    x.data = a.buf ∧ x.size = a.shape.prod ∧ (∀ n, a.shape = [n] → ∀ i, x.at1 i = if i < n then .ok i else .error .runtimeError) := by
  unfold cppArr at hx
  split at hx
  · cases hx
  split at hx
  · cases hx
  · next h3 =>
    rw [Except.ok.injEq] at hx
    subst hx
    refine ⟨rfl, ?_, ?_⟩
    · match hs : a.shape, h3 with
      | [], _ => simp [CppArr.size]
      | [p], _ => simp [CppArr.size]
      | [p, q], _ => simp [CppArr.size]
      | [p, q, r], _ => simp [CppArr.size, mul_assoc]
      | _ :: _ :: _ :: _ :: _, h => simp at h
    · intro n hn i
      unfold CppArr.at1
      rw [hn]
      simp only [List.length_cons, List.length_nil, List.getD_cons_zero]
      rw [if_neg (by simp)]
      by_cases h : i < n
      · rw [if_neg (by omega), if_pos h]
      · rw [if_pos (by omega), if_neg h]

/-- **C129 (disagreement).** Arrays with three axes are accepted, but none of their elements can be reached: all three
ways to index raise `RuntimeError`.  Three indices are accepted for arrays with two axes, where the third one counts as a
step to the next column. -/
theorem C129_three_fails :
    (∀ (b nx ny nz i j k : ℕ), let x : CppArr := ⟨b, 3, nx, ny, nz⟩
      x.at1 i = .error .runtimeError ∧ x.at2 i j = .error .runtimeError ∧ x.at3 i j k = .error .runtimeError) ∧
    (∀ (b nx ny i j k : ℕ), let x : CppArr := ⟨b, 2, nx, ny, 1⟩
      x.at3 i j k = x.at2 i (j + k)) := by
  refine ⟨fun b nx ny nz i j k => ⟨rfl, rfl, rfl⟩, fun b nx ny i j k => ?_⟩
  simp [CppArr.at3, CppArr.at2, add_assoc]

example : cppArr ⟨.f64, true, true, [2, 3, 4], 7⟩ = .ok ⟨7, 3, 2, 3, 4⟩ := rfl

example : (⟨7, 2, 3, 4, 1⟩ : CppArr).at2 2 3 = .ok 11 :=
  ((C129_layout ⟨.f64, true, true, [3, 4], 7⟩ rfl rfl).2.1 2 (by decide) 3 (by decide)).1

end Ompy
