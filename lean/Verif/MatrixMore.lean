import Verif.MatrixProps

/-!
# More on C07: the copy returned by `cut` and `cut_like`
-/

namespace Ompy

theorem hasShape_iff (vals : List (List ℚ)) (n m : ℕ) :
    hasShape vals n m = true ↔ vals.length = n ∧ ∀ r ∈ vals, r.length = m := by
  simp [hasShape]

theorem pySlice_mem {α : Type} {l : List α} {i j : ℤ} {x : α} (h : x ∈ pySlice l i j) : x ∈ l := by
  simp only [pySlice] at h
  first
    | exact List.mem_of_mem_take (List.mem_of_mem_drop h)
    | exact List.mem_of_mem_drop (List.mem_of_mem_take h)

/-- **C07.** `cut(inplace=False)` of a consistent matrix succeeds whenever the in-place cut does;
the copy holds the counts and both axes of the matrix cut in place, and neither `std` nor `state`. -/
theorem C07_copy (m m' : Mat) (axis : ℕ) (emin emax : Option ℚ) (f g : Bool)
    (hc : m.consistent = true) (h : m.cut axis emin emax f g = .ok m') :
    m.cutCopy axis emin emax f g = .ok ⟨m'.values, m'.Eg, m'.Ex, none, none⟩ := by
  obtain ⟨h1, h2⟩ := consistent_shape m hc
  have hs : m'.values.length = m'.Ex.length ∧ ∀ r ∈ m'.values, r.length = m'.Eg.length := by
    unfold Mat.cut at h
    dsimp only at h
    cases hb : cutBounds (if axis = 0 then m.Eg else m.Ex) emin emax f g with
    | error e => rw [hb] at h; exact absurd h (by simp)
    | ok ab =>
      obtain ⟨a, b⟩ := ab
      rw [hb] at h
      by_cases h0 : axis = 0
      · simp only [h0, if_true, Except.ok.injEq] at h
        subst h
        refine ⟨by simpa using h1, fun r hr => ?_⟩
        obtain ⟨r0, hr0, rfl⟩ := List.mem_map.1 hr
        exact pySlice_length_congr _ _ _ _ (h2 r0 hr0)
      · by_cases h1' : axis = 1
        · simp only [h1', one_ne_zero, if_false, if_true, Except.ok.injEq] at h
          subst h
          exact ⟨pySlice_length_congr _ _ _ _ h1, fun r hr => h2 r (pySlice_mem hr)⟩
        · simp [h0, h1'] at h
  have hsh : hasShape m'.values m'.Ex.length m'.Eg.length = true := (hasShape_iff _ _ _).2 hs
  unfold Mat.cutCopy
  rw [h]
  simp only [bind, Except.bind]
  simp [Mat.new, Mat.consistent, hsh]

/-- **C07.** If the cut in place raises, so does the copy, with the same exception. -/
theorem C07_copy_raises (m : Mat) (axis : ℕ) (emin emax : Option ℚ) (f g : Bool) (e : Err)
    (h : m.cut axis emin emax f g = .error e) : m.cutCopy axis emin emax f g = .error e := by
  unfold Mat.cutCopy
  rw [h]
  rfl

theorem listMin_of {l : List ℚ} {a : ℚ} (ha : a ∈ l) (h : ∀ x ∈ l, a ≤ x) : listMin l = .ok a := by
  have key : ∀ (t : List ℚ) (b : ℚ), (a = b ∨ a ∈ t) → a ≤ b → (∀ x ∈ t, a ≤ x) →
      t.foldl min b = a := by
    intro t
    induction t with
    | nil => intro b hb _ _; rcases hb with rfl | hb; · rfl
             · simp at hb
    | cons x xs ih =>
      intro b hb hab hx
      rw [List.foldl_cons]
      refine ih _ ?_ (le_min hab (hx x (by simp))) fun y hy => hx y (by simp [hy])
      rcases hb with rfl | hb
      · left; exact (min_eq_left (hx x (by simp))).symm
      · rcases List.mem_cons.1 hb with rfl | hb
        · left; exact (min_eq_right hab).symm
        · right; exact hb
  cases l with
  | nil => simp at ha
  | cons x xs =>
    rw [listMin, key xs x (by simpa using ha) (h x (by simp)) fun y hy => h y (by simp [hy])]

theorem listMax_of {l : List ℚ} {a : ℚ} (ha : a ∈ l) (h : ∀ x ∈ l, x ≤ a) : listMax l = .ok a := by
  have key : ∀ (t : List ℚ) (b : ℚ), (a = b ∨ a ∈ t) → b ≤ a → (∀ x ∈ t, x ≤ a) →
      t.foldl max b = a := by
    intro t
    induction t with
    | nil => intro b hb _ _; rcases hb with rfl | hb; · rfl
             · simp at hb
    | cons x xs ih =>
      intro b hb hab hx
      rw [List.foldl_cons]
      refine ih _ ?_ (max_le hab (hx x (by simp))) fun y hy => hx y (by simp [hy])
      rcases hb with rfl | hb
      · left; exact (max_eq_left (hx x (by simp))).symm
      · rcases List.mem_cons.1 hb with rfl | hb
        · left; exact (max_eq_right hab).symm
        · right; exact hb
  cases l with
  | nil => simp at ha
  | cons x xs =>
    rw [listMax, key xs x (by simpa using ha) (h x (by simp)) fun y hy => h y (by simp [hy])]

/-- **C07.** `cut_like` keeps, on both axes, exactly the energies between the smallest and the
largest energy of the other matrix (both included), and of every kept row exactly the entries at the
kept gamma energies. -/
theorem C07_cut_like (m other : Mat) (a b c d : ℚ) (hc : m.consistent = true)
    (hEx : m.Ex ≠ []) (hEg : m.Eg ≠ []) (hsx : m.Ex.Pairwise (· < ·)) (hsg : m.Eg.Pairwise (· < ·))
    (ha : a ∈ other.Ex ∧ ∀ e ∈ other.Ex, a ≤ e) (hb : b ∈ other.Ex ∧ ∀ e ∈ other.Ex, e ≤ b)
    (hc' : c ∈ other.Eg ∧ ∀ e ∈ other.Eg, c ≤ e) (hd : d ∈ other.Eg ∧ ∀ e ∈ other.Eg, e ≤ d) :
    ∃ m', m.cutLike other = .ok m' ∧
      m'.Ex = m.Ex.filter (fun e => decide (a ≤ e ∧ e ≤ b)) ∧
      m'.Eg = m.Eg.filter (fun e => decide (c ≤ e ∧ e ≤ d)) ∧
      m'.Ex.zip m'.values =
        ((m.Ex.zip m.values).filter (fun p => decide (a ≤ p.1 ∧ p.1 ≤ b))).map fun p =>
          (p.1, ((m.Eg.zip p.2).filter (fun q => decide (c ≤ q.1 ∧ q.1 ≤ d))).map Prod.snd) := by
  obtain ⟨m1, e1, x1, z1, g1⟩ := (C07_inclusive_exact m a b).1 hEx hsx
  have hEg1 : m1.Eg ≠ [] := by rw [g1]; exact hEg
  obtain ⟨m', e2, g2, r2, x2⟩ := (C07_inclusive_exact m1 c d).2 hEg1 (by rw [g1]; exact hsg)
  obtain ⟨hl, hw⟩ := consistent_shape m hc
  have hl1 : m1.values.length = m1.Ex.length ∧ ∀ r ∈ m1.values, r.length = m1.Eg.length := by
    have hcut := e1
    unfold Mat.cut at hcut
    cases hb : cutBounds m.Ex (some a) (some b) true true with
    | error e => simp [hb] at hcut
    | ok ab =>
      obtain ⟨i, j⟩ := ab
      simp only [one_ne_zero, if_false, hb, if_true, Except.ok.injEq] at hcut
      subst hcut
      exact ⟨pySlice_length_congr _ _ _ _ hl, fun r hr => hw r (pySlice_mem hr)⟩
  have hl2 : m'.values.length = m1.values.length ∧ ∀ i < m1.values.length,
      (m'.values.getD i []).length = m'.Eg.length := by
    have hcut := e2
    unfold Mat.cut at hcut
    cases hb : cutBounds m1.Eg (some c) (some d) true true with
    | error e => simp [hb] at hcut
    | ok ab =>
      obtain ⟨i, j⟩ := ab
      simp only [hb, if_true, Except.ok.injEq] at hcut
      subst hcut
      refine ⟨by simp, fun k hk => ?_⟩
      rw [List.getD_eq_getElem _ _ (by simpa using hk)]
      simp only [List.getElem_map]
      exact pySlice_length_congr _ _ _ _ (hl1.2 _ (List.getElem_mem hk))
  refine ⟨m', ?_, by rw [x2, x1], by rw [g2, g1], ?_⟩
  · unfold Mat.cutLike
    rw [listMin_of ha.1 ha.2, listMax_of hb.1 hb.2, listMin_of hc'.1 hc'.2, listMax_of hd.1 hd.2]
    simp only [bind, Except.bind, e1, e2]
  · rw [x2, ← z1]
    apply List.ext_getElem
    · simp [hl2.1]
    · intro k hk hk'
      have hkv : k < m1.values.length := by
        simp only [List.length_zip, hl2.1] at hk; omega
      have hkx : k < m1.Ex.length := by
        simp only [List.length_zip] at hk; omega
      have hkv' : k < m'.values.length := by rw [hl2.1]; exact hkv
      simp only [List.getElem_zip, List.getElem_map, Prod.mk.injEq, true_and]
      have hrow := r2 k hkv
      rw [List.getD_eq_getElem _ _ hkv', List.getD_eq_getElem _ _ hkv, g1] at hrow
      rw [← hrow, List.map_snd_zip]
      have := hl2.2 k hkv
      rw [List.getD_eq_getElem _ _ hkv'] at this
      omega

example : (Mat.cutLike ⟨[[1, 2, 3], [4, 5, 6], [7, 8, 9]], [0, 1, 2], [10, 20, 30], none, none⟩
    ⟨[[0, 0], [0, 0]], [1, 2], [20, 30], none, none⟩)
      = .ok ⟨[[5, 6], [8, 9]], [1, 2], [20, 30], none, none⟩ := by decide +kernel

example : let m : Mat := ⟨[[1, 2, 3], [4, 5, 6]], [0, 1, 2], [10, 20], some [[1, 1, 1], [1, 1, 1]],
      some .raw⟩
    m.consistent = true ∧
      m.cutCopy 0 (some 1) none true true = .ok ⟨[[2, 3], [5, 6]], [1, 2], [10, 20], none, none⟩ := by
  decide +kernel

end Ompy
