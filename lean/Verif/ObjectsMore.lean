import Verif.EnsObjProps
import Verif.EqualityProps
import Verif.ConstructProps
import Verif.ResponseDirProps

/-!
# Members, comparison and constructors: tightening of C83, C85, C88 and C89 after mutation tests
-/

namespace Ompy

/-- **C83.** The first-generation matrices are over the axes of `firstgen`, also if these differ from those of `raw`. -/
theorem C83_firstgen (e : EnsAll) (k : ℕ) (hk : k < e.fgE.length)
    (hs : ∀ M ∈ e.fgE, ArrayOn M e.firstgen.Ex.length e.firstgen.Eg.length) :
    e.getFirstgen (.one k)
      = .ok (.mat ⟨e.fgE.getD k [], e.firstgen.Eg, e.firstgen.Ex, none, some .firstGeneration⟩) ∧
    e.getFirstgen (.many [(k : ℤ)]) = .ok (.list [⟨e.fgE.getD k [], e.firstgen.Eg, e.firstgen.Ex, none, none⟩]) := by
  have h := C83_get e.fgE e.firstgen.Eg e.firstgen.Ex (some .firstGeneration) hs
  refine ⟨(h.1 k hk).1, ?_⟩
  exact h.2.2 [k] (by simpa using hk)

/-- Before `generate` an empty list of numbers gives an empty list, anything else raises TypeError. -/
theorem C83_before (Eg Ex : List ℚ) (st : Option MState) :
    getMember none Eg Ex st (.many []) = .ok (.list []) ∧
    (∀ i, getMember none Eg Ex st (.one i) = .error .typeError) ∧
    (∀ i l, getMember none Eg Ex st (.many (i :: l)) = .error .typeError) :=
  ⟨rfl, fun _ => rfl, fun _ _ => rfl⟩

/-- An ensemble whose first-generation matrices have been rebinned to one bin. -/
example (s : StdMat) (raw : Mat) :
    (EnsAll.mk raw ⟨[[7]], [5], [6], none, none⟩ [] [] [[[7]], [[8]]] s s s).getFirstgen (.one 1)
      = .ok (.mat ⟨[[8]], [5], [6], none, some .firstGeneration⟩) :=
  (C83_firstgen (EnsAll.mk raw ⟨[[7]], [5], [6], none, none⟩ [] [] [[[7]], [[8]]] s s s) 1 (by simp)
    (by intro M hM; simp at hM; rcases hM with rfl | rfl <;> exact ⟨rfl, by simp⟩)).1

/-- **C85.** If the values differ, a `std` on the right hand side alone does no harm: the vectors are different. -/
theorem C85_different (a b : NVec) (hv : a.values.length = b.values.length) (hE : a.E.length = b.E.length)
    (s : List (Option ℚ)) (ha : a.std = none) (hb : b.std = some s) (hd : ¬ AgreeAll1 a.values b.values ∨ ¬ AgreeAll1 a.E b.E) :
    a.eq b = .ok false ∧ b.eq a = .error .typeError := by
  obtain ⟨t1, h1, k1⟩ := allclose1_same hv
  obtain ⟨t2, h2, k2⟩ := allclose1_same hE
  obtain ⟨u1, i1, -⟩ := allclose1_same hv.symm
  obtain ⟨u2, i2, -⟩ := allclose1_same hE.symm
  constructor
  · have hf : (t1 && t2) = false := by
      rw [Bool.and_eq_false_iff]
      rcases hd with hd | hd
      · exact Or.inl (Bool.eq_false_iff.2 fun h => hd (k1.1 h))
      · exact Or.inr (Bool.eq_false_iff.2 fun h => hd (k2.1 h))
    unfold NVec.eq
    simp only [bind, Except.bind, h1, h2, ha, hb, eqRest, hf, if_true]
  · unfold NVec.eq
    simp only [bind, Except.bind, i1, i2, ha, hb, eqRest]

example : (NVec.mk [some 1, some 2] [some 0, some 1] none "keV").eq
    (NVec.mk [some 1, some 3] [some 0, some 1] (some [some 1, some 1]) "keV") = .ok false := by
  refine (C85_different (NVec.mk [some 1, some 2] [some 0, some 1] none "keV")
    (NVec.mk [some 1, some 3] [some 0, some 1] (some [some 1, some 1]) "keV") rfl rfl _ rfl rfl (Or.inl ?_)).1
  intro h
  obtain ⟨x, y, hx, hy, hxy⟩ := h 1 (by simp)
  simp at hx hy
  subst hx hy
  norm_num [abs_le] at hxy

/-- **C85 (disagreement).** A vector of one number is compared with all numbers of another one: vectors of different lengths can be equal. -/
theorem C85_broadcast_fails (x : ℚ) (n m : ℕ) (hn : n ≠ 1) (hm : m ≠ 1) (units : String) :
    (NVec.mk [some x] [some 0] none units).eq (NVec.mk (List.replicate n (some x)) (List.replicate m (some 0)) none units) = .ok true ∧
    (NVec.mk (List.replicate n (some x)) (List.replicate m (some 0)) none units).eq (NVec.mk [some x] [some 0] none units) = .ok true := by
  have hc : ∀ y : ℚ, isClose (some y) (some y) = true := by
    intro y
    unfold isClose
    simp only [sub_self, abs_zero, decide_eq_true_eq]
    positivity
  have key : ∀ (y : ℚ) (k : ℕ), k ≠ 1 → allclose1 [some y] (List.replicate k (some y)) = .ok true ∧
      allclose1 (List.replicate k (some y)) [some y] = .ok true := by
    intro y k hk
    constructor
    · unfold allclose1 bcast
      rw [if_neg (by simp; omega)]
      simp [Except.map, hc]
    · unfold allclose1 bcast
      rw [if_neg (by simp; omega)]
      match k, hk with
      | 0, _ => rfl
      | k + 2, _ =>
        simp [List.replicate_succ, Except.map, hc]
  constructor
  · unfold NVec.eq
    simp only [bind, Except.bind, (key x n hn).1, (key 0 m hm).1, eqRest, Bool.and_self, decide_true]
  · unfold NVec.eq
    simp only [bind, Except.bind, (key x n hn).2, (key 0 m hm).2, eqRest, Bool.and_self, decide_true]

/-- **C88.** A matrix made from consistent values, axes, `std` and state has all of them. -/
theorem C88_init (values : List (List ℚ)) (Ex Eg : List ℚ) (std : Option (List (List ℚ))) (s : MState)
    (hv : values.length = Ex.length ∧ ∀ r ∈ values, r.length = Eg.length)
    (hs : ∀ t, std = some t → t.length = Ex.length ∧ ∀ r ∈ t, r.length = Eg.length) :
    matInit values Eg.length (some Ex) (some Eg) std (.state s) = .ok ⟨values, Eg, Ex, std, some s⟩ := by
  have h1 : hasShape values Ex.length Eg.length = true := by
    simp only [hasShape, Bool.and_eq_true, beq_iff_eq, List.all_eq_true]
    exact ⟨hv.1, hv.2⟩
  have h2 : Mat.consistent ⟨values, Eg, Ex, std, none⟩ = true := by
    unfold Mat.consistent
    simp only [h1, Bool.true_and]
    cases std with
    | none => rfl
    | some t =>
      simp only [hasShape, Bool.and_eq_true, beq_iff_eq, List.all_eq_true]
      exact ⟨(hs t rfl).1, (hs t rfl).2⟩
  unfold matInit Mat.new
  simp only [Option.getD_some, h2, if_true, bind, Except.bind, setState]
  rfl

/-- **C88.** A shape together with axes of that shape is accepted, and `Matrix(shape=…)` keeps axes, `std` and state. -/
theorem C88_shape_axes (Ex Eg : List ℚ) (std : Option (List (List ℚ))) (s : MState) (hx : Ex ≠ [])
    (hs : ∀ t, std = some t → t.length = Ex.length ∧ ∀ r ∈ t, r.length = Eg.length) (v : Option (List (List ℚ))) :
    zerosMatrix (some (Ex.length, Eg.length)) (some Ex) (some Eg) false (.state s) =
      .ok ⟨List.replicate Ex.length (List.replicate Eg.length 0), Eg, Ex, none, some s⟩ ∧
    matrixShape v (Ex.length, Eg.length) (some Ex) (some Eg) std (.state s) =
      .ok ⟨List.replicate Ex.length (List.replicate Eg.length 0), Eg, Ex, std, some s⟩ := by
  have hz : ∀ r ∈ zerosOf Ex.length Eg.length, r.length = Eg.length := by
    intro r hr
    rw [(List.mem_replicate.1 hr).2]; simp
  have h0 : ∀ (o : Option MState) (p : PyVal), setState p = .ok o →
      zerosMatrix (some (Ex.length, Eg.length)) (some Ex) (some Eg) false p =
        .ok ⟨List.replicate Ex.length (List.replicate Eg.length 0), Eg, Ex, none, o⟩ := by
    intro o p hp
    unfold zerosMatrix matInit
    simp only [bind, Except.bind, zerosShape, new_zeros (List.length_pos_iff.2 hx), Option.getD_some, and_self, if_true, Bool.false_eq_true, if_false, hp]
    rfl
  refine ⟨h0 _ _ rfl, ?_⟩
  unfold matrixShape
  simp only [bind, Except.bind, h0 none .none rfl]
  exact C88_init _ Ex Eg std s ⟨by simp, hz⟩ hs

example : matInit [[1, 2]] 2 (some [5]) (some [6, 7]) (some [[3, 4]]) (.state .raw) = .ok ⟨[[1, 2]], [6, 7], [5], some [[3, 4]], some .raw⟩ :=
  C88_init [[1, 2]] [5] [6, 7] (some [[3, 4]]) .raw (by simp) (by simp)

/-- **C89.** The calibration of an equidistant axis is its first energy and its step. -/
theorem C89_calibration_grid (a w : ℚ) (n : ℕ) (hn : 2 ≤ n) : calibrationOf (grid a w n) = .ok (a, w) := by
  obtain ⟨k, rfl⟩ : ∃ k, n = k + 2 := ⟨n - 2, by omega⟩
  have : grid a w (k + 2) = a :: (a + w) :: ((grid a w (k + 2)).drop 2) := by
    unfold grid
    simp [List.range_succ_eq_map]
  rw [this]
  simp [calibrationOf]

example : calibrationOf [7, 9, 11] = .ok (7, 2) := by norm_num [calibrationOf]

end Ompy
