import Verif.Equality
import Verif.RebinLemmas

/-!
# C85: comparison of vectors and matrices; C86: states of matrices
-/

namespace Ompy

/-- `x` agrees with the reference `y` within a relative tolerance of 1e-5 and an absolute one of 1e-8; NaN agrees with nothing. -/
def Agrees (x y : Option ℚ) : Prop :=
  ∃ p q : ℚ, x = some p ∧ y = some q ∧ |p - q| ≤ 1 / 10 ^ 8 + 1 / 10 ^ 5 * |q|

theorem isClose_iff (x y : Option ℚ) : isClose x y = true ↔ Agrees x y := by
  unfold Agrees
  cases x with
  | none => simp [isClose]
  | some p =>
    cases y with
    | none => simp [isClose]
    | some q => simp [isClose]

theorem allclose1_same {a b : List (Option ℚ)} (h : a.length = b.length) :
    ∃ t, allclose1 a b = .ok t ∧ (t = true ↔ ∀ i < a.length, Agrees (a.getD i none) (b.getD i none)) := by
  refine ⟨(a.zip b).all fun p => isClose p.1 p.2, ?_, ?_⟩
  · unfold allclose1 bcast
    rw [if_pos h]
    rfl
  · rw [List.all_eq_true]
    constructor
    · intro hall i hi
      have hi' : i < (a.zip b).length := by simp; omega
      have := hall _ (List.getElem_mem hi')
      rw [isClose_iff, List.getElem_zip] at this
      rw [List.getD_eq_getElem _ _ hi, List.getD_eq_getElem _ _ (by omega)]
      exact this
    · intro hall p hp
      obtain ⟨i, hi, rfl⟩ := List.mem_iff_getElem.1 hp
      have hia : i < a.length := by simp at hi; omega
      have hib : i < b.length := by simp at hi; omega
      have := hall i hia
      rw [List.getD_eq_getElem _ _ hia, List.getD_eq_getElem _ _ hib] at this
      rw [isClose_iff, List.getElem_zip]
      exact this

theorem allclose2_same {a b : List (List (Option ℚ))} (h : a.map List.length = b.map List.length) :
    ∃ t, allclose2 a b = .ok t ∧ (t = true ↔ ∀ i < a.length, ∀ j < (a.getD i []).length,
      Agrees ((a.getD i []).getD j none) ((b.getD i []).getD j none)) := by
  have hl : a.length = b.length := by simpa using congrArg List.length h
  have hrow : ∀ i (hi : i < a.length), (a[i]).length = (b[i]'(by omega)).length := by
    intro i hi
    have := congrArg (fun l : List ℕ => l.getD i 0) h
    rw [List.getD_eq_getElem _ _ (by simpa using hi), List.getD_eq_getElem _ _ (by simp; omega)] at this
    simpa using this
  refine ⟨((a.zip b).map fun p => (p.1.zip p.2).all fun q => isClose q.1 q.2).all id, ?_, ?_⟩
  · unfold allclose2 bcast
    rw [if_pos hl]
    change ((a.zip b).mapM fun p => allclose1 p.1 p.2).bind _ = _
    rw [mapM_ok _ (fun p => (p.1.zip p.2).all fun q => isClose q.1 q.2)]
    · rfl
    · intro p hp
      obtain ⟨i, hi, rfl⟩ := List.mem_iff_getElem.1 hp
      have hia : i < a.length := by simp at hi; omega
      unfold allclose1 bcast
      rw [if_pos (by rw [List.getElem_zip]; exact hrow i hia)]
      rfl
  · rw [List.all_eq_true]
    have key : ∀ i (hi : i < a.length), ((a[i].zip (b[i]'(by omega))).all fun q => isClose q.1 q.2) = true ↔
        ∀ j < (a.getD i []).length, Agrees ((a.getD i []).getD j none) ((b.getD i []).getD j none) := by
      intro i hi
      obtain ⟨t, ht, htt⟩ := allclose1_same (hrow i hi)
      have : allclose1 a[i] (b[i]'(by omega)) = .ok ((a[i].zip (b[i]'(by omega))).all fun q => isClose q.1 q.2) := by
        unfold allclose1 bcast
        rw [if_pos (hrow i hi)]
        rfl
      rw [ht] at this
      injection this with this
      rw [← this, htt, List.getD_eq_getElem a [] hi, List.getD_eq_getElem b [] (by omega)]
    constructor
    · intro hall i hi
      rw [← key i hi]
      have := hall ((a[i].zip (b[i]'(by omega))).all fun q => isClose q.1 q.2) (by
        rw [List.mem_map]
        refine ⟨(a[i], b[i]'(by omega)), ?_, rfl⟩
        rw [List.mem_iff_getElem]
        exact ⟨i, by simp; omega, by rw [List.getElem_zip]⟩)
      exact this
    · intro hall t ht
      obtain ⟨p, hp, rfl⟩ := List.mem_map.1 ht
      obtain ⟨i, hi, rfl⟩ := List.mem_iff_getElem.1 hp
      have hia : i < a.length := by simp at hi; omega
      rw [List.getElem_zip]
      exact (key i hia).2 (hall i hia)

/-- Two arrays agree in each element. -/
def AgreeAll (a b : List (List (Option ℚ))) : Prop :=
  ∀ i < a.length, ∀ j < (a.getD i []).length, Agrees ((a.getD i []).getD j none) ((b.getD i []).getD j none)

/-- The same for one dimension. -/
def AgreeAll1 (a b : List (Option ℚ)) : Prop := ∀ i < a.length, Agrees (a.getD i none) (b.getD i none)

/-- **C85 (partial: same shapes, both with or both without `std`).** `==` of two matrices is true exactly if values, both axes and `std` agree element by
element within the tolerances and the states are the same. -/
theorem C85_matrix_partial (a b : NMat) (hv : a.values.map List.length = b.values.map List.length)
    (hg : a.Eg.length = b.Eg.length) (hx : a.Ex.length = b.Ex.length) :
    (a.std = none → b.std = none → ∃ t, a.eq b = .ok t ∧
      (t = true ↔ AgreeAll a.values b.values ∧ AgreeAll1 a.Eg b.Eg ∧ AgreeAll1 a.Ex b.Ex ∧ a.state = b.state)) ∧
    (∀ s s', a.std = some s → b.std = some s' → s.map List.length = s'.map List.length → ∃ t, a.eq b = .ok t ∧
      (t = true ↔ AgreeAll a.values b.values ∧ AgreeAll1 a.Eg b.Eg ∧ AgreeAll1 a.Ex b.Ex ∧ AgreeAll s s' ∧
        a.state = b.state)) := by
  obtain ⟨t1, h1, k1⟩ := allclose2_same hv
  obtain ⟨t2, h2, k2⟩ := allclose1_same hg
  obtain ⟨t3, h3, k3⟩ := allclose1_same hx
  constructor
  · intro ha hb
    refine ⟨(t1 && t2 && t3) && decide (a.state = b.state), ?_, ?_⟩
    · unfold NMat.eq
      simp only [bind, Except.bind, h1, h2, h3, ha, hb, eqRest]
    · simp only [Bool.and_eq_true, decide_eq_true_eq, k1, k2, k3, AgreeAll, AgreeAll1]
      tauto
  · intro s s' ha hb hs
    obtain ⟨t4, h4, k4⟩ := allclose2_same hs
    refine ⟨(t1 && t2 && t3) && t4 && decide (a.state = b.state), ?_, ?_⟩
    · unfold NMat.eq
      simp only [bind, Except.bind, h1, h2, h3, ha, hb, eqRest, h4, Except.map]
    · simp only [Bool.and_eq_true, decide_eq_true_eq, k1, k2, k3, k4, AgreeAll, AgreeAll1]
      tauto

/-- **C85 (partial: same lengths, both with or both without `std`).** The same for vectors and their units. -/
theorem C85_vector_partial (a b : NVec) (hv : a.values.length = b.values.length) (hE : a.E.length = b.E.length) :
    (a.std = none → b.std = none → ∃ t, a.eq b = .ok t ∧
      (t = true ↔ AgreeAll1 a.values b.values ∧ AgreeAll1 a.E b.E ∧ a.units = b.units)) ∧
    (∀ s s', a.std = some s → b.std = some s' → s.length = s'.length → ∃ t, a.eq b = .ok t ∧
      (t = true ↔ AgreeAll1 a.values b.values ∧ AgreeAll1 a.E b.E ∧ AgreeAll1 s s' ∧ a.units = b.units)) := by
  obtain ⟨t1, h1, k1⟩ := allclose1_same hv
  obtain ⟨t2, h2, k2⟩ := allclose1_same hE
  constructor
  · intro ha hb
    refine ⟨(t1 && t2) && decide (a.units = b.units), ?_, ?_⟩
    · unfold NVec.eq
      simp only [bind, Except.bind, h1, h2, ha, hb, eqRest]
    · simp only [Bool.and_eq_true, decide_eq_true_eq, k1, k2, AgreeAll1]
      tauto
  · intro s s' ha hb hs
    obtain ⟨t4, h4, k4⟩ := allclose1_same hs
    refine ⟨(t1 && t2) && t4 && decide (a.units = b.units), ?_, ?_⟩
    · unfold NVec.eq
      simp only [bind, Except.bind, h1, h2, ha, hb, eqRest, h4, Except.map]
    · simp only [Bool.and_eq_true, decide_eq_true_eq, k1, k2, k4, AgreeAll1]
      tauto

theorem agrees_refl {x : Option ℚ} (h : x ≠ none) : Agrees x x := by
  obtain ⟨p, rfl⟩ := Option.ne_none_iff_exists'.1 h
  refine ⟨p, p, rfl, rfl, ?_⟩
  rw [sub_self, abs_zero]
  positivity

/-- **C85.** A vector without NaN is equal to itself; one with NaN among its values is not. -/
theorem C85_reflexive (a : NVec) (hE : none ∉ a.E) (hs : ∀ s, a.std = some s → none ∉ s) :
    a.eq a = .ok (decide (none ∉ a.values)) := by
  have nn : ∀ l : List (Option ℚ), none ∉ l ↔ AgreeAll1 l l := by
    intro l
    constructor
    · intro h i hi
      apply agrees_refl
      rw [List.getD_eq_getElem _ _ hi]
      intro h0
      exact h (h0 ▸ List.getElem_mem hi)
    · intro h hn
      obtain ⟨i, hi, hin⟩ := List.mem_iff_getElem.1 hn
      obtain ⟨p, q, hp, -, -⟩ := h i hi
      rw [List.getD_eq_getElem _ _ hi, hin] at hp
      simp at hp
  cases hstd : a.std with
  | none =>
    obtain ⟨t, ht, htt⟩ := (C85_vector_partial a a rfl rfl).1 hstd hstd
    rw [ht]
    congr 1
    rw [Bool.eq_iff_iff, htt, decide_eq_true_eq, nn]
    exact ⟨fun h => h.1, fun h => ⟨h, (nn _).1 hE, rfl⟩⟩
  | some s =>
    obtain ⟨t, ht, htt⟩ := (C85_vector_partial a a rfl rfl).2 s s hstd hstd rfl
    rw [ht]
    congr 1
    rw [Bool.eq_iff_iff, htt, decide_eq_true_eq, nn]
    exact ⟨fun h => h.1, fun h => ⟨h, (nn _).1 hE, (nn _).1 (hs s hstd), rfl⟩⟩

/-- **C85.** A vector and a matrix, or anything else, are different, without an exception. -/
theorem C85_class (v : NVec) (m : NMat) :
    (EqArg.vec v).eq (.mat m) = .ok false ∧ (EqArg.mat m).eq (.vec v) = .ok false ∧
    (EqArg.vec v).eq .other = .ok false ∧ (EqArg.mat m).eq .other = .ok false ∧
    (∀ w, (EqArg.vec v).eq (.vec w) = v.eq w) ∧ (∀ w, (EqArg.mat m).eq (.mat w) = m.eq w) :=
  ⟨rfl, rfl, rfl, rfl, fun _ => rfl, fun _ => rfl⟩

/-- **C85 (disagreement).** Vectors of different lengths (other than 1) cannot be compared: `==` raises ValueError instead of being false. -/
theorem C85_shape_fails (a b : NVec) (h : a.values.length ≠ b.values.length) (ha : a.values.length ≠ 1)
    (hb : b.values.length ≠ 1) : a.eq b = .error .valueError := by
  have : bcast a.values b.values = .error .valueError := by
    unfold bcast
    rw [if_neg h]
    rcases ha' : a.values with _ | ⟨x, _ | ⟨x', xs⟩⟩
    · rcases hb' : b.values with _ | ⟨y, _ | ⟨y', ys⟩⟩
      · rfl
      · simp [hb'] at hb
      · rfl
    · simp [ha'] at ha
    · rcases hb' : b.values with _ | ⟨y, _ | ⟨y', ys⟩⟩
      · rfl
      · simp [hb'] at hb
      · rfl
  unfold NVec.eq allclose1
  rw [this]
  rfl

/-- **C85 (disagreement).** Of two vectors that differ in `std` only, one having none: the comparison raises, with another exception for each
order of the operands. -/
theorem C85_std_fails (a b : NVec) (hab : a.values = b.values ∧ a.E = b.E) (hv : none ∉ a.values) (hE : none ∉ a.E)
    (s : List (Option ℚ)) (ha : a.std = some s) (hb : b.std = none) (h2 : 2 ≤ s.length) :
    a.eq b = .error .typeError ∧ b.eq a = .error .valueError := by
  have key : ∀ l : List (Option ℚ), none ∉ l → allclose1 l l = .ok true := by
    intro l hln
    obtain ⟨t, ht, htt⟩ := allclose1_same (a := l) (b := l) rfl
    rw [ht]
    congr 1
    rw [htt]
    intro i hi
    apply agrees_refl
    rw [List.getD_eq_getElem _ _ hi]
    intro h0
    exact hln (h0 ▸ List.getElem_mem hi)
  have k1 := key _ hv
  have k2 := key _ hE
  constructor
  · unfold NVec.eq
    simp only [bind, Except.bind, ← hab.1, ← hab.2, k1, k2, ha, hb, eqRest]
  · unfold NVec.eq
    simp only [bind, Except.bind, ← hab.1, ← hab.2, k1, k2, ha, hb, eqRest, Bool.and_self, Bool.true_eq_false, if_false]
    rw [if_neg (by omega)]

/-- **C85 (disagreement).** The absolute tolerance is larger than typical strength functions (in MeV⁻³): any two vectors with
values up to 1e-8 over the same axis are equal. -/
theorem C85_small_fails (E : List ℚ) (x y : List ℚ) (units : String) (hl : x.length = y.length)
    (hx : ∀ v ∈ x, 0 ≤ v ∧ v ≤ 1 / 10 ^ 8) (hy : ∀ v ∈ y, 0 ≤ v ∧ v ≤ 1 / 10 ^ 8) :
    (NVec.mk (x.map some) (E.map some) none units).eq (NVec.mk (y.map some) (E.map some) none units) = .ok true := by
  obtain ⟨t, ht, htt⟩ := (C85_vector_partial (NVec.mk (x.map some) (E.map some) none units)
    (NVec.mk (y.map some) (E.map some) none units) (by simp [hl]) rfl).1 rfl rfl
  rw [ht]
  congr 1
  rw [htt]
  refine ⟨?_, ?_, rfl⟩
  · intro i hi
    simp only [List.length_map] at hi
    have hi2 : i < y.length := by omega
    refine ⟨x[i], y[i], ?_, ?_, ?_⟩
    · rw [List.getD_eq_getElem _ _ (by simpa using hi)]; simp
    · rw [List.getD_eq_getElem _ _ (by simpa using hi2)]; simp
    · obtain ⟨a1, a2⟩ := hx _ (List.getElem_mem hi)
      obtain ⟨b1, b2⟩ := hy _ (List.getElem_mem hi2)
      have h1 : |x[i] - y[i]| ≤ 1 / 10 ^ 8 := by rw [abs_le]; constructor <;> linarith
      have h2 : 0 ≤ 1 / 10 ^ 5 * |y[i]| := by positivity
      linarith
  · intro i hi
    apply agrees_refl
    simp only [List.length_map] at hi
    rw [List.getD_eq_getElem _ _ (by simpa using hi)]
    simp

/-- **C85 (disagreement).** `==` is not symmetric: the tolerance is relative to the right operand. -/
theorem C85_symmetry_fails :
    let a : NVec := ⟨[some 1], [some 0], none, "keV"⟩
    let b : NVec := ⟨[some (1 + 1001005 / 10 ^ 11)], [some 0], none, "keV"⟩
    a.eq b = .ok true ∧ b.eq a = .ok false := by
  decide +kernel

/-- Non-vacuity: two different strength functions below 1e-8, a matrix differing in its state only, vectors of two and three bins. -/
example : (NVec.mk [some (1 / 10 ^ 9), some (9 / 10 ^ 9)] [some 1, some 2] none "MeV").eq
      (NVec.mk [some (8 / 10 ^ 9), some 0] [some 1, some 2] none "MeV") = .ok true ∧
    (NMat.mk [[some 1]] [some 0] [some 0] (some [[some 2]]) (some .raw)).eq
      (NMat.mk [[some 1]] [some 0] [some 0] (some [[some 2]]) (some .unfolded)) = .ok false ∧
    (NVec.mk [some 1, some 2] [some 1, some 2] none "MeV").eq
      (NVec.mk [some 1, some 2, some 3] [some 1, some 2, some 3] none "MeV") = .error .valueError ∧
    (NVec.mk [some 1, none] [some 1, some 2] none "MeV").eq (NVec.mk [some 1, none] [some 1, some 2] none "MeV") =
      .ok false := by
  decide +kernel

/-! ### States -/

/-- **C86.** The setter takes `None`, a state, or one of six names in any case; other strings raise KeyError, everything else ValueError. -/
theorem C86_setter :
    setState .none = .ok none ∧ (∀ s, setState (.state s) = .ok (some s)) ∧
    (∀ s : String, ∀ p ∈ [("raw", MState.raw), ("unfolded", .unfolded), ("firstgen", .firstGeneration), ("std", .std),
        ("prompt+bg", .promptAndBackground), ("bg", .background)], s.toLower = p.1 → setState (.str s) = .ok (some p.2)) ∧
    (∀ s : String, s.toLower ∉ ["raw", "unfolded", "firstgen", "std", "prompt+bg", "bg"] →
      setState (.str s) = .error .keyError) ∧
    (∀ k, setState (.int k) = .error .valueError) ∧ setState .other = .error .valueError := by
  refine ⟨rfl, fun _ => rfl, ?_, ?_, fun _ => rfl, rfl⟩
  · intro s p hp h
    simp only [List.mem_cons, List.not_mem_nil, or_false] at hp
    rcases hp with rfl | rfl | rfl | rfl | rfl | rfl <;> simp [setState, strToState, h, Except.map]
  · intro s hs
    simp only [List.mem_cons, List.not_mem_nil, or_false, not_or] at hs
    obtain ⟨h1, h2, h3, h4, h5, h6⟩ := hs
    simp [setState, strToState, h1, h2, h3, h4, h5, h6, Except.map]

/-- **C86.** The six values are different, so that two states are equal exactly if they are the same; `!=` is the opposite of `==` between
states. -/
theorem C86_equal (s t : MState) :
    (s.pyEq (.state t) = true ↔ s = t) ∧ (s.pyNe (.state t) = true ↔ s ≠ t) := by
  cases s <;> cases t <;> decide

/-- **C86 (disagreement).** For the number of a state, `==` and `!=` are both false. -/
theorem C86_number_fails (s : MState) : s.pyEq (.int s.value) = false ∧ s.pyNe (.int s.value) = false := by
  cases s <;> decide

/-- **C86 (partial: two of six states).** The text of a state is accepted as a state. -/
theorem C86_text_partial : setState (.str MState.raw.str) = .ok (some .raw) ∧
    setState (.str MState.unfolded.str) = .ok (some .unfolded) := by
  constructor <;> decide +kernel

/-- **C86 (disagreement).** The texts of the other four states are not. -/
theorem C86_text_fails (s : MState) (h1 : s ≠ .raw) (h2 : s ≠ .unfolded) :
    setState (.str s.str) = .error .keyError := by
  cases s <;> first | contradiction | decide +kernel

example : ("FirstGen" : String).toLower = "firstgen" := by decide +kernel

end Ompy
