import Verif.Vector
import Verif.IndexProps
import Verif.RebinLemmas
import Mathlib.Analysis.SpecialFunctions.Exp
import Mathlib.Analysis.SpecialFunctions.Pow.Real
import Mathlib.Analysis.Real.Sqrt

/-!
# Properties of `Vector`: C08, C10–C14, C38
-/

namespace Ompy

/-! ### C08: cut -/

theorem slice_getElem? {α : Type} (l : List α) (a b k : ℕ) :
    (pySlice l (a : ℤ) ((b : ℤ) + 1))[k]? = if a + k ≤ b then l[a + k]? else none := by
  have : ((b : ℤ) + 1) = ((b + 1 : ℕ) : ℤ) := by push_cast; rfl
  rw [this, pySlice_nat, List.getElem?_drop, List.getElem?_take]
  split_ifs <;> first | rfl | omega

/-- Specification: `i` is the bin used as limit: the highest of the closest bins. -/
def IsLimit (l : List ℚ) (e : ℚ) (i : ℕ) : Prop :=
  IsClosest l e i ∧ ∀ j, IsClosest l e j → j ≤ i

/-- **C08.** `cut` keeps exactly the positions from the bin closest to `Emin` to the bin closest
to `Emax`; position `k` of every one of the three arrays of the result is position `imin + k` of
the same array before. -/
theorem C08_cut_block {α : Type} (v : Vec α) (emin emax : ℚ) (hE : v.E ≠ [])
    (hs : v.E.Pairwise (· ≤ ·)) :
    ∃ imin imax v', v.cut (some emin) (some emax) = .ok v' ∧
      IsLimit v.E emin imin ∧ IsLimit v.E emax imax ∧
      (∀ k, v'.E[k]? = if imin + k ≤ imax then v.E[imin + k]? else none) ∧
      (∀ k, v'.values[k]? = if imin + k ≤ imax then v.values[imin + k]? else none) ∧
      (v.std = none → v'.std = none) ∧
      (∀ s, v.std = some s → ∃ s', v'.std = some s' ∧
        ∀ k, s'[k]? = if imin + k ≤ imax then s[imin + k]? else none) ∧
      v'.units = v.units := by
  obtain ⟨i, h1, h2⟩ := C05_index_closest v.E emin hE hs
  obtain ⟨j, h3, h4⟩ := C05_index_closest v.E emax hE hs
  refine ⟨i, j, ⟨pySlice v.E i (j + 1), pySlice v.values i (j + 1),
    v.std.map fun s => pySlice s i (j + 1), v.units⟩, ?_, h2, h4,
    fun k => slice_getElem? _ _ _ _, fun k => slice_getElem? _ _ _ _, ?_, ?_, rfl⟩
  · simp [Vec.cut, orElseE, h1, h3, bind, Except.bind, pure, Except.pure]
  · intro h; simp [h]
  · intro s h
    exact ⟨pySlice s i (j + 1), by simp [h], fun k => slice_getElem? _ _ _ _⟩

example : (Vec.cut (⟨[1, 2, 3, 4], [10, 20, 30, 40], some [1, 2, 3, 4], "keV"⟩ : Vec ℚ)
    (some (19/10)) (some (31/10))) = .ok ⟨[2, 3], [20, 30], some [2, 3], "keV"⟩ := by
  decide +kernel

theorem foldl_min_eq (a : ℚ) (l : List ℚ) (h : ∀ x ∈ l, a ≤ x) : l.foldl min a = a := by
  induction l with
  | nil => rfl
  | cons x xs ih =>
    rw [List.foldl_cons, min_eq_left (h x (by simp))]
    exact ih fun y hy => h y (by simp [hy])

theorem foldl_max_sorted (a : ℚ) (l : List ℚ) (h : (a :: l).Pairwise (· ≤ ·)) :
    l.foldl max a = (a :: l).getLast (by simp) := by
  induction l generalizing a with
  | nil => rfl
  | cons x xs ih =>
    rw [List.pairwise_cons] at h
    rw [List.foldl_cons, max_eq_right (h.1 x (by simp)), ih x h.2]
    simp

theorem closest_of_hit {l : List ℚ} (hs : l.Pairwise (· < ·)) {i k : ℕ} (hi : i < l.length)
    (hk : IsClosest l (l.getD i 0) k) : k = i := by
  have h := hk.2 i hi
  simp only [sub_self, abs_zero] at h
  have h0 : l.getD k 0 = l.getD i 0 := by
    have := abs_nonpos_iff.1 h
    linarith
  rcases lt_trichotomy k i with hlt | heq | hgt
  · have := getD_strictMono hs hlt hi
    linarith
  · exact heq
  · have := getD_strictMono hs hgt hk.1
    linarith

theorem index_hit {l : List ℚ} (hs : l.Pairwise (· < ·)) {i : ℕ} (hi : i < l.length) :
    index l (l.getD i 0) = .ok i := by
  obtain ⟨k, h1, h2, _⟩ := C05_index_closest l (l.getD i 0)
    (by rintro rfl; simp at hi) (hs.imp le_of_lt)
  rw [h1, closest_of_hit hs hi h2]

/-- **C08.** Limits that are not given mean the ends of the axis: nothing is cut. -/
theorem C08_cut_none {α : Type} (v : Vec α) (hE : v.E ≠ []) (hs : v.E.Pairwise (· < ·))
    (hc : v.consistent) : v.cut none none = .ok v := by
  obtain ⟨E, values, std, units⟩ := v
  cases E with
  | nil => exact absurd rfl hE
  | cons a as =>
    simp only [Vec.consistent, Bool.and_eq_true, beq_iff_eq] at hc
    obtain ⟨hl, hstd⟩ := hc
    have hmin : listMin (a :: as) = .ok ((a :: as).getD 0 0) := by
      simp only [listMin, List.getD_cons_zero]
      rw [foldl_min_eq]
      intro x hx
      exact ((List.pairwise_cons.1 hs).1 x hx).le
    have hmax : listMax (a :: as) = .ok ((a :: as).getD as.length 0) := by
      simp only [listMax]
      rw [foldl_max_sorted a as (hs.imp le_of_lt), List.getLast_eq_getElem,
        List.getD_eq_getElem _ _ (by simp)]
      simp
    have i0 := index_hit hs (i := 0) (by simp)
    have i1 := index_hit hs (i := as.length) (by simp)
    have full : ∀ {β : Type} (l : List β), l.length = as.length + 1 →
        pySlice l ((0 : ℕ) : ℤ) ((as.length : ℤ) + 1) = l := by
      intro β l h
      have : ((as.length : ℤ) + 1) = ((as.length + 1 : ℕ) : ℤ) := by push_cast; rfl
      rw [this, pySlice_nat, ← h]
      simp
    simp only [Vec.cut, orElseE, hmin, hmax, i0, i1, bind, Except.bind, pure, Except.pure]
    congr 2
    · exact full _ rfl
    · exact full _ (by rw [← hl]; rfl)
    · cases std with
      | none => rfl
      | some s =>
        simp only [Option.map_some, beq_iff_eq] at *
        congr 1
        exact full _ (by rw [hstd, ← hl]; rfl)

example : (⟨[1, 2, 4], [0, 1, 2], none, "MeV"⟩ : Vec ℚ).consistent = true := by decide

/-! ### C10: unit conversions -/

/-- Specification: the physical energies (in keV) of a vector with known units. -/
def Vec.physical {α : Type} (v : Vec α) : List ℚ :=
  if v.units = "MeV" then v.E.map (· * 1000) else v.E

/-- Specification: a call history, `true` = `to_MeV`, `false` = `to_keV`. -/
def convert {α : Type} : List Bool → Vec α → Except Err (Vec α)
  | [], v => .ok v
  | c :: cs, v => (if c then v.toMeV else v.toKeV) >>= convert cs

theorem convert_step {α : Type} (v : Vec α) (c : Bool) (hu : v.units = "keV" ∨ v.units = "MeV") :
    ∃ v', (if c then v.toMeV else v.toKeV) = .ok v' ∧ v'.physical = v.physical ∧
      v'.values = v.values ∧ v'.std = v.std ∧ v'.units = (if c then "MeV" else "keV") ∧
      (v.units = (if c then "MeV" else "keV") → v' = v) := by
  obtain ⟨E, values, std, units⟩ := v
  simp only at hu
  rcases hu with rfl | rfl <;> cases c <;>
    simp [Vec.toMeV, Vec.toKeV, Vec.physical, List.map_map, Function.comp_def]

/-- **C10.** After any history of conversions the energies are determined by the physical
energies and the last call; values and std are never touched. -/
theorem C10_conversion_history {α : Type} (calls : List Bool) (last : Bool) (v : Vec α)
    (hu : v.units = "keV" ∨ v.units = "MeV") :
    ∃ v', convert (calls ++ [last]) v = .ok v' ∧
      v'.E = (if last then v.physical.map (· / 1000) else v.physical) ∧
      v'.units = (if last then "MeV" else "keV") ∧ v'.values = v.values ∧ v'.std = v.std := by
  induction calls generalizing v with
  | nil =>
    obtain ⟨v', h1, h2, h3, h4, h5, _⟩ := convert_step v last hu
    refine ⟨v', ?_, ?_, h5, h3, h4⟩
    · simp [convert, h1, bind, Except.bind]
    · rw [← h2]
      unfold Vec.physical
      cases last <;> simp [h5, List.map_map, Function.comp_def]
  | cons c cs ih =>
    obtain ⟨v1, h1, h2, h3, h4, h5, _⟩ := convert_step v c hu
    obtain ⟨v', g1, g2, g3, g4, g5⟩ := ih v1 (by rw [h5]; cases c <;> simp)
    refine ⟨v', ?_, by rw [g2, h2], g3, by rw [g4, h3], by rw [g5, h4]⟩
    simp only [List.cons_append, convert, h1]
    exact g1

/-- **C10.** Repeating a conversion is a no-op. -/
theorem C10_idempotent {α : Type} (v : Vec α) (c : Bool)
    (hu : v.units = "keV" ∨ v.units = "MeV") :
    convert [c, c] v = convert [c] v := by
  obtain ⟨v', h1, _, _, _, h5, _⟩ := convert_step v c hu
  obtain ⟨v'', g1, _, _, _, _, g6⟩ := convert_step v' c (by rw [h5]; cases c <;> simp)
  rw [g6 h5] at g1
  simp [convert, h1, g1, bind, Except.bind]

/-- **C10.** Converting there and back restores the vector. -/
theorem C10_round_trip {α : Type} (v : Vec α) :
    (v.units = "keV" → convert [true, false] v = .ok v) ∧
    (v.units = "MeV" → convert [false, true] v = .ok v) := by
  obtain ⟨E, values, std, units⟩ := v
  constructor <;> rintro rfl <;>
    simp [convert, Vec.toMeV, Vec.toKeV, bind, Except.bind, List.map_map, Function.comp_def]

/-- **C10.** Unknown units: both conversions raise NotImplementedError. -/
theorem C10_unknown_units {α : Type} (v : Vec α) (h1 : v.units ≠ "keV") (h2 : v.units ≠ "MeV") :
    v.toMeV = .error .notImplemented ∧ v.toKeV = .error .notImplemented := by
  simp [Vec.toMeV, Vec.toKeV, h1, h2]

example : convert [true, true, false, true] (⟨[500, 1500], [1, 2], none, "keV"⟩ : Vec ℚ)
    = .ok ⟨[1/2, 3/2], [1, 2], none, "MeV"⟩ := by decide +kernel

/-! ### C11: transform -/

/-- `Vector.transform` over the reals with the real exponential function. -/
noncomputable def Vec.transformR (v : Vec ℝ) (const alpha : ℝ) : Vec ℝ :=
  v.transform (fun q => (q : ℝ)) Real.exp const alpha

/-- The specification of the Oslo normalisation of the values: `A · x · exp(a·E)`. -/
noncomputable def osloList (A a : ℝ) (xs : List ℝ) (E : List ℚ) : List ℝ :=
  List.zipWith (fun (x : ℝ) (e : ℚ) => A * Real.exp (a * (e : ℝ)) * x) xs E

theorem transformR_values (v : Vec ℝ) (A a : ℝ) :
    (v.transformR A a).values = osloList A a v.values v.E := by
  unfold Vec.transformR Vec.transform osloList
  simp only
  congr 1
  funext x e
  ring

theorem transformR_std (v : Vec ℝ) (A a : ℝ) (s : List ℝ) (hs : v.std = some s)
    (h0 : ∀ x ∈ v.values, x ≠ 0) (hc : v.consistent) :
    (v.transformR A a).std = some (osloList A a s v.E) := by
  obtain ⟨E, values, std, units⟩ := v
  simp only at hs
  subst hs
  simp only [Vec.consistent, Bool.and_eq_true, beq_iff_eq] at hc
  simp only [Vec.transformR, Vec.transform, Option.map_some, osloList]
  congr 1
  obtain ⟨h1, h2⟩ := hc
  apply List.ext_getElem
  · simp [h1, h2]
  · intro k k1 k2
    simp only [List.getElem_zipWith]
    have hk : k < values.length := by simp at k1; omega
    have := h0 _ (List.getElem_mem hk)
    field_simp

theorem osloList_comp (A a B b : ℝ) (xs : List ℝ) (E : List ℚ) :
    osloList B b (osloList A a xs E) E = osloList (A * B) (a + b) xs E := by
  induction xs generalizing E with
  | nil => simp [osloList]
  | cons x xs ih =>
    cases E with
    | nil => simp [osloList]
    | cons e E =>
      simp only [osloList, List.zipWith_cons_cons, List.cons.injEq] at *
      refine ⟨?_, ih E⟩
      rw [add_mul, Real.exp_add]
      ring

theorem osloList_ne_zero (A a : ℝ) (hA : A ≠ 0) (xs : List ℝ) (E : List ℚ)
    (h : ∀ x ∈ xs, x ≠ 0) : ∀ y ∈ osloList A a xs E, y ≠ 0 := by
  intro y hy
  obtain ⟨k, hk, rfl⟩ := List.getElem_of_mem hy
  unfold osloList at hk ⊢
  rw [List.getElem_zipWith]
  have : k < xs.length := by simp at hk; omega
  exact mul_ne_zero (mul_ne_zero hA (Real.exp_ne_zero _)) (h _ (List.getElem_mem this))

theorem transformR_consistent (v : Vec ℝ) (A a : ℝ) (hc : v.consistent) :
    (v.transformR A a).consistent := by
  obtain ⟨E, values, std, units⟩ := v
  simp only [Vec.consistent, Bool.and_eq_true, beq_iff_eq] at hc
  cases std with
  | none => simp [Vec.transformR, Vec.transform, Vec.consistent, hc.1]
  | some s =>
    obtain ⟨h1, h2⟩ := hc
    simp only [beq_iff_eq] at h2
    simp [Vec.transformR, Vec.transform, Vec.consistent, h1, h2]

/-- **C11.** `transform` multiplies values by `A·exp(a·E)` and leaves axis and units alone. -/
theorem C11_transform_values (v : Vec ℝ) (A a : ℝ) :
    (v.transformR A a).values = osloList A a v.values v.E ∧
    (v.transformR A a).E = v.E ∧ (v.transformR A a).units = v.units ∧
    (v.std = none → (v.transformR A a).std = none) :=
  ⟨transformR_values v A a, rfl, rfl, fun h => by simp [Vec.transformR, Vec.transform, h]⟩

/-- **C11.** The standard deviations are scaled by the same factors (no value being zero, where
the relative uncertainty would be undefined). -/
theorem C11_transform_std (v : Vec ℝ) (A a : ℝ) (s : List ℝ) (hs : v.std = some s)
    (h0 : ∀ x ∈ v.values, x ≠ 0) (hc : v.consistent) :
    (v.transformR A a).std = some (osloList A a s v.E) := transformR_std v A a s hs h0 hc

/-- **C11.** Group law. The std part needs non-zero values and `A ≠ 0`. -/
theorem C11_group_law (v : Vec ℝ) (A a B b : ℝ) (hc : v.consistent)
    (hstd : v.std = none ∨ (A ≠ 0 ∧ ∀ x ∈ v.values, x ≠ 0)) :
    (v.transformR A a).transformR B b = v.transformR (A * B) (a + b) := by
  have hvals : ((v.transformR A a).transformR B b).values = (v.transformR (A * B) (a + b)).values := by
    rw [transformR_values, transformR_values, transformR_values]
    exact osloList_comp A a B b v.values v.E
  have hst : ((v.transformR A a).transformR B b).std = (v.transformR (A * B) (a + b)).std := by
    rcases hstd with h | ⟨hA, h0⟩
    · simp [Vec.transformR, Vec.transform, h]
    · cases hs : v.std with
      | none => simp [Vec.transformR, Vec.transform, hs]
      | some s =>
        rw [transformR_std v _ _ s hs h0 hc]
        rw [transformR_std (v.transformR A a) B b (osloList A a s v.E)
          (transformR_std v A a s hs h0 hc)
          (by rw [transformR_values]; exact osloList_ne_zero A a hA _ _ h0)
          (transformR_consistent v A a hc)]
        rw [show (v.transformR A a).E = v.E from rfl, osloList_comp]
  show Vec.mk _ _ _ _ = Vec.mk _ _ _ _
  rw [Vec.mk.injEq]
  exact ⟨rfl, hvals, hst, rfl⟩

theorem osloList_one (xs : List ℝ) (E : List ℚ) (h : E.length = xs.length) :
    osloList 1 0 xs E = xs := by
  apply List.ext_getElem
  · simp [osloList, h]
  · intro k k1 k2
    simp [osloList]

/-- **C11.** `transform(1, 0)` is the identity. -/
theorem C11_identity (v : Vec ℝ) (hc : v.consistent)
    (hstd : v.std = none ∨ ∀ x ∈ v.values, x ≠ 0) : v.transformR 1 0 = v := by
  have hc' := hc
  simp only [Vec.consistent, Bool.and_eq_true, beq_iff_eq] at hc'
  have hvals : (v.transformR 1 0).values = v.values := by
    rw [transformR_values, osloList_one _ _ hc'.1]
  have hst : (v.transformR 1 0).std = v.std := by
    cases hs : v.std with
    | none => simp [Vec.transformR, Vec.transform, hs]
    | some s =>
      rcases hstd with h | h
      · rw [hs] at h; cases h
      · rw [transformR_std v 1 0 s hs h hc, osloList_one]
        rw [hs] at hc'
        simp only [beq_iff_eq] at hc'
        rw [hc'.1, hc'.2]
  obtain ⟨E, values, std, units⟩ := v
  show Vec.mk _ _ _ _ = Vec.mk _ _ _ _
  rw [Vec.mk.injEq]
  exact ⟨rfl, hvals, hst, rfl⟩

/-- **C11.** `transform(1/A, -a)` undoes `transform(A, a)`. -/
theorem C11_inverse (v : Vec ℝ) (A a : ℝ) (hA : A ≠ 0) (hc : v.consistent)
    (hstd : v.std = none ∨ ∀ x ∈ v.values, x ≠ 0) :
    (v.transformR A a).transformR (1 / A) (-a) = v := by
  rw [C11_group_law v A a (1 / A) (-a) hc (hstd.imp id fun h => ⟨hA, h⟩)]
  rw [mul_one_div_cancel hA, add_neg_cancel]
  exact C11_identity v hc hstd

example : ∃ v : Vec ℝ, v.consistent ∧ v.std = some [1, 2] ∧ ∀ x ∈ v.values, x ≠ 0 := by
  refine ⟨⟨[1, 2], [3, 4], some [1, 2], "keV"⟩, by simp [Vec.consistent], rfl, ?_⟩
  intro x hx
  simp at hx
  rcases hx with rfl | rfl <;> norm_num

/-! ### C12: cumulative -/

theorem cumsumFrom_length {α : Type} [Add α] (acc : α) (l : List α) :
    (cumsumFrom acc l).length = l.length := by
  induction l generalizing acc with
  | nil => rfl
  | cons x xs ih => simp [cumsumFrom, ih]

theorem cumsumFrom_getElem? (acc : ℝ) (l : List ℝ) (i : ℕ) (hi : i < l.length) :
    (cumsumFrom acc l)[i]? = some (acc + (l.take (i + 1)).sum) := by
  induction l generalizing acc i with
  | nil => simp at hi
  | cons x xs ih =>
    cases i with
    | zero => simp [cumsumFrom]
    | succ i =>
      simp only [cumsumFrom, List.getElem?_cons_succ, List.take_succ_cons, List.sum_cons]
      rw [ih (acc + x) i (by simpa using hi)]
      simp [add_assoc]

/-- `Vector.cumulative` over the reals. -/
noncomputable def Vec.cumulativeR (v : Vec ℝ) (f : CumFactor) : Except Err (Vec ℝ) :=
  v.cumulative (fun q => (q : ℝ)) Real.sqrt f

/-- **C12.** Position `i` of the cumulative vector is factor times the sum of the values up to
and including `i`; its std is factor times the root of the summed variances. -/
theorem C12_cumulative_sums (v : Vec ℝ) (f : CumFactor) (q : ℚ) (hf : cumFactor v.E f = .ok q) :
    ∃ v', v.cumulativeR f = .ok v' ∧ v'.E = v.E ∧ v'.units = v.units ∧
      v'.values.length = v.values.length ∧
      (∀ i < v.values.length, v'.values[i]? = some ((v.values.take (i + 1)).sum * q)) ∧
      (v.std = none → v'.std = none) ∧
      (∀ s, v.std = some s → ∃ s', v'.std = some s' ∧ s'.length = s.length ∧ ∀ i < s.length,
        s'[i]? = some (Real.sqrt ((s.map fun x => x ^ 2).take (i + 1)).sum * q)) := by
  refine ⟨{ v with
    values := (cumsum v.values).map (· * (q : ℝ))
    std := v.std.map fun s => (cumsum (s.map fun x => x * x)).map fun x => Real.sqrt x * (q : ℝ) },
    by simp only [Vec.cumulativeR, Vec.cumulative, hf, bind, Except.bind]; rfl, rfl, rfl, by simp [cumsum, cumsumFrom_length], ?_, ?_, ?_⟩
  · intro i hi
    simp only [cumsum, List.getElem?_map]
    rw [cumsumFrom_getElem? 0 v.values i hi]
    simp
  · intro h; simp [h]
  · intro s h
    refine ⟨_, by simp only [h, Option.map_some]; rfl, by simp [cumsum, cumsumFrom_length], ?_⟩
    intro i hi
    simp only [cumsum, List.getElem?_map]
    rw [cumsumFrom_getElem? 0 _ i (by simpa using hi)]
    simp [sq]

/-- **C12.** Which factor is used: none → 1, a number → itself, `'de'` (any case) → the bin width
of an equidistant axis, RuntimeError if the axis is not equidistant, ValueError for other
strings. -/
theorem C12_factor (E : List ℚ) :
    cumFactor E .none = .ok 1 ∧ (∀ q, cumFactor E (.num q) = .ok q) ∧
    (∀ s : String, s.toLower ≠ "de" → cumFactor E (.str s) = .error .valueError) ∧
    (∀ (s : String) (q : ℚ), s.toLower = "de" → cumFactor E (.str s) = .ok q →
      ∀ k, k + 1 < E.length → E.getD (k + 1) 0 - E.getD k 0 = q) := by
  refine ⟨rfl, fun _ => rfl, ?_, ?_⟩
  · intro s h
    simp [cumFactor, h]
  · intro s q h hq k hk
    match E with
    | [] => simp at hk
    | [_] => simp at hk
    | a :: b :: t =>
      simp only [cumFactor, h, ne_eq, not_true_eq_false, if_false] at hq
      split_ifs at hq with hall
      injection hq with hq
      rw [List.all_eq_true] at hall
      have hk2 : k < (List.zipWith (fun x y => y - x) (a :: b :: t) (b :: t)).length := by
        simp at hk ⊢; omega
      have := hall _ (List.getElem_mem hk2)
      simp only [List.getElem_zipWith, beq_iff_eq] at this
      rw [← hq, ← this]
      rw [List.getD_cons_succ, List.getD_eq_getElem _ _ (by simp at hk ⊢; omega),
        List.getD_eq_getElem _ _ (by omega)]

/-- **C12.** Consecutive differences give back the values (times the factor). -/
theorem C12_differences (v v' : Vec ℝ) (f : CumFactor) (q : ℚ) (hf : cumFactor v.E f = .ok q)
    (h : v.cumulativeR f = .ok v') (i : ℕ) (hi : i + 1 < v.values.length) :
    v'.values.getD (i + 1) 0 - v'.values.getD i 0 = v.values.getD (i + 1) 0 * q := by
  obtain ⟨w, h1, _, _, _, h2, _⟩ := C12_cumulative_sums v f q hf
  rw [h] at h1
  injection h1 with h1
  subst h1
  rw [List.getD_eq_getElem?_getD, List.getD_eq_getElem?_getD, h2 _ hi, h2 i (by omega)]
  simp only [Option.getD_some]
  rw [List.take_add_one (i := i + 1), List.getElem?_eq_getElem hi]
  simp only [Option.toList_some, List.sum_append, List.sum_cons, List.sum_nil, add_zero]
  rw [List.getD_eq_getElem _ _ hi]
  ring

/-- **C12.** Non-negative values and factor give a non-decreasing result. -/
theorem C12_monotone (v v' : Vec ℝ) (f : CumFactor) (q : ℚ) (hf : cumFactor v.E f = .ok q)
    (hq : 0 ≤ q) (hpos : ∀ x ∈ v.values, 0 ≤ x)
    (h : v.cumulativeR f = .ok v') (i : ℕ) (hi : i + 1 < v.values.length) :
    v'.values.getD i 0 ≤ v'.values.getD (i + 1) 0 := by
  have := C12_differences v v' f q hf h i hi
  have h1 : 0 ≤ v.values.getD (i + 1) 0 := by
    rw [List.getD_eq_getElem _ _ hi]
    exact hpos _ (List.getElem_mem _)
  have h2 : (0 : ℝ) ≤ q := by exact_mod_cast hq
  have := mul_nonneg h1 h2
  linarith

example : cumFactor [1, 3, 5] (.str "de") = .ok 2 := by decide +kernel

/-! ### C13: closest -/

theorem isSorted_iff (l : List ℚ) : isSorted l = true ↔ l.Pairwise (· ≤ ·) := by
  induction l with
  | nil => simp [isSorted]
  | cons a t ih =>
    cases t with
    | nil => simp [isSorted]
    | cons b t =>
      simp only [isSorted, Bool.and_eq_true, decide_eq_true_eq, ih]
      constructor
      · rintro ⟨h1, h2⟩
        rw [List.pairwise_cons]
        refine ⟨?_, h2⟩
        intro x hx
        rcases List.mem_cons.1 hx with rfl | hx
        · exact h1
        · exact h1.trans ((List.pairwise_cons.1 h2).1 x hx)
      · intro h
        rw [List.pairwise_cons] at h
        exact ⟨h.1 b (by simp), h.2⟩

/-- On a sorted list, counting a downward closed predicate finds the boundary. -/
theorem filter_prefix (l : List ℚ) (p : ℚ → Bool) (hs : l.Pairwise (· ≤ ·))
    (hp : ∀ x y, x ≤ y → p y = true → p x = true) (k : ℕ) (hk : k < l.length) :
    p l[k] = true ↔ k < (l.filter p).length := by
  induction l generalizing k with
  | nil => simp at hk
  | cons a t ih =>
    rw [List.pairwise_cons] at hs
    by_cases ha : p a = true
    · rw [List.filter_cons_of_pos ha]
      cases k with
      | zero => simp [ha]
      | succ k =>
        simp only [List.getElem_cons_succ, List.length_cons]
        rw [ih hs.2 k (by simpa using hk)]
        omega
    · have hnil : (a :: t).filter p = [] := by
        rw [List.filter_eq_nil_iff]
        intro x hx hpx
        rcases List.mem_cons.1 hx with rfl | hx
        · exact ha hpx
        · exact ha (hp a x (hs.1 x hx) hpx)
      rw [hnil]
      simp only [List.length_nil, Nat.not_lt_zero, iff_false]
      intro hpk
      apply ha
      cases k with
      | zero => simpa using hpk
      | succ k =>
        simp only [List.getElem_cons_succ] at hpk
        exact hp a _ (hs.1 _ (List.getElem_mem _)) hpk

theorem searchsorted_right (l : List ℚ) (hs : l.Pairwise (· ≤ ·)) (x : ℚ) (k : ℕ)
    (hk : k < l.length) : l.getD k 0 ≤ x ↔ k < searchsorted l x true := by
  rw [List.getD_eq_getElem _ _ hk]
  have := filter_prefix l (fun y => decide (y ≤ x)) hs
    (by intro a b hab h; simp at *; linarith) k hk
  simpa [searchsorted] using this

theorem searchsorted_left (l : List ℚ) (hs : l.Pairwise (· ≤ ·)) (x : ℚ) (k : ℕ)
    (hk : k < l.length) : l.getD k 0 < x ↔ k < searchsorted l x false := by
  rw [List.getD_eq_getElem _ _ hk]
  have := filter_prefix l (fun y => decide (y < x)) hs
    (by intro a b hab h; simp at *; linarith) k hk
  simpa [searchsorted] using this

/-- **C13.** `side='right'`: the value at `i` where `E[i] ≤ x < E[i+1]`. -/
theorem C13_closest_right (v : Vec ℚ) (enew : List ℚ) (hs : v.E.Pairwise (· ≤ ·)) :
    ∃ v', v.closest enew true = .ok v' ∧ v'.E = enew ∧ v'.units = v.units ∧
      v'.values.length = enew.length ∧
      ∀ j < enew.length,
        (∀ i, i + 1 < v.E.length → v.E.getD i 0 ≤ enew.getD j 0 →
          enew.getD j 0 < v.E.getD (i + 1) 0 → v'.values.getD j 0 = v.values.getD i 0) ∧
        ((∀ i < v.E.length, enew.getD j 0 < v.E.getD i 0) → v'.values.getD j 0 = 0) ∧
        ((∀ i < v.E.length, v.E.getD i 0 ≤ enew.getD j 0) → v'.values.getD j 0 = 0) := by
  refine ⟨{ v with
    E := enew
    values := enew.map fun x => closestPick v.values v.E.length (searchsorted v.E x true)
    std := v.std.map fun s =>
      enew.map fun x => closestPick s v.E.length (searchsorted v.E x true) },
    by simp only [Vec.closest, (isSorted_iff v.E).2 hs, if_true], rfl, rfl, by simp, ?_⟩
  intro j hj
  have hval : (enew.map fun x => closestPick v.values v.E.length
      (searchsorted v.E x true)).getD j 0
      = closestPick v.values v.E.length (searchsorted v.E (enew.getD j 0) true) := by
    simp [List.getD_eq_getElem?_getD, hj]
  simp only
  rw [hval]
  generalize enew.getD j 0 = x
  have hle : searchsorted v.E x true ≤ v.E.length := List.length_filter_le _ _
  refine ⟨?_, ?_, ?_⟩
  · intro i hi h1 h2
    have g1 := (searchsorted_right v.E hs x i (by omega)).1 h1
    have g2 : ¬ i + 1 < searchsorted v.E x true := by
      rw [← searchsorted_right v.E hs x (i + 1) hi]; exact not_le.2 h2
    have e : searchsorted v.E x true = i + 1 := by omega
    have hge : ¬ i + 1 ≥ v.E.length := by omega
    simp [closestPick, e, hge]
  · intro h
    have : searchsorted v.E x true = 0 := by
      by_contra hne
      have : 0 < v.E.length := by omega
      have := (searchsorted_right v.E hs x 0 this).2 (by omega)
      exact absurd (h 0 (by omega)) (not_lt.2 this)
    simp [closestPick, this]
  · intro h
    have : v.E.length ≤ searchsorted v.E x true := by
      by_contra hne
      push Not at hne
      have := (searchsorted_right v.E hs x _ hne).1 (h _ hne)
      omega
    simp only [closestPick]
    rw [if_pos this, if_pos rfl]

/-- **C13.** `side='left'`: the value at `i` where `E[i] < x ≤ E[i+1]`; 0 below and above. -/
theorem C13_closest_left (v : Vec ℚ) (enew : List ℚ) (hs : v.E.Pairwise (· ≤ ·)) :
    ∃ v', v.closest enew false = .ok v' ∧ v'.E = enew ∧ v'.units = v.units ∧
      v'.values.length = enew.length ∧
      ∀ j < enew.length,
        (∀ i, i + 1 < v.E.length → v.E.getD i 0 < enew.getD j 0 →
          enew.getD j 0 ≤ v.E.getD (i + 1) 0 → v'.values.getD j 0 = v.values.getD i 0) ∧
        ((∀ i < v.E.length, enew.getD j 0 ≤ v.E.getD i 0) → v'.values.getD j 0 = 0) ∧
        ((∀ i < v.E.length, v.E.getD i 0 < enew.getD j 0) → v'.values.getD j 0 = 0) := by
  refine ⟨{ v with
    E := enew
    values := enew.map fun x => closestPick v.values v.E.length (searchsorted v.E x false)
    std := v.std.map fun s =>
      enew.map fun x => closestPick s v.E.length (searchsorted v.E x false) },
    by simp only [Vec.closest, (isSorted_iff v.E).2 hs, if_true], rfl, rfl, by simp, ?_⟩
  intro j hj
  have hval : (enew.map fun x => closestPick v.values v.E.length
      (searchsorted v.E x false)).getD j 0
      = closestPick v.values v.E.length (searchsorted v.E (enew.getD j 0) false) := by
    simp [List.getD_eq_getElem?_getD, hj]
  simp only
  rw [hval]
  generalize enew.getD j 0 = x
  have hle : searchsorted v.E x false ≤ v.E.length := List.length_filter_le _ _
  refine ⟨?_, ?_, ?_⟩
  · intro i hi h1 h2
    have g1 := (searchsorted_left v.E hs x i (by omega)).1 h1
    have g2 : ¬ i + 1 < searchsorted v.E x false := by
      rw [← searchsorted_left v.E hs x (i + 1) hi]; exact not_lt.2 h2
    have e : searchsorted v.E x false = i + 1 := by omega
    have hge : ¬ i + 1 ≥ v.E.length := by omega
    simp [closestPick, e, hge]
  · intro h
    have : searchsorted v.E x false = 0 := by
      by_contra hne
      have : 0 < v.E.length := by omega
      have := (searchsorted_left v.E hs x 0 this).2 (by omega)
      exact absurd (h 0 (by omega)) (not_le.2 this)
    simp [closestPick, this]
  · intro h
    have : v.E.length ≤ searchsorted v.E x false := by
      by_contra hne
      push Not at hne
      have := (searchsorted_left v.E hs x _ hne).1 (h _ hne)
      omega
    simp only [closestPick]
    rw [if_pos this, if_pos rfl]

/-- **C13.** The standard deviations are looked up at exactly the same positions. -/
theorem C13_closest_std (v : Vec ℚ) (enew : List ℚ) (right : Bool) (s : List ℚ)
    (hs : v.std = some s) (v' : Vec ℚ) (h : v.closest enew right = .ok v') :
    ∃ w, Vec.closest (⟨v.E, s, none, v.units⟩ : Vec ℚ) enew right = .ok w ∧
      v'.std = some w.values := by
  unfold Vec.closest at h ⊢
  split_ifs at h with hsort
  injection h with h
  subst h
  exact ⟨⟨enew, enew.map fun x => closestPick s v.E.length (searchsorted v.E x right), none,
    v.units⟩, by simp [hsort], by simp [hs]⟩

/-- **C13.** An axis that is not sorted raises RuntimeError. -/
theorem C13_unsorted {α : Type} [Zero α] (v : Vec α) (enew : List ℚ) (right : Bool)
    (h : ¬ v.E.Pairwise (· ≤ ·)) : v.closest enew right = .error .runtimeError := by
  unfold Vec.closest
  rw [if_neg]
  rw [isSorted_iff]
  exact h

/-- C13, the documented `E[i] <= E_new <= E[i+1]` for side right does not hold at the last
energy: the code returns 0 there. -/
theorem C13_right_end_is_zero :
    Vec.closest (⟨[1, 2, 3], [10, 20, 30], none, "keV"⟩ : Vec ℚ) [2, 5/2, 3] true
      = .ok ⟨[2, 5/2, 3], [20, 20, 0], none, "keV"⟩ := by decide +kernel

example : ([1, 2, 3] : List ℚ).Pairwise (· ≤ ·) ∧ ¬ ([1, 3, 2] : List ℚ).Pairwise (· ≤ ·) := by
  decide +kernel

/-! ### C14: cut_nan -/

theorem filter_zipIdx_pair {α : Type} (l : List α) (vals : List Num) (q : ℕ → Bool) (n : ℕ)
    (hlen : l.length = vals.length)
    (hq : ∀ k (hk : k < vals.length), q (n + k) = !(vals[k]).isNan) :
    ((l.zipIdx n).filter fun p => q p.2).map Prod.fst
      = ((l.zip vals).filter fun p => !p.2.isNan).map Prod.fst := by
  induction l generalizing vals n with
  | nil => simp
  | cons x xs ih =>
    cases vals with
    | nil => simp at hlen
    | cons y ys =>
      have h0 := hq 0 (by simp)
      simp only [Nat.add_zero, List.getElem_cons_zero] at h0
      have hrest := ih ys (n + 1) (by simpa using hlen) (by
        intro k hk
        have := hq (k + 1) (by simpa using hk)
        simpa [Nat.add_assoc, Nat.add_comm 1 k] using this)
      simp only [List.zipIdx_cons, List.zip_cons_cons, List.filter_cons, h0]
      split_ifs
      · simp only [List.map_cons, hrest]
      · exact hrest

theorem npDelete_nan {α : Type} (l : List α) (vals : List Num) (hlen : l.length = vals.length) :
    npDelete l (nanPositions vals) = ((l.zip vals).filter fun p => !p.2.isNan).map Prod.fst := by
  unfold npDelete
  apply filter_zipIdx_pair _ _ (fun k => !(nanPositions vals).contains k) 0 hlen
  intro k hk
  rw [Nat.zero_add]
  congr 1
  rw [Bool.eq_iff_iff, List.contains_iff_mem]
  unfold nanPositions
  simp only [List.mem_map, List.mem_filter, Prod.exists]
  constructor
  · rintro ⟨a, b, ⟨h1, h2⟩, rfl⟩
    rw [List.mem_zipIdx_iff_getElem?, List.getElem?_eq_getElem hk] at h1
    injection h1 with h1
    rw [h1]; exact h2
  · intro h
    exact ⟨vals[k], k, ⟨by rw [List.mem_zipIdx_iff_getElem?, List.getElem?_eq_getElem hk], h⟩, rfl⟩

theorem npDelete_zip {α : Type} (l : List α) (vals : List Num) (hl : l.length = vals.length) :
    (((l.zip vals).filter fun p => !p.2.isNan).map Prod.fst).zip
      (vals.filter fun x => !x.isNan) = (l.zip vals).filter fun p => !p.2.isNan := by
  induction l generalizing vals with
  | nil => simp
  | cons x xs ih =>
    cases vals with
    | nil => simp at hl
    | cons y ys =>
      simp only [List.zip_cons_cons, List.filter_cons]
      have := ih ys (by simpa using hl)
      split_ifs
      · simp [this]
      · exact this

theorem npDelete_len {α : Type} (l : List α) (vals : List Num) (hl : l.length = vals.length) :
    (((l.zip vals).filter fun p => !p.2.isNan).map Prod.fst).length
      = (vals.filter fun x => !x.isNan).length := by
  induction l generalizing vals with
  | nil =>
    cases vals with
    | nil => rfl
    | cons y ys => simp at hl
  | cons x xs ih =>
    cases vals with
    | nil => simp at hl
    | cons y ys =>
      simp only [List.zip_cons_cons, List.filter_cons]
      have := ih ys (by simpa using hl)
      split_ifs
      · simpa using this
      · exact this

theorem npDelete_self (vals : List Num) :
    ((vals.zip vals).filter fun p => !p.2.isNan).map Prod.fst
      = vals.filter fun x => !x.isNan := by
  induction vals with
  | nil => rfl
  | cons x xs ih =>
    simp only [List.zip_cons_cons, List.filter_cons]
    split_ifs
    · simp [ih]
    · exact ih

/-- **C14.** `cut_nan` keeps exactly the entries whose value is not NaN, in order, each with its
own energy and its own std. -/
theorem C14_cut_nan (v : Vec Num) (hc : v.consistent) :
    v.cutNan.values = v.values.filter (fun x => !x.isNan) ∧
    v.cutNan.E.zip v.cutNan.values = (v.E.zip v.values).filter (fun p => !p.2.isNan) ∧
    (∀ s, v.std = some s → ∃ s', v.cutNan.std = some s' ∧
      s'.zip v.cutNan.values = (s.zip v.values).filter (fun p => !p.2.isNan)) ∧
    (v.std = none → v.cutNan.std = none) ∧ v.cutNan.units = v.units ∧
    v.cutNan.consistent := by
  obtain ⟨E, values, std, units⟩ := v
  simp only [Vec.consistent, Bool.and_eq_true, beq_iff_eq] at hc
  obtain ⟨h1, h2⟩ := hc
  have hv : npDelete values (nanPositions values) = values.filter (fun x => !x.isNan) := by
    rw [npDelete_nan values values rfl, npDelete_self]
  have hE : npDelete E (nanPositions values) = _ := npDelete_nan E values h1
  refine ⟨hv, ?_, ?_, ?_, rfl, ?_⟩
  · simp only [Vec.cutNan, hv, hE]
    exact npDelete_zip E values h1
  · intro s hs
    simp only at hs
    subst hs
    simp only [beq_iff_eq] at h2
    refine ⟨_, rfl, ?_⟩
    simp only [Vec.cutNan, hv, npDelete_nan s values h2]
    exact npDelete_zip s values h2
  · intro h
    simp only at h
    simp [Vec.cutNan, h]
  · have e1 := npDelete_len E values h1
    cases std with
    | none => simp only [Vec.cutNan, Vec.consistent, hv, hE, e1]; simp
    | some s =>
      simp only [beq_iff_eq] at h2
      have e2 := npDelete_len s values h2
      simp only [Vec.cutNan, Vec.consistent, hv, hE, e1, Option.map_some,
        npDelete_nan s values h2, e2]
      simp

/-- **C14.** `cut_nan` is idempotent and leaves no NaN; it changes nothing without NaN values. -/
theorem C14_idempotent (v : Vec Num) (hc : v.consistent) :
    (∀ x ∈ v.cutNan.values, x.isNan = false) ∧ v.cutNan.cutNan = v.cutNan ∧
    ((∀ x ∈ v.values, x.isNan = false) → v.cutNan = v) := by
  have key : ∀ w : Vec Num, (∀ x ∈ w.values, x.isNan = false) → w.cutNan = w := by
    intro w hw
    have hnil : nanPositions w.values = [] := by
      unfold nanPositions
      rw [List.map_eq_nil_iff, List.filter_eq_nil_iff]
      rintro ⟨a, k⟩ hp
      simp only [hw a (by
        rw [List.mem_zipIdx_iff_getElem?] at hp
        exact List.mem_of_getElem? hp), Bool.false_eq_true, not_false_eq_true]
    have hd : ∀ {α : Type} (l : List α), npDelete l [] = l := by
      intro α l
      simp [npDelete]
    obtain ⟨E, values, std, units⟩ := w
    simp only at hnil
    simp only [Vec.cutNan, hnil, hd]
    cases std <;> rfl
  have h1 : ∀ x ∈ v.cutNan.values, x.isNan = false := by
    rw [(C14_cut_nan v hc).1]
    intro x hx
    simpa using (List.mem_filter.1 hx).2
  exact ⟨h1, key _ h1, key v⟩

example : Vec.cutNan ⟨[1, 2, 3], [.fin 5, .nan, .pinf], some [.fin 1, .fin 2, .nan], "keV"⟩
    = ⟨[1, 3], [.fin 5, .pinf], some [.fin 1, .nan], "keV"⟩ := by decide +kernel

/-! ### C38: the lengths of the three arrays -/

/-- The public in-place operations of a `Vector`; one that raises ends the history.  As the entries
are rationals here, `cut_nan` comes with an arbitrary predicate saying which entries are NaN. -/
inductive VecOp
  | cut (emin emax : Option ℚ)
  | cutNan (isnan : ℚ → Bool)
  | toMeV | toKeV
  | rebin (mids : Option (List ℚ)) (factor : Option ℚ)
  | closest (enew : List ℚ) (right : Bool)
  | cumulative (f : CumFactor)
  | transform (const alpha : ℚ)

/-- One operation; `ex` and `rt` stand for `np.exp` and `np.sqrt` (any functions). -/
def VecOp.run (ex rt : ℚ → ℚ) (v : Vec ℚ) : VecOp → Except Err (Vec ℚ)
  | .cut a b => v.cut a b
  | .cutNan isnan =>
    let inan := (v.values.zipIdx.filter fun p => isnan p.1).map Prod.snd
    .ok { v with
      values := npDelete v.values inan
      E := npDelete v.E inan
      std := v.std.map fun s => npDelete s inan }
  | .toMeV => v.toMeV
  | .toKeV => v.toKeV
  | .rebin m f => (v.rebinInplace m f).2.map fun _ => (v.rebinInplace m f).1
  | .closest e r => v.closest e r
  | .cumulative f => v.cumulative id rt f
  | .transform c a => .ok (v.transform id ex c a)

/-- A history of operations none of which raises. -/
def runAll (ex rt : ℚ → ℚ) : List VecOp → Vec ℚ → Except Err (Vec ℚ)
  | [], v => .ok v
  | o :: os, v => o.run ex rt v >>= runAll ex rt os

theorem pySlice_length_congr {α β : Type} (l : List α) (m : List β) (i j : ℤ)
    (h : l.length = m.length) : (pySlice l i j).length = (pySlice m i j).length := by
  simp [pySlice, h]

theorem npDelete_length_congr {α β : Type} (l : List α) (m : List β) (pos : List ℕ)
    (h : l.length = m.length) : (npDelete l pos).length = (npDelete m pos).length := by
  have key : ∀ (l : List α) (m : List β) (n : ℕ), l.length = m.length →
      ((l.zipIdx n).filter fun p => !pos.contains p.2).length
        = ((m.zipIdx n).filter fun p => !pos.contains p.2).length := by
    intro l
    induction l with
    | nil =>
      intro m n h
      cases m with
      | nil => rfl
      | cons y ys => simp at h
    | cons x xs ih =>
      intro m n h
      cases m with
      | nil => simp at h
      | cons y ys =>
        have := ih ys (n + 1) (by simpa using h)
        simp only [List.zipIdx_cons, List.filter_cons]
        split_ifs
        · simpa using this
        · exact this
  simpa [npDelete] using key l m 0 h

theorem consistent_iff {α : Type} (v : Vec α) :
    v.consistent = true ↔ v.E.length = v.values.length ∧
      ∀ s, v.std = some s → s.length = v.values.length := by
  obtain ⟨E, values, std, units⟩ := v
  cases std <;> simp [Vec.consistent]

theorem run_consistent (ex rt : ℚ → ℚ) (v v' : Vec ℚ) (o : VecOp) (hc : v.consistent)
    (h : o.run ex rt v = .ok v') : v'.consistent := by
  rw [consistent_iff] at hc
  obtain ⟨h1, h2⟩ := hc
  cases o with
  | cut a b =>
    simp only [VecOp.run, Vec.cut, bind, Except.bind, pure, Except.pure] at h
    split at h
    · cases h
    split at h
    · cases h
    split at h
    · cases h
    split at h
    · cases h
    injection h with h
    subst h
    rw [consistent_iff]
    refine ⟨pySlice_length_congr _ _ _ _ h1, ?_⟩
    intro s hs
    simp only [Option.map_eq_some_iff] at hs
    obtain ⟨s0, hs0, rfl⟩ := hs
    exact pySlice_length_congr _ _ _ _ (h2 s0 hs0)
  | cutNan isnan =>
    simp only [VecOp.run, Except.ok.injEq] at h
    subst h
    rw [consistent_iff]
    refine ⟨npDelete_length_congr _ _ _ h1, ?_⟩
    intro s hs
    simp only [Option.map_eq_some_iff] at hs
    obtain ⟨s0, hs0, rfl⟩ := hs
    exact npDelete_length_congr _ _ _ (h2 s0 hs0)
  | toMeV =>
    simp only [VecOp.run, Vec.toMeV] at h
    split_ifs at h
    · injection h with h; subst h; rw [consistent_iff]; exact ⟨h1, h2⟩
    · injection h with h; subst h; rw [consistent_iff]; exact ⟨by simpa using h1, h2⟩
  | toKeV =>
    simp only [VecOp.run, Vec.toKeV] at h
    split_ifs at h
    · injection h with h; subst h; rw [consistent_iff]; exact ⟨h1, h2⟩
    · injection h with h; subst h; rw [consistent_iff]; exact ⟨by simpa using h1, h2⟩
  | rebin m f =>
    simp only [VecOp.run, Vec.rebinInplace] at h
    split at h
    · simp [Except.map] at h
    split at h
    · simp [Except.map] at h
    simp only [Vec.verify] at h
    split_ifs at h with hcons
    · simp only [Except.map, Except.ok.injEq] at h
      subst h
      exact hcons
    · simp [Except.map] at h
  | closest e r =>
    simp only [VecOp.run, Vec.closest] at h
    split_ifs at h
    injection h with h
    subst h
    rw [consistent_iff]
    refine ⟨by simp, ?_⟩
    intro s hs
    simp only [Option.map_eq_some_iff] at hs
    obtain ⟨s0, _, rfl⟩ := hs
    simp
  | cumulative f =>
    simp only [VecOp.run, Vec.cumulative, bind, Except.bind, pure, Except.pure] at h
    split at h
    · cases h
    injection h with h
    subst h
    rw [consistent_iff]
    refine ⟨by simpa [cumsum, cumsumFrom_length] using h1, ?_⟩
    intro s hs
    simp only [Option.map_eq_some_iff] at hs
    obtain ⟨s0, hs0, rfl⟩ := hs
    simpa [cumsum, cumsumFrom_length] using h2 s0 hs0
  | transform c a =>
    simp only [VecOp.run, Except.ok.injEq] at h
    subst h
    rw [consistent_iff]
    refine ⟨by simp [Vec.transform, h1], ?_⟩
    intro s hs
    simp only [Vec.transform, Option.map_eq_some_iff] at hs
    obtain ⟨s0, hs0, rfl⟩ := hs
    simp [Vec.transform, h1, h2 s0 hs0]

/-- **C38.** From any constructed vector, any history of operations that do not raise keeps the
three arrays equally long. -/
theorem C38_lengths_agree (ex rt : ℚ → ℚ) (values : Option (List ℚ)) (E : Option (List ℚ))
    (std : Option (List ℚ)) (units : String) (v v' : Vec ℚ)
    (hnew : Vec.new values E std units = .ok v) (ops : List VecOp)
    (h : runAll ex rt ops v = .ok v') :
    v'.E.length = v'.values.length ∧ ∀ s, v'.std = some s → s.length = v'.values.length := by
  rw [← consistent_iff]
  have hc : v.consistent := by
    unfold Vec.new at hnew
    split at hnew
    · simp only at hnew
      split_ifs at hnew with g
      injection hnew with hnew; subst hnew; exact g
    · simp only at hnew
      split_ifs at hnew with g
      injection hnew with hnew; subst hnew; exact g
    · cases hnew
  clear hnew
  induction ops generalizing v with
  | nil =>
    simp only [runAll, Except.ok.injEq] at h
    subst h; exact hc
  | cons o os ih =>
    simp only [runAll, bind, Except.bind] at h
    split at h
    · cases h
    · rename_i w hw
      exact ih w h (run_consistent ex rt v w o hc hw)

/-- **C38.** Construction rejects arrays of different lengths. -/
theorem C38_constructor_rejects (values E : List ℚ) (std : Option (List ℚ)) (units : String)
    (h : E.length ≠ values.length ∨ ∃ s, std = some s ∧ s.length ≠ values.length) :
    Vec.new (some values) (some E) std units = .error .valueError := by
  simp only [Vec.new]
  rw [if_neg]
  rw [consistent_iff]
  rintro ⟨h1, h2⟩
  rcases h with h | ⟨s, hs, h⟩
  · exact h h1
  · exact h (h2 s hs)

/-- Outside C38: a raising in-place rebin of a vector with `std` leaves the object with arrays of
different lengths, as `values` and `E` are overwritten before the check. -/
theorem C38_raising_rebin_leaves_inconsistent :
    let v : Vec ℚ := ⟨[0, 1, 2, 3], [1, 1, 1, 1], some [1, 1, 1, 1], "keV"⟩
    v.consistent = true ∧ (v.rebinInplace none (some 2)).2 = .error .valueError ∧
      (v.rebinInplace none (some 2)).1.consistent = false := by
  decide +kernel

example : Vec.new (some [1, 2, 3]) (some [0, 1, 2]) none "keV"
      = .ok (⟨[0, 1, 2], [1, 2, 3], none, "keV"⟩ : Vec ℚ) ∧
    runAll id id [.toMeV, .cut (some 0) (some (1/1000)), .cumulative .none]
      (⟨[0, 1, 2], [1, 2, 3], none, "keV"⟩ : Vec ℚ) = .ok ⟨[0, 1/1000], [1, 3], none, "MeV"⟩ := by
  decide +kernel

end Ompy
