import Verif.MatrixRebin
import Verif.MatrixProps
import Verif.Diagonal
import Verif.Trapezoid
import Verif.FirstGen
import Verif.Extractor
import Verif.Response
import Verif.GlobalRngProps

/-!
# C106: the unit and the origin of the energy scale
-/

namespace Ompy

/-- Energies in another calibration: `u` per unit, displaced by `v`. -/
def recal (u v : ℚ) (l : List ℚ) : List ℚ := l.map fun e => u * e + v

/-- A limit in another calibration. -/
def recalO (u v : ℚ) (e : Option ℚ) : Option ℚ := e.map fun e => u * e + v

/-- A matrix in other calibrations of its two axes. -/
def Mat.recal (ug vg ux vx : ℚ) (m : Mat) : Mat := { m with Eg := Ompy.recal ug vg m.Eg, Ex := Ompy.recal ux vx m.Ex }

/-- A matrix in another unit of energy. -/
def Mat.inUnit (u : ℚ) (m : Mat) : Mat := m.recal u 0 u 0

theorem recal_length (u v : ℚ) (l : List ℚ) : (recal u v l).length = l.length := by simp [recal]

theorem recal_getD (u v : ℚ) (l : List ℚ) {i : ℕ} (h : i < l.length) : (recal u v l).getD i 0 = u * l.getD i 0 + v := by
  simp [recal, List.getD_eq_getElem?_getD, h]

theorem unit_getD (u : ℚ) (l : List ℚ) (i : ℕ) : (recal u 0 l).getD i 0 = u * l.getD i 0 := by
  by_cases h : i < l.length
  · rw [recal_getD u 0 l h, add_zero]
  · simp [recal, List.getD_eq_getElem?_getD, h]

theorem recal_slice (u v : ℚ) (l : List ℚ) (a b : ℤ) : pySlice (recal u v l) a b = recal u v (pySlice l a b) := by
  simp [pySlice, recal, List.map_drop, List.map_take]

/-! ## Rebinning -/

theorem overlap_recal {u : ℚ} (hu : 0 < u) (v a b c d : ℚ) : overlap (u * a + v) (u * b + v) (u * c + v) (u * d + v) = u * overlap a b c d := by
  unfold overlap
  have h1 : ∀ x y : ℚ, min (u * x + v) (u * y + v) = u * min x y + v := fun x y => by
    rw [min_add_add_right, ← mul_min_of_nonneg _ _ hu.le]
  have h2 : ∀ x y : ℚ, max (u * x + v) (u * y + v) = u * max x y + v := fun x y => by
    rw [max_add_add_right, ← mul_max_of_nonneg _ _ hu.le]
  rw [h1, h2, show u * min d b + v - (u * max c a + v) = u * (min d b - max c a) by ring]
  conv_lhs => rw [← mul_zero u]
  rw [← mul_max_of_nonneg _ _ hu.le]

theorem rebinBin_recal {u : ℚ} (hu : 0 < u) (v : ℚ) (c : ℕ → ℚ) (n : ℕ) (a0 a1 b0 b1 : ℚ) (i : ℕ) :
    rebinBin c n (u * a0 + v) (u * a1) (u * b0 + v) (u * b1) i = rebinBin c n a0 a1 b0 b1 i := by
  have hj : ∀ t : ℚ, (u * b0 + v + u * b1 * t - (u * a0 + v)) / (u * a1) = (b0 + b1 * t - a0) / a1 := by
    intro t
    rw [← mul_div_mul_left _ a1 hu.ne']
    congr 1
    ring
  have ht : ∀ j : ℕ, rebinTerm c (u * a0 + v) (u * a1) (u * b0 + v) (u * b1) i j = rebinTerm c a0 a1 b0 b1 i j := by
    intro j
    unfold rebinTerm
    dsimp only
    have e1 : u * a0 + v + u * a1 * (j : ℚ) = u * (a0 + a1 * j) + v := by ring
    have e2 : u * b0 + v + u * b1 * (i : ℚ) = u * (b0 + b1 * i) + v := by ring
    have e3 : u * (a0 + a1 * (j : ℚ)) + v + u * a1 = u * (a0 + a1 * j + a1) + v := by ring
    have e4 : u * (b0 + b1 * (i : ℚ)) + v + u * b1 = u * (b0 + b1 * i + b1) + v := by ring
    rw [e1, e2, e3, e4, overlap_recal hu]
    rw [← mul_div_mul_left _ a1 hu.ne']
    congr 1
    ring
  unfold rebinBin jminOf jmaxOf
  simp only [hj, ht]

/-- **C106.** Rebinning does not depend on the unit nor on the origin of the energies. -/
theorem C106_rebin {u : ℚ} (hu : 0 < u) (v : ℚ) (counts Ein Eout : List ℚ) : rebin1D counts (recal u v Ein) (recal u v Eout) = rebin1D counts Ein Eout := by
  rcases Ein with _ | ⟨m0, _ | ⟨m1, ms⟩⟩ <;> rcases Eout with _ | ⟨n0, _ | ⟨n1, ns⟩⟩ <;> try rfl
  have e1 : u * m1 + v - (u * m0 + v) = u * (m1 - m0) := by ring
  have e2 : u * n1 + v - (u * n0 + v) = u * (n1 - n0) := by ring
  have e3 : u * m0 + v - u * (m1 - m0) / 2 = u * (m0 - (m1 - m0) / 2) + v := by ring
  have e4 : u * n0 + v - u * (n1 - n0) / 2 = u * (n0 - (n1 - n0) / 2) + v := by ring
  simp only [recal, List.map_cons, rebin1D, e1, e2, e3, e4, List.length_cons, List.length_map]
  have h0 : u * (m1 - m0) = 0 ↔ m1 - m0 = 0 := by simp [hu.ne']
  by_cases h : m1 - m0 = 0
  · rw [if_pos (h0.2 h), if_pos h]
  · rw [if_neg (fun hh => h (h0.1 hh)), if_neg h]
    congr 2
    exact List.map_congr_left fun i _ => rebinBin_recal hu v _ _ _ _ _ _ i

theorem rebin2D_recal {u : ℚ} (hu : 0 < u) (v : ℚ) (counts : List (List ℚ)) (n : ℕ) (Ein Eout : List ℚ) (axis : ℤ) :
    rebin2D counts n (recal u v Ein) (recal u v Eout) axis = rebin2D counts n Ein Eout axis := by
  unfold rebin2D
  simp only [C106_rebin hu, recal_length]

theorem linspace_recal (u v a b : ℚ) (n : ℕ) : linspace (u * a + v) (u * b + v) n = recal u v (linspace a b n) := by
  unfold linspace recal
  by_cases h : n = 1
  · rw [if_pos h, if_pos h]; rfl
  · rw [if_neg h, if_neg h, List.map_map]
    refine List.map_congr_left fun k _ => ?_
    simp only [Function.comp_apply]
    ring

theorem rebinMids_recal (u v : ℚ) (old : List ℚ) (mids : Option (List ℚ)) (factor : Option ℚ) :
    rebinMids (recal u v old) (mids.map (recal u v)) factor = (rebinMids old mids factor).map (recal u v) := by
  cases mids with
  | some m => cases factor <;> rfl
  | none =>
    cases factor with
    | none => rfl
    | some f =>
      simp only [rebinMids, Option.map_none]
      by_cases hf : f ≤ 0
      · rw [if_pos hf, if_pos hf]; rfl
      · rw [if_neg hf, if_neg hf, recal_length]
        have h1 : (recal u v old).head? = old.head?.map fun e => u * e + v := by simp [recal]
        have h2 : (recal u v old).getLast? = old.getLast?.map fun e => u * e + v := by simp [recal]
        rw [h1, h2]
        cases old.head? <;> cases old.getLast? <;> simp [Except.map, linspace_recal]

/-- **C106.** A matrix rebinned along one axis, in place: the object in the other calibration is the object in the first, and the outcome is the same.  New mid-points are given in the calibration of the axis. -/
theorem C106_matrix_rebin {ug ux : ℚ} (hg : 0 < ug) (hx : 0 < ux) (vg vx : ℚ) (m : Mat) (isEx : Bool) (mids : Option (List ℚ)) (factor : Option ℚ) :
    (m.recal ug vg ux vx).rebinOne isEx (mids.map (if isEx then recal ux vx else recal ug vg)) factor =
      ((m.rebinOne isEx mids factor).1.recal ug vg ux vx, (m.rebinOne isEx mids factor).2) := by
  have hcons : ∀ m : Mat, (m.recal ug vg ux vx).verify = m.verify := by
    intro m
    simp only [Mat.verify, Mat.consistent, Mat.recal, recal_length]
    rfl
  cases isEx with
  | true =>
    have h1 := rebinMids_recal ux vx m.Ex mids factor
    simp only [Mat.rebinOne, if_true, Mat.recal, recal_length]
    rw [h1]
    cases hr : rebinMids m.Ex mids factor with
    | error e => rfl
    | ok new =>
      simp only [Except.map]
      rw [rebin2D_recal hx]
      cases hv : rebin2D m.values m.Eg.length m.Ex new 0 with
      | error e => rfl
      | ok w =>
        have h2 := hcons { m with values := w, Ex := new }
        simp only [Mat.recal] at h2
        simp only [h2]
  | false =>
    have h1 := rebinMids_recal ug vg m.Eg mids factor
    simp only [Mat.rebinOne, Bool.false_eq_true, if_false, Mat.recal, recal_length]
    rw [h1]
    cases hr : rebinMids m.Eg mids factor with
    | error e => rfl
    | ok new =>
      simp only [Except.map]
      rw [rebin2D_recal hg]
      cases hv : rebin2D m.values m.Eg.length m.Eg new 1 with
      | error e => rfl
      | ok w =>
        have h2 := hcons { m with values := w, Eg := new }
        simp only [Mat.recal] at h2
        simp only [h2]

/-! ## Searching and cutting -/

theorem sq_recal {u : ℚ} (hu : 0 < u) (v x y e : ℚ) : ((u * x + v - (u * e + v)) ^ 2 > (u * y + v - (u * e + v)) ^ 2) ↔ ((x - e) ^ 2 > (y - e) ^ 2) := by
  have h : ∀ z : ℚ, (u * z + v - (u * e + v)) ^ 2 = u ^ 2 * (z - e) ^ 2 := fun z => by ring
  rw [h, h]
  exact mul_lt_mul_iff_right₀ (by positivity)

theorem indexLoop_recal {u : ℚ} (hu : 0 < u) (v e : ℚ) (l : List ℚ) : ∀ (y : ℚ) (i : ℕ),
    indexLoop (u * e + v) ((u * y + v - (u * e + v)) ^ 2) i (recal u v l) = indexLoop e ((y - e) ^ 2) i l := by
  induction l with
  | nil => intro y i; rfl
  | cons x xs ih =>
    intro y i
    simp only [recal, List.map_cons, indexLoop]
    by_cases h : (x - e) ^ 2 > (y - e) ^ 2
    · rw [if_pos h, if_pos ((sq_recal hu v x y e).2 h)]
    · rw [if_neg h, if_neg (fun hh => h ((sq_recal hu v x y e).1 hh))]
      exact ih x (i + 1)

/-- **C106.** Both searches for the bin of an energy. -/
theorem C106_index {u : ℚ} (hu : 0 < u) (v : ℚ) (l : List ℚ) (e : ℚ) :
    index (recal u v l) (u * e + v) = index l e ∧ iFromE (u * e + v) (recal u v l) = iFromE e l := by
  constructor
  · cases l with
    | nil => rfl
    | cons a as => exact congrArg Except.ok (indexLoop_recal hu v e as a 1)
  · have hfrom : ∀ (l : List ℚ) (b : ℚ) (bi i : ℕ), argminFrom (u * b) bi i (l.map (u * ·)) = argminFrom b bi i l := by
      intro l
      induction l with
      | nil => intro b bi i; rfl
      | cons x xs ih =>
        intro b bi i
        simp only [List.map_cons, argminFrom]
        by_cases h : x < b
        · rw [if_pos h, if_pos ((mul_lt_mul_iff_right₀ hu).2 h)]; exact ih _ _ _
        · rw [if_neg h, if_neg (fun hh => h ((mul_lt_mul_iff_right₀ hu).1 hh))]; exact ih _ _ _
    unfold iFromE
    have : (recal u v l).map (fun x => |x - (u * e + v)|) = (l.map fun x => |x - e|).map (u * ·) := by
      simp only [recal, List.map_map]
      refine List.map_congr_left fun x _ => ?_
      simp only [Function.comp_apply]
      rw [show u * x + v - (u * e + v) = u * (x - e) by ring, abs_mul, abs_of_pos hu]
    rw [this]
    cases l with
    | nil => rfl
    | cons a as => exact congrArg Except.ok (hfrom _ _ 0 1)

theorem listMin_recal {u : ℚ} (hu : 0 < u) (v : ℚ) (l : List ℚ) : listMin (recal u v l) = (listMin l).map fun e => u * e + v := by
  cases l with
  | nil => rfl
  | cons a as =>
    simp only [recal, List.map_cons, listMin, Except.map]
    congr 1
    induction as generalizing a with
    | nil => rfl
    | cons b bs ih =>
      simp only [List.map_cons, List.foldl_cons]
      rw [min_add_add_right, ← mul_min_of_nonneg _ _ hu.le]
      exact ih _

theorem listMax_recal {u : ℚ} (hu : 0 < u) (v : ℚ) (l : List ℚ) : listMax (recal u v l) = (listMax l).map fun e => u * e + v := by
  cases l with
  | nil => rfl
  | cons a as =>
    simp only [recal, List.map_cons, listMax, Except.map]
    congr 1
    induction as generalizing a with
    | nil => rfl
    | cons b bs ih =>
      simp only [List.map_cons, List.foldl_cons]
      rw [max_add_add_right, ← mul_max_of_nonneg _ _ hu.le]
      exact ih _

theorem orElse_recal (u v : ℚ) (e : Option ℚ) (d d' : Except Err ℚ) (h : d' = d.map fun e => u * e + v) :
    orElseE (recalO u v e) d' = (orElseE e d).map fun e => u * e + v := by
  cases e with
  | none => exact h
  | some e => rfl

theorem index_ok_lt (l : List ℚ) (e : ℚ) (k : ℕ) (h : index l e = .ok k) : k < l.length := by
  have hl : l ≠ [] := by rintro rfl; cases h
  obtain ⟨j, h1, h2⟩ := C05_index_in_range l e hl
  rw [h] at h1
  cases h1
  exact h2

theorem cutBounds_recal {u : ℚ} (hu : 0 < u) (v : ℚ) (E : List ℚ) (emin emax : Option ℚ) (a b : Bool) :
    cutBounds (recal u v E) (recalO u v emin) (recalO u v emax) a b = cutBounds E emin emax a b := by
  unfold cutBounds
  rw [orElse_recal u v emin _ _ (listMin_recal hu v E), orElse_recal u v emax _ _ (listMax_recal hu v E)]
  cases h1 : orElseE emin (listMin E) with
  | error e => rfl
  | ok lo =>
    cases h2 : orElseE emax (listMax E) with
    | error e => rfl
    | ok hi =>
      simp only [Except.map, bind, Except.bind, (C106_index hu v E _).1]
      cases h3 : index E lo with
      | error e => rfl
      | ok i0 =>
        cases h4 : index E hi with
        | error e => rfl
        | ok j0 =>
          dsimp only
          rw [recal_getD u v E (index_ok_lt _ _ _ h3), recal_getD u v E (index_ok_lt _ _ _ h4)]
          have e1 : u * E.getD i0 0 + v < u * lo + v ↔ E.getD i0 0 < lo := by
            rw [add_lt_add_iff_right]; exact mul_lt_mul_iff_right₀ hu
          have e2 : u * E.getD j0 0 + v > u * hi + v ↔ E.getD j0 0 > hi := by
            rw [gt_iff_lt, add_lt_add_iff_right]; exact mul_lt_mul_iff_right₀ hu
          simp only [e1, e2]

/-- **C106.** Cutting, with limits in the calibration of the axis, keeps the same bins. -/
theorem C106_cut {ug ux : ℚ} (hg : 0 < ug) (hx : 0 < ux) (vg vx : ℚ) (m : Mat) (axis : ℕ) (emin emax : Option ℚ) (a b : Bool) :
    (m.recal ug vg ux vx).cut axis (if axis = 0 then recalO ug vg emin else recalO ux vx emin) (if axis = 0 then recalO ug vg emax else recalO ux vx emax) a b =
      (m.cut axis emin emax a b).map (Mat.recal ug vg ux vx) := by
  unfold Mat.cut
  by_cases h0 : axis = 0
  · simp only [h0, if_true, Mat.recal]
    rw [cutBounds_recal hg]
    cases cutBounds m.Eg emin emax a b with
    | error e => rfl
    | ok p => simp only [recal_slice, Except.map, Mat.recal]
  · simp only [h0, if_false, Mat.recal]
    rw [cutBounds_recal hx]
    cases cutBounds m.Ex emin emax a b with
    | error e => rfl
    | ok p =>
      dsimp only
      by_cases h1 : axis = 1
      · simp only [h1, if_true, recal_slice, Except.map, Mat.recal]
      · simp only [h1, if_false, Except.map]

/-- **C106.** Projections: the same counts on the axis in its calibration. -/
theorem C106_projection {ug ux : ℚ} (hg : 0 < ug) (hx : 0 < ux) (vg vx : ℚ) (m : Mat) (axis : ℕ) (emin emax : Option ℚ) (n : Bool) :
    (m.recal ug vg ux vx).projection axis (if axis = 1 then recalO ug vg emin else recalO ux vx emin) (if axis = 1 then recalO ug vg emax else recalO ux vx emax) n =
      (m.projection axis emin emax n).map fun p => (p.1, if axis = 1 then recal ux vx p.2 else recal ug vg p.2) := by
  have hw : ∀ {u : ℚ}, 0 < u → ∀ (v : ℚ) (E : List ℚ), projWindow (recal u v E) (recalO u v emin) (recalO u v emax) = projWindow E emin emax := by
    intro u hu v E
    have he : recal u v E = [] ↔ E = [] := by simp [recal]
    cases emin <;> cases emax <;> simp [projWindow, recalO, he, recal_length, (C106_index hu v E _).1]
  unfold Mat.projection
  by_cases h1 : axis = 1
  · simp only [h1, if_true, Mat.recal]
    rw [hw hg]
    cases projWindow m.Eg emin emax with
    | error e => rfl
    | ok p => rfl
  · simp only [h1, if_false, Mat.recal]
    rw [hw hx]
    by_cases h0 : axis = 0
    · simp only [h0, if_true]
      cases projWindow m.Ex emin emax with
      | error e => rfl
      | ok p => simp only [recal_length]; rfl
    · simp only [h0, if_false]; rfl

/-- **C106.** Lines between two points select the same cells. -/
theorem C106_line {ug ux : ℚ} (hg : 0 < ug) (hx : 0 < ux) (vg vx : ℚ) (m : Mat) (p q : ℚ × ℚ) :
    (m.recal ug vg ux vx).lineMask (ug * p.1 + vg, ux * p.2 + vx) (ug * q.1 + vg, ux * q.2 + vx) = m.lineMask p q := by
  unfold Mat.lineMask
  simp only [Mat.recal, (C106_index hg vg m.Eg _).1, (C106_index hx vx m.Ex _).1, recal_length]

/-- **C106.** Events fall into the same bins. -/
theorem C106_fill {ug ux : ℚ} (hg : 0 < ug) (hx : 0 < ux) (vg vx : ℚ) (m : Mat) (eg ex c : ℚ) :
    (m.recal ug vg ux vx).fill (ug * eg + vg) (ux * ex + vx) c = (m.fill eg ex c).map (Mat.recal ug vg ux vx) := by
  unfold Mat.fill
  simp only [Mat.recal, (C106_index hg vg m.Eg _).1, (C106_index hx vx m.Ex _).1]
  cases index m.Ex ex with
  | error e => rfl
  | ok i =>
    cases index m.Eg eg with
    | error e => rfl
    | ok j => rfl

/-! ## First generation method -/

/-- The limits of the statistical multiplicity in another unit. -/
def FGParams.inUnit (u : ℚ) (p : FGParams) : FGParams :=
  { p with upper := u * p.upper, lower := u * p.lower, shift := u * p.shift, entryStat := u * p.entryStat }

/-- A vector in another calibration of its energies. -/
def Vec.recal {α : Type} (u v : ℚ) (x : Vec α) : Vec α := { x with E := Ompy.recal u v x.E }

/-- **C106.** Cutting a vector. -/
theorem C106_vector_cut {α : Type} {u : ℚ} (hu : 0 < u) (v : ℚ) (x : Vec α) (emin emax : Option ℚ) :
    (x.recal u v).cut (recalO u v emin) (recalO u v emax) = (x.cut emin emax).map (Vec.recal u v) := by
  unfold Vec.cut
  simp only [Vec.recal]
  rw [orElse_recal u v emin _ _ (listMin_recal hu v x.E), orElse_recal u v emax _ _ (listMax_recal hu v x.E)]
  cases h1 : orElseE emin (listMin x.E) with
  | error e => rfl
  | ok lo =>
    cases h2 : orElseE emax (listMax x.E) with
    | error e => rfl
    | ok hi =>
      simp only [Except.map, bind, Except.bind, (C106_index hu v x.E _).1]
      cases h3 : index x.E lo with
      | error e => rfl
      | ok i0 =>
        cases h4 : index x.E hi with
        | error e => rfl
        | ok j0 => simp only [recal_slice]; rfl

theorem div0_unit {u : ℚ} (hu : 0 < u) (a b : ℚ) : div0 (u * a) (u * b) = div0 a b := by
  unfold div0
  by_cases h : b = 0
  · rw [if_pos h, if_pos (by rw [h, mul_zero])]
  · rw [if_neg h, if_neg (mul_ne_zero hu.ne' h), mul_div_mul_left _ _ hu.ne']

theorem meanEg_unit (u : ℚ) (Eg row : List ℚ) : meanEg (recal u 0 Eg) row = u * meanEg Eg row := by
  have h : (List.zipWith (fun g x => g * x) (recal u 0 Eg) row).sum = u * (List.zipWith (fun g x => g * x) Eg row).sum := by
    induction Eg generalizing row with
    | nil => simp [recal]
    | cons g gs ih =>
      cases row with
      | nil => simp [recal]
      | cons x xs =>
        have := ih xs
        simp only [recal] at this
        simp only [recal, List.map_cons, List.zipWith_cons_cons, List.sum_cons, this]
        ring
  unfold meanEg div0
  rw [h]
  split_ifs
  · rw [mul_zero]
  · ring

theorem maskRow_unit {u : ℚ} (hu : 0 < u) (s : ℚ) (Eg row : List ℚ) : maskRow (u * s) (recal u 0 Eg) row = maskRow s Eg row := by
  unfold maskRow recal
  rw [List.zipWith_map_left]
  congr 1
  funext g x
  have : u * g + 0 < u * s ↔ g < s := by rw [add_zero]; exact mul_lt_mul_iff_right₀ hu
  simp only [this]

theorem multiplicities_unit {u : ℚ} (hu : 0 < u) (p : FGParams) (m : Mat) : multiplicities (p.inUnit u) (m.inUnit u) = multiplicities p m := by
  have h1 : ∀ ex row, multTotal (recal u 0 m.Eg) (u * ex + 0) row = multTotal m.Eg ex row := by
    intro ex row
    unfold multTotal
    rw [meanEg_unit, add_zero, div0_unit hu]
  have h2 : ∀ ex row, multStatistical (p.inUnit u) (recal u 0 m.Eg) (u * ex + 0) row = multStatistical p m.Eg ex row := by
    intro ex row
    have hs : slideOf (p.inUnit u) (u * ex + 0) = u * slideOf p ex := by
      unfold slideOf FGParams.inUnit
      dsimp only
      by_cases hh : p.useSlide = true
      · rw [if_pos hh, if_pos hh, add_zero, mul_min_of_nonneg _ _ hu.le, mul_max_of_nonneg _ _ hu.le, mul_assoc]
      · rw [if_neg hh, if_neg hh]
    unfold multStatistical
    dsimp only
    rw [hs, maskRow_unit hu, meanEg_unit]
    have he : max (min (u * ex + 0 - (p.inUnit u).shift) (p.inUnit u).entryStat) 0 = u * max (min (ex - p.shift) p.entryStat) 0 := by
      rw [mul_max_of_nonneg _ _ hu.le, mul_min_of_nonneg _ _ hu.le, mul_zero]
      simp only [FGParams.inUnit]
      rw [add_zero, mul_sub]
    rw [he, add_zero, ← mul_sub, div0_unit hu]
  unfold multiplicities
  simp only [Mat.inUnit, Mat.recal]
  conv_lhs => rw [Ompy.recal.eq_def u 0 m.Ex, List.zipWith_map_left]
  congr 1
  funext ex row
  simp only [h1, h2]
  rfl

theorem fgIter_unit {u : ℚ} (hu : 0 < u) (p : FGParams) (m : Mat) (valley : Option (List ℚ)) (k : ℕ) :
    fgIter (p.inUnit u) (m.inUnit u) valley k = fgIter p m valley k := by
  have hN : multNormalization (p.inUnit u) (m.inUnit u) = multNormalization p m := by
    unfold multNormalization
    rw [multiplicities_unit hu]
    rfl
  induction k with
  | zero =>
    simp only [fgIter, hN]
    simp only [Mat.inUnit, Mat.recal, recal_length]
  | succ k ih =>
    simp only [fgIter, hN, ih]
    have : ∀ N it s, fgStep (m.inUnit u) N valley it s = fgStep m N valley it s := by
      intro N it s
      unfold fgStep
      simp only [Mat.inUnit, Mat.recal, recal_length, rebin2D_recal hu]
    simp only [this]

theorem recalO_some (u e : ℚ) : recalO u 0 (some e) = some (u * e + 0) := rfl

theorem cutValley_unit {u : ℚ} (hu : 0 < u) (close : List ℚ → List ℚ → Bool) (hc : ∀ a b, close (recal u 0 a) (recal u 0 b) = close a b) (valley : Option (Vec ℚ)) (m : Mat) :
    cutValley close (valley.map (Vec.recal u 0)) (m.inUnit u) = ((cutValley close valley m).1, (cutValley close valley m).2.map (Vec.recal u 0)) := by
  cases valley with
  | none => rfl
  | some v =>
    simp only [cutValley, Option.map_some, Mat.inUnit, Mat.recal]
    rw [listMin_recal hu, listMax_recal hu]
    cases h1 : listMin m.Ex with
    | error e => rfl
    | ok lo =>
      cases h2 : listMax m.Ex with
      | error e => rfl
      | ok hi =>
        simp only [Except.map]
        rw [← recalO_some u lo, ← recalO_some u hi, C106_vector_cut hu 0 v (some lo) (some hi)]
        cases v.cut (some lo) (some hi) with
        | error e => rfl
        | ok c =>
          simp only [Except.map, Vec.recal, hc]
          split_ifs <;> rfl

/-- **C106.** The first generation method, with its energy limits in the same unit: the same primary spectra.  `close` is `np.allclose`, which has to treat both units alike. -/
theorem C106_first_generation {u : ℚ} (hu : 0 < u) (close : List ℚ → List ℚ → Bool) (hc : ∀ a b, close (recal u 0 a) (recal u 0 b) = close a b) (p : FGParams) (valley : Option (Vec ℚ)) (m : Mat) :
    fgApply close (p.inUnit u) (valley.map (Vec.recal u 0)) (m.inUnit u) =
      ((fgApply close p valley m).1.map (Mat.inUnit u), (fgApply close p valley m).2.map (Vec.recal u 0)) := by
  have hneg : (m.inUnit u).Ex.any (fun x => x < 0) = m.Ex.any (fun x => x < 0) := by
    simp only [Mat.inUnit, Mat.recal, Ompy.recal, List.any_map]
    congr 1
    funext x
    have : u * x + 0 < 0 ↔ x < 0 := by
      rw [add_zero]
      constructor
      · intro h; by_contra hx; exact absurd (mul_nonneg hu.le (not_lt.1 hx)) (not_le.2 h)
      · intro h; exact mul_neg_of_pos_of_neg hu h
    simp only [Function.comp_apply, this]
  unfold fgApply
  rw [hneg]
  by_cases h1 : m.Ex.any (fun x => x < 0) = true
  · rw [if_pos h1, if_pos h1]; rfl
  rw [if_neg h1, if_neg h1]
  by_cases h2 : m.values.any (fun r => r.any fun x => x < 0) = true
  · rw [if_pos h2, if_pos (show (m.inUnit u).values.any _ = true from h2)]; rfl
  rw [if_neg h2, if_neg (show ¬ (m.inUnit u).values.any _ = true from h2), cutValley_unit hu close hc]
  rcases cutValley close valley m with ⟨r, v'⟩
  cases r with
  | error e => rfl
  | ok vc =>
    dsimp only
    rw [show (p.inUnit u).numIter = p.numIter from rfl, fgIter_unit hu]
    cases fgIter p m vc p.numIter with
    | error e => rfl
    | ok HW => rfl

/-! ## Trapezoid and extraction -/

/-- **C106.** The trapezoid that is cut out before the extraction. -/
theorem C106_trapezoid {u : ℚ} (hu : 0 < u) (m : Mat) (exMin exMax egMin : ℚ) (egMax : Option ℚ) :
    (m.inUnit u).trapezoid (u * exMin) (u * exMax) (u * egMin) (egMax.map (u * ·)) = (m.trapezoid exMin exMax egMin egMax).map (Mat.inUnit u) := by
  have hcut : ∀ (m : Mat) (axis : ℕ) (lo hi : ℚ), (m.inUnit u).cut axis (some (u * lo)) (some (u * hi)) true true = (m.cut axis (some lo) (some hi) true true).map (Mat.inUnit u) := by
    intro m axis lo hi
    have := C106_cut hu hu 0 0 m axis (some lo) (some hi) true true
    show (m.recal u 0 u 0).cut axis (some (u * lo)) (some (u * hi)) true true = Except.map (Mat.recal u 0 u 0) _
    simpa [recalO] using this
  have hauto : ∀ m : Mat, autoEgMax (m.inUnit u) = (autoEgMax m).map (u * ·) := by
    intro m
    unfold autoEgMax
    simp only [Mat.inUnit, Mat.recal]
    cases m.values.getLast? with
    | none => rfl
    | some row =>
      dsimp only
      cases lastNonzero row with
      | none => rfl
      | some k =>
        dsimp only
        simp only [recal_length, unit_getD]
        split_ifs <;> rfl
  have hshift : ∀ (m : Mat) (d : ℚ), diagShift (m.inUnit u) (u * d) = (diagShift m d).map fun l => l.map fun o => o.map (u * ·) := by
    intro m d
    unfold diagShift
    have h0 : 0 < u * d ↔ 0 < d := by simp [hu]
    by_cases h : 0 < d
    · rw [if_pos h, if_pos (h0.2 h)]
      simp only [Mat.inUnit, Mat.recal, recal_length]
      by_cases h2 : m.Ex.length < 2
      · rw [if_pos h2, if_pos h2]; rfl
      · rw [if_neg h2, if_neg h2]
        simp only [Except.map, meshEg]
        congr 1
        have : List.zipWith (fun a b => a - b) (recal u 0 m.Eg) (recal u 0 m.Eg) = (List.zipWith (fun a b => a - b) m.Eg m.Eg).map (u * ·) := by
          unfold recal
          rw [List.zipWith_map, List.map_zipWith]
          congr 1
          funext a b
          ring
        rw [this, List.map_map, List.map_map]
        refine List.map_congr_left fun b _ => ?_
        simp only [Function.comp_apply]
        by_cases hb : b = 0
        · rw [if_pos hb, if_pos (by rw [hb, mul_zero])]; rfl
        · rw [if_neg hb, if_neg (mul_ne_zero hu.ne' hb), mul_div_mul_left _ _ hu.ne']
          simp only [Option.map_some, Option.some.injEq]
          ring
    · rw [if_neg h, if_neg (fun hh => h (h0.1 hh))]
      simp only [Mat.inUnit, Mat.recal, Ompy.recal, List.map_map, Except.map]
      rfl
  have hmask : ∀ (m : Mat) (s : List (Option ℚ)), maskDiag (m.inUnit u) (s.map fun o => o.map (u * ·)) = (maskDiag m s).inUnit u := by
    intro m s
    unfold maskDiag
    simp only [Mat.inUnit, Mat.recal]
    congr 1
    conv_lhs => rw [Ompy.recal.eq_def u 0 m.Ex, List.zipWith_map_left]
    congr 1
    funext ex row
    have hz : (Ompy.recal u 0 m.Eg).zip (s.map fun o => o.map (u * ·)) = (m.Eg.zip s).map fun p => (u * p.1 + 0, p.2.map (u * ·)) := by
      unfold Ompy.recal
      rw [List.zip_map]
      rfl
    rw [hz, List.zipWith_map_left]
    congr 1
    funext p v
    rcases p with ⟨g, _ | s⟩
    · rfl
    · have : u * g + 0 ≥ u * ex + 0 + u * s ↔ g ≥ ex + s := by
        rw [add_zero, add_zero, ← mul_add]
        exact mul_le_mul_iff_right₀ hu
      simp only [Option.map_some, this]
  unfold Mat.trapezoid
  rw [hcut]
  cases m.cut 1 (some exMin) (some exMax) true true with
  | error e => rfl
  | ok m1 =>
    simp only [Except.map, bind, Except.bind]
    cases egMax with
    | some g =>
      simp only [Option.map_some, pure, Except.pure]
      rw [hcut]
      cases m1.cut 0 (some egMin) (some g) true true with
      | error e => rfl
      | ok m2 =>
        simp only [Except.map]
        rw [← mul_sub, hshift]
        cases diagShift m2 (g - exMax) with
        | error e => rfl
        | ok s => simp only [Except.map, hmask]
    | none =>
      simp only [Option.map_none, hauto]
      cases autoEgMax m1 with
      | error e => rfl
      | ok g =>
        simp only [Except.map]
        rw [hcut]
        cases m1.cut 0 (some egMin) (some g) true true with
        | error e => rfl
        | ok m2 =>
          simp only [Except.map]
          rw [← mul_sub, hshift]
          cases diagShift m2 (g - exMax) with
          | error e => rfl
          | ok s => simp only [Except.map, hmask, pure, Except.pure]

/-- **C106.** The counts that constrain the extraction, and its axis of final energies. -/
theorem C106_extraction {u : ℚ} (hu : 0 < u) (m : Mat) (res : List ℚ) (close : ℚ → ℚ → Bool) (hc : ∀ a b, close (u * a) (u * b) = close a b) :
    constrainingCounts (m.inUnit u) (res.map (u * ·)) = constrainingCounts m res ∧ eNld close (m.inUnit u).Ex (m.inUnit u).Eg = (eNld close m.Ex m.Eg).map (recal u 0) := by
  constructor
  · have hr : ∀ i, (res.map (u * ·)).getD i 0 = u * res.getD i 0 := by
      intro i
      simp [List.getD_eq_getElem?_getD]
      cases res[i]? <;> simp
    have hm : ∀ i j, maskedV m.values (recal u 0 m.Eg) (recal u 0 m.Ex) (res.map (u * ·)) i j = maskedV m.values m.Eg m.Ex res i j := by
      intro i j
      unfold maskedV
      have : (recal u 0 m.Eg).getD j 0 > (recal u 0 m.Ex).getD i 0 + (res.map (u * ·)).getD i 0 + ((recal u 0 m.Eg).getD 1 0 - (recal u 0 m.Eg).getD 0 0) / 2 ↔
          m.Eg.getD j 0 > m.Ex.getD i 0 + res.getD i 0 + (m.Eg.getD 1 0 - m.Eg.getD 0 0) / 2 := by
        simp only [unit_getD, hr]
        rw [show u * m.Ex.getD i 0 + u * res.getD i 0 + (u * m.Eg.getD 1 0 - u * m.Eg.getD 0 0) / 2 = u * (m.Ex.getD i 0 + res.getD i 0 + (m.Eg.getD 1 0 - m.Eg.getD 0 0) / 2) by ring]
        exact mul_lt_mul_iff_right₀ hu
      simp only [this]
    unfold constrainingCounts countsV traceOff
    simp only [Mat.inUnit, Mat.recal, recal_length, hm]
  · have hl : ∀ a b n, linspaceZ (u * a + 0) (u * b + 0) n = (linspaceZ a b n).map (recal u 0) := by
      intro a b n
      unfold linspaceZ
      split_ifs
      · rfl
      · simp only [Except.map, linspace_recal]
    unfold eNld
    simp only [Mat.inUnit, Mat.recal, recal_length, unit_getD, ← mul_sub, hc, listMin_recal hu, listMax_recal hu]
    split_ifs with h1 h2 h3 h4 h4
    · rfl
    · rfl
    · rfl
    · exact absurd ((mul_eq_zero.1 h3).resolve_left hu.ne') h4
    · exact absurd (by rw [h4, mul_zero]) h3
    · cases listMin m.Ex with
      | error e => rfl
      | ok a =>
        cases listMax m.Eg with
        | error e => rfl
        | ok b =>
          cases listMax m.Ex with
          | error e => rfl
          | ok c =>
            cases listMin m.Eg with
            | error e => rfl
            | ok d =>
              simp only [Except.map, bind, Except.bind]
              have e1 : u * a + 0 - (u * b + 0) = u * (a - b) + 0 := by ring
              have e2 : u * c + 0 - (u * d + 0) = u * (c - d) + 0 := by ring
              rw [e1, e2, show u * (c - d) + 0 - (u * (a - b) + 0) = u * (c - d - (a - b)) by ring, mul_div_mul_left _ _ hu.ne', hl]
              rfl

/-- **C106 (disagreement).** The response of the detector assumes keV: with the energies of the output in MeV the escape and annihilation peaks are missing. -/
theorem C106_response_fails :
    discretePeaks 4 2 1 3 [0, 511, 1022] 2 = .ok [1, 5, 4] ∧ discretePeaks 4 2 1 3 (recal (1 / 1000) 0 [0, 511, 1022]) 2 = .ok [0, 0, 4] := by
  constructor <;> decide +kernel

/-- The origin of the energies matters for the multiplicities, which are ratios of energies. -/
theorem C106_origin : multTotal [1, 2] 3 [1, 1] = 2 ∧ multTotal (recal 1 1 [1, 2]) (1 * 3 + 1) [1, 1] = 8 / 5 := by
  constructor <;> decide +kernel

/-- The matrix of the example below, in keV. -/
def unitCase : Mat := ⟨[[1, 0, 0], [1, 2, 0], [1, 2, 4]], [500, 1500, 2500], [500, 1500, 2500], none, none⟩

/-- Non-vacuity: the matrix in MeV gives the first generations of the matrix in keV; they are not trivial.  Cut and rebinned in MeV. -/
example : fgApply (fun a b => decide (a = b)) ((⟨3, true, 430, 200, 3 / 10, 200, 0, true⟩ : FGParams).inUnit (1 / 1000)) none (unitCase.inUnit (1 / 1000)) =
    (.ok ⟨[[1, 0, 0], [0, 2, 0], [0, 16 / 35, 4]], [1 / 2, 3 / 2, 5 / 2], [1 / 2, 3 / 2, 5 / 2], none, some .firstGeneration⟩, none) := by
  have hc : ∀ a b : List ℚ, decide (recal (1 / 1000) 0 a = recal (1 / 1000) 0 b) = decide (a = b) := by
    intro a b
    have : recal (1 / 1000) 0 a = recal (1 / 1000) 0 b ↔ a = b := by
      unfold recal
      exact ⟨fun h => List.map_injective_iff.2 (fun x y hxy => by simpa using hxy) h, fun h => by rw [h]⟩
    simp only [this]
  have h := C106_first_generation (u := 1 / 1000) (by norm_num) (fun a b => decide (a = b)) hc ⟨3, true, 430, 200, 3 / 10, 200, 0, true⟩ none unitCase
  have h0 : fgApply (fun a b => decide (a = b)) ⟨3, true, 430, 200, 3 / 10, 200, 0, true⟩ none unitCase =
      (.ok ⟨[[1, 0, 0], [0, 2, 0], [0, 16 / 35, 4]], [500, 1500, 2500], [500, 1500, 2500], none, some .firstGeneration⟩, none) := by decide +kernel
  rw [h0] at h
  refine h.trans ?_
  decide +kernel

example : (unitCase.inUnit (1 / 1000)).cut 1 (some (6 / 5)) none true true = .ok ⟨[[1, 2, 0], [1, 2, 4]], [1 / 2, 3 / 2, 5 / 2], [3 / 2, 5 / 2], none, none⟩ := by
  have h := C106_cut (ug := 1 / 1000) (ux := 1 / 1000) (by norm_num) (by norm_num) 0 0 unitCase 1 (some 1200) none true true
  have h0 : unitCase.cut 1 (some 1200) none true true = .ok ⟨[[1, 2, 0], [1, 2, 4]], [500, 1500, 2500], [1500, 2500], none, none⟩ := by decide +kernel
  rw [h0] at h
  have e : recalO (1 / 1000) 0 (some 1200) = some (6 / 5) := by decide +kernel
  simp only [one_ne_zero, if_false, e] at h
  exact h.trans (by decide +kernel)

end Ompy
