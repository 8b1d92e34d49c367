import Verif.Pipeline
import Verif.DecomposeFitProps
import Verif.GaugeProps
import Verif.EnsNormProps
import Verif.GsfNormTotal

/-!
# C118: from the first generation matrix to the true level density and strength function
-/

namespace Ompy

variable {P B : Type}

/-! ## Removing NaN -/

theorem keepAt_map {α β ι : Type} (g : ι → Option β) (f : ι → α) (l : List ι) :
    keepAt (l.map g) (l.map f) = (l.filter fun k => (g k).isSome).map f := by
  induction l with
  | nil => rfl
  | cons k l ih =>
    simp only [List.map_cons, List.filter_cons]
    cases h : g k with
    | none => simp only [keepAt, Option.isSome_none]; rw [ih]; simp
    | some v => simp only [keepAt, Option.isSome_some]; rw [ih]; simp

theorem filterMap_map {β ι : Type} (g : ι → Option β) (v : ι → β) (l : List ι) (h : ∀ k ∈ l, ∀ x, g k = some x → x = v k) :
    ((l.map g).filter Option.isSome).filterMap id = (l.filter fun k => (g k).isSome).map v := by
  induction l with
  | nil => rfl
  | cons k l ih =>
    have ih' := ih fun q hq => h q (List.mem_cons_of_mem _ hq)
    simp only [List.map_cons, List.filter_cons]
    cases hk : g k with
    | none => simpa using ih'
    | some x =>
      simp only [Option.isSome_some, if_true, List.map_cons]
      have e : List.filterMap id (some x :: List.filter Option.isSome (l.map g)) = x :: List.filterMap id (List.filter Option.isSome (l.map g)) := rfl
      rw [e, ih', h k (by simp) x hk]

theorem eq_map_getD {α : Type} (l : List α) (d : α) (n : ℕ) (h : l.length = n) : l = (List.range n).map fun k => l.getD k d := by
  apply List.ext_getElem (by simp [h])
  intro i h1 h2
  rw [List.getElem_map, List.getElem_range, List.getD_eq_getElem l d h1]

/-- A vector with NaN after `cut_nan` and `to_MeV`. -/
theorem raw_vec (n : ℕ) (E : ℕ → ℚ) (g : ℕ → Option ℝ) (v : ℕ → ℝ) (h : ∀ k < n, ∀ x, g k = some x → x = v k) (l : List ℕ)
    (hl : (List.range n).filter (fun k => (g k).isSome) = l) :
    (⟨(List.range n).map E, (List.range n).map g, none, "keV"⟩ : RawVec).cutNan.toVec.toMeV =
      .ok ⟨l.map fun k => E k / 1000, l.map v, none, "MeV"⟩ := by
  have e1 := keepAt_map g E (List.range n)
  have e2 := filterMap_map g v (List.range n) fun k hk => h k (List.mem_range.1 hk)
  rw [hl] at e1 e2
  unfold RawVec.cutNan RawVec.toVec
  dsimp only
  rw [e1, e2]
  unfold Vec.toMeV
  rw [if_neg (show ¬ ("keV" : String) = "MeV" by decide), if_pos rfl]
  simp only [Option.map_none, List.map_map]
  rfl

/-! ## The truth -/

open Classical in
/-- The bins of the level density to which an element of the matrix contributes. -/
noncomputable def usedBins (res : List ℚ) (x y w : ℚ) (nx ny : ℕ) : List ℕ :=
  (List.range (nx + ny - 1)).filter fun k => decide (∃ i < nx, ∃ j < ny, usedEntry res (grid y w ny) (grid x w nx) i j ∧ i + (ny - 1) - j = k)

/-- The true level density in these bins, in MeV. -/
noncomputable def trueNld (res : List ℚ) (x y w : ℚ) (nx ny : ℕ) (nld : List ℝ) : Vec ℝ :=
  ⟨(usedBins res x y w nx ny).map fun k => (nldAxis x y w nx ny).getD k 0 / 1000, (usedBins res x y w nx ny).map fun k => nld.getD k 0, none, "MeV"⟩

/-- The true strength function, in MeV; `c` is the factor between the transmission coefficients of the matrix and the strength function. -/
noncomputable def trueGsf (y w : ℚ) (ny : ℕ) (T : List ℝ) (c : ℝ) : Vec ℝ :=
  ⟨(List.range ny).map fun j => (grid y w ny).getD j 0 / 1000,
    (List.range ny).map fun j => c * (T.getD j 0 / (2 * Real.pi * (((grid y w ny).getD j 0 : ℚ) : ℝ) ^ 3)), none, "MeV"⟩

theorem oslo_maps {ι : Type} (l : List ι) (E : ι → ℚ) (v : ι → ℝ) (u : String) (A a : ℝ) :
    oslo ⟨l.map E, l.map v, none, u⟩ A a = ⟨l.map E, l.map fun k => A * v k * Real.exp (a * (E k : ℝ)), none, u⟩ := by
  unfold oslo Vec.transform
  simp only [Option.map_none, List.zipWith_map, List.zipWith_self]

variable {x y w : ℚ} {nx ny : ℕ} {nld T : List ℝ} {values std : List (List ℝ)}

/-- **C118.** What `decompose` hands on, after removing NaN and conversion to MeV, is the true level density (in all bins that are constrained) and the true strength function, up to the two factors
and the common slope. -/
theorem C118_extracted (f : FitEnv) (h : FitCase x y w nx ny (f.resolution (grid y w ny) (grid x w nx)) nld T values std) (hc : f.close w w = true) (hm : PerfectMinimizer f.minimize)
    (hs : (f.start (nldAxis x y w nx ny) (values.map fun r => r.map (· / r.sum))).length = nx + ny - 1 + ny) (hE : ∀ j < ny, (grid y w ny).getD j 0 ≠ 0) (c : ℝ) (hc0 : 0 < c) :
    ∃ out A b a, decompose f values (some std) (grid y w ny) (grid x w nx) = .ok out ∧ 0 < A ∧ 0 < b ∧
      (out.vectors (grid y w ny)).1.cutNan.toVec.toMeV = .ok (oslo (trueNld (f.resolution (grid y w ny) (grid x w nx)) x y w nx ny nld) A a) ∧
      (out.vectors (grid y w ny)).2.cutNan.toVec.toMeV = .ok (oslo (trueGsf y w ny T c) b a) := by
  classical
  obtain ⟨out, h1, h2, h3, h4, ⟨A, b, a, hA, hb, h5, h6⟩, -⟩ := C76_recovers f h hc hm hs
  set res := f.resolution (grid y w ny) (grid x w nx) with hres
  refine ⟨out, A, b / c, a * 1000, h1, hA, by positivity, ?_, ?_⟩
  · set used : ℕ → Prop := fun k => ∃ i < nx, ∃ j < ny, usedEntry res (grid y w ny) (grid x w nx) i j ∧ i + (ny - 1) - j = k with hu
    have e1 : out.nld = (List.range (nx + ny - 1)).map fun k => if used k then
        some (A * Real.exp (a * (((nldAxis x y w nx ny).getD k 0 : ℚ) : ℝ)) * nld.getD k 0) else none := by
      rw [eq_map_getD out.nld none _ h3]
      apply List.map_congr_left
      intro k hk
      rw [h6 k (List.mem_range.1 hk)]
    have e2 : out.E = (List.range (nx + ny - 1)).map fun k => (nldAxis x y w nx ny).getD k 0 := by
      rw [h2]
      exact eq_map_getD _ 0 _ (grid_length _ _ _)
    have e3 : (List.range (nx + ny - 1)).filter (fun k => (if used k then
          some (A * Real.exp (a * (((nldAxis x y w nx ny).getD k 0 : ℚ) : ℝ)) * nld.getD k 0) else none : Option ℝ).isSome) = usedBins res x y w nx ny := by
      unfold usedBins
      apply List.filter_congr
      intro k _
      by_cases hk : used k
      · rw [if_pos hk]; simp only [Option.isSome_some]; exact (decide_eq_true hk).symm
      · rw [if_neg hk]; simp only [Option.isSome_none]; exact (decide_eq_false hk).symm
    have e4 : (out.vectors (grid y w ny)).1 = ⟨(List.range (nx + ny - 1)).map fun k => (nldAxis x y w nx ny).getD k 0, (List.range (nx + ny - 1)).map fun k => if used k then
        some (A * Real.exp (a * (((nldAxis x y w nx ny).getD k 0 : ℚ) : ℝ)) * nld.getD k 0) else none, none, "keV"⟩ := by
      rw [← e1, ← e2]; rfl
    rw [e4, raw_vec _ _ _ (fun k => A * Real.exp (a * (((nldAxis x y w nx ny).getD k 0 : ℚ) : ℝ)) * nld.getD k 0) ?_ _ e3]
    · unfold trueNld
      rw [oslo_maps]
      simp only [Except.ok.injEq, Vec.mk.injEq, and_true, true_and]
      refine List.map_congr_left fun k _ => ?_
      push_cast
      rw [show a * 1000 * (((nldAxis x y w nx ny).getD k 0 : ℝ) / 1000) = a * ((nldAxis x y w nx ny).getD k 0 : ℝ) by ring]
      ring
    · intro k _ v hv
      split at hv
      · exact (Option.some.inj hv).symm
      · simp at hv
  · have e1 : out.gsf = (List.range ny).map fun j => some (b * Real.exp (a * (((grid y w ny).getD j 0 : ℚ) : ℝ)) *
        (T.getD j 0 / (2 * Real.pi * (((grid y w ny).getD j 0 : ℚ) : ℝ) ^ 3))) := by
      rw [eq_map_getD out.gsf none _ h4]
      apply List.map_congr_left
      intro k hk
      have hk' := List.mem_range.1 hk
      rw [h5 k hk' (hE k hk')]
    have e2 : grid y w ny = (List.range ny).map fun j => (grid y w ny).getD j 0 := eq_map_getD _ 0 _ (grid_length _ _ _)
    have e3 : (List.range ny).filter (fun j => (some (b * Real.exp (a * (((grid y w ny).getD j 0 : ℚ) : ℝ)) *
        (T.getD j 0 / (2 * Real.pi * (((grid y w ny).getD j 0 : ℚ) : ℝ) ^ 3))) : Option ℝ).isSome) = List.range ny := by simp
    have e4 : (out.vectors (grid y w ny)).2 = ⟨(List.range ny).map fun j => (grid y w ny).getD j 0, (List.range ny).map fun j => some (b * Real.exp (a * (((grid y w ny).getD j 0 : ℚ) : ℝ)) *
        (T.getD j 0 / (2 * Real.pi * (((grid y w ny).getD j 0 : ℚ) : ℝ) ^ 3))), none, "keV"⟩ := by
      rw [← e1, ← e2]; rfl
    rw [e4, raw_vec _ _ _ (fun j => b * Real.exp (a * (((grid y w ny).getD j 0 : ℚ) : ℝ)) *
        (T.getD j 0 / (2 * Real.pi * (((grid y w ny).getD j 0 : ℚ) : ℝ) ^ 3))) ?_ _ e3]
    · unfold trueGsf
      rw [oslo_maps]
      simp only [Except.ok.injEq, Vec.mk.injEq, and_true, true_and]
      refine List.map_congr_left fun k _ => ?_
      push_cast
      rw [show a * 1000 * (((grid y w ny).getD k 0 : ℝ) / 1000) = a * ((grid y w ny).getD k 0 : ℝ) by ring]
      have := hc0.ne'
      field_simp
    · intro k _ v hv
      exact (Option.some.inj hv).symm

/-! ## The fit of the level density -/

/-- The bins the fit uses: `n` below (numbers `l 0`, …) and `m` above, as `cut` selects them, and the level density at the separation energy. -/
structure FitBins where
  n : ℕ
  l : ℕ → ℕ
  m : ℕ
  h : ℕ → ℕ
  Sn : ℚ
  nldSn : ℝ × ℝ

/-- The data the likelihood compares (C64), from what the fit gets. -/
noncomputable def NldFitIn.data (i : NldFitIn P B) (b : FitBins) : NldData :=
  ⟨b.n, fun k => i.nld.E.getD (b.l k) 0, fun k => i.nld.values.getD (b.l k) 0, fun k => (i.nld.std.getD []).getD (b.l k) 0,
    fun k => i.discrete.E.getD (b.l k) 0, fun k => i.discrete.values.getD (b.l k) 0,
    b.m, fun k => i.nld.E.getD (b.h k) 0, fun k => i.nld.values.getD (b.h k) 0, fun k => (i.nld.std.getD []).getD (b.h k) 0, b.Sn, b.nldSn⟩

/-- A fit that finds parameters with the smallest chi-square if there are some that reproduce the data. -/
def LeastSquares (fit : NldFitIn P B → Except Err (NldPopt (ℝ × ℝ))) (b : FitBins) : Prop :=
  ∀ i, (∃ A a T S, 0 < A ∧ 0 < T ∧ (i.data b).Exact A a T S) → ∃ p, fit i = .ok p ∧ 0 < p.A ∧ 0 < p.rest.1 ∧
    ∀ A a T S, 0 < A → 0 < T → (i.data b).chi2 (ctVal p.rest.1 p.rest.2) p.A p.alpha ≤ (i.data b).chi2 (ctVal T S) A a

/-- The known level densities agree with the truth `v`: the levels `d` below, a constant temperature above and at the separation energy; two of the bins below have different energies, and
one bin above is not at the separation energy. -/
structure Known (v d : Vec ℝ) (b : FitBins) (T S : ℝ) : Prop where
  hT : 0 < T
  hl : ∀ k < b.n, b.l k < v.E.length
  hh : ∀ k < b.m, b.h k < v.E.length
  low : ∀ k < b.n, v.values.getD (b.l k) 0 = d.values.getD (b.l k) 0
  high : ∀ k < b.m, v.values.getD (b.h k) 0 = ctVal T S (v.E.getD (b.h k) 0)
  sn : b.nldSn.1 = ctVal T S b.Sn
  sd : b.nldSn.2 ≠ 0
  two : ∃ i < b.n, ∃ j < b.n, v.E.getD (b.l i) 0 ≠ v.E.getD (b.l j) 0
  other : ∃ k < b.m, v.E.getD (b.h k) 0 ≠ b.Sn

theorem oslo_getD (v : Vec ℝ) (hv : v.consistent) (A a : ℝ) (k : ℕ) (hk : k < v.E.length) :
    (oslo v A a).values.getD k 0 = A * v.values.getD k 0 * Real.exp (a * (v.E.getD k 0 : ℝ)) := by
  have h1 : v.values.length = v.E.length := by
    simp only [Vec.consistent, Bool.and_eq_true, beq_iff_eq] at hv
    exact hv.1.symm
  unfold oslo Vec.transform
  dsimp only
  rw [List.getD_eq_getElem _ 0 (by simp; omega), List.getElem_zipWith, List.getD_eq_getElem v.values 0 (by omega), List.getD_eq_getElem v.E 0 hk]

/-- **C118.** The fit undoes the gauge of the extraction: for a least squares fit of a level density that is the truth `v` times `A exp(a E)`, with made up uncertainties, the result is the inverse
of the gauge, and temperature and shift are the true ones. -/
theorem C118_fit (fit : NldFitIn P B → Except Err (NldPopt (ℝ × ℝ))) (b : FitBins) (hf : LeastSquares fit b) (v d : Vec ℝ) (hv : v.consistent) (pos : ∀ q ∈ v.values, 0 < q) (T S : ℝ)
    (hk : Known v d b T S) (A a : ℝ) (hA : 0 < A) (low high : ℚ × ℚ) (bo : B) (pa : P) (num : ℕ) :
    fit ⟨{ oslo v A a with std := some ((oslo v A a).values.map (· * (3 / 10))) }, d, low, high, bo, pa, num⟩ = .ok ⟨1 / A, -a, T, S⟩ := by
  set i : NldFitIn P B := ⟨{ oslo v A a with std := some ((oslo v A a).values.map (· * (3 / 10))) }, d, low, high, bo, pa, num⟩ with hi
  have hlen : v.values.length = v.E.length := by
    simp only [Vec.consistent, Bool.and_eq_true, beq_iff_eq] at hv
    exact hv.1.symm
  have hval : ∀ k < v.E.length, i.nld.values.getD k 0 = A * v.values.getD k 0 * Real.exp (a * (v.E.getD k 0 : ℝ)) :=
    fun k hk => oslo_getD v hv A a k hk
  have hpos : ∀ k < v.E.length, 0 < v.values.getD k 0 := by
    intro k hk
    rw [List.getD_eq_getElem v.values 0 (by omega)]
    exact pos _ (List.getElem_mem _)
  have hvp : ∀ k < v.E.length, 0 < i.nld.values.getD k 0 := by
    intro k hk
    rw [hval k hk]
    have := hpos k hk
    positivity
  have hol : (oslo v A a).values.length = v.E.length := by simp [oslo, Vec.transform, hlen]
  have hsd : ∀ k < v.E.length, 0 < (i.nld.std.getD []).getD k 0 := by
    intro k hk
    have h1 := hvp k hk
    have h2 : i.nld.std.getD [] = (oslo v A a).values.map (· * (3 / 10)) := rfl
    have h3 : i.nld.values = (oslo v A a).values := rfl
    rw [h3, List.getD_eq_getElem _ 0 (by omega)] at h1
    rw [h2, List.getD_eq_getElem _ 0 (by simpa [hol] using hk), List.getElem_map]
    linarith
  have hE : i.nld.E = v.E := rfl
  have hU : (i.data b).Usable (fun _ _ => true) := ⟨fun k h => (hvp _ (hk.hl k h)).ne', fun k h => (hvp _ (hk.hh k h)).ne', fun k h => hsd _ (hk.hl k h),
    fun k h => hsd _ (hk.hh k h), fun _ _ => rfl, hk.sd⟩
  have back : ∀ k < v.E.length, 1 / A * i.nld.values.getD k 0 * Real.exp (-a * (v.E.getD k 0 : ℝ)) = v.values.getD k 0 := by
    intro k h
    rw [hval k h, neg_mul, Real.exp_neg]
    have := (Real.exp_pos (a * (v.E.getD k 0 : ℝ))).ne'
    have := hA.ne'
    field_simp
  have hex : (i.data b).Exact (1 / A) (-a) T S := by
    refine ⟨fun k h => ?_, fun k h => ?_, hk.sn⟩
    · exact (back _ (hk.hl k h)).trans (hk.low k h)
    · exact (back _ (hk.hh k h)).trans (hk.high k h)
  have hA' : 0 < 1 / A := by positivity
  obtain ⟨p, p1, p2, p3, p4⟩ := hf i ⟨1 / A, -a, T, S, hA', hk.hT, hex⟩
  have z1 := ((C65_zero_iff (i.data b) _ hU (1 / A) (-a) T S hA').2).2 hex
  have z2 := C65_zero_iff (i.data b) _ hU p.A p.alpha p.rest.1 p.rest.2 p2
  have z3 := z2.2.1 (le_antisymm ((p4 (1 / A) (-a) T S hA' hk.hT).trans z1.le) z2.1)
  obtain ⟨i1, hi1, j1, hj1, hne⟩ := hk.two
  obtain ⟨k1, hk1, hne'⟩ := hk.other
  obtain ⟨q1, q2, q3, q4⟩ := C65_unique (i.data b) _ hU _ _ _ _ _ _ _ _ p2 hA' p3 hk.hT i1 j1 hi1 hj1 hne k1 hk1 hne' z3 hex
  rw [p1]
  obtain ⟨pA, pa', pT, pS⟩ := p
  dsimp only at q1 q2 q3 q4
  rw [q1, q2, q3, q4]

/-! ## The whole chain -/

/-- What the ensemble normaliser must have been given: limits, bounds, parameters, known levels `d`, and no value for alpha; the extrapolations are fitted. -/
structure Prepared (e : EnsEnv P B (ℝ × ℝ)) (s : EnsState P B (ℝ × ℝ)) (d : Vec ℝ) : Prop where
  low : ∃ q, s.nld.obj.low = some q
  high : ∃ q, s.nld.obj.high = some q
  bounds : ∃ q, s.nld.obj.bounds = some q
  pars : ∃ q, s.nld.obj.pars = some q ∧ e.checkNld q = .ok ()
  levels : ∃ k, s.nld.obj.discrete = some k ∧ k < s.nld.heap.length ∧ (vcell s.nld.heap k).toMeV = .ok d
  check : e.checkGsf s.gsf.pars = .ok ()
  alpha : s.gsf.alpha = none
  fitted : s.gsf.low.fitted = true
  model : ∀ p q, e.model p q = constTemperature q p.rest.1 p.rest.2

theorem Prepared.nldCall {e : EnsEnv P B (ℝ × ℝ)} {s : EnsState P B (ℝ × ℝ)} {d : Vec ℝ} (hp : Prepared e s d) (v w : Vec ℝ) (num : ℕ) (hw : v.toMeV = .ok w) (hs : w.std = none)
    (p : NldPopt (ℝ × ℝ)) (hf : ∀ low high bo pa, e.fitNld ⟨{ w with std := some (w.values.map (· * (3 / 10))) }, d, low, high, bo, pa, num⟩ = .ok p) :
    ∃ t, Ompy.nldCall e s.nld v num = (t, .ok ()) ∧ t.obj.res = some ⟨oslo w p.A p.alpha, p⟩ := by
  obtain ⟨low, h1⟩ := hp.low
  obtain ⟨high, h2⟩ := hp.high
  obtain ⟨bo, h3⟩ := hp.bounds
  obtain ⟨pa, h4, h5⟩ := hp.pars
  obtain ⟨k, h6, h7, h8⟩ := hp.levels
  unfold Ompy.nldCall NldState.normalize
  dsimp only
  rw [if_pos rfl]
  unfold NldState.normalizeNew
  simp only [h1, h2, h3, h4, h5, h6, selfIfNone, vcell_append h7, h8, Option.map_some, vcell_last h7]
  unfold NldState.fitAndSave
  simp only [hw, hs, Option.isNone_none, Bool.or_true, if_true]
  have hc : vcell ((s.nld.heap ++ [v]).set k d) k = d := vcell_set (by simp; omega) _
  rw [hc, hf]
  simp only [NldState.save, Bool.false_eq_true, if_false]
  refine ⟨_, rfl, ?_⟩
  simp only [Option.some.injEq, NldRes.mk.injEq, and_true]
  unfold oslo Vec.transform
  obtain ⟨E, vs, sd, u⟩ := w
  dsimp only at hs
  subst hs
  rfl

theorem Prepared.gsfCall {e : EnsEnv P B (ℝ × ℝ)} {s : EnsState P B (ℝ × ℝ)} {d : Vec ℝ} (hp : Prepared e s d) (v w : Vec ℝ) (hw : v.toMeV = .ok w) (n : NldRes (ℝ × ℝ)) (r : GsfResult)
    (hr : gsfNormalize s.gsf.pars s.gsf.low s.gsf.high e.fitGsf n.popt.alpha n.nld.curve (e.model n.popt) (e.spin s.gsf.pars) v = .ok r) :
    ∃ o u, Ompy.gsfCall e s.gsf (some n) v = (o, u, .ok ()) ∧ o.res = some ⟨some (nldOut e n), r.norm.gsf, r.norm.low, r.norm.high, (r.B, r.Bunc)⟩ := by
  unfold Ompy.gsfCall GsfState.normalize
  simp only [GsfState.source, List.getElem?_cons_zero, Option.map_some, Option.orElse, orFrom, nldOutOf, hp.alpha, Except.map, nldOut, Option.getD_none, hp.check]
  unfold GsfState.run
  simp only [hw, hr]
  refine ⟨_, _, rfl, rfl⟩

/-- The chain for any fit that gives, for a level density in another gauge, the inverse of the gauge up to the factor `F`. -/
theorem chain_core (f : FitEnv) (h : FitCase x y w nx ny (f.resolution (grid y w ny) (grid x w nx)) nld T values std) (hc : f.close w w = true) (hm : PerfectMinimizer f.minimize)
    (hs : (f.start (nldAxis x y w nx ny) (values.map fun r => r.map (· / r.sum))).length = nx + ny - 1 + ny) (hE : ∀ j < ny, (grid y w ny).getD j 0 ≠ 0) (c : ℝ) (hc0 : 0 < c)
    (e : EnsEnv P B (ℝ × ℝ)) (s : EnsState P B (ℝ × ℝ)) (d : Vec ℝ) (hp : Prepared e s d) (T0 S0 F : ℝ) (num : ℕ)
    (hfit : (∀ q ∈ (trueNld (f.resolution (grid y w ny) (grid x w nx)) x y w nx ny nld).values, 0 < q) → ∀ A a, 0 < A → ∀ low high bo pa,
      e.fitNld ⟨{ oslo (trueNld (f.resolution (grid y w ny) (grid x w nx)) x y w nx ny nld) A a with
        std := some ((oslo (trueNld (f.resolution (grid y w ny) (grid x w nx)) x y w nx ny nld) A a).values.map (· * (3 / 10))) }, d, low, high, bo, pa, num⟩ = .ok ⟨F * (1 / A), -a, T0, S0⟩)
    (hg : ScaledFit e.fitGsf) (r : GsfResult)
    (hr : gsfNormalize s.gsf.pars s.gsf.low s.gsf.high e.fitGsf 0 (oslo (trueNld (f.resolution (grid y w ny) (grid x w nx)) x y w nx ny nld) F 0).curve (fun q => constTemperature q T0 S0)
      (e.spin s.gsf.pars) (trueGsf y w ny T c) = .ok r) :
    ∃ out n, osloMethod f e s num values (some std) (grid y w ny) (grid x w nx) = .ok out ∧ out.ofNld = some n ∧
      n.nld = oslo (trueNld (f.resolution (grid y w ny) (grid x w nx)) x y w nx ny nld) F 0 ∧ n.rest.rest = (T0, S0) ∧
      out.gsf = oslo (trueGsf y w ny T c) r.B 0 ∧ out.low.extrapolate true = r.norm.low.extrapolate true ∧ out.high.extrapolate true = r.norm.high.extrapolate true := by
  obtain ⟨out, A, g, a, h1, hA, hgp, h2, h3⟩ := C118_extracted f h hc hm hs hE c hc0
  set tn := trueNld (f.resolution (grid y w ny) (grid x w nx)) x y w nx ny nld with htn
  set tg := trueGsf y w ny T c with htg
  have cn : tn.consistent := by simp [htn, trueNld, Vec.consistent]
  have cg : tg.consistent := by simp [htg, trueGsf, Vec.consistent]
  have pn : ∀ q ∈ tn.values, 0 < q := by
    intro q hq
    simp only [htn, trueNld, List.mem_map] at hq
    obtain ⟨k, hk', rfl⟩ := hq
    unfold usedBins at hk'
    have hkl : k < nld.length := by rw [h.ln]; exact List.mem_range.1 (List.mem_filter.1 hk').1
    exact h.pn _ (getD_mem' nld 0 hkl)
  have hsn : tn.std = none := rfl
  have hsg : tg.std = none := rfl
  obtain ⟨t, t1, t2⟩ := hp.nldCall _ (oslo tn A a) num h2 (by simp [oslo, Vec.transform, hsn]) ⟨F * (1 / A), -a, T0, S0⟩ (hfit pn A a hA)
  have back : oslo (oslo tn A a) (F * (1 / A)) (-a) = oslo tn F 0 := by
    rw [oslo_oslo tn ⟨cn, Or.inl hsn⟩ _ _ _ _ hA.ne', add_neg_cancel]
    congr 1
    field_simp
  dsimp only at t2
  rw [back] at t2
  obtain ⟨r', r1, r2, r3, r4, r5⟩ := C104_gsf_partial _ _ _ _ hg hp.fitted 0 _ _ _ tg rfl ⟨cg, Or.inl hsg⟩ r g a hgp hr
  have hmod : (e.model ⟨F * (1 / A), -a, T0, S0⟩) = fun q => constTemperature q T0 S0 := funext fun q => hp.model _ q
  have hv3 : ∀ alpha nld model S, gsfNormalize s.gsf.pars s.gsf.low s.gsf.high e.fitGsf alpha nld model S (out.vectors (grid y w ny)).2.cutNan.toVec =
      gsfNormalize s.gsf.pars s.gsf.low s.gsf.high e.fitGsf alpha nld model S (oslo tg g a) := by
    intro alpha nld model S
    have h4 : (oslo tg g a).toMeV = .ok (oslo tg g a) := rfl
    unfold gsfNormalize
    rw [h3, h4]
  obtain ⟨o, u, o1, o2⟩ := hp.gsfCall _ (oslo tg g a) h3 ⟨oslo tn F 0, ⟨F * (1 / A), -a, T0, S0⟩⟩ r' (by
    rw [hv3]
    dsimp only
    rw [hmod, ← zero_sub a]
    exact r1)
  refine ⟨⟨some (nldOut e ⟨oslo tn F 0, ⟨F * (1 / A), -a, T0, S0⟩⟩), r'.norm.gsf, r'.norm.low, r'.norm.high, (r'.B, r'.Bunc)⟩, nldOut e ⟨oslo tn F 0, ⟨F * (1 / A), -a, T0, S0⟩⟩, ?_, rfl, rfl, rfl, ?_, r4, r5⟩
  · unfold osloMethod
    rw [h1]
    dsimp only
    unfold ensStep
    dsimp only
    rw [t1]
    dsimp only
    rw [t2, o1]
    dsimp only
    rw [o2]
  · dsimp only
    rw [r3]
    obtain ⟨v, l, m, cl, ch, G, hv, -, -, -, -, -, -, -, hgs, -, -, hB, -⟩ := gsfNormalize_ok hr
    have hv' : v = tg := by
      have : tg.toMeV = .ok tg := rfl
      rw [this] at hv
      injection hv with hv
      exact hv.symm
    rw [hgs, hB, hv', oslo_oslo tg ⟨cg, Or.inl hsg⟩ 1 0 _ _ one_ne_zero, one_mul, add_zero]

/-- **C118.** The Oslo method is right if its fits are: take a matrix whose rows are proportional to the product of a level density and transmission coefficients, known levels and a level density at
the separation energy that agree with it, and fits that find what fits exactly. Then the result contains the true level density in every bin the matrix constrains, with the true temperature and
shift, and the strength function and extrapolations that the normalisation gives for the true strength function with the true level density. The start values of the minimisation, the scale of the
matrix rows, the gauge found by the minimiser do not matter. -/
theorem C118_recovers (f : FitEnv) (h : FitCase x y w nx ny (f.resolution (grid y w ny) (grid x w nx)) nld T values std) (hc : f.close w w = true) (hm : PerfectMinimizer f.minimize)
    (hs : (f.start (nldAxis x y w nx ny) (values.map fun r => r.map (· / r.sum))).length = nx + ny - 1 + ny) (hE : ∀ j < ny, (grid y w ny).getD j 0 ≠ 0) (c : ℝ) (hc0 : 0 < c)
    (e : EnsEnv P B (ℝ × ℝ)) (s : EnsState P B (ℝ × ℝ)) (d : Vec ℝ) (hp : Prepared e s d) (b : FitBins) (hf : LeastSquares e.fitNld b) (T0 S0 : ℝ)
    (hk : Known (trueNld (f.resolution (grid y w ny) (grid x w nx)) x y w nx ny nld) d b T0 S0) (hg : ScaledFit e.fitGsf) (r : GsfResult)
    (hr : gsfNormalize s.gsf.pars s.gsf.low s.gsf.high e.fitGsf 0 (trueNld (f.resolution (grid y w ny) (grid x w nx)) x y w nx ny nld).curve (fun q => constTemperature q T0 S0) (e.spin s.gsf.pars)
      (trueGsf y w ny T c) = .ok r) (num : ℕ) :
    ∃ out n, osloMethod f e s num values (some std) (grid y w ny) (grid x w nx) = .ok out ∧ out.ofNld = some n ∧
      n.nld = trueNld (f.resolution (grid y w ny) (grid x w nx)) x y w nx ny nld ∧ n.rest.rest = (T0, S0) ∧
      out.gsf = oslo (trueGsf y w ny T c) r.B 0 ∧ out.low.extrapolate true = r.norm.low.extrapolate true ∧ out.high.extrapolate true = r.norm.high.extrapolate true := by
  set tn := trueNld (f.resolution (grid y w ny) (grid x w nx)) x y w nx ny nld with htn
  have cn : tn.consistent := by simp [htn, trueNld, Vec.consistent]
  have one : oslo tn 1 0 = tn := C11_identity _ cn (Or.inl rfl)
  have := chain_core f h hc hm hs hE c hc0 e s d hp T0 S0 1 num (fun pn A a hA low high bo pa => by
    rw [one_mul]
    exact C118_fit e.fitNld b hf tn d cn pn T0 S0 hk A a hA low high bo pa num) hg r (by rw [← htn, one]; exact hr)
  rw [← htn, one] at this
  exact this

/-- **C118.** If the true strength function has the experimental width, it is the result. -/
theorem C118_truth (f : FitEnv) (h : FitCase x y w nx ny (f.resolution (grid y w ny) (grid x w nx)) nld T values std) (hc : f.close w w = true) (hm : PerfectMinimizer f.minimize)
    (hs : (f.start (nldAxis x y w nx ny) (values.map fun r => r.map (· / r.sum))).length = nx + ny - 1 + ny) (hE : ∀ j < ny, (grid y w ny).getD j 0 ≠ 0) (c : ℝ) (hc0 : 0 < c)
    (e : EnsEnv P B (ℝ × ℝ)) (s : EnsState P B (ℝ × ℝ)) (d : Vec ℝ) (hp : Prepared e s d) (b : FitBins) (hf : LeastSquares e.fitNld b) (T0 S0 : ℝ)
    (hk : Known (trueNld (f.resolution (grid y w ny) (grid x w nx)) x y w nx ny nld) d b T0 S0) (hg : ScaledFit e.fitGsf) (r : GsfResult)
    (hr : gsfNormalize s.gsf.pars s.gsf.low s.gsf.high e.fitGsf 0 (trueNld (f.resolution (grid y w ny) (grid x w nx)) x y w nx ny nld).curve (fun q => constTemperature q T0 S0) (e.spin s.gsf.pars)
      (trueGsf y w ny T c) = .ok r) (hB : r.B = 1) (num : ℕ) :
    ∃ out n, osloMethod f e s num values (some std) (grid y w ny) (grid x w nx) = .ok out ∧ out.ofNld = some n ∧
      n.nld = trueNld (f.resolution (grid y w ny) (grid x w nx)) x y w nx ny nld ∧ out.gsf = trueGsf y w ny T c := by
  obtain ⟨out, n, o1, o2, o3, -, o4, -⟩ := C118_recovers f h hc hm hs hE c hc0 e s d hp b hf T0 S0 hk hg r hr num
  refine ⟨out, n, o1, o2, o3, ?_⟩
  rw [o4, hB]
  exact C11_identity _ (by simp [trueGsf, Vec.consistent]) (Or.inl rfl)

/-- **C118.** The result depends on neither the minimiser nor its start values, nor on the number of counts in the rows of the matrix, their uncertainties, or the number of the member. -/
theorem C118_same (f f' : FitEnv) (hres : f'.resolution = f.resolution) (values' std' : List (List ℝ))
    (h : FitCase x y w nx ny (f.resolution (grid y w ny) (grid x w nx)) nld T values std) (h' : FitCase x y w nx ny (f.resolution (grid y w ny) (grid x w nx)) nld T values' std')
    (hc : f.close w w = true) (hc' : f'.close w w = true) (hm : PerfectMinimizer f.minimize) (hm' : PerfectMinimizer f'.minimize)
    (hs : (f.start (nldAxis x y w nx ny) (values.map fun r => r.map (· / r.sum))).length = nx + ny - 1 + ny)
    (hs' : (f'.start (nldAxis x y w nx ny) (values'.map fun r => r.map (· / r.sum))).length = nx + ny - 1 + ny) (hE : ∀ j < ny, (grid y w ny).getD j 0 ≠ 0)
    (e : EnsEnv P B (ℝ × ℝ)) (s : EnsState P B (ℝ × ℝ)) (d : Vec ℝ) (hp : Prepared e s d) (b : FitBins) (hf : LeastSquares e.fitNld b) (T0 S0 : ℝ)
    (hk : Known (trueNld (f.resolution (grid y w ny) (grid x w nx)) x y w nx ny nld) d b T0 S0) (hg : ScaledFit e.fitGsf) (r : GsfResult)
    (hr : gsfNormalize s.gsf.pars s.gsf.low s.gsf.high e.fitGsf 0 (trueNld (f.resolution (grid y w ny) (grid x w nx)) x y w nx ny nld).curve (fun q => constTemperature q T0 S0) (e.spin s.gsf.pars)
      (trueGsf y w ny T 1) = .ok r) (num num' : ℕ) :
    ∃ o o' n n', osloMethod f e s num values (some std) (grid y w ny) (grid x w nx) = .ok o ∧ osloMethod f' e s num' values' (some std') (grid y w ny) (grid x w nx) = .ok o' ∧
      o.ofNld = some n ∧ o'.ofNld = some n' ∧ n.nld = n'.nld ∧ o.gsf = o'.gsf ∧ o.low.extrapolate true = o'.low.extrapolate true ∧ o.high.extrapolate true = o'.high.extrapolate true := by
  obtain ⟨o, n, o1, o2, o3, -, o4, o5, o6⟩ := C118_recovers f h hc hm hs hE 1 one_pos e s d hp b hf T0 S0 hk hg r hr num
  rw [← hres] at h' hk hr
  obtain ⟨q, m, q1, q2, q3, -, q4, q5, q6⟩ := C118_recovers f' h' hc' hm' hs' hE 1 one_pos e s d hp b hf T0 S0 hk hg r hr num'
  refine ⟨o, q, n, m, o1, q1, o2, q2, ?_, by rw [o4, q4], by rw [o5, q5], by rw [o6, q6]⟩
  rw [o3, q3, hres]

/-! ### A case -/

theorem chi2_nonneg (D : NldData) (m : ℚ → ℝ) (A a : ℝ) : 0 ≤ D.chi2 m A a := by
  unfold NldData.chi2
  have h1 : 0 ≤ ∑ k ∈ Finset.range D.n, ((A * D.vl k * Real.exp (a * D.El k) - D.d k) / (A * D.sl k * Real.exp (a * D.El k))) ^ 2 := Finset.sum_nonneg fun _ _ => sq_nonneg _
  have h2 : 0 ≤ ∑ k ∈ Finset.range D.m, ((A * D.vh k * Real.exp (a * D.Eh k) - m (D.Eh k)) / (A * D.sh k * Real.exp (a * D.Eh k))) ^ 2 := Finset.sum_nonneg fun _ _ => sq_nonneg _
  positivity

theorem exact_chi2 (D : NldData) (A a T S : ℝ) (h : D.Exact A a T S) : D.chi2 (ctVal T S) A a = 0 := by
  unfold NldData.chi2
  rw [Finset.sum_eq_zero, Finset.sum_eq_zero, h.2.2]
  · simp
  · intro k hk
    rw [h.2.1 k (Finset.mem_range.1 hk)]; simp
  · intro k hk
    rw [h.1 k (Finset.mem_range.1 hk)]; simp

/-- There is a least squares fit. -/
theorem leastSquares_exists (b : FitBins) : ∃ fit : NldFitIn P B → Except Err (NldPopt (ℝ × ℝ)), LeastSquares fit b := by
  classical
  have key : ∀ i : NldFitIn P B, ∃ r : Except Err (NldPopt (ℝ × ℝ)), (∃ A a T S, 0 < A ∧ 0 < T ∧ (i.data b).Exact A a T S) → ∃ p, r = .ok p ∧ 0 < p.A ∧ 0 < p.rest.1 ∧
      ∀ A a T S, 0 < A → 0 < T → (i.data b).chi2 (ctVal p.rest.1 p.rest.2) p.A p.alpha ≤ (i.data b).chi2 (ctVal T S) A a := by
    intro i
    by_cases h : ∃ A a T S, 0 < A ∧ 0 < T ∧ (i.data b).Exact A a T S
    · obtain ⟨A, a, T, S, hA, hT, he⟩ := h
      refine ⟨.ok ⟨A, a, T, S⟩, fun _ => ⟨_, rfl, hA, hT, fun A' a' T' S' _ _ => ?_⟩⟩
      have := exact_chi2 _ _ _ _ _ he
      dsimp only
      rw [this]
      exact chi2_nonneg _ _ _ _
    · exact ⟨.error .undefined, fun h' => absurd h' h⟩
  choose fit hfit using key
  exact ⟨fit, hfit⟩

theorem small_bins : usedBins [0, 0] 2 1 1 2 3 = [1, 2, 3] := by
  classical
  unfold usedBins
  have h : ∀ k < 4, (∃ i < 2, ∃ j < 3, usedEntry [0, 0] (grid 1 1 3) (grid 2 1 2) i j ∧ i + (3 - 1) - j = k) ↔ k ≠ 0 := by
    intro k hk
    constructor
    · rintro ⟨i, hi, j, hj, hu, rfl⟩
      rw [small_used i j hi hj] at hu
      omega
    · intro h0
      interval_cases k
      · exact absurd rfl h0
      · exact ⟨0, by omega, 1, by omega, (small_used 0 1 (by omega) (by omega)).2 (by omega), rfl⟩
      · exact ⟨0, by omega, 0, by omega, (small_used 0 0 (by omega) (by omega)).2 (by omega), rfl⟩
      · exact ⟨1, by omega, 0, by omega, (small_used 1 0 (by omega) (by omega)).2 (by omega), rfl⟩
  refine (List.filter_congr fun k hk => ?_).trans (rfl : (List.range 4).filter (fun k => decide (k ≠ 0)) = [1, 2, 3])
  simp only [decide_eq_decide]
  exact h k (List.mem_range.1 hk)

theorem small_trueNld : trueNld [0, 0] 2 1 1 2 3 [1, 1, 2, 2] = ⟨[0, 1 / 1000, 2 / 1000], [1, 2, 2], none, "MeV"⟩ := by
  unfold trueNld
  rw [small_bins]
  simp [nldAxis, grid, List.range_succ]
  norm_num

theorem small_trueGsf : ∃ a b c : ℝ, 0 < a ∧ 0 < b ∧ 0 < c ∧ trueGsf 1 1 3 [1, 1, 1] 1 = ⟨[1 / 1000, 2 / 1000, 3 / 1000], [a, b, c], none, "MeV"⟩ := by
  refine ⟨1 * (1 / (2 * Real.pi * 1 ^ 3)), 1 * (1 / (2 * Real.pi * 2 ^ 3)), 1 * (1 / (2 * Real.pi * 3 ^ 3)), by positivity, by positivity, by positivity, ?_⟩
  unfold trueGsf
  simp [grid, List.range_succ]
  norm_num

/-- The bins of the case: the first two below, the third above. -/
noncomputable def smallBins : FitBins := ⟨2, id, 1, fun _ => 2, 3 / 1000, (ctVal (1 / 2) (2 / 1000) (3 / 1000), 1)⟩

theorem small_known : Known ⟨[0, 1 / 1000, 2 / 1000], [1, 2, 2], none, "MeV"⟩ ⟨[0, 1 / 1000], [1, 2], none, "MeV"⟩ smallBins (1 / 2) (2 / 1000) where
  hT := by norm_num
  hl := by intro k hk; have : k < 2 := hk; simp [smallBins]; omega
  hh := by intro k _; simp [smallBins]
  low := by intro k hk; have : k < 2 := hk; simp only [smallBins, id]; interval_cases k <;> rfl
  high := by intro k _; simp only [smallBins]; norm_num [ctVal]
  sn := rfl
  sd := one_ne_zero
  two := ⟨0, by simp [smallBins], 1, by simp [smallBins], by simp [smallBins]⟩
  other := ⟨0, by simp [smallBins], by norm_num [smallBins]⟩

theorem trueGsf_scale (y w : ℚ) (ny : ℕ) (T : List ℝ) (c : ℝ) : oslo (trueGsf y w ny T 1) c 0 = trueGsf y w ny T c := by
  unfold trueGsf
  rw [oslo_maps]
  simp

/-- A state for the case: the ranges, the known levels, new extrapolation models. -/
noncomputable def smallState (p : GgPars) : EnsState Unit Unit (ℝ × ℝ) :=
  ⟨⟨[⟨[0, 1 / 1000], [1, 2], none, "MeV"⟩], ⟨none, some 0, some (0, 1 / 1000), some (2 / 1000, 2 / 1000), some (), some (), none, false, true, none, none⟩, fun _ => none⟩,
    GsfObj.new none none none none none p (lowDefault 0 0 true 2) (highDefault 0 0 true 20001)⟩

/-- The environment of the case, for a fit of the level density. -/
noncomputable def smallEnv (fit : NldFitIn Unit Unit → Except Err (NldPopt (ℝ × ℝ))) : EnsEnv Unit Unit (ℝ × ℝ) :=
  ⟨fit, fun _ => .ok (), headFit, fun _ => .ok (), fun _ _ => .ok 1, fun p q => constTemperature q p.rest.1 p.rest.2⟩

/-- In the case the normalisation of the true strength function works, also with a level density that is wrong by a factor. -/
theorem small_gsf (fit : NldFitIn Unit Unit → Except Err (NldPopt (ℝ × ℝ))) (F : ℝ) (hF : 0 < F) :
    ∃ r, gsfNormalize (smallState ⟨1 / 1000, 3 / 1000, 5, (1, 0), 1⟩).gsf.pars (smallState ⟨1 / 1000, 3 / 1000, 5, (1, 0), 1⟩).gsf.low
      (smallState ⟨1 / 1000, 3 / 1000, 5, (1, 0), 1⟩).gsf.high (smallEnv fit).fitGsf 0 (oslo (trueNld [0, 0] 2 1 1 2 3 [1, 1, 2, 2]) F 0).curve (fun q => constTemperature q (1 / 2) (2 / 1000))
      ((smallEnv fit).spin ⟨1 / 1000, 3 / 1000, 5, (1, 0), 1⟩) (trueGsf 1 1 3 [1, 1, 1] 1) = .ok r := by
  obtain ⟨a, b, c, ha, hb, hc, hg⟩ := small_trueGsf
  have pg : ∀ q ∈ [a, b, c], 0 < q := by simp [ha, hb, hc]
  have hz : oslo ⟨[1 / 1000, 2 / 1000, 3 / 1000], [a, b, c], none, "MeV"⟩ 1 0 = ⟨[1 / 1000, 2 / 1000, 3 / 1000], [a, b, c], none, "MeV"⟩ :=
    C11_identity _ (by simp [Vec.consistent]) (Or.inl rfl)
  rw [hg, small_trueNld]
  refine C48_total ⟨1 / 1000, 3 / 1000, 5, (1, 0), 1⟩ ⟨[1 / 1000, 2 / 1000, 3 / 1000], [a, b, c], none, "MeV"⟩ _ _ _ headFit 0 0 0 0 0 true true 2 20001 (3 / 1000) 0 ?_ rfl ?_ (by simp) rfl pg rfl
    le_rfl (by norm_num) (by norm_num) (by norm_num) (by norm_num) (by norm_num) (by norm_num) (by norm_num) (by norm_num) (by simp [Vec.curve, oslo, Vec.transform]) ?_ rfl le_rfl ?_
    (fun _ => ⟨1, rfl, one_pos⟩)
  · intro m
    rw [hz]
    unfold headFit
    dsimp only
    rw [if_pos ha]
    exact ⟨_, rfl⟩
  · norm_num
  · intro k hk
    have hk3 : k < 3 := hk
    simp only [Vec.curve, oslo, Vec.transform]
    interval_cases k <;> simp [hF]
  · intro q
    refine ⟨_, ct_ok _ _ (by norm_num) q, ?_⟩
    unfold ctVal
    positivity

/-- The case: the result exists, with the true level density and a true strength function of the experimental width. -/
example : ∃ (f : FitEnv) (e : EnsEnv Unit Unit (ℝ × ℝ)) (out : GsfOut (NldPopt (ℝ × ℝ))) (n : NldOut (NldPopt (ℝ × ℝ))) (c : ℝ), 0 < c ∧
    osloMethod f e (smallState ⟨1 / 1000, 3 / 1000, 5, (1, 0), 1⟩) 0 [[2, 1, 0], [2, 2, 1]] (some [[1, 1, 1], [1, 1, 1]]) (grid 1 1 3) (grid 2 1 2) = .ok out ∧ out.ofNld = some n ∧
      n.nld = ⟨[0, 1 / 1000, 2 / 1000], [1, 2, 2], none, "MeV"⟩ ∧ out.gsf = trueGsf 1 1 3 [1, 1, 1] c := by
  obtain ⟨m, hm⟩ := perfectMinimizer_exists
  obtain ⟨fit, hfit⟩ := leastSquares_exists (P := Unit) (B := Unit) smallBins
  set f : FitEnv := ⟨fun _ _ => true, fun _ _ => [0, 0], fun _ _ => List.replicate 7 1, m⟩ with hf
  have hp : Prepared (smallEnv fit) (smallState ⟨1 / 1000, 3 / 1000, 5, (1, 0), 1⟩) ⟨[0, 1 / 1000], [1, 2], none, "MeV"⟩ :=
    ⟨⟨_, rfl⟩, ⟨_, rfl⟩, ⟨_, rfl⟩, ⟨_, rfl, rfl⟩, ⟨0, rfl, by simp [smallState], rfl⟩, rfl, rfl, rfl, fun _ _ => rfl⟩
  have hk := small_known
  rw [← small_trueNld] at hk
  obtain ⟨r, hr⟩ := small_gsf fit 1 one_pos
  have hone : oslo (trueNld [0, 0] 2 1 1 2 3 [1, 1, 2, 2]) 1 0 = trueNld [0, 0] 2 1 1 2 3 [1, 1, 2, 2] := C11_identity _ (by simp [trueNld, Vec.consistent]) (Or.inl rfl)
  rw [hone] at hr
  have hB := (C48_width _ _ _ _ _ _ _ _ _ _ hr).2.1
  obtain ⟨r', hr', hB', -⟩ := C104_gsf_partial _ _ _ headFit headFit_scaled rfl 0 _ _ _ (trueGsf 1 1 3 [1, 1, 1] 1) rfl ⟨by simp [trueGsf, Vec.consistent], Or.inl rfl⟩ r r.B 0 hB hr
  rw [sub_zero, trueGsf_scale] at hr'
  obtain ⟨out, n, o1, o2, o3, o4⟩ := C118_truth f smallCase rfl hm (by simp [hf]) (by intro j hj; interval_cases j <;> norm_num [grid, List.range_succ]) r.B hB (smallEnv fit) _ _ hp smallBins hfit
    (1 / 2) (2 / 1000) hk headFit_scaled r' hr' (by rw [hB', div_self hB.ne']) 0
  refine ⟨f, smallEnv fit, out, n, r.B, hB, o1, o2, ?_, o4⟩
  rw [o3]
  exact small_trueNld

end Ompy
