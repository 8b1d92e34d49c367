import Verif.RhoSigChiLemmas
import Mathlib.Algebra.BigOperators.Field

/-!
# Properties of the rhosigchi iteration (C42, C52)
-/

namespace Ompy

/-! ## Specification: one update, on rows as functions of the bin number -/

/-- The data of the fit as mathematics: `F`, `E` the spectra and their uncertainties, `lo`, `hi` the
gamma limits, `[a, b)` the excitation bins and `u` the offset of the level density axis. -/
structure RscSpec where
  F : ℤ → ℤ → ℚ
  E : ℤ → ℤ → ℚ
  lo : ℤ
  hi : ℤ → ℤ
  a : ℤ
  b : ℤ
  u : ℤ

namespace RscSpec

/-- Unnormalised strength of row `x`. -/
def S (p : RscSpec) (ρ σ : ℤ → ℚ) (x : ℤ) : ℚ := ∑ g ∈ Finset.Ico p.lo (p.hi x), σ g * ρ (x - g + p.u)

/-- Gradient part common to a row. -/
def G (p : RscSpec) (ρ σ : ℤ → ℚ) (x : ℤ) : ℚ :=
  if p.S ρ σ x > 0 then
    (∑ g ∈ Finset.Ico p.lo (p.hi x),
      if p.E x g > 0 then (σ g * ρ (x - g + p.u) / p.E x g) ^ 2 else 0) / p.S ρ σ x ^ 3 -
    (∑ g ∈ Finset.Ico p.lo (p.hi x),
      if p.E x g > 0 then σ g * ρ (x - g + p.u) * p.F x g / p.E x g ^ 2 else 0) / p.S ρ σ x ^ 2
  else 0

/-- Numerator weight of the pair `(x, g)`; zero outside the fit region. -/
def N (p : RscSpec) (ρ σ : ℤ → ℚ) (x g : ℤ) : ℚ :=
  if (p.a ≤ x ∧ x < p.b) ∧ p.lo ≤ g ∧ g < p.hi x then
    if p.S ρ σ x * p.E x g > 0 then p.G ρ σ x + p.F x g / (p.S ρ σ x * p.E x g ^ 2) else 0
  else 0

/-- Denominator weight of the pair `(x, g)`; zero outside the fit region. -/
def D (p : RscSpec) (ρ σ : ℤ → ℚ) (x g : ℤ) : ℚ :=
  if (p.a ≤ x ∧ x < p.b) ∧ p.lo ≤ g ∧ g < p.hi x then
    if p.S ρ σ x * p.E x g > 0 then 1 / (p.S ρ σ x * p.E x g) ^ 2 else 0
  else 0

def sigUp (p : RscSpec) (ρ σ : ℤ → ℚ) (g : ℤ) : ℚ :=
  ∑ x ∈ Finset.Ico (max p.a g) p.b, ρ (x - g + p.u) * p.N ρ σ x g
def sigDown (p : RscSpec) (ρ σ : ℤ → ℚ) (g : ℤ) : ℚ :=
  ∑ x ∈ Finset.Ico (max p.a g) p.b, ρ (x - g + p.u) * ρ (x - g + p.u) * p.D ρ σ x g
def rhoUp (p : RscSpec) (ρ σ : ℤ → ℚ) (k : ℤ) : ℚ :=
  ∑ x ∈ Finset.Ico (max p.a k) p.b, σ (x - k + p.u) * p.N ρ σ x (x - k + p.u)
def rhoDown (p : RscSpec) (ρ σ : ℤ → ℚ) (k : ℤ) : ℚ :=
  ∑ x ∈ Finset.Ico (max p.a k) p.b,
    σ (x - k + p.u) * σ (x - k + p.u) * p.D ρ σ x (x - k + p.u)

end RscSpec

/-- `new` is the quotient `up/down` brought into `[old/var, old·var]`, or 0 without data. -/
def Limited (var old up down new : ℚ) : Prop :=
  (down ≤ 0 ∧ new = 0) ∨ (0 < down ∧ new = max (old / var) (min (old * var) (up / down)))

/-- The factor allowed in iteration `it`, as tabulated in the sources. -/
def AllowedFactor (it : ℤ) (var : ℚ) : Prop :=
  (it ≤ 5 → var = 12 / 10) ∧ (5 < it → it ≤ 12 → var = 11 / 10) ∧
  (12 < it → it ≤ 21 → var = 105 / 100) ∧ (21 < it → it ≤ 30 → var = 1025 / 1000) ∧
  (30 < it → var = 101 / 100)

theorem rscVar_allowed (it : ℤ) : AllowedFactor it (rscVar it) := by
  unfold AllowedFactor rscVar
  refine ⟨?_, ?_, ?_, ?_, ?_⟩
  · intro h; rw [if_pos h]
  · intro h h1; rw [if_neg (by omega), if_pos h1]
  · intro h h1; rw [if_neg (by omega), if_neg (by omega), if_pos h1]
  · intro h h1; rw [if_neg (by omega), if_neg (by omega), if_neg (by omega), if_pos h1]
  · intro h; rw [if_neg (by omega), if_neg (by omega), if_neg (by omega), if_neg (by omega)]

theorem rscVar_gt_one (it : ℤ) : 1 < rscVar it := by
  unfold rscVar
  split_ifs <;> norm_num

theorem clampStep_limited {var x : ℚ} (up down : ℚ) (hv : 1 < var) (hx : 0 ≤ x) :
    Limited var x up down (clampStep var x up down) := by
  unfold Limited clampStep
  have h0 : x / var ≤ x * var := by
    rw [div_le_iff₀ (by linarith)]
    nlinarith [mul_nonneg hx (by linarith : (0:ℚ) ≤ var)]
  by_cases hd : down > 0
  · right
    rw [if_pos hd]
    refine ⟨hd, ?_⟩
    by_cases h1 : up / down > var * x
    · rw [if_pos h1, min_eq_left (by rw [mul_comm]; exact h1.le), max_eq_right h0, mul_comm]
    · rw [if_neg h1]
      push Not at h1
      rw [min_eq_right (by rw [mul_comm]; exact h1)]
      by_cases h2 : up / down < x / var
      · rw [if_pos h2, max_eq_left h2.le]
      · rw [if_neg h2]
        push Not at h2
        rw [max_eq_right h2]
  · left
    rw [if_neg hd]
    exact ⟨not_lt.1 hd, rfl⟩

theorem clampStep_nonneg {var x : ℚ} (up down : ℚ) (hv : 1 < var) (hx : 0 ≤ x) :
    0 ≤ clampStep var x up down := by
  rcases clampStep_limited up down hv hx with ⟨_, h⟩ | ⟨_, h⟩
  · rw [h]
  · rw [h]
    exact le_trans (div_nonneg hx (by linarith)) (le_max_left _ _)

/-! ## Non-negativity for every input that returns -/

theorem sigStep_keeps {acc : Access} {p : RscIn} {rho : CArr} {nd : CArr × CArr} {it : ℤ}
    (s : CArr) (ig : ℤ) (s' : CArr) (hs : s.Nonneg)
    (h : p.sigStep acc rho nd it s ig = .ok s') : s'.Nonneg := by
  unfold RscIn.sigStep at h
  simp only [bind, Except.bind] at h
  split at h
  · simp at h
  · split at h
    · simp at h
    · rename_i down _
      split at h
      · split at h
        · simp at h
        · rename_i x hx
          exact hs.set (clampStep_nonneg _ _ (rscVar_gt_one it) (hs.get hx)) h
      · exact hs.set (clampStep_nonneg _ _ (rscVar_gt_one it) le_rfl) h

theorem rhoStep_keeps {acc : Access} {p : RscIn} {sig : CArr} {nd : CArr × CArr} {it : ℤ}
    (s : CArr) (ig : ℤ) (s' : CArr) (hs : s.Nonneg)
    (h : p.rhoStep acc sig nd it s ig = .ok s') : s'.Nonneg := by
  unfold RscIn.rhoStep at h
  simp only [bind, Except.bind] at h
  split at h
  · simp at h
  · split at h
    · simp at h
    · rename_i down _
      split at h
      · split at h
        · simp at h
        · rename_i x hx
          exact hs.set (clampStep_nonneg _ _ (rscVar_gt_one it) (hs.get hx)) h
      · exact hs.set (clampStep_nonneg _ _ (rscVar_gt_one it) le_rfl) h

/-- C42: whatever the spectra, uncertainties, limits and offsets (even such that indices leave their
rows), for the C++ and the Python version: if `rho` and `sig` start non-negative, every element of
every iterate is non-negative. -/
theorem C42_nonneg (acc : Access) (p : RscIn) (rho sig : CArr) (nit : ℕ) (rho' sig' : CArr)
    (hr : rho.Nonneg) (hs : sig.Nonneg) (h : p.iterate acc rho sig nit = .ok (rho', sig')) :
    rho'.Nonneg ∧ sig'.Nonneg := by
  refine foldlM_keeps (P := fun st : CArr × CArr => st.1.Nonneg ∧ st.2.Nonneg) ?_ ⟨hr, hs⟩ h
  intro st it st' hst he
  unfold RscIn.oneIter at he
  simp only [bind, Except.bind] at he
  split at he
  · simp at he
  · split at he
    · simp at he
    · rename_i s hsig
      split at he
      · simp at he
      · rename_i r hrho
        simp only [pure, Except.pure, Except.ok.injEq] at he
        rw [← he]
        exact ⟨foldlM_keeps rhoStep_keeps hst.1 hrho, foldlM_keeps sigStep_keeps hst.2 hsig⟩

/-! ## The recurrence -/

/-- The arrays have the sizes `pyrhosigchi` gives them and no spectrum reaches more than `iu0` bins
beyond the diagonal. -/
structure RscIn.Fits (p : RscIn) (rho sig : CArr) (nit : ℕ) : Prop where
  jmin : 0 ≤ p.jmin
  igmin : 0 ≤ p.igmin
  iu0 : 0 ≤ p.iu0
  igmax : p.jmax ≤ p.igmax.length
  maxig : ∀ g ∈ p.igmax, g ≤ p.jmax + p.iu0
  fgx : p.jmax ≤ p.FgN.nx
  fgy : ∀ g ∈ p.igmax, g ≤ p.FgN.ny
  sfgx : p.jmax ≤ p.sFgN.nx
  sfgy : ∀ g ∈ p.igmax, g ≤ p.sFgN.ny
  rhox : rho.nx = nit
  rhoy : (rho.ny : ℤ) = p.jmax - p.igmin + p.iu0
  sigx : sig.nx = nit
  sigy : (sig.ny : ℤ) = p.jmax + p.iu0
  reach : ∀ ix, p.jmin ≤ ix → ix < p.jmax → p.igmax.getD ix.toNat 0 ≤ ix + p.iu0 + 1

/-- The mathematical data of an input. -/
def RscIn.spec (p : RscIn) : RscSpec where
  F := p.FgN.el
  E := p.sFgN.el
  lo := p.igmin
  hi x := p.igmax.getD x.toNat 0
  a := p.jmin
  b := p.jmax
  u := p.iu0

/-- Row `i` as a function of the bin number. -/
def CArr.row (a : CArr) (i : ℤ) : ℤ → ℚ := fun j => a.el i j

theorem foldl_max_ge (l : List ℤ) : ∀ a : ℤ, a ≤ l.foldl max a ∧ ∀ g ∈ l, g ≤ l.foldl max a := by
  induction l with
  | nil => simp
  | cons x l ih =>
    intro a
    obtain ⟨h1, h2⟩ := ih (max a x)
    simp only [List.foldl_cons, List.mem_cons]
    refine ⟨le_trans (le_max_left _ _) h1, ?_⟩
    rintro g (rfl | hg)
    · exact le_trans (le_max_right _ _) h1
    · exact h2 g hg

theorem foldl_max_le (l : List ℤ) (b : ℤ) :
    ∀ a : ℤ, a ≤ b → (∀ g ∈ l, g ≤ b) → l.foldl max a ≤ b := by
  induction l with
  | nil => simp
  | cons x l ih =>
    intro a h1 h2
    simp only [List.foldl_cons]
    exact ih _ (max_le h1 (h2 x (by simp))) fun g hg => h2 g (by simp [hg])

namespace RscIn

variable {p : RscIn} {acc : Access} {rho sig : CArr} {nit : ℕ} {it : ℤ}

theorem Fits.ny_nonneg (h : p.Fits rho sig nit) : 0 ≤ p.jmax + p.iu0 := by
  have := h.sigy; omega

theorem Fits.maxig_le (h : p.Fits rho sig nit) : p.maxig ≤ p.jmax + p.iu0 := by
  unfold RscIn.maxig
  apply foldl_max_le _ _ _ _ h.maxig
  cases hl : p.igmax with
  | nil => simpa using h.ny_nonneg
  | cons x l => exact h.maxig x (by simp [hl])

theorem Fits.sizeUse (h : p.Fits rho sig nit) : p.sizeUse = p.jmax + p.iu0 := by
  unfold RscIn.sizeUse
  rw [if_neg (not_lt.2 h.maxig_le)]

theorem Fits.mem (h : p.Fits rho sig nit) {ix : ℤ} (h1 : p.jmin ≤ ix) (h2 : ix < p.jmax) :
    p.igmax.getD ix.toNat 0 ∈ p.igmax := by
  have := h.igmax; have := h.jmin
  rw [List.getD_eq_getElem _ _ (by omega)]
  exact List.getElem_mem _

theorem Fits.le_maxig (h : p.Fits rho sig nit) {ix : ℤ} (h1 : p.jmin ≤ ix) (h2 : ix < p.jmax) :
    p.igmax.getD ix.toNat 0 ≤ p.maxig := (foldl_max_ge _ _).2 _ (h.mem h1 h2)

theorem igmaxAt_ok (ha : acc.Right) (h : p.Fits rho sig nit) {ix : ℤ} (h1 : p.jmin ≤ ix)
    (h2 : ix < p.jmax) : p.igmaxAt acc ix = .ok (p.igmax.getD ix.toNat 0) := by
  unfold igmaxAt
  have := h.igmax; have := h.jmin
  rw [ha.vec _ _ (by omega) (by omega)]
  rfl

/-- Everything read in the fit region is inside its array. -/
theorem Fits.region (h : p.Fits rho sig nit) (h1 : 1 ≤ it) (h2 : it < nit) {ix ig : ℤ}
    (hx : p.jmin ≤ ix) (hx1 : ix < p.jmax) (hg : p.igmin ≤ ig) (hg1 : ig < p.igmax.getD ix.toNat 0) :
    sig.inside (it - 1) ig ∧ rho.inside (it - 1) (ix - ig + p.iu0) ∧ p.FgN.inside ix ig ∧
      p.sFgN.inside ix ig := by
  have a1 := h.maxig _ (h.mem hx hx1); have a2 := h.fgy _ (h.mem hx hx1)
  have a3 := h.sfgy _ (h.mem hx hx1); have a4 := h.reach ix hx hx1
  have a5 := h.jmin; have a6 := h.igmin; have a7 := h.iu0; have a8 := h.fgx; have a9 := h.sfgx
  have b1 := h.rhox; have b2 := h.rhoy; have b3 := h.sigx; have b4 := h.sigy
  refine ⟨⟨?_, ?_, ?_, ?_⟩, ⟨?_, ?_, ?_, ?_⟩, ⟨?_, ?_, ?_, ?_⟩, ⟨?_, ?_, ?_, ?_⟩⟩ <;> omega

theorem funs_ok (ha : acc.Right) (h : p.Fits rho sig nit) (h1 : 1 ≤ it) (h2 : it < nit) {ix : ℤ}
    (hx : p.jmin ≤ ix) (hx1 : ix < p.jmax) :
    ∃ f, p.funs acc rho sig it ix = .ok f ∧ f.1 = p.spec.S (rho.row (it - 1)) (sig.row (it - 1)) ix ∧
      f.2.1 - f.2.2 = p.spec.G (rho.row (it - 1)) (sig.row (it - 1)) ix := by
  have a1 := h.jmin; have a2 := h.igmax
  have sr : ∀ ig, p.igmin ≤ ig → ig < p.igmax.getD ix.toNat 0 →
      (do
        let s ← sig.get acc.arr (it - 1) ig
        let r ← rho.get acc.arr (it - 1) (ix - ig + p.iu0)
        pure (s * r) : Except Err ℚ) =
      .ok (sig.row (it - 1) ig * rho.row (it - 1) (ix - ig + p.iu0)) := by
    intro ig hg hg1
    obtain ⟨i1, i2, _, _⟩ := h.region h1 h2 hx hx1 hg hg1
    rw [CArr.get_inside ha.arr i1, CArr.get_inside ha.arr i2]
    rfl
  unfold funs
  rw [ha.vec _ _ (by omega) (by omega), igmaxAt_ok ha h hx hx1]
  simp only [Except.bind, bind] at sr ⊢
  rw [sumM_range sr]
  simp only
  rw [sumM_range (g := fun ig => if p.sFgN.el ix ig > 0 then
      (sig.row (it - 1) ig * rho.row (it - 1) (ix - ig + p.iu0) / p.sFgN.el ix ig) ^ 2 else 0)]
  · simp only
    rw [sumM_range (g := fun ig => if p.sFgN.el ix ig > 0 then
        sig.row (it - 1) ig * rho.row (it - 1) (ix - ig + p.iu0) * p.FgN.el ix ig /
          p.sFgN.el ix ig ^ 2 else 0)]
    · simp only
      unfold RscSpec.G
      have hS : p.spec.S (rho.row (it - 1)) (sig.row (it - 1)) ix =
        ∑ g ∈ Finset.Ico p.igmin (p.igmax.getD ix.toNat 0),
          sig.row (it - 1) g * rho.row (it - 1) (ix - g + p.iu0) := rfl
      rw [hS]
      by_cases hs : ∑ g ∈ Finset.Ico p.igmin (p.igmax.getD ix.toNat 0),
          sig.row (it - 1) g * rho.row (it - 1) (ix - g + p.iu0) > 0
      · rw [if_pos hs, if_pos hs]
        exact ⟨_, rfl, rfl, rfl⟩
      · rw [if_neg hs, if_neg hs]
        exact ⟨_, rfl, rfl, by simp⟩
    · intro ig hg hg1
      obtain ⟨_, _, i3, i4⟩ := h.region h1 h2 hx hx1 hg hg1
      rw [CArr.get_inside ha.arr i4]
      simp only
      by_cases he : p.sFgN.el ix ig > 0
      · rw [if_pos he, if_pos he, sr ig hg hg1, CArr.get_inside ha.arr i3]
        rfl
      · rw [if_neg he, if_neg he]; rfl
  · intro ig hg hg1
    obtain ⟨_, _, i3, i4⟩ := h.region h1 h2 hx hx1 hg hg1
    rw [CArr.get_inside ha.arr i4]
    simp only
    by_cases he : p.sFgN.el ix ig > 0
    · rw [if_pos he, if_pos he, sr ig hg hg1]
      rfl
    · rw [if_neg he, if_neg he]; rfl

/-- The scratch matrices hold the weights of the specification in the rows done so far. -/
theorem nomRow_fold (ha : acc.Right) (h : p.Fits rho sig nit) (h1 : 1 ≤ it) (h2 : it < nit) :
    ∀ {l : List ℤ} {nd : CArr × CArr}, (∀ ix ∈ l, p.jmin ≤ ix ∧ ix < p.jmax) →
    nd.1.nx = (p.jmax + p.iu0).toNat → nd.1.ny = (p.jmax + p.iu0).toNat →
    nd.2.nx = (p.jmax + p.iu0).toNat → nd.2.ny = (p.jmax + p.iu0).toNat →
    ∃ nd', l.foldlM (p.nomRow acc rho sig it) nd = .ok nd' ∧
      nd'.1.nx = (p.jmax + p.iu0).toNat ∧ nd'.1.ny = (p.jmax + p.iu0).toNat ∧
      nd'.2.nx = (p.jmax + p.iu0).toNat ∧ nd'.2.ny = (p.jmax + p.iu0).toNat ∧
      ∀ x g, 0 ≤ x → x < p.jmax + p.iu0 → 0 ≤ g → g < p.jmax + p.iu0 →
        (nd'.1.el x g = if x ∈ l ∧ p.igmin ≤ g ∧ g < p.spec.hi x then
          p.spec.N (rho.row (it - 1)) (sig.row (it - 1)) x g else nd.1.el x g) ∧
        (nd'.2.el x g = if x ∈ l ∧ p.igmin ≤ g ∧ g < p.spec.hi x then
          p.spec.D (rho.row (it - 1)) (sig.row (it - 1)) x g else nd.2.el x g)
  | [], nd, _, d1, d2, d3, d4 => ⟨nd, rfl, d1, d2, d3, d4, by simp⟩
  | ix :: l, nd, hl, d1, d2, d3, d4 => by
    obtain ⟨hx, hx1⟩ := hl ix (by simp)
    have b0 := h.ny_nonneg
    have b1 := h.iu0
    have b2 := h.jmin
    have b3 := h.igmin
    have b4 := h.maxig _ (h.mem hx hx1)
    obtain ⟨f, hf, f1, f2⟩ := funs_ok ha h h1 h2 hx hx1
    have row : ∃ nd1, p.nomRow acc rho sig it nd ix = .ok nd1 ∧
        nd1.1.nx = nd.1.nx ∧ nd1.1.ny = nd.1.ny ∧ nd1.2.nx = nd.1.nx ∧ nd1.2.ny = nd.1.ny ∧
        ∀ i' j', nd.1.inside i' j' →
          nd1.1.el i' j' = (if i' = ix ∧ j' ∈ rangeZ p.igmin (p.igmax.getD ix.toNat 0) then
            p.spec.N (rho.row (it - 1)) (sig.row (it - 1)) ix j' else nd.1.el i' j') ∧
          nd1.2.el i' j' = if i' = ix ∧ j' ∈ rangeZ p.igmin (p.igmax.getD ix.toNat 0) then
            p.spec.D (rho.row (it - 1)) (sig.row (it - 1)) ix j' else nd.2.el i' j' := by
      unfold nomRow
      rw [hf, igmaxAt_ok ha h hx hx1]
      refine foldlM_row2 (it := ix) (v := fun j => p.spec.N (rho.row (it - 1)) (sig.row (it - 1)) ix j)
        (w := fun j => p.spec.D (rho.row (it - 1)) (sig.row (it - 1)) ix j) (by omega) (by omega)
        ?_ ?_
      · intro j hj
        rw [mem_rangeZ] at hj
        refine ⟨?_, ?_, ?_, ?_⟩ <;> omega
      · intro a ig hj a1 a2 a3 a4
        rw [mem_rangeZ] at hj
        obtain ⟨_, _, i3, i4⟩ := h.region h1 h2 hx hx1 hj.1 hj.2
        have in1 : a.1.inside ix ig := by refine ⟨?_, ?_, ?_, ?_⟩ <;> omega
        have in2 : a.2.inside ix ig := by refine ⟨?_, ?_, ?_, ?_⟩ <;> omega
        have reg : (p.spec.a ≤ ix ∧ ix < p.spec.b) ∧ p.spec.lo ≤ ig ∧ ig < p.spec.hi ix :=
          ⟨⟨hx, hx1⟩, hj.1, hj.2⟩
        rw [CArr.get_inside ha.arr i4, CArr.get_inside ha.arr i3]
        simp only [bind, Except.bind]
        unfold RscSpec.N RscSpec.D
        rw [if_pos reg, if_pos reg, ← f1, ← f2]
        by_cases hp : f.1 * p.sFgN.el ix ig > 0
        · have hp' : f.1 * p.spec.E ix ig > 0 := hp
          rw [if_pos hp, if_pos hp', if_pos hp', CArr.set_inside ha.scratch in1,
            CArr.set_inside ha.scratch in2]
          rfl
        · have hp' : ¬ f.1 * p.spec.E ix ig > 0 := hp
          rw [if_neg hp, if_neg hp', if_neg hp', CArr.set_inside ha.scratch in1,
            CArr.set_inside ha.scratch in2]
          rfl
    obtain ⟨nd1, hn, e1, e2, e3, e4, he⟩ := row
    obtain ⟨nd2, hn2, g1, g2, g3, g4, he2⟩ := nomRow_fold ha h h1 h2 (l := l) (nd := nd1)
      (fun k hk => hl k (by simp [hk])) (by omega) (by omega) (by omega) (by omega)
    refine ⟨nd2, ?_, g1, g2, g3, g4, ?_⟩
    · rw [List.foldlM_cons, hn]; exact hn2
    · intro x g k1 k2 k3 k4
      obtain ⟨q1, q2⟩ := he2 x g k1 k2 k3 k4
      have ins : nd.1.inside x g := by refine ⟨?_, ?_, ?_, ?_⟩ <;> omega
      obtain ⟨r1, r2⟩ := he x g ins
      rw [q1, q2, r1, r2]
      by_cases hg : p.igmin ≤ g ∧ g < p.spec.hi x
      · by_cases hxl : x ∈ l
        · simp [hxl, hg]
        · by_cases hxx : x = ix
          · have hg' : p.igmin ≤ g ∧ g < p.igmax.getD x.toNat 0 := hg
            have hm : g ∈ rangeZ p.igmin (p.igmax.getD x.toNat 0) := mem_rangeZ.2 hg'
            subst hxx
            have n1 : ¬ (x ∈ l ∧ p.igmin ≤ g ∧ g < p.spec.hi x) := fun hc => hxl hc.1
            have n2 : x ∈ x :: l ∧ p.igmin ≤ g ∧ g < p.spec.hi x := ⟨by simp, hg⟩
            have n3 : x = x ∧ g ∈ rangeZ p.igmin (p.igmax.getD x.toNat 0) := ⟨rfl, hm⟩
            exact ⟨by rw [if_neg n1, if_pos n3, if_pos n2], by rw [if_neg n1, if_pos n3, if_pos n2]⟩
          · simp [hxl, hxx]
      · have hm : ¬ (x = ix ∧ g ∈ rangeZ p.igmin (p.igmax.getD ix.toNat 0)) := by
          rintro ⟨rfl, hc⟩
          exact hg (mem_rangeZ.1 hc)
        have n1 : ¬ (x ∈ l ∧ p.igmin ≤ g ∧ g < p.spec.hi x) := fun hc => hg hc.2
        have n2 : ¬ (x ∈ ix :: l ∧ p.igmin ≤ g ∧ g < p.spec.hi x) := fun hc => hg hc.2
        simp only [if_neg n1, if_neg n2, if_neg hm, and_self]

theorem noms_ok (ha : acc.Right) (h : p.Fits rho sig nit) (h1 : 1 ≤ it) (h2 : it < nit) :
    ∃ nd, p.noms acc rho sig it = .ok nd ∧
      nd.1.nx = (p.jmax + p.iu0).toNat ∧ nd.1.ny = (p.jmax + p.iu0).toNat ∧
      nd.2.nx = (p.jmax + p.iu0).toNat ∧ nd.2.ny = (p.jmax + p.iu0).toNat ∧
      ∀ x g, 0 ≤ x → x < p.jmax + p.iu0 → 0 ≤ g → g < p.jmax + p.iu0 →
        nd.1.el x g = p.spec.N (rho.row (it - 1)) (sig.row (it - 1)) x g ∧
        nd.2.el x g = p.spec.D (rho.row (it - 1)) (sig.row (it - 1)) x g := by
  obtain ⟨nd, hn, e1, e2, e3, e4, he⟩ := nomRow_fold ha h h1 h2 (l := rangeZ p.jmin p.jmax)
    (nd := (CArr.zeros (p.jmax + p.iu0).toNat (p.jmax + p.iu0).toNat,
      CArr.zeros (p.jmax + p.iu0).toNat (p.jmax + p.iu0).toNat))
    (fun ix hx => mem_rangeZ.1 hx) rfl rfl rfl rfl
  refine ⟨nd, ?_, e1, e2, e3, e4, ?_⟩
  · unfold noms
    rw [h.sizeUse]; exact hn
  · intro x g k1 k2 k3 k4
    obtain ⟨q1, q2⟩ := he x g k1 k2 k3 k4
    rw [q1, q2]
    unfold RscSpec.N RscSpec.D
    simp only [mem_rangeZ]
    have z1 : ∀ n, (CArr.zeros n n).el x g = 0 := fun _ => rfl
    by_cases hr : (p.jmin ≤ x ∧ x < p.jmax) ∧ p.igmin ≤ g ∧ g < p.spec.hi x
    · have hr' : (p.spec.a ≤ x ∧ x < p.spec.b) ∧ p.spec.lo ≤ g ∧ g < p.spec.hi x := hr
      rw [if_pos hr, if_pos hr]
      simp only [if_pos hr', and_self]
    · have hr' : ¬ ((p.spec.a ≤ x ∧ x < p.spec.b) ∧ p.spec.lo ≤ g ∧ g < p.spec.hi x) := hr
      rw [if_neg hr, if_neg hr, z1, if_neg hr', if_neg hr']
      exact ⟨rfl, rfl⟩

/-- One iteration writes row `it` of both arrays from row `it - 1`, and nothing else. -/
theorem oneIter_ok (ha : acc.Right) (h : p.Fits rho sig nit) (h1 : 1 ≤ it) (h2 : it < nit) :
    ∃ rho' sig', p.oneIter acc (rho, sig) it = .ok (rho', sig') ∧
      rho'.nx = rho.nx ∧ rho'.ny = rho.ny ∧ sig'.nx = sig.nx ∧ sig'.ny = sig.ny ∧
      (∀ i j, rho.inside i j → rho'.el i j = if i = it then
        clampStep (rscVar it) (rho.el (it - 1) j)
          (p.spec.rhoUp (rho.row (it - 1)) (sig.row (it - 1)) j)
          (p.spec.rhoDown (rho.row (it - 1)) (sig.row (it - 1)) j) else rho.el i j) ∧
      (∀ i j, sig.inside i j → sig'.el i j = if i = it ∧ p.igmin ≤ j ∧ j < p.maxig then
        clampStep (rscVar it) (sig.el (it - 1) j)
          (p.spec.sigUp (rho.row (it - 1)) (sig.row (it - 1)) j)
          (p.spec.sigDown (rho.row (it - 1)) (sig.row (it - 1)) j) else sig.el i j) := by
  obtain ⟨nd, hn, e1, e2, e3, e4, he⟩ := noms_ok ha h h1 h2
  have c0 := h.ny_nonneg
  have c1 := h.jmin; have c2 := h.igmin; have c3 := h.iu0; have c4 := h.maxig_le
  have c5 := h.rhox; have c6 := h.rhoy; have c7 := h.sigx; have c8 := h.sigy
  have hnd : ∀ x g, 0 ≤ x → x < p.jmax + p.iu0 → 0 ≤ g → g < p.jmax + p.iu0 →
      nd.1.get acc.scratch x g = .ok (p.spec.N (rho.row (it - 1)) (sig.row (it - 1)) x g) ∧
      nd.2.get acc.scratch x g = .ok (p.spec.D (rho.row (it - 1)) (sig.row (it - 1)) x g) := by
    intro x g k1 k2 k3 k4
    have i1 : nd.1.inside x g := by refine ⟨?_, ?_, ?_, ?_⟩ <;> omega
    have i2 : nd.2.inside x g := by refine ⟨?_, ?_, ?_, ?_⟩ <;> omega
    rw [CArr.get_inside ha.scratch i1, CArr.get_inside ha.scratch i2, (he x g k1 k2 k3 k4).1,
      (he x g k1 k2 k3 k4).2]
    exact ⟨rfl, rfl⟩
  obtain ⟨sig', hs, s1, s2, s3⟩ := foldlM_row (it := it) (a0 := sig)
    (l := rangeZ p.igmin p.maxig) (step := p.sigStep acc rho nd it)
    (v := fun j => clampStep (rscVar it) (sig.el (it - 1) j)
      (p.spec.sigUp (rho.row (it - 1)) (sig.row (it - 1)) j)
      (p.spec.sigDown (rho.row (it - 1)) (sig.row (it - 1)) j))
    (by
      intro j hj
      rw [mem_rangeZ] at hj
      refine ⟨?_, ?_, ?_, ?_⟩ <;> omega)
    (by
      intro a g hg a1 a2 a3
      rw [mem_rangeZ] at hg
      unfold sigStep
      rw [sumM_range (g := fun x => rho.row (it - 1) (x - g + p.iu0) *
        p.spec.N (rho.row (it - 1)) (sig.row (it - 1)) x g)]
      · simp only [bind, Except.bind]
        rw [sumM_range (g := fun x => rho.row (it - 1) (x - g + p.iu0) *
          rho.row (it - 1) (x - g + p.iu0) *
          p.spec.D (rho.row (it - 1)) (sig.row (it - 1)) x g)]
        · simp only
          have i1 : a.inside (it - 1) g := by refine ⟨?_, ?_, ?_, ?_⟩ <;> omega
          have i1' : sig.inside (it - 1) g := by refine ⟨?_, ?_, ?_, ?_⟩ <;> omega
          have i2 : a.inside it g := by refine ⟨?_, ?_, ?_, ?_⟩ <;> omega
          rw [CArr.get_inside ha.arr i1, a3 _ _ i1' (by omega)]
          have hv : ∀ y, (y = sig.el (it - 1) g ∨
              ¬ p.spec.sigDown (rho.row (it - 1)) (sig.row (it - 1)) g > 0) →
              a.set acc.arr it g (clampStep (rscVar it) y
                (p.spec.sigUp (rho.row (it - 1)) (sig.row (it - 1)) g)
                (p.spec.sigDown (rho.row (it - 1)) (sig.row (it - 1)) g)) =
              .ok (a.put it g (clampStep (rscVar it) (sig.el (it - 1) g)
                (p.spec.sigUp (rho.row (it - 1)) (sig.row (it - 1)) g)
                (p.spec.sigDown (rho.row (it - 1)) (sig.row (it - 1)) g))) := by
            intro y hy
            rw [CArr.set_inside ha.arr i2]
            rcases hy with rfl | hy
            · rfl
            · unfold clampStep
              rw [if_neg hy, if_neg hy]
          by_cases hd : p.spec.sigDown (rho.row (it - 1)) (sig.row (it - 1)) g > 0
          · refine (if_pos hd).trans ?_
            exact hv _ (Or.inl rfl)
          · refine (if_neg hd).trans ?_
            exact hv _ (Or.inr hd)
        · intro x hx hx1
          have i1 : rho.inside (it - 1) (x - g + p.iu0) := by
            refine ⟨?_, ?_, ?_, ?_⟩ <;> omega
          rw [CArr.get_inside ha.arr i1, (hnd x g (by omega) (by omega) (by omega) (by omega)).2]
          rfl
      · intro x hx hx1
        have i1 : rho.inside (it - 1) (x - g + p.iu0) := by
          refine ⟨?_, ?_, ?_, ?_⟩ <;> omega
        rw [CArr.get_inside ha.arr i1, (hnd x g (by omega) (by omega) (by omega) (by omega)).1]
        rfl)
  have srow : ∀ j : ℤ, 0 ≤ j → j < sig.ny → sig'.el (it - 1) j = sig.el (it - 1) j := by
    intro j k1 k2
    rw [s3 (it - 1) j (by refine ⟨?_, ?_, ?_, ?_⟩ <;> omega), if_neg (by rintro ⟨hc, _⟩; omega)]
  obtain ⟨rho', hr, r1, r2, r3⟩ := foldlM_row (it := it) (a0 := rho)
    (l := rangeZ 0 (p.jmax - p.igmin + p.iu0)) (step := p.rhoStep acc sig' nd it)
    (v := fun j => clampStep (rscVar it) (rho.el (it - 1) j)
      (p.spec.rhoUp (rho.row (it - 1)) (sig.row (it - 1)) j)
      (p.spec.rhoDown (rho.row (it - 1)) (sig.row (it - 1)) j))
    (by
      intro j hj
      rw [mem_rangeZ] at hj
      refine ⟨?_, ?_, ?_, ?_⟩ <;> omega)
    (by
      intro a k hk a1 a2 a3
      rw [mem_rangeZ] at hk
      have hs' : ∀ x, max p.jmin k ≤ x → x < p.jmax →
          sig'.get acc.arr (it - 1) (x - k + p.iu0) =
            .ok (sig.row (it - 1) (x - k + p.iu0)) := by
        intro x hx hx1
        have i1 : sig'.inside (it - 1) (x - k + p.iu0) := by
          refine ⟨?_, ?_, ?_, ?_⟩ <;> omega
        rw [CArr.get_inside ha.arr i1, srow _ (by omega) (by omega)]
        rfl
      unfold rhoStep
      rw [sumM_range (g := fun x => sig.row (it - 1) (x - k + p.iu0) *
        p.spec.N (rho.row (it - 1)) (sig.row (it - 1)) x (x - k + p.iu0))]
      · simp only [bind, Except.bind]
        rw [sumM_range (g := fun x => sig.row (it - 1) (x - k + p.iu0) *
          sig.row (it - 1) (x - k + p.iu0) *
          p.spec.D (rho.row (it - 1)) (sig.row (it - 1)) x (x - k + p.iu0))]
        · simp only
          have i1 : a.inside (it - 1) k := by refine ⟨?_, ?_, ?_, ?_⟩ <;> omega
          have i1' : rho.inside (it - 1) k := by refine ⟨?_, ?_, ?_, ?_⟩ <;> omega
          have i2 : a.inside it k := by refine ⟨?_, ?_, ?_, ?_⟩ <;> omega
          rw [CArr.get_inside ha.arr i1, a3 _ _ i1' (by omega)]
          have hv : ∀ y, (y = rho.el (it - 1) k ∨
              ¬ p.spec.rhoDown (rho.row (it - 1)) (sig.row (it - 1)) k > 0) →
              a.set acc.arr it k (clampStep (rscVar it) y
                (p.spec.rhoUp (rho.row (it - 1)) (sig.row (it - 1)) k)
                (p.spec.rhoDown (rho.row (it - 1)) (sig.row (it - 1)) k)) =
              .ok (a.put it k (clampStep (rscVar it) (rho.el (it - 1) k)
                (p.spec.rhoUp (rho.row (it - 1)) (sig.row (it - 1)) k)
                (p.spec.rhoDown (rho.row (it - 1)) (sig.row (it - 1)) k))) := by
            intro y hy
            rw [CArr.set_inside ha.arr i2]
            rcases hy with rfl | hy
            · rfl
            · unfold clampStep
              rw [if_neg hy, if_neg hy]
          by_cases hd : p.spec.rhoDown (rho.row (it - 1)) (sig.row (it - 1)) k > 0
          · refine (if_pos hd).trans ?_
            exact hv _ (Or.inl rfl)
          · refine (if_neg hd).trans ?_
            exact hv _ (Or.inr hd)
        · intro x hx hx1
          rw [hs' x hx hx1,
            (hnd x (x - k + p.iu0) (by omega) (by omega) (by omega) (by omega)).2]
          rfl
      · intro x hx hx1
        rw [hs' x hx hx1,
          (hnd x (x - k + p.iu0) (by omega) (by omega) (by omega) (by omega)).1]
        rfl)
  refine ⟨rho', sig', ?_, r1, r2, s1, s2, ?_, ?_⟩
  · unfold oneIter
    rw [hn]
    simp only [bind, Except.bind] at hs hr ⊢
    rw [hs]
    simp only
    rw [hr]
    rfl
  · intro i j hj
    rw [r3 i j hj]
    have : j ∈ rangeZ 0 (p.jmax - p.igmin + p.iu0) := by
      rw [mem_rangeZ]
      exact ⟨hj.2.2.1, by have := hj.2.2.2; omega⟩
    simp [this]
  · intro i j hj
    rw [s3 i j hj]
    simp only [mem_rangeZ]

end RscIn

theorem rangeZ_succ {lo hi : ℤ} (h : lo ≤ hi) : rangeZ lo (hi + 1) = rangeZ lo hi ++ [hi] := by
  unfold rangeZ
  have : (hi + 1 - lo).toNat = (hi - lo).toNat + 1 := by omega
  rw [this, List.range_succ, List.map_append, List.map_singleton]
  congr 2
  omega

/-- The relation between consecutive rows that the iteration establishes. -/
def RscIn.Rows (p : RscIn) (rho sig : CArr) (it : ℤ) : Prop :=
  (∀ j : ℤ, 0 ≤ j → j < rho.ny → rho.el it j = clampStep (rscVar it) (rho.el (it - 1) j)
    (p.spec.rhoUp (rho.row (it - 1)) (sig.row (it - 1)) j)
    (p.spec.rhoDown (rho.row (it - 1)) (sig.row (it - 1)) j)) ∧
  ∀ j : ℤ, p.igmin ≤ j → j < p.maxig → sig.el it j = clampStep (rscVar it) (sig.el (it - 1) j)
    (p.spec.sigUp (rho.row (it - 1)) (sig.row (it - 1)) j)
    (p.spec.sigDown (rho.row (it - 1)) (sig.row (it - 1)) j)

theorem RscSpec.congr (p : RscIn) {ρ ρ' σ σ' : ℤ → ℚ} {nρ nσ : ℤ} (rho sig : CArr) (nit : ℕ)
    (h : p.Fits rho sig nit) (hρ : nρ = rho.ny) (hσ : nσ = sig.ny)
    (h1 : ∀ j : ℤ, 0 ≤ j → j < nρ → ρ j = ρ' j) (h2 : ∀ j : ℤ, 0 ≤ j → j < nσ → σ j = σ' j) :
    (∀ x, p.jmin ≤ x → x < p.jmax → p.spec.S ρ σ x = p.spec.S ρ' σ' x ∧
      p.spec.G ρ σ x = p.spec.G ρ' σ' x) ∧
    (∀ x g, p.spec.N ρ σ x g = p.spec.N ρ' σ' x g ∧ p.spec.D ρ σ x g = p.spec.D ρ' σ' x g) := by
  have c1 := h.jmin; have c2 := h.igmin; have c3 := h.iu0; have c4 := h.maxig_le
  have c6 := h.rhoy; have c8 := h.sigy
  have first : ∀ x, p.jmin ≤ x → x < p.jmax → p.spec.S ρ σ x = p.spec.S ρ' σ' x ∧
      p.spec.G ρ σ x = p.spec.G ρ' σ' x := by
    intro x hx hx1
    have b1 := h.reach x hx hx1
    have b2 := h.maxig _ (h.mem hx hx1)
    have el : ∀ g ∈ Finset.Ico p.spec.lo (p.spec.hi x), σ g = σ' g ∧
        ρ (x - g + p.spec.u) = ρ' (x - g + p.spec.u) := by
      intro g hg
      rw [Finset.mem_Ico] at hg
      simp only [RscIn.spec] at hg ⊢
      exact ⟨h2 g (by omega) (by omega), h1 _ (by omega) (by omega)⟩
    have hS : p.spec.S ρ σ x = p.spec.S ρ' σ' x := by
      unfold RscSpec.S
      apply Finset.sum_congr rfl
      intro g hg
      rw [(el g hg).1, (el g hg).2]
    refine ⟨hS, ?_⟩
    unfold RscSpec.G
    rw [hS]
    have e1 : (∑ g ∈ Finset.Ico p.spec.lo (p.spec.hi x),
        if p.spec.E x g > 0 then (σ g * ρ (x - g + p.spec.u) / p.spec.E x g) ^ 2 else 0) =
        ∑ g ∈ Finset.Ico p.spec.lo (p.spec.hi x),
        if p.spec.E x g > 0 then (σ' g * ρ' (x - g + p.spec.u) / p.spec.E x g) ^ 2 else 0 := by
      apply Finset.sum_congr rfl
      intro g hg
      rw [(el g hg).1, (el g hg).2]
    have e2 : (∑ g ∈ Finset.Ico p.spec.lo (p.spec.hi x), if p.spec.E x g > 0 then
          σ g * ρ (x - g + p.spec.u) * p.spec.F x g / p.spec.E x g ^ 2 else 0) =
        ∑ g ∈ Finset.Ico p.spec.lo (p.spec.hi x), if p.spec.E x g > 0 then
          σ' g * ρ' (x - g + p.spec.u) * p.spec.F x g / p.spec.E x g ^ 2 else 0 := by
      apply Finset.sum_congr rfl
      intro g hg
      rw [(el g hg).1, (el g hg).2]
    rw [e1, e2]
  refine ⟨first, ?_⟩
  intro x g
  unfold RscSpec.N RscSpec.D
  by_cases hr : (p.spec.a ≤ x ∧ x < p.spec.b) ∧ p.spec.lo ≤ g ∧ g < p.spec.hi x
  · obtain ⟨e1, e2⟩ := first x hr.1.1 hr.1.2
    rw [e1, e2]
    exact ⟨rfl, rfl⟩
  · simp only [if_neg hr, and_self]

theorem RscIn.Rows.congr {p : RscIn} {rho sig rho' sig' : CArr} {nit : ℕ} {it : ℤ}
    (h : p.Fits rho sig nit) (hx : rho'.ny = rho.ny)
    (h1 : ∀ i, i = it ∨ i = it - 1 → ∀ j : ℤ, 0 ≤ j → j < rho.ny → rho'.el i j = rho.el i j)
    (h2 : ∀ i, i = it ∨ i = it - 1 → ∀ j : ℤ, 0 ≤ j → j < sig.ny → sig'.el i j = sig.el i j)
    (hr : p.Rows rho sig it) : p.Rows rho' sig' it := by
  have c1 := h.jmin; have c2 := h.igmin; have c3 := h.iu0; have c4 := h.maxig_le
  have c6 := h.rhoy; have c8 := h.sigy
  obtain ⟨_, hc⟩ := RscSpec.congr p (ρ := rho'.row (it - 1)) (ρ' := rho.row (it - 1))
    (σ := sig'.row (it - 1)) (σ' := sig.row (it - 1)) rho sig nit h rfl rfl
    (fun j k1 k2 => h1 _ (Or.inr rfl) j k1 k2) (fun j k1 k2 => h2 _ (Or.inr rfl) j k1 k2)
  constructor
  · intro j k1 k2
    rw [hx] at k2
    rw [h1 _ (Or.inl rfl) j k1 k2, h1 _ (Or.inr rfl) j k1 k2, hr.1 j k1 k2]
    have es : ∀ x ∈ Finset.Ico (max p.spec.a j) p.spec.b,
        sig.row (it - 1) (x - j + p.spec.u) = sig'.row (it - 1) (x - j + p.spec.u) := by
      intro x hx
      rw [Finset.mem_Ico] at hx
      simp only [RscIn.spec] at hx ⊢
      exact (h2 _ (Or.inr rfl) _ (by omega) (by omega)).symm
    congr 1
    · unfold RscSpec.rhoUp
      apply Finset.sum_congr rfl
      intro x hx
      rw [es x hx, (hc _ _).1]
    · unfold RscSpec.rhoDown
      apply Finset.sum_congr rfl
      intro x hx
      rw [es x hx, (hc _ _).2]
  · intro j k1 k2
    rw [h2 _ (Or.inl rfl) j (by omega) (by omega), h2 _ (Or.inr rfl) j (by omega) (by omega),
      hr.2 j k1 k2]
    have es : ∀ x ∈ Finset.Ico (max p.spec.a j) p.spec.b,
        rho.row (it - 1) (x - j + p.spec.u) = rho'.row (it - 1) (x - j + p.spec.u) := by
      intro x hx
      rw [Finset.mem_Ico] at hx
      simp only [RscIn.spec] at hx ⊢
      exact (h1 _ (Or.inr rfl) _ (by omega) (by omega)).symm
    congr 1
    · unfold RscSpec.sigUp
      apply Finset.sum_congr rfl
      intro x hx
      rw [es x hx, (hc _ _).1]
    · unfold RscSpec.sigDown
      apply Finset.sum_congr rfl
      intro x hx
      rw [es x hx, (hc _ _).2]

theorem iterate_upto {p : RscIn} {acc : Access} {rho sig : CArr} {nit : ℕ} (ha : acc.Right)
    (h : p.Fits rho sig nit) (n : ℕ) (hn : n + 1 ≤ nit) :
    ∃ rho' sig', (rangeZ 1 (n + 1 : ℕ)).foldlM (p.oneIter acc) (rho, sig) = .ok (rho', sig') ∧
      p.Fits rho' sig' nit ∧ rho'.ny = rho.ny ∧ sig'.ny = sig.ny ∧
      (∀ it : ℤ, 1 ≤ it → it ≤ n → p.Rows rho' sig' it) ∧
      (∀ j : ℤ, 0 ≤ j → j < rho.ny → rho'.el 0 j = rho.el 0 j) ∧
      (∀ i j, sig.inside i j → i = 0 ∨ j < p.igmin ∨ p.maxig ≤ j → sig'.el i j = sig.el i j) := by
  induction n with
  | zero =>
    refine ⟨rho, sig, by simp [rangeZ, pure, Except.pure], h, rfl, rfl, ?_, ?_, ?_⟩
    · intro it h1 h2; omega
    · intro j _ _; rfl
    · intro i j _ _; rfl
  | succ n ih =>
    obtain ⟨rho1, sig1, he, hf, d1, d2, hrows, h0, hs0⟩ := ih (by omega)
    obtain ⟨rho2, sig2, he2, x1, x2, x3, x4, hr, hs⟩ :=
      RscIn.oneIter_ok ha hf (it := (n + 1 : ℕ)) (by omega) (by omega)
    have hf2 : p.Fits rho2 sig2 nit :=
      { hf with
        rhox := by rw [x1]; exact hf.rhox
        rhoy := by rw [x2]; exact hf.rhoy
        sigx := by rw [x3]; exact hf.sigx
        sigy := by rw [x4]; exact hf.sigy }
    have c2 := hf.igmin; have c4 := hf.maxig_le; have c8 := hf.sigy
    refine ⟨rho2, sig2, ?_, hf2, by rw [x2, d1], by rw [x4, d2], ?_, ?_, ?_⟩
    · have e : ((n + 1 + 1 : ℕ) : ℤ) = ((n + 1 : ℕ) : ℤ) + 1 := by push_cast; ring
      rw [e, rangeZ_succ (by omega), List.foldlM_append, he]
      simp only [bind, Except.bind, List.foldlM_cons, List.foldlM_nil]
      rw [he2]
      rfl
    · intro it k1 k2
      have k3 := hf.rhox; have k4 := hf.sigx
      by_cases hit : it ≤ n
      · refine RscIn.Rows.congr hf x2 ?_ ?_ (hrows it k1 hit)
        · intro i hi j j1 j2
          rw [hr i j ⟨by omega, by omega, j1, j2⟩, if_neg (by omega)]
        · intro i hi j j1 j2
          rw [hs i j ⟨by omega, by omega, j1, j2⟩, if_neg (by rintro ⟨hc, _⟩; omega)]
      · have hit' : it = (n + 1 : ℕ) := by omega
        have r1 : ∀ j : ℤ, 0 ≤ j → j < rho1.ny → rho2.row (it - 1) j = rho1.row (it - 1) j := by
          intro j j1 j2
          unfold CArr.row
          rw [hr (it - 1) j ⟨by omega, by omega, j1, j2⟩, if_neg (by omega)]
        have r2 : ∀ j : ℤ, 0 ≤ j → j < sig1.ny → sig2.row (it - 1) j = sig1.row (it - 1) j := by
          intro j j1 j2
          unfold CArr.row
          rw [hs (it - 1) j ⟨by omega, by omega, j1, j2⟩, if_neg (by rintro ⟨hc, _⟩; omega)]
        obtain ⟨_, hc⟩ := RscSpec.congr p rho1 sig1 nit hf rfl rfl r1 r2
        have c1 := hf.jmin; have c3 := hf.iu0; have c6 := hf.rhoy
        constructor
        · intro j j1 j2
          rw [x2] at j2
          rw [hr it j ⟨by omega, by omega, j1, j2⟩, if_pos hit']
          rw [← hit']
          have : rho2.el (it - 1) j = rho1.el (it - 1) j := r1 j j1 j2
          rw [this]
          have es : ∀ x ∈ Finset.Ico (max p.spec.a j) p.spec.b,
              sig1.row (it - 1) (x - j + p.spec.u) = sig2.row (it - 1) (x - j + p.spec.u) := by
            intro x hx
            rw [Finset.mem_Ico] at hx
            simp only [RscIn.spec] at hx ⊢
            exact (r2 _ (by omega) (by omega)).symm
          congr 1
          · unfold RscSpec.rhoUp
            apply Finset.sum_congr rfl
            intro x hx
            rw [es x hx, (hc _ _).1]
          · unfold RscSpec.rhoDown
            apply Finset.sum_congr rfl
            intro x hx
            rw [es x hx, (hc _ _).2]
        · intro j j1 j2
          rw [hs it j ⟨by omega, by omega, by omega, by omega⟩, if_pos ⟨hit', j1, j2⟩]
          rw [← hit']
          have : sig2.el (it - 1) j = sig1.el (it - 1) j := r2 j (by omega) (by omega)
          rw [this]
          have es : ∀ x ∈ Finset.Ico (max p.spec.a j) p.spec.b,
              rho1.row (it - 1) (x - j + p.spec.u) = rho2.row (it - 1) (x - j + p.spec.u) := by
            intro x hx
            rw [Finset.mem_Ico] at hx
            simp only [RscIn.spec] at hx ⊢
            exact (r1 _ (by omega) (by omega)).symm
          congr 1
          · unfold RscSpec.sigUp
            apply Finset.sum_congr rfl
            intro x hx
            rw [es x hx, (hc _ _).1]
          · unfold RscSpec.sigDown
            apply Finset.sum_congr rfl
            intro x hx
            rw [es x hx, (hc _ _).2]
    · intro j j1 j2
      have k3 := hf.rhox
      rw [hr 0 j ⟨by omega, by omega, j1, by omega⟩, if_neg (by omega), h0 j j1 j2]
    · intro i j hij hor
      have hij1 : sig1.inside i j := by
        have k4 := hf.sigx; have k5 := h.sigx
        unfold CArr.inside at *
        omega
      rw [hs i j hij1, if_neg, hs0 i j hij hor]
      rintro ⟨a1, a2, a3⟩
      omega

/-- The iteration ends and its rows satisfy the recurrence. -/
theorem iterate_rows {p : RscIn} {acc : Access} {rho sig : CArr} {nit : ℕ} (ha : acc.Right)
    (h : p.Fits rho sig nit) (hn : 1 ≤ nit) :
    ∃ rho' sig', p.iterate acc rho sig nit = .ok (rho', sig') ∧
      p.Fits rho' sig' nit ∧ rho'.ny = rho.ny ∧ sig'.ny = sig.ny ∧
      (∀ it : ℤ, 1 ≤ it → it < nit → p.Rows rho' sig' it) ∧
      (∀ j : ℤ, 0 ≤ j → j < rho.ny → rho'.el 0 j = rho.el 0 j) ∧
      (∀ i j, sig.inside i j → i = 0 ∨ j < p.igmin ∨ p.maxig ≤ j → sig'.el i j = sig.el i j) := by
  obtain ⟨r, s, h1, h2, h3, h4, h5, h6, h7⟩ := iterate_upto ha h (nit - 1) (by omega)
  rw [Nat.sub_add_cancel hn] at h1
  exact ⟨r, s, h1, h2, h3, h4, fun it k1 k2 => h5 it k1 (by omega), h6, h7⟩

theorem Limited.gradual {var old up down new : ℚ} (hv : 1 < var) (ho : 0 ≤ old)
    (h : Limited var old up down new) : new = 0 ∨ (old / var ≤ new ∧ new ≤ old * var) := by
  rcases h with ⟨_, h⟩ | ⟨_, h⟩
  · exact Or.inl h
  · right
    rw [h]
    refine ⟨le_max_left _ _, max_le ?_ (min_le_left _ _)⟩
    rw [div_le_iff₀ (by linarith)]
    nlinarith [mul_nonneg ho (by linarith : (0:ℚ) ≤ var)]

/-- C42: with arrays of the sizes used by `pyrhosigchi`, both versions end, and in every iteration
each element of the level density and each element of the transmission coefficient that is iterated
is set to 0 or changed by at most the factor tabulated for that iteration; the first row and the
elements of `sig` outside the limits are left as they were. -/
theorem C42_gradual (acc : Access) (hacc : acc = cppAccess ∨ acc = pyAccess) (p : RscIn)
    (rho sig : CArr) (nit : ℕ) (hn : 1 ≤ nit) (h : p.Fits rho sig nit)
    (hr : rho.Nonneg) (hs : sig.Nonneg) :
    ∃ rho' sig', p.iterate acc rho sig nit = .ok (rho', sig') ∧
      (∀ j : ℤ, 0 ≤ j → j < rho.ny → rho'.el 0 j = rho.el 0 j) ∧
      (∀ i j, sig.inside i j → i = 0 ∨ j < p.igmin ∨ p.maxig ≤ j → sig'.el i j = sig.el i j) ∧
      ∀ it : ℤ, 1 ≤ it → it < nit → ∀ var, AllowedFactor it var →
        (∀ j : ℤ, 0 ≤ j → j < rho.ny → rho'.el it j = 0 ∨
          (rho'.el (it - 1) j / var ≤ rho'.el it j ∧ rho'.el it j ≤ rho'.el (it - 1) j * var)) ∧
        (∀ j : ℤ, p.igmin ≤ j → j < p.maxig → sig'.el it j = 0 ∨
          (sig'.el (it - 1) j / var ≤ sig'.el it j ∧ sig'.el it j ≤ sig'.el (it - 1) j * var)) := by
  have ha : acc.Right := by
    rcases hacc with rfl | rfl
    · exact cppAccess_right
    · exact pyAccess_right
  obtain ⟨r, s, h1, h2, h3, h4, h5, h6, h7⟩ := iterate_rows ha h hn
  obtain ⟨nr, ns⟩ := C42_nonneg acc p rho sig nit r s hr hs h1
  refine ⟨r, s, h1, h6, h7, ?_⟩
  intro it k1 k2 var hvar
  have hv : var = rscVar it := by
    obtain ⟨a1, a2, a3, a4, a5⟩ := hvar
    obtain ⟨b1, b2, b3, b4, b5⟩ := rscVar_allowed it
    by_cases c1 : it ≤ 5
    · rw [a1 c1, b1 c1]
    · by_cases c2 : it ≤ 12
      · rw [a2 (by omega) c2, b2 (by omega) c2]
      · by_cases c3 : it ≤ 21
        · rw [a3 (by omega) c3, b3 (by omega) c3]
        · by_cases c4 : it ≤ 30
          · rw [a4 (by omega) c4, b4 (by omega) c4]
          · rw [a5 (by omega), b5 (by omega)]
  rw [hv]
  obtain ⟨q1, q2⟩ := h5 it k1 k2
  constructor
  · intro j j1 j2
    rw [q1 j j1 (by omega)]
    exact (clampStep_limited _ _ (rscVar_gt_one it) (nr _)).gradual (rscVar_gt_one it) (nr _)
  · intro j j1 j2
    rw [q2 j j1 j2]
    exact (clampStep_limited _ _ (rscVar_gt_one it) (ns _)).gradual (rscVar_gt_one it) (ns _)

/-- C42: each element follows the published recurrence: the least-squares quotient of row `it - 1`
brought into the allowed range, or 0 if no data constrain it. -/
theorem C42_recurrence (acc : Access) (hacc : acc = cppAccess ∨ acc = pyAccess) (p : RscIn)
    (rho sig : CArr) (nit : ℕ) (hn : 1 ≤ nit) (h : p.Fits rho sig nit)
    (hr : rho.Nonneg) (hs : sig.Nonneg) :
    ∃ rho' sig', p.iterate acc rho sig nit = .ok (rho', sig') ∧
      ∀ it : ℤ, 1 ≤ it → it < nit →
        (∀ j : ℤ, 0 ≤ j → j < rho.ny → Limited (rscVar it) (rho'.el (it - 1) j)
          (p.spec.rhoUp (rho'.row (it - 1)) (sig'.row (it - 1)) j)
          (p.spec.rhoDown (rho'.row (it - 1)) (sig'.row (it - 1)) j) (rho'.el it j)) ∧
        (∀ j : ℤ, p.igmin ≤ j → j < p.maxig → Limited (rscVar it) (sig'.el (it - 1) j)
          (p.spec.sigUp (rho'.row (it - 1)) (sig'.row (it - 1)) j)
          (p.spec.sigDown (rho'.row (it - 1)) (sig'.row (it - 1)) j) (sig'.el it j)) := by
  have ha : acc.Right := by
    rcases hacc with rfl | rfl
    · exact cppAccess_right
    · exact pyAccess_right
  obtain ⟨r, s, h1, h2, h3, h4, h5, h6, h7⟩ := iterate_rows ha h hn
  obtain ⟨nr, ns⟩ := C42_nonneg acc p rho sig nit r s hr hs h1
  refine ⟨r, s, h1, ?_⟩
  intro it k1 k2
  obtain ⟨q1, q2⟩ := h5 it k1 k2
  constructor
  · intro j j1 j2
    rw [q1 j j1 (by omega)]
    exact clampStep_limited _ _ (rscVar_gt_one it) (nr _)
  · intro j j1 j2
    rw [q2 j j1 j2]
    exact clampStep_limited _ _ (rscVar_gt_one it) (ns _)

/-! ## How the fit reacts to a change of gauge -/

theorem clampStep_scale {var x up down m : ℚ} (hm : 0 < m) :
    clampStep var (m * x) (up / m) (down / m ^ 2) = m * clampStep var x up down := by
  unfold clampStep
  have hm2 : 0 < m ^ 2 := by positivity
  by_cases hd : down > 0
  · have hd' : down / m ^ 2 > 0 := div_pos hd hm2
    have hq : up / m / (down / m ^ 2) = m * (up / down) := by
      field_simp
    rw [if_pos hd, if_pos hd', hq]
    by_cases h1 : up / down > var * x
    · rw [if_pos h1, if_pos (by nlinarith)]
      ring
    · rw [if_neg h1, if_neg (by intro hc; apply h1; nlinarith)]
      have hx : m * x / var = m * (x / var) := by ring
      rw [hx]
      by_cases h2 : up / down < x / var
      · rw [if_pos h2, if_pos (by nlinarith)]
      · rw [if_neg h2, if_neg (by intro hc; apply h2; exact lt_of_mul_lt_mul_left hc hm.le)]
  · have hd' : ¬ down / m ^ 2 > 0 := by
      intro hc
      apply hd
      have := mul_pos hc hm2
      rwa [div_mul_cancel₀ _ hm2.ne'] at this
    rw [if_neg hd, if_neg hd', mul_zero]

/-- Under the gauge transformation `ρ(k) → A tᵏ ρ(k)`, `σ(g) → B tᵍ σ(g)` row `x` is scaled by
`A B tˣ⁺ᵘ`, and the weights by its inverse and inverse square. -/
theorem RscSpec.gauge (p : RscIn) {ρ ρ' σ σ' : ℤ → ℚ} (rho sig : CArr) (nit : ℕ)
    (h : p.Fits rho sig nit) {A B t : ℚ} (hA : 0 < A) (hB : 0 < B) (ht : 0 < t)
    (h1 : ∀ j : ℤ, 0 ≤ j → j < rho.ny → ρ' j = A * t ^ j * ρ j)
    (h2 : ∀ j : ℤ, 0 ≤ j → j < sig.ny → σ' j = B * t ^ j * σ j) :
    ∀ x g, p.spec.N ρ' σ' x g = p.spec.N ρ σ x g / (A * B * t ^ (x + p.iu0)) ∧
      p.spec.D ρ' σ' x g = p.spec.D ρ σ x g / (A * B * t ^ (x + p.iu0)) ^ 2 := by
  have c1 := h.jmin; have c2 := h.igmin; have c3 := h.iu0; have c4 := h.maxig_le
  have c6 := h.rhoy; have c8 := h.sigy
  intro x g
  have hc : 0 < A * B * t ^ (x + p.iu0) := mul_pos (mul_pos hA hB) (zpow_pos ht _)
  unfold RscSpec.N RscSpec.D
  by_cases hr : (p.spec.a ≤ x ∧ x < p.spec.b) ∧ p.spec.lo ≤ g ∧ g < p.spec.hi x
  · rw [if_pos hr, if_pos hr, if_pos hr, if_pos hr]
    have hx : p.jmin ≤ x := hr.1.1
    have hx1 : x < p.jmax := hr.1.2
    have b1 := h.reach x hx hx1
    have b2 := h.maxig _ (h.mem hx hx1)
    have el : ∀ g ∈ Finset.Ico p.spec.lo (p.spec.hi x), σ' g * ρ' (x - g + p.spec.u) =
        A * B * t ^ (x + p.iu0) * (σ g * ρ (x - g + p.spec.u)) := by
      intro g hg
      rw [Finset.mem_Ico] at hg
      simp only [RscIn.spec] at hg ⊢
      rw [h1 _ (by omega) (by omega), h2 _ (by omega) (by omega)]
      have : t ^ (x + p.iu0) = t ^ g * t ^ (x - g + p.iu0) := by
        rw [← zpow_add₀ ht.ne']
        congr 1
        ring
      rw [this]
      ring
    set c := A * B * t ^ (x + p.iu0) with hcdef
    have hS : p.spec.S ρ' σ' x = c * p.spec.S ρ σ x := by
      unfold RscSpec.S
      rw [Finset.mul_sum]
      exact Finset.sum_congr rfl el
    have e1 : (∑ g ∈ Finset.Ico p.spec.lo (p.spec.hi x),
        if p.spec.E x g > 0 then (σ' g * ρ' (x - g + p.spec.u) / p.spec.E x g) ^ 2 else 0) =
        c ^ 2 * ∑ g ∈ Finset.Ico p.spec.lo (p.spec.hi x),
        if p.spec.E x g > 0 then (σ g * ρ (x - g + p.spec.u) / p.spec.E x g) ^ 2 else 0 := by
      rw [Finset.mul_sum]
      apply Finset.sum_congr rfl
      intro g hg
      rw [el g hg]
      split_ifs
      · ring
      · ring
    have e2 : (∑ g ∈ Finset.Ico p.spec.lo (p.spec.hi x), if p.spec.E x g > 0 then
          σ' g * ρ' (x - g + p.spec.u) * p.spec.F x g / p.spec.E x g ^ 2 else 0) =
        c * ∑ g ∈ Finset.Ico p.spec.lo (p.spec.hi x), if p.spec.E x g > 0 then
          σ g * ρ (x - g + p.spec.u) * p.spec.F x g / p.spec.E x g ^ 2 else 0 := by
      rw [Finset.mul_sum]
      apply Finset.sum_congr rfl
      intro g hg
      rw [el g hg]
      split_ifs
      · ring
      · ring
    have hG : p.spec.G ρ' σ' x = p.spec.G ρ σ x / c := by
      unfold RscSpec.G
      rw [e1, e2, hS]
      by_cases hp : p.spec.S ρ σ x > 0
      · rw [if_pos hp, if_pos (mul_pos hc hp)]
        field_simp
      · rw [if_neg hp, if_neg (by
          intro hq
          exact hp (pos_of_mul_pos_right hq hc.le))]
        simp
    rw [hS, hG]
    by_cases hp : p.spec.S ρ σ x * p.spec.E x g > 0
    · have hp' : c * p.spec.S ρ σ x * p.spec.E x g > 0 := by
        rw [mul_assoc]; exact mul_pos hc hp
      rw [if_pos hp, if_pos hp', if_pos hp, if_pos hp']
      have hS0 : p.spec.S ρ σ x ≠ 0 := by
        intro h0; rw [h0] at hp; simp at hp
      have hE0 : p.spec.E x g ≠ 0 := by
        intro h0; rw [h0] at hp; simp at hp
      constructor
      · field_simp
      · field_simp
    · have hp' : ¬ c * p.spec.S ρ σ x * p.spec.E x g > 0 := by
        rw [mul_assoc]
        intro hq
        exact hp (pos_of_mul_pos_right hq hc.le)
      rw [if_neg hp, if_neg hp', if_neg hp, if_neg hp']
      simp
  · rw [if_neg hr, if_neg hr, if_neg hr, if_neg hr]
    simp

/-- C53: the iteration respects the invariance of the Oslo method.  If one run starts from `ρ, σ`
and another, with either version of the code, from `A tᵏ ρ`, `B tᵍ σ`, all iterates are related by
the same transformation, so that the fitted product is that of the first run up to the row factors
that the normalisation removes. -/
theorem C53_gauge (acc acc' : Access) (hacc : acc = cppAccess ∨ acc = pyAccess)
    (hacc' : acc' = cppAccess ∨ acc' = pyAccess) (p : RscIn)
    (rho sig rho2 sig2 : CArr) (nit : ℕ) (hn : 1 ≤ nit) (h : p.Fits rho sig nit)
    (h' : p.Fits rho2 sig2 nit) (A B t : ℚ) (hA : 0 < A) (hB : 0 < B) (ht : 0 < t)
    (hr : ∀ j : ℤ, 0 ≤ j → j < rho.ny → rho2.el 0 j = A * t ^ j * rho.el 0 j)
    (hs : ∀ j : ℤ, 0 ≤ j → j < sig.ny → sig2.el 0 j = B * t ^ j * sig.el 0 j)
    (hz : ∀ i j : ℤ, sig.inside i j → 1 ≤ i → sig.el i j = 0 ∧ sig2.el i j = 0) :
    ∃ r s r2 s2, p.iterate acc rho sig nit = .ok (r, s) ∧
      p.iterate acc' rho2 sig2 nit = .ok (r2, s2) ∧
      ∀ it : ℤ, 0 ≤ it → it < nit →
        (∀ j : ℤ, 0 ≤ j → j < rho.ny → r2.el it j = A * t ^ j * r.el it j) ∧
        (∀ j : ℤ, 0 ≤ j → j < sig.ny → s2.el it j = B * t ^ j * s.el it j) := by
  have ha : acc.Right := by
    rcases hacc with rfl | rfl
    · exact cppAccess_right
    · exact pyAccess_right
  have ha' : acc'.Right := by
    rcases hacc' with rfl | rfl
    · exact cppAccess_right
    · exact pyAccess_right
  obtain ⟨r, s, h1, h2, h3, h4, h5, h6, h7⟩ := iterate_rows ha h hn
  obtain ⟨r2, s2, g1, g2, g3, g4, g5, g6, g7⟩ := iterate_rows ha' h' hn
  have c1 := h.jmin; have c2 := h.igmin; have c3 := h.iu0; have c4 := h.maxig_le
  have c6 := h.rhoy; have c8 := h.sigy; have d6 := h'.rhoy; have d8 := h'.sigy
  have c9 := h.sigx; have d9 := h'.sigx
  refine ⟨r, s, r2, s2, h1, g1, ?_⟩
  have main : ∀ n : ℕ, (n : ℤ) < nit →
      (∀ j : ℤ, 0 ≤ j → j < rho.ny → r2.el n j = A * t ^ j * r.el n j) ∧
      (∀ j : ℤ, 0 ≤ j → j < sig.ny → s2.el n j = B * t ^ j * s.el n j) := by
    intro n
    induction n with
    | zero =>
      intro hnn
      constructor
      · intro j j1 j2
        have := hr j j1 j2
        rw [Nat.cast_zero, h6 j j1 j2, g6 j j1 (by omega)]
        exact this
      · intro j j1 j2
        have := hs j j1 j2
        rw [Nat.cast_zero, h7 0 j ⟨by omega, by omega, by omega, by omega⟩ (Or.inl rfl),
          g7 0 j ⟨by omega, by omega, by omega, by omega⟩ (Or.inl rfl)]
        exact this
    | succ n ih =>
      intro hnn
      obtain ⟨i1, i2⟩ := ih (by omega)
      have e0 : ((n + 1 : ℕ) : ℤ) - 1 = n := by push_cast; ring
      obtain ⟨q1, q2⟩ := h5 (n + 1 : ℕ) (by omega) hnn
      obtain ⟨q1', q2'⟩ := g5 (n + 1 : ℕ) (by omega) hnn
      rw [e0] at q1 q2 q1' q2'
      have hg := RscSpec.gauge p (ρ := r.row n) (ρ' := r2.row n) (σ := s.row n) (σ' := s2.row n)
        rho sig nit h hA hB ht i1 i2
      constructor
      · intro j j1 j2
        rw [q1 j j1 (by omega), q1' j j1 (by omega), i1 j j1 j2]
        have hm : 0 < A * t ^ j := mul_pos hA (zpow_pos ht _)
        rw [← clampStep_scale hm]
        have hsx : ∀ x, max p.jmin j ≤ x → x < p.jmax → s2.row n (x - j + p.iu0) =
            B * t ^ (x - j + p.iu0) * s.row n (x - j + p.iu0) := by
          intro x k1 k2
          exact i2 _ (by omega) (by omega)
        have htx : ∀ x : ℤ, t ^ (x + p.iu0) = t ^ j * t ^ (x - j + p.iu0) := by
          intro x
          rw [← zpow_add₀ ht.ne']
          congr 1
          ring
        congr 1
        · unfold RscSpec.rhoUp
          rw [Finset.sum_div]
          apply Finset.sum_congr rfl
          intro x hx
          rw [Finset.mem_Ico] at hx
          simp only [RscIn.spec] at hx
          have hp1 := zpow_pos ht j
          have hp2 := zpow_pos ht (x - j + p.iu0)
          have := hsx x hx.1 hx.2
          rw [(hg _ _).1]
          simp only [RscIn.spec] at this ⊢
          rw [this, htx x]
          field_simp
        · unfold RscSpec.rhoDown
          rw [Finset.sum_div]
          apply Finset.sum_congr rfl
          intro x hx
          rw [Finset.mem_Ico] at hx
          simp only [RscIn.spec] at hx
          have hp1 := zpow_pos ht j
          have hp2 := zpow_pos ht (x - j + p.iu0)
          have := hsx x hx.1 hx.2
          rw [(hg _ _).2]
          simp only [RscIn.spec] at this ⊢
          rw [this, htx x]
          field_simp
      · intro j j1 j2
        by_cases hj : p.igmin ≤ j ∧ j < p.maxig
        · rw [q2 j hj.1 hj.2, q2' j hj.1 hj.2, i2 j j1 j2]
          have hm : 0 < B * t ^ j := mul_pos hB (zpow_pos ht _)
          rw [← clampStep_scale hm]
          have hsx : ∀ x, max p.jmin j ≤ x → x < p.jmax → r2.row n (x - j + p.iu0) =
              A * t ^ (x - j + p.iu0) * r.row n (x - j + p.iu0) := by
            intro x k1 k2
            exact i1 _ (by omega) (by omega)
          have htx : ∀ x : ℤ, t ^ (x + p.iu0) = t ^ j * t ^ (x - j + p.iu0) := by
            intro x
            rw [← zpow_add₀ ht.ne']
            congr 1
            ring
          congr 1
          · unfold RscSpec.sigUp
            rw [Finset.sum_div]
            apply Finset.sum_congr rfl
            intro x hx
            rw [Finset.mem_Ico] at hx
            simp only [RscIn.spec] at hx
            have hp1 := zpow_pos ht j
            have hp2 := zpow_pos ht (x - j + p.iu0)
            have := hsx x hx.1 hx.2
            rw [(hg _ _).1]
            simp only [RscIn.spec] at this ⊢
            rw [this, htx x]
            field_simp
          · unfold RscSpec.sigDown
            rw [Finset.sum_div]
            apply Finset.sum_congr rfl
            intro x hx
            rw [Finset.mem_Ico] at hx
            simp only [RscIn.spec] at hx
            have hp1 := zpow_pos ht j
            have hp2 := zpow_pos ht (x - j + p.iu0)
            have := hsx x hx.1 hx.2
            rw [(hg _ _).2]
            simp only [RscIn.spec] at this ⊢
            rw [this, htx x]
            field_simp
        · have in1 : sig.inside (n + 1 : ℕ) j := ⟨by omega, by omega, by omega, by omega⟩
          have in2 : sig2.inside (n + 1 : ℕ) j := ⟨by omega, by omega, by omega, by omega⟩
          rw [h7 _ j in1 (by omega), g7 _ j in2 (by omega), (hz _ j in1 (by omega)).1,
            (hz _ j in1 (by omega)).2, mul_zero]
  intro it k1 k2
  have := main it.toNat (by omega)
  rwa [Int.toNat_of_nonneg k1] at this

/-- C42: the C++ routine and its Python twin give the same rows from the same start. -/
theorem C42_agree (p : RscIn) (rho sig : CArr) (nit : ℕ) (hn : 1 ≤ nit) (h : p.Fits rho sig nit)
    (hz : ∀ i j : ℤ, sig.inside i j → 1 ≤ i → sig.el i j = 0) :
    ∃ r s r2 s2, p.iterate cppAccess rho sig nit = .ok (r, s) ∧
      p.iterate pyAccess rho sig nit = .ok (r2, s2) ∧
      ∀ it : ℤ, 0 ≤ it → it < nit →
        (∀ j : ℤ, 0 ≤ j → j < rho.ny → r2.el it j = r.el it j) ∧
        (∀ j : ℤ, 0 ≤ j → j < sig.ny → s2.el it j = s.el it j) := by
  obtain ⟨r, s, r2, s2, h1, h2, h3⟩ := C53_gauge cppAccess pyAccess (Or.inl rfl) (Or.inr rfl) p
    rho sig rho sig nit hn h h 1 1 1 one_pos one_pos one_pos (by simp) (by simp)
    (fun i j hi hj => ⟨hz i j hi hj, hz i j hi hj⟩)
  refine ⟨r, s, r2, s2, h1, h2, ?_⟩
  simpa using h3

/-! ## Exact data are a fixed point -/

theorem clampStep_fixed {var x down : ℚ} (hv : 1 < var) (hx : 0 ≤ x) (h : 0 < down ∨ x = 0) :
    clampStep var x (x * down) down = x := by
  unfold clampStep
  by_cases hd : down > 0
  · rw [if_pos hd, mul_div_cancel_right₀ _ hd.ne', if_neg (by nlinarith), if_neg]
    rw [not_lt, div_le_iff₀ (by linarith)]
    nlinarith
  · rw [if_neg hd]
    rcases h with h | h
    · exact absurd h hd
    · exact h.symm

/-- The pair of rows reproduces the spectra: each row of the data is the normalised product. -/
def RscSpec.Exact (p : RscSpec) (ρ σ : ℤ → ℚ) : Prop :=
  ∀ x g, p.a ≤ x → x < p.b → p.lo ≤ g → g < p.hi x →
    p.F x g * p.S ρ σ x = σ g * ρ (x - g + p.u)

theorem RscSpec.Exact.num {p : RscSpec} {ρ σ : ℤ → ℚ} (h : p.Exact ρ σ) (x g : ℤ) :
    p.N ρ σ x g = σ g * ρ (x - g + p.u) * p.D ρ σ x g := by
  unfold RscSpec.N RscSpec.D
  by_cases hr : (p.a ≤ x ∧ x < p.b) ∧ p.lo ≤ g ∧ g < p.hi x
  · rw [if_pos hr, if_pos hr]
    by_cases hp : p.S ρ σ x * p.E x g > 0
    · rw [if_pos hp, if_pos hp]
      have hS0 : p.S ρ σ x ≠ 0 := by
        intro h0; rw [h0] at hp; simp at hp
      have hE0 : p.E x g ≠ 0 := by
        intro h0; rw [h0] at hp; simp at hp
      have hG : p.G ρ σ x = 0 := by
        unfold RscSpec.G
        by_cases hs : p.S ρ σ x > 0
        · rw [if_pos hs]
          have : (∑ g ∈ Finset.Ico p.lo (p.hi x), if p.E x g > 0 then
              (σ g * ρ (x - g + p.u) / p.E x g) ^ 2 else 0) =
              p.S ρ σ x * ∑ g ∈ Finset.Ico p.lo (p.hi x), if p.E x g > 0 then
                σ g * ρ (x - g + p.u) * p.F x g / p.E x g ^ 2 else 0 := by
            rw [Finset.mul_sum]
            apply Finset.sum_congr rfl
            intro g hg
            rw [Finset.mem_Ico] at hg
            split_ifs with he
            · rw [← h x g hr.1.1 hr.1.2 hg.1 hg.2]
              ring
            · ring
          rw [this]
          field_simp
          ring
        · rw [if_neg hs]
      rw [hG, ← h x g hr.1.1 hr.1.2 hr.2.1 hr.2.2]
      field_simp
      ring
    · rw [if_neg hp, if_neg hp, mul_zero]
  · rw [if_neg hr, if_neg hr, mul_zero]

theorem RscSpec.Exact.sig {p : RscSpec} {ρ σ : ℤ → ℚ} (h : p.Exact ρ σ) (g : ℤ) :
    p.sigUp ρ σ g = σ g * p.sigDown ρ σ g := by
  unfold RscSpec.sigUp RscSpec.sigDown
  rw [Finset.mul_sum]
  apply Finset.sum_congr rfl
  intro x _
  rw [h.num x g]
  ring

theorem RscSpec.Exact.rho {p : RscSpec} {ρ σ : ℤ → ℚ} (h : p.Exact ρ σ) (k : ℤ) :
    p.rhoUp ρ σ k = ρ k * p.rhoDown ρ σ k := by
  unfold RscSpec.rhoUp RscSpec.rhoDown
  rw [Finset.mul_sum]
  apply Finset.sum_congr rfl
  intro x _
  rw [h.num x (x - k + p.u)]
  have : x - (x - k + p.u) + p.u = k := by ring
  rw [this]
  ring

/-- C52: spectra that are exactly the normalised product of the starting level density and
transmission coefficient are a fixed point: whatever the uncertainties, every iterate equals the
start, provided every bin that is not zero is constrained by some data. -/
theorem C52_fixed_point (acc : Access) (hacc : acc = cppAccess ∨ acc = pyAccess) (p : RscIn)
    (rho sig : CArr) (nit : ℕ) (hn : 1 ≤ nit) (h : p.Fits rho sig nit)
    (hr : rho.Nonneg) (hs : sig.Nonneg)
    (hex : p.spec.Exact (rho.row 0) (sig.row 0))
    (hcr : ∀ j : ℤ, 0 ≤ j → j < rho.ny →
      0 < p.spec.rhoDown (rho.row 0) (sig.row 0) j ∨ rho.el 0 j = 0)
    (hcs : ∀ j : ℤ, p.igmin ≤ j → j < p.maxig →
      0 < p.spec.sigDown (rho.row 0) (sig.row 0) j ∨ sig.el 0 j = 0)
    (hz : ∀ i j : ℤ, sig.inside i j → j < p.igmin ∨ p.maxig ≤ j → sig.el i j = sig.el 0 j) :
    ∃ r s, p.iterate acc rho sig nit = .ok (r, s) ∧
      ∀ it : ℤ, 0 ≤ it → it < nit →
        (∀ j : ℤ, 0 ≤ j → j < rho.ny → r.el it j = rho.el 0 j) ∧
        (∀ j : ℤ, 0 ≤ j → j < sig.ny → s.el it j = sig.el 0 j) := by
  have ha : acc.Right := by
    rcases hacc with rfl | rfl
    · exact cppAccess_right
    · exact pyAccess_right
  obtain ⟨r, s, h1, h2, h3, h4, h5, h6, h7⟩ := iterate_rows ha h hn
  have c1 := h.jmin; have c2 := h.igmin; have c3 := h.iu0; have c4 := h.maxig_le
  have c6 := h.rhoy; have c8 := h.sigy; have c9 := h.sigx
  refine ⟨r, s, h1, ?_⟩
  have main : ∀ n : ℕ, (n : ℤ) < nit →
      (∀ j : ℤ, 0 ≤ j → j < rho.ny → r.el n j = rho.el 0 j) ∧
      (∀ j : ℤ, 0 ≤ j → j < sig.ny → s.el n j = sig.el 0 j) := by
    intro n
    induction n with
    | zero =>
      intro hnn
      refine ⟨fun j j1 j2 => h6 j j1 j2, fun j j1 j2 => ?_⟩
      exact h7 0 j ⟨by omega, by omega, by omega, by omega⟩ (Or.inl rfl)
    | succ n ih =>
      intro hnn
      obtain ⟨i1, i2⟩ := ih (by omega)
      have e0 : ((n + 1 : ℕ) : ℤ) - 1 = n := by push_cast; ring
      obtain ⟨q1, q2⟩ := h5 (n + 1 : ℕ) (by omega) hnn
      rw [e0] at q1 q2
      obtain ⟨_, hc⟩ := RscSpec.congr p (ρ := r.row n) (ρ' := rho.row 0) (σ := s.row n)
        (σ' := sig.row 0) rho sig nit h rfl rfl i1 i2
      constructor
      · intro j j1 j2
        have es : ∀ x, max p.jmin j ≤ x → x < p.jmax →
            s.row n (x - j + p.iu0) = sig.row 0 (x - j + p.iu0) := by
          intro x k1 k2
          exact i2 _ (by omega) (by omega)
        have u1 : p.spec.rhoUp (r.row n) (s.row n) j = p.spec.rhoUp (rho.row 0) (sig.row 0) j := by
          unfold RscSpec.rhoUp
          apply Finset.sum_congr rfl
          intro x hx
          rw [Finset.mem_Ico] at hx
          have := es x hx.1 hx.2
          rw [(hc _ _).1]
          simp only [RscIn.spec] at this ⊢
          rw [this]
        have u2 : p.spec.rhoDown (r.row n) (s.row n) j =
            p.spec.rhoDown (rho.row 0) (sig.row 0) j := by
          unfold RscSpec.rhoDown
          apply Finset.sum_congr rfl
          intro x hx
          rw [Finset.mem_Ico] at hx
          have := es x hx.1 hx.2
          rw [(hc _ _).2]
          simp only [RscIn.spec] at this ⊢
          rw [this]
        rw [q1 j j1 (by omega), u1, u2, i1 j j1 j2, hex.rho]
        exact clampStep_fixed (rscVar_gt_one _) (hr _) (hcr j j1 j2)
      · intro j j1 j2
        by_cases hj : p.igmin ≤ j ∧ j < p.maxig
        · have es : ∀ x, max p.jmin j ≤ x → x < p.jmax →
              r.row n (x - j + p.iu0) = rho.row 0 (x - j + p.iu0) := by
            intro x k1 k2
            exact i1 _ (by omega) (by omega)
          have u1 : p.spec.sigUp (r.row n) (s.row n) j =
              p.spec.sigUp (rho.row 0) (sig.row 0) j := by
            unfold RscSpec.sigUp
            apply Finset.sum_congr rfl
            intro x hx
            rw [Finset.mem_Ico] at hx
            have := es x hx.1 hx.2
            rw [(hc _ _).1]
            simp only [RscIn.spec] at this ⊢
            rw [this]
          have u2 : p.spec.sigDown (r.row n) (s.row n) j =
              p.spec.sigDown (rho.row 0) (sig.row 0) j := by
            unfold RscSpec.sigDown
            apply Finset.sum_congr rfl
            intro x hx
            rw [Finset.mem_Ico] at hx
            have := es x hx.1 hx.2
            rw [(hc _ _).2]
            simp only [RscIn.spec] at this ⊢
            rw [this]
          rw [q2 j hj.1 hj.2, u1, u2, i2 j j1 j2, hex.sig]
          exact clampStep_fixed (rscVar_gt_one _) (hs _) (hcs j hj.1 hj.2)
        · have in1 : sig.inside (n + 1 : ℕ) j := ⟨by omega, by omega, by omega, by omega⟩
          rw [h7 _ j in1 (by omega), hz _ j in1 (by omega)]
  intro it k1 k2
  have := main it.toNat (by omega)
  rwa [Int.toNat_of_nonneg k1] at this

/-! ## Concrete runs -/

/-- An array from its rows. -/
def CArr.ofRows (ny : ℕ) (rows : List (List ℚ)) : CArr :=
  ⟨rows.length, ny, fun k => (rows.flatten).getD k 0⟩

/-- A small fit: two excitation bins, two gamma bins, offset 1. -/
def rscSample : RscIn where
  FgN := .ofRows 3 [[1/4, 3/4, 0], [1/2, 1/3, 1/6]]
  sFgN := .ofRows 3 [[1/10, 1/5, 1/9], [1/10, 1/10, 1/10]]
  jmin := 0
  jmax := 2
  igmin := 0
  igmax := [2, 3]
  iu0 := 1

def rscRho : CArr := .ofRows 3 [[1, 1, 1], [0, 0, 0], [0, 0, 0]]
def rscSig : CArr := .ofRows 3 [[3/4, 13/12, 1/6], [0, 0, 0], [0, 0, 0]]

theorem rscSample_fits : rscSample.Fits rscRho rscSig 3 where
  jmin := by decide
  igmin := by decide
  iu0 := by decide
  igmax := by decide
  maxig := by decide
  fgx := by decide
  fgy := by decide
  sfgx := by decide
  sfgy := by decide
  rhox := rfl
  rhoy := by decide
  sigx := rfl
  sigy := by decide
  reach := by
    intro ix h1 h2
    have h1' : (0 : ℤ) ≤ ix := h1
    have h2' : ix < 2 := h2
    have : ix = 0 ∨ ix = 1 := by omega
    rcases this with rfl | rfl <;> decide

/-- The sample run changes its elements. -/
example : (rscSample.iterate cppAccess rscRho rscSig 3).toOption.map
    (fun rs => (rs.1.el 2 0 = rs.1.el 0 0 ∧ rs.2.el 2 1 = rs.2.el 0 1 : Bool)) = some false := by
  decide +kernel

/-- C42: a spectrum that reaches more than `iu0` bins beyond the diagonal makes the C++ routine read
in front of the level density array, while the Python twin silently takes the last bin instead. -/
theorem C42_beyond_diagonal_fails :
    let p : RscIn := { rscSample with igmax := [3, 3] }
    (p.iterate cppAccess rscRho rscSig 2).map (fun _ => ()) = .error .undefined ∧
    ((p.iterate pyAccess rscRho rscSig 2).map fun rs => decide (rs.1.el 1 2 = 1)) = .ok false := by
  decide +kernel

/-- Spectra that are exactly the normalised products of `rscRho2` and `rscSig2`. -/
def rscExact : RscIn where
  FgN := .ofRows 4 [[0, 1, 0, 0], [0, 4/5, 1/5, 0], [0, 3/4, 1/4, 0]]
  sFgN := .ofRows 4 [[0, 1/10, 0, 0], [0, 1/10, 1/7, 0], [0, 1/5, 1/6, 0]]
  jmin := 0
  jmax := 3
  igmin := 1
  igmax := [2, 3, 3]
  iu0 := 1

def rscRho2 : CArr := .ofRows 3 [[1, 2, 3], [0, 0, 0], [0, 0, 0]]
def rscSig2 : CArr := .ofRows 4 [[0, 2, 1, 0], [0, 0, 0, 0], [0, 0, 0, 0]]

/-- The hypotheses of `C52_fixed_point` can be met by a fit with every bin in use, and the run does
keep its start. -/
example : rscExact.Fits rscRho2 rscSig2 3 ∧ rscExact.spec.Exact (rscRho2.row 0) (rscSig2.row 0) ∧
    (∀ j : ℤ, 0 ≤ j → j < rscRho2.ny →
      0 < rscExact.spec.rhoDown (rscRho2.row 0) (rscSig2.row 0) j ∨ rscRho2.el 0 j = 0) ∧
    (∀ j : ℤ, rscExact.igmin ≤ j → j < rscExact.maxig →
      0 < rscExact.spec.sigDown (rscRho2.row 0) (rscSig2.row 0) j ∨ rscSig2.el 0 j = 0) := by
  refine ⟨?_, ?_, ?_, ?_⟩
  · constructor
    case reach =>
      intro ix h1 h2
      have h1' : (0 : ℤ) ≤ ix := h1
      have h2' : ix < 3 := h2
      have : ix = 0 ∨ ix = 1 ∨ ix = 2 := by omega
      rcases this with rfl | rfl | rfl <;> decide
    all_goals decide
  · intro x g h1 h2 h3 h4
    have h1' : (0 : ℤ) ≤ x := h1
    have h2' : x < 3 := h2
    have h3' : (1 : ℤ) ≤ g := h3
    have : x = 0 ∨ x = 1 ∨ x = 2 := by omega
    rcases this with rfl | rfl | rfl
    · have h4' : g < 2 := h4
      have : g = 1 := by omega
      subst this; decide +kernel
    · have h4' : g < 3 := h4
      have : g = 1 ∨ g = 2 := by omega
      rcases this with rfl | rfl <;> decide +kernel
    · have h4' : g < 3 := h4
      have : g = 1 ∨ g = 2 := by omega
      rcases this with rfl | rfl <;> decide +kernel
  · intro j h1 h2
    have h2' : j < 3 := h2
    have : j = 0 ∨ j = 1 ∨ j = 2 := by omega
    rcases this with rfl | rfl | rfl <;> decide +kernel
  · intro j h1 h2
    have h1' : 1 ≤ j := h1
    have h2' : j < 3 := h2
    have : j = 1 ∨ j = 2 := by omega
    rcases this with rfl | rfl <;> decide +kernel

/-- C52: not without the condition on the data: with `igmin < iu0` (gamma bins of negative energy)
the update of the level density skips rows that do constrain it, and a bin that reproduces the data
exactly is set to 0. -/
theorem C52_low_gamma_fails :
    let p : RscIn := { rscSample with FgN := .ofRows 3 [[9/22, 13/22, 0], [3/8, 13/24, 1/12]] }
    p.spec.Exact (rscRho.row 0) (rscSig.row 0) ∧
    ((p.iterate cppAccess rscRho rscSig 2).map fun rs => decide (rs.1.el 0 2 = 1 ∧ rs.1.el 1 2 = 0)) =
      .ok true := by
  constructor
  · intro x g h1 h2 h3 h4
    have h1' : (0 : ℤ) ≤ x := h1
    have h2' : x < 2 := h2
    have h3' : (0 : ℤ) ≤ g := h3
    have : x = 0 ∨ x = 1 := by omega
    rcases this with rfl | rfl
    · have h4' : g < 2 := h4
      have : g = 0 ∨ g = 1 := by omega
      rcases this with rfl | rfl <;> decide +kernel
    · have h4' : g < 3 := h4
      have : g = 0 ∨ g = 1 ∨ g = 2 := by omega
      rcases this with rfl | rfl | rfl <;> decide +kernel
  · decide +kernel

/-- A gauge transformed start for the sample of `C53_gauge`. -/
example : ∀ j ∈ [(0 : ℤ), 1, 2], (CArr.ofRows 3 [[3, 6, 12], [0, 0, 0], [0, 0, 0]]).el 0 j =
    3 * (2 : ℚ) ^ j * rscRho.el 0 j := by
  decide +kernel

end Ompy
