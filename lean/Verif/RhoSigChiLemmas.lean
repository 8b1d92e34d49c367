import Verif.RhoSigChi
import Mathlib.Algebra.Order.BigOperators.Ring.Finset
import Mathlib.Order.Interval.Finset.Basic
import Mathlib.Data.Int.Interval

/-!
# Lemmas on the rhosigchi loops
-/

namespace Ompy

theorem mem_rangeZ {lo hi i : ℤ} : i ∈ rangeZ lo hi ↔ lo ≤ i ∧ i < hi := by
  unfold rangeZ
  simp only [List.mem_map, List.mem_range]
  constructor
  · rintro ⟨k, hk, rfl⟩
    omega
  · intro h
    exact ⟨(i - lo).toNat, by omega, by omega⟩

theorem rangeZ_nodup (lo hi : ℤ) : (rangeZ lo hi).Nodup := by
  unfold rangeZ
  apply List.Nodup.map _ List.nodup_range
  intro a b h
  simpa using h

theorem rangeZ_sum (lo hi : ℤ) (g : ℤ → ℚ) :
    ((rangeZ lo hi).map g).sum = ∑ i ∈ Finset.Ico lo hi, g i := by
  rw [← List.sum_toFinset g (rangeZ_nodup lo hi)]
  apply Finset.sum_congr _ fun _ _ => rfl
  ext i
  simp [mem_rangeZ]

theorem sumM_ok {f : ℤ → Except Err ℚ} {g : ℤ → ℚ} :
    ∀ {l : List ℤ}, (∀ i ∈ l, f i = .ok (g i)) → sumM f l = .ok (l.map g).sum
  | [], _ => rfl
  | i :: l, h => by
    rw [sumM, h i (by simp), sumM_ok fun k hk => h k (by simp [hk])]
    simp [pure, Except.pure, bind, Except.bind]

theorem sumM_range {f : ℤ → Except Err ℚ} {g : ℤ → ℚ} {lo hi : ℤ}
    (h : ∀ i, lo ≤ i → i < hi → f i = .ok (g i)) :
    sumM f (rangeZ lo hi) = .ok (∑ i ∈ Finset.Ico lo hi, g i) := by
  rw [sumM_ok (g := g), rangeZ_sum]
  intro i hi'
  rw [mem_rangeZ] at hi'
  exact h i hi'.1 hi'.2

/-- Whatever every step keeps, the loop keeps. -/
theorem foldlM_keeps {σ β : Type} {f : σ → β → Except Err σ} {P : σ → Prop}
    (hf : ∀ s x s', P s → f s x = .ok s' → P s') :
    ∀ {l : List β} {s s' : σ}, P s → l.foldlM f s = .ok s' → P s'
  | [], s, s', h, he => by
    simp only [List.foldlM_nil, pure, Except.pure, Except.ok.injEq] at he
    rw [← he]; exact h
  | x :: l, s, s', h, he => by
    rw [List.foldlM_cons] at he
    cases hx : f s x with
    | error e => rw [hx] at he; simp [bind, Except.bind] at he
    | ok s1 =>
      rw [hx] at he
      exact foldlM_keeps hf (hf s x s1 h hx) he

namespace CArr

/-- The element in row `i`, column `j`. -/
def el (a : CArr) (i j : ℤ) : ℚ := a.cell (i * a.ny + j).toNat

/-- `(i, j)` is a row and a column of the array. -/
def inside (a : CArr) (i j : ℤ) : Prop := 0 ≤ i ∧ i < a.nx ∧ 0 ≤ j ∧ j < a.ny

/-- The array with one element replaced. -/
def put (a : CArr) (i j : ℤ) (v : ℚ) : CArr :=
  { a with cell := Function.update a.cell (i * a.ny + j).toNat v }

@[simp] theorem put_nx (a : CArr) (i j : ℤ) (v : ℚ) : (a.put i j v).nx = a.nx := rfl
@[simp] theorem put_ny (a : CArr) (i j : ℤ) (v : ℚ) : (a.put i j v).ny = a.ny := rfl

theorem flat_inj {ny : ℕ} {i j i' j' : ℤ} (hi : 0 ≤ i) (hj : 0 ≤ j) (hj1 : j < ny) (hi' : 0 ≤ i')
    (hj' : 0 ≤ j') (hj1' : j' < ny) (h : (i * ny + j).toNat = (i' * ny + j').toNat) :
    i = i' ∧ j = j' := by
  have h1 : 0 ≤ i * (ny : ℤ) := mul_nonneg hi (by omega)
  have h2 : 0 ≤ i' * (ny : ℤ) := mul_nonneg hi' (by omega)
  have h3 : i * ny + j = i' * ny + j' := by omega
  have h4 : i = i' := by
    by_contra hne
    rcases lt_or_gt_of_ne hne with hl | hl
    · nlinarith
    · nlinarith
  subst h4
  exact ⟨rfl, by omega⟩

theorem el_put {a : CArr} {i j i' j' : ℤ} {v : ℚ} (h : a.inside i j) (h' : a.inside i' j') :
    (a.put i j v).el i' j' = if i' = i ∧ j' = j then v else a.el i' j' := by
  unfold el put
  simp only
  by_cases he : i' = i ∧ j' = j
  · rw [if_pos he, he.1, he.2, Function.update_self]
  · rw [if_neg he, Function.update_of_ne]
    intro hc
    exact he (flat_inj h'.1 h'.2.2.1 h'.2.2.2 h.1 h.2.2.1 h.2.2.2 hc)

/-- A way to find cells that is right for every index inside the array. -/
def Right (res : (nx ny : ℕ) → ℤ → ℤ → Except Err ℕ) : Prop :=
  ∀ (nx ny : ℕ) (i j : ℤ), 0 ≤ i → i < nx → 0 ≤ j → j < ny → res nx ny i j = .ok (i * ny + j).toNat

theorem get_inside {res} (hr : Right res) {a : CArr} {i j : ℤ} (h : a.inside i j) :
    a.get res i j = .ok (a.el i j) := by
  unfold get
  rw [hr _ _ _ _ h.1 h.2.1 h.2.2.1 h.2.2.2]
  rfl

theorem set_inside {res} (hr : Right res) {a : CArr} {i j : ℤ} {v : ℚ} (h : a.inside i j) :
    a.set res i j v = .ok (a.put i j v) := by
  unfold set
  rw [hr _ _ _ _ h.1 h.2.1 h.2.2.1 h.2.2.2]
  rfl

/-- All memory cells are non-negative. -/
def Nonneg (a : CArr) : Prop := ∀ k, 0 ≤ a.cell k

theorem Nonneg.get {res} {a : CArr} (h : a.Nonneg) {i j : ℤ} {x : ℚ} (he : a.get res i j = .ok x) :
    0 ≤ x := by
  unfold CArr.get at he
  cases hr : res a.nx a.ny i j with
  | error e => rw [hr] at he; simp [Except.map] at he
  | ok k =>
    rw [hr] at he
    simp only [Except.map, Except.ok.injEq] at he
    rw [← he]; exact h k

theorem Nonneg.set {res} {a b : CArr} (h : a.Nonneg) {i j : ℤ} {v : ℚ} (hv : 0 ≤ v)
    (he : a.set res i j v = .ok b) : b.Nonneg := by
  unfold CArr.set at he
  cases hr : res a.nx a.ny i j with
  | error e => rw [hr] at he; simp [Except.map] at he
  | ok k =>
    rw [hr] at he
    simp only [Except.map, Except.ok.injEq] at he
    rw [← he]
    intro k'
    simp only [Function.update_apply]
    split_ifs
    · exact hv
    · exact h k'

end CArr

/-- The access is right inside all arrays. -/
structure Access.Right (acc : Access) : Prop where
  arr : CArr.Right acc.arr
  scratch : CArr.Right acc.scratch
  vec : ∀ (n : ℕ) (i : ℤ), 0 ≤ i → i < n → acc.vec n i = .ok i.toNat

theorem cppAccess_right : cppAccess.Right where
  arr := by
    intro nx ny i j hi hi1 hj hj1
    have h1 : 0 ≤ i * (ny : ℤ) := mul_nonneg hi (by omega)
    have h2 : i * (ny : ℤ) + j < nx * ny := by nlinarith
    simp only [cppAccess]
    rw [if_neg (by omega), if_neg (by omega)]
  scratch := by
    intro nx ny i j hi hi1 hj hj1
    simp only [cppAccess]
    rw [if_neg (by omega)]
  vec := by
    intro n i hi hi1
    simp only [cppAccess]
    rw [if_neg (by omega)]

theorem npIndex_inside {n : ℕ} {i : ℤ} (h : 0 ≤ i) (h1 : i < n) : npIndex n i = .ok i.toNat := by
  unfold npIndex
  rw [if_neg (by omega), if_neg (by omega)]

theorem pyAccess_right : pyAccess.Right where
  arr := by
    intro nx ny i j hi hi1 hj hj1
    have h1 : 0 ≤ i * (ny : ℤ) := mul_nonneg hi (by omega)
    simp only [pyAccess, npIndex_inside hi hi1, npIndex_inside hj hj1, bind, Except.bind, pure,
      Except.pure, Except.ok.injEq]
    zify
    rw [Int.toNat_of_nonneg hi, Int.toNat_of_nonneg hj, Int.toNat_of_nonneg (by omega)]
  scratch := by
    intro nx ny i j hi hi1 hj hj1
    have h1 : 0 ≤ i * (ny : ℤ) := mul_nonneg hi (by omega)
    simp only [pyAccess, npIndex_inside hi hi1, npIndex_inside hj hj1, bind, Except.bind, pure,
      Except.pure, Except.ok.injEq]
    zify
    rw [Int.toNat_of_nonneg hi, Int.toNat_of_nonneg hj, Int.toNat_of_nonneg (by omega)]
  vec := by
    intro n i hi hi1
    exact npIndex_inside hi hi1

/-- A loop that writes the elements `j ∈ l` of row `it` from other rows. -/
theorem foldlM_row {it : ℤ} {v : ℤ → ℚ} {step : CArr → ℤ → Except Err CArr} :
    ∀ {l : List ℤ} {a0 : CArr}, (∀ j ∈ l, a0.inside it j) →
    (∀ a j, j ∈ l → a.nx = a0.nx → a.ny = a0.ny →
      (∀ i' j', a0.inside i' j' → i' ≠ it → a.el i' j' = a0.el i' j') →
      step a j = .ok (a.put it j (v j))) →
    ∃ a', l.foldlM step a0 = .ok a' ∧ a'.nx = a0.nx ∧ a'.ny = a0.ny ∧
      ∀ i' j', a0.inside i' j' → a'.el i' j' = if i' = it ∧ j' ∈ l then v j' else a0.el i' j'
  | [], a0, _, _ => ⟨a0, rfl, rfl, rfl, by simp⟩
  | j :: l, a0, hin, hstep => by
    have h1 : step a0 j = .ok (a0.put it j (v j)) :=
      hstep a0 j (by simp) rfl rfl fun _ _ _ _ => rfl
    obtain ⟨a', ha, hx, hy, he⟩ := foldlM_row (it := it) (v := v) (step := step) (l := l)
      (a0 := a0.put it j (v j))
      (fun k hk => hin k (by simp [hk]))
      (fun a k hk hax hay hag => by
        apply hstep a k (by simp [hk]) hax hay
        intro i' j' hi' hne
        rw [hag i' j' hi' hne, CArr.el_put (hin j (by simp)) hi', if_neg (fun h => hne h.1)])
    refine ⟨a', ?_, hx, hy, ?_⟩
    · rw [List.foldlM_cons, h1]; exact ha
    · intro i' j' hi'
      rw [he i' j' hi', CArr.el_put (hin j (by simp)) hi']
      by_cases h2 : i' = it
      · by_cases h3 : j' ∈ l
        · rw [if_pos ⟨h2, h3⟩, if_pos ⟨h2, by simp [h3]⟩]
        · by_cases h4 : j' = j
          · rw [if_neg (fun h => h3 h.2), if_pos ⟨h2, h4⟩, if_pos ⟨h2, by simp [h4]⟩, h4]
          · rw [if_neg (fun h => h3 h.2), if_neg (fun h => h4 h.2), if_neg]
            rintro ⟨_, h⟩
            rcases List.mem_cons.1 h with h | h
            · exact h4 h
            · exact h3 h
      · rw [if_neg (fun h => h2 h.1), if_neg (fun h => h2 h.1), if_neg (fun h => h2 h.1)]

/-- The same for two arrays written in step, from values that do not depend on them. -/
theorem foldlM_row2 {it : ℤ} {v w : ℤ → ℚ} {step : CArr × CArr → ℤ → Except Err (CArr × CArr)} :
    ∀ {l : List ℤ} {a0 : CArr × CArr}, a0.2.nx = a0.1.nx → a0.2.ny = a0.1.ny →
    (∀ j ∈ l, a0.1.inside it j) →
    (∀ a j, j ∈ l → a.1.nx = a0.1.nx → a.1.ny = a0.1.ny → a.2.nx = a0.1.nx → a.2.ny = a0.1.ny →
      step a j = .ok (a.1.put it j (v j), a.2.put it j (w j))) →
    ∃ a', l.foldlM step a0 = .ok a' ∧ a'.1.nx = a0.1.nx ∧ a'.1.ny = a0.1.ny ∧
      a'.2.nx = a0.1.nx ∧ a'.2.ny = a0.1.ny ∧
      ∀ i' j', a0.1.inside i' j' →
        a'.1.el i' j' = (if i' = it ∧ j' ∈ l then v j' else a0.1.el i' j') ∧
        a'.2.el i' j' = if i' = it ∧ j' ∈ l then w j' else a0.2.el i' j'
  | [], a0, h2x, h2y, _, _ => ⟨a0, rfl, rfl, rfl, h2x, h2y, by simp⟩
  | j :: l, a0, h2x, h2y, hin, hstep => by
    have h1 := hstep a0 j (by simp) rfl rfl h2x h2y
    obtain ⟨a', ha, hx, hy, hx2, hy2, he⟩ := foldlM_row2 (it := it) (v := v) (w := w)
      (step := step) (l := l) (a0 := (a0.1.put it j (v j), a0.2.put it j (w j))) h2x h2y
      (fun k hk => hin k (by simp [hk]))
      (fun a k hk => hstep a k (by simp [hk]))
    refine ⟨a', ?_, hx, hy, hx2, hy2, ?_⟩
    · rw [List.foldlM_cons, h1]; exact ha
    · intro i' j' hi'
      have hins2 : ∀ i j, a0.1.inside i j → a0.2.inside i j := by
        intro i j h
        unfold CArr.inside at *
        rw [h2x, h2y]; exact h
      obtain ⟨e1, e2⟩ := he i' j' hi'
      rw [e1, e2, CArr.el_put (hin j (by simp)) hi',
        CArr.el_put (hins2 _ _ (hin j (by simp))) (hins2 _ _ hi')]
      by_cases h2 : i' = it
      · by_cases h3 : j' ∈ l
        · simp [h2, h3]
        · by_cases h4 : j' = j
          · subst h4; simp [h2, h3]
          · simp [h2, h3, h4]
      · simp [h2]

end Ompy
