import Verif.Unchecked
import Verif.IndexProps
import Verif.RebinLemmas
import Verif.DecompositionProps
import Verif.ExtractorProps
import Verif.IntrospectionProps
import Verif.PlotsProps

/-!
# C110: compiled code stays inside its arrays
-/

set_option linter.unusedSectionVars false

namespace Ompy

variable {α : Type} [Field α] [DecidableEq α]

theorem readAt_of_lt {β : Type} (d : β) {l : List β} {i : ℕ} (h : i < l.length) : readAt l i = .ok (l.getD i d) := by
  rw [readAt, List.getElem?_eq_getElem h, List.getD_eq_getElem l d h]

theorem readAt_ge {β : Type} {l : List β} {i : ℕ} (h : l.length ≤ i) : readAt l i = .error .undefined := by
  rw [readAt, List.getElem?_eq_none h]

theorem readAt_ok {β : Type} {l : List β} {i : ℕ} {x : β} (h : readAt l i = .ok x) : i < l.length ∧ ∀ d, x = l.getD i d := by
  by_cases hi : i < l.length
  · refine ⟨hi, fun d => ?_⟩
    rw [readAt_of_lt d hi] at h
    cases h
    rfl
  · rw [readAt_ge (by omega)] at h
    cases h

theorem readAt_err {β : Type} {l : List β} {i : ℕ} {e : Err} (h : readAt l i = .error e) : e = .undefined ∧ l.length ≤ i := by
  by_cases hi : i < l.length
  · rw [readAt_of_lt (l[i]) hi] at h
    cases h
  · rw [readAt_ge (by omega)] at h
    cases h
    exact ⟨rfl, by omega⟩

/-! ## index -/

theorem indexScan_loop (E : List ℚ) (e : ℚ) (n i : ℕ) (prev : ℚ) (h : n + i = E.length) :
    indexScan E e n i prev = .ok (indexLoop e prev i (E.drop i)) := by
  induction n generalizing i prev with
  | zero => rw [List.drop_of_length_le (by omega)]; rfl
  | succ n ih =>
    have hi : i < E.length := by omega
    rw [List.drop_eq_getElem_cons hi]
    simp only [indexScan, indexLoop, readAt_of_lt 0 hi, List.getD_eq_getElem E 0 hi]
    by_cases hc : (E[i] - e) ^ 2 > prev
    · rw [if_pos hc, if_pos hc]
    · rw [if_neg hc, if_neg hc]
      exact ih _ _ (by omega)

theorem indexC_eq (E : List ℚ) (e : ℚ) : indexC E e = index E e := by
  cases E with
  | nil => rfl
  | cons a as =>
    show indexScan (a :: as) e as.length 1 ((a - e) ^ 2) = _
    rw [indexScan_loop _ _ _ _ _ (by simp)]
    rfl

/-- **C110.** `index` and `_index` never leave an array that has an element, whatever the order of the elements, and the result is an index of it; for an array without
elements they read foreign memory. -/
theorem C110_index (E : List ℚ) (e : ℚ) :
    (E ≠ [] → ∃ i < E.length, indexC E e = .ok i ∧ index E e = .ok i) ∧ indexC [] e = .error .undefined := by
  refine ⟨fun h => ?_, rfl⟩
  obtain ⟨i, h1, h2⟩ := C05_index_in_range E e h
  exact ⟨i, h2, by rw [indexC_eq, h1], h1⟩

example : indexC [3, 1, 2, 7] 2 = .ok 3 ∨ indexC [3, 1, 2, 7] 2 = .ok 2 := by decide +kernel

/-! ## The product -/

theorem cellC_iff (nld T : List α) (Enld : List ℚ) (ex g : ℚ) (j : ℕ) :
    (∃ c, cellC nld T Enld ex g j = .ok c) ↔ (∃ m < nld.length, index Enld (ex - g) = .ok m) ∧ j < T.length := by
  simp only [cellC, indexC_eq, bind, Except.bind, pure, Except.pure]
  cases hi : index Enld (ex - g) with
  | error e => simp
  | ok m =>
    by_cases hm : m < nld.length
    · simp only [readAt_of_lt 0 hm]
      by_cases hj : j < T.length
      · simp [readAt_of_lt 0 hj, hm, hj]
      · simp [readAt_ge (Nat.le_of_not_lt hj), hj]
    · simp [readAt_ge (Nat.le_of_not_lt hm), hm]

theorem cellC_ok (nld T : List α) (Enld : List ℚ) (ex g : ℚ) (j : ℕ) (c : α) (h : cellC nld T Enld ex g j = .ok c) :
    c = prodEntry nld T Enld ex g j := by
  obtain ⟨⟨m, hm, hi⟩, hj⟩ := (cellC_iff nld T Enld ex g j).1 ⟨c, h⟩
  simp only [cellC, indexC_eq, bind, Except.bind, pure, Except.pure, hi, readAt_of_lt 0 hm, readAt_of_lt 0 hj, Except.ok.injEq] at h
  rw [← h, prodEntry, indexD, hi]

theorem cellC_err (nld T : List α) (Enld : List ℚ) (ex g : ℚ) (j : ℕ) (e : Err) (h : cellC nld T Enld ex g j = .error e) :
    e = .undefined := by
  simp only [cellC, indexC_eq, bind, Except.bind, pure, Except.pure] at h
  cases hi : index Enld (ex - g) with
  | error e' =>
    rw [hi] at h
    cases h
    cases Enld with
    | nil => cases hi; rfl
    | cons a as => cases hi
  | ok m =>
    rw [hi] at h
    cases h1 : readAt nld m with
    | error e' => simp only [h1] at h; cases h; exact (readAt_err h1).1
    | ok a =>
      simp only [h1] at h
      cases h2 : readAt T j with
      | error e' => simp only [h2] at h; cases h; exact (readAt_err h2).1
      | ok b => simp only [h2] at h; cases h

theorem rowScan_spec (nld T : List α) (Enld Eg : List ℚ) (ex egMax : ℚ) (n j : ℕ) (h : n + j = Eg.length) :
    ((∃ r, rowScan nld T Enld Eg ex egMax n j = .ok r) ↔ ∀ m, j ≤ m → m < Eg.length → (∀ k, j ≤ k → k ≤ m → Eg.getD k 0 ≤ egMax) →
      (∃ q < nld.length, index Enld (ex - Eg.getD m 0) = .ok q) ∧ m < T.length) ∧
    (∀ r, rowScan nld T Enld Eg ex egMax n j = .ok r → r = rowLoop nld T Enld ex egMax j (Eg.drop j)) ∧
    ∀ e, rowScan nld T Enld Eg ex egMax n j = .error e → e = .undefined := by
  induction n generalizing j with
  | zero =>
    refine ⟨⟨fun _ m h1 h2 _ => by omega, fun _ => ⟨[], rfl⟩⟩, fun r hr => ?_, fun e he => by cases he⟩
    cases hr
    rw [List.drop_of_length_le (by omega)]
    rfl
  | succ n ih =>
    have hj : j < Eg.length := by omega
    obtain ⟨ih1, ih2, ih3⟩ := ih (j + 1) (by omega)
    have hd : Eg.drop j = Eg.getD j 0 :: Eg.drop (j + 1) := by rw [List.drop_eq_getElem_cons hj, List.getD_eq_getElem Eg 0 hj]
    rw [hd]
    simp only [rowScan, readAt_of_lt 0 hj, rowLoop]
    by_cases hg : Eg.getD j 0 ≤ egMax
    · simp only [if_pos hg]
      cases hc : cellC nld T Enld ex (Eg.getD j 0) j with
      | error e =>
        refine ⟨⟨fun ⟨r, hr⟩ => (by cases hr), fun hall => ?_⟩, fun r hr => (by cases hr), fun e' he => ?_⟩
        · have := (cellC_iff nld T Enld ex (Eg.getD j 0) j).2 (hall j le_rfl hj fun k h1 h2 => by
            rw [show k = j by omega]; exact hg)
          obtain ⟨c, hc'⟩ := this
          rw [hc] at hc'
          cases hc'
        · simp only [Except.error.injEq] at he
          rw [← he]
          exact cellC_err _ _ _ _ _ _ _ hc
      | ok c =>
        have hcj := (cellC_iff nld T Enld ex (Eg.getD j 0) j).1 ⟨c, hc⟩
        cases hr : rowScan nld T Enld Eg ex egMax n (j + 1) with
        | error e =>
          refine ⟨⟨fun ⟨r, h'⟩ => (by cases h'), fun hall => ?_⟩, fun r h' => (by cases h'), fun e' he => ?_⟩
          · obtain ⟨r, h'⟩ := ih1.2 fun m h1 h2 h3 => hall m (by omega) h2 fun k k1 k2 => by
              by_cases hk : k = j
              · rw [hk]; exact hg
              · exact h3 k (by omega) k2
            rw [hr] at h'
            cases h'
          · simp only [Except.error.injEq] at he
            rw [← he]
            exact ih3 e hr
        | ok r =>
          refine ⟨⟨fun _ m h1 h2 h3 => ?_, fun _ => ⟨_, rfl⟩⟩, fun r' h' => ?_, fun e' he => by cases he⟩
          · by_cases hm : m = j
            · rw [hm]; exact hcj
            · exact ih1.1 ⟨r, hr⟩ m (by omega) h2 fun k k1 k2 => h3 k (by omega) k2
          · simp only [Except.ok.injEq] at h'
            rw [← h', cellC_ok _ _ _ _ _ _ _ hc, ih2 r hr]
    · simp only [if_neg hg]
      refine ⟨⟨fun _ m h1 h2 h3 => absurd (h3 j le_rfl h1) hg, fun _ => ⟨_, rfl⟩⟩, fun r h' => ?_, fun e' he => by cases he⟩
      simp only [Except.ok.injEq] at h'
      rw [← h', List.length_drop, show Eg.length - (j + 1) + 1 = n + 1 by omega]

/-- What row `i` reads lies inside of the arrays. -/
def RowInside (nld T : List α) (res Enld Eg Ex : List ℚ) (i : ℕ) : Prop :=
  i < res.length ∧ ∀ j < Eg.length, (∀ k ≤ j, Eg.getD k 0 ≤ Ex.getD i 0 + res.getD i 0 + (Eg.getD 1 0 - Eg.getD 0 0) / 2) →
    (∃ m < nld.length, index Enld (Ex.getD i 0 - Eg.getD j 0) = .ok m) ∧ j < T.length

theorem prodRowC_spec (nld T : List α) (res Enld Eg Ex : List ℚ) (i : ℕ) (hi : i < Ex.length) :
    ((∃ r, prodRowC nld T res Enld Eg Ex ((Eg.getD 1 0 - Eg.getD 0 0) / 2) i = .ok r) ↔ RowInside nld T res Enld Eg Ex i) ∧
    (∀ r, prodRowC nld T res Enld Eg Ex ((Eg.getD 1 0 - Eg.getD 0 0) / 2) i = .ok r →
      r = rowLoop nld T Enld (Ex.getD i 0) (Ex.getD i 0 + res.getD i 0 + (Eg.getD 1 0 - Eg.getD 0 0) / 2) 0 Eg) ∧
    ∀ e, prodRowC nld T res Enld Eg Ex ((Eg.getD 1 0 - Eg.getD 0 0) / 2) i = .error e → e = .undefined := by
  simp only [prodRowC, bind, Except.bind, readAt_of_lt 0 hi]
  by_cases hr : i < res.length
  · simp only [readAt_of_lt 0 hr]
    obtain ⟨h1, h2, h3⟩ := rowScan_spec nld T Enld Eg (Ex.getD i 0) (Ex.getD i 0 + res.getD i 0 + (Eg.getD 1 0 - Eg.getD 0 0) / 2) Eg.length 0 (by omega)
    refine ⟨?_, fun r h => by simpa using h2 r h, h3⟩
    rw [h1]
    constructor
    · intro h
      exact ⟨hr, fun j hj hk => h j (Nat.zero_le _) hj fun k _ h' => hk k h'⟩
    · intro h m _ hm hk
      exact h.2 m hm fun k h' => hk k (Nat.zero_le _) h'
  · simp only [readAt_ge (Nat.le_of_not_lt hr)]
    refine ⟨⟨fun ⟨r, h⟩ => (by cases h), fun h => absurd h.1 hr⟩, fun r h => (by cases h), fun e h => by cases h; rfl⟩

theorem mapM_err_all {β γ : Type} (f : β → Except Err γ) (l : List β) (P : Err → Prop) (h : ∀ x ∈ l, ∀ e, f x = .error e → P e) (e : Err)
    (he : l.mapM f = .error e) : P e := by
  induction l with
  | nil => cases he
  | cons x xs ih =>
    rw [List.mapM_cons] at he
    simp only [bind, Except.bind, pure, Except.pure] at he
    cases hx : f x with
    | error e' =>
      rw [hx] at he
      cases he
      exact h x (by simp) _ hx
    | ok y =>
      rw [hx] at he
      cases hs : xs.mapM f with
      | error e' =>
        simp only [hs] at he
        cases he
        exact ih (fun z hz => h z (List.mem_cons_of_mem _ hz)) hs
      | ok ys => simp only [hs] at he; cases he

/-- **C110.** `nld_T_product` reads only inside of its arrays exactly if there are two gamma energies, every excitation energy has a resolution, and for every bin that the loop reaches the
final energy has a level density and the gamma energy a transmission coefficient. -/
theorem C110_product_iff (nld T : List α) (res Enld Eg Ex : List ℚ) :
    ((∃ P, productC nld T res Enld Eg Ex = .ok P) ↔ 2 ≤ Eg.length ∧ ∀ i < Ex.length, RowInside nld T res Enld Eg Ex i) ∧
    (∀ P, productC nld T res Enld Eg Ex = .ok P → P = rawProduct nld T res Enld Eg Ex) ∧
    ∀ e, productC nld T res Enld Eg Ex = .error e → e = .undefined := by
  simp only [productC, bind, Except.bind]
  by_cases h1 : 1 < Eg.length
  · simp only [readAt_of_lt 0 h1, readAt_of_lt 0 (show 0 < Eg.length by omega)]
    refine ⟨?_, fun P h => ?_, fun e h => ?_⟩
    · rw [mapM_forall_ok]
      simp only [List.mem_range]
      constructor
      · exact fun h => ⟨h1, fun i hi => ((prodRowC_spec nld T res Enld Eg Ex i hi).1).1 (h i hi)⟩
      · exact fun h i hi => ((prodRowC_spec nld T res Enld Eg Ex i hi).1).2 (h.2 i hi)
    · have hall := (mapM_forall_ok _ _).1 ⟨P, h⟩
      have := mapM_ok (prodRowC nld T res Enld Eg Ex ((Eg.getD 1 0 - Eg.getD 0 0) / 2))
        (fun i => rowLoop nld T Enld (Ex.getD i 0) (Ex.getD i 0 + res.getD i 0 + (Eg.getD 1 0 - Eg.getD 0 0) / 2) 0 Eg) (List.range Ex.length) fun i hi => by
          obtain ⟨y, hy⟩ := hall i hi
          rw [hy, (prodRowC_spec nld T res Enld Eg Ex i (List.mem_range.1 hi)).2.1 y hy]
      rw [this] at h
      cases h
      rfl
    · exact mapM_err_all _ _ (· = .undefined) (fun i hi e he => (prodRowC_spec nld T res Enld Eg Ex i (List.mem_range.1 hi)).2.2 e he) e h
  · simp only [readAt_ge (Nat.le_of_not_lt h1)]
    refine ⟨⟨fun ⟨P, h⟩ => (by cases h), fun h => by omega⟩, fun P h => (by cases h), fun e h => by cases h; rfl⟩

/-- **C110.** If the arrays have the sizes the documentation of the axes implies - one level density for each final energy, one transmission coefficient for each gamma energy, one resolution for
each excitation energy, two gamma energies or more - all reads are inside, and the result is the product. -/
theorem C110_product (nld T : List α) (res Enld Eg Ex : List ℚ) (h1 : 2 ≤ Eg.length) (h2 : Enld ≠ []) (h3 : Enld.length ≤ nld.length)
    (h4 : Eg.length ≤ T.length) (h5 : Ex.length ≤ res.length) :
    productC nld T res Enld Eg Ex = .ok (rawProduct nld T res Enld Eg Ex) ∧
      nldTProduct nld T res Enld Eg Ex = .ok ((rawProduct nld T res Enld Eg Ex).map normRow) := by
  obtain ⟨a, b, -⟩ := C110_product_iff nld T res Enld Eg Ex
  obtain ⟨P, hP⟩ := a.2 ⟨h1, fun i hi => ⟨by omega, fun j hj _ => ⟨by
    obtain ⟨m, hm, hm'⟩ := C05_index_in_range Enld (Ex.getD i 0 - Eg.getD j 0) h2
    exact ⟨m, by omega, hm⟩, by omega⟩⟩⟩
  refine ⟨by rw [hP, b P hP], ?_⟩
  rw [nldTProduct, if_neg]
  rintro (h | h | h | h | h)
  · omega
  · exact h2 h
  · omega
  · omega
  · omega

example : productC ([1, 2, 3, 4] : List ℚ) [5, 6] [0, 0] [-1, 0, 1, 2] [1, 2] [1, 3] = .ok [[10, 0], [20, 18]] := by decide +kernel

/-- **C110 (disagreement).** The documentation asks for a resolution "at each bin of Eg".  The code reads one for each excitation energy: if there are fewer gamma than excitation energies, it leaves the
array whatever the numbers. -/
theorem C110_resolution_fails (nld T : List α) (res Enld Eg Ex : List ℚ) (h : res.length = Eg.length) (hl : Eg.length < Ex.length) :
    productC nld T res Enld Eg Ex = .error .undefined := by
  obtain ⟨a, -, c⟩ := C110_product_iff nld T res Enld Eg Ex
  cases hp : productC nld T res Enld Eg Ex with
  | error e => rw [c e hp]
  | ok P =>
    have := (a.1 ⟨P, hp⟩).2 res.length (by omega)
    exact absurd this.1 (lt_irrefl _)

example : productC ([1, 1, 1, 1] : List ℚ) [1, 1] [0, 0] [-1, 0, 1, 2] [1, 2] [1, 2, 3] = .error .undefined := by decide +kernel

/-- **C110 (disagreement).** If there are more gamma than excitation energies, a resolution for each gamma energy is accepted, and the first ones are taken as those of the excitation energies. -/
theorem C110_resolution_taken (nld T : List α) (res Enld Eg Ex : List ℚ) :
    productC nld T res Enld Eg Ex = productC nld T (res.take Ex.length) Enld Eg Ex := by
  have key : ∀ half, ∀ i ∈ List.range Ex.length, prodRowC nld T res Enld Eg Ex half i = prodRowC nld T (res.take Ex.length) Enld Eg Ex half i := by
    intro half i hi
    rw [List.mem_range] at hi
    have e : readAt (res.take Ex.length) i = readAt res i := by
      rw [readAt, readAt, List.getElem?_take_of_lt hi]
    simp only [prodRowC, e]
  have mapM_same : ∀ (l : List ℕ) (f g : ℕ → Except Err (List α)), (∀ i ∈ l, f i = g i) → l.mapM f = l.mapM g := by
    intro l f g
    induction l with
    | nil => intro _; rfl
    | cons x xs ih =>
      intro hfg
      rw [List.mapM_cons, List.mapM_cons, hfg x (by simp), ih fun i hi => hfg i (List.mem_cons_of_mem _ hi)]
  simp only [productC, mapM_same _ _ _ (key _)]

/-! ## Chi-square -/

/-- Element `(i, j)` of an array, as the code finds it. -/
def MemView.el (a : MemView α) (i j : ℕ) : α := a.data.getD (i * a.ny + j) 0

/-- The access to `(i, j)` stays in the block of the array. -/
def MemView.has (a : MemView α) (i j : ℕ) : Prop := i * a.ny + j < a.nx * a.ny

theorem MemView.read_of {a : MemView α} {i j : ℕ} (h : a.has i j) : a.read i j = .ok (a.el i j) := by
  rw [MemView.read, readAt_of_lt 0 (by rw [a.full]; exact h)]
  rfl

theorem MemView.read_not {a : MemView α} {i j : ℕ} (h : ¬ a.has i j) : a.read i j = .error .undefined := by
  rw [MemView.read, readAt_ge (by rw [a.full]; exact Nat.le_of_not_lt h)]

theorem MemView.has_of {a : MemView α} {i j : ℕ} (hi : i < a.nx) (hj : j < a.ny) : a.has i j := by
  show i * a.ny + j < a.nx * a.ny
  have : (i + 1) * a.ny ≤ a.nx * a.ny := Nat.mul_le_mul_right _ hi
  rw [Nat.succ_mul] at this
  omega

/-- What a term of the sum needs. -/
def TermInside (fact fit std : MemView α) (i j : ℕ) : Prop := std.has i j ∧ (std.el i j ≠ 0 → fact.has i j ∧ fit.has i j)

/-- A term of the sum. -/
def termAt (fact fit std : MemView α) (i j : ℕ) : α := if std.el i j = 0 then 0 else (fact.el i j - fit.el i j) ^ 2 / std.el i j ^ 2

theorem termC_of {fact fit std : MemView α} {i j : ℕ} (h : TermInside fact fit std i j) (chi : α) :
    termC fact fit std i j chi = .ok (chi + termAt fact fit std i j) := by
  rw [termC, MemView.read_of h.1]
  simp only [termAt]
  by_cases hs : std.el i j = 0
  · rw [if_pos hs, if_pos hs, add_zero]
  · obtain ⟨a, b⟩ := h.2 hs
    simp only [if_neg hs, MemView.read_of a, MemView.read_of b]

theorem termC_not {fact fit std : MemView α} {i j : ℕ} (h : ¬ TermInside fact fit std i j) (chi : α) :
    termC fact fit std i j chi = .error .undefined := by
  rw [termC]
  by_cases h1 : std.has i j
  · simp only [MemView.read_of h1]
    by_cases hs : std.el i j = 0
    · exact absurd ⟨h1, fun h' => absurd hs h'⟩ h
    · simp only [if_neg hs]
      by_cases h2 : fact.has i j
      · by_cases h3 : fit.has i j
        · exact absurd ⟨h1, fun _ => ⟨h2, h3⟩⟩ h
        · simp only [MemView.read_of h2, MemView.read_not h3]
      · simp only [MemView.read_not h2]
  · simp only [MemView.read_not h1]

/-- A loop that adds terms, each of which may leave its array. -/
theorem scan_spec (step : ℕ → α → Except Err α) (ok : ℕ → Prop) (t : ℕ → α) (loop : ℕ → ℕ → α → Except Err α)
    (h0 : ∀ i c, loop 0 i c = .ok c)
    (hs : ∀ n i c, loop (n + 1) i c = match step i c with
      | .error er => .error er
      | .ok c' => loop n (i + 1) c')
    (h1 : ∀ i c, ok i → step i c = .ok (c + t i)) (h2 : ∀ i c, ¬ ok i → step i c = .error .undefined) (n i : ℕ) (c : α) :
    ((∀ k < n, ok (i + k)) → loop n i c = .ok (c + ∑ k ∈ Finset.range n, t (i + k))) ∧ ((¬ ∀ k < n, ok (i + k)) → loop n i c = .error .undefined) := by
  induction n generalizing i c with
  | zero => exact ⟨fun _ => by simp [h0], fun h => absurd (fun k hk => by omega) h⟩
  | succ n ih =>
    rw [hs]
    by_cases hi : ok i
    · rw [h1 i c hi]
      obtain ⟨a, b⟩ := ih (i + 1) (c + t i)
      refine ⟨fun h => ?_, fun h => ?_⟩
      · show loop n (i + 1) (c + t i) = _
        rw [a fun k hk => by rw [show i + 1 + k = i + (k + 1) by omega]; exact h (k + 1) (by omega), Finset.sum_range_succ', add_zero]
        congr 1
        rw [add_assoc, add_comm (t i)]
        congr 2
        refine Finset.sum_congr rfl fun k _ => ?_
        rw [show i + 1 + k = i + (k + 1) by omega]
      · refine b fun h' => h fun k hk => ?_
        cases k with
        | zero => exact hi
        | succ k => rw [show i + (k + 1) = i + 1 + k by omega]; exact h' k (by omega)
    · rw [h2 i c hi]
      exact ⟨fun h => absurd (h 0 (by omega)) hi, fun _ => rfl⟩

open Classical in
theorem chiRowC_spec (fact fit std : MemView α) (i n : ℕ) (c : α) :
    ((∀ j < n, TermInside fact fit std i j) → chiRowC fact fit std i n 0 c = .ok (c + ∑ j ∈ Finset.range n, termAt fact fit std i j)) ∧
      ((¬ ∀ j < n, TermInside fact fit std i j) → chiRowC fact fit std i n 0 c = .error .undefined) := by
  have := scan_spec (fun j c => termC fact fit std i j c) (fun j => TermInside fact fit std i j) (fun j => termAt fact fit std i j)
    (chiRowC fact fit std i) (fun _ _ => rfl) (fun _ _ _ => rfl) (fun j c h => termC_of h c) (fun j c h => termC_not h c) n 0 c
  simpa using this

/-- **C110.** `chisquare` reads only inside of its arrays exactly if the bins of the first matrix are in the blocks of the other two (where the standard deviation is 0, in its block only); then it is
the sum of the squared distances in units of the standard deviation. -/
theorem C110_chisquare_iff (fact fit std : MemView α) :
    ((∀ i < fact.nx, ∀ j < fact.ny, TermInside fact fit std i j) →
      chisquareC fact fit std = .ok (∑ i ∈ Finset.range fact.nx, ∑ j ∈ Finset.range fact.ny, termAt fact fit std i j)) ∧
    ((¬ ∀ i < fact.nx, ∀ j < fact.ny, TermInside fact fit std i j) → chisquareC fact fit std = .error .undefined) := by
  have := scan_spec (fun i c => chiRowC fact fit std i fact.ny 0 c) (fun i => ∀ j < fact.ny, TermInside fact fit std i j)
    (fun i => ∑ j ∈ Finset.range fact.ny, termAt fact fit std i j) (chiC fact fit std) (fun _ _ => rfl) (fun _ _ _ => rfl)
    (fun i c h => (chiRowC_spec fact fit std i fact.ny c).1 h) (fun i c h => (chiRowC_spec fact fit std i fact.ny c).2 h) fact.nx 0 0
  simpa [chisquareC] using this

/-- **C110.** For three matrices of the same shape all reads are inside. -/
theorem C110_chisquare (fact fit std : MemView α) (h1 : fit.nx = fact.nx ∧ fit.ny = fact.ny) (h2 : std.nx = fact.nx ∧ std.ny = fact.ny) :
    chisquareC fact fit std = .ok (∑ i ∈ Finset.range fact.nx, ∑ j ∈ Finset.range fact.ny, termAt fact fit std i j) :=
  (C110_chisquare_iff fact fit std).1 fun i hi j hj => ⟨MemView.has_of (by omega) (by omega), fun _ =>
    ⟨MemView.has_of hi hj, MemView.has_of (by omega) (by omega)⟩⟩

/-- A view of a list of rows. -/
def viewOf (ny : ℕ) (data : List ℚ) (nx : ℕ) (h : data.length = nx * ny) : MemView ℚ := ⟨nx, ny, data, h⟩

example : chisquareC (viewOf 2 [1, 2, 3, 4] 2 rfl) (viewOf 2 [1, 1, 0, 4] 2 rfl) (viewOf 2 [1, 2, 3, 0] 2 rfl) = .ok (1 / 4 + 1) := by decide +kernel

/-- **C110 (disagreement).** Shapes are not compared: a column is taken for a row without notice, and a matrix with fewer bins makes the code read foreign memory. -/
theorem C110_chisquare_fails :
    chisquareC (viewOf 2 [1, 2] 1 rfl) (viewOf 1 [1, 2] 2 rfl) (viewOf 2 [1, 1] 1 rfl) = .ok 0 ∧
      chisquareC (viewOf 2 [1, 2] 1 rfl) (viewOf 1 [1] 1 rfl) (viewOf 2 [1, 1] 1 rfl) = .error .undefined := by
  decide +kernel

/-- What row `i` of `chisquare_diagonal` needs. -/
def DiagRowInside (fact fit std : MemView α) (res Eg Ex : List ℚ) (i : ℕ) : Prop :=
  i < res.length ∧ ∀ j < Eg.length, (∀ k ≤ j, Eg.getD k 0 ≤ Ex.getD i 0 + res.getD i 0) → TermInside fact fit std i j

open Classical in
theorem chiDiagRowC_spec (fact fit std : MemView α) (Eg : List ℚ) (egMax : ℚ) (i n j : ℕ) (c : α) (h : n + j = Eg.length) :
    ((∀ m, j ≤ m → m < Eg.length → (∀ k, j ≤ k → k ≤ m → Eg.getD k 0 ≤ egMax) → TermInside fact fit std i m) →
      chiDiagRowC fact fit std Eg egMax i n j c = .ok (c + ∑ q ∈ Finset.range n, if ∀ k, j ≤ k → k ≤ j + q → Eg.getD k 0 ≤ egMax then termAt fact fit std i (j + q) else 0)) ∧
    ((¬ ∀ m, j ≤ m → m < Eg.length → (∀ k, j ≤ k → k ≤ m → Eg.getD k 0 ≤ egMax) → TermInside fact fit std i m) →
      chiDiagRowC fact fit std Eg egMax i n j c = .error .undefined) := by
  induction n generalizing j c with
  | zero =>
    refine ⟨fun _ => by simp [chiDiagRowC], fun hn => absurd (fun m h1 h2 _ => by omega) hn⟩
  | succ n ih =>
    have hj : j < Eg.length := by omega
    simp only [chiDiagRowC, readAt_of_lt 0 hj]
    by_cases hg : Eg.getD j 0 ≤ egMax
    · rw [if_neg (not_lt.2 hg)]
      have cond : ∀ q, (∀ k, j ≤ k → k ≤ j + (q + 1) → Eg.getD k 0 ≤ egMax) ↔ ∀ k, j + 1 ≤ k → k ≤ j + 1 + q → Eg.getD k 0 ≤ egMax := by
        intro q
        constructor
        · exact fun hk k h1 h2 => hk k (by omega) (by omega)
        · intro hk k h1 h2
          by_cases he : k = j
          · rw [he]; exact hg
          · exact hk k (by omega) (by omega)
      by_cases ht : TermInside fact fit std i j
      · rw [termC_of ht]
        obtain ⟨a, b⟩ := ih (j + 1) (c + termAt fact fit std i j) (by omega)
        refine ⟨fun hall => ?_, fun hn => ?_⟩
        · show chiDiagRowC fact fit std Eg egMax i n (j + 1) _ = _
          rw [a fun m h1 h2 h3 => hall m (by omega) h2 fun k k1 k2 => by
            by_cases he : k = j
            · rw [he]; exact hg
            · exact h3 k (by omega) k2, Finset.sum_range_succ']
          have z : (∀ k, j ≤ k → k ≤ j + 0 → Eg.getD k 0 ≤ egMax) := fun k h1 h2 => by rw [show k = j by omega]; exact hg
          rw [if_pos z, add_zero, add_assoc, add_comm (termAt fact fit std i j)]
          congr 3
          refine Finset.sum_congr rfl fun q _ => ?_
          rw [show j + 1 + q = j + (q + 1) by omega]
          refine if_congr ?_ rfl rfl
          rw [cond q, show j + (q + 1) = j + 1 + q by omega]
        · refine b fun h' => hn fun m h1 h2 h3 => ?_
          by_cases he : m = j
          · rw [he]; exact ht
          · exact h' m (by omega) h2 fun k k1 k2 => h3 k (by omega) k2
      · rw [termC_not ht]
        exact ⟨fun hall => absurd (hall j le_rfl hj fun k h1 h2 => by rw [show k = j by omega]; exact hg) ht, fun _ => rfl⟩
    · rw [if_pos (not_le.1 hg)]
      refine ⟨fun _ => ?_, fun hn => absurd (fun m h1 h2 h3 => absurd (h3 j le_rfl h1) hg) hn⟩
      rw [Finset.sum_eq_zero, add_zero]
      exact fun q _ => if_neg fun hk => hg (hk j le_rfl (by omega))

open Classical in
/-- **C110.** `chisquare_diagonal` reads only inside of its arrays exactly if every excitation energy has a resolution and the bins up to the diagonal are in the blocks of the three matrices; then it is
the sum over these bins. -/
theorem C110_chisquare_diagonal_iff (fact fit std : MemView α) (res Eg Ex : List ℚ) :
    ((∀ i < Ex.length, DiagRowInside fact fit std res Eg Ex i) → chiDiagC fact fit std res Eg Ex =
      .ok (∑ i ∈ Finset.range Ex.length, ∑ j ∈ Finset.range Eg.length,
        if ∀ k ≤ j, Eg.getD k 0 ≤ Ex.getD i 0 + res.getD i 0 then termAt fact fit std i j else 0)) ∧
    ((¬ ∀ i < Ex.length, DiagRowInside fact fit std res Eg Ex i) → chiDiagC fact fit std res Eg Ex = .error .undefined) := by
  let step : ℕ → α → Except Err α := fun i c =>
    match readAt Ex i, readAt res i with
    | .ok ex, .ok r => chiDiagRowC fact fit std Eg (ex + r) i Eg.length 0 c
    | .error er, _ => .error er
    | _, .error er => .error er
  have hstep : ∀ n i c, chiDiagLoopC fact fit std res Eg Ex (n + 1) i c = match step i c with
      | .error er => .error er
      | .ok c' => chiDiagLoopC fact fit std res Eg Ex n (i + 1) c' := by
    intro n i c
    simp only [chiDiagLoopC, step]
    cases readAt Ex i with
    | error e => rfl
    | ok ex => cases readAt res i with
      | error e => rfl
      | ok r => rfl
  have h := scan_spec step (fun i => i < Ex.length ∧ DiagRowInside fact fit std res Eg Ex i)
    (fun i => ∑ j ∈ Finset.range Eg.length, if ∀ k ≤ j, Eg.getD k 0 ≤ Ex.getD i 0 + res.getD i 0 then termAt fact fit std i j else 0)
    (chiDiagLoopC fact fit std res Eg Ex) (fun _ _ => rfl) hstep
    (fun i c hi => by
      simp only [step, readAt_of_lt 0 hi.1, readAt_of_lt 0 hi.2.1]
      rw [(chiDiagRowC_spec fact fit std Eg (Ex.getD i 0 + res.getD i 0) i Eg.length 0 c (by omega)).1 fun m _ h2 h3 =>
        hi.2.2 m h2 fun k hk => h3 k (Nat.zero_le _) hk]
      simp)
    (fun i c hi => by
      by_cases h1 : i < Ex.length
      · by_cases h2 : i < res.length
        · simp only [step, readAt_of_lt 0 h1, readAt_of_lt 0 h2]
          refine (chiDiagRowC_spec fact fit std Eg (Ex.getD i 0 + res.getD i 0) i Eg.length 0 c (by omega)).2 fun h' => hi ⟨h1, h2, fun j hj hk => ?_⟩
          exact h' j (Nat.zero_le _) hj fun k _ k2 => hk k k2
        · simp only [step, readAt_of_lt 0 h1, readAt_ge (Nat.le_of_not_lt h2)]
      · simp only [step, readAt_ge (Nat.le_of_not_lt h1)])
    Ex.length 0 0
  refine ⟨fun hall => ?_, fun hn => ?_⟩
  · have := h.1 fun k hk => ⟨by omega, by rw [Nat.zero_add]; exact hall k hk⟩
    simpa [chiDiagC] using this
  · exact h.2 fun h' => hn fun i hi => by have := (h' i hi).2; rwa [Nat.zero_add] at this

/-! ## The calls of `decompose` -/

theorem eNld_pos (close : ℚ → ℚ → Bool) (Ex Eg E : List ℚ) (h : eNld close Ex Eg = .ok E) (hw : Ex.getD 0 0 < Ex.getD 1 0) :
    2 ≤ Ex.length ∧ 2 ≤ Eg.length ∧ E ≠ [] := by
  unfold eNld at h
  by_cases h1 : Ex.length < 2 ∨ Eg.length < 2
  · rw [if_pos h1] at h; cases h
  rw [if_neg h1] at h
  simp only [] at h
  by_cases h2 : (!close (Ex.getD 1 0 - Ex.getD 0 0) (Eg.getD 1 0 - Eg.getD 0 0)) = true
  · rw [if_pos h2] at h; cases h
  rw [if_neg h2] at h
  by_cases h3 : Ex.getD 1 0 - Ex.getD 0 0 = 0
  · rw [if_pos h3] at h; cases h
  rw [if_neg h3] at h
  simp only [bind, Except.bind] at h
  cases a1 : listMin Ex with
  | error e => rw [a1] at h; cases h
  | ok exMin =>
  cases a2 : listMax Eg with
  | error e => rw [a1, a2] at h; cases h
  | ok egMax =>
  cases a3 : listMax Ex with
  | error e => rw [a1, a2, a3] at h; cases h
  | ok exMax =>
  cases a4 : listMin Eg with
  | error e => rw [a1, a2, a3, a4] at h; cases h
  | ok egMin =>
  rw [a1, a2, a3, a4] at h
  simp only [] at h
  have nx : Ex ≠ [] := by rintro rfl; simp at h1
  have ng : Eg ≠ [] := by rintro rfl; simp at h1
  obtain ⟨q1, m1, e1, b1⟩ := listMin_spec Ex nx
  obtain ⟨q2, m2, e2, b2⟩ := listMax_spec Eg ng
  obtain ⟨q3, m3, e3, b3⟩ := listMax_spec Ex nx
  obtain ⟨q4, m4, e4, b4⟩ := listMin_spec Eg ng
  rw [a1] at e1; cases e1
  rw [a2] at e2; cases e2
  rw [a3] at e3; cases e3
  rw [a4] at e4; cases e4
  have c1 : exMin ≤ exMax := b3 _ m1
  have c2 : egMin ≤ egMax := b2 _ m4
  refine ⟨by omega, by omega, ?_⟩
  have d : 0 ≤ (exMax - egMin - (exMin - egMax)) / (Ex.getD 1 0 - Ex.getD 0 0) := div_nonneg (by linarith) (by linarith)
  have d' : 0 ≤ truncZ ((⌈(exMax - egMin - (exMin - egMax)) / (Ex.getD 1 0 - Ex.getD 0 0)⌉ : ℤ) : ℚ) := by
    have := Int.ceil_nonneg d
    rw [truncZ_of_nonneg (by exact_mod_cast this), Int.floor_intCast]
    exact this
  rw [linspaceZ, if_neg (by omega)] at h
  simp only [Except.ok.injEq] at h
  intro hE
  have hl := congrArg List.length h
  rw [hE] at hl
  have hl' : ∀ (a b : ℚ) (n : ℕ), (linspace a b n).length = n := by
    intro a b n
    rw [linspace]
    by_cases hn : n = 1
    · rw [if_pos hn, hn]; rfl
    · rw [if_neg hn]; simp
  rw [hl', List.length_nil] at hl
  omega

/-- **C110.** The calls of `decompose`: for increasing excitation energies, a matrix and standard deviations of the shape of the axes, a resolution for each excitation energy (this is what
`diagonal_resolution` and `zeros_like(Ex)` give) and start values that pass the assertion, no evaluation of the error function reads outside of an array, whatever the point. -/
theorem C110_decompose_partial (close : ℚ → ℚ → Bool) (Ex Eg E res : List ℚ) (h : eNld close Ex Eg = .ok E) (hw : Ex.getD 0 0 < Ex.getD 1 0)
    (hr : res.length = Ex.length) (x : List α) (hx : x.length = E.length + Eg.length) (fact fit std : MemView α)
    (h1 : fact.nx = Ex.length ∧ fact.ny = Eg.length) (h2 : fit.nx = Ex.length ∧ fit.ny = Eg.length) (h3 : std.nx = Ex.length ∧ std.ny = Eg.length) :
    productC (x.drop Eg.length) (x.take Eg.length) res E Eg Ex = .ok (rawProduct (x.drop Eg.length) (x.take Eg.length) res E Eg Ex) ∧
      ∃ chi, chiDiagC fact fit std res Eg Ex = .ok chi := by
  obtain ⟨a, b, c⟩ := eNld_pos close Ex Eg E h hw
  refine ⟨(C110_product _ _ res E Eg Ex b c (by rw [List.length_drop]; omega) (by rw [List.length_take]; omega) (by omega)).1, ?_⟩
  exact ⟨_, (C110_chisquare_diagonal_iff fact fit std res Eg Ex).1 fun i hi => ⟨by omega, fun j hj _ =>
    ⟨MemView.has_of (by omega) (by omega), fun _ => ⟨MemView.has_of (by omega) (by omega), MemView.has_of (by omega) (by omega)⟩⟩⟩⟩

example : eNld (fun a b => isClose (some a) (some b)) [2, 3, 4] [1, 2, 3] = .ok [-1, 0, 1, 2, 3] := by decide +kernel

/-- **C110 (disagreement).** For decreasing axes of two bins with nearly equal widths the axis of the level density has no element, and with two start values - one for each gamma energy, as the
assertion demands - the error function reads foreign memory. -/
theorem C110_decompose_fails :
    eNld (fun a b => isClose (some a) (some b)) [11, 10] [999999 / 1000000, 0] = .ok [] ∧
      productC ([1, 1] : List ℚ).tail.tail [1, 1] [0, 0] [] [999999 / 1000000, 0] [11, 10] = .error .undefined := by
  decide +kernel

/-! ## rebin_1D -/

theorem readPy_of_lt {β : Type} (d : β) {l : List β} {i : ℕ} (h : i < l.length) : readPy l i = .ok (l.getD i d) := by
  rw [readPy, List.getElem?_eq_getElem h, List.getD_eq_getElem l d h]

theorem rebinScan_spec (counts : List ℚ) (a0in a1in a0out a1out : ℚ) (i n j : ℕ) (acc : ℚ) :
    (n = 0 ∨ j + n ≤ counts.length → rebinScan counts a0in a1in a0out a1out i n j acc =
      .ok (acc + ((List.range n).map fun k : ℕ => rebinTerm (fun j => counts.getD j 0) a0in a1in a0out a1out i (j + k)).sum)) ∧
    (¬ (n = 0 ∨ j + n ≤ counts.length) → rebinScan counts a0in a1in a0out a1out i n j acc = .error .indexError) := by
  induction n generalizing j acc with
  | zero => exact ⟨fun _ => by simp [rebinScan], fun h => absurd (Or.inl rfl) h⟩
  | succ n ih =>
    by_cases hj : j < counts.length
    · simp only [rebinScan, readPy_of_lt 0 hj]
      obtain ⟨a, b⟩ := ih (j + 1) (acc + rebinTerm (fun _ => counts.getD j 0) a0in a1in a0out a1out i j)
      refine ⟨fun h => ?_, fun h => b (by omega)⟩
      rw [a (by omega), List.range_succ_eq_map, List.map_cons, List.sum_cons, List.map_map]
      have e : rebinTerm (fun _ => counts.getD j 0) a0in a1in a0out a1out i j = rebinTerm (fun j => counts.getD j 0) a0in a1in a0out a1out i (j + 0) := rfl
      rw [e, add_assoc]
      congr 4
      refine List.map_congr_left fun k _ => ?_
      simp only [Function.comp]
      rw [show j + 1 + k = j + k.succ by omega]
    · have : readPy counts j = .error .indexError := by rw [readPy, List.getElem?_eq_none (by omega)]
      simp only [rebinScan, this]
      exact ⟨fun h => by omega, fun _ => by trivial⟩

/-- **C110.** `rebin_1D` raises IndexError for a missing count exactly if a bin that is needed for some output bin is missing; otherwise the missing counts do not matter. -/
theorem C110_rebin_iff (counts : List ℚ) (m0 m1 n0 n1 : ℚ) (ms ns : List ℚ) (hw : m1 - m0 ≠ 0) :
    let a0in := m0 - (m1 - m0) / 2
    let a0out := n0 - (n1 - n0) / 2
    let lo := fun i : ℕ => jminOf a0in (m1 - m0) a0out (n1 - n0) i
    let hi := fun i : ℕ => jmaxOf (m0 :: m1 :: ms).length a0in (m1 - m0) a0out (n1 - n0) i
    let inside := ∀ i < (n0 :: n1 :: ns).length, hi i < lo i ∨ hi i < counts.length
    (inside → rebin1DC counts (m0 :: m1 :: ms) (n0 :: n1 :: ns) =
      .ok ((List.range (n0 :: n1 :: ns).length).map (rebinBin (fun j => counts.getD j 0) (m0 :: m1 :: ms).length a0in (m1 - m0) a0out (n1 - n0)))) ∧
    (¬ inside → rebin1DC counts (m0 :: m1 :: ms) (n0 :: n1 :: ns) = .error .indexError) := by
  intro a0in a0out lo hi inside
  have lo0 : ∀ i, 0 ≤ lo i := fun i => le_max_left _ _
  have cond : ∀ i, ((hi i + 1 - lo i).toNat = 0 ∨ (lo i).toNat + (hi i + 1 - lo i).toNat ≤ counts.length) ↔ (hi i < lo i ∨ hi i < counts.length) := by
    intro i
    have := lo0 i
    omega
  have step : ∀ i, (hi i < lo i ∨ hi i < counts.length → rebinPassC counts (m0 :: m1 :: ms).length a0in (m1 - m0) a0out (n1 - n0) i =
      .ok (rebinBin (fun j => counts.getD j 0) (m0 :: m1 :: ms).length a0in (m1 - m0) a0out (n1 - n0) i)) ∧
      (¬ (hi i < lo i ∨ hi i < counts.length) → rebinPassC counts (m0 :: m1 :: ms).length a0in (m1 - m0) a0out (n1 - n0) i = .error .indexError) := by
    intro i
    obtain ⟨a, b⟩ := rebinScan_spec counts a0in (m1 - m0) a0out (n1 - n0) i (hi i + 1 - lo i).toNat (lo i).toNat 0
    refine ⟨fun h => ?_, fun h => b fun h' => h ((cond i).1 h')⟩
    have := a ((cond i).2 h)
    rw [zero_add] at this
    exact this
  have e : rebin1DC counts (m0 :: m1 :: ms) (n0 :: n1 :: ns) = (List.range (n0 :: n1 :: ns).length).mapM
      (rebinPassC counts (m0 :: m1 :: ms).length a0in (m1 - m0) a0out (n1 - n0)) := by
    simp only [rebin1DC, if_neg hw]
    rfl
  refine ⟨fun h => ?_, fun h => ?_⟩
  · rw [e]
    exact mapM_ok _ _ _ fun i hi => (step i).1 (h i (List.mem_range.1 hi))
  · rw [e]
    cases hm : (List.range (n0 :: n1 :: ns).length).mapM (rebinPassC counts (m0 :: m1 :: ms).length a0in (m1 - m0) a0out (n1 - n0)) with
    | error er =>
      have := mapM_err_all _ _ (· = .indexError) (fun i _ er' he => by
        by_cases hc : hi i < lo i ∨ hi i < counts.length
        · rw [(step i).1 hc] at he; cases he
        · rw [(step i).2 hc] at he; cases he; rfl) er hm
      rw [this]
    | ok l =>
      have hall := (mapM_forall_ok _ _).1 ⟨l, hm⟩
      refine absurd (fun i hi' => ?_) h
      by_contra hc
      obtain ⟨y, hy⟩ := hall i (List.mem_range.2 hi')
      rw [(step i).2 hc] at hy
      cases hy

/-- **C110.** With a count for each bin of the axis no access fails, and the result is that of the model of C01-C04. -/
theorem C110_rebin (counts midsIn midsOut : List ℚ) (h : midsIn.length ≤ counts.length) : rebin1DC counts midsIn midsOut = rebin1D counts midsIn midsOut := by
  match midsIn, midsOut with
  | [], _ => rfl
  | [_], _ => rfl
  | _ :: _ :: _, [] => rfl
  | _ :: _ :: _, [_] => rfl
  | m0 :: m1 :: ms, n0 :: n1 :: ns =>
    by_cases hw : m1 - m0 = 0
    · simp only [rebin1DC, rebin1D, if_pos hw]
    · rw [(C110_rebin_iff counts m0 m1 n0 n1 ms ns hw).1 fun i _ => Or.inr ?_]
      · simp only [rebin1D, if_neg hw, if_neg (not_lt.2 h)]
      · have : jmaxOf (m0 :: m1 :: ms).length (m0 - (m1 - m0) / 2) (m1 - m0) (n0 - (n1 - n0) / 2) (n1 - n0) i ≤ ((m0 :: m1 :: ms).length : ℤ) - 1 := min_le_left _ _
        dsimp only
        omega

example : rebin1DC [1, 2, 3, 4] [0, 1, 2, 3] [1 / 2, 5 / 2] = .ok [3, 7] := by decide +kernel

/-- **C110 (disagreement).** Counts that are too few for the axis are accepted if the bins that are missing are not needed. -/
theorem C110_rebin_fails : rebin1DC [1, 2, 3] [0, 1, 2, 3, 4, 5] [0, 1] = .ok [1, 2] ∧ rebin1DC [1, 2] [0, 1, 2, 3, 4, 5] [0, 1] = .error .indexError := by
  decide +kernel

/-! ## The arrays of rhosigchi.cpp -/

/-- **C110 (disagreement).** The two-dimensional arrays of `rhosigchi.cpp` test the row only: a column beyond the end is an element of the next row, one before the beginning an element of the row
before.  No exception is raised; only outside of the whole block the access is undefined. -/
theorem C110_cpp_fails (nx ny i j : ℕ) (hj : j < ny) :
    (i + 1 < nx → cppAccess.arr nx ny i (ny + j) = .ok ((i + 1) * ny + j)) ∧ (i + 1 < nx → cppAccess.arr nx ny (i + 1) ((j : ℤ) - ny) = .ok (i * ny + j)) ∧
      (i + 1 = nx → cppAccess.arr nx ny i (ny + j) = .error .undefined) ∧ (0 < nx → cppAccess.arr nx ny 0 ((j : ℤ) - ny) = .error .undefined) := by
  have key : ∀ a b : ℕ, a < b → (a + 1) * ny ≤ b * ny := fun a b h => Nat.mul_le_mul_right _ h
  refine ⟨fun h => ?_, fun h => ?_, fun h => ?_, fun h => ?_⟩
  · have k := key (i + 1) nx h
    have e : (i : ℤ) * ny + (ny + j) = (((i + 1) * ny + j : ℕ) : ℤ) := by push_cast; ring
    rw [Nat.succ_mul] at k
    simp only [cppAccess, e]
    rw [if_neg (by omega), if_neg, Int.toNat_natCast]
    have : ((nx * ny : ℕ) : ℤ) = (nx : ℤ) * ny := by push_cast; rfl
    omega
  · have k := key i nx (by omega)
    have e : ((i : ℤ) + 1) * ny + ((j : ℤ) - ny) = ((i * ny + j : ℕ) : ℤ) := by push_cast; ring
    rw [Nat.succ_mul] at k
    simp only [cppAccess, e]
    rw [if_neg (by omega), if_neg, Int.toNat_natCast]
    have : ((nx * ny : ℕ) : ℤ) = (nx : ℤ) * ny := by push_cast; rfl
    omega
  · have e : (i : ℤ) * ny + (ny + j) = (((i + 1) * ny + j : ℕ) : ℤ) := by push_cast; ring
    simp only [cppAccess, e]
    rw [if_neg (by omega), if_pos]
    have : ((nx * ny : ℕ) : ℤ) = (nx : ℤ) * ny := by push_cast; rfl
    rw [← h] at this ⊢
    omega
  · simp only [cppAccess]
    rw [if_neg (by omega), if_pos (by omega)]

example : cppAccess.arr 3 4 1 5 = .ok 9 := by decide +kernel

end Ompy
