import Verif.PeakRounding
import Verif.SumRoundingProps

/-!
# C150: discrete peaks of the response with rounded numbers
-/

namespace Ompy

theorem npIndex_lt {n : ℕ} {i : ℤ} {k : ℕ} (h : npIndex n i = .ok k) : k < n := by
  unfold npIndex at h
  split_ifs at h
  all_goals (cases h; omega)

theorem sum_set_rat (l : List ℚ) : ∀ (k : ℕ), k < l.length → ∀ y : ℚ, (l.set k y).sum = l.sum - l.getD k 0 + y := by
  induction l with
  | nil => intro k hk; simp at hk
  | cons a l ih =>
    intro k hk y
    cases k with
    | zero => simp; ring
    | succ k =>
      have := ih k (by simpa using hk) y
      simp only [List.set_cons_succ, List.sum_cons, this, List.getD_cons_succ]
      ring

/-- Adding to one channel: lengths and signs are kept, and the sum is right up to one rounding. -/
theorem addAtF_spec {fl : ℚ → ℚ} {u : ℚ} (hfl : Rounding fl u) (hu : 0 ≤ u) (hu1 : u < 1) {l l' : List ℚ} {i : ℤ} {x : ℚ}
    (h0 : ∀ q ∈ l, 0 ≤ q) (hx : 0 ≤ x) (h : addAtF fl l i x = .ok l') :
    l'.length = l.length ∧ (∀ q ∈ l', 0 ≤ q) ∧ Within u 1 (l.sum + x) l'.sum := by
  unfold addAtF at h
  rcases hk : npIndex l.length i with e | k
  · rw [hk] at h; cases h
  · rw [hk] at h
    have hl : l.set k (fl (l.getD k 0 + x)) = l' := by cases h; rfl
    subst hl
    have kl := npIndex_lt hk
    have g0 : 0 ≤ l.getD k 0 := by
      rw [List.getD_eq_getElem _ _ kl]; exact h0 _ (List.getElem_mem kl)
    have w : Within u 1 (l.getD k 0 + x) (fl (l.getD k 0 + x)) := Within.rounded hu hu1 hfl (by linarith)
    have n := w.nonneg hu1 (by linarith)
    refine ⟨by simp, ?_, ?_⟩
    · intro q hq
      rcases List.mem_or_eq_of_mem_set hq with h | h
      · exact h0 q h
      · rw [h]; exact n
    · rw [sum_set_rat l k kl]
      have rest : 0 ≤ l.sum - l.getD k 0 := by
        have := sum_set_rat l k kl 0
        rw [add_zero] at this
        rw [← this]
        apply List.sum_nonneg
        intro q hq
        rcases List.mem_or_eq_of_mem_set hq with h | h
        · exact h0 q h
        · rw [h]
      have := Within.add (Within.mono hu hu1 (Within.refl' (u := u) (l.sum - l.getD k 0)) rest (Nat.zero_le 1)) w
      convert this using 1
      ring

/-- The fraction in the upper channel is between 0 and 1. -/
theorem splitF_fraction {fl : ℚ → ℚ} {u : ℚ} (hfl : Rounding fl u) (h1 : fl 1 = 1) {E : ℚ} {arr : List ℚ} {s : ℤ × ℤ × ℚ}
    (h : splitF fl E arr = .ok s) : 0 ≤ s.2.2 ∧ s.2.2 ≤ 1 := by
  have hb : ∀ b : ℚ, 0 ≤ fl (b - ⌊b⌋) ∧ fl (b - ⌊b⌋) ≤ 1 := by
    intro b
    have x0 := hfl.mono (Int.fract_nonneg b)
    have x1 := hfl.mono (Int.fract_lt_one b).le
    rw [hfl.zero] at x0
    rw [h1] at x1
    exact ⟨x0, x1⟩
  unfold splitF at h
  split at h
  · split_ifs at h with hz
    have hs := Except.ok.inj h
    subst hs
    exact hb _
  · cases h

/-- **C150.** One peak, on any axis and in any array without negative contents: if it can be added, no content becomes negative, and
the total grows by the content of the peak up to four roundings. -/
theorem C150_peak (fl : ℚ → ℚ) (u : ℚ) (hfl : Rounding fl u) (hu : 0 ≤ u) (hu1 : u < 1) (h1 : fl 1 = 1) (l l' Eout : List ℚ)
    (E p : ℚ) (h0 : ∀ q ∈ l, 0 ≤ q) (hp : 0 ≤ p) (h : addPeakF fl l Eout E p = .ok l') :
    l'.length = l.length ∧ (∀ q ∈ l', 0 ≤ q) ∧ Within u 4 (l.sum + p) l'.sum := by
  unfold addPeakF at h
  rcases hs : splitF fl E Eout with e | s
  · rw [hs] at h; cases h
  rw [hs] at h
  obtain ⟨d0, d1⟩ := splitF_fraction hfl h1 hs
  have w1 : Within u 1 (1 - s.2.2) (fl (1 - s.2.2)) := Within.rounded hu hu1 hfl (by linarith)
  have w2 : Within u 1 ((1 - s.2.2) * p) (fl (1 - s.2.2) * p) := by
    have := Within.mul hu1 w1 (Within.refl' (u := u) p) (by linarith) hp
    simpa using this
  have n2 := w2.nonneg hu1 (mul_nonneg (by linarith) hp)
  have w3 : Within u 2 ((1 - s.2.2) * p) (fl (fl (1 - s.2.2) * p)) := w2.trans hu1 (Within.rounded hu hu1 hfl n2)
  have n3 := w3.nonneg hu1 (mul_nonneg (by linarith) hp)
  have w4 : Within u 1 (s.2.2 * p) (fl (s.2.2 * p)) := Within.rounded hu hu1 hfl (mul_nonneg d0 hp)
  have n4 := w4.nonneg hu1 (mul_nonneg d0 hp)
  have h2 : (addAtF fl l s.1 (fl (fl (1 - s.2.2) * p)) >>= fun l => addAtF fl l s.2.1 (fl (s.2.2 * p))) = .ok l' := h
  rcases ha : addAtF fl l s.1 (fl (fl (1 - s.2.2) * p)) with e | m
  · rw [ha] at h2; cases h2
  have hb : addAtF fl m s.2.1 (fl (s.2.2 * p)) = .ok l' := by
    rw [ha] at h2; exact h2
  obtain ⟨a1, a2, a3⟩ := addAtF_spec hfl hu hu1 h0 n3 ha
  obtain ⟨b1, b2, b3⟩ := addAtF_spec hfl hu hu1 a2 n4 hb
  have s0 : 0 ≤ l.sum := List.sum_nonneg h0
  refine ⟨b1.trans a1, b2, ?_⟩
  have x1 : Within u 2 (l.sum + (1 - s.2.2) * p) (l.sum + fl (fl (1 - s.2.2) * p)) :=
    Within.add (Within.mono hu hu1 (Within.refl' l.sum) s0 (Nat.zero_le 2)) w3
  have x2 : Within u 3 (l.sum + (1 - s.2.2) * p) m.sum := x1.trans hu1 a3
  have x3 : Within u 3 (l.sum + (1 - s.2.2) * p + s.2.2 * p) (m.sum + fl (s.2.2 * p)) :=
    Within.add x2 (Within.mono hu hu1 w4 (mul_nonneg d0 hp) (by norm_num))
  have x4 := x3.trans hu1 b3
  convert x4 using 1
  ring

theorem optPeakF_spec {fl : ℚ → ℚ} {u : ℚ} (hfl : Rounding fl u) (hu : 0 ≤ u) (hu1 : u < 1) (h1 : fl 1 = 1) {c : Prop}
    [Decidable c] {l l' Eout : List ℚ} {E p x : ℚ} {k : ℕ} (h0 : ∀ q ∈ l, 0 ≤ q) (hp : 0 ≤ p) (hx : 0 ≤ x)
    (w : Within u k x l.sum) (h : optPeakF fl c l Eout E p = .ok l') :
    l'.length = l.length ∧ (∀ q ∈ l', 0 ≤ q) ∧ Within u (k + 4) (x + if c then p else 0) l'.sum := by
  unfold optPeakF at h
  split_ifs at h with hc
  · obtain ⟨a, b, e⟩ := C150_peak fl u hfl hu hu1 h1 l l' Eout E p h0 hp h
    refine ⟨a, b, ?_⟩
    rw [if_pos hc]
    have : Within u k (x + p) (l.sum + p) :=
      Within.add w (Within.mono hu hu1 (Within.refl' p) hp (Nat.zero_le k))
    exact this.trans hu1 e
  · cases h
    refine ⟨rfl, h0, ?_⟩
    rw [if_neg hc, add_zero]
    exact w.mono hu hu1 hx (by omega)

/-- **C150.** All discrete peaks of a channel, on any axis: if they can be added, there is one number per channel, none is negative, and
they add up to the probabilities of the peaks on the axis, up to twelve roundings. -/
theorem C150_content (fl : ℚ → ℚ) (u : ℚ) (hfl : Rounding fl u) (hu : 0 ≤ u) (hu1 : u < 1) (h1 : fl 1 = 1)
    (pFE pSE pDE p511 : ℚ) (hF : 0 ≤ pFE) (hS : 0 ≤ pSE) (hD : 0 ≤ pDE) (hA : 0 ≤ p511) (Eout : List ℚ) (i : ℕ) (r : List ℚ)
    (h : discretePeaksF fl pFE pSE pDE p511 Eout i = .ok r) :
    r.length = Eout.length ∧ (∀ q ∈ r, 0 ≤ q) ∧ Within u 12 (pFE +
      (if 0 ≤ fl (Eout.getD i 0 - 511) ∧ Eout.getD 0 0 ≤ fl (Eout.getD i 0 - 511) then pSE else 0) +
      (if 0 ≤ fl (Eout.getD i 0 - 1022) ∧ Eout.getD 0 0 ≤ fl (Eout.getD i 0 - 1022) then pDE else 0) +
      (if 511 < Eout.getD i 0 ∧ Eout.getD 0 0 ≤ 511 then p511 else 0)) r.sum := by
  unfold discretePeaksF at h
  by_cases hi : Eout.length ≤ i
  · rw [if_pos hi] at h; cases h
  rw [if_neg hi] at h
  have h' : (do
      let l ← optPeakF fl (0 ≤ fl (Eout.getD i 0 - 511) ∧ Eout.getD 0 0 ≤ fl (Eout.getD i 0 - 511))
        ((List.replicate Eout.length (0 : ℚ)).set i pFE) Eout (fl (Eout.getD i 0 - 511)) pSE
      let l ← optPeakF fl (0 ≤ fl (Eout.getD i 0 - 1022) ∧ Eout.getD 0 0 ≤ fl (Eout.getD i 0 - 1022)) l Eout
        (fl (Eout.getD i 0 - 1022)) pDE
      optPeakF fl (511 < Eout.getD i 0 ∧ Eout.getD 0 0 ≤ 511) l Eout 511 p511) = .ok r := h
  have z0 : ∀ q ∈ (List.replicate Eout.length (0 : ℚ)).set i pFE, 0 ≤ q := by
    intro q hq
    rcases List.mem_or_eq_of_mem_set hq with h | h
    · rw [List.eq_of_mem_replicate h]
    · rw [h]; exact hF
  have zs : ((List.replicate Eout.length (0 : ℚ)).set i pFE).sum = pFE := by
    rw [sum_set_rat _ i (by simpa using hi)]
    simp
  have zl : ((List.replicate Eout.length (0 : ℚ)).set i pFE).length = Eout.length := by simp
  generalize (List.replicate Eout.length (0 : ℚ)).set i pFE = l0 at h' z0 zs zl
  rcases e1 : optPeakF fl (0 ≤ fl (Eout.getD i 0 - 511) ∧ Eout.getD 0 0 ≤ fl (Eout.getD i 0 - 511)) l0 Eout
    (fl (Eout.getD i 0 - 511)) pSE with e | l1
  · rw [e1] at h'; cases h'
  rw [e1] at h'
  rcases e2 : optPeakF fl (0 ≤ fl (Eout.getD i 0 - 1022) ∧ Eout.getD 0 0 ≤ fl (Eout.getD i 0 - 1022)) l1 Eout
    (fl (Eout.getD i 0 - 1022)) pDE with e | l2
  · change (optPeakF fl _ l1 Eout _ pDE >>= _) = _ at h'
    rw [e2] at h'; cases h'
  change (optPeakF fl _ l1 Eout _ pDE >>= _) = _ at h'
  rw [e2] at h'
  change optPeakF fl _ l2 Eout 511 p511 = .ok r at h'
  obtain ⟨a1, a2, a3⟩ := optPeakF_spec hfl hu hu1 h1 (x := pFE) (k := 0) z0 hS hF (by rw [zs]; exact Within.refl' _) e1
  have i1 : 0 ≤ pFE + if 0 ≤ fl (Eout.getD i 0 - 511) ∧ Eout.getD 0 0 ≤ fl (Eout.getD i 0 - 511) then pSE else 0 := by
    split_ifs <;> linarith
  obtain ⟨b1, b2, b3⟩ := optPeakF_spec hfl hu hu1 h1 a2 hD i1 a3 e2
  have i2 := add_nonneg i1 (by split_ifs <;> linarith : (0 : ℚ) ≤
    if 0 ≤ fl (Eout.getD i 0 - 1022) ∧ Eout.getD 0 0 ≤ fl (Eout.getD i 0 - 1022) then pDE else 0)
  obtain ⟨c1, c2, c3⟩ := optPeakF_spec hfl hu hu1 h1 b2 hA i2 b3 h'
  exact ⟨c1.trans (b1.trans (a1.trans zl)), c2, c3⟩

example : discretePeaksF dbl (1 / 2) (1 / 4) (1 / 8) (1 / 8) [0, 600, 1200, 1800] 3 ≠ .error .indexError ∧
    dbl 1 = 1 := by decide +kernel

/-- **C150.** Where a peak is put: in two neighbouring channels or one, and the centroid of the two parts is the exact position up to the
error of three roundings of the position and one of the fraction. -/
theorem C150_place (fl : ℚ → ℚ) (u : ℚ) (hfl : Rounding fl u) (hu : 0 ≤ u) (hu1 : u < 1) (h1 : fl 1 = 1) (E e0 e1 : ℚ)
    (rest : List ℚ) (he : e0 < e1) (hE : e0 ≤ E) :
    ∃ (i j : ℤ) (d b : ℚ), splitF fl E (e0 :: e1 :: rest) = .ok (i, j, d) ∧ 0 ≤ i ∧ 0 ≤ d ∧ d ≤ 1 ∧
      (j = i ∧ d = 0 ∨ j = i + 1) ∧ Within u 3 ((E - e0) / (e1 - e0)) b ∧ |(1 - d) * i + d * j - b| ≤ u ∧ (j : ℚ) < b + 1 := by
  have w1 : Within u 1 (E - e0) (fl (E - e0)) := Within.rounded hu hu1 hfl (by linarith)
  have w2 : Within u 1 (e1 - e0) (fl (e1 - e0)) := Within.rounded hu hu1 hfl (by linarith)
  have p2 : 0 < fl (e1 - e0) := (w2.pos_iff hu1).1 (by linarith)
  have w3 := Within.div hu1 w1 w2 (by linarith) (by linarith : 0 < e1 - e0)
  have q0 : 0 ≤ (E - e0) / (e1 - e0) := div_nonneg (by linarith) (by linarith)
  have w4 : Within u 3 ((E - e0) / (e1 - e0)) (fl (fl (E - e0) / fl (e1 - e0))) :=
    w3.trans hu1 (Within.rounded hu hu1 hfl (w3.nonneg hu1 q0))
  have b0 := w4.nonneg hu1 q0
  have hs : splitF fl E (e0 :: e1 :: rest) = .ok (⌊fl (fl (E - e0) / fl (e1 - e0))⌋, ⌈fl (fl (E - e0) / fl (e1 - e0))⌉,
      fl (fl (fl (E - e0) / fl (e1 - e0)) - ⌊fl (fl (E - e0) / fl (e1 - e0))⌋)) := by
    unfold splitF
    simp only
    rw [if_neg p2.ne']
  obtain ⟨d0, d1⟩ := splitF_fraction hfl h1 hs
  generalize fl (fl (E - e0) / fl (e1 - e0)) = b at *
  have fb0 : 0 ≤ b - (⌊b⌋ : ℚ) := Int.fract_nonneg b
  have fb1 : b - (⌊b⌋ : ℚ) < 1 := Int.fract_lt_one b
  have rd := hfl.rel (b - (⌊b⌋ : ℚ))
  rw [abs_of_nonneg fb0] at rd
  have rd' : |fl (b - (⌊b⌋ : ℚ)) - (b - (⌊b⌋ : ℚ))| ≤ u := rd.trans (by nlinarith)
  refine ⟨⌊b⌋, ⌈b⌉, fl (b - ⌊b⌋), b, hs, Int.floor_nonneg.2 b0, d0, d1, ?_, w4, ?_, ?_⟩
  · by_cases hz : b = (⌊b⌋ : ℚ)
    · left
      have hc : ⌈b⌉ = ⌊b⌋ := by
        conv_lhs => rw [hz]
        exact Int.ceil_intCast _
      refine ⟨hc, ?_⟩
      rw [show b - (⌊b⌋ : ℚ) = 0 by linarith, hfl.zero]
    · right
      rw [Int.ceil_eq_iff]
      push_cast
      have : (⌊b⌋ : ℚ) ≤ b := Int.floor_le b
      have h3 : (⌊b⌋ : ℚ) < b := lt_of_le_of_ne this (Ne.symm hz)
      constructor <;> linarith
  · by_cases hz : b = (⌊b⌋ : ℚ)
    · have hc : ⌈b⌉ = ⌊b⌋ := by
        conv_lhs => rw [hz]
        exact Int.ceil_intCast _
      rw [hc, show b - (⌊b⌋ : ℚ) = 0 by linarith, hfl.zero]
      rw [show (1 - (0 : ℚ)) * ⌊b⌋ + 0 * ⌊b⌋ - b = 0 by linarith, abs_zero]
      exact hu
    · have hc : ⌈b⌉ = ⌊b⌋ + 1 := by
        rw [Int.ceil_eq_iff]
        push_cast
        have h3 : (⌊b⌋ : ℚ) < b := lt_of_le_of_ne (Int.floor_le b) (Ne.symm hz)
        constructor <;> linarith
      rw [hc]
      push_cast
      rw [show (1 - fl (b - (⌊b⌋ : ℚ))) * ⌊b⌋ + fl (b - (⌊b⌋ : ℚ)) * (⌊b⌋ + 1) - b =
        fl (b - (⌊b⌋ : ℚ)) - (b - (⌊b⌋ : ℚ)) by ring]
      exact rd'
  · exact Int.ceil_lt_add_one b

theorem npIndex_ok {n : ℕ} {i : ℤ} (h0 : 0 ≤ i) (h1 : i < n) : npIndex n i = .ok i.toNat := by
  unfold npIndex
  split_ifs <;> first | rfl | omega

/-- **C150.** A peak whose exact position is at least one channel below the last is added without index error, if the number of channels is
small against `1/u` (for doubles: up to `3 · 10¹⁵`). Full statement: every peak on the axis. -/
theorem C150_index_partial (fl : ℚ → ℚ) (u : ℚ) (hfl : Rounding fl u) (hu : 0 ≤ u) (hu1 : u < 1) (h1 : fl 1 = 1) (l : List ℚ)
    (E p e0 e1 : ℚ) (rest : List ℚ) (hl : l.length = rest.length + 2) (he : e0 < e1) (hE : e0 ≤ E)
    (hend : (E - e0) / (e1 - e0) ≤ (rest.length : ℚ)) (hn : 3 * u * (rest.length + 1) ≤ 1) :
    ∃ l', addPeakF fl l (e0 :: e1 :: rest) E p = .ok l' := by
  obtain ⟨i, j, d, b, hs, i0, -, -, hij, w, -, hj⟩ := C150_place fl u hfl hu hu1 h1 E e0 e1 rest he hE
  have hb : b ≤ rest.length + 1 := by
    have b3 := one_add_mul_le_pow (show (-2 : ℚ) ≤ -u by linarith) 3
    rw [← sub_eq_add_neg] at b3
    push_cast at b3
    have p3 : (0 : ℚ) < (1 - u) ^ 3 := pow_pos (by linarith) 3
    have hr : (0 : ℚ) ≤ rest.length := Nat.cast_nonneg _
    have key : (1 - u) ^ 3 * b ≤ (1 - u) ^ 3 * (rest.length + 1) := by
      calc (1 - u) ^ 3 * b ≤ (E - e0) / (e1 - e0) := w.2
        _ ≤ rest.length := hend
        _ ≤ (1 + 3 * -u) * (rest.length + 1) := by linarith
        _ ≤ _ := mul_le_mul_of_nonneg_right b3 (by linarith)
    exact le_of_mul_le_mul_left key p3
  have jn : j < (rest.length : ℤ) + 2 := by
    have : (j : ℚ) < ((rest.length : ℤ) + 2 : ℤ) := by push_cast; linarith
    exact_mod_cast this
  have ij : i ≤ j := by rcases hij with ⟨h, -⟩ | h <;> omega
  unfold addPeakF
  rw [hs]
  have a1 : addAtF fl l i (fl (fl (1 - d) * p)) = .ok (l.set i.toNat (fl (l.getD i.toNat 0 + fl (fl (1 - d) * p)))) := by
    unfold addAtF
    rw [npIndex_ok i0 (by rw [hl]; push_cast; omega)]
    rfl
  set m := l.set i.toNat (fl (l.getD i.toNat 0 + fl (fl (1 - d) * p))) with hm
  have ml : m.length = l.length := by simp [hm]
  have a2 : addAtF fl m j (fl (d * p)) = .ok (m.set j.toNat (fl (m.getD j.toNat 0 + fl (d * p)))) := by
    unfold addAtF
    rw [npIndex_ok (by omega) (by rw [ml, hl]; push_cast; omega)]
    rfl
  refine ⟨m.set j.toNat (fl (m.getD j.toNat 0 + fl (d * p))), ?_⟩
  show (addAtF fl l i (fl (fl (1 - d) * p)) >>= fun l => addAtF fl l j (fl (d * p))) = _
  rw [a1]
  exact a2

example : addPeakF dbl [0, 0, 0, 0] [0, 600, 1200, 1800] 1100 (1 / 4) ≠ .error .indexError := by decide +kernel

/-- The axis `32.8 + 159.4 k` for `k = 0, …, 3` in doubles. The last energy is the double above 511. -/
def axis511 : List ℚ := (List.range 4).map fun k : ℕ => dbl (dbl (164 / 5) + dbl (dbl (797 / 5) * k))

/-- **C150, the full statement fails:** on the axis with four channels, first energy 32.8 keV and width 159.4 keV, the last energy comes
out above 511 keV by rounding, so that an annihilation peak is added; its computed position is above the last channel, and
`discrete_peaks` raises an IndexError. With exact numbers it does not. -/
theorem C150_index_fails :
    discretePeaksF dbl (1 / 2) (1 / 4) (1 / 8) (1 / 8) axis511 3 = .error .indexError ∧
      axis511.getD 3 0 = 511 + 1 / 2 ^ 44 ∧
      discretePeaksF id (1 / 2) (1 / 4) (1 / 8) (1 / 8) [164 / 5, 961 / 5, 1758 / 5, 511] 3 = .ok [0, 0, 0, 1 / 2] := by
  decide +kernel

theorem addPeakF_id (l Eout : List ℚ) (E p : ℚ) : addPeakF id l Eout E p = addPeak l Eout E p := by
  have hs : splitF id E Eout = twoChannelSplit E Eout := by
    unfold splitF twoChannelSplit
    rfl
  unfold addPeakF addPeak
  rw [hs]
  rfl

theorem optPeakF_id (c : Prop) [Decidable c] (l Eout : List ℚ) (E p : ℚ) : optPeakF id c l Eout E p = optPeak c l Eout E p := by
  unfold optPeakF optPeak
  rw [addPeakF_id]

/-- **C150.** Without rounding it is the model of C43. -/
theorem C150_exact (pFE pSE pDE p511 : ℚ) (Eout : List ℚ) (i : ℕ) :
    discretePeaksF id pFE pSE pDE p511 Eout i = discretePeaks pFE pSE pDE p511 Eout i := by
  have e : (1022 : ℚ) = 2 * 511 := by norm_num
  unfold discretePeaksF discretePeaks
  simp only [optPeakF_id, id, e]

end Ompy
