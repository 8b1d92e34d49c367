import Verif.Samples
import Verif.EnsNormProps

/-!
# Properties of the samples

C72, C73.
-/

namespace Ompy

/-! ## The table of samples -/

/-- The vector an argument gives for row `i`. -/
def VecArg.vecFor : VecArg → ℕ → Option (Vec ℝ)
  | .missing, _ => none
  | .one v, _ => some v
  | .many l, i => l[i]?

/-- The number of rows a call is to give: that of the list `gsf`, or `min(n, N_max)` for a single vector; `nld`
decides if there is no `gsf`. -/
def rowsWanted (nld gsf : VecArg) (n : ℕ) (nMax : ℤ) : Option ℤ :=
  match gsf, nld with
  | .one _, _ => some (min (n : ℤ) nMax)
  | .many l, _ => some l.length
  | .missing, .one _ => some (min (n : ℤ) nMax)
  | .missing, .many l => some l.length
  | .missing, .missing => none

/-- Column `key` has the entry `x` at row `k`. -/
def Samples.entry (s : Samples) (key : String) (k : ℕ) (x : ℝ) : Prop :=
  ∃ c, s.find? (·.1 = key) = some c ∧ c.2[k]? = some x

theorem filterMap_full {α β : Type} (f : α → Option β) (l : List α) (h : (l.filterMap f).length = l.length) :
    ∀ (i : ℕ) (h1 : i < l.length) (h2 : i < (l.filterMap f).length), f l[i] = some (l.filterMap f)[i] := by
  induction l with
  | nil => intro i h1; simp at h1
  | cons x l ih =>
    cases hx : f x with
    | none =>
      rw [List.filterMap_cons_none hx] at h
      have := List.length_filterMap_le f l
      simp at h
      omega
    | some y =>
      have he := List.filterMap_cons_some (l := l) hx
      rw [he] at h
      simp only [List.length_cons, Nat.add_right_cancel_iff] at h
      intro i h1 h2
      cases i with
      | zero =>
        simp only [List.getElem_cons_zero]
        rw [hx]
        simp only [he, List.getElem_cons_zero]
      | succ i =>
        simp only [List.getElem_cons_succ]
        have := ih h i (by simpa using h1) (by rw [he] at h2; simpa using h2)
        rw [this]
        simp only [he, List.getElem_cons_succ]

theorem filterMap_all {α β : Type} (f : α → Option β) (l : List α) (h : ∀ x ∈ l, ∃ y, f x = some y) :
    (l.filterMap f).length = l.length := by
  induction l with
  | nil => rfl
  | cons x l ih =>
    obtain ⟨y, hy⟩ := h x (by simp)
    rw [List.filterMap_cons_some hy]
    simp [ih (fun z hz => h z (by simp [hz]))]

theorem transformed_some {a : VecArg} {c al : List ℝ} {i k : ℕ} {w : Vec ℝ} :
    a.transformed c al i k = some w ↔
      ∃ v x y, a.vecFor i = some v ∧ c[k]? = some x ∧ al[k]? = some y ∧ w = v.transformR x y := by
  have he : a.pick i = a.vecFor i := by cases a <;> rfl
  unfold VecArg.transformed
  rw [he]
  cases a.vecFor i with
  | none => simp
  | some v =>
  cases c[k]? with
  | none => simp
  | some x =>
  cases al[k]? with
  | none => simp
  | some y =>
    simp only [Option.some.injEq]
    constructor
    · intro h; exact ⟨v, x, y, rfl, rfl, rfl, h.symm⟩
    · rintro ⟨v', x', y', rfl, rfl, rfl, h⟩; exact h.symm

theorem columns_ok {a : VecArg} {s : Samples} {const : String} {p : List ℝ × List ℝ}
    (h : a.columns s const = .ok p) {i k : ℕ} {w : Vec ℝ} (hw : a.transformed p.1 p.2 i k = some w) :
    ∃ v x y, a.vecFor i = some v ∧ s.entry const k x ∧ s.entry "alpha" k y ∧ w = v.transformR x y := by
  obtain ⟨v, x, y, h1, h2, h3, h4⟩ := transformed_some.1 hw
  have key : (do
      let c ← s.get const
      let al ← s.get "alpha"
      pure (c, al) : Except Err (List ℝ × List ℝ)) = .ok p := by
    cases a with
    | missing => simp [VecArg.vecFor] at h1
    | one v => exact h
    | many l => exact h
  unfold Samples.get at key
  cases e1 : s.find? (·.1 = const) with
  | none => rw [e1] at key; simp [bind, Except.bind] at key
  | some c =>
  cases e2 : s.find? (·.1 = "alpha") with
  | none => rw [e1, e2] at key; simp [bind, Except.bind] at key
  | some al =>
    rw [e1, e2] at key
    simp only [bind, Except.bind, pure, Except.pure, Except.ok.injEq] at key
    subst key
    exact ⟨v, x, y, h1, ⟨c, e1, h2⟩, ⟨al, e2, h3⟩, h4⟩

theorem count_wanted (nld gsf : VecArg) (n : ℕ) (nMax : ℤ) :
    ((gsf.count n nMax).orElse fun _ => nld.count n nMax) = rowsWanted nld gsf n nMax := by
  cases gsf <;> cases nld <;> rfl

theorem zipWith3_getElem {α β γ δ : Type} (f : α → β → γ → δ) : ∀ (a : List α) (b : List β) (c : List γ),
    b.length = a.length → c.length = a.length → (List.zipWith3 f a b c).length = a.length ∧
      ∀ (i : ℕ) (h : i < (List.zipWith3 f a b c).length) (h1 : i < a.length) (h2 : i < b.length) (h3 : i < c.length),
        (List.zipWith3 f a b c)[i] = f a[i] b[i] c[i]
  | [], [], [], _, _ => by simp [List.zipWith3]
  | x :: a, y :: b, z :: c, h1, h2 => by
    obtain ⟨k1, k2⟩ := zipWith3_getElem f a b c (by simpa using h1) (by simpa using h2)
    refine ⟨by simp [List.zipWith3, k1], ?_⟩
    intro i h q1 q2 q3
    cases i with
    | zero => rfl
    | succ i =>
      simp only [List.zipWith3, List.getElem_cons_succ]
      exact k2 i (by simpa [List.zipWith3] using h) (by simpa using q1) (by simpa using q2) (by simpa using q3)
  | [], _ :: _, _, h, _ => by simp at h
  | [], [], _ :: _, _, h => by simp at h
  | _ :: _, [], _, h, _ => by simp at h
  | _ :: _, _ :: _, [], _, h => by simp at h

/-- **C72.** Each row of the result holds the parameters of one sample and the vectors transformed with exactly
these parameters: the constant `A` and the slope for the level density, `B` and the same slope for the
strength function. The rows are the first ones in the random order; no sample is used twice; the number is
that of the vectors of a list and at most `N_max` for single vectors. Vectors and parameters are never
mismatched: the exceptions swallowed in the loop end in an error. -/
theorem C72_rows (s : Samples) (nld gsf : VecArg) (nMax : ℤ) (order : List ℕ) (rows : List SampleRow) (n : ℕ)
    (hn : s.head?.map (·.2.length) = some n) (ho : order.Perm (List.range n))
    (h : transformSamples s nld gsf nMax order = .ok rows) :
    (∃ N, rowsWanted nld gsf n nMax = some N ∧ rows.length = N.toNat ∧ N ≤ n) ∧ (rows.map (·.label)).Nodup ∧
    ∀ (i : ℕ) (hi : i < rows.length), ∃ (k : ℕ) (v g : Vec ℝ) (A B alpha : ℝ),
      order[i]? = some k ∧ rows[i].label = k ∧
      rows[i].pars.map (·.1) = s.map (·.1) ∧
      (∀ c ∈ s, ∃ x, c.2[k]? = some x ∧ (c.1, x) ∈ rows[i].pars) ∧
      nld.vecFor i = some v ∧ gsf.vecFor i = some g ∧
      s.entry "A" k A ∧ s.entry "B" k B ∧ s.entry "alpha" k alpha ∧
      rows[i].nld = v.transformR A alpha ∧ rows[i].gsf = g.transformR B alpha := by
  have hol : order.length = n := by rw [ho.length_eq]; simp
  have hond : order.Nodup := ho.nodup_iff.2 List.nodup_range
  unfold transformSamples at h
  cases hh : s.head? with
  | none => rw [hh] at hn; simp at hn
  | some c0 =>
  rw [hh] at h hn
  simp only [Option.map_some, Option.some.injEq] at hn
  dsimp only at h
  rw [hn, count_wanted] at h
  cases ha : nld.columns s "A" with
  | error e => rw [ha] at h; simp [bind, Except.bind] at h
  | ok a =>
  cases hb : gsf.columns s "B" with
  | error e => rw [ha, hb] at h; simp [bind, Except.bind] at h
  | ok b =>
  rw [ha, hb] at h
  simp only [bind, Except.bind] at h
  cases hN : rowsWanted nld gsf n nMax with
  | none => rw [hN] at h; simp at h
  | some N =>
  rw [hN] at h
  dsimp only at h
  by_cases hlt : order.length < N.toNat
  · rw [if_pos hlt] at h; simp at h
  rw [if_neg hlt] at h
  by_cases hany : (s.any fun c => decide (c.2.length ≠ n)) = true
  · rw [if_pos hany] at h; simp at h
  rw [if_neg hany] at h
  split at h
  · simp at h
  rename_i hlen
  push Not at hlen
  injection h with h
  have hidx : ((order.take N.toNat).zipIdx).length = N.toNat := by simp; omega
  have hle := List.length_filterMap_le (fun p : ℕ × ℕ => nld.transformed a.1 a.2 p.2 p.1) (order.take N.toNat).zipIdx
  rw [hidx] at hle
  have hsel : (takeZ order N).length = N.toNat ∧ takeZ order N = order.take N.toNat := by
    unfold takeZ at hlen ⊢
    by_cases hp : 0 ≤ N
    · rw [if_pos hp]
      refine ⟨by simp; omega, rfl⟩
    · rw [if_neg hp] at hlen ⊢
      have h0 : N.toNat = 0 := by omega
      have : (order.take (order.length - N.natAbs)).length = 0 := by
        have q := hlen.1
        omega
      rw [h0]
      refine ⟨this, ?_⟩
      rw [List.length_eq_zero_iff.1 this]
      simp
  rw [hsel.2] at h hlen
  rw [show (order.take N.toNat).length = N.toNat by simp; omega] at hlen
  set nlds := (order.take N.toNat).zipIdx.filterMap fun p => nld.transformed a.1 a.2 p.2 p.1 with hnl
  set gsfs := (order.take N.toNat).zipIdx.filterMap fun p => gsf.transformed b.1 b.2 p.2 p.1 with hgl
  have htl : (order.take N.toNat).length = N.toNat := by simp; omega
  obtain ⟨z1, z2⟩ := zipWith3_getElem (fun k v g => (⟨k, s.map fun c => (c.1, c.2.getD k 0), v, g⟩ : SampleRow))
    (order.take N.toNat) nlds gsfs (by rw [htl]; exact hlen.1) (by rw [htl]; exact hlen.2)
  rw [h] at z1
  have hrl : rows.length = N.toNat := by rw [z1, htl]
  have hrow : ∀ (i : ℕ) (hi : i < rows.length), ∃ (h1 : i < order.length) (h2 : i < nlds.length)
      (h3 : i < gsfs.length), rows[i] = ⟨order[i], s.map fun c => (c.1, c.2.getD order[i] 0), nlds[i], gsfs[i]⟩ := by
    intro i hi
    have q := z2 i (by rw [h]; exact hi) (by omega) (by omega) (by omega)
    refine ⟨by omega, by omega, by omega, ?_⟩
    simp only [h, List.getElem_take] at q
    exact q
  refine ⟨⟨N, rfl, hrl, ?_⟩, ?_, ?_⟩
  · have : N ≤ (N.toNat : ℤ) := Int.self_le_toNat N
    have : (N.toNat : ℤ) ≤ n := by exact_mod_cast (by omega : N.toNat ≤ n)
    omega
  · have : rows.map (·.label) = order.take N.toNat := by
      apply List.ext_getElem
      · simp [hrl, hol]; omega
      · intro i h1 h2
        obtain ⟨k1, k2, k3, k4⟩ := hrow i (by simpa using h1)
        simp [k4]
    rw [this]
    exact hond.sublist (List.take_sublist _ _)
  · intro i hi
    obtain ⟨k1, k2, k3, k4⟩ := hrow i hi
    have hk : order[i] < n := by
      have := ho.mem_iff.1 (List.getElem_mem k1)
      simpa using this
    have e1 := filterMap_full (fun p : ℕ × ℕ => nld.transformed a.1 a.2 p.2 p.1) (order.take N.toNat).zipIdx
      (by rw [hidx]; exact hlen.1) i (by rw [hidx]; omega) k2
    have e2 := filterMap_full (fun p : ℕ × ℕ => gsf.transformed b.1 b.2 p.2 p.1) (order.take N.toNat).zipIdx
      (by rw [hidx]; exact hlen.2) i (by rw [hidx]; omega) k3
    simp only [List.getElem_zipIdx, Nat.zero_add, List.getElem_take] at e1 e2
    obtain ⟨v, A, y, p1, p2, p3, p4⟩ := columns_ok ha e1
    obtain ⟨g, B, y', p5, p6, p7, p8⟩ := columns_ok hb e2
    have hy : y' = y := by
      obtain ⟨c, q1, q2⟩ := p3
      obtain ⟨c', q3, q4⟩ := p7
      rw [q1] at q3
      injection q3 with q3
      subst q3
      rw [q2] at q4
      injection q4 with q4
      exact q4.symm
    subst hy
    refine ⟨order[i], v, g, A, B, y', List.getElem?_eq_getElem k1, ?_, ?_, ?_, p1, p5, p2, p6, p3, ?_, ?_⟩
    · rw [k4]
    · rw [k4]
      simp
    · intro c hc
      have hcl : c.2.length = n := by
        by_contra hne
        exact hany (List.any_eq_true.2 ⟨c, hc, by simpa using hne⟩)
      refine ⟨c.2[order[i]]'(by rw [hcl]; exact hk), List.getElem?_eq_getElem _, ?_⟩
      rw [k4]
      dsimp only
      rw [List.mem_map]
      refine ⟨c, hc, ?_⟩
      rw [List.getD_eq_getElem _ _ (by rw [hcl]; exact hk)]
    · rw [k4]
      exact p4
    · rw [k4]
      exact p8

/-- **C72.** When it works: both vectors or lists are given, all columns are equally long and contain `A`, `B` and
`alpha`, and there are enough samples and level densities for the rows wanted. -/
theorem C72_total (s : Samples) (nld gsf : VecArg) (nMax : ℤ) (order : List ℕ) (n N : ℕ)
    (hn : s.head?.map (·.2.length) = some n) (ho : order.Perm (List.range n)) (hc : ∀ c ∈ s, c.2.length = n)
    (hA : ∃ c ∈ s, c.1 = "A") (hB : ∃ c ∈ s, c.1 = "B") (hal : ∃ c ∈ s, c.1 = "alpha")
    (hN : rowsWanted nld gsf n nMax = some (N : ℤ)) (hle : N ≤ n) (h1 : ∀ i < N, ∃ v, nld.vecFor i = some v)
    (h2 : ∀ i < N, ∃ v, gsf.vecFor i = some v) (h3 : nld ≠ .missing) (h4 : gsf ≠ .missing) :
    ∃ rows, transformSamples s nld gsf nMax order = .ok rows ∧ rows.length = N := by
  have hol : order.length = n := by rw [ho.length_eq]; simp
  have look : ∀ key, (∃ c ∈ s, c.1 = key) → ∃ c, s.get key = .ok c ∧ c.length = n := by
    rintro key ⟨c, hc', hk⟩
    unfold Samples.get
    cases hf : s.find? (·.1 = key) with
    | none =>
      have := List.find?_eq_none.1 hf c hc'
      simp [hk] at this
    | some d => exact ⟨d.2, rfl, hc d (List.mem_of_find?_eq_some hf)⟩
  obtain ⟨cA, a1, a2⟩ := look "A" hA
  obtain ⟨cB, b1, b2⟩ := look "B" hB
  obtain ⟨cal, l1, l2⟩ := look "alpha" hal
  have ha : nld.columns s "A" = .ok (cA, cal) := by
    cases nld with
    | missing => exact absurd rfl h3
    | one v => simp [VecArg.columns, a1, l1, bind, Except.bind, pure, Except.pure]
    | many l => simp [VecArg.columns, a1, l1, bind, Except.bind, pure, Except.pure]
  have hb : gsf.columns s "B" = .ok (cB, cal) := by
    cases gsf with
    | missing => exact absurd rfl h4
    | one v => simp [VecArg.columns, b1, l1, bind, Except.bind, pure, Except.pure]
    | many l => simp [VecArg.columns, b1, l1, bind, Except.bind, pure, Except.pure]
  have full : ∀ (a : VecArg) (c al : List ℝ), c.length = n → al.length = n →
      (∀ i < N, ∃ v, a.vecFor i = some v) →
      ((order.take N).zipIdx.filterMap fun p => a.transformed c al p.2 p.1).length = N := by
    intro a c al hc hal' hv
    rw [filterMap_all]
    · simp; omega
    · rintro ⟨k, i⟩ hp
      have hp' := List.mem_zipIdx hp
      simp only [List.length_take, Nat.zero_add, Nat.sub_zero, zero_le, true_and] at hp'
      obtain ⟨v, hv⟩ := hv i (by omega)
      have hk : k < n := by
        have : k ∈ order := by
          rw [hp'.2]
          exact List.mem_of_mem_take (List.getElem_mem _)
        simpa using ho.mem_iff.1 this
      exact ⟨_, transformed_some.2 ⟨v, c[k]'(by omega), al[k]'(by omega), hv, List.getElem?_eq_getElem _,
        List.getElem?_eq_getElem _, rfl⟩⟩
  have f1 := full nld cA cal a2 l2 h1
  have f2 := full gsf cB cal b2 l2 h2
  unfold transformSamples
  cases hh : s.head? with
  | none => rw [hh] at hn; simp at hn
  | some c0 =>
  rw [hh] at hn
  simp only [Option.map_some, Option.some.injEq] at hn
  dsimp only
  rw [hn, count_wanted, ha, hb, hN]
  simp only [bind, Except.bind, Int.toNat_natCast]
  rw [if_neg (by omega)]
  have hany : ¬ (s.any fun c => decide (c.2.length ≠ n)) = true := by
    simp only [List.any_eq_true, decide_eq_true_eq, not_exists, not_and, not_not]
    exact hc
  rw [if_neg hany]
  have hs : takeZ order (N : ℤ) = order.take N := by
    unfold takeZ
    simp
  have hsl : (order.take N).length = N := by simp; omega
  rw [hs, f1, f2, hsl]
  simp only [ne_eq, not_true_eq_false, or_self, if_false]
  refine ⟨_, rfl, ?_⟩
  rw [(zipWith3_getElem _ _ _ _ (by rw [f1, hsl]) (by rw [f2, hsl])).1, hsl]

/-- The hypotheses of C72 are met: two samples, in reverse order. -/
example (v g : Vec ℝ) : ∃ rows, transformSamples [("A", [1, 2]), ("B", [3, 4]), ("alpha", [0, 1])] (.one v) (.one g)
    100 [1, 0] = .ok rows ∧ rows.length = 2 :=
  C72_total _ _ _ _ _ 2 2 rfl (by decide) (by simp) ⟨_, List.mem_cons_self, rfl⟩
    ⟨("B", [3, 4]), by simp, rfl⟩ ⟨("alpha", [0, 1]), by simp, rfl⟩ (by simp [rowsWanted]) le_rfl
    (fun i _ => ⟨v, rfl⟩) (fun i _ => ⟨g, rfl⟩) (by simp) (by simp)

/-- **C72 fails** for the optional arguments: with a level density alone the call ends in `ValueError`, whatever
the samples, because the empty list of strength functions does not fit into the table. -/
theorem C72_optional_fails (s : Samples) (v : Vec ℝ) (nMax : ℤ) (order : List ℕ) (n : ℕ)
    (hn : s.head?.map (·.2.length) = some n) (ho : order.Perm (List.range n)) (h0 : 0 < n) (hm : 0 < nMax)
    (hA : ∃ c ∈ s, c.1 = "A") (hal : ∃ c ∈ s, c.1 = "alpha") :
    transformSamples s (.one v) .missing nMax order = .error .valueError := by
  have hol : order.length = n := by rw [ho.length_eq]; simp
  have look : ∀ key, (∃ c ∈ s, c.1 = key) → ∃ c, s.get key = .ok c := by
    rintro key ⟨c, hc', hk⟩
    unfold Samples.get
    cases hf : s.find? (·.1 = key) with
    | none =>
      have := List.find?_eq_none.1 hf c hc'
      simp [hk] at this
    | some d => exact ⟨d.2, rfl⟩
  obtain ⟨cA, a1⟩ := look "A" hA
  obtain ⟨cal, l1⟩ := look "alpha" hal
  unfold transformSamples
  cases hh : s.head? with
  | none => rw [hh] at hn; simp at hn
  | some c0 =>
  rw [hh] at hn
  simp only [Option.map_some, Option.some.injEq] at hn
  dsimp only
  rw [hn, count_wanted]
  simp only [VecArg.columns, a1, l1, bind, Except.bind, pure, Except.pure, rowsWanted]
  rw [if_neg (by omega)]
  by_cases hany : (s.any fun c => decide (c.2.length ≠ n)) = true
  · rw [if_pos hany]
  · rw [if_neg hany, if_pos]
    right
    have e1 : (List.filterMap (fun p => VecArg.missing.transformed [] [] p.2 p.1)
        (List.take (min (n : ℤ) nMax).toNat order).zipIdx) = [] := by
      rw [List.filterMap_eq_nil_iff]
      intro p _
      rfl
    rw [e1]
    unfold takeZ
    rw [if_pos (by omega)]
    simp
    omega

/-- **C72 fails** for `N_max`: for lists, to which it is said to apply, it has no effect. -/
theorem C72_max_fails (s : Samples) (l l' : List (Vec ℝ)) (nMax nMax' : ℤ) (order : List ℕ) :
    transformSamples s (.many l) (.many l') nMax order = transformSamples s (.many l) (.many l') nMax' order := rfl

/-- Two rows although one is the maximum. -/
example (v g : Vec ℝ) : ∃ rows, transformSamples [("A", [1, 2]), ("B", [3, 4]), ("alpha", [0, 1])] (.many [v, v])
    (.many [g, g]) 1 [1, 0] = .ok rows ∧ rows.length = 2 :=
  C72_total _ _ _ _ _ 2 2 rfl (by decide) (by simp) ⟨_, List.mem_cons_self, rfl⟩
    ⟨("B", [3, 4]), by simp, rfl⟩ ⟨("alpha", [0, 1]), by simp, rfl⟩ (by simp [rowsWanted]) le_rfl
    (fun i hi => by interval_cases i <;> exact ⟨v, rfl⟩) (fun i hi => by interval_cases i <;> exact ⟨g, rfl⟩)
    (by simp) (by simp)

/-- **C72.** More vectors than samples are refused with `IndexError`; no samples at all, or no vectors at all, with
`NameError`; a missing column with `KeyError`. -/
theorem C72_refuses (s : Samples) (nld gsf : VecArg) (nMax : ℤ) (order : List ℕ) :
    (s = [] → transformSamples s nld gsf nMax order = .error .nameError) ∧
    (s ≠ [] → transformSamples s .missing .missing nMax order = .error .nameError) ∧
    (s ≠ [] → nld ≠ .missing → (∀ c ∈ s, c.1 ≠ "A") →
      transformSamples s nld gsf nMax order = .error .keyError) ∧
    (∀ l l', (∃ c ∈ s, c.1 = "A") → (∃ c ∈ s, c.1 = "B") → (∃ c ∈ s, c.1 = "alpha") →
      order.length < l'.length →
      transformSamples s (.many l) (.many l') nMax order = .error .indexError) := by
  have look : ∀ key, (∃ c ∈ s, c.1 = key) → ∃ c, s.get key = .ok c := by
    rintro key ⟨c, hc', hk⟩
    unfold Samples.get
    cases hf : s.find? (·.1 = key) with
    | none =>
      have := List.find?_eq_none.1 hf c hc'
      simp [hk] at this
    | some d => exact ⟨d.2, rfl⟩
  refine ⟨fun h => by subst h; rfl, ?_, ?_, ?_⟩
  · intro h
    obtain ⟨c, s', rfl⟩ := List.exists_cons_of_ne_nil h
    rfl
  · intro h h1 h2
    obtain ⟨c, s', rfl⟩ := List.exists_cons_of_ne_nil h
    have hg : Samples.get (c :: s') "A" = .error .keyError := by
      unfold Samples.get
      rw [List.find?_eq_none.2 (by simpa using h2)]
    unfold transformSamples
    have : nld.columns (c :: s') "A" = .error .keyError := by
      cases nld with
      | missing => exact absurd rfl h1
      | one v => simp [VecArg.columns, hg, bind, Except.bind]
      | many l => simp [VecArg.columns, hg, bind, Except.bind]
    rw [this]
    rfl
  · intro l l' hA hB hal hlt
    obtain ⟨cA, a1⟩ := look "A" hA
    obtain ⟨cB, b1⟩ := look "B" hB
    obtain ⟨cal, l1⟩ := look "alpha" hal
    obtain ⟨c, hc, -⟩ := hA
    cases s with
    | nil => simp at hc
    | cons c0 s =>
    unfold transformSamples
    simp only [List.head?_cons, VecArg.columns, a1, b1, l1, bind, Except.bind, pure, Except.pure, VecArg.count,
      Option.orElse, Int.toNat_natCast]
    rw [if_pos hlt]

/-- **C72.** The samples of all results, one block after the other: block `i` has the samples of result `i` with the
vectors `i` of the extractor, in MeV. -/
theorem C72_from_res (res : List Samples) (nlds gsfs : List (Vec ℝ)) (orders : List (List ℕ))
    (rows : List SampleRow) (hl : orders.length = res.length) (h : samplesFromRes res nlds gsfs orders = .ok rows) :
    res ≠ [] ∧ ∃ blocks : List (List SampleRow), rows = blocks.flatten ∧ blocks.length = res.length ∧
      ∀ (i : ℕ) (h1 : i < res.length) (h2 : i < orders.length) (h3 : i < blocks.length),
        ∃ v v' g g', nlds[i]? = some v ∧ gsfs[i]? = some g ∧ v.toMeV = .ok v' ∧ g.toMeV = .ok g' ∧
          transformSamples res[i] (.one v') (.one g') 100 orders[i] = .ok blocks[i] := by
  unfold samplesFromRes at h
  cases res with
  | nil => simp at h
  | cons r res =>
  refine ⟨by simp, ?_⟩
  dsimp only at h
  simp only [bind, Except.bind, pure, Except.pure] at h
  split at h
  · simp at h
  rename_i blocks hb
  injection h with h
  rw [mapM_getElem] at hb
  obtain ⟨q1, q2⟩ := hb
  refine ⟨blocks, h.symm, ?_, ?_⟩
  · rw [q1]
    simp [hl]
  · intro i h1 h2 h3
    have := q2 i (by simp [hl] at h1 ⊢; omega) h3
    simp only [List.getElem_zipIdx, List.getElem_zip, Nat.zero_add] at this
    cases hv : nlds[i]? with
    | none => rw [hv] at this; simp at this
    | some v =>
    cases hg : gsfs[i]? with
    | none => rw [hv, hg] at this; simp at this
    | some g =>
    rw [hv, hg] at this
    dsimp only at this
    cases hv' : v.toMeV with
    | error e => rw [hv'] at this; simp at this
    | ok v' =>
    cases hg' : g.toMeV with
    | error e => rw [hv', hg'] at this; simp at this
    | ok g' =>
      rw [hv', hg'] at this
      exact ⟨v, v', g, g', rfl, rfl, hv', hg', this⟩

/-! ### C73: vectors on a common energy grid -/

theorem mem_insertOnce (x y : ℚ) (l : List ℚ) : y ∈ insertOnce x l ↔ y = x ∨ y ∈ l := by
  induction l with
  | nil => simp [insertOnce]
  | cons z l ih =>
    unfold insertOnce
    split_ifs with h1 h2
    · simp
    · subst h2; simp
    · simp only [List.mem_cons, ih]; tauto

theorem sorted_insertOnce (x : ℚ) (l : List ℚ) (h : l.Pairwise (· < ·)) : (insertOnce x l).Pairwise (· < ·) := by
  induction l with
  | nil => simp [insertOnce]
  | cons z l ih =>
    unfold insertOnce
    obtain ⟨h0, h⟩ := List.pairwise_cons.1 h
    split_ifs with h1 h2
    · refine List.pairwise_cons.2 ⟨?_, List.pairwise_cons.2 ⟨h0, h⟩⟩
      intro y hy
      rcases List.mem_cons.1 hy with rfl | hy
      · exact h1
      · exact h1.trans (h0 y hy)
    · exact List.pairwise_cons.2 ⟨h0, h⟩
    · refine List.pairwise_cons.2 ⟨?_, ih h⟩
      intro y hy
      rcases (mem_insertOnce x y l).1 hy with rfl | hy
      · exact lt_of_le_of_ne (not_lt.1 h1) (Ne.symm h2)
      · exact h0 y hy

/-- The union is ascending without repetition and has exactly the energies of the two lists. -/
theorem union1d_spec (a b : List ℚ) : (union1d a b).Pairwise (· < ·) ∧ ∀ y, y ∈ union1d a b ↔ y ∈ a ∨ y ∈ b := by
  have key : ∀ (l acc : List ℚ), acc.Pairwise (· < ·) →
      (l.foldl (fun l x => insertOnce x l) acc).Pairwise (· < ·) ∧
        ∀ y, y ∈ l.foldl (fun l x => insertOnce x l) acc ↔ y ∈ l ∨ y ∈ acc := by
    intro l
    induction l with
    | nil => intro acc h; exact ⟨h, by simp⟩
    | cons x l ih =>
      intro acc h
      obtain ⟨q1, q2⟩ := ih _ (sorted_insertOnce x acc h)
      refine ⟨q1, fun y => ?_⟩
      rw [List.foldl_cons, q2, mem_insertOnce, List.mem_cons]
      tauto
  obtain ⟨q1, q2⟩ := key (a ++ b) [] List.Pairwise.nil
  exact ⟨q1, fun y => by rw [union1d, q2]; simp⟩

/-- The extension as a map over the union. -/
theorem extend_go (v : GridVec) (f : ℚ → Option ℝ) (hl : v.E.length ≤ v.values.length)
    (hs : v.E.Pairwise (· < ·)) (hf : ∀ p ∈ v.E.zip v.values, f p.1 = p.2) (hn : ∀ e, e ∉ v.E → f e = none)
    (U : List ℚ) (hU : U.Pairwise (· < ·)) :
    GridVec.extend.go v U ((v.E.zip v.values).filterMap fun p => if p.1 ∈ U then some p.2 else none) = U.map f := by
  induction U with
  | nil => rfl
  | cons e U ih =>
    obtain ⟨h0, hU'⟩ := List.pairwise_cons.1 hU
    by_cases he : e ∈ v.E
    · have hz : (v.E.zip v.values).map Prod.fst = v.E := List.map_fst_zip hl
      obtain ⟨p, hp, rfl⟩ := List.mem_map.1 (hz.symm ▸ he)
      obtain ⟨P1, P2, hP⟩ := List.append_of_mem hp
      have hsP : (P1 ++ p :: P2).Pairwise (fun a b => a.1 < b.1) := by
        rw [← hP]
        have := hz.symm ▸ hs
        exact List.pairwise_map.1 this
      obtain ⟨s1, s2, s3⟩ := List.pairwise_append.1 hsP
      obtain ⟨s4, s5⟩ := List.pairwise_cons.1 s2
      have e1 : ∀ q ∈ P1, q.1 ∉ U ∧ q.1 ≠ p.1 := by
        intro q hq
        have := s3 q hq p List.mem_cons_self
        exact ⟨fun h => absurd (h0 _ h) (not_lt.2 this.le), this.ne⟩
      have e2 : ∀ q ∈ P2, q.1 ≠ p.1 := fun q hq => (s4 q hq).ne'
      have e3 : p.1 ∉ U := fun h => lt_irrefl _ (h0 _ h)
      have k1 : P1.filterMap (fun q => if q.1 ∈ p.1 :: U then some q.2 else none) = [] := by
        rw [List.filterMap_eq_nil_iff]
        intro q hq
        rw [if_neg]
        simp [e1 q hq]
      have k2 : P1.filterMap (fun q => if q.1 ∈ U then some q.2 else none) = [] := by
        rw [List.filterMap_eq_nil_iff]
        intro q hq
        rw [if_neg (e1 q hq).1]
      have k3 : P2.filterMap (fun q => if q.1 ∈ p.1 :: U then some q.2 else none) =
          P2.filterMap (fun q => if q.1 ∈ U then some q.2 else none) := by
        refine List.filterMap_congr fun q hq => ?_
        simp [e2 q hq]
      have ih' := ih hU'
      have hfp := hf p hp
      rw [hP, List.filterMap_append, k2, List.nil_append, List.filterMap_cons, if_neg e3] at ih'
      rw [hP, List.filterMap_append, k1, List.nil_append, List.filterMap_cons, if_pos List.mem_cons_self, k3]
      unfold GridVec.extend.go
      rw [if_pos he]
      dsimp only at ih' ⊢
      rw [List.tail_cons, ih', List.headD_cons, List.map_cons, hfp]
    · have : (v.E.zip v.values).filterMap (fun p => if p.1 ∈ e :: U then some p.2 else none) =
          (v.E.zip v.values).filterMap (fun p => if p.1 ∈ U then some p.2 else none) := by
        refine List.filterMap_congr fun p hp => ?_
        have : p.1 ∈ v.E := (List.of_mem_zip hp).1
        have : p.1 ≠ e := fun h => he (h ▸ this)
        simp [this]
      unfold GridVec.extend.go
      rw [if_neg he, this, ih hU', List.map_cons, hn e he]

/-- **C73.** Extended to the energies `U`, a vector has its old value at each energy it had, and `nan` at the
others; the uncertainties are left as they were. -/
theorem C73_values (v : GridVec) (U : List ℚ) (hl : v.E.length = v.values.length)
    (hs : v.E.Pairwise (· < ·)) (hU : U.Pairwise (· < ·)) :
    (v.extend U).E = U ∧ (v.extend U).std = v.std ∧ (v.extend U).values.length = U.length ∧
    ∀ (k : ℕ) (h1 : k < U.length) (h2 : k < (v.extend U).values.length),
      (∀ (j : ℕ) (h3 : j < v.E.length) (h4 : j < v.values.length), v.E[j] = U[k] →
        (v.extend U).values[k] = v.values[j]) ∧
      (U[k] ∉ v.E → (v.extend U).values[k] = none) := by
  let f : ℚ → Option ℝ := fun e => if h : e ∈ v.E then (v.values[v.E.idxOf e]?).getD none else none
  have nd : v.E.Nodup := hs.imp fun h => h.ne
  have hfj : ∀ (j : ℕ) (h3 : j < v.E.length) (h4 : j < v.values.length), f v.E[j] = v.values[j] := by
    intro j h3 h4
    have : v.E.idxOf v.E[j] = j := nd.idxOf_getElem j h3
    simp only [f]
    rw [dif_pos (List.getElem_mem _), this, List.getElem?_eq_getElem h4, Option.getD_some]
  have key := extend_go v f hl.le hs (by
      intro p hp
      obtain ⟨j, hj, rfl⟩ := List.getElem_of_mem hp
      simp only [List.length_zip] at hj
      rw [List.getElem_zip]
      exact hfj j (by omega) (by omega)) (by
      intro e he
      simp only [f]
      rw [dif_neg he]) U hU
  have hv : (v.extend U).values = U.map f := key
  refine ⟨rfl, rfl, by rw [hv, List.length_map], ?_⟩
  intro k h1 h2
  have hk : (v.extend U).values[k] = f U[k] := by
    rw [List.getElem_of_eq hv h2, List.getElem_map]
  refine ⟨?_, ?_⟩
  · intro j h3 h4 he
    rw [hk, ← he]
    exact hfj j h3 h4
  · intro he
    rw [hk]
    simp only [f]
    rw [dif_neg he]

/-- The hypotheses of C73 are met by a vector with two energies, extended to four. -/
example : (GridVec.extend ⟨[1, 3], [some 5, some 7], none⟩ [0, 1, 2, 3]).values = [none, some 5, none, some 7] := by
  have h := C73_values ⟨[1, 3], [some 5, some 7], none⟩ [0, 1, 2, 3] rfl (by simp) (by simp; norm_num)
  simp [GridVec.extend, GridVec.extend.go]

theorem argBest_least (l : List ℚ) (h : l ≠ []) :
    argBest (· < ·) l < l.length ∧ ∀ x ∈ l, l.getD (argBest (· < ·) l) 0 ≤ x := by
  have key : ∀ n ≤ l.length, 0 < l.length →
      ((List.range n).foldl (fun k i => if decide (l.getD i 0 < l.getD k 0) then i else k) 0) < l.length ∧
      ∀ i < n, l.getD ((List.range n).foldl (fun k i => if decide (l.getD i 0 < l.getD k 0) then i else k) 0) 0
        ≤ l.getD i 0 := by
    intro n
    induction n with
    | zero => intro _ h; exact ⟨h, by simp⟩
    | succ n ih =>
      intro hn h0
      obtain ⟨q1, q2⟩ := ih (by omega) h0
      rw [List.range_succ, List.foldl_append, List.foldl_cons, List.foldl_nil]
      split_ifs with hc
      · rw [decide_eq_true_eq] at hc
        refine ⟨by omega, fun i hi => ?_⟩
        rcases Nat.lt_succ_iff_lt_or_eq.1 hi with hi | rfl
        · exact hc.le.trans (q2 i hi)
        · exact le_rfl
      · rw [decide_eq_true_eq, not_lt] at hc
        refine ⟨q1, fun i hi => ?_⟩
        rcases Nat.lt_succ_iff_lt_or_eq.1 hi with hi | rfl
        · exact q2 i hi
        · exact hc
  have h0 : 0 < l.length := List.length_pos_iff.2 h
  obtain ⟨q1, q2⟩ := key l.length le_rfl h0
  refine ⟨q1, fun x hx => ?_⟩
  obtain ⟨i, hi, rfl⟩ := List.getElem_of_mem hx
  have := q2 i hi
  rw [List.getD_eq_getElem l 0 hi] at this
  exact this

theorem argBest_largest (l : List ℚ) (h : l ≠ []) :
    argBest (· > ·) l < l.length ∧ ∀ x ∈ l, x ≤ l.getD (argBest (· > ·) l) 0 := by
  have key : ∀ n ≤ l.length, 0 < l.length →
      ((List.range n).foldl (fun k i => if decide (l.getD i 0 > l.getD k 0) then i else k) 0) < l.length ∧
      ∀ i < n, l.getD i 0 ≤
        l.getD ((List.range n).foldl (fun k i => if decide (l.getD i 0 > l.getD k 0) then i else k) 0) 0 := by
    intro n
    induction n with
    | zero => intro _ h; exact ⟨h, by simp⟩
    | succ n ih =>
      intro hn h0
      obtain ⟨q1, q2⟩ := ih (by omega) h0
      rw [List.range_succ, List.foldl_append, List.foldl_cons, List.foldl_nil]
      split_ifs with hc
      · rw [decide_eq_true_eq] at hc
        refine ⟨by omega, fun i hi => ?_⟩
        rcases Nat.lt_succ_iff_lt_or_eq.1 hi with hi | rfl
        · exact (q2 i hi).trans hc.le
        · exact le_rfl
      · rw [decide_eq_true_eq, gt_iff_lt, not_lt] at hc
        refine ⟨q1, fun i hi => ?_⟩
        rcases Nat.lt_succ_iff_lt_or_eq.1 hi with hi | rfl
        · exact q2 i hi
        · exact hc
  have h0 : 0 < l.length := List.length_pos_iff.2 h
  obtain ⟨q1, q2⟩ := key l.length le_rfl h0
  refine ⟨q1, fun x hx => ?_⟩
  obtain ⟨i, hi, rfl⟩ := List.getElem_of_mem hx
  have := q2 i hi
  rw [List.getD_eq_getElem l 0 hi] at this
  exact this

theorem ends_ok {v : GridVec} {p : ℚ × ℚ} : v.ends = .ok p ↔ v.E.head? = some p.1 ∧ v.E.getLast? = some p.2 := by
  unfold GridVec.ends
  cases h : v.E.head? with
  | none => simp
  | some a =>
    cases h' : v.E.getLast? with
    | none => simp
    | some b => obtain ⟨c, d⟩ := p; simp

/-- **C73 (partial).** Provided two of the vectors differ in their first or last energy, all vectors get the same
energies `U`: those of a vector with the lowest first energy and those of a vector with the highest last energy,
ascending and each once. The full statement would not need the proviso. -/
theorem C73_common_partial (l r : List GridVec) (h : unifyE l = .ok r)
    (hd : ∃ v ∈ l, ∃ w ∈ l, v.E.head? ≠ w.E.head? ∨ v.E.getLast? ≠ w.E.getLast?) :
    ∃ v ∈ l, ∃ w ∈ l, ∃ U lo hi, v.E.head? = some lo ∧ w.E.getLast? = some hi ∧
      (∀ u ∈ l, ∀ e, (u.E.head? = some e → lo ≤ e) ∧ (u.E.getLast? = some e → e ≤ hi)) ∧
      U.Pairwise (· < ·) ∧ (∀ e, e ∈ U ↔ e ∈ v.E ∨ e ∈ w.E) ∧ r = l.map (fun u => u.extend U) ∧
      ∀ u ∈ r, u.E = U := by
  unfold unifyE at h
  simp only [bind, Except.bind] at h
  cases he : l.mapM GridVec.ends with
  | error e => rw [he] at h; simp at h
  | ok ends =>
  rw [he] at h
  dsimp only at h
  rw [mapM_getElem] at he
  obtain ⟨q1, q2⟩ := he
  cases hh : ends.head? with
  | none => rw [hh] at h; simp at h
  | some e0 =>
  rw [hh] at h
  dsimp only at h
  have hall : ¬ (ends.all fun x => decide (x = e0)) = true := by
    intro hall
    rw [List.all_eq_true] at hall
    have : ∀ u ∈ l, u.ends = .ok e0 := by
      intro u hu
      obtain ⟨i, hi, rfl⟩ := List.getElem_of_mem hu
      rw [q2 i hi (by omega)]
      have := hall ends[i] (List.getElem_mem _)
      rw [decide_eq_true_eq] at this
      rw [this]
    obtain ⟨v, hv, w, hw, hne⟩ := hd
    have a := ends_ok.1 (this v hv)
    have b := ends_ok.1 (this w hw)
    rw [a.1, a.2, b.1, b.2] at hne
    simp at hne
  rw [if_neg hall] at h
  injection h with h
  have hne : ends ≠ [] := by rintro rfl; simp at hh
  obtain ⟨i1, i2⟩ := argBest_least (ends.map (·.1)) (by simpa using hne)
  obtain ⟨j1, j2⟩ := argBest_largest (ends.map (·.2)) (by simpa using hne)
  set i := argBest (· < ·) (ends.map (·.1))
  set j := argBest (· > ·) (ends.map (·.2))
  rw [List.length_map] at i1 j1
  have hi := ends_ok.1 (q2 i (by omega) i1)
  have hj := ends_ok.1 (q2 j (by omega) j1)
  have gi : (l.map (·.E)).getD i [] = (l[i]'(by omega)).E := by
    rw [List.getD_eq_getElem _ [] (by rw [List.length_map]; omega), List.getElem_map]
  have gj : (l.map (·.E)).getD j [] = (l[j]'(by omega)).E := by
    rw [List.getD_eq_getElem _ [] (by rw [List.length_map]; omega), List.getElem_map]
  rw [gi, gj] at h
  obtain ⟨u1, u2⟩ := union1d_spec (l[i]'(by omega)).E (l[j]'(by omega)).E
  refine ⟨l[i]'(by omega), List.getElem_mem _, l[j]'(by omega), List.getElem_mem _, _, _, _, hi.1, hj.2, ?_, u1, u2,
    h.symm, ?_⟩
  · intro u hu e
    obtain ⟨k, hk, rfl⟩ := List.getElem_of_mem hu
    have hk' := ends_ok.1 (q2 k hk (by omega))
    have a := i2 _ (List.mem_map_of_mem (List.getElem_mem (l := ends) (n := k) (by omega)))
    have b := j2 _ (List.mem_map_of_mem (List.getElem_mem (l := ends) (n := k) (by omega)))
    rw [List.getD_eq_getElem _ 0 (by rw [List.length_map]; omega), List.getElem_map] at a b
    rw [hk'.1, hk'.2]
    refine ⟨?_, ?_⟩
    · intro h; injection h with h; rw [← h]; exact a
    · intro h; injection h with h; rw [← h]; exact b
  · intro u hu
    rw [← h] at hu
    obtain ⟨v, _, rfl⟩ := List.mem_map.1 hu
    rfl

/-- **C73 fails** for vectors with equal ends: they keep their different energies. -/
theorem C73_same_ends_fails : ∃ v w : GridVec, v.E ≠ w.E ∧ unifyE [v, w] = .ok [v, w] ∧
    v.E.Pairwise (· < ·) ∧ w.E.Pairwise (· < ·) := by
  refine ⟨⟨[0, 1, 3], [some 1, some 1, some 1], none⟩, ⟨[0, 2, 3], [some 1, some 1, some 1], none⟩, by simp, ?_,
    by simp, by simp; norm_num⟩
  simp [unifyE, GridVec.ends, bind, Except.bind, pure, Except.pure]

/-- **C73.** Whenever all ends agree nothing is changed; an empty list or a vector without energies is refused. -/
theorem C73_unchanged (l : List GridVec) :
    (∀ a b, l ≠ [] → (∀ v ∈ l, v.E.head? = some a ∧ v.E.getLast? = some b) → unifyE l = .ok l) ∧
    (l = [] → unifyE l = .error .indexError) ∧
    ((∃ v ∈ l, v.E = []) → unifyE l = .error .indexError) := by
  refine ⟨?_, ?_, ?_⟩
  · intro a b hne h
    have hm : l.mapM GridVec.ends = .ok (l.map fun _ => (a, b)) := by
      rw [mapM_getElem]
      refine ⟨by simp, fun i h1 h2 => ?_⟩
      rw [List.getElem_map]
      exact ends_ok.2 (h _ (List.getElem_mem _))
    unfold unifyE
    rw [hm]
    obtain ⟨v, l, rfl⟩ := List.exists_cons_of_ne_nil hne
    simp [bind, Except.bind, pure, Except.pure]
  · rintro rfl
    rfl
  · rintro ⟨v, hv, hE⟩
    have : l.mapM GridVec.ends = .error .indexError := by
      induction l with
      | nil => simp at hv
      | cons w l ih =>
        rw [List.mapM_cons]
        by_cases hw : w.E = []
        · simp [GridVec.ends, hw, bind, Except.bind]
        · rcases List.mem_cons.1 hv with rfl | hv
          · exact absurd hE hw
          · rw [ih hv]
            obtain ⟨a, t, ht⟩ := List.exists_cons_of_ne_nil hw
            cases hq : w.ends with
            | error e =>
              unfold GridVec.ends at hq
              rw [ht] at hq
              simp [List.getLast?_cons] at hq
            | ok p => rfl
    unfold unifyE
    rw [this]
    rfl

/-- **C73 fails** for a vector in the middle: its own energies and the values there are dropped. -/
theorem C73_lost_fails : ∃ u v w : GridVec, unifyE [u, v, w] =
      .ok [⟨[0, 2, 3, 5], [some 1, some 1, none, none], none⟩, ⟨[0, 2, 3, 5], [none, some 2, none, none], none⟩,
        ⟨[0, 2, 3, 5], [none, none, some 3, some 3], none⟩] ∧
    v.E = [2, 4] ∧ v.values = [some 2, some 7] := by
  refine ⟨⟨[0, 2], [some 1, some 1], none⟩, ⟨[2, 4], [some 2, some 7], none⟩, ⟨[3, 5], [some 3, some 3], none⟩, ?_,
    rfl, rfl⟩
  have h1 : argBest (fun a b => decide (a < b)) [0, 2, 3] = 0 := by decide +kernel
  have h2 : argBest (fun a b => decide (a > b)) [2, 4, 5] = 2 := by decide +kernel
  have h3 : union1d [0, 2] [3, 5] = [0, 2, 3, 5] := by decide +kernel
  simp [unifyE, GridVec.ends, bind, Except.bind, pure, Except.pure, GridVec.extend, GridVec.extend.go, h1, h2, h3]

/-- **C73 (partial).** A value is kept if its energy is one of the outermost two vectors. The full statement would
have no condition on the energies. -/
theorem C73_keep_partial (v : GridVec) (U : List ℚ) (hl : v.E.length = v.values.length)
    (hs : v.E.Pairwise (· < ·)) (hU : U.Pairwise (· < ·)) (hsub : ∀ e ∈ v.E, e ∈ U) :
    ∀ (j : ℕ) (h1 : j < v.E.length) (h2 : j < v.values.length), ∃ (k : ℕ) (h3 : k < U.length)
      (h4 : k < (v.extend U).values.length), U[k] = v.E[j] ∧ (v.extend U).values[k] = v.values[j] := by
  intro j h1 h2
  obtain ⟨k, hk, e⟩ := List.getElem_of_mem (hsub _ (List.getElem_mem h1))
  obtain ⟨-, -, q3, q4⟩ := C73_values v U hl hs hU
  exact ⟨k, hk, by omega, e, (q4 k hk (by omega)).1 j h1 h2 e.symm⟩

/-- **C73 fails** for uncertainties: they keep their length while the vector gets longer. -/
theorem C73_std_fails : ∃ v w : GridVec, ∃ r : List GridVec, unifyE [v, w] = .ok r ∧ v.std = some [1] ∧
    v.E.length = 1 ∧ ∃ u ∈ r, u.std = some [1] ∧ u.E.length = 2 ∧ u.values.length = 2 := by
  have h1 : argBest (fun a b => decide (a < b)) [0, 1] = 0 := by decide +kernel
  have h2 : argBest (fun a b => decide (a > b)) [0, 1] = 1 := by decide +kernel
  have h3 : union1d [0] [1] = [0, 1] := by decide +kernel
  refine ⟨⟨[0], [some 1], some [1]⟩, ⟨[1], [some 1], some [1]⟩, [⟨[0, 1], [some 1, none], some [1]⟩,
    ⟨[0, 1], [none, some 1], some [1]⟩], ?_, rfl, rfl, _, List.mem_cons_self, rfl, rfl, rfl⟩
  simp [unifyE, GridVec.ends, bind, Except.bind, pure, Except.pure, GridVec.extend, GridVec.extend.go, h1, h2, h3]

end Ompy
