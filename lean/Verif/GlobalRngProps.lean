import Verif.GlobalRng

/-!
# C102: random numbers shared by accident
-/

namespace Ompy

variable {σ : Type}

theorem draw_length (g : NGen σ) (n : ℕ) (s : σ) : (g.draw n s).2.length = n := by
  induction n generalizing s with
  | zero => rfl
  | succ n ih => simp [NGen.draw, ih]

theorem draw_append (g : NGen σ) (n k : ℕ) (s : σ) :
    g.draw (n + k) s = ((g.draw k (g.draw n s).1).1, (g.draw n s).2 ++ (g.draw k (g.draw n s).1).2) := by
  induction n generalizing s with
  | zero => simp [NGen.draw]
  | succ n ih =>
    rw [show n + 1 + k = (n + k) + 1 by omega]
    simp only [NGen.draw]
    rw [ih]
    rfl

theorem rvs_pos (g : NGen σ) (m : BPar) (s : σ) (h : 0 < m.scale) :
    g.rvs m s = ((g.draw m.n s).1, .ok ((g.draw m.n s).2.map fun z => z * m.scale + m.loc)) := by
  unfold NGen.rvs
  rw [if_neg (not_lt.2 h.le), if_neg h.ne']

theorem rvs_ok (g : NGen σ) (m : BPar) (s : σ) (h : 0 ≤ m.scale) :
    ∃ x, (g.rvs m s).2 = .ok x ∧ x.length = m.n ∧ (m.scale = 0 → ∀ b ∈ x, b = m.loc) := by
  rcases h.lt_or_eq with h | h
  · rw [rvs_pos g m s h]
    exact ⟨_, rfl, by simp [draw_length], fun h0 => absurd h0 h.ne'⟩
  · unfold NGen.rvs
    rw [if_neg (not_lt.2 h.le), if_pos h.symm]
    exact ⟨_, rfl, by simp, fun _ b hb => List.eq_of_mem_replicate hb⟩

theorem mapM_range_ok {α : Type} (f : ℕ → Except Err α) (n : ℕ) (h : ∀ i < n, ∃ y, f i = .ok y) :
    ∃ l, (List.range n).mapM f = .ok l ∧ l.length = n ∧ ∀ i < n, ∀ y, f i = .ok y → l[i]? = some y := by
  have key : ∀ (l : List ℕ), (∀ i ∈ l, ∃ y, f i = .ok y) → ∃ r, l.mapM f = .ok r ∧ r.length = l.length ∧
      ∀ k (hk : k < l.length) y, f l[k] = .ok y → r[k]? = some y := by
    intro l
    induction l with
    | nil => intro _; exact ⟨[], rfl, rfl, fun k hk => by simp at hk⟩
    | cons a l ih =>
      intro hl
      obtain ⟨y, hy⟩ := hl a List.mem_cons_self
      obtain ⟨r, h1, h2, h3⟩ := ih fun i hi => hl i (List.mem_cons_of_mem _ hi)
      refine ⟨y :: r, ?_, by simp [h2], ?_⟩
      · simp only [List.mapM_cons, hy, h1, bind, Except.bind, pure, Except.pure]
      · intro k hk z hz
        cases k with
        | zero =>
          simp only [List.getElem_cons_zero] at hz
          rw [hy] at hz
          simp [Except.ok.inj hz]
        | succ k =>
          simp only [List.getElem_cons_succ] at hz
          simpa using h3 k (by simpa using hk) z hz
  obtain ⟨r, h1, h2, h3⟩ := key (List.range n) fun i hi => h i (List.mem_range.1 hi)
  refine ⟨r, h1, by simpa using h2, fun i hi y hy => h3 i (by simpa using hi) y (by simpa using hy)⟩

/-- **C102.** Whatever the distribution over the processes: every member gets as many samples of `B` as it has samples of `A`, and without uncertainty all of them are `B`. The state of
the random numbers of the program does not change. -/
theorem C102_samples (g : NGen σ) (ms : List BPar) (worker : ℕ → ℕ) (s0 : σ) (h : ∀ m ∈ ms, 0 ≤ m.scale) :
    ∃ r, normalizeB g ms worker s0 = (s0, .ok r) ∧ r.length = ms.length ∧
      ∀ i (hi : i < ms.length), ∃ x, r[i]? = some x ∧ x.length = ms[i].n ∧ (ms[i].scale = 0 → ∀ b ∈ x, b = ms[i].loc) := by
  have h1 : ∀ i (hi : i < ms.length), ∃ x, poolOne g s0 ms worker i = .ok x ∧ x.length = ms[i].n ∧ (ms[i].scale = 0 → ∀ b ∈ x, b = ms[i].loc) := by
    intro i hi
    unfold poolOne
    rw [List.getElem?_eq_getElem hi]
    exact rvs_ok g ms[i] _ (h _ (List.getElem_mem hi))
  obtain ⟨r, a, b, c⟩ := mapM_range_ok (poolOne g s0 ms worker) ms.length fun i hi => by
    obtain ⟨x, hx, -⟩ := h1 i hi
    exact ⟨x, hx⟩
  refine ⟨r, ?_, b, fun i hi => ?_⟩
  · unfold normalizeB poolAll
    rw [a]
  · obtain ⟨x, hx, h2, h3⟩ := h1 i hi
    exact ⟨x, c i hi x hx, h2, h3⟩

/-- **C102.** A member with a negative uncertainty of `B` stops the normalisation with ValueError, after the second attempt in a single process. -/
theorem C102_negative (g : NGen σ) (ms : List BPar) (worker : ℕ → ℕ) (s0 : σ) (h : ∃ m ∈ ms, m.scale < 0) :
    (normalizeB g ms worker s0).2 = .error .valueError := by
  have hs : ∀ (ms : List BPar) (s : σ), (∃ m ∈ ms, m.scale < 0) → (serialAll g ms s).2 = .error .valueError := by
    intro ms
    induction ms with
    | nil => rintro s ⟨m, hm, -⟩; cases hm
    | cons m ms ih =>
      rintro s ⟨m', hm', hneg⟩
      unfold serialAll
      by_cases hm : m.scale < 0
      · have : g.rvs m s = (s, .error .valueError) := by unfold NGen.rvs; rw [if_pos hm]
        rw [this]
      · obtain ⟨x, hx, -⟩ := rvs_ok g m s (not_lt.1 hm)
        have e : g.rvs m s = ((g.rvs m s).1, .ok x) := by rw [← hx]
        rw [e]
        simp only
        have hr := ih (g.rvs m s).1 (by
          rcases List.mem_cons.1 hm' with rfl | h'
          · exact absurd hneg hm
          · exact ⟨m', h', hneg⟩)
        have e2 : serialAll g ms (g.rvs m s).1 = ((serialAll g ms (g.rvs m s).1).1, .error .valueError) := by rw [← hr]
        rw [e2]
  have hp : ∃ e, poolAll g s0 ms worker = .error e := by
    obtain ⟨m, hm, hneg⟩ := h
    obtain ⟨i, hi, rfl⟩ := List.mem_iff_getElem.1 hm
    have hb : poolOne g s0 ms worker i = .error .valueError := by
      unfold poolOne
      rw [List.getElem?_eq_getElem hi]
      simp only
      unfold NGen.rvs
      rw [if_pos hneg]
    unfold poolAll
    have key : ∀ l : List ℕ, i ∈ l → ∃ e, l.mapM (poolOne g s0 ms worker) = .error e := by
      intro l
      induction l with
      | nil => intro h; cases h
      | cons a l ih =>
        intro hl
        simp only [List.mapM_cons, bind, Except.bind]
        cases ha : poolOne g s0 ms worker a with
        | error e => exact ⟨e, rfl⟩
        | ok y =>
          simp only
          rcases List.mem_cons.1 hl with rfl | h'
          · rw [hb] at ha; cases ha
          · obtain ⟨e, he⟩ := ih h'
            rw [he]
            exact ⟨e, rfl⟩
    exact key _ (List.mem_range.2 hi)
  obtain ⟨e, he⟩ := hp
  unfold normalizeB
  rw [he]
  exact hs ms s0 h

theorem state_first (g : NGen σ) (s0 : σ) (ms : List BPar) (worker : ℕ → ℕ) (p i : ℕ) (h : ∀ k < i, worker k ≠ p) :
    stateBefore g s0 ms worker p i = s0 := by
  induction i with
  | zero => rfl
  | succ i ih =>
    unfold stateBefore
    simp only
    rw [if_neg (h i (by omega))]
    exact ih fun k hk => h k (by omega)

/-- **C102 (disagreement).** The members that are the first ones in their processes get copies of the same random numbers, whatever the generator: their samples of `B` are the same multiples of
the uncertainty away from `B`. The documentation warns of exactly this. -/
theorem C102_copies_fails (g : NGen σ) (ms : List BPar) (worker : ℕ → ℕ) (s0 : σ) (h : ∀ m ∈ ms, 0 ≤ m.scale) (i j : ℕ) (hi : i < ms.length) (hj : j < ms.length)
    (fi : ∀ k < i, worker k ≠ worker i) (fj : ∀ k < j, worker k ≠ worker j) (pi : 0 < ms[i].scale) (pj : 0 < ms[j].scale) (hn : ms[i].n = ms[j].n) :
    ∃ r x y, normalizeB g ms worker s0 = (s0, .ok r) ∧ r[i]? = some x ∧ r[j]? = some y ∧
      x.map (fun b => (b - ms[i].loc) / ms[i].scale) = y.map (fun b => (b - ms[j].loc) / ms[j].scale) := by
  have one : ∀ a (ha : a < ms.length), (∀ k < a, worker k ≠ worker a) → 0 < ms[a].scale →
      poolOne g s0 ms worker a = .ok ((g.draw ms[a].n s0).2.map fun z => z * ms[a].scale + ms[a].loc) := by
    intro a ha fa pa
    unfold poolOne
    rw [List.getElem?_eq_getElem ha]
    simp only
    rw [state_first g s0 ms worker _ a fa, rvs_pos g ms[a] s0 pa]
  have all : ∀ i < ms.length, ∃ y, poolOne g s0 ms worker i = .ok y := by
    intro i hi
    unfold poolOne
    rw [List.getElem?_eq_getElem hi]
    obtain ⟨x, hx, -⟩ := rvs_ok g ms[i] (stateBefore g s0 ms worker (worker i) i) (h _ (List.getElem_mem hi))
    exact ⟨x, hx⟩
  obtain ⟨r, a, b, c⟩ := mapM_range_ok (poolOne g s0 ms worker) ms.length all
  refine ⟨r, _, _, ?_, c i hi _ (one i hi fi pi), c j hj _ (one j hj fj pj), ?_⟩
  · unfold normalizeB poolAll
    rw [a]
  · rw [List.map_map, List.map_map, hn]
    apply List.map_congr_left
    intro z _
    simp only [Function.comp]
    have e1 := pi.ne'
    have e2 := pj.ne'
    field_simp
    ring

/-- The generator that counts. -/
def countGen : NGen ℕ := ⟨id, fun s => (s + 1, (s : ℝ))⟩

example : ∃ r x y, normalizeB countGen [⟨5, 2, 2⟩, ⟨7, 0, 4⟩, ⟨1, 3, 2⟩] id 7 = (7, .ok r) ∧ r[0]? = some x ∧ r[2]? = some y ∧
    x.map (fun b => (b - 5) / 2) = y.map (fun b => (b - 1) / 3) :=
  C102_copies_fails countGen [⟨5, 2, 2⟩, ⟨7, 0, 4⟩, ⟨1, 3, 2⟩] id 7 (by simp) 0 2 (by simp) (by simp) (by simp) (by intro k hk; simpa using hk.ne) (by simp) (by simp) rfl

example : (normalizeB countGen [⟨5, 2, 2⟩, ⟨7, -1, 4⟩] id 7).2 = .error .valueError :=
  C102_negative countGen _ id 7 ⟨⟨7, -1, 4⟩, by simp, by norm_num⟩

/-- **C102 (disagreement).** The samples depend on how the members are distributed over the processes: two members in one process, and in two. -/
theorem C102_schedule_fails : ∃ (ms : List BPar) (w w' : ℕ → ℕ) (r r' : List (List ℝ)), normalizeB countGen ms w 0 = (0, .ok r) ∧ normalizeB countGen ms w' 0 = (0, .ok r') ∧ r ≠ r' := by
  refine ⟨[⟨0, 1, 1⟩, ⟨0, 1, 1⟩], fun _ => 0, id, [[0], [1]], [[0], [0]], ?_, ?_, ?_⟩
  · simp [normalizeB, poolAll, List.range, List.range.loop, poolOne, stateBefore, NGen.rvs, NGen.draw, countGen, bind, Except.bind, pure, Except.pure, not_lt.2 (zero_le_one (α := ℝ))]
  · simp [normalizeB, poolAll, List.range, List.range.loop, poolOne, stateBefore, NGen.rvs, NGen.draw, countGen, bind, Except.bind, pure, Except.pure, not_lt.2 (zero_le_one (α := ℝ))]
  · simp

/-- The standardised samples, one member after the other. -/
noncomputable def standardised (ms : List BPar) (r : List (List ℝ)) : List (List ℝ) :=
  List.zipWith (fun m x => x.map fun b => (b - m.loc) / m.scale) ms r

theorem serial_spec (g : NGen σ) (ms : List BPar) : ∀ s, (∀ m ∈ ms, 0 < m.scale) →
    ∃ r, serialAll g ms s = ((g.draw (ms.map BPar.n).sum s).1, .ok r) ∧ r.length = ms.length ∧ (standardised ms r).flatten = (g.draw (ms.map BPar.n).sum s).2 := by
  induction ms with
  | nil => intro s _; exact ⟨[], rfl, rfl, rfl⟩
  | cons m ms ih =>
    intro s h
    have hm := h m List.mem_cons_self
    obtain ⟨r, h1, h2, h3⟩ := ih (g.draw m.n s).1 fun m' hm' => h m' (List.mem_cons_of_mem _ hm')
    refine ⟨(g.draw m.n s).2.map (fun z => z * m.scale + m.loc) :: r, ?_, by simp [h2], ?_⟩
    · unfold serialAll
      rw [rvs_pos g m s hm]
      simp only
      rw [h1, List.map_cons, List.sum_cons, draw_append]
    · rw [List.map_cons, List.sum_cons, draw_append]
      simp only [standardised, List.zipWith_cons_cons, List.flatten_cons]
      have e : (List.map (fun z => z * m.scale + m.loc) (g.draw m.n s).2).map (fun b => (b - m.loc) / m.scale) = (g.draw m.n s).2 := by
        rw [List.map_map]
        conv_rhs => rw [← List.map_id (g.draw m.n s).2]
        apply List.map_congr_left
        intro z _
        simp only [Function.comp, id]
        have := hm.ne'
        field_simp
        ring
      rw [e]
      have h3' : (List.zipWith (fun m x => List.map (fun b => (b - m.loc) / m.scale) x) ms r).flatten = (g.draw (ms.map BPar.n).sum (g.draw m.n s).1).2 := h3
      rw [h3']

theorem state_shift (g : NGen σ) (s0 : σ) (m : BPar) (ms : List BPar) (i : ℕ) :
    stateBefore g s0 (m :: ms) (fun _ => 0) 0 (i + 1) = stateBefore g (g.rvs m s0).1 ms (fun _ => 0) 0 i := by
  induction i with
  | zero => simp [stateBefore]
  | succ i ih =>
    rw [stateBefore]
    simp only [if_true]
    rw [ih, stateBefore]
    simp only [if_true, List.getElem?_cons_succ]

theorem mapM_congr_list {α β : Type} (f g : α → Except Err β) (l : List α) (h : ∀ x ∈ l, f x = g x) : l.mapM f = l.mapM g := by
  induction l with
  | nil => rfl
  | cons a l ih =>
    simp only [List.mapM_cons, h a List.mem_cons_self, ih fun x hx => h x (List.mem_cons_of_mem _ hx)]

theorem mapM_map_list {α β γ : Type} (f : β → Except Err γ) (k : α → β) (l : List α) : (l.map k).mapM f = l.mapM (fun x => f (k x)) := by
  induction l with
  | nil => rfl
  | cons a l ih => simp only [List.map_cons, List.mapM_cons, ih]

/-- A pool of one process does what the loop does. -/
theorem pool_one_process (g : NGen σ) (ms : List BPar) : ∀ s, (∀ m ∈ ms, 0 ≤ m.scale) → poolAll g s ms (fun _ => 0) = (serialAll g ms s).2 := by
  induction ms with
  | nil => intro s _; rfl
  | cons m ms ih =>
    intro s h
    obtain ⟨x, hx, -⟩ := rvs_ok g m s (h m List.mem_cons_self)
    have e : g.rvs m s = ((g.rvs m s).1, .ok x) := by rw [← hx]
    have ih' := ih (g.rvs m s).1 fun m' hm' => h m' (List.mem_cons_of_mem _ hm')
    unfold poolAll
    rw [List.length_cons, List.range_succ_eq_map, List.mapM_cons, mapM_map_list]
    have h0 : poolOne g s (m :: ms) (fun _ => 0) 0 = .ok x := by
      unfold poolOne
      simp only [List.getElem?_cons_zero, stateBefore]
      exact hx
    have hsucc : ∀ i ∈ List.range ms.length, poolOne g s (m :: ms) (fun _ => 0) (Nat.succ i) = poolOne g (g.rvs m s).1 ms (fun _ => 0) i := by
      intro i _
      unfold poolOne
      simp only [Nat.succ_eq_add_one, List.getElem?_cons_succ]
      rw [state_shift]
    rw [h0, mapM_congr_list _ _ _ hsucc]
    unfold poolAll at ih'
    rw [ih']
    have e3 : serialAll g (m :: ms) s = match serialAll g ms (g.rvs m s).1 with
        | (s2, .error e) => (s2, .error e)
        | (s2, .ok xs) => (s2, .ok (x :: xs)) := by
      rw [serialAll, e]
      rfl
    rw [e3]
    simp only [bind, Except.bind, pure, Except.pure]
    cases hs : serialAll g ms (g.rvs m s).1 with
    | mk s2 r2 => cases r2 <;> rfl

/-- **C102 (partial: one process).** With a single process the members use consecutive numbers of one sequence, so that none is used twice. With several processes this holds only among the members
of the same process. -/
theorem C102_one_process_partial (g : NGen σ) (ms : List BPar) (s0 : σ) (h : ∀ m ∈ ms, 0 < m.scale) :
    ∃ r, normalizeB g ms (fun _ => 0) s0 = (s0, .ok r) ∧ r.length = ms.length ∧ (standardised ms r).flatten = (g.draw (ms.map BPar.n).sum s0).2 := by
  obtain ⟨r, h1, h2, h3⟩ := serial_spec g ms s0 h
  refine ⟨r, ?_, h2, h3⟩
  unfold normalizeB
  rw [pool_one_process g ms s0 fun m hm => (h m hm).le, h1]

example : ∃ r, normalizeB countGen [⟨5, 2, 2⟩, ⟨1, 1, 3⟩] (fun _ => 0) 7 = (7, .ok r) ∧ (standardised [⟨5, 2, 2⟩, ⟨1, 1, 3⟩] r).flatten = [7, 8, 9, 10, 11] := by
  obtain ⟨r, h1, -, h3⟩ := C102_one_process_partial countGen [⟨5, 2, 2⟩, ⟨1, 1, 3⟩] 7 (by simp)
  refine ⟨r, h1, ?_⟩
  rw [h3]
  simp [NGen.draw, countGen]

/-- **C102 (disagreement).** Normalising twice gives the same random numbers again: the state of the program is not advanced by what the pool has drawn. Only the second attempt in a single process
advances it. -/
theorem C102_repeated_fails (g : NGen σ) (ms : List BPar) (w : ℕ → ℕ) (s0 : σ) (h : ∀ m ∈ ms, 0 ≤ m.scale) :
    normalizeB g ms w (normalizeB g ms w s0).1 = normalizeB g ms w s0 := by
  obtain ⟨r, h1, -⟩ := C102_samples g ms w s0 h
  rw [h1, h1]

/-- The numbers somebody draws who makes an extractor before every draw. -/
def drawsWithExtractor (g : NGen σ) : ℕ → σ → List ℝ
  | 0, _ => []
  | n + 1, s =>
    let a := g.next (extractorInit g s)
    a.2 :: drawsWithExtractor g n a.1

/-- **C102 (disagreement).** Making an extractor sets the random numbers of the whole program to a fixed seed: somebody who draws a random number and makes an extractor in every turn of a loop gets the
same number in all turns, whatever seed they had chosen. The same holds for `extract_from`. -/
theorem C102_seed_fails (g : NGen σ) (n : ℕ) (s : σ) (seed : ℕ) :
    drawsWithExtractor g n s = List.replicate n (g.next (g.seed 98743215)).2 ∧ ∀ s', extractorSeed g seed s = extractorSeed g seed s' := by
  refine ⟨?_, fun _ => rfl⟩
  induction n generalizing s with
  | zero => rfl
  | succ n ih =>
    simp only [drawsWithExtractor, List.replicate_succ]
    rw [ih]
    rfl

end Ompy
