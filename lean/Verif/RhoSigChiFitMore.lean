import Verif.RhoSigChiFitProps

/-!
# More on C55 and C57: what the setup of the fit and the normalisation refuse
-/

namespace Ompy

/-- **C55.** The setup refuses matrices of different shape, a first-generation matrix whose axes differ
and uncertainties on another excitation axis, each with a ValueError. -/
theorem C55_refuses (close : List ℚ → List ℚ → Except Err Bool) (extend : ℚ) (fg std : Mat) :
    (fg.Ex.length ≠ std.Ex.length ∨ fg.Eg.length ≠ std.Eg.length →
      rscHead close extend fg std = .error .valueError) ∧
    (fg.Ex.length = std.Ex.length → fg.Eg.length = std.Eg.length → close fg.Ex fg.Eg = .ok false →
      rscHead close extend fg std = .error .valueError) ∧
    (fg.Ex.length = std.Ex.length → fg.Eg.length = std.Eg.length → close fg.Ex fg.Eg = .ok true →
      close fg.Ex std.Ex = .ok false → rscHead close extend fg std = .error .valueError) := by
  refine ⟨?_, ?_, ?_⟩
  · intro h
    rw [rscHead, if_pos]
    intro hc
    have := Prod.mk.inj hc
    omega
  · intro h1 h2 h3
    rw [rscHead, if_neg (by simp [h1, h2])]
    simp [h3, bind, Except.bind, throw, throwThe, MonadExceptOf.throw]
  · intro h1 h2 h3 h4
    rw [rscHead, if_neg (by simp [h1, h2])]
    simp [h3, h4, bind, Except.bind, throw, throwThe, MonadExceptOf.throw]

/-- **C57.** Normalising rows beyond the end of the matrix, or beyond the list of limits, is an
IndexError. -/
theorem C57_row_limits (mat std : List (List ℚ)) (imin imax igmin : ℕ) (igmax : List ℕ)
    (h : imin < imax) (hl : mat.length < imax ∨ igmax.length < imax) :
    rscNormalize mat std imin imax igmin igmax = .error .indexError := by
  unfold rscNormalize
  by_cases h1 : mat.length < imax
  · simp [h, h1, bind, Except.bind, throw, throwThe, MonadExceptOf.throw]
  · have h2 : igmax.length < imax := by tauto
    simp [h, h1, h2, bind, Except.bind, throw, throwThe, MonadExceptOf.throw]

/-- **C57.** Otherwise the rows in the window are those of `C57_rows`, all other rows are zero, and the
uncertainties are returned as they are. -/
theorem C57_normalize (mat std out s : List (List ℚ)) (imin imax igmin : ℕ) (igmax : List ℕ)
    (h : rscNormalize mat std imin imax igmin igmax = .ok (out, s)) :
    s = std ∧ out.length = mat.length ∧ ∀ i < mat.length,
      (imin ≤ i ∧ i < imax → rscNormRow (mat.getD i []) igmin (igmax.getD i 0) = .ok (out.getD i [])) ∧
      (¬(imin ≤ i ∧ i < imax) → out.getD i [] = List.replicate (mat.getD i []).length 0) := by
  unfold rscNormalize at h
  by_cases h1 : imin < imax ∧ mat.length < imax
  · simp [h1, bind, Except.bind, throw, throwThe, MonadExceptOf.throw] at h
  · by_cases h2 : imin < imax ∧ igmax.length < imax
    · simp [h1, h2, bind, Except.bind, throw, throwThe, MonadExceptOf.throw] at h
    · simp only [h1, h2, if_false, bind, Except.bind, pure, Except.pure] at h
      split at h
      · simp at h
      · rename_i r hr
        simp only [Except.ok.injEq, Prod.mk.injEq] at h
        obtain ⟨rfl, rfl⟩ := h
        have key : ∀ (n : ℕ) (f : ℕ → Except Err (List ℚ)) (o : List (List ℚ)),
            (List.range n).mapM f = .ok o → o.length = n ∧ ∀ i < n, f i = .ok (o.getD i []) := by
          intro n f
          induction n with
          | zero => intro o ho; cases ho; simp
          | succ n ih =>
            intro o ho
            rw [List.range_succ, List.mapM_append] at ho
            simp only [bind, Except.bind, List.mapM_cons, List.mapM_nil, pure, Except.pure] at ho
            cases hq : (List.range n).mapM f with
            | error e => rw [hq] at ho; simp at ho
            | ok q =>
              obtain ⟨g1, g2⟩ := ih q hq
              rw [hq] at ho
              cases hn : f n with
              | error e => rw [hn] at ho; simp at ho
              | ok y =>
                rw [hn] at ho
                simp only [Except.ok.injEq] at ho
                subst ho
                refine ⟨by simp [g1], fun i hi => ?_⟩
                rcases Nat.lt_succ_iff_lt_or_eq.1 hi with hi | rfl
                · rw [g2 i hi, List.getD_eq_getElem?_getD, List.getD_eq_getElem?_getD,
                    List.getElem?_append_left (by omega)]
                · rw [hn, List.getD_eq_getElem?_getD, List.getElem?_append_right (by omega)]
                  simp [g1]
        obtain ⟨g1, g2⟩ := key _ _ _ hr
        refine ⟨rfl, g1, fun i hi => ⟨fun hw => ?_, fun hw => ?_⟩⟩
        · have := g2 i hi
          rwa [if_pos hw] at this
        · have := g2 i hi
          rw [if_neg hw] at this
          simp only [Except.ok.injEq] at this
          rw [← this, List.map_const']

example : rscNormalize [[1, 1, 2], [1, 3, 0], [5, 5, 5]] [] 1 2 0 [0, 2, 0]
    = .ok ([[0, 0, 0], [1/4, 3/4, 0], [0, 0, 0]], []) := by decide +kernel

end Ompy
