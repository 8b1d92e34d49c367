import Verif.MatrixRebin
import Verif.FirstGen
import Verif.Construct
import Verif.Diagonal
import Verif.MatMul
import Verif.FileIO
import Verif.Arith
import Verif.Spin
import Verif.Helpers

/-!
# The project's own tests, run on the model

Each `example` is a test of /repo/tests with the same input and the expected result written there.
They prove no property.  They check the model: a definition that disagrees with the code on these
inputs would fail here.  Tests marked `xfail` in the project are included with what really comes out.
Tests that need data files or random numbers are left out; smaller numbers of bins stand in for some
`linspace` arguments where noted.
-/

namespace Ompy

namespace RepoTests

/-! ## tests/test_rebin.py -/

/-- `vals_rebinned`, tests/test_rebin.py:7. -/
def valsRebinned : List ℚ := [5, 15 / 2, 10, 25 / 2]

/-- `test_rebin_vector`, tests/test_rebin.py:8-14. -/
example : (Vec.rebinCopy ⟨[10, 20, 30], [10, 20, 30], none, "keV"⟩ (some [10, 15, 20, 25]) none).map
    (fun v => (v.E, v.values)) = .ok ([10, 15, 20, 25], valsRebinned) := by decide +kernel

/-- `test_rebin_both`, tests/test_rebin.py:16-36, with 11 bins rebinned to 6 in place of 1001 to 101. -/
example :
    let m : Mat := ⟨List.replicate 11 (List.replicate 11 1), linspace 0 100 11, linspace 0 100 11, none, none⟩
    let new := linspace 0 100 6
    (m.rebinCopy 2 (some new) none).map (fun a => (a.Eg, a.Ex)) = .ok (new, new) ∧
      (m.rebinInplace 2 (some new) none).2 = .ok () ∧
      (m.rebinInplace 2 (some new) none).1.Eg = new ∧ (m.rebinInplace 2 (some new) none).1.Ex = new := by
  decide +kernel

/-- `test_rebin_vector_non_equidistant`, tests/test_rebin.py:38-45, marked `xfail`: the new axis is taken as
equidistant with the width of its first bin. -/
example : (Vec.rebinCopy ⟨[10, 20, 30], [10, 20, 30], none, "keV"⟩ (some [10, 15, 20, 30]) none).map
    (fun v => v.values) ≠ .ok [5, 15 / 2, 10, 30] := by decide +kernel

/-- `test_rebin_matrix_Eg`, tests/test_rebin.py:47-60. -/
example : (Mat.rebinCopy ⟨[[10, 20, 30], [10, 20, 30], [10, 20, 30]], [10, 20, 30], [10, 20, 30], none, none⟩ 0
    (some [10, 15, 20, 25]) none).map (fun m => (m.Eg, m.Ex, m.values)) =
      .ok ([10, 15, 20, 25], [10, 20, 30], [valsRebinned, valsRebinned, valsRebinned]) := by decide +kernel

/-- `test_rebin_matrix_Ex`, tests/test_rebin.py:63-76. -/
example : (Mat.rebinCopy ⟨[[10, 10, 10], [20, 20, 20], [30, 30, 30]], [10, 20, 30], [10, 20, 30], none, none⟩ 1
    (some [10, 15, 20, 25]) none).map (fun m => (m.Eg, m.Ex, m.values)) =
      .ok ([10, 20, 30], [10, 15, 20, 25], valsRebinned.map fun x => [x, x, x]) := by decide +kernel

/-- `vec1` and `vec2`, tests/test_rebin.py:80-81. -/
def vec1 : Vec ℚ := ⟨[2, 3, 4, 5], [1, 1, 1, 1], none, "keV"⟩
def vec2 : Vec ℚ := ⟨[2, 5 / 2, 4, 5], [1 / 5, 1, 4, 1], none, "keV"⟩

/-- `test_rebin_factor_preserve_counts`, tests/test_rebin.py:84-98. -/
example : ((vec1.rebinCopy none (some 1)).map fun v => v.values.sum) = .ok vec1.values.sum ∧
    ((vec2.rebinCopy none (some (3 / 2))).map fun v => v.values.sum) = .ok vec2.values.sum ∧
    ((vec2.rebinCopy none (some 2)).map fun v => v.values.sum) = .ok vec2.values.sum := by decide +kernel

/-- The case of tests/test_rebin.py:91-93 marked `xfail`. -/
example : ((vec1.rebinCopy none (some (1 / 4))).map fun v => v.values.sum) ≠ .ok vec1.values.sum := by decide +kernel

/-! ## tests/test_matrix.py -/

/-- `ones`, tests/test_matrix.py:8-24. -/
def ones (n : ℕ) : Mat := ⟨tabulate n n fun i j => if j ≤ i then 1 else 0, defaultAxis n, defaultAxis n, none, none⟩

/-- The shape seen through the lengths of the axes and of the values. -/
def shapes (r : Except Err Mat) : Except Err (ℕ × ℕ × Bool) :=
  r.map fun m => (m.Ex.length, m.Eg.length, hasShape m.values m.Ex.length m.Eg.length)

/-- `test_cut_shape`, tests/test_matrix.py:32-43. -/
example : shapes ((ones 10).cutCopy 1 none none true true) = .ok (10, 10, true) ∧
    shapes ((ones 10).cutCopy 1 none (some 8) true true) = .ok (8, 10, true) ∧
    shapes ((ones 10).cutCopy 0 none (some 8) true true) = .ok (10, 8, true) ∧
    shapes ((ones 10).cutCopy 0 (some 1) none true true) = .ok (10, 9, true) ∧
    shapes ((ones 10).cutCopy 1 (some (11 / 2)) (some (11 / 2)) true true) = .ok (1, 10, true) := by decide +kernel

/-- The matrix of `test_cut_limit`, tests/test_matrix.py:53-57. -/
def limitMat : Mat := ⟨List.replicate 5 [-1, 0, 1], [-6 / 5, 1 / 5, 8 / 5], defaultAxis 5, none, none⟩

/-- `test_cut_limit`, tests/test_matrix.py:46-60. -/
example :
    let row (lo hi : Option ℚ) := (limitMat.cut 0 lo hi true true).map fun m => m.values.getD 0 []
    row (some (-2)) (some 1) = .ok [-1, 0] ∧ row (some (-1)) none = .ok [0, 1] ∧
      row none (some (8 / 5)) = .ok [-1, 0, 1] ∧ row (some (-6 / 5)) (some (8 / 5)) = .ok [-1, 0, 1] := by decide +kernel

/-- `test_index`, tests/test_matrix.py:68-80. -/
example :
    let E : List ℚ := (List.range 21).map fun k : ℕ => -21 / 2 + (k : ℚ)
    index E (-21 / 2) = .ok 0 ∧ index E (-11) = .ok 0 ∧ index E (-101 / 10) = .ok 0 ∧ index E (-94 / 10) = .ok 1 ∧
      index E 10 = .ok 20 ∧ index E (19 / 2) = .ok 20 ∧ index E (86 / 10) = .ok 19 := by decide +kernel

/-- The values of `test_numericals`, tests/test_matrix.py:86-90. -/
def m1 : List (List ℚ) := [[0, 1, 2], [-2, 1, 2], [2, 3, -10]]
def m2 : List (List ℚ) := [[1, 2, 3], [-1, 2, 3], [3, 4, -9]]

/-- The heap with the two matrices (and their common axis). -/
def matHeap : Heap ℚ := [⟨[3, 3], m1.flatten⟩, ⟨[3, 3], m2.flatten⟩, ⟨[3], [0, 1, 2]⟩]
def objM1 : Obj := ⟨.matrix, 0, [2, 2], none, ""⟩
def objM2 : Obj := ⟨.matrix, 1, [2, 2], none, ""⟩

/-- The values of the result of an operation. -/
def resultOf (r : Heap ℚ × Except Err Obj) : Except Err (List ℚ) := r.2.map fun o => (cell r.1 o.values).data

/-- `test_numericals`, tests/test_matrix.py:83-101, for `+`, `-` and `*` (for `/` the test divides by zero, which exact
numbers cannot show). -/
example :
    let close : ℚ → ℚ → Bool := fun a b => a == b
    resultOf (binop close (· + ·) matHeap objM1 (.obj objM2)) = .ok [1, 3, 5, -3, 3, 5, 5, 7, -19] ∧
      resultOf (binop close (· - ·) matHeap objM2 (.obj objM1)) = .ok [1, 1, 1, 1, 1, 1, 1, 1, 1] ∧
      resultOf (binop close (· * ·) matHeap objM1 (.obj objM2)) = .ok [0, 2, 6, 2, 2, 6, 6, 12, 90] ∧
      resultOf (binop close (· - ·) matHeap objM1 (.scalar 5)) = .ok [-5, -4, -3, -7, -4, -3, -3, -2, -15] ∧
      resultOf (rbinop close (· - ·) matHeap objM1 (.scalar 5)) = .ok [5, 4, 3, 7, 4, 3, 3, 2, 15] ∧
      resultOf (binop close (· / ·) matHeap objM1 (.scalar 5)) = .ok (m1.flatten.map (· / 5)) ∧
      resultOf (rbinop close (· / ·) matHeap objM2 (.scalar 5)) = .ok (m2.flatten.map (5 / ·)) := by decide +kernel

/-- The products of tests/test_matrix.py:100-101. -/
example : (Mat.matmul ⟨m2, [0, 1, 2], [0, 1, 2], none, none⟩ (.mat ⟨m1, [0, 1, 2], [0, 1, 2], none, none⟩)).map
      (fun m => m.values) = .ok [[2, 12, -24], [2, 10, -28], [-26, -20, 104]] ∧
    (Mat.matmul ⟨m1, [0, 1, 2], [0, 1, 2], none, none⟩ (.mat ⟨m2, [0, 1, 2], [0, 1, 2], none, none⟩)).map
      (fun m => m.values) = .ok [[5, 10, -15], [3, 6, -21], [-31, -30, 105]] := by decide +kernel

/-- `test_bin_shift`, tests/test_matrix.py:104-124, for the axes that are not equidistant. -/
example :
    let m : Mat := ⟨List.replicate 6 (List.replicate 6 1), [0, 1, 2, 3, 80, 90], [0, 1, 2, 3, 7, 10], none, none⟩
    (m.toLowerBin >>= Mat.toMidBin) = .ok m ∧ (m.toMidBin >>= Mat.toLowerBin) = .ok m := by decide +kernel

/-- `test_bin_shift` for the equidistant axes. -/
example :
    let m : Mat := ⟨List.replicate 10 (List.replicate 15 1), linspace 10 20 15, linspace 0 10 10, none, none⟩
    (m.toLowerBin >>= Mat.toMidBin) = .ok m ∧ (m.toMidBin >>= Mat.toLowerBin) = .ok m := by decide +kernel

/-- `test_save_std_exception` and `test_save_which_error`, tests/test_matrix.py:139-160. -/
example (f : Fmt) (corner : ℚ) (fs : FS) (m : Mat) (h : m.std = none) :
    m.save f corner ⟨"/tmp/mat", ".npy"⟩ none "std" fs = .error .runtimeError ∧
      m.save f corner ⟨"/tmp/mat", ".npy"⟩ none "Im not real" fs = .error .notImplemented := by
  have a : ("std" : String).toLower = "std" := by decide +kernel
  have b : ("Im not real" : String).toLower = "im not real" := by decide +kernel
  constructor
  · simp only [Mat.save, whichValues, a, h]; rfl
  · simp only [Mat.save, whichValues, b]; rfl

/-- `test_shape_ZerosMatrix`, tests/test_matrix.py:163-171. -/
example : (zerosMatrix none (some [0, 1, 2, 3, 7, 10]) (some [0, 1, 2, 3, 80, 90]) false .none).map
    (fun m => m.values) = .ok (List.replicate 6 (List.replicate 6 0)) := by decide +kernel

/-- `test_ZerosMatrix_fail_without_enough_info`, tests/test_matrix.py:174-179. -/
example : zerosMatrix none (some [1, 2, 3]) none false .none = .error .assertion ∧
    zerosMatrix none none (some [1, 2, 3]) false .none = .error .assertion := ⟨rfl, rfl⟩

/-- `test_fill_matrix`, tests/test_matrix.py:182-197. -/
example :
    let m : Mat := ⟨List.replicate 3 (List.replicate 6 0), [1, 2, 3, 4, 5, 6], [1, 2, 3], none, none⟩
    (m.fill (19 / 10) (24 / 10) 1).map (fun a => a.values) = .ok [[0, 0, 0, 0, 0, 0], [0, 1, 0, 0, 0, 0], [0, 0, 0, 0, 0, 0]] ∧
      (m.fill (19 / 10) (24 / 10) 1 >>= fun a => a.fill 0 6 1).map (fun a => a.values) =
        .ok [[0, 0, 0, 0, 0, 0], [0, 1, 0, 0, 0, 0], [1, 0, 0, 0, 0, 0]] := by decide +kernel

/-! ## tests/test_vector.py -/

/-- `test_init`, tests/test_vector.py:8-25, with 4 values in place of 100. -/
example : (Vec.new (some [2, 3, 4, 5]) (some [0, 1, 2, 3]) none "keV" : Except Err (Vec ℚ)) =
      .ok ⟨[0, 1, 2, 3], [2, 3, 4, 5], none, "keV"⟩ ∧
    (Vec.new (some [2, 3, 4, 5]) none none "keV" : Except Err (Vec ℚ)) = .error .assertion ∧
    (Vec.new none (some [0, 1, 2, 3]) none "keV" : Except Err (Vec ℚ)) = .ok ⟨[0, 1, 2, 3], [0, 0, 0, 0], none, "keV"⟩ ∧
    (Vec.new (some [2, 3, 4, 5]) (some [1, 2, 3, 4, 5]) none "keV" : Except Err (Vec ℚ)) = .error .valueError := by
  decide +kernel

/-- The vector of `test_closest`, tests/test_vector.py:116-118. -/
def cvec : Vec ℚ := ⟨[0, 1, 2, 3, 4], [10, 9, 8, 7, 6], some [1, 9 / 10, 8 / 10, 7 / 10, 6 / 10], "keV"⟩

/-- `test_closest`, tests/test_vector.py:115-163; the later calls work on the vector changed in place. -/
example :
    let c : Vec ℚ := ⟨[1 / 2, 3 / 2, 3], [10, 9, 7], some [1, 9 / 10, 7 / 10], "keV"⟩
    cvec.closest [1 / 2, 3 / 2, 3] true = .ok c ∧
      (c.closest [-3 / 2, 3 / 2, 7 / 2] true).map (fun v => (v.values.getD 0 1, (v.std.getD []).getD 0 1)) = .ok (0, 0) ∧
      (c.closest [1 / 2, 3 / 2, 3, 6] true).map (fun v => (v.values.getD 3 1, (v.std.getD []).getD 3 1)) = .ok (0, 0) ∧
      Vec.closest (⟨[0, 1, 2, 4, 3], [10, 9, 8, 7, 6], none, "keV"⟩ : Vec ℚ) [1 / 2, 3 / 2, 3, 6] true = .error .runtimeError := by
  decide +kernel

/-- `test_cumsum`, tests/test_vector.py:166-208, for the values. -/
example :
    let v : Vec ℚ := ⟨[0, 3 / 2, 3, 9 / 2, 6, 15 / 2], [0, 0, 1, 2, 3, 4], none, "keV"⟩
    let cum (f : CumFactor) := v.cumulative id id f
    cum .none = .ok { v with values := [0, 0, 1, 3, 6, 10] } ∧
      cum (.num 2) = .ok { v with values := [0, 0, 2, 6, 12, 20] } ∧
      cum (.str "de") = .ok { v with values := [0, 0, 3 / 2, 9 / 2, 9, 15] } ∧
      cum (.str "dx") = .error .valueError ∧
      Vec.cumulative id id (⟨[0, 3 / 2, 3, 9 / 2, 6, 15 / 2, 17 / 2], [0, 0, 1, 2, 3, 4, 5], none, "keV"⟩ : Vec ℚ) (.str "de") =
        .error .runtimeError := by
  decide +kernel

/-- `test_cut`, tests/test_vector.py:211-221. -/
example :
    let v : Vec ℚ := ⟨(List.range 11).map fun k : ℕ => (k : ℚ) - 1, linspace 33 43 11, none, "keV"⟩
    (v.cut (some 0) (some 8)).map (fun c => (c.E, c.values)) =
      .ok ((List.range 9).map fun k : ℕ => (k : ℚ), (List.range 9).map fun k : ℕ => (k : ℚ) + 34) := by decide +kernel

/-- The products of `test_numericals`, tests/test_vector.py:241-242. -/
example : (Vec.matmul ⟨[0, 1, 2], [1, 2, -1], none, "keV"⟩ ⟨[0, 1, 2], [0, 1, -2], none, "keV"⟩).map (fun r => r.value) = .ok 4 := by
  decide +kernel

/-- The number formats of a test file: printing and reading keep the number; tarfile drops the leading `/`. -/
def exactFmt : Fmt := ⟨id, id, id, fun s => (s.drop 1).toString⟩

/-- Save to an empty disk and load again into a fresh vector. -/
def roundTrip (v : Vec ℚ) (suffix : String) : Except Err (Vec ℚ) := do
  let fs ← v.save exactFmt ⟨"/tmp/no_std", suffix⟩ none "keV" (fun _ => none)
  (Vec.load ⟨[], [], none, "keV"⟩ ⟨"/tmp/no_std", suffix⟩ none fs).1

/-- `test_save_load_no_std` and `test_save_load`, tests/test_vector.py:50-90, with 5 bins in place of 100. -/
example :
    let v : Vec ℚ := ⟨linspace 0 1 5, linspace 2 (34 / 10) 5, none, "keV"⟩
    let w : Vec ℚ := { v with std := some [1 / 10, -2 / 10, 0, 3 / 10, 1 / 7] }
    roundTrip v ".npy" = .ok v ∧ roundTrip v ".txt" = .ok v ∧ roundTrip v ".tar" = .ok v ∧ roundTrip v ".m" = .ok v ∧
      roundTrip v ".csv" = .ok v ∧ roundTrip w ".npy" = .ok w ∧ roundTrip w ".txt" = .ok w ∧ roundTrip w ".tar" = .ok w ∧
      roundTrip w ".csv" = .ok w := by
  decide +kernel

/-- `test_save_units`, tests/test_vector.py:35-47, with 5 energies in place of 501. -/
example :
    let v : Vec ℚ := ⟨[0, 10, 20, 30, 40], [1, 3, 2, 5, 4], none, "keV"⟩
    (do
      let fs ← v.save exactFmt ⟨"/tmp/units", ".txt"⟩ none "MeV" (fun _ => none)
      let w ← (Vec.load ⟨[], [], none, "MeV"⟩ ⟨"/tmp/units", ".txt"⟩ none fs).1
      let k ← w.toKeV
      pure (w.E, w.values, k.E)) = (.ok ([0, 1 / 100, 2 / 100, 3 / 100, 4 / 100], v.values, v.E) : Except Err _) := by
  decide +kernel

/-- `test_save_load_tar`, tests/test_vector.py:93-101: a matrix cannot be loaded as a vector. -/
example :
    let m : Mat := ⟨[[1, 2], [3, 4]], [0, 1], [0, 1], none, none⟩
    (do
      let fs ← m.save exactFmt 0 ⟨"/tmp/mat", ".tar"⟩ none "values" (fun _ => none)
      (Vec.load ⟨[], [], none, "keV"⟩ ⟨"/tmp/mat", ".tar"⟩ none fs).1) = .error .valueError := by
  decide +kernel

/-! ## tests/test_firstgen.py -/

/-- `test_multiplicity_estimation`, tests/test_firstgen.py:11-16. -/
example : setMultiplicity "total" = .ok "total" ∧ setMultiplicity "toTal" = .ok "total" ∧
    setMultiplicity "statistical" = .ok "statistical" ∧ setMultiplicity "duck" = .error .valueError := by decide +kernel

/-- The default parameters, ompy/firstgeneration.py:55-73. -/
def fgDefaults : FGParams := ⟨10, false, 430, 200, 3 / 10, 200, 300, false⟩

/-- `test_shape`, tests/test_firstgen.py:19-31. -/
example : ((fgApply (fun _ _ => true) fgDefaults none { ones 5 with Ex := [0, 1, 2, 3, 4] }).1.map fun m => m.Ex) =
      .ok [0, 1, 2, 3, 4] ∧
    ((fgApply (fun _ _ => true) fgDefaults none { ones 5 with Ex := [2 / 10, 12 / 10, 22 / 10, 32 / 10, 42 / 10] }).1.map
      fun m => m.Ex) = .ok [2 / 10, 12 / 10, 22 / 10, 32 / 10, 42 / 10] := by
  decide +kernel

/-- `test_negatives`, tests/test_firstgen.py:34-45. -/
example : (fgApply (fun _ _ => true) fgDefaults none { ones 5 with Ex := [-1, 0, 1, 2, 3] }).1 = .error .valueError ∧
    (fgApply (fun _ _ => true) fgDefaults none { ones 5 with Ex := [-12 / 10, -2 / 10, 8 / 10, 18 / 10, 28 / 10] }).1 =
      .error .valueError := by
  decide +kernel

/-! ## tests/test_normalizer_gsf.py -/

/-- `test_spinsum` and `test_spinsum2`, tests/test_normalizer_gsf.py:19-30: with a spin distribution that is one everywhere
the sum counts the pairs. -/
example : (spinPairs 0 0).length = 2 ∧ (spinPairs (1 / 2) 0).length = 4 ∧ (spinPairs 1 0).length = 5 ∧
    (spinPairs (3 / 2) 0).length = 6 ∧ (spinPairs 2 0).length = 6 ∧ (spinPairs 20 0).length ≠ 4 := by decide +kernel

/-! ## tests/test_spindists.py -/

/-- `test_missing_parameter`, tests/test_spindists.py:7-18. -/
example (E : ℝ) (intEx : Bool) (pars : SPars) (h : pars "mass" = none ∨ pars "NLDa" = none ∨ pars "Eshift" = none) :
    getSigma2 "EB05" pars intEx E = .error .typeError := by
  have hb : hasAll pars ["mass", "NLDa", "Eshift"] = false := by
    rcases h with h | h | h <;> simp [hasAll, h]
  simp [getSigma2, hb]

/-- A fractional power between two numbers, from integer powers. -/
theorem rpow_between (x lo hi : ℝ) (p q : ℕ) (hq : q ≠ 0) (hx : 0 ≤ x) (hlo : 0 ≤ lo) (hhi : 0 ≤ hi)
    (h1 : lo ^ q ≤ x ^ p) (h2 : x ^ p ≤ hi ^ q) : lo ≤ x ^ ((p : ℝ) / q) ∧ x ^ ((p : ℝ) / q) ≤ hi := by
  have hq' : (q : ℝ) ≠ 0 := by exact_mod_cast hq
  have e : (x ^ ((p : ℝ) / q)) ^ q = x ^ p := by
    rw [← Real.rpow_natCast (x ^ ((p : ℝ) / q)) q, ← Real.rpow_mul hx, div_mul_cancel₀ _ hq', Real.rpow_natCast]
  have h0 : 0 ≤ x ^ ((p : ℝ) / q) := Real.rpow_nonneg hx _
  exact ⟨(pow_le_pow_iff_left₀ hlo h0 hq).1 (by rw [e]; exact h1), (pow_le_pow_iff_left₀ h0 hhi hq).1 (by rw [e]; exact h2)⟩

/-- A square root near a number. -/
theorem sqrt_near (s e d : ℝ) (hd : 0 ≤ d) (h : d ≤ e) (h1 : (e - d) ^ 2 ≤ s) (h2 : s ≤ (e + d) ^ 2) : |√s - e| ≤ d := by
  rw [abs_le]
  constructor
  · have := Real.le_sqrt_of_sq_le h1; linarith
  · have := Real.sqrt_le_iff.2 ⟨by linarith, h2⟩; linarith

/-- `test_sigma2` for `EB09_CT`, tests/test_spindists.py:30-32, 49-53. -/
example : |√(gEB09CT 240) - 4803 / 1000| ≤ 1 / 100 := by
  obtain ⟨a, b⟩ := rpow_between 240 (4895 / 1000) (4905 / 1000) 29 100 (by norm_num) (by norm_num) (by norm_num) (by norm_num)
    (by norm_num) (by norm_num)
  norm_num at a b
  unfold gEB09CT
  rw [Real.sqrt_sq (by positivity), abs_le]
  constructor <;> linarith

/-- `test_sigma2` for `EB09_emp`, tests/test_spindists.py:27-29, 49-53. -/
example : |√(gEB09emp 240 (1336 / 1000) (42 / 10)) - 4841 / 1000| ≤ 1 / 100 ∧
    |√(gEB09emp 240 (1336 / 1000) (6534 / 1000)) - 5239 / 1000| ≤ 1 / 100 := by
  obtain ⟨a, b⟩ := rpow_between 240 (4042 / 100) (4043 / 100) 27 40 (by norm_num) (by norm_num) (by norm_num) (by norm_num)
    (by norm_num) (by norm_num)
  obtain ⟨c, d⟩ := rpow_between (3532 / 1000) (1482 / 1000) (1483 / 1000) 39 125 (by norm_num) (by norm_num) (by norm_num)
    (by norm_num) (by norm_num) (by norm_num)
  obtain ⟨e, f⟩ := rpow_between (5866 / 1000) (1736 / 1000) (1737 / 1000) 39 125 (by norm_num) (by norm_num) (by norm_num)
    (by norm_num) (by norm_num) (by norm_num)
  norm_num at a b c d e f
  unfold gEB09emp eeff
  rw [if_neg (by norm_num), if_neg (by norm_num)]
  norm_num
  constructor
  · apply sqrt_near _ _ _ (by norm_num) (by norm_num) <;> nlinarith
  · apply sqrt_near _ _ _ (by norm_num) (by norm_num) <;> nlinarith

/-- `test_sigma2` for `EB05`, tests/test_spindists.py:24-26, 49-53. -/
example : ∃ s t, gEB05 240 (25506 / 1000) (162 / 1000) (42 / 10) = .ok s ∧ gEB05 240 (25506 / 1000) (162 / 1000) (6534 / 1000) = .ok t ∧
    |√s - 7521 / 1000| ≤ 1 / 100 ∧ |√t - 8387 / 1000| ≤ 1 / 100 := by
  obtain ⟨a, b⟩ := rpow_between 240 9268 9269 5 3 (by norm_num) (by norm_num) (by norm_num) (by norm_num)
    (by norm_num) (by norm_num)
  norm_num at a b
  unfold gEB05 eeff
  rw [if_neg (by norm_num), if_neg (by norm_num), if_neg (by norm_num), if_neg (by norm_num)]
  refine ⟨_, _, rfl, rfl, ?_, ?_⟩
  · have h := sqrt_near (1 + 4 * (25506 / 1000) * (42 / 10 - 162 / 1000)) (20322 / 1000) (1 / 1000) (by norm_num) (by norm_num)
      (by norm_num) (by norm_num)
    rw [abs_le] at h
    generalize √(1 + 4 * (25506 / 1000) * (42 / 10 - 162 / 1000)) = q at h ⊢
    generalize (240 : ℝ) ^ ((5 : ℝ) / 3) = P at a b ⊢
    have l : 9268 * (21321 / 1000) ≤ P * (1 + q) := mul_le_mul a (by linarith) (by norm_num) (by linarith)
    have u : P * (1 + q) ≤ 9269 * (21323 / 1000) := mul_le_mul b (by linarith) (by linarith) (by norm_num)
    rw [mul_assoc]
    generalize P * (1 + q) = X at l u ⊢
    apply sqrt_near _ _ _ (by norm_num) (by norm_num) <;> norm_num at l u ⊢ <;> linarith
  · have h := sqrt_near (1 + 4 * (25506 / 1000) * (6534 / 1000 - 162 / 1000)) (25517 / 1000) (1 / 1000) (by norm_num) (by norm_num)
      (by norm_num) (by norm_num)
    rw [abs_le] at h
    generalize √(1 + 4 * (25506 / 1000) * (6534 / 1000 - 162 / 1000)) = q at h ⊢
    generalize (240 : ℝ) ^ ((5 : ℝ) / 3) = P at a b ⊢
    have l : 9268 * (26516 / 1000) ≤ P * (1 + q) := mul_le_mul a (by linarith) (by norm_num) (by linarith)
    have u : P * (1 + q) ≤ 9269 * (26518 / 1000) := mul_le_mul b (by linarith) (by linarith) (by norm_num)
    rw [mul_assoc]
    generalize P * (1 + q) = X at l u ⊢
    apply sqrt_near _ _ _ (by norm_num) (by norm_num) <;> norm_num at l u ⊢ <;> linarith

/-! ## tests/test_normalizer_nld.py -/

/-- The exponential function between two numbers. -/
theorem exp_neg_between (x lo hi : ℝ) (h0 : 0 ≤ x) (h1 : x ≤ 1) (hlo : 0 < lo)
    (a : lo * (1 + x + x ^ 2 / 2 + x ^ 3 / 6 + x ^ 4 * 5 / 96) ≤ 1) (b : 1 ≤ hi * (1 + x + x ^ 2 / 2 + x ^ 3 / 6)) :
    lo ≤ Real.exp (-x) ∧ Real.exp (-x) ≤ hi := by
  have u := Real.exp_bound' h0 h1 (n := 4) (by norm_num)
  have l := Real.sum_le_exp_of_nonneg h0 4
  simp only [Finset.sum_range_succ, Finset.sum_range_zero, Nat.factorial] at u l
  norm_num at u l
  have p := Real.exp_pos x
  have hS : 0 < 1 + x + x ^ 2 / 2 + x ^ 3 / 6 := by positivity
  have hhi : 0 < hi := by
    by_contra hc
    nlinarith [mul_nonneg (by linarith : (0 : ℝ) ≤ -hi) hS.le]
  rw [Real.exp_neg, ← one_div]
  constructor
  · rw [le_div_iff₀ p]
    nlinarith [mul_le_mul_of_nonneg_left u hlo.le]
  · rw [div_le_iff₀ p]
    nlinarith [mul_le_mul_of_nonneg_left l hhi.le]

/-- A reciprocal near a number. -/
theorem recip_near (x e d : ℝ) (hx : 0 < x) (h1 : (e - d) * x ≤ 1) (h2 : 1 ≤ (e + d) * x) : ∃ r, recip x = .ok r ∧ |r - e| ≤ d := by
  refine ⟨1 / x, by rw [recip, if_neg hx.ne'], ?_⟩
  rw [abs_le]
  constructor
  · have := (le_div_iff₀ hx).2 h1; linarith
  · have := (div_le_iff₀ hx).2 h2; linarith

/-- `test_nldSn_from_D0`, tests/test_normalizer_nld.py:6-18, and `test_D0_from_nldSn`, 21-40, for a target of spin 0. -/
example : (∃ r, nldSnFromD0 (spinDist ((843 / 100) ^ 2)) (22 / 10) 0 = .ok r ∧ |r - 65060000| ≤ 1 / 100 * 65060000) ∧
    ∃ r, D0FromNldSn (spinDist ((843 / 100) ^ 2)) 65060000 0 = .ok r ∧ |r - 22 / 10| ≤ 1 / 100 * (22 / 10) := by
  obtain ⟨a, b⟩ := exp_neg_between (5000 / 710649) (99 / 100) (994 / 1000) (by positivity) (by norm_num)
    (by norm_num) (by norm_num) (by norm_num)
  have g : spinDist ((843 / 100) ^ 2) (0 + 1 / 2) = .ok (10000 / 710649 * Real.exp (-(5000 / 710649))) := by
    rw [spinDist, if_neg (by norm_num)]; norm_num
  constructor
  · simp only [nldSnFromD0, spinHalfSum, if_true, g, Except.bind, bind, pure, Except.pure]
    apply recip_near
    · positivity
    · linarith
    · linarith
  · simp only [D0FromNldSn, spinHalfSum, if_true, g, Except.bind, bind, pure, Except.pure]
    apply recip_near
    · positivity
    · linarith
    · linarith

/-- The same two tests for a target of spin 5. -/
example : (∃ r, nldSnFromD0 (spinDist (7 ^ 2)) 5 5 = .ok r ∧ |r - 2441000| ≤ 1 / 100 * 2441000) ∧
    ∃ r, D0FromNldSn (spinDist (7 ^ 2)) 2441000 5 = .ok r ∧ |r - 5| ≤ 1 / 100 * 5 := by
  obtain ⟨a, b⟩ := exp_neg_between (25 / 98) (774 / 1000) (776 / 1000) (by positivity) (by norm_num)
    (by norm_num) (by norm_num) (by norm_num)
  obtain ⟨c, d⟩ := exp_neg_between (18 / 49) (692 / 1000) (694 / 1000) (by positivity) (by norm_num)
    (by norm_num) (by norm_num) (by norm_num)
  have g : spinDist (7 ^ 2) (5 - 1 / 2) = .ok (5 / 49 * Real.exp (-(25 / 98))) := by
    rw [spinDist, if_neg (by norm_num)]; norm_num
  have g' : spinDist (7 ^ 2) (5 + 1 / 2) = .ok (6 / 49 * Real.exp (-(18 / 49))) := by
    rw [spinDist, if_neg (by norm_num)]; norm_num
  have h5 : (5 : ℝ) ≠ 0 := by norm_num
  constructor
  · simp only [nldSnFromD0, spinHalfSum, if_neg h5, g, g', Except.bind, bind, pure, Except.pure]
    apply recip_near
    · positivity
    · linarith
    · linarith
  · simp only [D0FromNldSn, spinHalfSum, if_neg h5, g, g', Except.bind, bind, pure, Except.pure]
    apply recip_near
    · positivity
    · linarith
    · linarith

end RepoTests

end Ompy
