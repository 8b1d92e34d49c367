# Design of the OMpy model and proofs

Subject: `ompy` at the pinned commit in `/repo` (Python and Cython). The sources are read as
text and are not run. The model is written in Lean 4 (with Mathlib) under `lean/Verif`.

## 1. Approach

* Every Lean definition mirrors one Python/Cython function, branch by branch, and carries a
  comment with file and line numbers. Exceptions are values (`Except Err α`). Loops are
  structural recursions or sums over index ranges; `while` loops are recursions with a proved
  termination measure.
* Numbers. Floats are modelled by exact rationals `ℚ`, or by `ℝ` where `exp`, `log`, `sqrt` or
  trigonometry occur. Rounding is not modelled. Where NaN or infinity decide a branch
  (`div0`, `remove_negative`, `cut_nan`, row normalisation) a small extended number type
  (`fin q | nan | pinf | ninf`) or an explicit error branch is used. `int(x)` is truncation
  towards zero.
* Arrays are `List`s where shapes matter (cut, file formats, integrity) and functions
  `ℕ → ℚ` / `ℕ → ℕ → ℚ` with explicit sizes where the code does linear algebra.
* Objects shared by reference (arithmetic purity, first generation's valley correction, the
  spin-sum cache, ensemble normaliser) are modelled with an explicit heap of cells or an explicit
  aliasing flag.
* The disk is a map from paths to contents. A crash is a prefix of the sequence of writes.
  Schedules are arbitrary permutations or interleavings of the steps.
* Specifications are stated apart from the model (geometric measure of an interval, closest
  element of a list, sum over a set of bins, "the same as a fresh computation", …). Each
  property theorem is in a file `…Props.lean`, and next to it an `example` instantiates its
  hypotheses on a concrete non-trivial case.
* Where the code does not have the property, a theorem `…_fails` gives a concrete
  counterexample computed by the model, and a theorem with the suffix `_partial` proves the part
  that does hold. The full statement stays in `properties.jsonl` and here.

## 2. Trusted base

* The Lean kernel (4.33.0), the Mathlib lemmas used, and the axioms `propext`,
  `Classical.choice`, `Quot.sound`. No own axioms, no `sorry`, no `native_decide`.
* The transcription of the Python/Cython text into Lean, checked by reading, and by the project's
  own tests: `RepoTests.lean` runs the tests of /repo/tests that need no data files and no random
  numbers on the model, with the results written in the tests (and the `xfail` cases failing). These
  are examples, they count for no property.
* numpy/scipy/pandas behaviour as documented: `argmin` takes the first minimum, slices clip,
  negative indices wrap, `searchsorted`, `linspace`, `round` half to even, `np.delete`,
  `column_stack`, `np.save`/`np.load` round trip, `tarfile` keeps order.
* Floating-point arithmetic is idealised to exact arithmetic. Consequences that hold exactly in
  the model hold in the code up to rounding; index decisions on values that are within rounding
  of a tie can differ. `np.allclose` is modelled either exactly with its tolerances (rtol 1e-5,
  atol 1e-8) or as equality, as said at each definition.
* Random generators are opaque functions from (seed sequence, position) to streams.

Modelled: `rebin.pyx`, `decomposition.pyx`, `gauss_smoothing.pyx`, `library.py`, `vector.py`,
`matrix.py`, `abstractarray.py`, `action.py`, `matrixstate.py`, `filehandling.py` (tables, and the
characters of MAMA files and of `%E`), `firstgeneration.py`, `unfolder.py` (gaussian_filter1d
opaque), `extractor.py` (optimiser opaque), `ensemble.py`, `ensembleNormalizer.py`, `response.py`,
`models.py`, `spinfunctions.py`, `src/stats.cpp` with `src/erfinv.hpp`, `abstract_normalizer.py`, `normalizer_nld.py`,
`normalizer_gsf.py`, `normalizer_simultan.py`, `pyrhosigchi.py` and `rhosigchi.cpp`, `version.py`,
`examples.py`, and of the plots the numbers that are handed to the drawing library.
Not modelled: the drawing library, log messages, MultiNest and scipy optimisers (arbitrary
functions), rounding of floating-point arithmetic, process pools beyond the order and the random
state of the steps.

## 3. Properties: model and proof

| id | modelled | proof |
|----|----------|-------|
| C01 | `overlap`, `rebin_1D` with truncated index window | outside the window every overlap is 0, by bounds on `truncZ`; overlap = Lebesgue measure of the intersection |
| C02 | same | telescoping of overlaps of adjacent output bins |
| C03 | same | sums are linear; overlap of equal grids is a Kronecker delta |
| C04 | `rebin_2D` | per-line theorem, Fubini for finite sums |
| C05 | `index`/`_index` loop | loop invariant: on sorted axes squared distance is unimodal |
| C06 | `i_from_E` (`argmin`) | first-minimum specification of `argmin`; comparison with C05 |
| C07 | `Matrix.cut` with Python slice semantics | characterise both end indices; holds for inclusive limits that hit the axis; fails for windows below the axis with an exclusive upper limit (negative slice) and `std` is left uncut: `_fails` + `_partial` |
| C08 | `Vector.cut` | slice = take/drop, same slice for the three lists |
| C09 | heap of arrays, `copy`, `+ - * /` | frame theorem over the heap |
| C10 | `to_keV`, `to_MeV` | induction over the list of calls |
| C11 | `transform` over ℝ | `exp_add`, pointwise on lists |
| C12 | `cumulative` | induction; `_root_` sums of prefixes |
| C13 | `closest` with `searchsorted` | characterisation of searchsorted; proved with the exact half-open intervals of both sides: with `side='right'` the last energy is outside, with `side='left'` the first one |
| C14 | `cut_nan` on extended numbers | filter of zipped lists |
| C15 | `projection` | sum over list of rows, exchange of sums, window by slices |
| C16 | `Matrix.fill` | update at one index; commutation |
| C17 | `fill_negative_max` with `while` loop | measure = number of positive bins; invariants |
| C18 | `fill_negative_gauss`, weights opaque | conservation and no new negatives proved; "largest weight first" is false (ascending argsort): `_fails`; `_partial` |
| C19 | `remove_negative` on extended numbers | pointwise |
| C20 | `diagonal_elements` | yields one past the last non-zero column: `_fails`; `_partial` with the true characterisation |
| C21 | `to_lower_bin`, `to_mid_bin` | pointwise |
| C22 | `E_array_from_calibration`, half-even rounding | bounds of rounding |
| C23 | save/load tables for npy, txt, csv, tar | round trip of column stacks; disk map frame. Loading a tar without std into a vector keeps the old std: recorded |
| C24 | MAMA header and axis reconstruction | round trip for equidistant axes; false for MeV vectors (writes `self`): `_fails` + `_partial` |
| C25 | `step` weights, `normalize_rows` | triangularity by index bounds |
| C26 | `apply` loop | induction over iterations with the dependency relation "agree on rows ≤ i" |
| C27 | `cut_valley_correction` on a heap | false: discarded copy: `_fails`; matrix part `_partial` |
| C28 | `multiplicity_statistical`, `multiplicity_normalization`, `div0` | sign analysis |
| C29 | `Unfolder.step` iteration | induction |
| C30 | `score` selection | false when `num_iter ≤ minimum_iterations` (index out of range) and the forced minimum is not the best of the allowed: `_fails` + `_partial` |
| C31 | `gauss_smoothing` over ℝ | window contains the own bin so the kernel sum is positive |
| C32 | `nld_T_product`, `normalize`; row schedule | rows as independent writes, permutation invariance |
| C33 | same with exponential factors over ℝ | factor per row cancels in the normalisation, on the exact grid |
| C34 | E_nld grid, `constraining_counts` | arithmetic of the grid and exactness of index on hits |
| C35 | `chisquare`, `chisquare_diagonal` | sums of squares |
| C36 | `normalize` (extractor), head of `decompose` | `std=None` raises TypeError and input is mutated: `_fails` + `_partial` |
| C37 | `Action` as list of calls over an arbitrary interpreter | induction; curry = update of kwargs |
| C38 | Vector state and op sequences | induction over ops; a `rebin` in place with `std` raises unless the number of bins stays, so the statement holds as given |
| C39 | ensemble step as program over disk + rng | crash prefix, resume; false with background: `_fails`; exact without: `_partial` |
| C40 | `generate` with scheduling permutations | steps touch disjoint paths, children of the seed depend only on index |
| C41 | `load` with arbitrary directory order | false in general: `_fails`; true for sorted order: `_partial` |
| C42 | `iterate` clamp of rhosigchi | case analysis, induction |
| C43 | `two_channel_split`, `discrete_peaks`, row normalisation | field arithmetic |
| C44 | `E_compton`, `dE_dtheta` over ℝ | `HasDerivAt` |
| C45 | `Model.__setattr__`, `is_changed`, extrapolation subclasses | false parts: `_fails`; `_partial` |
| C46 | `nldSn_from_D0`, `D0_from_nldSn` | field arithmetic under positivity of the spin distribution, comparison with the published formula |
| C47 | `SpinSum`, `SpinSum_save_reload` | enumeration equals selection rule set; cache transparent without aliasing; false with in-place mutation: `_fails` + `_partial` |
| C48 | `NormalizerGSF.normalize` from the copy of the strength function on, `extrapolate`, `Gg_standard`, `log_interp1d` | the interpolation of logarithms and the two models are linear in a common factor; sufficient conditions for success |

Properties added later are listed in section 5.

## 4. Disagreements between code and documentation found while reading

1. `library.fill_negative_gauss` (185): documented to use the maximum weight first, iterates
   `argsort` ascending, so it takes from bins of weight zero first and normally never from
   positive weights.
2. `library.diagonal_elements` (370-384): documented "last non-zero elements", yields `Ny-j`,
   one column past it.
3. `Matrix.cut` (484-553): "Fix for boundaries" changes `Emin`/`Emax`, not the indices; upper
   index −1 wraps around; `std` is not cut; not-inplace drops `std` and `state`.
4. `Matrix.trapezoid` (641-689): `Eg[1]-Eg[0]` of a meshgrid is a row of zeros (nan);
   `except IndexError():` is a TypeError when reached; the returned-value doc is inverted.
5. `Matrix.__matmul__` (899) compares own `Eg` with own `Ex`. `NotImplementedError` is created
   but not raised (also `Vector.__matmul__`, `mama_write`).
6. `ZerosMatrix(std=True)` (937-942) passes the boolean on as `std`.
7. `Vector.rebin` (390-428): std is not rebinned; not-inplace drops std and units.
8. `Vector.save` (214): MAMA writes `self`, not the converted copy.
9. `Vector.closest` (475-480): side right gives 0 at the last energy.
10. `Vector.load` tar without std (246) keeps the previous std.
11. `FirstGeneration.cut_valley_correction` (300): the copy is discarded.
12. `Unfolder.score` (264-276): selects iteration `num_iter` (not computed) if
    `num_iter ≤ minimum_iterations`.
13. `Extractor.decompose` (358): `normalize(matrix)` misses an argument; (354) mutates input.
14. `Extractor.rhosigchi` (224-227): std computed with `np.mean`; uses `ensemble` not
    `self.ensemble`. `pyrhosigchi.normalize` returns `std` for the error.
15. `Extractor.extract_from`: resuming a partly cached extraction gives other random starts.
16. `Ensemble.step`: with background, resuming between the two perturbed files changes the
    random stream. `Ensemble.load` depends on glob order. `Ensemble.rebin` does not rewrite
    members. `Ensemble.__init__` fails with `raw=None` although optional.
17. `response.LoadZip` (88-148): axis built with `linspace(a0, a1*(N-1), N)`.
18. `Model.is_changed`: `{name}` undefined → NameError. Extrapolation models are not frozen.
    `NormalizationParameters`: exclude `"A"` ineffective; `E_grid` ignores `Emax`.
19. `NormalizerNLD.lnlike`: the `ln std` term lacks a factor 2 against the Gaussian likelihood;
    `discrete = None` does not clear. `NormalizerGSF.Gg_before_norm`: unknown method returns None.
    Cache in `SpinSum_save_reload` aliases its arguments.
20. `EnsembleNormalizer.step`: copies are discarded so the caller's vectors are cut.
21. `np.save` appends `.npy`: `save(filetype='numpy')` under another suffix cannot be loaded back. A
    text file with one bin raises `IndexError` on load. `save_tar` overwrites and then deletes files
    named `<stem>0.npy`, … `Matrix.save(which='std')` in the MAMA format writes the values.
22. Arithmetic between vectors compares energies only as numbers: keV and MeV are not told apart.
23. `FirstGeneration`: with `num_iterations = 0` the flat guess is returned; a negative entry state shift
    or threshold gives negative multiplicities, hence an `AssertionError`. `allgen_from_primary`
    includes the term of the row itself.
24. `Unfolder`: the iteration `minimum_iterations` is taken even if a later allowed one is better; a
    failing call leaves `minimum_iterations` lowered; a score that is NaN is taken as the best. The
    double escape peak is shifted by 1024 and not by 1022 keV.
25. `gauss_smoothing_matrix_1D` with `axis=2` smooths along one axis only.
26. `chisquare_diagonal`, `constraining_counts` and `nld_T_product` do not agree on the bins next to the
    diagonal (half a bin).
27. `Extractor.normalize`: `TypeError` without std, `ZeroDivisionError` for an empty row with std.
28. `Ensemble.load` returns members as they were before the action; files of earlier, larger ensembles
    are loaded as members.
29. `rhosigchi.cpp`: the array is read out of bounds if spectra reach further than `iu0` beyond the
    diagonal; `igmin < iu0` clears constrained bins; the update of sigma leaves out pairs with
    `ig > ix`.
30. `pyrhosigchi`: the labels of the level density are wrong without an extension of the axis;
    `chisquare` divides once per row. `Extractor.rhosigchi`: the rebinning in place makes the second
    member fail; an unknown algorithm is silently ignored.
31. `Matrix.rebin`: `factor` does not scale the step by exactly that factor; factors below 1 lose counts
    at the edges.
32. `Response`: extrapolated peak probabilities can be negative or not sum to 1; `LoadZip` pairs energies
    and spectra by file order; a slice with one element is broadcast; `fan_to_end` is off by one bin.
33. `Model`: method names can be overwritten; `Emax` cannot be set before `Sn`; `_A` is checked.
34. `SpinFunctions`: `EB09_emp` gives sigma = 0 for energies up to half the pairing energy; `gconst`
    truncates for integer energies; `EB09_CT` gives a number for an array.
35. `NormalizerGSF`: ranges found for one strength function are used for the next one; a level density
    that does not reach down to 0 always gives `ValueError`; the upper model is fitted only if the *lower*
    one is set to be fitted.
36. `NormalizerNLD.lnlike`: because of the weight of `ln std` the parameters that reproduce the data
    exactly need not be the most likely ones (`C65_best_fails`).
37. `NormalizerNLD.normalize`: the fit uses the attribute `discrete` and not the argument; the argument is
    converted to MeV in place; `std_fake` is never reset; with `regenerate=False` a saved file replaces
    the whole object whatever the arguments; without a path the default `regenerate=False` is a
    `TypeError`.
38. `NormalizerNLD.discrete`: assigning `None` sets `_discretes`; setting `smooth_levels_fwhm` replaces a
    vector by the file that was assigned before it.
39. `NormalizerNLD.optimize`: the bounds of the user limit the first fit only, the prior goes beyond them; a guess
    of 0 makes the prior of that parameter a point; bounds in a dictionary with another order than the default
    give the values of the guess wrong names.
40. `self_if_none` reads the name from the source line: comments in parentheses, nested calls, attributes and
    calls over several lines find another name or none.
41. `NormalizerGSF`: `nld` and `nld_model` given to the constructor are never used (`normalize` overwrites them); a
    strength function in keV is converted in the hands of the caller; if a level density is given next to a
    normaliser, the results contain that of the normaliser.
42. `EnsembleNormalizer.step` cuts and converts the vectors of the extractor (`nld.copy()` is called and its result
    dropped). Without a pool the normalisers carry state from member to member: after a member without standard
    deviations those of all later members are dropped, and the ranges of the extrapolations and of the fits are
    those of the first member.
43. `tranform_nld_gsf`: `nld` and `gsf` are called optional, but a missing one ends in `ValueError` (the empty list
    of transformed vectors does not fit into the table) and two missing ones in `UnboundLocalError`; `N_max` is
    said to apply to lists and applies only to single vectors.
44. `samples_unify_E` compares only first and last energies, takes the union of only two of the vectors, and leaves
    `std`: vectors with equal ends keep different grids, values of vectors in the middle are lost, `std` has the
    wrong length.
45. `load_discrete`: a file with one level is read as an array without dimensions, and `len` of it is a `TypeError`;
    the check for keV sees only mean energies of 20 MeV and more, so that a file in MeV is taken as one in keV.
46. `NormalizerSimultan`: extrapolations that are not fitted are not scaled with `B` in the likelihood, while `NormalizerGSF.normalize`
    scales them, so the two have different optima. After an error in the sampling `D0` of `normalizer_gsf` keeps the value of the last
    point and the flags for made-up standard deviations stay set: the next call replaces given ones by 30 % and drops them from the results.
47. `decompose` normalises each row of the matrix over all gamma bins, the product only over the bins up to the diagonal. A count beyond the
    diagonal therefore changes the fit of the bins below it: for counts `(2, 1)` plus one count beyond, the fitted row is `(29/46, 17/46)`, not
    `(2/3, 1/3)` (`C76_spill_fails`). `trapezoid` is meant to remove such counts, see 576-649 of matrix.py.
48. `trapezoid` zeroes `Eg >= Ex + dEg` (matrix.py 680), so the diagonal itself is erased: the column at `Eg_max` stays in the matrix but
    is zero in every row, and the last bin of the strength function is unconstrained whatever the data (`C77_last_column_fails`,
    `C77_unconstrained_fails`). With the automatic limit the element that defines it is erased and a second call removes one more column
    (`C77_shrinks_fails`).
49. For `Eg_max > Ex_max` (matrix.py 676-679) the bin width is the difference of two rows of the mesh, i.e. zero; the diagonal is NaN and
    nothing is cut; with one row left IndexError is raised (`C77_above_fails`).
50. `except IndexError():` (matrix.py 667) names an instance, so the announced ValueError is a TypeError (`C77_auto`).
51. The two `cut_diagonal` differ on the line: the method keeps it, the library function erases it (`C78_line_fails`); for points in one
    column the method fails an assertion while the library function erases the whole matrix (`C78_vertical_fails`). The docstrings of
    `line_mask` and `Matrix.cut_diagonal` give opposite orders of the coordinates; (Eg, Ex) is what the code does.
52. `assert np.isfinite(x0).all` (extractor.py 471) tests a bound method and never fails (`C79_single_fails`).
53. `_extract` of member 0 sets `Eg_max` of the caller's Action to the last energy of the cut matrix (extractor.py 300-303). A limit off the
    grid is thereby changed after member 0 was cut and before its uncertainties and all other members are (`C80_offgrid_fails`: no diagonal cut
    for member 0, one for the others). If member 0 is loaded from file the limit is not set at all (`C80_resume_cut_fails`). The changed Action
    is also used by later extractions (`C80_auto_limit`).
54. The random numbers are seeded once per run, not per member: members computed in a resumed run start elsewhere (`C80_resume_random_fails`).
55. `extract_from` accepts any `algorithm` and does nothing for an unknown one; `rhosigchi` uses the argument `ensemble` even if only the
    attribute is set (AttributeError) (`C80_algorithm_fails`). Files of an earlier run are used whatever ensemble is given (`C80_reload`).
56. `Ensemble.rebin` changes members, `firstgen` and `std_firstgen` in memory but saves only the last; `load` afterwards mixes the old
    members with the standard deviations of the new ones on another axis (`C82_reload_fails`).
57. An action that changes the shape makes `generate` raise ValueError after all members have been calculated (`C83_cut_fails`).
58. `get_unfolded(i)` has the state `unfolded`, `get_unfolded([i])` has none; `get_raw` never has one (`C83_state_fails`). The axes of
    the unfolded members are those of `raw`, whatever the unfolder gave (`C83_axes_fails`). `Ensemble()` with the default `raw=None`
    raises AttributeError (`C83_constructor`).
59. Cutting the Gaussian perturbation off at zero shifts its mean upwards, by at most 1/4 count, and lowers its spread (`C84_bias_fails`).
60. With files present `generate` accepts any `method` and uses members made by another one (`C84_method_fails`).
61. `==` raises for different shapes (`C85_shape_fails`) and if only one operand has `std`, TypeError or ValueError depending on the order
    (`C85_std_fails`); it is not symmetric (`C85_symmetry_fails`) and takes any two arrays below 1e-8, such as strength functions in
    MeV⁻³, for equal (`C85_small_fails`).
62. `MatrixState` overrides `__eq__` but not `__ne__`: `RAW == 1` and `RAW != 1` are both False (`C86_number_fails`). The texts of four
    states are no names of states (`C86_text_fails`); unknown names raise KeyError where the setter announces ValueError (`C86_setter`).
63. `Matrix.__matmul__` compares the lengths of the two axes of the left factor, so that only
    square left factors are accepted; the inner axes (Eg of the left, Ex of the right) are not compared; the
    standard deviations of the left factor are kept; other operands raise AttributeError. `Vector.__matmul__`
    stores the number in `values` (C87).
64. `ZerosMatrix(std=True)` raises AttributeError; `Matrix(values, shape=…)` silently discards the values (C88).
65. `verify_equdistant` has an absolute tolerance, accepts constant and decreasing axes, and with `axis="both"`
    only looks at Eg (C88).
66. `Vector(E=…)` with integer energies has integer values: fractions are cut off and `+= 0.5` raises (C88).
67. `LoadDir` and `LoadZip` build different names for energies that are not integers, and treat unsorted tables
    and calibration offsets differently (C89).
68. `interpolate_matrix_2D` sets the border rows and columns of the old axes to zero (C90).
69. The interval labelled "68 % credibility interval" contains 68 % of the samples only up to one sample: of two
    samples it contains none. `plot(return_stats=True)` without the models returns an empty dummy figure and
    puts the legend on it (C91).
70. `save_results_txt`: `with_suffix` drops everything behind the last dot of the suffix, so that runs labelled
    1.5 and 1.7 overwrite each other; `EnsembleNormalizer.save_results_txt` ignores its argument `suffix`; files
    of an earlier ensemble are left (C92).
71. `optimize` labels the parameters by the order of the keys of `guess`, but the cube has a fixed order; it raises
    OverflowError if an interval has width 0, when the sampling is done and `norm_pars` of the simultaneous fit are not
    yet reset; the length of the path is checked only when the turn of a member has come, so a run can fail at
    member 10 (C93).
72. `Finv` exchanges the ends of its interval (it replaces the lower end if the value is too high). It still ends for all
    probabilities - proved - but not for arguments above 1.001, and the accuracy of 0.001 in probability makes all draws within 0.001
    of one half exactly 0 (C94).
73. `pyrhosigchi`: a spectrum perturbed to nothing gives NaN uncertainties; negative bins are fitted but set to 0 in the
    perturbed spectra; `nunc=0` is 0/0; the default `rng` is made once, so that equal calls give different uncertainties (C95).
74. `extrapolate` decides by the method of the lower model whether both are fitted: a fixed upper model is overwritten, an upper
    model to be fitted is not if the lower one is fixed (C96).
75. `autofitrange` stores the guessed range in the model, which is shared: all samples of an ensemble use the range guessed
    for the first one, so that the band depends on the order of the samples (C96).
76. `plot` shifts all edges by half the width of the *first* bin: with bins of unequal width the position shows the value
    of another bin (C97).
77. `MeshLocator.tick_values` rounds to tens even for axes in MeV, leaving one tick at 0, and raises OverflowError if
    the last tick is at 0; `ascii_plot` ignores `shape` and fails without positive counts (C97).
78. A comment with a line break makes the header of a MAMA file eleven lines long: the calibration is looked for in the line
    of the date, and the file cannot be read (C99). A carriage return in the header of a table does the same.
79. `save_txt_2D(header=False)` passes `None` to `np.savetxt`, which asks for its length: TypeError, after the file was
    opened for writing, so that its old content is lost (C99). `mama_write` of more than two dimensions makes an
    exception without raising it, and writes nothing; `read_response` unpacks four values from three and always fails.
80. `FirstGeneration.step` mixes `0.7*W + 0.3*W_old` before `W` is normalised, `W_old` being normalised: the share of the old
    weights is 0.3/(0.7 S + 0.3) for a row with S counts. For real spectra the damping is absent, and the result depends on how
    long was counted (C100).
81. The score of the unfolding adds a chi-square in counts to a ratio of fluctuations, so that the iteration selected depends on
    how long was counted (C100).
82. The first generation method is not a left inverse of `allgen_from_primary` and cannot be: the cascades 3 → 2 → 0 and
    3 → 1 → 0 emit the same gammas (C101_ambiguous_fails). This is a limit of the method, not of its implementation.
83. `EnsembleNormalizer.normalizeStagewise` draws the samples of B from the global generator inside the processes of the pool, although the
    documentation of the class warns against it: members in different processes get the same deviates (C102_copies_fails), and the result depends on the number
    of processes (C102_schedule_fails).
84. `Extractor.__init__` and `Extractor.standard` seed the global `np.random` with a fixed number: whoever makes an extractor in a loop gets the same
    random numbers in every turn (C102_seed_fails).
85. The result of the stepwise normalisation of the strength function with fixed extrapolations (`method` not "fit") depends on the gauge of the extraction: the extrapolations are not scaled
    with the data before the width is integrated, so twice the strength function does not give half the constant `B` (`C104_fixed_fails`).
86. The search of the simultaneous normalisation is tied to a gauge: a negative starting value of `alpha` raises `NotImplementedError`, and bounds are given for `A`, `alpha`, `B` themselves, although
    the same physical solution has a negative slope for another, equally good, extraction result (`C104_search_fails`).
87. `EnsembleNormalizer.normalize` loads whatever normalisation is in the directory: a second program with another extractor, other normalisers or other data silently returns the results of the first
    one (`C105_first_fails`).
88. An ensemble normaliser that was loaded has an extractor without the attribute `ensemble`; `extract_from()` on it raises AttributeError instead of the intended ValueError (`C105_ensemble_fails`).
89. `EnsembleNormalizer` accepts `path=None`, but `normalize` then always ends with a TypeError, with `regenerate` only after the whole calculation (`C105_path_none_fails`).
90. If the normalisation of a member fails, `res` holds the results of the members before it, as if it were a finished, shorter, result (`C105_partial_results_fails`); the flag `regenerate` is overwritten
    by the one in the file when loading (`C105_flag_fails`).
91. The response takes all energies in keV without saying so or checking it: for an output axis in MeV the escape and annihilation peaks (511 keV) silently disappear (`C106_response_fails`).
92. `mama_read` cannot read a matrix file with a single row or a single column: `genfromtxt` gives a one-dimensional array there, but the calibration line has six numbers, so that the code takes it for a matrix and raises ValueError (`C99_thin_fails`).
93. `example_response` raises KeyError for every name, because the table of examples has no entry "response" (`C107_example_response_fails`).
94. `read_response` raises ValueError for every file: it assigns four names from the two or three results of `mama_read` (`C107_read_response_fails`).
95. `cut_like(inplace=False)` drops the standard deviations and the state of the matrix, which the cut in place keeps (`C107_cut_like`); the cut in place is not undone when its second half raises (`C107_cut_like_fails`).
96. `gettype` removes "typing." anywhere, also inside the name of another module (`C107_gettype_fails`).
97. `get_version_info` does not go back to the old working directory when it raises ImportError (`C107_version_fails`).
98. `Vector.plot` has no kind "bar" although it is documented, and ignores the kind if there are uncertainties (`C108_vector_fails`).
99. `Ensemble.plot` sets the lower colour limit to 1 if the smallest standard deviation is 0, even if that is above the upper limit (`C108_limits_fails`); axes cannot be given to it, since it asks the sequence of axes for an attribute `figure` (`C108_axes_fails`).
100. `NormalizerNLD.plot` renames the last three lines of the axis, assuming that an error bar consists of three lines. By default it is one line (no caps), so that the labels of the known levels and of data without
    uncertainties are lost (`C108_legend_fails`), and with `n_plot=0` the dummy sample remains visible (`C108_dummy_fails`).
101. `plot_interactive` raises AttributeError for extrapolations with fixed parameters: it asks for `scale_low`, which the models do not have (`C108_interactive_fails`).
102. `annotate_heatmap` exchanges rows and columns when it reads the value and again when it places the text: it raises IndexError unless the matrix is square (`C108_annotate_fails`) and misplaces the texts if the axes differ (`C108_annotate_axes_fails`).
103. `available_loggers` takes every logger whose name contains "ompy": a name without a dot, such as one made by `get_logger("ompy_run")`, makes it raise IndexError (`C109_available_fails`), loggers of other packages are listed, and of deeper names only the second part (`C109_names_listed_fails`).
104. `get_logger` for the package and for a module writes every message of the module twice (`C109_written_fails`).
105. `plot_hook` expects a tuple: a single number or None raises TypeError, a single matrix is drawn row by row, a generator is used up, and if the tuple is closed on a line of its own a later array raises IndexError (`C109_hook_fails`, `C109_names_fails`). Calls that raise
    are not counted although the documentation speaks of the call number (`C109_calls_fails`).
106. `nld_T_product` documents a resolution for each bin of Eg and reads one for each bin of Ex without looking at the length: with fewer gamma than excitation energies it reads beyond the end of the array (`C110_resolution_fails`), otherwise it silently uses the first ones (`C110_resolution_taken`).
107. `chisquare` and `chisquare_diagonal` do not compare shapes: a column is taken for a row, smaller matrices are read beyond their end (`C110_chisquare_fails`). `index` of an empty array, e.g. `Vector.index` of an empty vector, reads foreign memory (`C110_index`).
108. The class `Array` of `rhosigchi.cpp` tests the number of the row only: columns outside are elements of the neighbouring rows (`C110_cpp_fails`).
109. `decompose` takes the number of bins of the level density as `int(np.ceil((Emax-Emin)/bin_width))+1`. A quotient just above a whole number, e.g. 2.0000000000000018 for energies 0, 10 and 150, 160 keV in MeV, gives one bin too many (`C111_double_fails`; for every grid `C111_bins_fails`). The bins then do not match the differences of the energies, and the fit ends with IndexError at `nld[nld_counts0 == 0]` (`C111_index_error`, `C111_decompose_fails`). `np.round` would be right (`C111_bins_partial`).
110. `chisquare_diagonal` uses `Ex + resolution` as limit, without the half bin of `nld_T_product` and `constraining_counts`: whether the diagonal enters the fit depends on rounding errors of the axes (`C111_diagonal_fails`).
     (The model of `decompose` now also contains the IndexError of a mask of another length, `maskNaN`.)
111. `rebin_1D` onto the axis of the counts is not the identity in floating point, and counts are conserved only up to rounding: with bins of 0.1 the contents 1, 2, 3, 4, 5 come back as 1, 2.0000000000000004, 2.9999999999999996, … (`C112_same_axis_fails`, `C112_total_fails`). The errors are bounded (`C112_share`, `C112_total`), and there are none for whole numbers (`C112_whole`, `C112_same_axis_partial`).
112. `rebin_1D` reads the bin width from the first two mid-points (`mids[1]-mids[0]`) and extrapolates it: errors of these two numbers are multiplied with the number of the bin. An axis stored with few digits misplaces the upper bins by whole bins, although every mid-point is right to a hundredth of a bin (`C112_first_two`, `C112_drift_fails`); `(mids[-1]-mids[0])/(N-1)` would not.
113. `ExtrapolationModelLow/High` store the bound private method `self.__model` in the field `model`; `pickle` writes it by the name in the source, which the class does not have, so `load` of every saved extrapolation model raises AttributeError (`C113_extrapolation_fails`). The normalizers save themselves with dill, which writes bound methods in another way; that is not covered here.
114. `Model.save` opens the file before it pickles, so that a failing `pickle.dump` destroys the parameters saved before (`C113_failed_save_fails`); `Model.load` does not look at the class of the object in the file and fails halfway (`C113_other_class_fails`).
115. `NormalizationParameters()` can neither be printed nor turned into a dictionary before `Sn` is set: the property `Emax` evaluates `None[0]`, and `__str__` does not catch TypeError (`C113_str_fails`, `C113_asdict_fails`). `asdict` ("fields and properties") also returns the methods of the subclasses and `_Model__isfrozen` (`C113_asdict_methods_fails`).
116. `rhosigchi` rebins spectra and uncertainties to two axes made by separate calls `np.arange(aEx0, Ex[-1]+a1, a1)`, the second with the last energy of the already rebinned axis. Rounding gives them different lengths in many cases, e.g. 20 and 21 bins for 12 bins of 100.1 keV and the default `extend_diagnoal=800` (`C114_axes_fails`), also for whole numbers (`C114_whole_fails`). The error analysis then stops with ValueError (`C114_shapes_fails`).
117. `index` returns the last bin for an infinite element, as all distances are infinite and no comparison is true. `cut(Emin=-np.inf)` therefore keeps only the last bin of matrices and vectors instead of everything (`C115_infinite_fails`); so does a finite lower limit so far below the axis that all distances round to the same double (`C115_far_fails`). An infinite upper limit works (`C115_upper`).
118. `trapezoid` compares `Eg >= Ex + (Eg_max - Ex_max)` in doubles. On a MeV axis the diagonal is ragged: with `Ex_max=0.9`, `Eg_max=0.8` on the axis 0, 0.1, …, 0.9 four of the nine diagonal entries survive (`C115_trapezoid_fails`). In whole keV it is exact (`C115_trapezoid_whole`).
119. `rebin(factor=f)` takes `int(len/f)` bins: 33 bins with factor 1.1 become 29 and not 30, 81 bins with factor 2.7 become 29 and not 30, 3 bins with factor 1/75 become 224 and not 225 (`C116_number_fails`).
120. `normalize` (ompy/decomposition.pyx) is not idempotent: the row 1, ..., 6 does not add up to 1 afterwards, and a second call changes it (`C117_unit_fails`). With entries of both signs a row whose sum is 1 can have the computed sum 0 and is lost (`C117_negative_fails`).
121. `chisquare_diagonal` compares with the rounded `Ex + resolution`, so a bin just above the limit counts (`C117_diagonal_fails`).
122. `chisquare` and `chisquare_diagonal` skip `std == 0` but divide by `std**2`, which underflows to 0 for standard deviations up to `2^-538`; the division is checked (no `cdivision`) and raises `ZeroDivisionError` (`C117_underflow_fails`).
123. `lnlike` (ompy/normalizer_nld.py:505-522) transforms the uncertainties with the same parameters as the values, so a smaller constant makes them smaller; the most likely constant is too small by `2/(1+sqrt(1+2r²))` for a relative uncertainty `r`, 0.959 for the made up 30 % (`C119_best`, `C119_unique`, `C119_made_up`, `C119_chain_fails`). This is independent of the missing factor 2 in front of the logarithms (C64), which would make it `2/(1+sqrt(1+4r²))`.
124. `NormalizerGSF.plot` (ompy/normalizer_gsf.py:485-488) uses the fit ranges also for extrapolations with `method = "fix"`, which never sets them: TypeError after the points are drawn, also without `plot_fitregion`, and so `plot_interactive` fails too (`C120_fixed_fails`).
125. Keyword arguments of the plots ("kwargs for plot"): `c` and `label` are TypeErrors in all three, `markersize` only in `NormalizerNLD.plot` (ompy/normalizer_nld.py:464-465), in the middle of the drawing (`C120_colour_fails`, `C120_marker_fails`, `C120_label`).
126. `add_label=False` keeps the label of the fit limits in `NormalizerNLD.plot` (ompy/normalizer_nld.py:469-470); `NormalizerSimultan.plot` ignores `add_label`, and its documented argument `results` is a TypeError (ompy/normalizer_simultan.py:385-410) (`C120_no_label_fails`, `C120_arguments_fails`).
127. `Vector.to_MeV`/`to_keV` (ompy/vector.py:430-448) are not inverse to each other in double precision: 1001 keV become 1.001 MeV and then 1000.9999999999999 keV. `Vector.save` writes keV by default, and `NormalizerNLD.discrete` (ompy/normalizer_nld.py:648) compares energies with `!=`. Levels that a normalisation has brought to MeV in place, saved and loaded, are refused for a level density on the energies they were made for (`C121_levels_fails`). After the first two conversions nothing moves any more (`C121_no_drift`).
128. `Vector.transform` (ompy/vector.py:282-288) computes the uncertainty through `std/values`: with the default arguments, which change no value, the uncertainty 1 of a value 49 becomes 0.9999999999999999 and the uncertainty of an empty bin NaN (`C122_identity_fails`). `const*std*exp(alpha*E)` would keep both.
129. `Unfolder.step` (ompy/unfolder.py:189-213) keeps the counts (C29) in exact arithmetic only: with the raw counts 0.1, 0.2 and a response whose rows sum to one exactly, one pass in double precision gives another total (`C123_counts_fails`). The errors do not grow with the number of passes (`C123_counts`, `C123_double`).
130. The first generation method (ompy/firstgeneration.py:121-161) is not stable against rounding: where the exact first generation of a row is zero, double precision leaves remainders of the order of 1e-16, and `normalize_rows` scales them to weights that sum to one in the next iteration. With two iterations, total multiplicities and rows (1,0,0,0), (1,2,0,0), (3,6,0,0), (4,3,0,0) the exact last row is (4,3,0,0), the computed one is (2.5, 4e-16, 0, 0), with running sums and with numpy's pairwise sums (`C124_unstable_fails`).
131. With the sliding threshold (ompy/firstgeneration.py:219-228) `values[slide > Eg] = 0` drops a bin exactly at the threshold: `750 * 0.28` is 210.00000000000003, so the bin at 210 keV is set to zero (`C124_threshold_fails`).
132. `Matrix.cut` (ompy/matrix.py:512-534) with an upper limit of `-inf` keeps all bins except the last one, and NaN as lower limit keeps only the last bin; neither raises an error (`C115_edges_fails`).
133. `np.std` over the ensemble (ompy/ensemble.py:210-220, 410) need not be zero for a bin that is the same in all members: for three members with 0.1 the computed mean is the next double. `chisquare` (ompy/decomposition.pyx:188-210) ignores bins with standard deviation exactly zero only, so this bin enters with a weight of 1e33 (`C125_constant_fails`).
134. "Preserves number of counts" (ompy/gauss_smoothing.pyx:57) holds up to rounding only: one count in the first of three bins becomes 1 + 2^-53 (`C126_exactly_fails`). On an axis with unequal bins the window is computed from the first bin width (ompy/gauss_smoothing.pyx:78-95) and may lie outside of the array: the distribution is zero and `pdf / np.sum(pdf)` makes the whole spectrum NaN (`C126_uneven_fails`).
135. `cut_diagonal` treats entries on the line differently depending on rounding and on the order of the two points: for the line through the bins (1, 0) and (6, 1) the bin (6, 1) itself is removed, but kept if the points are exchanged (`C127_on_line_fails`). The library function, which removes entries on the line, keeps the second point of the line through (2, 0) and (5, 1) (`C127_library_fails`).
136. `Matrix.plot` is not free of side effects: it moves the axes of the plotted matrix down by half a bin and up again in place, which changes them in the last digits; the axis 0.1, 0.2, 0.3 does not come back (`C128_plot_fails`). `find_limits` documents the bins between Ex_min and Ex_max, but on the axis 0, 0.1, 0.2, 0.3 with Ex_max = 0.3 it leaves out bin 3 because 0.3/0.1 rounds to less than 3 (`C128_limits_fails`).
137. `iterate` documents its arguments `rho` and `sig` as arrays to store the results in, but arrays that are not of type double or not in C order are copied by pybind11, and the results are lost without an error (`C129_lost_fails`, `C129_order_fails`). Arrays that are only read must be writeable (`C129_readonly`). The class `Array` accepts three axes but tests for two in the access with three indices, so that no element of such an array can be reached (`C129_three_fails`). `SimpleVector::end` returns the beginning, and `set_all` would change nothing; neither is used (and neither would compile), so they are not modelled.
138. The standard deviations over the members divide by the number of members, so that their squares are too small by the factor `1 - 1/n` on average and zero for one member (`C130_std_fails`). Cutting off negative counts after subtracting the background raises the counts: even with infinitely many members their average stays above the difference of the spectra (`C130_background_fails`); with Gaussian perturbations it stays above the raw counts, and the standard deviation below the square root of the counts (`C130_gauss_fails`).
139. The unfolding sets negative counts to zero. The iterations themselves are right on average for perturbed members, but the matrices that are returned (and with them the members of an ensemble) have too many counts on average in every bin in which counts of other bins are subtracted, and this does not vanish with the number of members (`C131_returned_fails`).
140. The members of an ensemble are drawn about the measured spectrum, which is itself a draw about the truth. With the uncertainties of counting statistics the average chi-square between truth and measured spectrum is one per bin, between truth and a member it is two per bin (`C132_counting`). The chi-square that the extraction minimises for a member can therefore not be compared with the number of bins in order to judge a fit.
141. Multiplicities are computed as excitation energy over the average gamma energy of the counts at hand. Over the members of an ensemble they are too large on average (by the curvature of 1/x), and not just noisy (`C133_multiplicity`, `C133_statistical`); normalised rows and average energies have no such error (`C133_normalised`, `C133_energy`).
142. `samples_from_res` appends the samples of the members, and the percentiles are taken over all of them. A member counts by the number of its samples (and, after `samples_unify_E`, only where they are numbers): with 10 samples of x from half the members and 100 of y from the others the whole band of 68 % tends to y (`C134_weights_fails`). Members have different numbers of samples whenever MultiNest gives fewer than the maximum.
143. The comment in `FirstGeneration.step` says the mixing of old weights from the sixth pass on prevents oscillations. For a bin with x decays to the top of a ladder of m >= 2 steps and c decays to the ground state, m c >= (m+2) x and (m-1) c >= x + 6/7, the loop oscillates for ever between "nothing subtracted" and "all subtracted", although the input is an exact cascade (`C135_settles_fails`). The mixing adds counts (H) to normalised weights (W), so it does next to nothing for spectra of many counts (compare 80). The loop logs the difference of the last two passes but does not look at it.
144. `Vector.rebin(mids=...)` and `closest` in place bind the array they are given (ompy/vector.py:424, 492), `Matrix.rebin` too (ompy/matrix.py:741-743), for both axes the same one; with `inplace=False` and both axes the returned matrix keeps it as `Ex`. After `a.rebin(mids=b.E)` a change of units of `b` changes the energies of `a` but not its units (`C136_rebin_shares`); after `m.rebin('Ex', mids=m.Eg)`, as in tests/test_pyrhosigchi.py:18-19, `to_lower_bin` moves both axes by a whole bin instead of half a bin (`C136_one_axis`), also when `plot` calls it. The constructor of `Matrix` copies everything but `std` (ompy/matrix.py:132). The other constructors and methods copy; programs without these calls behave as if objects had their own numbers (`C136_own_numbers_partial`).
145. The iteration of the unfolding has no criterion for its end (TODO in ompy/unfolder.py:137-138) and approaches nothing for responses with a wide resolution that is not positive definite, e.g. counts spread evenly over three bins, or with counts exchanged between bins (`C137_settles_fails`): the difference of neighbouring bins then grows like a power of the number of iterations and the negative ones are set to zero at the end. In a bin that no photon reaches the unfolded counts are the raw counts times the number of iterations (`C137_dead`).
146. An ensemble that was interrupted while a file was written cannot be resumed: `load_matrix` takes every existing file for a complete one (ompy/ensemble.py), `np.load` raises on the incomplete file, and no later call of `generate` with `regenerate=False` replaces it (`C138_resume_fails`, `C138_stuck`). The file has to be deleted by hand or all members regenerated. Writing to a temporary name and renaming it would avoid this.
147. An extraction with `regenerate=True` that is interrupted between `nld_i.npy` and `gsf_i.npy` leaves the new level density beside the old strength function; a later call with `regenerate=False` loads both as a pair without complaint (`C139_mixed_fails`, ompy/extractor.py:184-191). As each fit has its own gauge, such a pair describes no data. The same happens to an ensemble regenerated from other data (`C139_ensemble_fails`). An interruption inside `gsf_i.npy` makes all later calls raise, one inside `nld_i.npy` does not (`C139_resumes_iff`).
148. The base name of the files of MultiNest is made of the number of the member only, in the directory `multinest` of the current directory by default (ompy/normalizer_nld.py:360, ompy/normalizer_simultan.py:300). Two ensembles, or two single normalisations (both number 0), that run at the same time share all files, and one may return the samples of the other without an error (`C140_shared_fails`).
149. `multinest_kwargs`, documented as "additional keywords", replaces the default `{"seed": 65498, "resume": False}`; `pymultinest.run` has `resume=True` by default, so that setting only another option makes fits go on from the files of earlier ones with other data (`C140_resume_fails`).
150. `Action.curry` adds the keyword to every recorded call, and `_extract` calls it with `Eg_max` for member 0 (ompy/extractor.py:302): an Action with any further call (e.g. `remove_negative`), or a `trapezoid` with `Eg_max` given by position, makes the extraction fail with TypeError after the member has been cut, and the caller's Action is unusable from then on (`C141_second_call_fails`, `C141_positional_fails`, `C141_ruined`). If member 0 is loaded from file the same Action works.
151. A cut recorded with `inplace=False` is accepted and does nothing: the whole matrices are decomposed (`C141_inplace_fails`).
152. `rhosigchi` reads the limits from the keywords of the recorded call (ompy/extractor.py:234-238): limits given by position, which the standard algorithm accepts, are a KeyError, and an Action without `trapezoid` is a TypeError inside `pyrhosigchi` (`C141_rhosigchi_fails`).
153. `AbstractNormalizer.save` opens the result file with 'wb' before anything is pickled (ompy/abstract_normalizer.py:44-45), and `normalize` catches only FileNotFoundError around `load`: if the process is interrupted while it saves, or an attribute cannot be pickled, the earlier result is lost and every later call with `regenerate=False` raises EOFError or UnpicklingError instead of calculating, until the file is deleted or `regenerate` is set (`C142_lost`, `C142_stuck`, `C142_resume_fails`, `C142_dump_fails`). Nothing wrong is ever loaded (`C142_never_wrong`).
154. Text and MAMA files whose writing was interrupted are read without complaint as shorter spectra or matrices (`C143_spectrum`, `C143_matrix`, `C143_mama_short`); `mama_read` takes the last complete row of counts for the footer, and the dimensions in the header are not compared with what was read (ompy/filehandling.py:29-30). Text files can besides be read with a wrong last number, 100 as 1, since `1.0e+0` is a number too (`C143_wrong_number`, `C143_wrong_number_fails`).
155. `Matrix.cut` and `Matrix.trapezoid` in place (ompy/matrix.py:546-550, 683-687) leave `std` of a matrix uncut; no exception is raised, and the next `rebin` in place raises ValueError at `verify_integrity` after values and axis have been assigned (C144_std_fits_fails).
156. `Matrix.rebin` of both axes in place (ompy/matrix.py:719-723) has rebinned the gamma axis when the excitation axis raises, for example for a matrix with one excitation energy; nothing is undone (C145_rebin_mat_fails).
157. `Matrix.verify_integrity` returns without a check when `values` does not have two dimensions (ompy/matrix.py:150-151), so `Matrix.load` of a tar file with three arrays of one dimension, such as a vector with std, returns and leaves a matrix that is none (C146_mat_return_fails).
158. `Matrix.load` never assigns `std` (ompy/matrix.py:196-209): a matrix with std raises ValueError for every file of another shape, after values and axes have been replaced (C146_mat_std_stays).
159. `Vector.load` of MAMA files and of tar files with two arrays keeps the old `std` (ompy/vector.py:246-259): of the same length, it stands beside values of another file; of another length, load raises after values and energies have been replaced (C146_vec_std_fails, C146_vec_forget_fails). `Vector.load` of a matrix in a tar file raises, but the vector holds the matrix afterwards (C146_vec_matrix_tar).
160. `save_tar` writes its temporary files `<path without suffix><n>.npy` beside the archive (ompy/filehandling.py:225-228). Two processes that save to `run.1` and `run.2` as tar use the same files: in some orders the first archive holds the array of the second process without any exception, and the second process raises FileNotFoundError (C148_same_stem_fails).
161. `load_tar` extracts to the working directory and removes the files again (ompy/filehandling.py:240-243). Two processes that load the same archive can remove each other's files: one raises FileNotFoundError (C148_readers_fails).
162. `D0_from_nldSn` is documented as the inverse of `nldSn_from_D0` (ompy/normalizer_nld.py:588). With doubles it is one only up to six roundings: 7 eV comes back as less than 7 eV (C149_same_fails, C149_double).
163. `discrete_peaks` adds the annihilation peak if the full energy is above 511 keV (ompy/response.py:694-700) and takes the channel from the width of the first bin. On an axis that ends at 511 keV the last energy can come out as the double above 511 and the computed position above the last channel: IndexError, for example for the axis `32.8 + 159.4*np.arange(4)` (C150_index_fails).
164. `interpolate` in ompy/response.py:256-272 uses `fill_value="extrapolate"` for the Compton and full-energy probabilities, the widths and the efficiency. scipy evaluates then also the tabulated energies by `slope*(x - x_lo) + y_lo` at the end of a segment, so that tabulated values are not reproduced exactly and a table falling to zero can give a negative probability of the size of a rounding error (C151_nonneg_fails). With `fill_value=0` this does not happen at tabulated energies (C151_node).
165. The fan method takes `np.arccos(1 - z)` (ompy/response.py:627-628). At the computed Compton edge `z` can come out above 2, for example for 500 keV, and the angle is NaN (C152_angle_fails); the test in line 629 is then false and the entry stays zero. The loop stops one channel before the edge, so this needs a channel within some roundings of the edge.
166. `E_compton` (ompy/response.py:725-727) subtracts two nearly equal energies for small angles: the result has no relative accuracy and can be zero for an angle above zero (C152_relative_fails).
167. `fan_to_end` cuts `i_low_edge + scale1*(i - i_edge)` with `int` (ompy/response.py:570-571). Where this is a whole number in exact arithmetic the rounded product can fall just below it, and the counts come from the bin before (C156_place_fails, scale 1/49).

## 5. Additions

| id | modelled | proof |
|----|----------|-------|
| C49 | `allgen_from_primary` | strong induction over rows; bounds by sums of weights; self term: `_fails` + `_partial` |
| C50 | `shift`, `compton_subtraction` | index arithmetic of the shift; the smoothing is an arbitrary function; double escape shift: `_fails` + `_partial` |
| C51 | `Ensemble.generate`, `load` | programs over a disk; false with an action: `_fails` + `_partial` |
| C52 | `rsc` iteration of `rhosigchi.cpp` | the update is 1 on exact data where a bin is constrained; negative gamma energies: `_fails` + `_partial` |
| C53 | same | invariance of the update under the gauge transformation, induction over iterations |
| C54 | `Matrix.rebin` | uses C02-C04; std, state and factor: `_fails` + `_partial` |
| C55 | `pyrhosigchi.rhosigchi` | exactness of index on hits, `igmax` loop; labels: `_fails` + `_partial` |
| C56 | `Extractor.rhosigchi` | proved to raise for two or more members: `_fails`; `_partial` |
| C57 | `pyrhosigchi.normalize`, `chisquare` | row sums, sums of squares; uncertainties: `_fails` + `_partial` |
| C58 | `pad_matrix`, `find_limits` | list indexing |
| C59 | `Response.interpolate` with fans, Compton edge and peaks | index bounds for every step; axis above the table: `_fails` + `_partial` |
| C60 | same | interpolation weights are 0 and 1 at tabulated energies |
| C61 | `LoadZip`, `LoadDir` | row order, axis; `_fails` + `_partial` |
| C62 | `SpinFunctions` (seven models) | case analysis over ℝ; `_fails` + `_partial` |
| C63 | `autorange`, `autofitrange`, `fit` | list indexing; sticky ranges: `_fails` + `_partial` |
| C64 | `NormalizerNLD.lnlike`, `Vector.error`, `const_temperature` | lists to finite sums over ℝ; missing factor 2: `_fails` + `_partial` |
| C65 | same | injectivity of exp, sums of squares; `_fails` for the optimum |
| C66 | `NormalizerNLD.normalize`, `save`, `load` as state machine with heap and disk; the fit is an arbitrary function | case analysis along the program; four `_fails`; `_partial` |
| C67 | setters `discrete`, `smooth_levels_fwhm` | invariant over histories; `_fails` + `_partial` |
| C68 | prior of `optimize`, `truncnorm_ppf`, `erfinv` with its two Newton steps, `initial_guess` | convexity: tangents of erf; bounds of the rational starting values with `nlinarith`; two `_fails`; `_partial` |
| C69 | `self_if_none`, `_retrieve_name` with the regular expression | induction over the line; declarative match as specification; `_fails` |
| C70 | constructor and `normalize` of `NormalizerGSF` as an object with a heap of vectors | case analysis; reuse of C48; three `_fails`; `_partial` |
| C71 | `EnsembleNormalizer.normalize`, `step`, `normalizeStagewise`, `cut_nan` around both normalisers | induction over the members with a simulation relation between states; two `_fails`; `_partial` |
| C72 | `tranform_nld_gsf`, `samples_from_res`; the shuffle is an arbitrary permutation | list indexing through the swallowed errors; two `_fails` |
| C73 | `samples_unify_E`, `vec_extend`, `np.union1d` | induction over the ascending union; three `_fails`; two `_partial` |
| C74 | `load_discrete` with `np.loadtxt`, `np.histogram`, `gaussian_filter1d`; `load_levels_…` | counting below edges; the reflected array has a period, symmetric weights keep the sum; `_fails` |
| C75 | `NormalizerSimultan.lnlike`, `optimize`, `normalize`; the sampling is an arbitrary list of points | simulation relation between states; linearity of the width (C48); three `_fails`; `_partial` |
| C76 | `decompose` with `errfun`, the NaN of unconstrained bins and the conversion to the strength function; the minimiser is arbitrary | chi-square 0 forces equal rows, uniqueness from C33; explicit minimum for `_fails` |
| C77 | `Matrix.trapezoid` with the bin width taken from the mesh as written; NaN as `none` | the two cuts of C07 and the mask on `zip`ped rows; the limits of the failures are general |
| C78 | `line_mask`, both `cut_diagonal`; the NaN of a vertical line as `none` | a division-free `side` of a point and a line |
| C79 | `guess_initial_values` and the three guesses over the reals; NaN as `none` | `log`/`exp` identities; values characterised up to the free exponential |
| C80 | `extract_from`, `standard`, `_extract` as a state machine over files, random state and the keyword `Eg_max`; cut and fit arbitrary, the trapezoid for the limits | induction over the members; concrete runs for the failures |
| C81 | `nanmean`, `nanstd`, `ensemble_nld`, `check_unconstrained_results`, `diagonal_resolution` | mean as the number with vanishing sum of deviations |
| C82 | `Ensemble.rebin` and `load` as functions of the object and its three files | shares of C04; `ensSd` as a seminorm (triangle inequality) for the bound |
| C83 | the end of `generate`, the three accessors, the constructor | numpy indexing with negative numbers; induction over lists |
| C84 | the two perturbations over the reals, dispatch over states and methods | moments of `poissonMeasure` by `HasSum`, of `gaussianReal` by integrals of Mathlib; strictness from a set of positive measure |
| C85 | `__eq__` with NaN as `none`, numpy broadcasting, `all(truth)` of an array | spec `Agrees`; concrete witnesses |
| C86 | `MatrixState`, the setter | case analysis; arbitrary strings |
| C87 | both `__matmul__` with the checks as written | entries as finite sums; concrete witnesses |
| C88 | constructors with flags, dtype of `np.zeros_like`, `verify_equdistant` | induction over the axis for the drift; concrete witnesses |
| C89 | `LoadDir` over files as lists of lines; compared with the `LoadZip` of C61 | case analysis along the reader; padding of spectra |
| C90 | `interp1d` with fill value 0, `RectBivariateSpline` of degree 1 with the mask | interpolation at a knot; congruence of `interpLin` |
| C91 | `median` and `quantile` of pandas with NaN as `none`, broadcasting into the array, the choice of the figure | order statistics of the sorted column; monotonicity in the fraction; counting |
| C92 | `save_results_txt` on the disk of C23 with headers, `with_suffix` on characters | names are injective (digits), induction over the members |
| C93 | the loop over the marginals with decimals and rounding, keys of guess and order of the cube, length of the path, edge warnings, uncertainty of nldSn | floor of the logarithm; lookup in zipped lists |
| C94 | the loop of `Finv` with fuel, over any distribution function, and with `erf` | three phases: growth away from the end point, bracket shortened by one part in 1000 per turn, slope at most 1 |
| C95 | `pyrhosigchi` from the normalisation on, the iteration being a function, the generator a state | double sums exchanged; variance identity; induction over the draws |
| C96 | the two models as a state handed from sample to sample; `curve_fit` and the model functions arbitrary | induction over the samples: with ranges that are set the state a sample sees is equal up to parameters |
| C97 | edges, `format_coord`, `tick_values`, `ascii_plot` as functions of axes and values; the drawing library is left out | bins of the grid by `searchsorted`; the closest index is monotone; the ceiling bounds the number of ticks |
| C98 | `%.pE` as digits and exponent on characters, `float()` as a reader of characters | integer logarithm to base 10; rounding half to even of the scaled number, with the carry into the exponent; reading the padded digits |
| C99 | header, rows and footer as characters, universal newlines, `genfromtxt` and `loadtxt` on lines and fields | a joined list is cut at the separator into the same list; the calibration is in the seventh line |
| C100 | the models of `Unfolder.lean`, `FirstGen.lean` and `Extractor.lean` on a matrix and its multiple | every function is homogeneous of degree 1 or 0; induction over the iterations; argmin is unchanged under multiplication |
| C101 | `allgenFromPrimary` followed by `multNormalization`, `fgStep`, `fgApply` of `FirstGen.lean` | energy conservation by strong induction over the bins, which makes the total multiplicity exact; the weights normalise to the branching ratios; for the area of fixed points the energy balance of a row is used a second time |
| C102 | `NGen.rvs`, `poolAll`, `serialAll`, `normalizeB`, `extractorInit` | arbitrary generator; processes as copies of the state with an arbitrary assignment of the members; induction over the list of members |
| C103 | `Unf.apply` of `Unfolder.lean` | a row-wise description of `apply` in both directions (`apply_iff`), from which selection, joining and cutting follow |
| C104 | `nldLnlike`, `gsfNormalize`, `simLnlike`, `fakeStd` of `NldLike.lean`, `GsfNorm.lean`, `Simultan.lean` | both sides are the same model functions on data in two gauges; the likelihood is compared over all parameters |
| C105 | `EnsWorld` (object and disk) with `save`, `load`, `normalize`, `__getstate__` of the extractor; the loop over the members is an arbitrary function | case analysis over the paths of `normalize`; induction over the sequence of programs |
| C106 | the existing models on axes mapped by `e ↦ u e + v` | every comparison and every quotient of energies is unchanged; induction over the loops of the searches and over the iterations of the first generation method |
| C107 | `Helpers.lean`: cells, `cut_like` as object and exception, the table of examples, `gettype` on characters, the version over an arbitrary environment | induction over rows and characters; no name in front of a dot is an invariant of the substitution |
| C108 | `Plots.lean`: curves handed to the drawing library, lines of an axis with labels, the selection as an arbitrary function | relabelling touches the last three lines only; induction over the samples |
| C109 | `Introspection.lean`: the registry of `logging` as a list of names, levels and handlers; the hook as a function of the last source line, the condition and the results | lookup in lists with replaced entries; parents are strictly shorter, so that a chain has no name twice; splitting and joining of characters |
| C110 | `Unchecked.lean`: the loops of `decomposition.pyx` and `rebin.pyx` with every access explicit; an access outside of its array is `undefined` (`indexError` in numpy) | induction over the passes left; exact conditions (iff) for all accesses inside, and equality with the models used elsewhere |
| C111 | `Rounding.lean`: `dbl` (nearest double, exponents not bounded), and the energies of `decompose`, `constraining_counts`, `nld_T_product`, `_index`, `np.linspace` with a rounding after every operation | error bounds by intervals; the search through the rounded distances falling and growing; computed doubles for the false part |
| C112 | `RebinRounding.lean`: `rebin_1D` with a rounding after every operation (no fused operations, exponents not bounded) | error bounds by intervals for edges, positions, overlaps and terms; the window loses only bins with a small share; rounded sums by `(1+u)^k - 1`; exactness of half-integers for the whole-number case |
| C113 | `ModelFiles.lean`: `save`, `load`, `asdict`, `__str__` of model objects; a file holds class and `__dict__`; pickle of foreign values is a parameter | no property is ever kept in the dictionary (`NoProp`, over all histories); the loop of `load` as a merge of dictionaries; only `Emax` can fail when attributes are read |
| C114 | `RscRounding.lean`: `arangeF`, `rscCalibF`, `rscAxesF`, `rscIndexF`, `rscOffsetF` with any rounding `fl`; `rscFitE` with the test of shapes | `ceil_near`, `arangeF_bins`: the number of bins up to one and their places; `rscCalibF_near`: errors of the calibration; `half_whole`: int(e/W+0.5) is exact for whole numbers |
| C115 | `CutRounding.lean`: `indexNum`, `cutLowF`, `cutHighF`, `cutBoundsF`, `Mat.cutF`, `Vec.cutF`, `maskDiagF`, `Mat.trapezoidF` with any rounding `fl` and limits that are IEEE numbers | `sqF_bounds`: rounded squared distances; `indexF_between`: the index is one of the two bins around the limit; `count_unique`: both cuts count the same bins; `trapezoidF_core` |
| C116 | `FactorRounding.lean`: `numMidsF`, `rebinMidsF`, `Vec.rebinInplaceF`, `Vec.rebinCopyF` with any rounding `fl` | `quotientF_near`: error of the rounded quotient; `linspaceF_mid`: error of `np.linspace`; `C112_total` for the counts |
| C117 | `SumRounding.lean`: `SumOrder`, `npSum` (numpy's pairwise order), `normRowF`, `nldTProductR`, `normalizeRowsF`, `chisquareF`, `chisquareDiagonalF` with any rounding `fl` and any summation | `Within u k`: two numbers differ by at most `k` roundings; closed under sums, products, quotients; `C111_product` for the bins |
| C118 | `Pipeline.lean`: `osloMethod` = `decompose` (C76) then `ensStep` (C71) | `trueNld`, `trueGsf`; `Known`: the known values agree with the truth; `LeastSquares`: smallest chi-square of C64; composition of C76, C65, C104 |
| C119 | `lnlike` of `NldLike.lean` (C64) and `osloMethod` | `biasFactor r = 2/(1+sqrt(1+2r²))`; minimum of `((X-d)/(rX))² + log(rX)` per bin |
| C120 | `NormPlot.lean`: `NormalizerGSF.plot`, `NormalizerNLD.plot`, `NormalizerSimultan.plot` as lists of calls with keyword dictionaries; matplotlib arbitrary | dictionary laws (`Kw.get_update`); legend = labels without underscore |
| C121 | `UnitRounding.lean`: `to_MeV`, `to_keV` and the conversion in `Vector.save` with a rounding after every operation; `dbl` for double precision without bounds on the exponent | nearest double (`C121_double_nearest`), two roundings, histories of conversions |
| C122 | `TransformRounding.lean`: `Vector.transform` with a rounding after every operation, an arbitrary computed exponential function and NaN uncertainties of empty bins | relative errors (`Rel`) multiply; real exponential function |
| C123 | `UnfoldRounding.lean`: the iteration of `Unfolder.apply` with a rounding after every operation; the product with the response with an arbitrary order of additions per element and pass | `GoodDot`; weighted size `wsize`; `Detector`: triangular response with full-energy probability `p`; contraction by `1 - p²` |
| C124 | `FirstGenRounding.lean`: `FirstGeneration.apply` with a rounding after every operation: multiplicities, normalisation, weights, subtraction and iterations; sums in an arbitrary order, the matrix product with an arbitrary dot product per element and iteration | `IsWeightsF`, `ProductDot`, `NearDot`, `higherGen`; `Within` counts roundings; reuses `AgreeUpTo` of C26 |
| C125 | `StdRounding.lean`: `np.mean` and `np.std` over the members with a rounding after every operation, any order of additions, rounded square root as parameter | `avg`, `variance`, `RoundedSqrt`; `Within` counts roundings; mean square distance from the computed mean (`avg_shift`) |
| C126 | `SmoothRounding.lean`: `gauss_smoothing` with a rounding after every operation; the computed bell function and the order of additions are parameters | `NearAxis`, `smoothed`; comparison of the indices with the exact ones by monotonicity of the rounding; `Within` counts roundings |
| C127 | `DiagRounding.lean`: `line_mask`, `cut_diagonal`, `i_from_E`, `make_mask` with a rounding after every operation | `side`, `CutOffLine`, `KeptWhere`; entries off the line are at least 1/N away from it, the computed line at most 12uN^2 |
| C128 | `AxisRounding.lean`: `E_array_from_calibration`, `to_lower_bin`, `to_mid_bin`, `find_limits` with a rounding after every operation | error bounds against a0 + a1 i and the energies before; selection of bins by their energies; quotients of whole numbers below 2^53 never round onto or over a whole number |
| C129 | `CppArrays.lean`: pybind11's conversion with `c_style` and `forcecast`, the class `Array`, `iterate_proxy` on memory blocks; the iteration is any function on memory, with the one of `RhoSigChi.lean` as instance | `Shared`, `Seen`, `OnlyWrites`, `Accepted`; copies are new blocks, so blocks in use are untouched |
| C130 | `EnsLimit.lean`: average and standard deviation of a bin over the first `n` members, one bin of `subtract_bg` | `Draws` (independent, identically distributed, square integrable); strong law of large numbers for the counts and their squares; laws of `EnsPerturb.lean`; product measures for member and background |
| C131 | `UnfoldNoise.lean`: the unfolding of `Unfolder.lean` applied to a raw matrix of random numbers | `neumann` (matrix powers of Mathlib), `drawLaw` (infinite product of Poisson laws); iterations are linear; covariances of sums of independent numbers; strong law via C130 |
| C132 | no new model: `chisquareDiagonal` (`Decomposition.lean`), `normUncRow` (`Extractor.lean`), `ensSd` (`EnsRebin.lean`) | `Counted`, `Noisy` (moments only, no independence), `twice` (Poisson kernel on Poisson law); bias-variance split per bin; covariance of sums; derivative along a direction |
| C133 | no new model: `normalizeRows`, `meanEg`, `multTotal`, `multStatistical` (`FirstGen.lean`), `normUncRow` (`Extractor.lean`), `drawnRaw` (`UnfoldNoise.lean`) | `Counts`, `totalOf`, `shareOf`; Stein's identity for Poisson numbers from the series, carried over to sums by Fubini; tangent of 1/x for the multiplicities |
| C134 | no new model: `quantileCol` (`Stats.lean`); `poolOf` in `BandLimitProps.lean`: samples of the members one after the other | `atMost`, `howMany`, `Members` by measures of preimages; place of an order statistic by counting, strong law of large numbers for the counts of the members |
| C135 | no new model: `fgIter`, `fgApply` (`FirstGen.lean`), `allGens` (`CascadeProps.lean`); `Ladder`, `leftOver`, `nextWeight` in `FgSettleProps.lean` | the pass of the loop reduced to a map of one weight with the branching ratio as fixed point; exact factor of its deviation; alternating signs and contraction in two passes; cycle of length two |
| C136 | `Sharing.lean`: memory as buffers, arrays as positions in a buffer, vectors and matrices by their arrays, methods that rebind, slice or write | `runOwn`: the value models of the other files; frame, invariant that attributes are separate, simulation by induction over the program |
| C137 | `Unfolder.lean`: the iteration of C29 | `Settles`: every bin approaches a number for every raw matrix; geometric series of matrices (C131), triangular powers, spectral theorem for symmetric responses, one mode at a time |
| C138 | `TornFiles.lean`: the programs of C39/C40 with files that are opened, written piece by piece and closed; `.npy` files as header and numbers | `FileFormat.Sound`; simulation by the steps with whole files (`Sim`), `Guards`: a file is read before it is written |
| C139 | `TornExtract.lean`: the loop of the extraction as a series of operations on the disk, interrupted after any number of them | `Paired`: the strength function of a member is written only after the level density of the same fit; `FittedBy` one call of one fit |
| C140 | `FitFiles.lean`: base names of MultiNest, fits as programs on files, process pool with any schedule, the loop with a single thread, keyword `resume` | `Sep`: no name starts with both base names; `Fresh`: reads only what it has written; digits are followed by `_`, so member 1 and member 11 differ |
| C141 | `CutAction.lean`: signatures of the methods of `Matrix`, binding of positional and keyword arguments, the two replays in `_extract` with the keyword in between, the limits read by `rhosigchi` | `Callable`, `Call.Fits`, `Call.Extendable`, `Call.Gives`; an Action with a call that does not fit never finishes |
| C142 | `ResultFile.lean`: `normalize` of any normaliser as a series of steps (attempt to load, calculation, opening with 'wb', pieces of the pickle), interrupted after any number of them; pickles as attributes up to `STOP` | `Sound` format, `Ends` (big-step ends of a call), `Honest` files as invariant over histories |
| C143 | `TornText.lean`: the first characters of the text of a table or MAMA file, read by the models of `np.loadtxt` and `mama_read` | lines and fields of a beginning of a text (`cutAt_take`, `torn_fields`), digits of the exponent (`readExp_torn`), the footer rule of `genfromtxt` (`gen_torn`) |
| C144 | `ObjHistoryProps.lean`: programs of `Sharing.lean` (memory, references, calls that raise) | shapes of arrays never change after they are made; invariant over calls: shapes of values and axes fit and buffers are in use; conversion to the numbers by `read1_length`/`read2_lengths` |
| C145 | `ObjRaiseProps.lean`: the same programs; one call that raises | each call either writes nothing before it raises or is `rebin` in place; there the last check can fail only because of `std` (C144) |
| C146 | `LoadObj.lean`: `Vector.load` and `Matrix.load` on objects whose attributes are arrays of any dimension, assigned before `verify_integrity`; histories of loads | each load is one assignment of arrays that do not depend on the object (`vload_forms`, `mload_forms`); induction over the history; agreement with `FileIO.lean` (C146_agrees_vec) |
| C147 | `WidthRounding.lean`: `Gg_standard`, `B_norm`, `lnlike` with rounding after every operation | `Within u k` of C117 through products, sum and factors; relations kept by every addition are kept by numpy's sum (`related_npSum`) for monotony and powers of two |
| C148 | `TarJobs.lean`: `save_tar`, `load_tar` as processes that take one step at a time on one disk | `TarProc.inside N`: the process only uses files named in `N`; a step depends on and changes only these (`tstep_frame`), so disjoint name sets give separate runs in every schedule; invariant `TarProc.reading` for readers of one archive |
| C149 | `SpinRounding.lean`: `distribution`, `summe`, `nldSn_from_D0`, `D0_from_nldSn`, `SpinSum` with rounding after every operation | `LogNear d`: logarithms differ by at most `d` (real numbers, for the exponential function); `Within` of C117 turned into it by `lamU u = -log(1-u)` |
| C150 | `PeakRounding.lean`: `two_channel_split` and `discrete_peaks` with rounding after every operation | `Within` of C117 for the sum of the contents; fraction between 0 and 1 by monotony of the rounding; Bernoulli for the last channel; kernel evaluation of doubles for the counterexample |
| C151 | `InterpRounding.lean`: `interpolate` of the response with `fill_value="extrapolate"` and with `fill_value=0`, rounding after every operation | straight line through two points written out as spec; factors between 1-u and 1/(1-u) for numbers of either sign; monotony of the rounding for the sign and order; kernel evaluation of doubles for the counterexample |
| C152 | `ComptonRounding.lean`: `E_compton`, `dE_dtheta`, the argument of `arccos`, `lin_interpolation` and one entry of `fan_method_compton` with rounding after every operation | `Within` of C117 where nothing cancels, `Factor` of C151 for signed parts, monotony of the rounding for order and range; the exact formulas are written out as spec; kernel evaluation of doubles for the counterexamples |
| C153 | `ErrorRounding.lean`: `Vector.error` with rounding after every operation and any order of summation | exact chi-square written out entry by entry as spec; `Within` of C117; double rounding is odd, monotone and commutes with powers of two |
| C154 | `LogInterpRounding.lean`: `log_interp1d` with rounding after every operation and any logarithm and exponential function with bounded errors | geometric mean with real powers as spec; segment bound of C151 for signed values; `LogNear` of C149 for the exponential function; link to `logInterp` of C48 |
| C155 | `NldLikeRounding.lean`: `const_temperature` and `lnlike` with rounding after every operation and any order of summation | `likeExact`, `likeSize` as specs; χ² of C153, signed sums of C117, `LogNear` for the exponential function; domain as an equivalence |
| C156 | `FanEndRounding.lean`: scale, bins and entries of `fan_to_end` with rounding after every operation | floor of the exact position as spec; `Within`/`Factor` of C117 and C151; line through the two counts; witness 49 * (1/49) for a wrong bin; link to the exact model |
| C157 | `PriorRounding.lean`: the log-uniform priors of α and T with rounding after every operation | `g 10^(2c-1)` as spec; errors of the exponent summed, then `LogNear` for the power; link to `priorLog` of C68 |

Files `…More.lean` hold theorems that were added after mutation tests: a definition of the model was
changed to a wrong program, and where no theorem failed a new one was stated that does. Every attempt is
one line of `seeded/LOG.jsonl`.

Not mutation tested: C157, and the last additions `C155_upper` and `C147_curves`. Of the 33 wrong programs prepared for
C155, 25 were run. `NldLikeRoundingMore.lean` and `WidthRoundingCurves.lean` extend C155 and C147 without such a test.
