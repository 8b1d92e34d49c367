{"id": "C01", "title": "Rebinning gives every output bin exactly its geometric share", "statement": "rebin_1D puts into every output bin exactly the sum, over all input bins, of the input content times the fraction of that input bin that lies inside the output bin. The inner loop's truncated index window never skips an input bin that overlaps the output bin.", "quantifier": "every pair of equidistant input/output axes with positive bin widths (any offset, negative energies included), every content array, every output bin", "why_tests_cant": "The window bounds come from int() truncation of a quotient, so whether a bin is missed depends on the sign and fractional part of offset/width ratios; no finite set of axes covers the boundary cases.", "anchors": ["ompy/rebin.pyx: rebin_1D, overlap"]}
{"id": "C02", "title": "Rebinning conserves counts", "statement": "If the output range covers the input range, the sum of the rebinned contents equals the sum of the input contents; in general the output sum is the sum of the contents times the fraction of each input bin inside the output range, so it never exceeds the total for non-negative contents.", "quantifier": "every equidistant input/output axis pair with positive widths and every content array", "why_tests_cant": "Conservation must hold for all relative offsets and all (non integer) width ratios, an unbounded family.", "anchors": ["ompy/rebin.pyx: rebin_1D"]}
{"id": "C03", "title": "Rebinning is linear, positivity preserving and the identity on the same axis", "statement": "rebin_1D(a*x+b*y) = a*rebin_1D(x)+b*rebin_1D(y); non-negative contents give non-negative contents; rebinning onto the input axis itself returns the input contents.", "quantifier": "all scalars, all pairs of content arrays of the same length, all positive-width axes", "why_tests_cant": "Algebraic laws over all arrays; a test compares finitely many arrays.", "anchors": ["ompy/rebin.pyx: rebin_1D"]}
{"id": "C04", "title": "Two-dimensional rebinning treats the lines along the axis independently", "statement": "rebin_2D with axis=1 rebins each row on its own and axis=0 each column on its own, any other axis is a ValueError; the total is conserved when the output range covers the input; rebinning along Eg and then Ex gives the same matrix as Ex and then Eg.", "quantifier": "every rectangular matrix, every positive-width axes, axis in all integers", "why_tests_cant": "Order independence of the two axes and line independence quantify over all matrices and axes.", "anchors": ["ompy/rebin.pyx: rebin_2D", "ompy/matrix.py: Matrix.rebin"]}
{"id": "C05", "title": "index() returns a closest bin on every sorted axis", "statement": "index(E) (Vector.index, Matrix.index_Eg/index_Ex) returns a valid position whose energy is at minimal distance from E on every axis that is sorted (ascending); when two bins are equally close the higher one is returned. On unsorted axes the answer is still in range but need not be closest.", "quantifier": "every non-empty axis and every energy, inside or outside the axis range", "why_tests_cant": "The early-exit scan is correct only through unimodality of the distance; a sampled axis cannot show it for all axes.", "anchors": ["ompy/decomposition.pyx: index, _index", "ompy/vector.py: Vector.index", "ompy/matrix.py: Matrix.index_Eg, Matrix.index_Ex"]}
{"id": "C06", "title": "i_from_E returns the first closest bin and agrees with index away from ties", "statement": "i_from_E returns the lowest position with minimal distance on every non-empty array, sorted or not; on strictly sorted axes it equals index() unless E lies exactly midway between two bins, in which case index() is one higher.", "quantifier": "every non-empty array, every energy", "why_tests_cant": "Tie behaviour and agreement of two independent search routines over all axes.", "anchors": ["ompy/library.py: i_from_E", "ompy/decomposition.pyx: index"]}
{"id": "C07", "title": "Matrix.cut selects exactly the requested energy window", "statement": "Matrix.cut(axis, Emin, Emax) on a strictly ascending axis keeps exactly the bins with Emin <= E <= Emax (strict at a side whose *_inclusive flag is False), together with their rows/columns of values, in order.", "quantifier": "every matrix with strictly ascending axes, every Emin/Emax (possibly None or outside the axis), all inclusive flags, axis Eg or Ex", "why_tests_cant": "Off-by-one behaviour depends on where the limits fall relative to bins and to the axis ends; all placements are covered only by proof.", "anchors": ["ompy/matrix.py: Matrix.cut"]}
{"id": "C08", "title": "Vector.cut keeps the contiguous block between the bins closest to the limits", "statement": "Vector.cut(Emin, Emax) keeps exactly the positions from the bin closest to Emin to the bin closest to Emax, both included, with energies, values and standard deviations cut alike so that every surviving entry keeps its partners; None limits mean the end of the axis.", "quantifier": "every vector with or without std, every limits", "why_tests_cant": "Pairing of three arrays under slicing over all inputs.", "anchors": ["ompy/vector.py: Vector.cut"]}
{"id": "C09", "title": "Arithmetic on vectors and matrices never touches the operands and checks the binning", "statement": "a op b (op in + - * /) returns a new object with elementwise values; both operands, and every object sharing nothing with the result, are left exactly as they were; if the binnings differ a ValueError is raised and nothing changes.", "quantifier": "every heap of array objects, every pair of operands (object or scalar, possibly the same object), every operator", "why_tests_cant": "Aliasing and no-mutation are statements about all heaps and all operand pairs, including x op x.", "anchors": ["ompy/abstractarray.py: AbstractArray.__add__, __sub__, __mul__, __truediv__", "ompy/vector.py: has_equal_binning", "ompy/matrix.py: has_equal_binning"]}
{"id": "C10", "title": "Unit conversions form a two-state machine", "statement": "After any sequence of to_keV()/to_MeV() calls the energies depend only on the physical energies and the last call: repeating a conversion is a no-op, converting there and back restores the vector, values and std are never touched.", "quantifier": "every vector and every finite sequence of conversions", "why_tests_cant": "A history property: all call sequences.", "anchors": ["ompy/vector.py: Vector.to_MeV, Vector.to_keV"]}
{"id": "C11", "title": "transform obeys the group law of the Oslo normalisation", "statement": "transform(A, a) followed by transform(B, b) equals transform(A*B, a+b); transform(1, 0) is the identity; transform(1/A, -a) undoes transform(A, a) for A != 0; std is scaled by the same factors; not-inplace leaves the vector unchanged.", "quantifier": "all vectors, all real parameters", "why_tests_cant": "Equational law over all reals and all vectors.", "anchors": ["ompy/vector.py: Vector.transform"]}
{"id": "C12", "title": "cumulative is the running integral", "statement": "cumulative() with factor 1 returns at position i the sum of values[0..i]; differences of consecutive entries give back the values; with factor='de' everything is multiplied by the bin width; non-negative values give a non-decreasing result.", "quantifier": "all vectors", "why_tests_cant": "Law over all vectors.", "anchors": ["ompy/vector.py: Vector.cumulative"]}
{"id": "C13", "title": "closest() looks values up without inventing data", "statement": "closest(E) returns for each requested energy the value of the bin selected by the sorted search or 0 outside the axis; unsorted axes raise RuntimeError.", "quantifier": "every vector, every array of requested energies, side left/right", "why_tests_cant": "Boundary behaviour at every bin energy and beyond the ends.", "anchors": ["ompy/vector.py: Vector.closest"]}
{"id": "C14", "title": "cut_nan removes exactly the NaN entries", "statement": "cut_nan keeps every entry whose value is not NaN, in order, each with its own energy and its own std, and removes every NaN entry; a second call changes nothing.", "quantifier": "every vector, any pattern of NaN", "why_tests_cant": "All NaN patterns; pairing of three arrays.", "anchors": ["ompy/vector.py: Vector.cut_nan"]}
{"id": "C15", "title": "Projections preserve totals", "statement": "projection(axis) sums over all bins of the other axis: the sum of the projected counts equals the sum of the matrix, for both axes; restricted to Emin/Emax it sums exactly the bins of the selected index window.", "quantifier": "every rectangular matrix, both axes, every limits", "why_tests_cant": "Double counting/missing bins must be excluded for all shapes.", "anchors": ["ompy/matrix.py: Matrix.projection"]}
{"id": "C16", "title": "fill adds the count to exactly one bin", "statement": "fill(Eg, Ex, count) adds count to the bin closest to (Eg, Ex) and changes no other bin; the total grows by exactly count; the order of fills does not matter.", "quantifier": "every matrix with non-empty axes and every finite sequence of fills", "why_tests_cant": "All sequences of events (commutativity of histories).", "anchors": ["ompy/matrix.py: Matrix.fill"]}
{"id": "C17", "title": "fill_negative (max) conserves counts, terminates and never worsens a bin", "statement": "fill_negative with window fill terminates on every input, keeps the sum of each row, never makes any bin more negative than it was nor any non-negative bin negative, and moves counts only within the window around the bin being filled.", "quantifier": "every matrix with finite entries, every window", "why_tests_cant": "Termination of the inner while loop for every array cannot be tested.", "anchors": ["ompy/library.py: fill_negative_max, shuffle_counts"]}
{"id": "C18", "title": "fill_negative (gauss) conserves counts and fills from inside the resolution window", "statement": "fill_negative_gauss keeps each row sum, never creates a negative bin and covers a negative bin from the bins with the largest Gaussian weight first.", "quantifier": "every matrix, every weight table, every order returned by the sort", "why_tests_cant": "The order in which neighbours are visited depends on sorting weights; all inputs must be covered.", "anchors": ["ompy/library.py: fill_negative_gauss, shuffle_counts"]}
{"id": "C19", "title": "remove_negative clamps and is idempotent", "statement": "remove_negative leaves every positive entry alone and makes every other entry (negative, zero, NaN) exactly 0; it is idempotent; fill_and_remove_negative leaves only non-negative entries.", "quantifier": "every matrix including NaN and infinite entries", "why_tests_cant": "All inputs including special values.", "anchors": ["ompy/matrix.py: Matrix.remove_negative, Matrix.fill_and_remove_negative"]}
{"id": "C20", "title": "diagonal_elements names the last non-zero column of each row", "statement": "diagonal_elements yields, in order and only for rows that have a non-zero element, the pair (row, column of the last non-zero element).", "quantifier": "every rectangular matrix", "why_tests_cant": "Off-by-one and all-zero-row cases over all matrices.", "anchors": ["ompy/library.py: diagonal_elements"]}
{"id": "C21", "title": "Bin-edge conversion round-trips", "statement": "to_lower_bin followed by to_mid_bin restores the axes exactly and changes no values (so plotting does not disturb the matrix), on equidistant and non equidistant axes.", "quantifier": "every matrix with axes of at least two bins", "why_tests_cant": "All axes.", "anchors": ["ompy/matrix.py: Matrix.to_lower_bin, Matrix.to_mid_bin, Matrix.plot"]}
{"id": "C22", "title": "E_array_from_calibration covers the requested range", "statement": "With N given the array is a0 + a1*i for i < N; with E_max given its last element is at least E_max - a1 and overshoots by at most half a bin; giving both or neither is a ValueError.", "quantifier": "all rational a0, positive a1, E_max >= a0, all N", "why_tests_cant": "Rounding (half-to-even) cases over all quotients.", "anchors": ["ompy/library.py: E_array_from_calibration"]}
{"id": "C23", "title": "Native file formats round-trip", "statement": "Saving a vector or matrix and loading it again with the same format (npy, txt, csv, tar) returns the same energies, values and, for vectors, the same std whether or not there is one; writing one path leaves every other path's contents alone.", "quantifier": "every vector/matrix (energies, values, optional std), every history of saves and loads over several paths", "why_tests_cant": "All contents and all save/load histories.", "anchors": ["ompy/filehandling.py: save_numpy_1D, load_numpy_1D, save_csv_1D, load_csv_1D, save_txt_1D, load_txt_1D, save_tar, load_tar, save_numpy_2D, load_numpy_2D", "ompy/vector.py: Vector.save, Vector.load", "ompy/matrix.py: Matrix.save, Matrix.load"]}
{"id": "C24", "title": "MAMA files carry equidistant axes and values; other axes are not representable", "statement": "Writing a vector/matrix with equidistant axes to MAMA and reading it back gives the same axes and values (up to the printed precision) and keeps Eg/Ex in place; energies in the file are keV whatever the unit of the vector.", "quantifier": "every equidistant vector/matrix in keV or MeV", "why_tests_cant": "Quantifies over all calibrations and units.", "anchors": ["ompy/filehandling.py: mama_write, mama_read", "ompy/vector.py: Vector.save"]}
{"id": "C25", "title": "First-generation weights only look at lower excitation bins and are normalised", "statement": "In every iteration the weight matrix is strictly lower triangular, non-negative, and each row sums to 1 or is entirely 0.", "quantifier": "every all-generations matrix, every previous iterate, every iteration number", "why_tests_cant": "All matrices and all iterations.", "anchors": ["ompy/firstgeneration.py: FirstGeneration.step, normalize_rows"]}
{"id": "C26", "title": "The lowest excitation bin is its own first generation", "statement": "For every number of iterations, the lowest excitation row of the first-generation matrix equals the lowest row of the all-generations matrix, and row i of the result depends only on rows 0..i of the input.", "quantifier": "every input, every number of iterations", "why_tests_cant": "Induction over iterations and rows.", "anchors": ["ompy/firstgeneration.py: FirstGeneration.apply, FirstGeneration.step"]}
{"id": "C27", "title": "First generation and unfolding leave the caller's objects alone", "statement": "FirstGeneration.apply does not modify the all-generations matrix or the valley_correction vector handed to it.", "quantifier": "every input heap and every number of calls", "why_tests_cant": "Aliasing over all heaps and repeated calls.", "anchors": ["ompy/firstgeneration.py: FirstGeneration.apply, cut_valley_correction, valley_correction setter"]}
{"id": "C28", "title": "Statistical multiplicities are non-negative and the normalisation is finite", "statement": "multiplicity_statistical returns non-negative multiplicities for non-negative excitation energies, and the multiplicity normalisation matrix has only finite entries (0 where a denominator vanishes).", "quantifier": "every matrix, every thresholds", "why_tests_cant": "Division-by-zero pattern over all inputs.", "anchors": ["ompy/firstgeneration.py: multiplicity_statistical, multiplicity_normalization", "ompy/library.py: div0"]}
{"id": "C29", "title": "Unfolding: fold iteration, conservation and fixed points", "statement": "If the response rows each sum to 1, every iterate of the unfolding has the same number of counts in each row as the raw spectrum; with the identity response the first iterate is already the answer and stays; if an iterate folds exactly to the raw spectrum all later iterates are equal to it; each row evolves independently of the other rows.", "quantifier": "every raw matrix, every response matrix, every number of iterations", "why_tests_cant": "Induction over iterations for all responses.", "anchors": ["ompy/unfolder.py: Unfolder.step, Unfolder.apply, Unfolder.fold"]}
{"id": "C30", "title": "Iteration selection returns an iteration that was computed", "statement": "For every excitation bin the selected iteration is one of those computed and not below minimum_iterations, and is the one with the lowest score among the allowed ones.", "quantifier": "every score table, every num_iter and minimum_iterations", "why_tests_cant": "Index arithmetic across all parameter combinations.", "anchors": ["ompy/unfolder.py: Unfolder.score, Unfolder.apply"]}
{"id": "C31", "title": "Gaussian smoothing preserves counts of non-negative spectra", "statement": "gauss_smoothing returns non-negative values with the same total for every non-negative spectrum; negative input bins contribute nothing; lengths that differ raise ValueError; counts move at most truncate*sigma (plus a bin).", "quantifier": "every spectrum, every positive fwhm array, every truncation, every positive kernel", "why_tests_cant": "Normalisation inside truncated windows at the axis ends for all inputs.", "anchors": ["ompy/gauss_smoothing.pyx: gauss_smoothing, gaussian"]}
{"id": "C32", "title": "nld*T product rows are probability distributions below the diagonal", "statement": "Each row of nld_T_product is zero beyond Ex + resolution + half a bin and sums to 1 whenever its un-normalised sum is non-zero; the result does not depend on the order or interleaving in which rows are processed.", "quantifier": "every nld, T, resolution and axes; every schedule of the parallel loop", "why_tests_cant": "All thread schedules.", "anchors": ["ompy/decomposition.pyx: nld_T_product, normalize"]}
{"id": "C33", "title": "The decomposition is invariant under the Oslo transformation", "statement": "Multiplying nld by A*exp(a*E) and T by B*exp(a*Eg) leaves the product matrix unchanged, for the energy grid the extractor builds; hence chi-square cannot distinguish the transformed solutions.", "quantifier": "all A,B != 0, all a, all equidistant axes with common bin width, all nld and T", "why_tests_cant": "Continuous symmetry over all parameters.", "anchors": ["ompy/decomposition.pyx: nld_T_product, chisquare_diagonal", "ompy/extractor.py: Extractor.decompose"]}
{"id": "C34", "title": "The extractor's final-energy grid has exactly one bin per diagonal", "statement": "For axes with a common bin width the nld grid has len(Ex)+len(Eg)-1 bins, every difference Ex_i - Eg_j is exactly a grid energy, it is found by the index search, and constraining_counts counts for each nld bin exactly the matrix elements that use that nld bin.", "quantifier": "all equidistant axes with common positive width, all matrices", "why_tests_cant": "Grid/diagonal correspondence for all shapes.", "anchors": ["ompy/extractor.py: Extractor.decompose, Extractor.constraining_counts", "ompy/decomposition.pyx: _index"]}
{"id": "C35", "title": "chi-square is non-negative, zero exactly on agreement and ignores unmeasured bins", "statement": "chisquare and chisquare_diagonal are non-negative; bins with std = 0 never contribute and never divide by zero; the value is 0 iff fact and fit agree on all contributing bins; chisquare_diagonal equals chisquare restricted to the bins up to the diagonal.", "quantifier": "all matrices", "why_tests_cant": "All inputs including zero standard deviations.", "anchors": ["ompy/decomposition.pyx: chisquare, chisquare_diagonal"]}
{"id": "C36", "title": "Row normalisation in the extractor", "statement": "Extractor normalisation makes each non-zero-sum row sum to 1 and leaves zero-sum rows as they are, without division by zero; decompose accepts a matrix without std as documented and does not modify its inputs.", "quantifier": "all matrices with or without std", "why_tests_cant": "All inputs; argument-passing defects on an untested path.", "anchors": ["ompy/extractor.py: normalize, Extractor.decompose"]}
{"id": "C37", "title": "Recorded actions replay as the direct calls", "statement": "act_on performs exactly the recorded calls in recording order with the recorded arguments and returns their results; the action can be replayed any number of times on any targets; curry adds the keyword arguments to every recorded call and changes nothing else.", "quantifier": "every sequence of recorded calls, every target", "why_tests_cant": "All call sequences.", "anchors": ["ompy/action.py: Action, act_on, map, curry"]}
{"id": "C38", "title": "Every public operation keeps vectors internally consistent", "statement": "After any sequence of public in-place operations (cut, cut_nan, rebin, transform, unit conversion) that start from a consistent vector and do not raise, energies, values and std have equal lengths.", "quantifier": "every consistent vector and every sequence of operations", "why_tests_cant": "Invariant over all histories.", "anchors": ["ompy/vector.py: Vector.cut, cut_nan, rebin, transform, to_MeV, to_keV, verify_integrity"]}
{"id": "C39", "title": "An interrupted ensemble generation can be resumed", "statement": "If generate() is interrupted after any file write and run again with regenerate=False, the resulting ensemble equals the one of an uninterrupted run.", "quantifier": "every crash point, every member count, with and without background", "why_tests_cant": "Every crash point of every run.", "anchors": ["ompy/ensemble.py: Ensemble.generate, step, generate_perturbed, subtract_bg, unfold, first_generation, load_matrix"]}
{"id": "C40", "title": "The ensemble does not depend on process scheduling or on the ensemble size", "statement": "generate(n) gives the same members whatever the number of processes and the order in which members are worked on; the first k members of generate(n) are the members of generate(k).", "quantifier": "every interleaving of the member steps, every n and k", "why_tests_cant": "All schedules.", "anchors": ["ompy/ensemble.py: Ensemble.generate, step"]}
{"id": "C41", "title": "Loading an ensemble restores the members in their order", "statement": "After load(), raw member i, unfolded member i and first-generation member i are the matrices saved for member i.", "quantifier": "every ensemble size, every order in which the directory lists the files", "why_tests_cant": "Directory order is outside the program's control.", "anchors": ["ompy/ensemble.py: Ensemble.load"]}
{"id": "C42", "title": "The rhosigchi iteration keeps its iterates physical and changes them gradually", "statement": "Starting from non-negative nld and T, every iterate is non-negative and each element is either set to 0 or changed by at most the factor allowed for that iteration.", "quantifier": "every input matrices, every iteration count", "why_tests_cant": "Induction over iterations.", "anchors": ["ompy/rhosigchi.cpp: iterate", "ompy/pyrhosigchi.py: iterate_python"]}
{"id": "C43", "title": "Discrete response peaks conserve probability and energy", "statement": "Splitting a peak between two channels conserves its content and its centroid energy, and both channels exist whenever the energy lies inside the grid; the normalised response rows are non-negative and sum to 1 or are all 0.", "quantifier": "every equidistant grid, every centroid inside it, every peak content", "why_tests_cant": "All grids and energies.", "anchors": ["ompy/response.py: Response.two_channel_split, discrete_peaks, interpolate, get_probabilities"]}
{"id": "C44", "title": "Compton energies are bounded and dE_dtheta is their derivative", "statement": "The Compton electron energy is 0 at angle 0, non-negative, below the photon energy, maximal at backscattering, and dE_dtheta is the derivative of E_compton with respect to the angle.", "quantifier": "all photon energies above 0.1 keV and all angles", "why_tests_cant": "Continuous domain.", "anchors": ["ompy/response.py: Response.E_compton, Response.dE_dtheta"]}
{"id": "C45", "title": "Unknown model parameters are rejected and unset ones are reported", "statement": "After construction, assigning an attribute that is not a parameter of the model raises AttributeError and assigning a parameter works, for every model class; is_changed raises ValueError exactly if a checked parameter is unset.", "quantifier": "every model class, every sequence of assignments", "why_tests_cant": "All attribute names and histories.", "anchors": ["ompy/models.py: Model.__setattr__, Model._freeze, Model.is_changed, AbstractExtrapolationModel, ExtrapolationModelLow, ExtrapolationModelHigh, NormalizationParameters"]}
{"id": "C46", "title": "D0 and nld(Sn) are converted consistently", "statement": "D0_from_nldSn and nldSn_from_D0 are inverse to each other for every target spin, and both are positive for positive input.", "quantifier": "all positive D0/nld, all spins, all positive spin distributions", "why_tests_cant": "Algebraic inverse over all reals.", "anchors": ["ompy/normalizer_nld.py: NormalizerNLD.nldSn_from_D0, NormalizerNLD.D0_from_nldSn"]}
{"id": "C47", "title": "SpinSum visits exactly the dipole-accessible spins and its cache is transparent", "statement": "SpinSum sums the spin distribution over exactly the pairs (residual spin, final spin) allowed by angular-momentum coupling and dipole selection rules (0->0 forbidden); for every history of calls and parameter changes it returns what a fresh computation would return.", "quantifier": "all target spins, all angular momentum transfers, all call histories", "why_tests_cant": "Cache staleness is a history property; selection rules are over all spins.", "anchors": ["ompy/normalizer_gsf.py: NormalizerGSF.SpinSum, SpinSum_save_reload"]}
{"id": "C48", "title": "GSF normalisation reproduces the experimental radiative width", "statement": "After normalisation with B = Gg_exp/Gg_calc the radiative width computed from the normalised strength function (data and extrapolations) equals Gg_exp.", "quantifier": "all strength functions, extrapolations and level densities with non-zero computed width", "why_tests_cant": "Linearity over all inputs.", "anchors": ["ompy/normalizer_gsf.py: NormalizerGSF.normalize, Gg_standard", "ompy/models.py: norm_to_shift_after"]}
{"id": "C49", "title": "All generations follow from first generations by the documented recursion", "statement": "allgen_from_primary returns the matrix defined by AG(Ex) = FG(Ex) + sum over Ex' < Ex of sigma(Ex) w(Ex->Ex') AG(Ex')/sigma(Ex'), with FG scaled to the population; rows once computed never change again; for non-negative first generations each row i holds between 1 and i+1 gammas per population.", "quantifier": "all first-generation matrices, all populations, all rows and columns", "why_tests_cant": "A recursion over rows of every size; a self-feeding term shows only if the lowest gamma bin has counts.", "anchors": ["ompy/firstgeneration.py: FirstGeneration.allgen_from_primary"]}
{"id": "C50", "title": "Compton subtraction returns the full-energy spectrum over the efficiency when the Compton background is smooth", "statement": "If smoothing leaves the estimated Compton background unchanged, compton_subtraction returns the full-energy part corrected for full-energy probability and efficiency, whatever the escape and annihilation peaks are; shifting moves whole bins exactly and drops only what leaves the axis; the single and double escape peaks are shifted by one and two electron masses; a missing table or multiplier raises ValueError.", "quantifier": "all spectra, response tables, smoothing functions, shifts by whole bins", "why_tests_cant": "The cancellation holds for every table and background; a shift that is 2 keV off is invisible with coarse bins.", "anchors": ["ompy/unfolder.py: Unfolder.compton_subtraction, shift, shift_matrix"]}
{"id": "C51", "title": "Loading a saved ensemble gives back the ensemble that was generated", "statement": "After generate() has finished, load() of the same directory yields the raw, unfolded and first-generation members that generate() returned.", "quantifier": "every ensemble size, every schedule of the processes, every action", "why_tests_cant": "Tests load small ensembles without actions; the property is over all actions and schedules.", "anchors": ["ompy/ensemble.py: Ensemble.load, generate, generate_perturbed, unfold, first_generation"]}
{"id": "C52", "title": "Exact data are a fixed point of the rhosigchi iteration", "statement": "If the spectra equal the normalised product of the starting level density and transmission coefficient, every iterate of rhosigchi equals the start, whatever the uncertainties, as long as every non-zero bin is constrained by data.", "quantifier": "all spectra sizes, limits, uncertainties, iteration counts; C++ and Python version", "why_tests_cant": "Tests run the iteration on measured data, where no fixed point is known; the property is over all exact products.", "anchors": ["ompy/rhosigchi.cpp: iterate, FunS/FunSs, nominator", "ompy/pyrhosigchi.py: iterate_python"]}
{"id": "C53", "title": "The rhosigchi iteration respects the Oslo-method invariance", "statement": "Runs started from (rho, sig) and from (A t^k rho, B t^g sig) have iterates related by the same transformation.", "quantifier": "all positive A, B, t, all spectra, limits, iteration counts", "why_tests_cant": "A symmetry over a three-parameter family of starting points.", "anchors": ["ompy/rhosigchi.cpp: iterate"]}
{"id": "C54", "title": "Matrix.rebin rebins values, axes, uncertainties and keeps the state", "statement": "Matrix.rebin puts the matrix on the requested axis, conserves overlaps, rebins std as well, keeps state, and rebin(factor=f) scales the bin width by f; it refuses when both or neither of mids and factor are given.", "quantifier": "all matrices on equidistant axes, all target axes and factors", "why_tests_cant": "Tests rebin matrices without std by integer factors.", "anchors": ["ompy/matrix.py: Matrix.rebin"]}
{"id": "C55", "title": "rhosigchi works on a continued axis with correctly labelled bins", "statement": "The axis used by rhosigchi continues the axis of the matrices to lower energies with the same bins, the limits are the bins closest to the requested energies, igmax is the last bin with counts, and the energy written on each level density bin is Ex-Eg to half a bin.", "quantifier": "all equidistant axes, limits and extensions", "why_tests_cant": "Depends on the fractional part of the offset, which is the same in all test data.", "anchors": ["ompy/pyrhosigchi.py: rhosigchi"]}
{"id": "C56", "title": "Extractor.rhosigchi extracts every ensemble member with the ensemble's uncertainties", "statement": "Extractor.rhosigchi fits each of the members with the standard deviation of the ensemble as uncertainty.", "quantifier": "all ensembles, all binnings, whatever the fit does", "why_tests_cant": "The in-place change only shows up with two or more members; the test uses one.", "anchors": ["ompy/extractor.py: Extractor.rhosigchi", "ompy/pyrhosigchi.py: rhosigchi"]}
{"id": "C57", "title": "Normalisation and chi-square of rhosigchi", "statement": "normalize gives rows that sum to one within the limits and uncertainties scaled alike; chisquare is the reduced chi-square and is never negative.", "quantifier": "all matrices, limits, uncertainties", "why_tests_cant": "The value of chisquare is only printed.", "anchors": ["ompy/pyrhosigchi.py: normalize, chisquare"]}
{"id": "C58", "title": "pad_matrix and find_limits", "statement": "pad_matrix continues both axes downwards by n empty bins and moves no count; find_limits selects exactly the bins whose mid-points are within the requested energies.", "quantifier": "all square matrices, n, energies", "why_tests_cant": "A statement about all offsets and gains.", "anchors": ["ompy/pyrhosigchi.py: pad_matrix, find_limits"]}
{"id": "C59", "title": "Response.interpolate succeeds for every usable table", "statement": "For any response table with at least two energies, an equidistant energy axis and one spectrum per energy, and any equidistant output axis below the end of that axis, interpolate returns a matrix: no index leaves its array, no slice has the wrong length and no infinity is converted to an integer.", "quantifier": "all tables, output axes, resolutions, with and without smoothing", "why_tests_cant": "The indices depend on the whole axis, on the Compton kinematics and on the resolution; a test has one table.", "anchors": ["ompy/response.py: Response.interpolate, get_closest_compton, linear_backscatter, fan_method_compton, fan_to_end, linear_to_end"]}
{"id": "C60", "title": "At a tabulated energy the response keeps the tabulated Compton spectrum", "statement": "If a gamma energy of the output axis is an energy of the table, the Compton part of its row is, up to the Compton edge, the tabulated spectrum put on the output axis with negative entries set to zero.", "quantifier": "all tables, axes, energies of the table, bins up to the Compton edge", "why_tests_cant": "The fan method goes through angles and back; a bin lost by rounding at one energy is invisible at another.", "anchors": ["ompy/response.py: Response.interpolate, get_closest_compton, fan_method_compton, linear_backscatter"]}
{"id": "C61", "title": "LoadZip pairs every energy with its own spectrum and calibration", "statement": "Row i of the Compton matrix is the spectrum of the energy in row i of the table, filled up with zeros; the energy axis is a0 + a1*k of the calibration; a missing spectrum is refused.", "quantifier": "all tables, spectra, calibrations", "why_tests_cant": "The shipped tables are sorted and have offset 0.", "anchors": ["ompy/response.py: Response.LoadZip"]}
{"id": "C62", "title": "The spin-cut parameter is positive and continuous", "statement": "For every spin-cut model with positive parameters sigma^2 is positive at every excitation energy, so that the spin distribution is defined; the interpolating models give the discrete value below the discrete energy, stay between the two values in between and join the upper part at Sn without a jump; unknown models and missing parameters raise TypeError.", "quantifier": "all models, parameters, excitation energies and spins", "why_tests_cant": "The formulas are tested at a few energies; the zero of the empirical formula and the truncation for integer energies lie elsewhere.", "anchors": ["ompy/spinfunctions.py: SpinFunctions.get_sigma2, gconst, gEB05, gEB09_CT, gEB09_emp, gDisc_and_EB05, gDisc_and_sigmaSn, distribution"]}
{"id": "C63", "title": "The extrapolation ranges follow the strength function that is normalised", "statement": "The lower extrapolation reaches from 0 to the first energy of the strength function that is being normalised, the upper one from there to beyond Sn; a guessed fit range contains more than one energy of the data.", "quantifier": "all strength functions, all sequences of normalisations", "why_tests_cant": "The ranges of the first normalisation stay in the model objects; a single normalisation cannot show it.", "anchors": ["ompy/models.py: ExtrapolationModelLow.autorange, ExtrapolationModelHigh.autorange, autofitrange, fit", "ompy/normalizer_gsf.py: NormalizerGSF.normalize"]}
{"id": "C64", "title": "The likelihood of the level density fit is the Gaussian one", "statement": "lnlike(A, alpha, T, Eshift) is, up to a constant, the logarithm of the Gaussian likelihood of the transformed level density given the known levels, the model and the level density at Sn, with the transformed uncertainties; inputs without uncertainties or on other bins raise.", "quantifier": "all level densities, levels, models and parameters", "why_tests_cant": "A likelihood has no visible right value; a wrong weight of the uncertainties only shifts the fit.", "anchors": ["ompy/normalizer_nld.py: NormalizerNLD.lnlike, const_temperature", "ompy/vector.py: Vector.transform, Vector.error, Vector.has_equal_binning"]}
{"id": "C65", "title": "The data determine the parameters of the normalisation", "statement": "If parameters reproduce known levels, model and level density at Sn exactly they are unique as soon as there are two bins below, one above and the point at Sn; the chi-square vanishes exactly there, and they have the largest likelihood.", "quantifier": "all data and parameters", "why_tests_cant": "Uniqueness and optimality over a four dimensional continuum.", "anchors": ["ompy/normalizer_nld.py: NormalizerNLD.lnlike, const_temperature"]}
{"id": "C66", "title": "normalize uses its arguments and leaves those of the caller alone", "statement": "normalize(limits, nld, discrete, bounds, norm_pars) fits the level density given, or that of the object, in MeV, to the levels given, or those of the object, and stores that level density transformed with the fitted parameters, with uncertainties if it has some; what is missing is refused with ValueError and the vectors of the caller are not changed.", "quantifier": "all states of the normaliser, arguments, files on disk and fits", "why_tests_cant": "Depends on the history of the object and on files of earlier runs; tests normalise once with new objects.", "anchors": ["ompy/normalizer_nld.py: NormalizerNLD.normalize", "ompy/abstract_normalizer.py: AbstractNormalizer.save, load", "ompy/library.py: self_if_none"]}
{"id": "C67", "title": "The known levels are those assigned last", "statement": "After any sequence of assignments to discrete (vector, file or None) and to smooth_levels_fwhm the known levels are those of the last assignment, a file being read with the resolution in force; a vector on other bins is refused and changes nothing.", "quantifier": "all histories of assignments", "why_tests_cant": "Histories are unbounded and the setters call each other.", "anchors": ["ompy/normalizer_nld.py: NormalizerNLD.discrete, smooth_levels_fwhm, load_levels_smooth"]}
{"id": "C68", "title": "The prior of the normalisation fit stays in its documented ranges", "statement": "The prior maps the unit cube to A >= 0, alpha and T between a tenth and ten times the guess and Eshift between -5 and 5; alpha and T are log-uniform there; the inverse error function behind A is odd, never passes the exact value and is infinite exactly at the ends; the bounds given by the user limit the prior.", "quantifier": "all points of the unit cube, all guesses and bounds", "why_tests_cant": "The prior is called inside the sampler with random numbers; the inverse error function is compared with the exact one on the continuum.", "anchors": ["ompy/normalizer_nld.py: NormalizerNLD.optimize, initial_guess", "ompy/normalizer_simultan.py: NormalizerSimultan.optimize", "src/stats.cpp: truncnorm_ppf", "src/erfinv.hpp: erfinv"]}
{"id": "C69", "title": "An argument that is None is replaced by the attribute of the same name", "statement": "self_if_none(x, nonable) returns x if it is given and otherwise the attribute with the name of the variable in the call, which is found by a regular expression in the source line; a missing attribute is an AttributeError and None a ValueError unless allowed.", "quantifier": "all source lines, attribute tables and arguments", "why_tests_cant": "Depends on the text of the source line of each call.", "anchors": ["ompy/library.py: self_if_none, _retrieve_name"]}
{"id": "C70", "title": "The strength function is normalised with the inputs given", "statement": "NormalizerGSF.normalize succeeds exactly if a strength function, a level density, a slope and a level density model are given as argument, attribute or by a level density normaliser with results; the results are the normalisation with those, reproduce the experimental width, and a second call gives the same; the caller's vectors stay as they are.", "quantifier": "all objects, arguments and histories of two calls", "why_tests_cant": "Every combination of missing and given inputs, with arbitrary fits and spin sums.", "anchors": ["ompy/normalizer_gsf.py: NormalizerGSF.__init__, normalize", "ompy/library.py: self_if_none"]}
{"id": "C71", "title": "Each result of an ensemble normalisation belongs to its member", "statement": "EnsembleNormalizer.normalize gives one result per member in order; result i is that of member i alone, whether members are handled in a pool or one after the other; points that are not numbers are left out; the extractor's vectors stay as they are; a failing pool is replaced by a run in one process.", "quantifier": "all ensembles of any size, all states of the two normalisers, all fits", "why_tests_cant": "The members share two normalisers with state; the influence of one on the next depends on all earlier ones.", "anchors": ["ompy/ensembleNormalizer.py: EnsembleNormalizer.normalize, step, normalizeStagewise", "ompy/vector.py: Vector.cut_nan", "ompy/normalizer_nld.py: NormalizerNLD.normalize", "ompy/normalizer_gsf.py: NormalizerGSF.normalize"]}
{"id": "C72", "title": "Samples of parameters are turned into samples of level density and strength function", "statement": "tranform_nld_gsf gives as many rows as wanted; row i has the parameters of the sample numbered order[i] in every column, the level density i transformed with A and alpha of that sample and the strength function i transformed with B and alpha of that sample; N_max bounds the number; both vectors are optional. samples_from_res concatenates the rows of all results, each with the vectors of its own member.", "quantifier": "all tables of samples, all vectors or lists of vectors, all shuffles, all numbers of results", "why_tests_cant": "The shuffle is arbitrary, errors inside the loop are swallowed, and one wrong index mixes parameters of different samples.", "anchors": ["ompy/ensembleNormalizer.py: tranform_nld_gsf", "ompy/ensembleNormalizer.py: EnsembleNormalizer.samples_from_res", "ompy/vector.py: Vector.transform"]}
{"id": "C73", "title": "Vectors of unequal length are put on a common grid without loss", "statement": "samples_unify_E gives all vectors the same ascending energies, from the lowest first to the highest last energy; each vector has its old value at each of its old energies and nan elsewhere; uncertainties follow.", "quantifier": "all lists of vectors with ascending energies, any lengths and values", "why_tests_cant": "Arbitrary overlaps of the energy axes of arbitrarily many vectors.", "anchors": ["ompy/ensembleNormalizer.py: EnsembleNormalizer.samples_unify_E", "ompy/ensembleNormalizer.py: vec_extend"]}
{"id": "C74", "title": "The density of known levels counts the levels of the file", "statement": "load_discrete on an equidistant axis: each bin times the bin width is the number of levels within half a bin of its energy (in MeV, file in keV), the sum times the width is the number of levels on the axis, smoothing keeps the sum and is never negative; every file of level energies can be loaded, and energies that are not in keV are refused.", "quantifier": "all files, all equidistant axes, all resolutions", "why_tests_cant": "Arbitrary level energies on bin edges, radii of the filter beyond the array, files of any shape.", "anchors": ["ompy/filehandling.py: load_discrete", "ompy/normalizer_nld.py: load_levels_discrete, load_levels_smooth"]}
{"id": "C75", "title": "The simultaneous normalisation agrees with the stepwise one and leaves its objects as they were", "statement": "NormalizerSimultan.lnlike is the likelihood of the level density minus half the squared deviation of the width, with the level spacing that belongs to T and Eshift; it does not depend on the points evaluated before; with the other parameters kept it is largest exactly for the B that NormalizerGSF.normalize computes; optimize puts the parameters back; normalize returns the given vectors in MeV transformed with the parameters, with standard deviations exactly if they were given.", "quantifier": "all parameters, all sequences of evaluations, all vectors, all fits of the extrapolations", "why_tests_cant": "The sampling chooses the points; state left behind by a call or an error shows only in later calls; two normalisers have to agree for all inputs.", "anchors": ["ompy/normalizer_simultan.py: NormalizerSimultan.lnlike, optimize, normalize", "ompy/normalizer_gsf.py: NormalizerGSF.lnlike, extrapolate"]}
{"id": "C76", "title": "decompose finds the level density and strength function up to the Oslo transformation", "statement": "If every row of the matrix is proportional to nld(Ex-Eg) T(Eg) up to the diagonal (with resolution and half a bin) and 0 beyond, and the uncertainties are positive where the product is, then decompose with a minimiser that finds the minimum returns gsf = B exp(a Eg) T/(2 pi Eg^3) and nld = A exp(a E) times the true one in every bin that a matrix element constrains, NaN in exactly the other bins, and as product the normalised matrix. The true functions and all their transformations have error 0, no error is negative.", "quantifier": "all axes with a common bin width, all positive level densities and transmission coefficients, all counts per row, all uncertainties, all resolutions, all start values, all perfect minimisers", "why_tests_cant": "The minimiser is numerical and gets stuck; a test compares one fit with a tolerance and cannot say that nothing but the transformation is left free.", "anchors": ["ompy/extractor.py: Extractor.decompose, errfun, constraining_counts, normalize", "ompy/decomposition.pyx: nld_T_product, chisquare_diagonal"]}
{"id": "C77", "title": "trapezoid keeps exactly the trapezoid below the diagonal through its corner", "statement": "trapezoid(Ex_min, Ex_max, Eg_min, Eg_max) cuts both axes to the given windows (limits included) and zeroes exactly the entries above the line of slope one through (Ex_max, Eg_max), which itself is kept; without Eg_max the largest gamma energy with counts in the last kept row is used and a row without counts raises ValueError; doing it twice is doing it once; not in place the matrix is unchanged.", "quantifier": "all matrices with increasing axes, all limits, explicit and automatic", "why_tests_cant": "The tests check one cut of one matrix with Eg_max below Ex_max; the erased border, the ineffective diagonal for Eg_max > Ex_max and the wrong exception need the whole range of limits.", "anchors": ["ompy/matrix.py: Matrix.trapezoid, Matrix.cut", "ompy/extractor.py: constraining_counts"]}
{"id": "C78", "title": "The cuts along a line remove exactly one side of it", "statement": "Matrix.cut_diagonal and the library function cut_diagonal, given the same two points, zero exactly the entries strictly below the line through the closest bins, whatever the order of the points, and refuse a vertical line or a missing point without touching the matrix.", "quantifier": "all matrices, all points, both orders, in place and not", "why_tests_cant": "A test draws one line; the treatment of the entries on the line and of vertical lines depends on the points.", "anchors": ["ompy/matrix.py: Matrix.cut_diagonal, Matrix.line_mask", "ompy/library.py: line, make_mask, cut_diagonal"]}
{"id": "C79", "title": "The start values of the decomposition are finite, admissible and of the right number", "statement": "For every method guess_initial_values returns one finite non-negative value per transmission coefficient (the column sums) followed by one positive value per level-density bin; the Fermi-gas like guess is the Fermi-gas formula times an exponential with equal values at a quarter and at the end of the axis and 1/0.7 in its middle; unknown methods are refused; an explicit argument wins over the attribute; randomised values lie within a factor five.", "quantifier": "all axes, all matrices with non-negative entries, all methods, all random numbers", "why_tests_cant": "A test looks at one axis; the identities of the transformed Fermi gas and the bounds of the random start hold for every axis and every draw.", "anchors": ["ompy/extractor.py: guess_initial_values, x0_BSFG, x0_CT, x0_parabola, decompose"]}
{"id": "C80", "title": "An extraction gives each member its own result, also when it is resumed", "statement": "extract_from stores one result per ensemble member and the files hold exactly the results; a second call loads them unchanged; every member is cut with the same limits and the result of a resumed extraction is that of an uninterrupted one; missing ensemble, cut or path and unknown algorithms are refused.", "quantifier": "all ensembles, cuts, fits, random generators, sets of files already present, interruptions", "why_tests_cant": "The state is spread over the files, the random generator and the keyword of the caller's Action; only particular orders of events were run.", "anchors": ["ompy/extractor.py: extract_from, standard, _extract", "ompy/action.py: Action.curry"]}
{"id": "C81", "title": "The averages over the members describe the numbers bin by bin", "statement": "ensemble_nld and ensemble_gsf give for every bin the mean and the standard deviation of the members that have a number there, NaN exactly if none has, independent of the order of the members; members that do not fit together are refused; check_unconstrained_results reports exactly whether a NaN is present; the diagonal resolution adds both resolutions in quadrature and grows with the energy.", "quantifier": "all members, all patterns of NaN, all axes", "why_tests_cant": "Patterns of NaN over members and bins are unbounded.", "anchors": ["ompy/extractor.py: nld_mean, nld_std, gsf_mean, gsf_std, ensemble_nld, ensemble_gsf, check_unconstrained_results, diagonal_resolution, resolution_Eg"]}
{"id": "C82", "title": "Rebinning an ensemble rebins every member and recomputes its standard deviations", "statement": "Ensemble.rebin to an equidistant axis gives each member, and firstgen, the shares of its old bins along both axes, keeps number and order of the members, conserves the counts of every member if the new axis covers the old ones, and stores the standard deviations of the new members (never more than the shares of the old ones); loading the ensemble afterwards gives the rebinned ensemble; other members than firstgen are refused and a call that raises changes nothing.", "quantifier": "all ensembles over equidistant axes, all equidistant new axes, any number of members", "why_tests_cant": "No test rebins an ensemble; the agreement of members, firstgen, standard deviations and files is an invariant over calls.", "anchors": ["ompy/ensemble.py: Ensemble.rebin, Ensemble.load", "ompy/rebin.py: rebin_2D"]}
{"id": "C83", "title": "An ensemble returns the members it has generated", "statement": "generate collects the raw, unfolded and first-generation matrices of all members in their order, with the bin-by-bin standard deviations, whatever the actions do to the shapes; get_raw, get_unfolded and get_firstgen return the member asked for with its axes and state, the same for a number and for a list of numbers, counted from the end for negative numbers, and refuse numbers outside; the constructor accepts its default arguments.", "quantifier": "all numbers of members, all shapes, all indices and lists of indices", "why_tests_cant": "Tests ask for a few members of one ensemble; shapes after cuts, lists and negative indices are not covered.", "anchors": ["ompy/ensemble.py: Ensemble.__init__, Ensemble.generate, get_raw, get_unfolded, get_firstgen"]}
{"id": "C84", "title": "The perturbation of a matrix is statistically faithful", "statement": "generate_gaussian and generate_poisson keep the shape, leave empty bins empty and give no negative counts; the perturbed bin has mean and variance equal to the number of counts; generate_perturbed takes the matrix of the state asked for, uses the method asked for, refuses unknown states and methods, and re-uses a file only if asked to.", "quantifier": "all matrices, all random numbers; moments with respect to the exact normal and Poisson distributions", "why_tests_cant": "A sampled mean cannot show a bias of less than the sampling error; the moments here are exact for every number of counts.", "anchors": ["ompy/ensemble.py: generate_gaussian, generate_poisson, generate_perturbed, action_from_state, matrix_from_state"]}
{"id": "C85", "title": "== compares vectors and matrices", "statement": "== of two vectors or matrices is an equivalence relation that is true exactly if values, axes, standard deviations and units or state agree (within the tolerance of np.allclose), and false, without an exception, for objects of other shape or class.", "quantifier": "all vectors and matrices, with NaN, of all shapes, with and without std", "why_tests_cant": "Tests compare copies with originals; asymmetry, the absolute tolerance and the exceptions need the whole range of values and shapes.", "anchors": ["ompy/abstractarray.py: AbstractArray.__eq__"]}
{"id": "C86", "title": "States of matrices are names, values and texts of the same thing", "statement": "The setter of Matrix.state takes None, a state or the name of a state in any case and raises ValueError otherwise; two states are equal exactly if they are the same and != is the opposite of ==; the text of a state is accepted as a state.", "quantifier": "all strings, all pairs of states, numbers", "why_tests_cant": "The tests set two states.", "anchors": ["ompy/matrixstate.py: MatrixState", "ompy/matrix.py: Matrix.state"]}
{"id": "C87", "title": "The product @ of matrices and vectors", "statement": "Matrix.__matmul__ gives the matrix product of the values with Ex of the left and Eg of the right factor, accepts every pair whose inner axes agree and refuses the others, recomputes or drops the standard deviations, and raises NotImplementedError for other operands; Vector.__matmul__ gives the scalar product of vectors over the same energies.", "quantifier": "all matrices and vectors of all shapes with all axes", "why_tests_cant": "Tests multiply two square matrices with equal axes; shapes, inner axes and the std attribute are not looked at.", "anchors": ["ompy/matrix.py: Matrix.__matmul__", "ompy/vector.py: Vector.__matmul__"]}
{"id": "C88", "title": "Constructors without values give empty objects, and equidistance is checked", "statement": "ZerosMatrix and Matrix(shape=…) give consistent matrices of zeros of the shape asked for (with a matrix of zeros as std if asked for) and refuse contradicting arguments; Vector(E=…) gives a vector of zeros that can take any value; verify_equdistant accepts an axis exactly if its steps are all equal within the tolerance, for the axis or axes asked for.", "quantifier": "all shapes, axes, energies and flags", "why_tests_cant": "Tests build a few objects; the type of the zeros, axis 'both' and drifting axes are not covered.", "anchors": ["ompy/matrix.py: Matrix.__init__, ZerosMatrix, Matrix.verify_equdistant", "ompy/vector.py: Vector.__init__"]}
{"id": "C89", "title": "Response tables from a directory", "statement": "Response.LoadDir reads the table resp.dat and every spectrum cmp<energy>, gives one row for every table entry on the common axis, with the same result as LoadZip for the same data; missing files and files without calibration are refused; the constructor chooses the reader from the path.", "quantifier": "all tables, all spectra of all lengths, all file contents as lists of lines", "why_tests_cant": "The one response in the tests is a zip file; LoadDir is never compared with LoadZip.", "anchors": ["ompy/response.py: Response.__init__, Response.LoadDir"]}
{"id": "C90", "title": "Interpolation of matrices to a new axis", "statement": "interpolate_matrix_1D and interpolate_matrix_2D give back the matrix on its own axes, interpolate linearly between neighbouring bins, give 0 outside the old axes, and refuse matrices whose shape does not fit.", "quantifier": "all matrices over ascending axes, all new axes", "why_tests_cant": "No test calls the functions.", "anchors": ["ompy/library.py: interpolate_matrix_1D, interpolate_matrix_2D"]}
{"id": "C91", "title": "Percentiles of the samples", "statement": "stats_from_df and plot_vector_stats give for every energy the lower percentile, the median and the upper percentile of the samples in that bin, in this order and between smallest and largest sample, independent of the order of the samples, of NaN among them and of units; half the samples lie on each side of the median and the stated fraction between the percentiles; bins without numbers are NaN; vectors of different lengths and fractions outside [0, 1] are refused; plot returns the figure it has plotted on.", "quantifier": "all lists of samples with NaN of any length, all fractions", "why_tests_cant": "No test looks at the statistics; coverage and order are statements about all samples.", "anchors": ["ompy/ensembleNormalizer.py: EnsembleNormalizer.stats_from_df, plot_vector_stats, plot"]}
{"id": "C92", "title": "Results saved as text can be read back", "statement": "save_results_txt writes, for every member of the ensemble, level density, strength function and samples to files of their own, which can be loaded again; files of other members and other suffixes are not touched; parameters with different numbers of samples are refused before anything is written.", "quantifier": "all numbers of members, all vectors, samples, directories and suffixes, all contents of the disk", "why_tests_cant": "No test saves as text; clashes of names and what is left after an exception need arbitrary suffixes and disks.", "anchors": ["ompy/abstract_normalizer.py: AbstractNormalizer.save_results_txt", "ompy/ensembleNormalizer.py: EnsembleNormalizer.save_results_txt"]}
{"id": "C93", "title": "What the fits report", "statement": "optimize reports each parameter of the cube under its own name as median and half the one-sigma interval, prints both with enough decimals that rounding changes them by at most 5 % of the uncertainty and never prints an uncertainty of 0; the path of the sampling is checked for all members; initial_guess warns about exactly the parameters on their bounds; the uncertainty of the level density at Sn is that of the resonance spacing.", "quantifier": "all marginals, guesses, bounds, roundings to nearest, directories, member numbers, spacings and spin distributions", "why_tests_cant": "No test runs the sampling; digits, order of the keys and lengths of paths need arbitrary values.", "anchors": ["ompy/normalizer_nld.py: NormalizerNLD.initial_guess, optimize", "ompy/normalizer_simultan.py: NormalizerSimultan.initial_guess, optimize"]}
{"id": "C94", "title": "Finv inverts the cumulative normal distribution", "statement": "For every probability in [0, 1] the loop of Finv ends without dividing by zero with a number whose cumulative probability is the one asked for up to 0.001, so that uniform draws become normally distributed numbers up to 0.001 in probability.", "quantifier": "all arguments, any number of turns of the loop", "why_tests_cant": "Termination for all arguments of a secant iteration whose end points are exchanged; a test can only try some.", "anchors": ["ompy/rhosigchi.cpp: Finv"]}
{"id": "C95", "title": "Start values and uncertainties of rhosigchi", "statement": "The start values of the transmission coefficient are the sums of the spectra within the limits; spectra are perturbed by random numbers times their uncertainties and never negative; the uncertainties are the root mean square deviations of the results from that of the spectra, zero for spectra without uncertainty; the same call gives the same result; values and energies of the vectors returned have one length.", "quantifier": "all spectra, limits, uncertainties, generators, numbers of draws, and whatever the iteration does", "why_tests_cant": "No test looks at the uncertainties of rhosigchi; the statements are over all draws.", "anchors": ["ompy/pyrhosigchi.py: pyrhosigchi, normalize_array"]}
{"id": "C96", "title": "Extrapolations of the ensemble are those of its samples", "statement": "In plot_gsf_ext_helper and plot_nld_ext_helper each extrapolation model is treated as its method asks, the numbers of a sample do not depend on the other samples, and the band at an energy is median and percentiles of the numbers of the samples there.", "quantifier": "all samples, models, fit functions, energies and percentiles", "why_tests_cant": "The models are shared by all samples and changed by each; the order in which samples come is random, and no test looks at it.", "anchors": ["ompy/ensembleNormalizer.py: plot_nld_ext_helper, plot_gsf_ext_helper", "ompy/normalizer_gsf.py: NormalizerGSF.extrapolate", "ompy/models.py: ExtrapolationModelLow.fit"]}
{"id": "C97", "title": "What is drawn belongs to the bins", "statement": "plot leaves the matrix unchanged, draws one more edge than bins, shows at a position the value of the bin that contains it, refuses bad arguments; ticks are middles of bins in ascending order, not more than asked; the drawing with characters leaves blank exactly the zeros, and its shades never decrease with the counts.", "quantifier": "all matrices, axes, positions and limits of what is shown", "why_tests_cant": "Drawings are not tested; the statements are over all axes and positions.", "anchors": ["ompy/matrix.py: Matrix.plot, MeshLocator.tick_values", "ompy/matrix.py: Matrix.ascii_plot"]}
{"id": "C98", "title": "Numbers in text files keep their digits", "statement": "A number printed as %.pE or %.pe is read back with a relative error of at most half a unit of its last digit; zero and sign are kept, order is kept, printing again changes nothing, 18 digits tell apart any two doubles, and the text contains no blank, comma, line end or hash sign.", "quantifier": "all rational numbers, all precisions, any padding with blanks", "why_tests_cant": "The files written by the tests hold a few numbers; carries such as 9.9999999E+00 and the choice of the exponent concern all numbers.", "anchors": ["ompy/filehandling.py: mama_write1D, mama_write2D", "ompy/filehandling.py: mama_read", "ompy/filehandling.py: save_txt_1D, load_txt_1D"]}
{"id": "C99", "title": "Text of MAMA files and tables", "statement": "The text written by mama_write1D and mama_write2D is read by mama_read, character by character, as the counts rounded to 9 digits and the axes of the calibration rounded to 7 digits; saving what was read gives the same text; tables of np.savetxt are read by np.loadtxt with 19 digits whatever the header.", "quantifier": "all spectra, matrices, comments and dates of one line, headers", "why_tests_cant": "No test writes a comment or a header of its own; the statement is over all texts.", "anchors": ["ompy/filehandling.py: mama_write1D, mama_write2D, mama_read", "ompy/filehandling.py: save_txt_1D, save_txt_2D, load_txt_1D, load_txt_2D"]}
{"id": "C100", "title": "Counting longer only scales", "statement": "If all counts of the raw matrix are multiplied by c > 0, then Unfolder.apply selects the same iterations and its result is multiplied by c, FirstGeneration.apply multiplies its result by c, normalize gives the same probabilities and uncertainties, and the probabilities of decay of the whole chain stay the same.", "quantifier": "all raw matrices, responses, valley corrections, parameters, factors c > 0 and smoothings that multiply with their argument", "why_tests_cant": "No test compares two runs; that a result is independent of the measuring time is a relation between pairs of runs for all inputs and factors.", "anchors": ["ompy/unfolder.py: Unfolder.apply, score, chi_square, fluctuations, compton_subtraction", "ompy/firstgeneration.py: FirstGeneration.apply, step", "ompy/extractor.py: normalize"]}
{"id": "C101", "title": "First generation method undoes exact cascades", "statement": "Let M = allgen_from_primary(F) for primary spectra F of cascades between the bins of one axis starting at 0. Then the gammas of M from every bin carry its excitation energy times its population, the total multiplicity gives exactly the populations, F is a fixed point of every pass of the loop in FirstGeneration.apply (damped or not), every non-negative fixed point of an undamped pass has, in each row that is not empty, the area of F, and if all bins decay straight to the ground state then apply(M) = F.", "quantifier": "all bin widths, numbers of bins, primary matrices with gammas of the bins 1..i in row i and all rows but the lowest populated, numbers of iterations", "why_tests_cant": "The tests run apply on one measured matrix whose primary spectra are unknown, and allgen_from_primary is never fed back; that the two functions belong together is a statement about all cascades.", "anchors": ["ompy/firstgeneration.py: FirstGeneration.apply, step, multiplicity_total, multiplicity_normalization", "ompy/firstgeneration.py: allgen_from_primary"]}
{"id": "C102", "title": "Random numbers of the global generator", "statement": "The samples of B drawn in EnsembleNormalizer are as many as the samples of A and equal to B if its uncertainty is 0; a negative uncertainty raises ValueError; the numbers used for different members are different parts of one random sequence, do not depend on the distribution of members over processes, and making an Extractor does not disturb the random numbers of the rest of the program.", "quantifier": "all generators and states, all lists of members, all distributions of the members over processes", "why_tests_cant": "A test looks at one run with one number of processes; that the samples of two members are the same deviates is invisible unless one compares members across processes.", "anchors": ["ompy/ensembleNormalizer.py: EnsembleNormalizer.normalize, normalizeStagewise (199-205)", "ompy/extractor.py: Extractor.__init__ (94-95), standard (180)"]}
{"id": "C103", "title": "The unfolder treats the excitation bins one by one", "statement": "Unfolder.apply on any selection of the rows of a raw matrix (some of them, reordered or repeated) gives that selection of the rows of the unfolded matrix, with the same iteration selected for each row; a matrix can be unfolded exactly if each of its rows can; cutting a range of excitation energies before or after unfolding is the same.", "quantifier": "all raw matrices, responses, settings (with and without Compton subtraction), smoothing functions, selections of rows and limits of the cut", "why_tests_cant": "A test compares one cut of one matrix; scores, iteration selection, smoothing and Compton subtraction are all written for whole arrays, and an error along the wrong axis can stay invisible on a square example.", "anchors": ["ompy/unfolder.py: Unfolder.apply, step, chi_square, fluctuations, score, compton_subtraction", "ompy/matrix.py: Matrix.cut"]}
{"id": "C104", "title": "The gauge of the extraction drops out of the normalisation", "statement": "The extraction determines level density and strength function only up to factors a exp(c E) and b exp(c E). For a pair multiplied with such factors the likelihood of the level density normalisation and that of the simultaneous normalisation are the same functions of the parameters, displaced to A/a, alpha - c, B/b; the best parameters give the same normalised level density; the stepwise normalisation of the strength function (extrapolations fitted) returns B/b and the same normalised strength function and extrapolations; standard deviations of 30 percent made up for data without them go along.", "quantifier": "all extracted vectors, factors a, b, slopes c, parameters, models, level data, spin cut-off models, and all fits that return the same slope and a shifted constant for scaled data", "why_tests_cant": "The tests normalise one extraction result; that the result does not depend on where the extraction started in its family of equal solutions is a statement about all members of the family.", "anchors": ["ompy/normalizer_nld.py: NormalizerNLD.lnlike", "ompy/normalizer_gsf.py: NormalizerGSF.normalize", "ompy/normalizer_simultan.py: NormalizerSimultan.lnlike, optimize, normalize", "ompy/vector.py: Vector.transform"]}
{"id": "C105", "title": "The life of an ensemble normalisation on disk", "statement": "A normalisation that was carried out and saved is what a later normaliser for the same directory returns unless it is told to calculate again; a run that fails, or is told not to save, leaves the disk as it was; only the directory of the normaliser is written; with `regenerate` nothing on the disk has an influence.", "quantifier": "all extractors, normalisers, outcomes of the loop over the members, contents of the disk and sequences of programs", "why_tests_cant": "The tests never run a second program on the directory of a first one; the statement is about all sequences of programs and all contents of the disk.", "anchors": ["ompy/ensembleNormalizer.py: EnsembleNormalizer.__init__, normalize", "ompy/abstract_normalizer.py: AbstractNormalizer.save, load", "ompy/extractor.py: Extractor.__init__, __getstate__, extract_from"]}
{"id": "C106", "title": "The unit of energy does not matter", "statement": "Rebinning, the searches for a bin, cuts of matrices and vectors, projections, line masks and filling give the same counts and the same bins when the energies are given in another unit or with another origin, each axis by itself. The first generation method, the trapezoid, the counts that constrain the extraction and its axis of final energies give the same result in another unit when their energy limits are given in that unit.", "quantifier": "all matrices, vectors, axes (also unsorted and empty ones, with the same exceptions), limits, positive factors and displacements", "why_tests_cant": "The tests use keV (or unit bins) only; a comparison with a hard-coded energy would not be noticed.", "anchors": ["ompy/rebin.pyx: rebin_1D, rebin_2D", "ompy/decomposition.pyx: index", "ompy/library.py: i_from_E", "ompy/matrix.py: Matrix.cut, projection, line_mask, fill, rebin, trapezoid", "ompy/vector.py: Vector.cut", "ompy/firstgeneration.py: FirstGeneration.apply", "ompy/extractor.py: Extractor.constraining_counts, decompose", "ompy/response.py: Response.discrete_peaks"]}
{"id": "C107", "title": "Small helpers", "statement": "iter visits every cell of a matrix once, row by row, so that adding up cell by cell gives the counts. indices_Eg and indices_Ex give each energy a closest bin. Both ways of cut_like give the same values and axes. shift_matrix by whole bins moves each row. Each listed example has raw data whatever the case of its name, and the mock matrix has min(i, columns) ones in its odd rows i. gettype prints names without their modules. What the setter of multiplicity_estimation accepts the dispatch can do. Finding out the version leaves the working directory as it was.", "quantifier": "all shapes, axes, matrices, names, signatures, environments", "why_tests_cant": "These helpers are hardly tested; two of them (example_response, read_response) fail for every input, which no test has noticed.", "anchors": ["ompy/matrix.py: Matrix.iter, indices_Eg, indices_Ex, cut_like", "ompy/unfolder.py: shift_matrix", "ompy/examples.py: list_examples, example_raw, example_response, disjoint_rows", "ompy/filehandling.py: read_response", "ompy/models.py: gettype", "ompy/firstgeneration.py: FirstGeneration.multiplicity, multiplicity_estimation", "ompy/version.py: git_version, get_version_info"]}
{"id": "C108", "title": "What the plots show", "statement": "A plot of a vector draws every bin once at its energy; a plotted projection is over the axis asked for and adds up to the counts. The colour limits for the standard deviations enclose all of them, and limits that are given are used. Every extracted vector is drawn once, with opacities that add up to one. The plot of a level density leaves earlier lines alone and its legend names data, known levels, level density at Sn and model; a selection shows the samples that were chosen, each thing named once, and with n_plot=0 only what does not depend on a sample. Numbers written into a picture are at the place of their cell.", "quantifier": "all vectors, matrices, limits, lists of samples, numbers of samples, selections", "why_tests_cant": "Nothing of the plots is tested, and a test would have to look at pictures.", "anchors": ["ompy/vector.py: Vector.plot", "ompy/matrix.py: Matrix.plot_projection", "ompy/ensemble.py: Ensemble.plot", "ompy/extractor.py: Extractor.plot", "ompy/normalizer_nld.py: NormalizerNLD.plot", "ompy/normalizer_gsf.py: NormalizerGSF.plot_interactive", "ompy/ensembleNormalizer.py: EnsembleNormalizer.plot_selection", "ompy/library.py: annotate_heatmap"]}
{"id": "C109", "title": "Loggers and the plotting hook", "statement": "Asking for a logger gives it exactly one handler of the level asked for and changes no other logger. The list of available loggers has the modules of the package, in order, and each listed name leads back to its logger; each message of a logger that was asked for is written once. The hook that plots results returns what the function returns, draws every returned matrix, vector and array once, with the names of the returned variables as titles, and numbers the calls from 0.", "quantifier": "all registries of loggers, names, levels, return lines, returned values, sequences of calls", "why_tests_cant": "Nothing of this is tested; loggers of other packages, names of scripts, and functions with other return statements are not in any test.", "anchors": ["ompy/introspection/logging.py: get_logger, available_loggers", "ompy/introspection/hooks.py: plot_hook, return_var_names"]}
{"id": "C110", "title": "Compiled code stays inside its arrays", "statement": "The functions of decomposition.pyx, whose tests of indices are switched off, read only inside of the arrays they are given: index and _index for every array that has an element; nld_T_product exactly if there are two gamma energies, a resolution for every excitation energy, and a level density and a transmission coefficient for every bin the loop reaches; chisquare and chisquare_diagonal exactly if the bins they visit are in the blocks of the three matrices. Every call that decompose makes is of this kind. rebin_1D raises IndexError exactly if a count that is needed is missing. When all accesses are inside, the results are those of the models of the other properties.", "quantifier": "all arrays of all sizes, energies in any order, all values in a field", "why_tests_cant": "A read outside of an array gives some number or a crash depending on what lies next to it in memory; a test only sees one layout of memory, and the tests use arrays of matching sizes only.", "anchors": ["ompy/decomposition.pyx: index, _index, nld_T_product, chisquare, chisquare_diagonal", "ompy/rebin.pyx: rebin_1D", "ompy/rhosigchi.cpp: Array", "ompy/extractor.py: decompose"]}
{"id": "C111", "title": "Extraction with rounded energies", "statement": "With doubles (or any rounding that keeps the order and has a small relative error) for every operation on the energies, decompose builds the axis of the level density, and nld_T_product and constraining_counts choose bins and entries, as in exact arithmetic: calibrations in whole numbers give exactly the axis of exact arithmetic; the number of bins is the right one or one more; given the right number every bin is near its place and every entry of the product is taken from the bin of exact arithmetic; the index search returns a bin at the smallest rounded distance and finds elements of the axis.", "quantifier": "all grids of excitation and gamma energies of any size, all errors of the axes below a stated fraction of the bin width, all roundings with the two properties, all energies", "why_tests_cant": "Rounding errors depend on the last digits of the calibration: whether a quotient lies just above a whole number differs from one start energy to the next, and the tests use a few calibrations in keV.", "anchors": ["ompy/extractor.py: decompose, constraining_counts", "ompy/decomposition.pyx: nld_T_product, _index, chisquare_diagonal"]}
{"id": "C112", "title": "Rebinning with rounded numbers", "statement": "With doubles (or any rounding that keeps the order and has a relative error of at most u) after every operation, and mid-points that are off by at most delta, rebin_1D puts into every output bin its geometric share up to an explicit error, (4*(4N+12)(delta+uR)/w + (4N+5)u) times the sum of the absolute contents; counts are conserved up to that error if the output covers the input; non-negative contents stay non-negative; axes and contents in whole numbers that are shared out in whole numbers give exactly the result of exact arithmetic; only the first two mid-points of an axis are used.", "quantifier": "all contents, all pairs of axes of any size with bins wider than the accumulated error, all errors of the mid-points, all roundings with the two properties (doubles among them)", "why_tests_cant": "The window of the inner loop, the overlaps and the sum depend on rounding errors that differ for every calibration; a window that is off by one bin shows only for calibrations where a quotient is next to a whole number.", "anchors": ["ompy/rebin.pyx:12-36", "ompy/rebin.pyx:42-92"]}
{"id": "C113", "title": "Model parameters on disk, as dictionary and as text", "statement": "Saving a model object and loading it into any object of the same class gives that object every parameter of the saved one, leaves everything that is not a parameter as it was and touches no other file; a missing or unreadable file changes nothing; asdict returns every field and every property with its value; the text of an object has one line for every field except the name, with the property in place of a field that starts with an underscore.", "quantifier": "all classes of models.py, all keyword arguments of the constructor, all sequences of later assignments, all contents of the disk, all behaviours of pickle on values of foreign types", "why_tests_cant": "The tests save and load one object with a few parameters; failing dumps, files of another class, objects with unset fields and the extrapolation models are never tried.", "anchors": ["ompy/models.py:64-98", "ompy/models.py:113-131", "ompy/models.py:297-298", "ompy/models.py:352-353"]}
{"id": "C114", "title": "The axes of rhosigchi with rounded numbers", "statement": "In floating point rhosigchi continues the axis of the matrix to lower energies by whole bins: every bin of both axes lies within the accumulated error of the exact continuation, the spectra and the uncertainties get the same number of bins, and the limits of the fit are bins closest to the energies asked for.", "quantifier": "all monotone roundings with a relative error up to 1/100, all nearly equidistant axes, all extensions and all energies for which the accumulated error stays below the bin width; double precision for the whole-number and failing cases", "why_tests_cant": "The tests of the repository call rhosigchi with one calibration in whole keV; whether np.arange gives one bin more depends on the last bits of the calibration.", "anchors": ["ompy/pyrhosigchi.py:294-319", "ompy/pyrhosigchi.py:340-347"]}
{"id": "C115", "title": "Cuts with rounded numbers", "statement": "Rounding does not change where matrices are cut: in floating point Matrix.cut keeps the same bins as in exact arithmetic, Vector.cut cuts at bins that are closest to the limits up to rounding, and the trapezoidal cut differs from the exact one at most within rounding of the diagonal; in whole numbers it is the exact one.", "quantifier": "all monotone roundings with a relative error up to 1/100, all increasing axes, all finite limits from which the axis is resolved and infinite upper limits; double precision for whole numbers and failing cases", "why_tests_cant": "Whether an entry on the diagonal is kept depends on the last bits of two energies and two limits; tests use a few matrices in keV where nothing is rounded, and no infinite limits.", "anchors": ["ompy/matrix.py:484-553", "ompy/matrix.py:641-689", "ompy/vector.py:335-367", "ompy/decomposition.pyx:119-142"]}
{"id": "C116", "title": "Rebinning by a factor, with rounded numbers", "statement": "In floating point rebin(factor=f) gives int(n/f) bins from the first to the last old energy, each within rounding of its place, and a factor of at least one conserves the counts up to rounding; what cannot be rebinned raises an exception and leaves the vector as it was.", "quantifier": "all monotone roundings with a relative error up to 1/100, all nearly equidistant axes, all counts and all positive factors; double precision for whole factors and failing cases", "why_tests_cant": "The tests rebin with two or three factors; whether a bin is lost depends on the last bit of the quotient of the number of bins and the factor.", "anchors": ["ompy/vector.py:390-428", "ompy/matrix.py:712-738"]}
{"id": "C117", "title": "Sums, normalised rows and chi-square with rounded numbers", "statement": "In floating point and for any order of summation, a sum of non-negative numbers has a small relative error and is zero only if all numbers are; normalising the rows of a non-negative matrix fails for exactly the rows of zeros, keeps signs and order and gives rows that add up to one within rounding; the product of level density and transmission coefficient keeps a small relative error in every bin; chi-square is never negative, is zero exactly for equal matrices and has a small relative error.", "quantifier": "all monotone roundings with a relative error below one, all orders of summation (numpy's pairwise order as an instance), all matrices; double precision for failing cases", "why_tests_cant": "The tests compare a few matrices with a tolerance; the order in which numpy adds depends on the length of the row, and the bound concerns every length and every magnitude.", "anchors": ["ompy/decomposition.pyx:17-76", "ompy/decomposition.pyx:145-221", "ompy/firstgeneration.py:382-384"]}
{"id": "C118", "title": "The Oslo method gives the true level density and strength function if its fits do", "statement": "If the rows of the first generation matrix are proportional to the product of a level density and transmission coefficients, the known levels, the constant temperature region and the level density at the separation energy agree with this level density, the minimiser finds a minimum and the fit of the normalisation finds the least squares, then extraction followed by removal of NaN, conversion to MeV and stepwise normalisation gives the true level density in every constrained bin, the true temperature and shift, and the normalised true strength function. It does not depend on start values, minimiser, row scales or uncertainties.", "quantifier": "all regular matrices of the product form of any size, all gauges, all minimisers that find a minimum, all least squares fits, all strength function fits that follow a scale", "why_tests_cant": "A test runs one matrix through minimisers that stop near the minimum; that no gauge, start value or row scale survives the whole chain concerns all of them.", "anchors": ["ompy/extractor.py:310-429", "ompy/ensembleNormalizer.py:137-205", "ompy/normalizer_nld.py:144-235", "ompy/normalizer_gsf.py:122-222"]}
{"id": "C119", "title": "The likelihood of the normalisation is largest below the truth", "statement": "For data that some parameters reproduce exactly, all with the relative uncertainty r, the likelihood of NormalizerNLD is largest, and only there, for the true slope and the true constant times 2/(1+sqrt(1+2 r^2)) (temperature and shift fixed). For no data and no uncertainties are the exact parameters the most likely ones; with the made up uncertainties of 30 % the level density from a perfect matrix comes out as about 0.959 times the true one in every bin.", "quantifier": "all data that are reproduced exactly by some parameters, all uncertainties, all constants and slopes", "why_tests_cant": "The shift of 4 % is hidden below the statistical uncertainty of any test of the sampler; the theorem gives its size for all data.", "anchors": ["ompy/normalizer_nld.py:484-522", "ompy/normalizer_nld.py:197-231"]}
{"id": "C120", "title": "The plots of the normalisers show data, extrapolations and fit ranges once each", "statement": "NormalizerGSF.plot draws the points, a line of 50 points of the normalised lower extrapolation from its lowest energy to the end of the lower fit range, one of the upper extrapolation from the beginning of the upper fit range to the separation energy, and the two fit ranges; every keyword argument that the method does not give itself reaches the points and both lines. Legends contain every label once. Keyword arguments given twice are refused before, or while, drawing.", "quantifier": "all strength functions, models, fit ranges, keyword arguments and drawing libraries", "why_tests_cant": "Tests of plots compare no pictures; which of all keyword arguments are refused, and after which call, is a statement about all dictionaries.", "anchors": ["ompy/normalizer_gsf.py:443-508", "ompy/normalizer_nld.py:402-482", "ompy/normalizer_simultan.py:385-419"]}
{"id": "C121", "title": "Units of energy with rounded numbers", "statement": "With double precision, `to_MeV` and `to_keV` change an energy by at most two roundings on the way there and back and keep the order of the axis. Whole keV energies need not survive (1001 keV come back smaller), multiples of 125 keV do. Conversions never drift: whatever their number, the energies are the first ones, those after the first conversion or those after the second. Since the `discrete` setter compares energies exactly, levels that went through MeV and a file are refused for the axis they were made on.", "quantifier": "for all vectors whose energies are doubles, all histories of conversions; for all roundings that keep order and have relative error u (distance bound)", "why_tests_cant": "the statement is about every double and every history of conversions; which energies survive depends on single bits and a test sees a handful of axes", "anchors": ["ompy/vector.py:430-448", "ompy/vector.py:183-191", "ompy/normalizer_nld.py:647-651"]}
{"id": "C122", "title": "The transformation of level density and strength function with rounded numbers", "statement": "With rounding after every operation and a computed exponential function of relative error ue, `Vector.transform` gives const*value*exp(alpha*E) up to the factor (1+u)^2 (1+ue) exp(u|alpha E|), keeps relative uncertainties up to two roundings, keeps signs and empty bins, and any number of transformations multiplies these factors. Exactly, the defaults keep the values but not the uncertainties, and inverse constants do not give the values back.", "quantifier": "for all vectors, all histories of transformations, all roundings keeping order with relative error u and all exponential functions of relative error ue", "why_tests_cant": "an error bound for all inputs and all histories; tests compare single vectors with a tolerance", "anchors": ["ompy/vector.py:264-297"]}
{"id": "C123", "title": "The iteration of the unfolding with rounded numbers", "statement": "With rounding after every operation and dot products added in any order, the computed unfolded spectrum stays near the spectrum that folds to the raw one: for a triangular response with full-energy probability of at least p the distance of every bin shrinks by at least (1-p^2) per pass (weights p^-j) up to a limit given by the rounding errors of one pass, for any number of passes. The rounding errors of the total counts do not add up over the passes. Exactly, counts are not conserved in double precision. Without rounding the iteration converges geometrically with the same rate.", "quantifier": "for all spectra, triangular responses, numbers of passes, roundings with relative error u and dot products with relative error g", "why_tests_cant": "a bound for all responses and any number of iterations; tests unfold one matrix and compare with stored numbers", "anchors": ["ompy/unfolder.py:145-160", "ompy/unfolder.py:189-213"]}
{"id": "C124", "title": "The first generation method with rounded numbers", "statement": "With a rounding after every operation and sums in any order, the weights of every iteration stay strictly lower triangular and not negative exactly and their rows sum to one up to D(n)+1 roundings; the lowest row of every iterate equals the input to the last bit; rows up to i depend on rows up to i of the input only; the assertion on multiplicities never fails; the multiplicity normalisation is the exact one up to 6D+9 roundings; a step from the same state subtracts the exact amount up to a fixed number of roundings. Over two iterations the result need not be near the exact one, and a bin exactly at the sliding threshold may count as below it.", "quantifier": "for all matrices, parameters, valley corrections, numbers of iterations, roundings with relative error u, orders of additions and dot products", "why_tests_cant": "bounds for all matrices and any number of iterations; tests compare one first generation matrix with stored numbers within a tolerance", "anchors": ["ompy/firstgeneration.py:97-161", "ompy/firstgeneration.py:163-276", "ompy/firstgeneration.py:382-384"]}
{"id": "C125", "title": "Standard deviations over the ensemble with rounded numbers", "statement": "The computed mean over the members is off by at most (1+u)^(D(n)+1)-1 times the mean size; the computed variance is the exact one plus the square of that error, up to D(n)+4 roundings; in double precision and for at most 1000 members its relative error is below 2e-13 apart from 2e-18 of the squared mean size. A bin with computed standard deviation zero has the same value in all members. Equal values that are whole multiples k of a power of two with n|k| <= 2^53, such as counts, get standard deviation zero.", "quantifier": "for all non-empty lists of values, roundings with relative error u, orders of additions and rounded square roots", "why_tests_cant": "a bound for all ensembles and orders of additions; tests compare the standard deviation of one small ensemble with np.std itself", "anchors": ["ompy/ensemble.py:209-220", "ompy/ensemble.py:410", "ompy/extractor.py:673-683", "ompy/decomposition.pyx:188-210"]}
{"id": "C126", "title": "Gaussian smoothing with rounded numbers", "statement": "On an axis of representable energies whose bins are equal up to an eighth of a bin, and with bin widths that are resolved (u(R+2) <= 1/1000 for energies up to R bins), the truncation window computed in floating point always contains the bin itself, contains every bin nearer than truncate standard deviations less 1/4 bin and none farther than that plus 5/4 bins. Hence the smoothing never divides by zero, returns no negative value, every bin is what exact arithmetic makes of the same distributions up to D(n)+n+2 roundings, and so is the total, compared with the sum of the positive counts.", "quantifier": "for all spectra, widths, truncations, roundings with relative error u, orders of additions and computed bell functions", "why_tests_cant": "a statement about all axes, widths and roundings; the truncation of indices jumps at whole numbers, which a few test spectra do not hit", "anchors": ["ompy/gauss_smoothing.pyx:52-118"]}
{"id": "C127", "title": "Cuts along a line with rounded numbers", "statement": "For matrices of up to N bins per axis with 12uN^3 < 1 (90000 bins in double precision) the cut along the line through two bins keeps every entry above the line and zeroes every entry below, both in Matrix.cut_diagonal and in the library function, and changes nothing else. If the slope in bins is a multiple of 2^-k with 3N^2 2^k <= 2^53, for example one, the entries on the line are treated as with exact arithmetic, too. i_from_E finds a bin that is closest up to two roundings.", "quantifier": "for all matrices, pairs of points and roundings with relative error u", "why_tests_cant": "a statement about all lines and bins; whether rounding moves a bin across the line shows only for special pairs of indices", "anchors": ["ompy/matrix.py:576-639", "ompy/library.py:26-48", "ompy/library.py:218-235"]}
{"id": "C128", "title": "Calibrations, bin edges and limits with rounded numbers", "statement": "E_array_from_calibration gives N energies a0 + a1 i up to seven roundings of |a0| + |a1|(N-1), the first one exactly, and all of them exactly for whole multiples of a power of two; with E_max the last energy is the closest to E_max up to a fiftieth of a bin, so E[-1] >= E_max - a1. Matrix.plot, which moves the axes down by half a bin and up again, changes an energy by at most ten roundings of the largest one and nothing else, and nothing at all for even multiples of a power of two. find_limits selects all bins that lie inside the asked energies by a hundredth of a bin and none that lies outside by as much; for whole multiples of a power of two exactly the bins between the energies, both included.", "quantifier": "for all calibrations, matrices, limits and roundings with relative error u", "why_tests_cant": "a statement about all calibrations; lost bins at a limit appear for special combinations of gain and limit only", "anchors": ["ompy/library.py:51-78", "ompy/matrix.py:317-324", "ompy/matrix.py:851-863", "ompy/pyrhosigchi.py:8-31"]}
{"id": "C129", "title": "Arrays handed to the C++ iteration", "statement": "iterate works on the memory of the numpy arrays handed in if these are of the C++ type and in C order, and on converted copies otherwise. It sees their elements, changes no memory in use except that of rho and sig, and leaves the results there in the way pyrhosigchi calls it (doubles from np.zeros, limits below 2^31). Arrays with more than three axes and arrays that are shared and read-only are refused without changing anything. In arrays with two axes every element has its own cell and every cell an element.", "quantifier": "for all memories, arrays of any type, order and shape, and all iterations", "why_tests_cant": "a statement about all memory that is not written; lost results show only for types and orders that tests do not use", "anchors": ["ompy/rhosigchi.cpp:13-98", "ompy/rhosigchi.cpp:282-292", "ompy/pyrhosigchi.py:327-334"]}
{"id": "C130", "title": "What many members say about a bin", "statement": "With more and more independent members the average over the members of a bin tends almost surely to the expected counts of a member and the reported standard deviation to that of a member; for Poisson perturbations these are the counts v of the bin and sqrt(v). The average over any number of members is right on average. Subtracting a perturbed background gives the difference of the counts on average, with variance p + ratio^2 b, before negative counts are removed, and removing them does not increase the mean squared distance from a nonnegative difference.", "quantifier": "for all probability spaces, all independent identically distributed square integrable members, all numbers of members, all counts and all ratios", "why_tests_cant": "limits over infinitely many members and averages over all seeds cannot be reached by runs with fixed seeds", "anchors": ["ompy/ensemble.py:207-221", "ompy/ensemble.py:305-325", "ompy/ensemble.py:419-450", "ompy/matrix.py:780-782"]}
{"id": "C131", "title": "The noise of the unfolding", "statement": "Iteration k of the unfolding multiplies the raw spectrum with the sum of the powers of 1 - R up to k; if R has the inverse S this is S - (1 - R)^(k+1) S. For members with independent Poisson counts the average of iteration k is iteration k of the raw matrix, bins of one row have the covariance of this sum applied to counting statistics and bins of different rows none. For responses without counts above the full energy the variance of a bin is at least that of its raw counts, times the square of the geometric series of 1 - p with p the full-energy probability. The total of a row keeps its variance if the rows of R sum to 1. With more and more members the average and the standard deviation over the members tend to these values almost surely.", "quantifier": "for all raw matrices with nonnegative counts, all responses, iterations and bins, all probability spaces with independent members", "why_tests_cant": "expectations, variances and limits over infinitely many members; the number of iterations and the response are arbitrary", "anchors": ["ompy/unfolder.py:149-155", "ompy/unfolder.py:189-213", "ompy/unfolder.py:186", "ompy/ensemble.py:437-450", "ompy/ensemble.py:214-217"]}
{"id": "C132", "title": "The chi-square to expect", "statement": "For data with finite variances the average of the diagonal chi-square of a fit is the sum over the counted bins (below the diagonal, with an uncertainty) of variance plus squared distance between fit and average data, in units of the uncertainty squared. If the uncertainties are right, the truth has the number of counted bins as its average chi-square, and every fit that differs from it in a counted bin has a larger one. Over the members of an ensemble the chi-square with their average and their standard deviations averages to exactly the number of counted bins. For Poisson counts the truth has one per bin for the measured spectrum and two per bin for a member drawn about the measured spectrum. The variances of normalised rows are the variances of the first-order change of the normalised bins under uncorrelated fluctuations.", "quantifier": "for all probability spaces and data with finite variances, all fits, uncertainties, axes with rising gamma energies, all members, all rows with a total other than zero", "why_tests_cant": "averages over probability spaces and a comparison with all fits", "anchors": ["ompy/decomposition.pyx:148-182", "ompy/extractor.py:390-401", "ompy/extractor.py:707-732", "ompy/ensemble.py:209-220", "ompy/ensemble.py:437-450"]}
{"id": "C133", "title": "Shares and averages of counts", "statement": "For independent Poisson counts a normalised bin is on average its true share times the probability that the row has counts, and so is the average gamma energy of the row. The mean square deviation of a normalised bin from its true share over rows with counts lies between the variance that normalize gives for counting statistics, times the square of that probability, and the same variance times 1 + 3/T, T being the true number of counts in the row. The multiplicities Ex / average energy are at least the true ones times that probability, and larger if a bin with counts is not at the average energy; the same holds for the statistical multiplicity above its threshold.", "quantifier": "for all probability spaces with independent Poisson counts of any averages, all numbers of bins, positive gamma energies, excitation energies and parameters of the threshold", "why_tests_cant": "averages over infinitely many outcomes of the random numbers", "anchors": ["ompy/firstgeneration.py:382-384", "ompy/firstgeneration.py:201-261", "ompy/extractor.py:707-732", "ompy/ensemble.py:437-450"]}
{"id": "C134", "title": "Bands of many members", "statement": "The percentile p over the samples of all members of an ensemble lies above a if at most (N-1)p of the N numbers are at most a and is at most a if at least (N-1)p+1 of them are. With more and more independent members it comes, with probability one, as close as wanted to the quantiles of the samples of a member, and tends to the quantile where that is a single number; the band between two percentiles holds the stated part of all numbers up to any small part. Members count by the number of their samples that are numbers at the energy; members of equally many samples count alike, and the limit is then the quantile of a sample taken at random from a member.", "quantifier": "all columns with NaN, all fractions in [0, 1], all probability spaces with independent members of one law, with any dependence among the samples of a member and any bounded numbers of samples", "why_tests_cant": "a limit over infinitely many members, with probability one", "anchors": ["ompy/ensembleNormalizer.py:322-334", "ompy/ensembleNormalizer.py:470-511", "ompy/ensembleNormalizer.py:514-540"]}
{"id": "C135", "title": "Whether the iteration of the first generation method settles", "statement": "For the exact spectra of all generations of ladders - bins that decay step by step, and above them a bin that decays x times to the top of the ladder of m steps and c times straight to the ground state - each pass of the loop multiplies the deviation of the weight from the branching ratio x/(x+c) by a negative factor, -m c/(left over + c), and with the damping -(0.7 m c - 0.3)/(0.7 (left over + c) + 0.3). For m = 1 and c >= 3/7 the result approaches the primary gammas: after k + 1 iterations it differs from them by at most (x+c)/2 (c/(x+c))^(k/2). For longer ladders it need not settle: if m c >= (m+2) x and (m-1) c >= x + 6/7, every even number of iterations gives the (m+1) x gammas of all generations (nothing is subtracted), every odd number from three on gives none.", "quantifier": "all ladders of any number of steps, all bin widths and counts, all numbers of iterations", "why_tests_cant": "the limit of any number of iterations for all counts; tests compare one spectrum with a stored result", "anchors": ["ompy/firstgeneration.py:97-105", "ompy/firstgeneration.py:121-161", "ompy/firstgeneration.py:321-367"]}
{"id": "C136", "title": "Which objects share arrays", "statement": "Vectors and matrices refer to arrays in memory. In any program of constructors and methods whose calls in place are given new arrays only, all attributes of all objects stay separate arrays, and the numbers of all objects and the outcome of every call are those of a program in which every object has its own numbers. Whatever objects share, a call changes no object that has no array in common with the one it writes to, and constructors and methods that return something change no object. A vector rebinned in place to the energies of another shares them: a change of units of one changes the energies of both and the units of one. A matrix rebinned to its own other axis has one array for both axes, and going to lower bin edges moves it by a whole bin.", "quantifier": "all programs (sequences of constructors and 25 methods, with errors), all states of memory, all views, all numbers", "why_tests_cant": "all sequences of calls on any number of objects; sharing shows only in a later call on another object", "anchors": ["ompy/vector.py:63-76", "ompy/vector.py:349-365", "ompy/vector.py:405-448", "ompy/vector.py:471-495", "ompy/matrix.py:121-138", "ompy/matrix.py:508-550", "ompy/matrix.py:712-753", "ompy/matrix.py:851-863", "ompy/abstractarray.py:20-22"]}
{"id": "C137", "title": "Whether the iteration of the unfolding settles", "statement": "If the iterations of the unfolding approach a spectrum, it folds to the raw spectrum. They approach one for every raw spectrum exactly if the powers of 1 - R vanish; then exactly one spectrum folds to each raw spectrum. For responses without counts above the full energy this is so exactly if all full-energy probabilities are between 0 and 2 (for probabilities: if none is zero), for symmetric responses (a resolution) exactly if the response is positive definite, and for any response with at least p > 1/2 of the counts in their own bin, where the summed distance shrinks by 2(1-p) per iteration. Counts in a bin that no photon reaches grow by the raw counts in each iteration. A response with less than one half of the counts in their own bin need not settle, although it can be inverted.", "quantifier": "all responses, all raw matrices, all numbers of iterations", "why_tests_cant": "limits over all numbers of iterations, for all responses and raw spectra", "anchors": ["ompy/unfolder.py:136-165", "ompy/unfolder.py:190-215"]}
{"id": "C138", "title": "Interruptions in the middle of a file", "statement": "Generating an ensemble may be interrupted any number of times at any point, also while a file is being written. If reading a file that ends too early raises (as for .npy files), then without background a member that a later run returns has the values of an uninterrupted run. If no file of a member is broken, the later run gives its values or its exception. With regenerate=True the members are those of a run on an empty disk. With regenerate=False a broken file is never repaired: whenever a file that a member needs is broken, it stays as it is in all further runs and the member is never returned.", "quantifier": "all ensembles, all file formats that refuse incomplete files, all series of interrupted runs, all orders in which the processes of the pool make their steps", "why_tests_cant": "interruptions at any piece of any file, for all orders of steps of concurrent processes", "anchors": ["ompy/ensemble.py:196-201", "ompy/ensemble.py:233-268", "ompy/filehandling.py:247-259"]}
{"id": "C139", "title": "Level density and strength function of a member belong together", "statement": "The level density and the strength function returned for a member of the ensemble come from one fit of this member: starting without files, after any series of extractions with regenerate=False, each with its own ensemble, fit and random numbers and interrupted at any operation on the disk, also in the middle of a file, a further extraction that ends without exception gives such pairs; if the fits use no random numbers the results are those without interruptions. It ends without exception exactly if no file of a strength function is incomplete (incomplete level densities do no harm). With regenerate=True results do not depend on the files. If a call with regenerate=True is interrupted between the two files, a later call without it returns the level density of one fit with the strength function of another.", "quantifier": "all file formats that refuse incomplete files, all fits, all series of calls, all numbers of operations on the disk before an interruption", "why_tests_cant": "interruptions at any operation of any number of calls, for arbitrary fits and file contents", "anchors": ["ompy/extractor.py:178-193", "ompy/extractor.py:229-268", "ompy/ensemble.py:233-268"]}
{"id": "C140", "title": "Fits that run at the same time use their own files", "statement": "The members of an ensemble are normalised at the same time by processes whose fits write and read files in one directory. Whatever the order of their steps, each fit has the result it would have alone: the names of files tell directory, kind and number of the fit they belong to, so that no file is shared, and no other file is touched. With the default keywords of MultiNest (resume=False) the result does not depend on files that are there before; if the process pool breaks down at any point, the members run one after the other have the same results as well. Two programs that normalise in the same directory at the same time do share files and may get each other's samples, and keywords set without resume make a fit go on from the files of an earlier one.", "quantifier": "all programs that read and write files with their base name, all schedules of all processes, all files present before, all directories and member numbers", "why_tests_cant": "schedules of processes, contents of directories and member numbers are unbounded", "anchors": ["ompy/normalizer_nld.py:359-382", "ompy/normalizer_simultan.py:299-323", "ompy/ensembleNormalizer.py:113-135", "ompy/ensembleNormalizer.py:174-205"]}
{"id": "C141", "title": "Which recorded cuts an extraction can use", "statement": "The extraction of member 0 adds the keyword Eg_max to every call of the caller's Action. The Action can be replayed afterwards exactly if each call is a trapezoid whose Eg_max is not given by position, or a method with **kwargs; with any other call member 0 is not extracted and the Action fails on every matrix from then on. A single trapezoid call, its limits given by position or keyword, cuts the member with these limits and the uncertainties with the last energy of the cut member; later members leave the Action as it is. The rhosigchi algorithm uses the limits of the last trapezoid call, exactly if every trapezoid call has them as keywords, and for limits given as keywords they are those of the standard algorithm.", "quantifier": "all recorded sequences of calls with any positional and keyword arguments, all members, uncertainties and matrices", "why_tests_cant": "call sequences, ways of giving the arguments and matrices are unbounded; the damage appears on a later use of the same object", "anchors": ["ompy/extractor.py:232-238", "ompy/extractor.py:300-306", "ompy/action.py:26-31", "ompy/action.py:40-42", "ompy/matrix.py:641-689"]}
{"id": "C142", "title": "Result files of normalisers and interruptions", "statement": "A normaliser that is interrupted at any point, or whose saving raises, never leaves a file from which a later call loads anything but a completely calculated result: after every history of calls, interruptions, new objects and deleted files, a file is as before, unreadable, or the new result. Between opening the file and its last piece the earlier result is lost whatever it was. A file that cannot be read makes every call with regenerate=False raise and stays as it is; a complete call with regenerate=True, or deleting the file, repairs it.", "quantifier": "all normalisers (calculation, attributes, pickled form arbitrary), all objects and arguments, all interruption points, all histories", "why_tests_cant": "interruption points, contents of the files and histories are unbounded; tests do not kill a process while it saves", "anchors": ["ompy/abstract_normalizer.py:27-69", "ompy/normalizer_nld.py:171-176", "ompy/normalizer_gsf.py:149-155", "ompy/normalizer_simultan.py:116-121", "ompy/ensembleNormalizer.py:100-105"]}
{"id": "C143", "title": "Text and MAMA files that end too early", "statement": "Whatever beginning of a text table was written, what np.loadtxt returns are the first rows of the table, and at most the very last number is wrong. A spectrum or matrix whose text file ends behind a row is loaded without complaint as the spectrum or matrix of its first rows. A printed number that lacks its last character is still a number, and the wrong one unless its exponent is zero, so a table without its last two characters is loaded with a wrong last number. A MAMA file of which the header and more was written is read as a file with the first rows of counts and the same calibration: no count is wrong, but the last complete row can be taken for the footer and is lost.", "quantifier": "all tables, spectra, matrices and headers, all lengths of the incomplete file", "why_tests_cant": "contents and points of interruption are unbounded; tests never read incomplete files", "anchors": ["ompy/filehandling.py:11-72", "ompy/filehandling.py:85-184", "ompy/filehandling.py:262-285", "ompy/filehandling.py:335-356", "ompy/vector.py:198-200", "ompy/vector.py:240-241", "ompy/matrix.py:199", "ompy/matrix.py:248"]}
{"id": "C144", "title": "Values and axes of every object fit after any program, also after exceptions", "statement": "After any program of constructors and methods of vectors and matrices (cut, rebin, closest, transform, cumulative, unit conversion, item assignment, copy; cut, rebin, fill, cut_diagonal, remove_negative, to_lower_bin, to_mid_bin, trapezoid, copy), in which arrays may be shared between objects and calls may raise and be caught, every vector has as many values as energies and every matrix one row per excitation energy and one column per gamma energy. After a program without exceptions in which no matrix with standard deviations is cut in place, all standard deviations have the shape of the values; without these conditions this fails.", "quantifier": "every program (list of calls with any arguments), every way of sharing arrays, every function in place of exp and sqrt", "why_tests_cant": "Invariant over all histories of calls, failed ones included, and all ways in which objects share arrays.", "anchors": ["ompy/matrix.py: Matrix.verify_integrity, cut, rebin, trapezoid, fill, remove_negative, to_lower_bin, to_mid_bin", "ompy/vector.py: Vector.verify_integrity, cut, rebin, closest, transform, cumulative", "ompy/abstractarray.py: copy, __setitem__"]}
{"id": "C145", "title": "A call that raises leaves all objects as they were, except for rebin in place", "statement": "Whatever program ran before, a constructor or method that raises, other than rebin in place, leaves every vector and matrix of the caller with the numbers it had. If rebin in place of a vector or of one axis of a matrix raises, nothing has changed or the standard deviations of the object do not fit its values any more. For both axes of a matrix this fails: the first axis may have been rebinned already, and that is the only other case.", "quantifier": "every program before the call, every call and every argument", "why_tests_cant": "Statement about all calls that raise in all states that programs can reach.", "anchors": ["ompy/matrix.py: Matrix.rebin, cut, trapezoid, cut_diagonal, to_lower_bin, to_mid_bin, fill", "ompy/vector.py: Vector.rebin, cut, closest, cumulative, to_MeV, to_keV"]}
{"id": "C146", "title": "What load leaves in the object, also when it raises", "statement": "Vector.load that returns leaves energies and std of the shape of the values, whatever the object held and whatever the file is. If it raises, the vector is as before, or (tar, MAMA and unknown types only) its shapes do not fit. For npy, txt and csv the result does not depend on what the vector held; for MAMA this fails. After any history of loads, failed ones included and with the disk changed by others in between, values and energies come from one and the same file; std may come from another one. Matrix.load that returns leaves a matrix whose axes and std fit for npy, txt and MAMA; for tar this fails: every vector with std saved as tar is accepted by every matrix. No history of loads changes std of a matrix, so a matrix with std cannot be loaded from a file of another shape.", "quantifier": "every object (arrays of 0, 1 or 2 dimensions), every disk, path and file type, every history of loads", "why_tests_cant": "Statement about all previous contents of the object and all histories of failed and successful loads.", "anchors": ["ompy/vector.py: Vector.load, verify_integrity", "ompy/matrix.py: Matrix.load, verify_integrity", "ompy/filehandling.py: load_numpy_1D, load_numpy_2D, load_txt_1D, load_txt_2D, load_tar, load_csv_1D, mama_read"]}
{"id": "C147", "title": "The radiative width with rounded numbers", "statement": "Computed in floating point, with any order of summation, Gg_standard is the exact sum over its energies up to a number of roundings that is the depth of the summation plus a constant (for doubles and numpy: relative error at most (c + 35 + log2 n) 2^-53, c roundings for the cube). It is zero exactly if the exact one is, so the normalisation factor exists in the same cases. The width computed from the strength function multiplied by the factor is the experimental width up to twice as many roundings. A larger strength function never gives a smaller width, a factor of a power of two gives exactly that multiple, the last final energy is exactly 0, and lnlike is never positive and 0 only for the experimental width.", "quantifier": "every strength function, level density and spin sum without negative values on the grid, every grid of at least two energies, every monotone rounding with relative error u < 1, every order of summation", "why_tests_cant": "Error bound over all inputs, grid sizes and summation orders; agreement of tested cases says nothing about others.", "anchors": ["ompy/normalizer_gsf.py: NormalizerGSF.Gg_standard, normalize (B_norm), lnlike", "ompy/models.py: NormalizationParameters.E_grid", "ompy/vector.py: Vector.transform"]}
{"id": "C148", "title": "Tar files written and read by several processes", "statement": "Any number of processes that run save_tar and load_tar at the same time do not notice each other if no two of them use a file of the same name: in every order of their steps each is where it would be alone on the disk, its files are what they would be, and all other files are as before. Alone, saving and loading end with the results of saveTar and loadTar. Saving up to ten arrays each to paths that have a suffix and differ before it uses no file twice, so both archives are right in every order; the same for a process that saves beside one that loads other names. Processes that load the same archive never get other arrays than those in it.", "quantifier": "every number of processes, every order of steps, every disk, all paths and arrays", "why_tests_cant": "The orders of steps of concurrent processes cannot be enumerated by tests; interference shows only in some of them.", "anchors": ["ompy/filehandling.py: save_tar, load_tar"]}
{"id": "C149", "title": "Spin distribution, D0 and the level density at Sn with rounded numbers", "statement": "With rounding after every operation the spin distribution exists for every positive spin-cut, is positive, and its logarithm differs from the exact one by at most 5 + c roundings and the exponent times five roundings (c roundings for the exponential function). The level density at Sn computed from D0 exists and its logarithm is right up to 11 + c roundings and the larger exponent times five roundings. D0 converted to a level density and back is the same up to six roundings (relative error at most 6 2^-53 for doubles), whatever the spin distribution. A larger D0 never gives a larger level density. The sum over accessible spins is the exact one up to as many roundings as it has terms, and negative spins are refused.", "quantifier": "every positive spin-cut, all spins, every positive D0, every monotone rounding with relative error u < 1, every exponential function that is right up to c roundings", "why_tests_cant": "Error bounds for all inputs; a test sees single numbers and usually compares with the formula computed in the same way.", "anchors": ["ompy/spinfunctions.py: SpinFunctions.distribution", "ompy/normalizer_nld.py: NormalizerNLD.nldSn_from_D0, D0_from_nldSn", "ompy/normalizer_gsf.py: NormalizerGSF.SpinSum"]}
{"id": "C150", "title": "Discrete peaks of the response with rounded numbers", "statement": "With rounding after every operation, discrete_peaks gives, on any axis and if it returns, one number per channel and none negative, and they add up to the probabilities of the peaks on the axis up to twelve roundings (four for each escape or annihilation peak). A peak is put into one channel or two neighbouring ones, and the centroid of the two parts is the exact position up to three roundings of the position and one of the fraction. A peak at least one channel below the end of the axis is added without index error for every number of channels that is small against 1/u. Without rounding it is the model of C43.", "quantifier": "every axis, every channel, all probabilities that are not negative, every monotone rounding with relative error u < 1 that keeps 1", "why_tests_cant": "Positions that rounding moves across a channel are rare numbers that tests do not hit; the bounds hold for all.", "anchors": ["ompy/response.py: Response.discrete_peaks, two_channel_split"]}
{"id": "C151", "title": "Linear interpolation of the response tables with rounded numbers", "statement": "With rounding after every operation, the interpolated probabilities, widths and efficiencies of the response differ from the straight line through the two neighbouring table points by at most one rounding of the value plus five of its part above the left point, also where the table is extrapolated. A table with entries between 0 and M is interpolated with an absolute error of at most (u + (1+u)((1-u)^-5 - 1)) M, below 7/2^53 for probabilities in doubles. On one segment the computed values rise if the table rises and fall if it falls. With fill_value=0 tabulated values are returned unchanged and the result is zero outside the table. A table without negative entries is never interpolated to a negative value.", "quantifier": "every increasing energy axis with at least two points, every table, every energy, every monotone rounding with relative error u < 1", "why_tests_cant": "The error depends on the rounding of five intermediate results; a test compares some energies with a tolerance, and a negative value of size 1e-16 is not seen.", "anchors": ["ompy/response.py: Response.get_probabilities, interpolate"]}
{"id": "C152", "title": "Compton kinematics and the fan method with rounded numbers", "statement": "With rounding after every operation: the derivative dE/dtheta of the electron energy is right up to thirteen roundings. The electron energy lies between zero and the energy of the gamma ray, does not fall when the angle grows, and has an absolute error of at most one rounding of itself and five of the scattered energy. The fan method finds an angle for every energy up to the Compton edge. An entry of the fan method differs from the exact formula (for the same angle and counts) by at most 36/2^53 of the larger of the two corrected counts over the derivative in doubles, also after negative entries are set to zero. Without rounding the formulas are those of C44.", "quantifier": "all energies that are not negative, all cosines up to 1 and positive sines, all counts that are not negative, every monotone rounding with relative error u < 1", "why_tests_cant": "Cancellation in E - E/(1+...) and NaN from arccos depend on single bits of the energies; tests compare some spectra with a tolerance.", "anchors": ["ompy/response.py: Response.E_compton, dE_dtheta, fan_method_compton"]}
{"id": "C153", "title": "The weighted chi-square of two vectors with rounded numbers", "statement": "With rounding after every operation, Vector.error gives a number exactly if the bins of the two vectors agree, and else ValueError. The number is the exact chi-square, the sum of (v-w)^2 over the variances that are given, up to six roundings and those of the sum: a relative error of at most (32 + log2 n)/2^53 in doubles. It is zero exactly if every entry agrees or has no uncertainty. It does not change, bit for bit, if the two vectors are exchanged or if all values and uncertainties are multiplied by a power of two, and it never grows if deviations become smaller or uncertainties larger.", "quantifier": "all vectors, all standard deviations, every order of summation, every monotone rounding with relative error u < 1 (the last sentence: doubles)", "why_tests_cant": "Relative accuracy in spite of the cancellation in v - w and exact invariances hold for all doubles; a test samples some vectors with a tolerance.", "anchors": ["ompy/vector.py: Vector.error"]}
{"id": "C154", "title": "Interpolation of the logarithm with rounded numbers", "statement": "log_interp1d gives between two points of a positive curve the geometric mean y0^(1-t) y1^t of their values with the weights of the energy, up to a factor exp(+-d). d is the error of the exponential function plus the errors of the logarithm and of the rounded interpolation, which grow with the size M of the logarithms: d = b + (a + (u + 2(1+u)((1-u)^-5 - 1))(1+a)) M, at most 1400/2^53 for values between exp(-100) and exp(100) in doubles. At a point of the curve the result is exp(log(y)) without further error, outside the points it is a ValueError, and on a rising segment the results rise. The exact value is the one of the model of C48.", "quantifier": "every increasing axis with at least two points, every positive curve, every energy, every monotone rounding with relative error u < 1, every logarithm with relative error a and exponential function with factor exp(b)", "why_tests_cant": "The error grows with the logarithm of the values, so curves of another magnitude than the tested ones have other errors; the bound holds for all.", "anchors": ["ompy/library.py: log_interp1d", "ompy/normalizer_gsf.py: NormalizerGSF.fnld, fgsf"]}
{"id": "C155", "title": "The likelihood of the level density normalisation with rounded numbers", "statement": "const_temperature gives exp((E-Eshift)/T)/T up to a factor exp(+-d), where d is the error of the exponential function plus one rounding plus ((1-u)^-2 - 1) |E-Eshift|/T; the computed values are positive, rise with the energy and fall with the shift. lnlike is minus one half of the chi-squares of the two parts, the squared deviation at the separation energy and the sums of the logarithms of the uncertainties; the error is small relative to the sum of the squares and of the absolute values of the logarithms, at most 29/2^53 of it in doubles for less than 2^21 bins. A number comes out exactly for matching bins, temperature and uncertainty at Sn other than 0 and positive uncertainties.", "quantifier": "all transformed level densities, known levels, parameters and uncertainties, every monotone rounding with relative error u < 1, every order of summation, every logarithm with relative error a and exponential function with factor exp(b)", "why_tests_cant": "The likelihood adds terms of both signs, so its relative error has no bound and single comparisons say nothing about others; the theorem bounds the error by the sizes of the terms for all data and all orders of summation.", "anchors": ["ompy/normalizer_nld.py: NormalizerNLD.lnlike", "ompy/normalizer_nld.py: NormalizerNLD.const_temperature"]}
{"id": "C156", "title": "The linear fan above the Compton edge with rounded numbers", "statement": "fan_to_end takes for a bin d bins above the edge the counts at edge + scale d of the two simulated spectra and interpolates them. With rounded numbers the scale has an error relative to the upper end of the peak; the bins rise with d and never lie below the edge; each bin is the exact one or a neighbour of it, and the exact one unless the position is a whole number up to the relative error (1-u)^-2 - 1. Given the bins, the entry is not negative and right to u + 2(1+u)((1-u)^-5 - 1) of the largest count, 12/2^53 in doubles; bins above the end of a spectrum are replaced by its last one.", "quantifier": "all tables, energies between the two simulated ones, resolutions, bins and scales, every monotone rounding with relative error u < 1", "why_tests_cant": "int() cuts a computed position, so the chosen bin jumps where the position is close to a whole number; tests with other energies do not meet such positions.", "anchors": ["ompy/response.py: Response.fan_to_end"]}
{"id": "C157", "title": "The log-uniform priors of the normalisation with rounded numbers", "statement": "For a number c of the unit interval the prior of alpha and of T is g 10^(2c-1), with g the guess, up to a factor exp(+-d); d is the error of the power of ten plus log 10 times the rounding errors of the exponent, which grow with |log10 g|; at most 240/2^53 in doubles for guesses between 10^-20 and 10^20. So the documented range from g/10 to 10 g holds up to that factor. The parameters rise with c and with the guess. A negative guess of alpha is NotImplementedError, one of T a ValueError, and the guess 0 gives 0.", "quantifier": "all guesses, all numbers of the unit interval, every monotone rounding with relative error u, every logarithm with relative error a and power of ten with factor exp(b)", "why_tests_cant": "The sampler calls the prior with any number of the unit cube, the ends included, and the error depends on the size of the guess; tests see a few of them.", "anchors": ["ompy/normalizer_nld.py: NormalizerNLD.optimize (prior)"]}
