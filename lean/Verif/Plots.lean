import Verif.Helpers
import Verif.Draw

/-!
# Model of what the plots show

`Vector.plot` (ompy/vector.py:118-159), `Matrix.plot_projection` (ompy/matrix.py:375-415), `Extractor.plot` (ompy/extractor.py:611-644), `Ensemble.plot` (ompy/ensemble.py:575-646), `NormalizerNLD.plot`
(ompy/normalizer_nld.py:402-482), `plot_selection` (ompy/ensembleNormalizer.py:336-409), `plot_interactive` (ompy/normalizer_gsf.py:510-571) and `annotate_heatmap` (ompy/library.py:314-367).  The drawing library is
represented by the curves it is asked to draw and by the list of lines of an axis with their labels.  Colours, markers and scales are left out.
-/

namespace Ompy

/-! ### Vectors -/

/-- How a curve is drawn. -/
inductive CurveKind
  | line | step | bars
  deriving DecidableEq

/-- What is drawn: `ax.plot`, `ax.step` or `ax.errorbar`. -/
structure DrawnCurve where
  kind : CurveKind
  x : List ℚ
  y : List ℚ
  err : Option (List ℚ)
  deriving DecidableEq

/-- The drawing library refuses arrays of different lengths (ValueError). -/
def DrawnCurve.draw (c : DrawnCurve) : Except Err DrawnCurve :=
  if c.x.length = c.y.length ∧ ∀ s ∈ c.err, s.length = c.y.length then .ok c else .error .valueError

/-- `Vector.plot`, ompy/vector.py:141-156. -/
def Vec.plot (v : Vec ℚ) (kind : String) : Except Err DrawnCurve :=
  match v.std with
  | none =>
    if kind = "plot" ∨ kind = "line" then DrawnCurve.draw ⟨.line, v.E, v.values, none⟩
    else if kind = "step" then DrawnCurve.draw ⟨.step, v.E, v.values, none⟩
    else .error .notImplemented
  | some s => DrawnCurve.draw ⟨.bars, v.E, v.values, some s⟩

/-- `plot_projection`, ompy/matrix.py:402-407. -/
def Mat.plotProjection (m : Mat) (axis : ℕ) (emin emax : Option ℚ) (normalize : Bool) (kind : String) : Except Err DrawnCurve :=
  match m.projection axis emin emax normalize with
  | .error e => .error e
  | .ok (p, E) =>
    match Vec.new (some p) (some E) none "keV" with
    | .error e => .error e
    | .ok v => v.plot kind

/-! ### Colour limits of the standard deviations -/

/-- The axes given to `Ensemble.plot`: none, or a sequence of them.  A sequence (tuple, list, array) has no attribute `figure`. -/
inductive AxesArg
  | none
  | sequence (n : ℕ)
  deriving DecidableEq

/-- `(np.min(x), np.max(x))` of a matrix, ompy/ensemble.py:604. -/
def extrema (v : List (List ℚ)) : Except Err (ℚ × ℚ) :=
  match listMin v.flatten, listMax v.flatten with
  | .ok a, .ok b => .ok (a, b)
  | .error e, _ => .error e
  | _, .error e => .error e

/-- The entry of `choices`, ompy/ensemble.py:605-610. -/
def colourChoice (scaleBy : String) (raw unf fg : ℚ × ℚ) : Except Err (ℚ × ℚ) :=
  if scaleBy = "raw" then .ok raw
  else if scaleBy = "unfolded" then .ok unf
  else if scaleBy = "firstgen" then .ok fg
  else if scaleBy = "all" then .ok (min (min raw.1 unf.1) fg.1 ⊓ min (min raw.2 unf.2) fg.2, max (max raw.1 unf.1) fg.1 ⊔ max (max raw.2 unf.2) fg.2)
  else .error .valueError

/-- The colour limits, ompy/ensemble.py:596-621. -/
def ensPlotLimits (ax : AxesArg) (vmin vmax : Option ℚ) (scaleBy : String) (raw unf fg : List (List ℚ)) : Except Err (ℚ × ℚ) := do
  match ax with
  | .sequence n => if n < 3 then .error .valueError else .error .attributeError
  | .none => pure ()
  let r ← extrema raw
  let u ← extrema unf
  let f ← extrema fg
  let c ← colourChoice scaleBy r u f
  pure (vmin.getD (if c.1 ≤ 0 then 1 else c.1), vmax.getD c.2)

/-- The ends of the colour bar that are drawn pointed, ompy/ensemble.py:637-644: lower, upper. -/
def colourbarExtend (vmin vmax : Option ℚ) : Bool × Bool :=
  if vmin.isSome ∧ vmax.isSome then (true, true)
  else if vmin.isSome then (true, false)
  else if vmax.isSome then (false, true)
  else (false, false)

/-! ### Samples of the extraction -/

/-- `Extractor.plot` without `plot_mean`, ompy/extractor.py:632-636, one of the two panels: curves and their opacity.  `zip` stops at the shorter list; the opacity is that of the list itself. -/
def extractorCurves (these others : List (Vec ℚ)) : List (List ℚ × List ℚ × ℚ) :=
  (these.zip others).map fun p => (p.1.E, p.1.values, 1 / (these.length : ℚ))

/-! ### Level density -/

/-- What a line of the axis is. -/
inductive PWhat
  | exp (sample : ℕ) | known | sn | model
  deriving DecidableEq

/-- A line of the axis. -/
structure PLine where
  label : String
  what : PWhat
  deriving DecidableEq

/-- The lines `ax.errorbar` adds to the axis: the data, which never has the label itself, and two lines for the caps if they have a size (`caps`, the setting `errorbar.capsize`; by default it is 0). -/
def errorbarLines (caps : Bool) (w : PWhat) : List PLine :=
  ⟨"_nolegend_", w⟩ :: if caps then [⟨"_cap", w⟩, ⟨"_cap", w⟩] else []

/-- The loop over `ax.lines[-(i+1)]`, ompy/normalizer_nld.py:461-462. -/
def relabel (ls : List PLine) : List PLine :=
  (ls.reverse.zipIdx.map fun p => if p.2 < 3 then { p.1 with label := "_nld(Sn)" } else p.1).reverse

/-- `NormalizerNLD.plot`, ompy/normalizer_nld.py:434-465: the lines of the axis afterwards.  `std`: the level density has uncertainties. -/
def nldPlot (caps std addLabel : Bool) (sample : ℕ) (ax : List PLine) : List PLine :=
  let data := if std then errorbarLines caps (.exp sample) else [⟨if addLabel then "exp." else "_exp.", .exp sample⟩]
  let known : PLine := ⟨if addLabel then "known levels" else "_known levels", .known⟩
  relabel (ax ++ data ++ [known] ++ errorbarLines caps .sn) ++ [⟨if addLabel then "model" else "_model", .model⟩]

/-- Labels of the error bars as a whole, which the legend shows too, ompy/normalizer_nld.py:446, 458-459. -/
def nldBars (std addLabel : Bool) : List String :=
  if addLabel then (if std then ["exp.", "$\\rho(S_n)$"] else ["$\\rho(S_n)$"]) else []

/-- The legend: labels that do not begin with an underscore. -/
def legendOf (ls : List PLine) : List String := (ls.map PLine.label).filter fun s => s.toList.head? != some '_'

/-- The loop of `plot_selection`, ompy/ensembleNormalizer.py:373-400, for the axis of the level density: only the first sample has labels. -/
def drawSamples (caps std : Bool) (ks : List ℕ) : List PLine :=
  ks.zipIdx.foldl (fun ax p => nldPlot caps std (p.2 == 0) p.1 ax) []

/-- What is kept if `n_plot == 0`, ompy/ensembleNormalizer.py:402-409. -/
def keepDummy (ls : List PLine) : List PLine := ls.filter fun l => l.label == "known levels" || l.label == "_nld(Sn)"

/-- `plot_selection`, ompy/ensembleNormalizer.py:360-409: `pick n N` are the rows that `DataFrame.sample` chooses. -/
def plotSelection (pick : ℕ → ℕ → List ℕ) (caps std : Bool) (N : ℕ) (nPlot : ℤ) : Except Err (List PLine) :=
  let n : ℕ := if 0 < nPlot then nPlot.toNat else 1
  if N < n then .error .valueError
  else
    let ls := drawSamples caps std (pick n N)
    .ok (if nPlot = 0 then keepDummy ls else ls)

/-! ### `plot_interactive` -/

/-- `plot_interactive`, ompy/normalizer_gsf.py:526-571, after the first plot: whether sliders appear.  The models have no attributes `scale_low` and so on. -/
def interactiveStart (methodLow _methodHigh : String) : Except Err Bool :=
  if methodLow = "fit" then .ok true
  else if methodLow = "fix" then .error .attributeError
  else .ok false

/-! ### `annotate_heatmap` -/

/-- A text on a picture whose horizontal axis is `Eg` and whose vertical axis is `Ex`. -/
structure Annotation where
  x : ℚ
  y : ℚ
  value : ℚ
  second : Bool
  deriving DecidableEq

/-- One pass of the loop, ompy/library.py:359-363. -/
def annotateOne (norm : ℚ → ℚ) (thr : ℚ) (m : Mat) (p : ℕ × ℕ) : Except Err Annotation :=
  match m.Eg[p.2]?, m.Ex[p.1]?, m.values[p.2]? with
  | some x, some y, some row =>
    match row[p.1]? with
    | some v => .ok ⟨y, x, v, decide (thr < norm v)⟩
    | none => .error .indexError
  | _, _, _ => .error .indexError

/-- `annotate_heatmap`, ompy/library.py:339-367.  `norm` is the mapping of values to colours. -/
def annotate (norm : ℚ → ℚ) (threshold : Option ℚ) (m : Mat) : Except Err (List Annotation) :=
  match (match threshold with
    | some t => Except.ok (norm t)
    | none => (listMax m.values.flatten).map fun x => norm x / 2) with
  | .error e => .error e
  | .ok thr => (cells m.values.length m.Eg.length).mapM (annotateOne norm thr m)

end Ompy
