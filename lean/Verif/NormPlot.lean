import Verif.Plots
import Verif.GsfNorm

/-!
# The plots of the normalisers, with their keyword arguments

`NormalizerGSF.plot` (ompy/normalizer_gsf.py:443-508), `NormalizerSimultan.plot` (ompy/normalizer_simultan.py:385-419) and the keyword arguments of `NormalizerNLD.plot`
(ompy/normalizer_nld.py:402-482).  A drawing is the list of calls to `Vector.plot`, `ax.plot` and `ax.axvspan`; what the drawing library accepts is an arbitrary function.  Values of keyword arguments
are texts.
-/

namespace Ompy

/-- Keyword arguments: a dictionary of names and values. -/
abbrev Kw := List (String × String)

/-- Whether a name is in a dictionary. -/
def Kw.has (d : Kw) (name : String) : Bool := d.any fun p => p.1 == name

/-- `d.get(name)`. -/
def Kw.get (d : Kw) (name : String) : Option String := (d.find? fun p => p.1 == name).map Prod.snd

/-- `d.update(new)`, as in ompy/normalizer_gsf.py:490: values of known names are replaced, new names appended. -/
def Kw.update (d new : Kw) : Kw :=
  (d.map fun p => (p.1, (new.get p.1).getD p.2)) ++ new.filter fun q => !(d.has q.1)

/-- A call `f(a=…, b=…, **extra)`: a name in both is a TypeError. -/
def callKw (named extra : Kw) : Except Err Kw :=
  if named.any fun p => extra.has p.1 then .error .typeError else .ok (named ++ extra)

/-- What a call draws. -/
inductive GWhat
  | exp | low | high | limitsLow | limitsHigh | known | sn | model
  deriving DecidableEq

/-- One call of a drawing function: abscissae, ordinates (`none`: not a number) and keyword arguments. -/
structure GCall where
  what : GWhat
  x : List ℚ
  y : List (Option ℝ)
  kw : Kw

/-- Drawing one thing after the other, up to the first error.  `mpl` is what the drawing library accepts. -/
def drawSteps (mpl : GCall → Except Err Unit) : List (Except Err (List GCall)) → List GCall × Except Err Unit
  | [] => ([], .ok ())
  | .error e :: _ => ([], .error e)
  | .ok [] :: l => drawSteps mpl l
  | .ok (c :: cs) :: l =>
    match (c :: cs).findSome? fun c => match mpl c with
      | .error e => some e
      | .ok () => none with
    | some e => ([], .error e)
    | none => ((c :: cs) ++ (drawSteps mpl l).1, (drawSteps mpl l).2)

/-- An extrapolation model with its fit range, which stays `[None, None]` unless it is set or a fit is made (ompy/models.py:13-14, 242-249). -/
structure FitModel where
  m : ExtModel
  Efit : Option ℚ × Option ℚ

/-- `model.extrapolate(np.linspace(a, b))`, ompy/normalizer_gsf.py:485-488 and ompy/models.py:266-281: 50 points; `None` as a limit is a TypeError. -/
noncomputable def FitModel.line (f : FitModel) (a b : Option ℚ) : Except Err Curve :=
  match a, b with
  | some a, some b => .ok ⟨linspace a b 50, (linspace a b 50).map (f.m.value (f.m.shiftAfter.getD f.m.shift))⟩
  | _, _ => .error .typeError

/-- `ax.axvspan(Efit[0], Efit[1], …)`, ompy/normalizer_gsf.py:495-499. -/
def FitModel.span (f : FitModel) (w : GWhat) (kw : Kw) : Except Err (List GCall) :=
  match f.Efit.1, f.Efit.2 with
  | some a, some b => .ok [⟨w, [a, b], [], kw⟩]
  | _, _ => .error .typeError

/-- The two lines of the extrapolations: both are computed before one is drawn, ompy/normalizer_gsf.py:485-493. -/
noncomputable def modelLines (low high : FitModel) (Sn : ℚ) (addLabel : Bool) (kwargs : Kw) : List (Except Err (List GCall)) :=
  let defaults := Kw.update [("markersize", "0"), ("linestyle", "--")] kwargs
  match low.line low.m.Emin low.Efit.2, high.line high.Efit.1 (some Sn) with
  | .error e, _ => [.error e]
  | .ok _, .error e => [.error e]
  | .ok l, .ok h =>
    [(callKw [("ax", "ax"), ("c", "g"), ("label", if addLabel then "model" else "_model")] defaults).map fun k => [⟨.low, l.E, l.v, k⟩],
     (callKw [("ax", "ax"), ("c", "g")] defaults).map fun k => [⟨.high, h.E, h.v, k⟩]]

/-- The fit ranges, ompy/normalizer_gsf.py:495-499. -/
def fitRegions (low high : FitModel) (addLabel : Bool) : List (Except Err (List GCall)) :=
  [low.span .limitsLow [("color", "grey"), ("alpha", "0.1"), ("label", if addLabel then "fit limits" else "_fit limits")],
   high.span .limitsHigh [("color", "grey"), ("alpha", "0.1")]]

/-- `NormalizerGSF.plot`, ompy/normalizer_gsf.py:470-499: what is drawn, and the outcome. -/
noncomputable def gsfPlot (mpl : GCall → Except Err Unit) (gsf : Vec ℝ) (low high : FitModel) (Sn : ℚ) (addLabel plotFitregion : Bool) (kwargs : Kw) : List GCall × Except Err Unit :=
  drawSteps mpl
    ([(callKw [("ax", "ax"), ("label", if addLabel then "exp." else "_exp.")] kwargs).map fun k => [⟨.exp, gsf.E, gsf.values.map some, k⟩]] ++
      modelLines low high Sn addLabel kwargs ++ if plotFitregion then fitRegions low high addLabel else [])

/-- What `NormalizerNLD.plot` draws besides the experimental level density. -/
structure NldPlotIn where
  nld : Vec ℝ
  levels : Vec ℝ
  atSn : ℝ
  model : ℚ → ℝ
  limitLow : ℚ × ℚ
  limitHigh : ℚ × ℚ
  Sn : ℚ

/-- `NormalizerNLD.plot`, ompy/normalizer_nld.py:434-471.  The label of the error bar at `Sn` is `None` without labels; the label of the fit limits is always given (470). The loop that changes labels of
lines (461-462) is in `nldPlot`. -/
noncomputable def nldPlotKw (mpl : GCall → Except Err Unit) (p : NldPlotIn) (addLabel plotFitregion : Bool) (kwargs : Kw) : List GCall × Except Err Unit :=
  let x := linspace p.limitHigh.1 p.Sn 50
  drawSteps mpl
    ([(callKw [("ax", "ax"), ("label", if addLabel then "exp." else "_exp.")] kwargs).map fun k => [⟨.exp, p.nld.E, p.nld.values.map some, k⟩],
      .ok [⟨.known, p.levels.E, p.levels.values.map some, [("ax", "ax"), ("kind", "step"), ("c", "k"), ("label", if addLabel then "known levels" else "_known levels")]⟩],
      .ok [⟨.sn, [p.Sn], [some p.atSn], (if addLabel then [("label", "$\\rho(S_n)$")] else []) ++ [("fmt", "ks"), ("markerfacecolor", "none")]⟩],
      (callKw [("label", if addLabel then "model" else "_model"), ("markersize", "0"), ("c", "g")] kwargs).map fun k => [⟨.model, x, x.map fun e => some (p.model e), k⟩]] ++
      if plotFitregion then [.ok [⟨.limitsLow, [p.limitLow.1, p.limitLow.2], [], [("color", "grey"), ("alpha", "0.1"), ("label", "fit limits")]⟩],
        .ok [⟨.limitsHigh, [p.limitHigh.1, p.limitHigh.2], [], [("color", "grey"), ("alpha", "0.1")]⟩]] else [])

/-- `NormalizerSimultan.plot`, ompy/normalizer_simultan.py:402-416: the calls of the two axes and the outcome. `add_label` is not used; a keyword argument with one of the names given in the calls (407-410)
is a TypeError. Names that the two `plot` methods take themselves are left out (`plot_fitregion`, `reset_color_cycle`). -/
noncomputable def simPlot (mpl : GCall → Except Err Unit) (p : NldPlotIn) (gsf : Vec ℝ) (low high : FitModel) (_addLabel : Bool) (kwargs : Kw) : (List GCall × List GCall) × Except Err Unit :=
  match callKw [("ax", "ax"), ("add_label", "True"), ("results", "res"), ("add_figlegend", "False")] kwargs with
  | .error e => (([], []), .error e)
  | .ok _ =>
    match nldPlotKw mpl p true true kwargs with
    | (a, .error e) => ((a, []), .error e)
    | (a, .ok ()) =>
      let b := gsfPlot mpl gsf low high p.Sn false true kwargs
      ((a, b.1), b.2)

/-- The entries of the legend of a figure: labels that do not begin with an underscore. -/
def legendCalls (l : List GCall) : List String := (l.filterMap fun c => Kw.get c.kw "label").filter fun s => s.toList.head? != some '_'

end Ompy
