import Verif.Action
import Verif.Trapezoid

/-!
# Model of the Action that cuts the matrices of an extraction

`Extractor._extract` (ompy/extractor.py:284-308) replays the caller's Action on a member and on the uncertainties and adds
a keyword to it in between; `Extractor.rhosigchi` (ompy/extractor.py:232-238) reads its limits from the recorded call.
Here the recorded calls have positional and keyword arguments, which python binds to the parameters of the methods of
`Matrix`.
-/

namespace Ompy

/-- The parameters of a method without `self`: those that may be given by position, those without default, those that
can only be given by keyword, and whether there is a `**kwargs`. -/
structure ParSig where
  pos : List String
  required : List String
  kwOnly : List String
  varKw : Bool

/-- The signatures of the methods of `Matrix` (ompy/matrix.py, at the line of the comment); `none`: no such method. -/
def matrixSig : String → Option ParSig
  | "verify_integrity" => some ⟨["check_equidistant"], [], [], false⟩  -- 140
  | "load" => some ⟨["path", "filetype"], ["path"], [], false⟩  -- 179-180
  | "save" => some ⟨["path", "filetype", "which"], ["path"], [], true⟩  -- 211-212
  | "calibration" => some ⟨[], [], [], false⟩  -- 261
  | "plot" => some ⟨[], [], ["ax", "title", "scale", "vmin", "vmax", "midbin_ticks", "add_cbar"], true⟩  -- 275-282
  | "plot_projection" => some ⟨["axis", "Emin", "Emax"], ["axis"], ["ax", "normalize", "scale"], true⟩  -- 375-379
  | "projection" => some ⟨["axis", "Emin", "Emax", "normalize"], ["axis"], [], false⟩  -- 417-419
  | "ascii_plot" => some ⟨["shape"], [], [], false⟩  -- 455
  | "cut" => some ⟨["axis", "Emin", "Emax", "inplace", "Emin_inclusive", "Emax_inclusive"], ["axis"], [], false⟩  -- 484-489
  | "cut_like" => some ⟨["other", "inplace"], ["other"], [], false⟩  -- 555-556
  | "cut_diagonal" => some ⟨["E1", "E2", "inplace"], [], [], false⟩  -- 576-578
  | "line_mask" => some ⟨["E1", "E2"], ["E1", "E2"], [], false⟩  -- 604-605
  | "trapezoid" => some ⟨["Ex_min", "Ex_max", "Eg_min", "Eg_max", "inplace"], ["Ex_min", "Ex_max", "Eg_min"], [], false⟩  -- 641-643
  | "rebin" => some ⟨["axis", "mids", "factor", "inplace"], ["axis"], [], false⟩  -- 691-694
  | "diagonal_elements" => some ⟨[], [], [], false⟩  -- 755
  | "fill" => some ⟨["Eg", "Ex", "count"], ["Eg", "Ex"], [], false⟩  -- 767
  | "fill_negative" => some ⟨["window_size"], ["window_size"], [], false⟩  -- 776
  | "remove_negative" => some ⟨[], [], [], false⟩  -- 780
  | "fill_and_remove_negative" => some ⟨["window_size"], [], [], false⟩  -- 784-785
  | "index_Eg" => some ⟨["E"], ["E"], [], false⟩  -- 796
  | "index_Ex" => some ⟨["E"], ["E"], [], false⟩  -- 801
  | "indices_Eg" => some ⟨["E"], ["E"], [], false⟩  -- 806
  | "indices_Ex" => some ⟨["E"], ["E"], [], false⟩  -- 811
  | "to_lower_bin" => some ⟨[], [], [], false⟩  -- 851
  | "to_mid_bin" => some ⟨[], [], [], false⟩  -- 858
  | "iter" => some ⟨[], [], [], false⟩  -- 865
  | "has_equal_binning" => some ⟨["other"], ["other"], [], true⟩  -- 870
  | _ => none

/-- How python binds `args` and `kwargs` of `getattr(target, func)(*args, **kwargs)`, ompy/action.py:29, to the
parameters: too many positional arguments, a keyword for a parameter that has its value already, an unknown keyword
and a missing argument are a TypeError.  The result is the list of the given parameters with their values. -/
def bindArgs {V : Type} (sg : ParSig) (args : List V) (kw : Dict V) : Except Err (Dict V) :=
  let given := sg.pos.take args.length
  if sg.pos.length < args.length then .error .typeError
  else if ∃ p ∈ kw, p.1 ∈ given then .error .typeError
  else if sg.varKw = false ∧ ∃ p ∈ kw, p.1 ∉ sg.pos ∧ p.1 ∉ sg.kwOnly then .error .typeError
  else if ∃ r ∈ sg.required, r ∉ given ∧ r ∉ kw.map Prod.fst then .error .typeError
  else .ok (sg.pos.zip args ++ kw)

/-- A call of a method of `Matrix`: `getattr` of an unknown name is an AttributeError; `body` is what the method does
with the bound arguments. -/
def matrixExec {V R σ : Type} (body : String → Dict V → σ → σ × Except Err R) : Exec V R σ :=
  fun name args kw s =>
    match matrixSig name with
    | none => (s, .error .attributeError)
    | some sg =>
      match bindArgs sg args kw with
      | .error e => (s, .error e)
      | .ok d => body name d s

/-- Arguments of a cut: a number, `None`, a truth value, anything else. -/
inductive CutArg
  | num (q : ℚ)
  | nil
  | flag (b : Bool)
  | other
deriving DecidableEq

/-- A parameter that must be a number. -/
def CutArg.toNum : Option CutArg → Except Err ℚ
  | some (.num q) => .ok q
  | _ => .error .typeError

/-- `Eg_max`, ompy/matrix.py:642, 663: not given or `None` is automatic. -/
def CutArg.toLimit : Option CutArg → Except Err (Option ℚ)
  | none => .ok none
  | some .nil => .ok none
  | some (.num q) => .ok (some q)
  | some _ => .error .typeError

/-- `if inplace`, ompy/matrix.py:643, 683: the truth value of the object; not given is `True`. -/
def CutArg.toFlag : Option CutArg → Bool
  | none => true
  | some (.flag b) => b
  | some .nil => false
  | some (.num q) => decide (q ≠ 0)
  | some .other => true

/-- The body of `trapezoid`, ompy/matrix.py:641-689, with bound arguments; `rest` stands for the other methods. -/
def trapBody (rest : String → Dict CutArg → Mat → Mat × Except Err (Option Mat)) (name : String)
    (d : Dict CutArg) (m : Mat) : Mat × Except Err (Option Mat) :=
  if name = "trapezoid" then
    match CutArg.toNum (d.get? "Ex_min"), CutArg.toNum (d.get? "Ex_max"), CutArg.toNum (d.get? "Eg_min"),
        CutArg.toLimit (d.get? "Eg_max") with
    | .ok a, .ok b, .ok c, .ok g => m.trapezoidCall a b c g (CutArg.toFlag (d.get? "inplace"))
    | _, _, _, _ => (m, .error .typeError)
  else rest name d m

/-- The cuts of `_extract`, ompy/extractor.py:300-306, on copies of member `num` and of the uncertainties: both matrices and
the Action afterwards, which is the object of the caller. -/
def extractCut {R : Type} (exec : Exec CutArg R Mat) (num : ℕ) (a : Action CutArg) (matrix std : Mat) :
    Except Err (Mat × Mat) × Action CutArg :=
  match a.actOn exec matrix with
  | (_, .error e) => (.error e, a)
  | (m, .ok _) =>
    if num = 0 then
      match m.Eg.getLast? with
      | none => (.error .indexError, a)
      | some e =>
        let a' := a.curry [("Eg_max", .num e)]
        match a'.actOn exec std with
        | (_, .error er) => (.error er, a')
        | (s, .ok _) => (.ok (m, s), a')
    else
      match a.actOn exec std with
      | (_, .error er) => (.error er, a)
      | (s, .ok _) => (.ok (m, s), a)

/-- The loop of `rhosigchi` over the recorded calls, ompy/extractor.py:233-238: `'trapezoid' in call` is a comparison with
the name; `call[-1]` is the dict of the keywords.  `none` are the three `None` of line 233. -/
def rscReadLimits {V : Type} (calls : List (Call V)) (acc : Option (V × V × V)) : Except Err (Option (V × V × V)) :=
  match calls with
  | [] => .ok acc
  | c :: cs =>
    if c.name = "trapezoid" then
      match c.kwargs.get? "Ex_min", c.kwargs.get? "Ex_max", c.kwargs.get? "Eg_min" with
      | some a, some b, some g => rscReadLimits cs (some (a, b, g))
      | _, _, _ => .error .keyError
    else rscReadLimits cs acc

/-- The three limits as `pyrhosigchi` uses them, ompy/pyrhosigchi.py:311-313: arithmetic with `None` is a TypeError. -/
def rscUseLimits (l : Option (CutArg × CutArg × CutArg)) : Except Err (ℚ × ℚ × ℚ) :=
  match l with
  | none => .error .typeError
  | some (a, b, g) =>
    match CutArg.toNum (some a), CutArg.toNum (some b), CutArg.toNum (some g) with
    | .ok x, .ok y, .ok z => .ok (x, y, z)
    | _, _, _ => .error .typeError

end Ompy
