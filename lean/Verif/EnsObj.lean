import Verif.EnsRebin

/-!
# Model of the end of `Ensemble.generate` and of the access to the members, ompy/ensemble.py:76-127, 187-231, 465-531
-/

namespace Ompy

/-- The constructor, ompy/ensemble.py:76-127: `self.raw` (the object of the caller, whose state is set) and
`self.prompt_w_bg`, the same object.  Without `raw` the last line raises. -/
def ensInit (raw : Option Mat) : Except Err (Mat × Mat) :=
  match raw with
  | none => .error .attributeError
  | some m => .ok ({ m with state := some .raw }, { m with state := some .raw })

/-- The attributes set by `generate`. -/
structure EnsAll where
  raw : Mat
  firstgen : Mat
  rawE : List (List (List ℚ))
  unfE : List (List (List ℚ))
  fgE : List (List (List ℚ))
  stdRaw : StdMat
  stdUnf : StdMat
  stdFg : StdMat

/-- The shape of an array. -/
def shapeOf (v : List (List ℚ)) : ℕ × ℕ := (v.length, (v.getD 0 []).length)

/-- `Matrix(values, Eg, Ex, state='std')` of a computed standard deviation: the axes have to fit. -/
noncomputable def newStd (members : List (List (List ℚ))) (sh : ℕ × ℕ) (Eg Ex : List ℚ) : Except Err StdMat :=
  if sh.1 = Ex.length ∧ sh.2 = Eg.length then .ok ⟨stdOver members sh.1 sh.2, Eg, Ex⟩ else .error .valueError

/-- `generate` from the results of `step` on, ompy/ensemble.py:195-231: stacking needs arrays of one shape
(ValueError otherwise) and at least one member (IndexError of line 200 otherwise); `firstgen` is the file written by
member 0 (260-261, 207), which has neither state nor std. -/
noncomputable def ensCollect (raw : Mat) (rs : List (Mat × Mat × Mat)) : Except Err EnsAll :=
  match rs with
  | [] => .error .indexError
  | r0 :: rest => do
    let sh := shapeOf r0.1.values
    let all := r0 :: rest
    if ∃ r ∈ all, shapeOf r.1.values ≠ sh ∨ shapeOf r.2.1.values ≠ sh ∨ shapeOf r.2.2.values ≠ sh then
      .error .valueError
    else
      let rawE := all.map fun r => r.1.values
      let unfE := all.map fun r => r.2.1.values
      let fgE := all.map fun r => r.2.2.values
      let firstgen : Mat := { r0.2.2 with std := none, state := none }
      let s1 ← newStd rawE sh raw.Eg raw.Ex
      let s2 ← newStd unfE sh raw.Eg raw.Ex
      let s3 ← newStd fgE sh firstgen.Eg firstgen.Ex
      pure ⟨raw, firstgen, rawE, unfE, fgE, s1, s2, s3⟩

/-- One element of an array of members, as numpy indexes it: negative numbers count from the end. -/
def pyAt {α : Type} (l : List α) (i : ℤ) : Except Err α :=
  let k := if i < 0 then i + l.length else i
  if k < 0 then .error .indexError
  else match l[k.toNat]? with
    | some a => .ok a
    | none => .error .indexError

/-- The argument of `get_raw` and so on. -/
inductive IdxArg
  | one (i : ℤ) | many (l : List ℤ)

/-- A matrix or a list of matrices. -/
inductive GetRes
  | mat (m : Mat) | list (l : List Mat)

/-- `Matrix(self.raw_ensemble[i], Eg, Ex, state=…)`; the values are two-dimensional. -/
def memberMat (ens : List (List (List ℚ))) (Eg Ex : List ℚ) (state : Option MState) (i : ℤ) : Except Err Mat := do
  let v ← pyAt ens i
  Mat.new v Eg.length (some Eg) (some Ex) none state

/-- The common body of `get_raw`, `get_unfolded` and `get_firstgen`, ompy/ensemble.py:465-531: an integer is not
iterable, which leads to the second construction; that one alone gives a state.  Without ensemble (`None`) both raise
TypeError, except for an empty list. -/
def getMember (ens : Option (List (List (List ℚ)))) (Eg Ex : List ℚ) (state : Option MState) (a : IdxArg) :
    Except Err GetRes :=
  match ens, a with
  | none, .many [] => .ok (.list [])
  | none, _ => .error .typeError
  | some ens, .many l => do
    let ms ← l.mapM (memberMat ens Eg Ex none)
    pure (.list ms)
  | some ens, .one i => do
    let m ← memberMat ens Eg Ex state i
    pure (.mat m)

/-- `get_raw`, ompy/ensemble.py:465-484: no state is given. -/
def EnsAll.getRaw (e : EnsAll) (a : IdxArg) : Except Err GetRes := getMember (some e.rawE) e.raw.Eg e.raw.Ex none a

/-- `get_unfolded`, ompy/ensemble.py:486-507: with the axes of `raw`. -/
def EnsAll.getUnfolded (e : EnsAll) (a : IdxArg) : Except Err GetRes :=
  getMember (some e.unfE) e.raw.Eg e.raw.Ex (some .unfolded) a

/-- `get_firstgen`, ompy/ensemble.py:509-531: with the axes of `firstgen`. -/
def EnsAll.getFirstgen (e : EnsAll) (a : IdxArg) : Except Err GetRes :=
  getMember (some e.fgE) e.firstgen.Eg e.firstgen.Ex (some .firstGeneration) a

end Ompy
