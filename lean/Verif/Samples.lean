import Verif.Vector
import Mathlib.Analysis.SpecialFunctions.Exp

/-!
# Samples of normalised level densities and strength functions

Model of `tranform_nld_gsf`, `EnsembleNormalizer.samples_from_res` and `samples_unify_E`
(`ompy/ensembleNormalizer.py`).  A table of samples is a list of named columns in the order of the
dictionary; the random order of the rows is an arbitrary list.
-/

namespace Ompy

/-- The argument `nld` or `gsf`: missing, one vector, or a list. -/
inductive VecArg
  | missing
  | one (v : Vec ℝ)
  | many (l : List (Vec ℝ))

/-- The samples: name and column. -/
abbrev Samples := List (String × List ℝ)

/-- `samples[key]`. -/
def Samples.get (s : Samples) (key : String) : Except Err (List ℝ) :=
  match s.find? (·.1 = key) with
  | some c => .ok c.2
  | none => .error .keyError

/-- A row of the result: the label, the parameters by name, and the two vectors. -/
structure SampleRow where
  label : ℕ
  pars : List (String × ℝ)
  nld : Vec ℝ
  gsf : Vec ℝ

/-- `N` of one argument (`ompy/ensembleNormalizer.py` 685-688, 694-697). -/
def VecArg.count (a : VecArg) (n : ℕ) (nMax : ℤ) : Option ℤ :=
  match a with
  | .missing => none
  | .one _ => some (min (n : ℤ) nMax)
  | .many l => some l.length

/-- The columns an argument needs (`ompy/ensembleNormalizer.py` 682-684, 691-693): the constant and the slope.
For a missing argument they are not looked up. -/
def VecArg.columns (a : VecArg) (s : Samples) (const : String) : Except Err (List ℝ × List ℝ) :=
  match a with
  | .missing => .ok ([], [])
  | _ => do
    let c ← s.get const
    let al ← s.get "alpha"
    pure (c, al)

/-- The vector of pass `i` (`ompy/ensembleNormalizer.py` 705-708, 716-719); `None[i]` and an index out of range are
exceptions. -/
def VecArg.pick (a : VecArg) (i : ℕ) : Option (Vec ℝ) :=
  match a with
  | .missing => none
  | .one v => some v
  | .many l => l[i]?

/-- One pass of the loop for one argument (`ompy/ensembleNormalizer.py` 704-713, 715-724): the vector
transformed with the parameters of sample `k`, or nothing after any exception. -/
noncomputable def VecArg.transformed (a : VecArg) (c al : List ℝ) (i k : ℕ) : Option (Vec ℝ) :=
  match a.pick i, c[k]?, al[k]? with
  | some v, some x, some y => some (v.transform (fun q : ℚ => (q : ℝ)) Real.exp x y)
  | _, _, _ => none

/-- `randlist[:N]`. -/
def takeZ (l : List ℕ) (N : ℤ) : List ℕ := if 0 ≤ N then l.take N.toNat else l.take (l.length - N.natAbs)

/-- `tranform_nld_gsf` (`ompy/ensembleNormalizer.py` 646-732). `order` is the shuffled list of row numbers.
No columns at all, or both arguments missing, is an `UnboundLocalError` (a `NameError`); more vectors than
samples an `IndexError`; columns of different length, or a list of results that is too short, a
`ValueError` of pandas. -/
noncomputable def transformSamples (s : Samples) (nld gsf : VecArg) (nMax : ℤ) (order : List ℕ) :
    Except Err (List SampleRow) :=
  match s.head? with
  | none => .error .nameError
  | some c0 =>
    let n := c0.2.length
    do
      let a ← nld.columns s "A"
      let b ← gsf.columns s "B"
      match (gsf.count n nMax).orElse fun _ => nld.count n nMax with
      | none => .error .nameError
      | some N =>
        if order.length < N.toNat then .error .indexError
        else
          let idx := (order.take N.toNat).zipIdx
          let nlds := idx.filterMap fun p => nld.transformed a.1 a.2 p.2 p.1
          let gsfs := idx.filterMap fun p => gsf.transformed b.1 b.2 p.2 p.1
          if s.any fun c => c.2.length ≠ n then .error .valueError
          else
            let sel := takeZ order N
            if nlds.length ≠ sel.length ∨ gsfs.length ≠ sel.length then .error .valueError
            else
              .ok (List.zipWith3 (fun k v g => ⟨k, s.map fun c => (c.1, c.2.getD k 0), v, g⟩) sel nlds gsfs)

/-- `samples_from_res` (`ompy/ensembleNormalizer.py` 309-334): the rows of all results, each with the vectors of
the extractor in MeV. Without results there is an `UnboundLocalError`. `orders` has one order per result. -/
noncomputable def samplesFromRes (res : List Samples) (nlds gsfs : List (Vec ℝ)) (orders : List (List ℕ)) :
    Except Err (List SampleRow) :=
  match res with
  | [] => .error .nameError
  | _ => do
    let rows ← (res.zip orders).zipIdx.mapM fun p =>
      match nlds[p.2]?, gsfs[p.2]? with
      | some v, some g => do
        let v' ← v.toMeV
        let g' ← g.toMeV
        transformSamples p.1.1 (.one v') (.one g') 100 p.1.2
      | _, _ => .error .indexError
    pure rows.flatten

/-! ## A common grid -/

/-- A vector with `nan` entries as `none`. -/
structure GridVec where
  E : List ℚ
  values : List (Option ℝ)
  std : Option (List ℝ)

/-- `vec_extend` (`ompy/ensembleNormalizer.py` 735-745). -/
def GridVec.ends (v : GridVec) : Except Err (ℚ × ℚ) :=
  match v.E.head?, v.E.getLast? with
  | some a, some b => .ok (a, b)
  | _, _ => .error .indexError

/-- Put a number into an ascending list, once. -/
def insertOnce (x : ℚ) : List ℚ → List ℚ
  | [] => [x]
  | y :: l => if x < y then x :: y :: l else if x = y then y :: l else y :: insertOnce x l

/-- `np.union1d`: ascending, each number once. -/
def union1d (a b : List ℚ) : List ℚ := (a ++ b).foldl (fun l x => insertOnce x l) []

/-- `vec_extend_values` (`ompy/ensembleNormalizer.py` 432-439): the value at each energy of the union the vector
has, taken one after the other from its values at energies of the union; `nan` elsewhere. `std` is left. -/
def GridVec.extend (v : GridVec) (U : List ℚ) : GridVec :=
  let kept := (v.E.zip v.values).filterMap fun p => if p.1 ∈ U then some p.2 else none
  let rec go : List ℚ → List (Option ℝ) → List (Option ℝ)
    | [], _ => []
    | e :: U, k => if e ∈ v.E then k.headD none :: go U k.tail else none :: go U k
  ⟨U, go U kept, v.std⟩

/-- First index of the smallest (`least`) or largest value. -/
def argBest (better : ℚ → ℚ → Bool) (l : List ℚ) : ℕ :=
  ((List.range l.length).foldl (fun k i => if better (l.getD i 0) (l.getD k 0) then i else k) 0)

/-- `samples_unify_E` (`ompy/ensembleNormalizer.py` 411-443). -/
def unifyE (l : List GridVec) : Except Err (List GridVec) := do
  let ends ← l.mapM GridVec.ends
  match ends.head? with
  | none => .error .indexError
  | some e0 =>
    if ends.all (· = e0) then pure l
    else
      let i := argBest (· < ·) (ends.map (·.1))
      let j := argBest (· > ·) (ends.map (·.2))
      let U := union1d ((l.map (·.E)).getD i []) ((l.map (·.E)).getD j [])
      pure (l.map fun v => v.extend U)

end Ompy
