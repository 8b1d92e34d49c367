import Verif.NldNorm
import Verif.GsfObj

/-!
# Normalisation of an ensemble

Model of `EnsembleNormalizer.normalize`, `step` and `normalizeStagewise` (`ompy/ensembleNormalizer.py`) around
the two normalisers of `Verif.NldNorm` and `Verif.GsfObj`.  The samples, with the random numbers for `B`,
are left out, as is saving (`Verif.NldNorm`).
-/

namespace Ompy

/-- A vector that may contain `nan` (`none`), as the extractor makes them. -/
structure RawVec where
  E : List ℚ
  values : List (Option ℝ)
  std : Option (List ℝ)
  units : String

/-- Keep the entries of a list at the positions where `values` has a number. -/
def keepAt {α β : Type} : List (Option β) → List α → List α
  | some _ :: v, x :: l => x :: keepAt v l
  | none :: v, _ :: l => keepAt v l
  | _, _ => []

/-- `cut_nan` (`ompy/vector.py` 369-388), in place. -/
def RawVec.cutNan (v : RawVec) : RawVec :=
  ⟨keepAt v.values v.E, v.values.filter Option.isSome, v.std.map (keepAt v.values), v.units⟩

/-- The vector of numbers after `cut_nan`. -/
def RawVec.toVec (v : RawVec) : Vec ℝ := ⟨v.E, v.values.filterMap id, v.std, v.units⟩

/-- The two normalisers of the ensemble normaliser. -/
structure EnsState (P B R : Type) where
  nld : NldState P B R
  gsf : GsfObj (NldPopt R)

/-- What the steps need: the fits, the checks of parameters, the spin sum, and the level density model of a
result. All are arbitrary functions. -/
structure EnsEnv (P B R : Type) where
  fitNld : NldFitIn P B → Except Err (NldPopt R)
  checkNld : P → Except Err Unit
  fitGsf : Vec ℝ → ExtModel → Except Err (ℝ × ℝ)
  checkGsf : GgPars → Except Err Unit
  spin : GgPars → ℚ → Except Err ℝ
  model : NldPopt R → ℚ → Except Err ℝ

variable {P B R : Type}

/-- `normalizer_nld.normalize(nld=nld, num=num)` after `_save_instance = False; regenerate = True`
(`ompy/ensembleNormalizer.py` 190-194). The vector is a cell at the end of the heap for the call. -/
noncomputable def nldCall (e : EnsEnv P B R) (s : NldState P B R) (nld : Vec ℝ) (num : ℕ) :
    NldState P B R × Except Err Unit :=
  let s1 : NldState P B R := { s with
    heap := s.heap ++ [nld]
    obj := { s.obj with saveInstance := false, regenerate := true } }
  let (s2, r) := s1.normalize e.fitNld e.checkNld ⟨none, none, some s.heap.length, none, none, none, num⟩
  ({ s2 with heap := s2.heap.take s.heap.length }, r)

/-- The results of the level density normaliser as the other one sees them. -/
def nldOut (e : EnsEnv P B R) (r : NldRes R) : NldOut (NldPopt R) :=
  ⟨r.nld, r.popt.alpha, e.model r.popt, r.popt⟩

/-- `normalizer_gsf.normalize(normalizer_nld=…, gsf=gsf, num=num)` (`ompy/ensembleNormalizer.py` 195-196): the
object, the vector of the caller, and the outcome. -/
noncomputable def gsfCall (e : EnsEnv P B R) (o : GsfObj (NldPopt R)) (n : Option (NldRes R)) (gsf : Vec ℝ) :
    GsfObj (NldPopt R) × Vec ℝ × Except Err Unit :=
  let (t, r) := GsfState.normalize e.fitGsf e.spin e.checkGsf ⟨[gsf], o⟩
    ⟨some 0, some (n.map (nldOut e)), none, none, none, none⟩
  (t.obj, t.heap.getD 0 gsf, r)

/-- `step` (`ompy/ensembleNormalizer.py` 137-160) with `normalizeStagewise` (179-205): both vectors are cut in
place, the strength function is converted in place. -/
noncomputable def ensStep (e : EnsEnv P B R) (s : EnsState P B R) (num : ℕ) (v : RawVec × RawVec) :
    EnsState P B R × (RawVec × RawVec) × Except Err (GsfOut (NldPopt R)) :=
  let nld := v.1.cutNan
  let gsf := v.2.cutNan
  match nldCall e s.nld nld.toVec num with
  | (s1, .error x) => (⟨s1, s.gsf⟩, (nld, gsf), .error x)
  | (s1, .ok ()) =>
    match gsfCall e s.gsf s1.obj.res gsf.toVec with
    | (o, w, .error x) => (⟨s1, o⟩, (nld, { gsf with E := w.E, units := w.units }), .error x)
    | (o, w, .ok ()) =>
      (⟨s1, o⟩, (nld, { gsf with E := w.E, units := w.units }),
        match o.res with
        | some r => .ok r
        | none => .error .attributeError)

/-- The loop in one process (`ompy/ensembleNormalizer.py` 130-133), from member `k` on: state, vectors and
results. -/
noncomputable def ensSerial (e : EnsEnv P B R) :
    EnsState P B R → ℕ → List (RawVec × RawVec) →
      EnsState P B R × List (RawVec × RawVec) × Except Err (List (GsfOut (NldPopt R)))
  | s, _, [] => (s, [], .ok [])
  | s, k, v :: l =>
    match ensStep e s k v with
    | (s1, w, .error x) => (s1, w :: l, .error x)
    | (s1, w, .ok r) =>
      match ensSerial e s1 (k + 1) l with
      | (s2, ws, .error x) => (s2, w :: ws, .error x)
      | (s2, ws, .ok rs) => (s2, w :: ws, .ok (r :: rs))

/-- The pool (`ompy/ensembleNormalizer.py` 114-121): every member is handled by a copy of the ensemble
normaliser as it is at the start, with copies of the vectors. -/
noncomputable def ensPool (e : EnsEnv P B R) (s : EnsState P B R) (l : List (RawVec × RawVec)) :
    Except Err (List (GsfOut (NldPopt R))) :=
  l.zipIdx.mapM fun p => (ensStep e s p.2 p.1).2.2

/-- `normalize` (`ompy/ensembleNormalizer.py` 98-135) with both stagewise normalisers: if the pool cannot be
used, or an exception reaches it, everything is done again in one process. -/
noncomputable def ensNormalize (e : EnsEnv P B R) (pool : Bool) (s : EnsState P B R)
    (l : List (RawVec × RawVec)) :
    EnsState P B R × List (RawVec × RawVec) × Except Err (List (GsfOut (NldPopt R))) :=
  match (if pool then ensPool e s l else .error .runtimeError) with
  | .ok r => (s, l, .ok r)
  | .error _ => ensSerial e s 0 l

/-- The assertion about the normalisers (`ompy/ensembleNormalizer.py` 106-110). -/
def ensCheck (nld gsf simultan : Bool) : Except Err Unit :=
  if xor (nld && gsf) simultan then .ok () else .error .assertion

end Ompy
