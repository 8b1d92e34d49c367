import Verif.Action

/-!
# Model of the result file of a normaliser that is written piece by piece

The four normalisers load their own result if `regenerate` is false and there is a file, otherwise they calculate and
save themselves with `dill`: ompy/normalizer_nld.py:171-230, ompy/normalizer_gsf.py:149-222,
ompy/normalizer_simultan.py:116-184, ompy/ensembleNormalizer.py:100-135, with `save` and `load` of
ompy/abstract_normalizer.py:27-69.  A call may be interrupted at any point.
-/

namespace Ompy

/-- Exceptions of a call of `normalize`: those of the calculation and of a missing path, those of `dill.load` for a
file that is no complete pickle (EOFError, UnpicklingError), and those of `dill.dump` for an attribute that cannot be
pickled. -/
inductive PErr
  | err (e : Err)
  | unpickling
  | pickling
  deriving DecidableEq

/-- A kind of normaliser with attributes `S`, arguments `A` of `normalize`, and pieces `C` of a file.
`file`: ompy/abstract_normalizer.py:40-42 and 61-62, `none` for `path=None`; `regen` and `saves`: 23-25;
`upd`: the update of the attributes by those of the file, 67; `work`: everything `normalize` does between the attempt
to load and `save`, which changes attributes also if it raises; `dump`: the pieces `dill.dump` writes, 44-45, and
whether it comes to an end; `parse`: `dill.load`, 65-66. -/
structure NormKind (S A C : Type) where
  file : S → Option String
  regen : S → Bool
  saves : S → Bool
  upd : S → S → S
  work : S → A → S × Except Err Unit
  dump : S → List C × Bool
  parse : List C → Option S

/-- Where a call is. -/
inductive NPhase (A C : Type)
  | start (a : A)
  | work (a : A)
  | save
  | write (left : List C) (whole : Bool)
  | done (r : Except PErr Unit)

/-- The object, the files, and where the call is. -/
structure NCall (S A C : Type) where
  obj : S
  disk : String → Option (List C)
  phase : NPhase A C

variable {S A C : Type}

/-- One step of a call.  `start`: the attempt to load, only a missing file is caught, ompy/normalizer_nld.py:171-176,
ompy/normalizer_gsf.py:149-155, ompy/normalizer_simultan.py:116-121, ompy/ensembleNormalizer.py:100-105;
`save`: the file is opened with 'wb', which empties it, ompy/abstract_normalizer.py:38-44. -/
def NormKind.step (K : NormKind S A C) (w : NCall S A C) : NCall S A C :=
  match w.phase with
  | .start a =>
    if K.regen w.obj then { w with phase := .work a }
    else
      match K.file w.obj with
      | none => { w with phase := .done (.error (.err .typeError)) }
      | some p =>
        match w.disk p with
        | none => { w with phase := .work a }
        | some l =>
          match K.parse l with
          | none => { w with phase := .done (.error .unpickling) }
          | some f => { w with obj := K.upd w.obj f, phase := .done (.ok ()) }
  | .work a =>
    match K.work w.obj a with
    | (s, .ok ()) => { w with obj := s, phase := .save }
    | (s, .error e) => { w with obj := s, phase := .done (.error (.err e)) }
  | .save =>
    if K.saves w.obj then
      match K.file w.obj with
      | none => { w with phase := .done (.error (.err .typeError)) }
      | some p =>
        { w with disk := Function.update w.disk p (some []), phase := .write (K.dump w.obj).1 (K.dump w.obj).2 }
    else { w with phase := .done (.ok ()) }
  | .write (x :: xs) b =>
    match K.file w.obj with
    | none => w
    | some p => { w with disk := Function.update w.disk p (some ((w.disk p).getD [] ++ [x])), phase := .write xs b }
  | .write [] true => { w with phase := .done (.ok ()) }
  | .write [] false => { w with phase := .done (.error .pickling) }
  | .done _ => w

/-- The call `normalize(a)` of an object after `k` steps; an interruption is its end. -/
def NormKind.call (K : NormKind S A C) (s : S) (d : String → Option (List C)) (a : A) (k : ℕ) : NCall S A C :=
  K.step^[k] ⟨s, d, .start a⟩

/-- What happens to the objects and the files: a call of `normalize` of object `i` that is interrupted after `k` steps
(or finished, for large `k`), an object made or its attributes set, a file deleted. -/
inductive NEvent (S A : Type)
  | call (i : ℕ) (a : A) (k : ℕ)
  | put (i : ℕ) (s : S)
  | remove (p : String)

/-- The objects and the files. -/
structure NWorld (S C : Type) where
  objs : ℕ → S
  disk : String → Option (List C)

/-- One event. -/
def NormKind.event (K : NormKind S A C) (w : NWorld S C) : NEvent S A → NWorld S C
  | .call i a k => ⟨Function.update w.objs i (K.call (w.objs i) w.disk a k).obj, (K.call (w.objs i) w.disk a k).disk⟩
  | .put i s => { w with objs := Function.update w.objs i s }
  | .remove p => { w with disk := Function.update w.disk p none }

/-- A history. -/
def NormKind.run (K : NormKind S A C) (w : NWorld S C) (h : List (NEvent S A)) : NWorld S C := h.foldl K.event w

/-! ### Pickles -/

/-- Values of attributes: a string, a flag, a number, or something that `dill` cannot pickle. -/
inductive PkVal
  | str (s : String)
  | flag (b : Bool)
  | num (q : ℚ)
  | handle
  deriving DecidableEq

/-- Pieces of a pickle: an attribute, and the opcode `STOP`. -/
inductive PkOp
  | attr (k : String) (v : PkVal)
  | stop
  deriving DecidableEq

/-- The pieces `dill.dump` has written when it ends or meets a value it cannot pickle, ompy/abstract_normalizer.py:45. -/
def pkDump : Dict PkVal → List PkOp × Bool
  | [] => ([.stop], true)
  | (_, .handle) :: _ => ([], false)
  | (k, v) :: t => (.attr k v :: (pkDump t).1, (pkDump t).2)

/-- `dill.load` reads up to the first `STOP`, ompy/abstract_normalizer.py:66. -/
def pkLoad : List PkOp → Option (Dict PkVal)
  | [] => none
  | .stop :: _ => some []
  | .attr k v :: t =>
    match pkLoad t with
    | none => none
    | some d => some ((k, v) :: d)

/-- A normaliser whose attributes are a dictionary; `cls` is the name of its class,
ompy/abstract_normalizer.py:40-42, 61-62. -/
def pkKind (cls : String) (work : Dict PkVal → A → Dict PkVal × Except Err Unit) : NormKind (Dict PkVal) A PkOp where
  file s :=
    match s.get? "path" with
    | some (.str p) => some (p ++ "/" ++ cls ++ ".pkl")
    | _ => none
  regen s := s.get? "regenerate" == some (.flag true)
  saves s := s.get? "_save_instance" == some (.flag true)
  upd s f := s.update f
  work := work
  dump := pkDump
  parse := pkLoad

end Ompy
