import Verif.Basic
import Mathlib.Data.List.Basic

/-!
# Model of delayed method calls (`ompy/action.py`)

Argument values `V`, results `R` and target states `σ` are arbitrary types; what a method does is an
arbitrary function `exec`, which may raise and may change the target.
-/

namespace Ompy

/-- Keyword arguments: a Python dict (insertion ordered). -/
abbrev Dict (V : Type) := List (String × V)

/-- `d[k]`. -/
def Dict.get? {V : Type} (d : Dict V) (k : String) : Option V :=
  match d with
  | [] => none
  | (k', v) :: t => if k' = k then some v else Dict.get? t k

/-- `d[k] = v`: overwrite in place, otherwise append. -/
def Dict.set {V : Type} (d : Dict V) (k : String) (v : V) : Dict V :=
  match d with
  | [] => [(k, v)]
  | (k', v') :: t => if k' = k then (k', v) :: t else (k', v') :: Dict.set t k v

/-- `d.update(kw)`. -/
def Dict.update {V : Type} (d kw : Dict V) : Dict V := kw.foldl (fun d p => Dict.set d p.1 p.2) d

/-- One recorded call `[name, args, kwargs]`, ompy/action.py:55. -/
structure Call (V : Type) where
  name : String
  args : List V
  kwargs : Dict V

/-- An `Action`: the names patched in by `patch` (ompy/action.py:20-24) and the recorded calls. -/
structure Action (V : Type) where
  names : List String
  calls : List (Call V)

/-- `Action.__init__`, ompy/action.py:8-15.  `own base` lists the callables in the class's own
`__dict__`; inherited methods are not patched. -/
def Action.new {V : Type} (own : String → List String) (base : String) :
    Except Err (Action V) :=
  if base.toLower = "matrix" then .ok ⟨own "matrix", []⟩
  else if base.toLower = "vector" then .ok ⟨own "vector", []⟩
  else .error .valueError

/-- Calling a patched method on the action, ompy/action.py:42-57: append the call. A name that was
not patched is an AttributeError. -/
def Action.record {V : Type} (a : Action V) (c : Call V) : Except Err (Action V) :=
  if c.name ∈ a.names then .ok { a with calls := a.calls ++ [c] } else .error .attributeError

/-- `curry`, ompy/action.py:40-42: update the kwargs of every call recorded so far. -/
def Action.curry {V : Type} (a : Action V) (kw : Dict V) : Action V :=
  { a with calls := a.calls.map fun c => { c with kwargs := Dict.update c.kwargs kw } }

/-- What a method call does to a target: the new state of the target and the result or exception. -/
abbrev Exec (V R σ : Type) := String → List V → Dict V → σ → σ × Except Err R

/-- The loop of `act_on`, ompy/action.py:26-31, with the list of results so far. An exception
leaves the loop; the effects of the calls made until then stay. -/
def actLoop {V R σ : Type} (exec : Exec V R σ) : List (Call V) → List R → σ → σ × Except Err (List R)
  | [], acc, s => (s, .ok acc)
  | c :: cs, acc, s =>
    match exec c.name c.args c.kwargs s with
    | (s', .error e) => (s', .error e)
    | (s', .ok r) => actLoop exec cs (acc ++ [r]) s'

/-- `act_on`, ompy/action.py:26-31. -/
def Action.actOn {V R σ : Type} (exec : Exec V R σ) (a : Action V) (s : σ) :
    σ × Except Err (List R) :=
  actLoop exec a.calls [] s

/-- The loop of `map`, ompy/action.py:33-38: the collection holds references to targets in a store. -/
def mapLoop {V R σ : Type} (exec : Exec V R σ) (a : Action V) :
    List ℕ → List (List R) → (ℕ → σ) → (ℕ → σ) × Except Err (List (List R))
  | [], acc, st => (st, .ok acc)
  | t :: ts, acc, st =>
    match a.actOn exec (st t) with
    | (s', .error e) => (Function.update st t s', .error e)
    | (s', .ok r) => mapLoop exec a ts (acc ++ [r]) (Function.update st t s')

/-- `map`, ompy/action.py:33-38. -/
def Action.map {V R σ : Type} (exec : Exec V R σ) (a : Action V) (ts : List ℕ) (st : ℕ → σ) :
    (ℕ → σ) × Except Err (List (List R)) :=
  mapLoop exec a ts [] st

end Ompy
