import Verif.Basic
import Mathlib.Data.List.TakeWhile

/-!
# Arguments that default to attributes

Model of `self_if_none` and `_retrieve_name` (`ompy/library.py`).  The name of the attribute is found by
a regular expression in the source line of the call.
-/

namespace Ompy

/-- The group of `\((\w+).*\).*` matched at the beginning of a text; `w` are the characters of `\w`. -/
def nameAt (w : Char → Bool) : List Char → Option (List Char)
  | [] => none
  | c :: rest =>
    if c = '(' ∧ rest.takeWhile w ≠ [] ∧ ')' ∈ rest.dropWhile w then some (rest.takeWhile w) else none

/-- `_retrieve_name` (`ompy/library.py` 414-431) as a function of the stripped source line: the greedy
`.*` in front makes it the last place where the rest matches. -/
def retrieveName (w : Char → Bool) : List Char → Option (List Char)
  | [] => none
  | c :: rest =>
    match retrieveName w rest with
    | some n => some n
    | none => nameAt w (c :: rest)

/-- `self_if_none` (`ompy/library.py` 387-410). `attrs` are the attributes of the instance: `none` if there
is no such attribute, `some none` if it is `None`. -/
def selfIfNoneOf {α : Type} (w : Char → Bool) (attrs : List Char → Option (Option α)) (line : List Char)
    (arg : Option α) (nonable : Bool) : Except Err (Option α) :=
  match retrieveName w line with
  | none => .error .assertion
  | some n =>
    match arg with
    | some x => .ok (some x)
    | none =>
      match attrs n with
      | none => .error .attributeError
      | some v => if !nonable && v.isNone then .error .valueError else .ok v

end Ompy
