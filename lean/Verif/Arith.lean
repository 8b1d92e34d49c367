import Verif.Basic
import Mathlib.Data.List.Basic

/-!
# Model of the arithmetic of vectors and matrices (`ompy/abstractarray.py`)

Arrays live in a heap, objects hold addresses, so that sharing of arrays between objects is
visible.  The element type and its operations are arbitrary: every statement holds for IEEE floats
with NaN and infinities as well.
-/

namespace Ompy

/-- A numpy array: shape and flat data. -/
structure Arr (α : Type) where
  shape : List ℕ
  data : List α
  deriving DecidableEq

/-- The heap: address `k` is the `k`-th cell; allocation appends. -/
abbrev Heap (α : Type) := List (Arr α)

/-- `Vector` or `Matrix`. -/
inductive ObjKind
  | vector | matrix
  deriving DecidableEq

/-- A `Vector` or `Matrix`: addresses of its arrays (`axes` is `[E]` or `[Ex, Eg]`) and its
non-array attribute (`units`, `state`). -/
structure Obj where
  kind : ObjKind
  values : ℕ
  axes : List ℕ
  std : Option ℕ
  tag : String
  deriving DecidableEq

/-- All addresses an object refers to. -/
def Obj.addrs (o : Obj) : List ℕ := o.values :: (o.axes ++ o.std.toList)

/-- The cell at an address. -/
def cell {α : Type} (h : Heap α) (a : ℕ) : Arr α := h.getD a ⟨[], []⟩

/-- `copy.deepcopy`, ompy/abstractarray.py:20-22: one new array per array of the object. Arrays
that are the same object stay the same object in the copy (deepcopy's memo): the new address of
`a` is determined by its first occurrence. -/
def deepcopy {α : Type} (h : Heap α) (o : Obj) : Heap α × Obj :=
  let new : ℕ → ℕ := fun a => h.length + o.addrs.idxOf a
  (h ++ o.addrs.map (cell h),
    { o with values := new o.values, axes := o.axes.map new, std := o.std.map new })

/-- `np.allclose` of two arrays, for an arbitrary elementwise closeness.  Simplification: arrays
of different lengths are not close (numpy raises a ValueError or broadcasts). -/
def allclose {α : Type} (close : α → α → Bool) (a b : Arr α) : Bool :=
  a.data.length == b.data.length && (List.zipWith close a.data b.data).all id

/-- `has_equal_binning`, ompy/vector.py:537-559, ompy/matrix.py:870-892. -/
def hasEqualBinning {α : Type} (close : α → α → Bool) (h : Heap α) (a b : Obj) :
    Except Err Unit :=
  if a.kind ≠ b.kind then .error .typeError
  else if (cell h a.values).shape ≠ (cell h b.values).shape then .error .valueError
  else if a.axes.length = b.axes.length ∧
      ((List.zipWith (fun x y => allclose close (cell h x) (cell h y)) a.axes b.axes).all id) = true
    then .ok ()
  else .error .valueError

/-- The right operand. `other` is anything that is neither a number nor a Vector/Matrix. -/
inductive Operand (α : Type)
  | scalar (c : α) | obj (o : Obj) | other

/-- `result.values op= …`: write into the array of the result. -/
def writeData {α : Type} (h : Heap α) (a : ℕ) (d : List α) : Heap α :=
  h.set a { cell h a with data := d }

/-- `__add__`, `__sub__`, `__mul__`, `__truediv__` (and `__radd__`, `__rmul__`, which call them),
ompy/abstractarray.py:65-72, 83-108: copy, check the binning, then write in place into the copy. -/
def binop {α : Type} (close : α → α → Bool) (op : α → α → α) (h : Heap α) (a : Obj)
    (b : Operand α) : Heap α × Except Err Obj :=
  let (h1, r) := deepcopy h a
  match b with
  | .scalar c => (writeData h1 r.values ((cell h1 r.values).data.map fun x => op x c), .ok r)
  | .obj o =>
    match hasEqualBinning close h1 a o with
    | .error e => (h1, .error e)
    | .ok _ =>
      (writeData h1 r.values
        (List.zipWith op (cell h1 r.values).data (cell h1 o.values).data), .ok r)
  | .other => (h1, .error .typeError)

/-- `__rsub__`, `__rtruediv__`, ompy/abstractarray.py:74-81, 110-118: copy, check, then bind a newly
allocated array to `values`. -/
def rbinop {α : Type} (close : α → α → Bool) (op : α → α → α) (h : Heap α) (a : Obj)
    (b : Operand α) : Heap α × Except Err Obj :=
  let (h1, r) := deepcopy h a
  let old := cell h1 r.values
  match b with
  | .scalar c =>
    (h1 ++ [{ old with data := old.data.map fun x => op c x }], .ok { r with values := h1.length })
  | .obj o =>
    match hasEqualBinning close h1 a o with
    | .error e => (h1, .error e)
    | .ok _ =>
      (h1 ++ [{ old with data := List.zipWith op (cell h1 o.values).data old.data }],
        .ok { r with values := h1.length })
  | .other => (h1, .error .typeError)

end Ompy
