import Verif.RhoSigChi
import Verif.Rounding

/-!
# Model of the arrays at the border between Python and C++

`iterate_proxy` (ompy/rhosigchi.cpp:282-292) takes numpy arrays as `py::array_t<T, c_style | forcecast>`: pybind11 hands
over the memory of the array if its type is `T` and its elements lie in C order, and a converted copy otherwise.  The
class `Array` (13-98) then works on the memory it is given.
-/

namespace Ompy

/-- The element types that occur: `double`, `int` (32 bits) and what numpy makes of Python integers and of
`np.float32`. -/
inductive CType
  | f64
  | i32
  | i64
  | f32
  deriving DecidableEq, Repr

/-- A numpy array: type, order of the elements, flag `writeable`, shape and the number of its memory. -/
structure NpArr where
  ctype : CType
  cOrder : Bool
  writable : Bool
  shape : List ℕ
  buf : ℕ
  deriving DecidableEq

/-- Memory: the number of the next free block and the elements of every block in the order of the array that owns it. -/
structure Mem where
  next : ℕ
  cell : ℕ → ℕ → ℚ

/-- Conversion to `int`: the fraction is dropped and 32 bits are kept. -/
def toInt32 (x : ℚ) : ℤ := (truncZ x + 2 ^ 31) % 2 ^ 32 - 2 ^ 31

/-- Conversion of an element by numpy; `np.float32` and `np.int64` occur as sources only and are left alone. -/
def castTo : CType → ℚ → ℚ
  | .f64, x => dbl x
  | .i32, x => (toInt32 x : ℚ)
  | _, x => x

/-- pybind11's conversion of an argument `py::array_t<T, c_style | forcecast>`, ompy/rhosigchi.cpp:282-287. -/
def forcecast (t : CType) (m : Mem) (a : NpArr) : Mem × NpArr :=
  if a.ctype = t ∧ a.cOrder = true then (m, a)
  else (⟨m.next + 1, Function.update m.cell m.next fun k => castTo t (m.cell a.buf k)⟩, ⟨t, true, true, a.shape, m.next⟩)

/-- An object of class `Array`, ompy/rhosigchi.cpp:13-20. -/
structure CppArr where
  data : ℕ
  ndim : ℕ
  xsize : ℕ
  ysize : ℕ
  zsize : ℕ
  deriving DecidableEq

/-- The constructor, ompy/rhosigchi.cpp:23-32: `mutable_data` raises `ValueError` for memory that must not be written. -/
def cppArr (a : NpArr) : Except Err CppArr :=
  if a.writable = false then .error .valueError
  else if a.shape.length > 3 then .error .runtimeError
  else .ok ⟨a.buf, a.shape.length, a.shape.getD 0 1, a.shape.getD 1 1, a.shape.getD 2 1⟩

/-- Number of elements between `begin()` and `end()`, ompy/rhosigchi.cpp:39-43. -/
def CppArr.size (a : CppArr) : ℕ := a.xsize * a.ysize * a.zsize

/-- `operator()(i)`, ompy/rhosigchi.cpp:48-63: the cell. -/
def CppArr.at1 (a : CppArr) (i : ℕ) : Except Err ℕ :=
  if a.ndim ≠ 1 then .error .runtimeError else if a.xsize ≤ i then .error .runtimeError else .ok i

/-- `operator()(i, j)`, ompy/rhosigchi.cpp:64-79; cells outside of the array are undefined. -/
def CppArr.at2 (a : CppArr) (i j : ℕ) : Except Err ℕ :=
  if a.ndim ≠ 2 then .error .runtimeError else if a.xsize ≤ i then .error .runtimeError
  else if a.size ≤ i * a.ysize + j then .error .undefined else .ok (i * a.ysize + j)

/-- `operator()(i, j, k)`, ompy/rhosigchi.cpp:80-95: the test of the number of axes is the one for two. -/
def CppArr.at3 (a : CppArr) (i j k : ℕ) : Except Err ℕ :=
  if a.ndim ≠ 2 then .error .runtimeError else if a.xsize ≤ i then .error .runtimeError
  else if a.size ≤ i * (a.ysize * a.zsize) + j * a.zsize + k then .error .undefined
  else .ok (i * (a.ysize * a.zsize) + j * a.zsize + k)

/-- The arrays of `iterate`. -/
structure IterArgs (α : Type) where
  FgN : α
  sFgN : α
  rho : α
  sig : α
  igmax : α

/-- The function `iterate` on memory (ompy/rhosigchi.cpp:183-280); it may stop with an error after it has written. -/
abbrev IterCore := IterArgs CppArr → Mem → Mem × Except Err Unit

/-- `iterate_proxy`, ompy/rhosigchi.cpp:282-292.  The conversions come first; the objects `Array` are made in an order
that C++ does not fix, here from left to right. -/
def iterateProxy (core : IterCore) (m : Mem) (a : IterArgs NpArr) : Mem × Except Err Unit :=
  let c1 := forcecast .f64 m a.FgN
  let c2 := forcecast .f64 c1.1 a.sFgN
  let c3 := forcecast .f64 c2.1 a.rho
  let c4 := forcecast .f64 c3.1 a.sig
  let c5 := forcecast .i32 c4.1 a.igmax
  match cppArr c1.2, cppArr c2.2, cppArr c3.2, cppArr c4.2, cppArr c5.2 with
  | .ok x1, .ok x2, .ok x3, .ok x4, .ok x5 => core ⟨x1, x2, x3, x4, x5⟩ c5.1
  | .error e, _, _, _, _ => (c5.1, .error e)
  | _, .error e, _, _, _ => (c5.1, .error e)
  | _, _, .error e, _, _ => (c5.1, .error e)
  | _, _, _, .error e, _ => (c5.1, .error e)
  | _, _, _, _, .error e => (c5.1, .error e)

/-- A two dimensional array as the iteration of `RhoSigChi.lean` sees it. -/
def CppArr.view (m : Mem) (a : CppArr) : CArr := ⟨a.xsize, a.ysize, m.cell a.data⟩

/-- `iterate` as `IterCore`: the iteration of C54 on the blocks, which writes its two results back.  What is in the two
blocks after an error is given by `junk`. -/
def iterateCore (junk : ℕ → ℚ) (jmin jmax igmin iu0 : ℤ) (nit : ℕ) : IterCore := fun a m =>
  let p : RscIn := ⟨a.FgN.view m, a.sFgN.view m, jmin, jmax, igmin,
    (List.range a.igmax.size).map fun k => truncZ (m.cell a.igmax.data k), iu0⟩
  match p.iterate cppAccess (a.rho.view m) (a.sig.view m) nit with
  | .ok r => (⟨m.next, Function.update (Function.update m.cell a.rho.data r.1.cell) a.sig.data r.2.cell⟩, .ok ())
  | .error e => (⟨m.next, Function.update (Function.update m.cell a.rho.data junk) a.sig.data junk⟩, .error e)

end Ompy
