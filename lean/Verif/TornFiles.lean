import Verif.Ensemble

/-!
# Model of files that are written piece by piece

`np.save` opens a file, which empties it, and then writes a header and the numbers one after the other; a program may
be interrupted in between.  `np.load` of a file that ends too early raises.  The programs are those of `Ensemble.lean`
(ompy/ensemble.py:233-365); here a file operation that saves is a series of steps.
-/

namespace Ompy

/-! ### The file -/

/-- How matrices are written to and read from a file: pieces `C` in their order; `dec` is `none` if reading raises. -/
structure FileFormat (M C : Type) where
  enc : M → List C
  dec : List C → Option M

/-- Pieces of a `.npy` file: the header with the shape, and numbers. -/
inductive NpyPiece
  | header (rows cols : ℕ)
  | num (x : ℚ)
  deriving DecidableEq

/-- A two-dimensional array. -/
def NpyArr := { a : ℕ × ℕ × List ℚ // a.2.2.length = a.1 * a.2.1 }

/-- A number of a file. -/
def NpyPiece.num? : NpyPiece → Option ℚ
  | .num x => some x
  | .header _ _ => none

/-- `np.save`, called in ompy/filehandling.py:247-253. -/
def npySave (a : NpyArr) : List NpyPiece := .header a.1.1 a.1.2.1 :: a.1.2.2.map .num

/-- `np.load`, called in ompy/filehandling.py:256-259: an empty file (EOFError), one without header or with too few numbers
(ValueError) raises; numbers after the last one are not read. -/
def npyLoad : List NpyPiece → Option NpyArr
  | .header r c :: rest =>
    if h : r * c ≤ (rest.filterMap NpyPiece.num?).length then
      some ⟨(r, c, (rest.filterMap NpyPiece.num?).take (r * c)), by simp [h]⟩
    else none
  | _ => none

/-- The format of `.npy` files. -/
def npyFormat : FileFormat NpyArr NpyPiece := ⟨npySave, npyLoad⟩

/-! ### Programs that write piece by piece -/

/-- The files, as pieces. -/
abbrev TDisk (C : Type) := EKey → Option (List C)

/-- A process: its program, and the pieces still to be written if a file is open. -/
structure TProc (M α C : Type) where
  prog : Prog M α
  pend : Option (List C)

variable {M α C S : Type}

/-- One step of a process: looking for a file and reading it, opening a file for writing, writing a piece, closing it. -/
def TProc.next (fmt : FileFormat M C) (t : TProc M α C) (d : TDisk C) : TProc M α C × TDisk C :=
  match t.prog with
  | .ret a => (⟨.ret a, none⟩, d)
  | .fail e => (⟨.fail e, none⟩, d)
  | .read k c =>
    match d k with
    | none => (⟨c none, none⟩, d)
    | some l =>
      match fmt.dec l with
      | some m => (⟨c (some m), none⟩, d)
      | none => (⟨.fail .valueError, none⟩, d)
  | .write k m c =>
    match t.pend with
    | none => (⟨.write k m c, some (fmt.enc m)⟩, Function.update d k (some []))
    | some (x :: xs) => (⟨.write k m c, some xs⟩, Function.update d k (some ((d k).getD [] ++ [x])))
    | some [] => (⟨c, none⟩, d)

/-- The process pool. -/
structure TPool (M α C : Type) where
  procs : ℕ → TProc M α C
  disk : TDisk C

/-- The process that works on member `i` makes one step. -/
def tpoolStep (fmt : FileFormat M C) (s : TPool M α C) (i : ℕ) : TPool M α C :=
  ⟨Function.update s.procs i ((s.procs i).next fmt s.disk).1, ((s.procs i).next fmt s.disk).2⟩

/-- Run a schedule; an interruption is its end. -/
def tpoolRun (fmt : FileFormat M C) (sched : List ℕ) (s : TPool M α C) : TPool M α C := sched.foldl (tpoolStep fmt) s

/-- The pool after `sched` when `generate` is called with the files `d` (ompy/ensemble.py:196-201). -/
def Ens.tpool (e : Ens M S) (fmt : FileFormat M C) (d : TDisk C) (sched : List ℕ) : TPool M (M × M × M) C :=
  tpoolRun fmt sched ⟨fun i => ⟨e.step i, none⟩, d⟩

/-- The files after a series of interrupted generations. -/
def Ens.tcrashes (e : Ens M S) (fmt : FileFormat M C) (d : TDisk C) (scheds : List (List ℕ)) : TDisk C :=
  scheds.foldl (fun d sched => (e.tpool fmt d sched).disk) d

end Ompy
