import Verif.Index
import Verif.Rebin

/-!
# Model of `ompy/vector.py`

`Vec α` is a `Vector` with entries in `α` (`ℚ` for the executable parts, `ℝ` where the
exponential function or square roots matter, `Num` where NaN matters).
-/

namespace Ompy

/-- Floats as far as NaN and infinities matter. -/
inductive Num
  | fin (q : ℚ) | nan | pinf | ninf
  deriving DecidableEq

/-- `np.isnan`. -/
def Num.isNan : Num → Bool
  | .nan => true
  | _ => false

/-- The attributes of a `Vector`, ompy/vector.py:36-82. -/
structure Vec (α : Type) where
  E : List ℚ
  values : List α
  std : Option (List α)
  units : String
  deriving DecidableEq

/-- The shape checks of `verify_integrity`, ompy/vector.py:99-103 (as a predicate). -/
def Vec.consistent {α : Type} (v : Vec α) : Bool :=
  v.E.length == v.values.length &&
    match v.std with
    | none => true
    | some s => s.length == v.values.length

/-- `verify_integrity`, ompy/vector.py:87-106, without the equidistance option. -/
def Vec.verify {α : Type} (v : Vec α) : Except Err Unit :=
  if v.consistent then .ok () else .error .valueError

/-- The constructor, ompy/vector.py:36-82, without `path`.  No `E` leaves `values` and `E` at
`None`, so the assertion in `verify_integrity` (97) fails. -/
def Vec.new {α : Type} [Zero α] (values : Option (List α)) (E : Option (List ℚ))
    (std : Option (List α)) (units : String) : Except Err (Vec α) :=
  match values, E with
  | some v, some e =>
    let r : Vec α := ⟨e, v, std, units⟩
    if r.consistent then .ok r else .error .valueError
  | none, some e =>
    let r : Vec α := ⟨e, List.replicate e.length 0, std, units⟩
    if r.consistent then .ok r else .error .valueError
  | _, none => .error .assertion

/-- `min(axis)`/`E.min()`; ValueError on an empty array. -/
def listMin : List ℚ → Except Err ℚ
  | [] => .error .valueError
  | a :: as => .ok (as.foldl min a)

/-- `max(axis)`/`E.max()`; ValueError on an empty array. -/
def listMax : List ℚ → Except Err ℚ
  | [] => .error .valueError
  | a :: as => .ok (as.foldl max a)

/-- `x if x is not None else default()`. -/
def orElseE (x : Option ℚ) (d : Except Err ℚ) : Except Err ℚ :=
  match x with
  | some q => .ok q
  | none => d

/-- `Vector.cut`, ompy/vector.py:335-367: the new content of the vector (inplace) or the returned
vector (the original is not written in that case). -/
def Vec.cut {α : Type} (v : Vec α) (emin emax : Option ℚ) : Except Err (Vec α) := do
  let lo ← orElseE emin (listMin v.E)
  let hi ← orElseE emax (listMax v.E)
  let imin ← index v.E lo
  let imax ← index v.E hi
  pure { v with
    E := pySlice v.E imin (imax + 1)
    values := pySlice v.values imin (imax + 1)
    std := v.std.map fun s => pySlice s imin (imax + 1) }

/-- `np.delete(l, positions)`. -/
def npDelete {α : Type} (l : List α) (pos : List ℕ) : List α :=
  (l.zipIdx.filter fun p => !pos.contains p.2).map Prod.fst

/-- `np.argwhere(np.isnan(values))`. -/
def nanPositions (l : List Num) : List ℕ :=
  (l.zipIdx.filter fun p => p.1.isNan).map Prod.snd

/-- `Vector.cut_nan`, ompy/vector.py:369-388. -/
def Vec.cutNan (v : Vec Num) : Vec Num :=
  let inan := nanPositions v.values
  { v with
    values := npDelete v.values inan
    E := npDelete v.E inan
    std := v.std.map fun s => npDelete s inan }

/-- `to_MeV`, ompy/vector.py:430-438. -/
def Vec.toMeV {α : Type} (v : Vec α) : Except Err (Vec α) :=
  if v.units = "MeV" then .ok v
  else if v.units = "keV" then .ok { v with E := v.E.map (· / 1000), units := "MeV" }
  else .error .notImplemented

/-- `to_keV`, ompy/vector.py:440-448. -/
def Vec.toKeV {α : Type} (v : Vec α) : Except Err (Vec α) :=
  if v.units = "keV" then .ok v
  else if v.units = "MeV" then .ok { v with E := v.E.map (· * 1000), units := "keV" }
  else .error .notImplemented

/-- `np.linspace(a, b, n)`. -/
def linspace (a b : ℚ) (n : ℕ) : List ℚ :=
  if n = 1 then [a] else (List.range n).map fun k : ℕ => a + (b - a) / ((n : ℚ) - 1) * (k : ℚ)

/-- The choice of the new mid-points in `Vector.rebin`/`Matrix.rebin`, ompy/vector.py:405-420,
ompy/matrix.py:712-738. -/
def rebinMids (old : List ℚ) (mids : Option (List ℚ)) (factor : Option ℚ) :
    Except Err (List ℚ) :=
  match mids, factor with
  | some m, none => .ok m
  | none, some f =>
    if f ≤ 0 then .error .valueError
    else match old.head?, old.getLast? with
      | some a, some b => .ok (linspace a b (truncZ ((old.length : ℚ) / f)).toNat)
      | _, _ => .error .indexError
  | _, _ => .error .valueError

/-- `Vector.rebin(inplace=True)`, ompy/vector.py:390-426: the state of the object afterwards and
the exception, if any.  `values` and `E` are assigned before `verify_integrity` runs. -/
def Vec.rebinInplace (v : Vec ℚ) (mids : Option (List ℚ)) (factor : Option ℚ) :
    Vec ℚ × Except Err Unit :=
  match rebinMids v.E mids factor with
  | .error e => (v, .error e)
  | .ok m =>
    match rebin1D v.values v.E m with
    | .error e => (v, .error e)
    | .ok r =>
      let v' : Vec ℚ := { v with values := r, E := m }
      (v', v'.verify)

/-- `Vector.rebin(inplace=False)`, ompy/vector.py:427-428: a new vector without `std` and with
the default units. -/
def Vec.rebinCopy (v : Vec ℚ) (mids : Option (List ℚ)) (factor : Option ℚ) :
    Except Err (Vec ℚ) := do
  let m ← rebinMids v.E mids factor
  let r ← rebin1D v.values v.E m
  Vec.new (some r) (some m) none "keV"

/-- `np.searchsorted` on a sorted array. `right = true`: number of entries `≤ x`; left: `< x`. -/
def searchsorted (l : List ℚ) (x : ℚ) (right : Bool) : ℕ :=
  (l.filter fun y => if right then decide (y ≤ x) else decide (y < x)).length

/-- `np.all(E[:-1] <= E[1:])`, ompy/vector.py:472. -/
def isSorted : List ℚ → Bool
  | [] => true
  | [_] => true
  | a :: b :: t => decide (a ≤ b) && isSorted (b :: t)

/-- Look-up `np.append(a, [0])[k - 1]` after the index repair of ompy/vector.py:479-485:
`k` is the search result, results `≥ n` are replaced by 0 before subtracting one, and position
`-1` is the appended zero. -/
def closestPick {α : Type} [Zero α] (a : List α) (n k : ℕ) : α :=
  let k' := if k ≥ n then 0 else k
  if k' = 0 then 0 else a.getD (k' - 1) 0

/-- `Vector.closest`, ompy/vector.py:450-497 (array-valued `E_new`). -/
def Vec.closest {α : Type} [Zero α] (v : Vec α) (enew : List ℚ) (right : Bool) :
    Except Err (Vec α) :=
  if isSorted v.E then
    .ok { v with
      E := enew
      values := enew.map fun x => closestPick v.values v.E.length (searchsorted v.E x right)
      std := v.std.map fun s =>
        enew.map fun x => closestPick s v.E.length (searchsorted v.E x right) }
  else .error .runtimeError

/-- `np.cumsum`. -/
def cumsumFrom {α : Type} [Add α] (acc : α) : List α → List α
  | [] => []
  | x :: xs => (acc + x) :: cumsumFrom (acc + x) xs

/-- `np.cumsum`. -/
def cumsum {α : Type} [Zero α] [Add α] (l : List α) : List α := cumsumFrom 0 l

/-- The `factor` argument of `cumulative`. -/
inductive CumFactor
  | none | num (q : ℚ) | str (s : String)

/-- Resolution of `factor`, ompy/vector.py:516-523. -/
def cumFactor (E : List ℚ) : CumFactor → Except Err ℚ
  | .none => .ok 1
  | .num q => .ok q
  | .str s =>
    if s.toLower ≠ "de" then .error .valueError
    else match E with
      | a :: b :: t =>
        if (List.zipWith (fun x y => y - x) (a :: b :: t) (b :: t)).all (· == b - a)
        then .ok (b - a) else .error .runtimeError
      | _ => .error .indexError

/-- `Vector.cumulative`, ompy/vector.py:499-535.  `sq`/`rt` are the square and the square root
used for the standard deviation (`cast` brings the factor into `α`). -/
def Vec.cumulative {α : Type} [Zero α] [Add α] [Mul α] (cast : ℚ → α) (rt : α → α) (v : Vec α)
    (factor : CumFactor) : Except Err (Vec α) := do
  let f ← cumFactor v.E factor
  pure { v with
    values := (cumsum v.values).map (· * cast f)
    std := v.std.map fun s => (cumsum (s.map fun x => x * x)).map fun x => rt x * cast f }

/-- `Vector.transform`, ompy/vector.py:264-297, over a field with a given exponential function.
`std` is scaled through the relative uncertainty `std/values`. In the code a zero value makes
the new `std` NaN; here division by zero gives 0, so statements about `std` carry the guard
that no value is zero. -/
def Vec.transform {α : Type} [Mul α] [Div α] (cast : ℚ → α) (ex : α → α) (v : Vec α)
    (const alpha : α) : Vec α :=
  let transformed := List.zipWith (fun x e => const * x * ex (alpha * cast e)) v.values v.E
  { v with
    values := transformed
    std := v.std.map fun s =>
      List.zipWith (· * ·) (List.zipWith (· / ·) s v.values) transformed }

end Ompy
