import Verif.RhoSigChiFit
import Mathlib.Analysis.SpecialFunctions.Pow.Real
import Mathlib.Analysis.SpecialFunctions.Log.Basic

/-!
# Model of `ompy/spinfunctions.py` and of the D0 conversion in `ompy/normalizer_nld.py`

Real arithmetic.  The functions are elementwise in the excitation energy, so the model takes one
energy.  Division by zero (`inf` or `nan` in numpy) is the value `Err.undefined`.
-/

namespace Ompy

/-- A parameter of a spin-cut model: a number or a pair `(energy, value)`. -/
inductive SPar
  | num (x : ℝ)
  | pair (e v : ℝ)

/-- `spincutPars`: parameters by name. -/
abbrev SPars := String → Option SPar

/-- `pars_req <= set(pars)` of `call_model` (`ompy/library.py` 302-311). -/
def hasAll (pars : SPars) (req : List String) : Bool := req.all fun n => (pars n).isSome

/-- A parameter used as a number; a pair in arithmetic with arrays does not give the intended shape and
is not followed further. -/
def SPars.num (pars : SPars) (n : String) : Except Err ℝ :=
  match pars n with
  | some (.num x) => .ok x
  | _ => .error .undefined

/-- A parameter indexed with `[0]` and `[1]`; a number cannot be. -/
def SPars.pair (pars : SPars) (n : String) : Except Err (ℝ × ℝ) :=
  match pars n with
  | some (.pair e v) => .ok (e, v)
  | _ => .error .typeError

/-- Truncation towards zero of a real number (storing a float in an integer array). -/
noncomputable def truncRe (x : ℝ) : ℤ := if 0 ≤ x then ⌊x⌋ else ⌈x⌉

/-- `gconst` (`ompy/spinfunctions.py` 71-83): `np.full_like` keeps the type of `Ex`, so an integer
energy gets a truncated value. -/
noncomputable def gconst (intEx : Bool) (sigma : ℝ) : ℝ :=
  if intEx then (truncRe (sigma ^ 2) : ℝ) else sigma ^ 2

/-- `Eeff[Eeff < 0] = 0`. -/
noncomputable def eeff (e : ℝ) : ℝ := if e < 0 then 0 else e

/-- `gEB05` (`ompy/spinfunctions.py` 85-109). -/
noncomputable def gEB05 (mass NLDa Eshift Ex : ℝ) : Except Err ℝ :=
  if 2 * NLDa = 0 ∨ 1 + 4 * NLDa * eeff (Ex - Eshift) < 0 then .error .undefined
  else .ok (146 / 10000 * mass ^ ((5 : ℝ) / 3) * (1 + Real.sqrt (1 + 4 * NLDa * eeff (Ex - Eshift))) /
    (2 * NLDa))

/-- `gEB09_CT` (`ompy/spinfunctions.py` 111-126). -/
noncomputable def gEB09CT (mass : ℝ) : ℝ := (98 / 100 * mass ^ ((29 : ℝ) / 100)) ^ 2

/-- `gEB09_emp` (`ompy/spinfunctions.py` 128-148). -/
noncomputable def gEB09emp (mass Pa Ex : ℝ) : ℝ :=
  391 / 1000 * mass ^ ((675 : ℝ) / 1000) * eeff (Ex - 1 / 2 * Pa) ^ ((312 : ℝ) / 1000)

/-- `interp1d([x0, x1], [y0, y1], bounds_error=False, fill_value=(fl, fh))(x)`: the points are sorted,
outside of them the fill values are used. -/
noncomputable def interpTwo (x0 y0 x1 y1 fl fh x : ℝ) : Except Err ℝ :=
  let lo := min x0 x1
  let hi := max x0 x1
  if x < lo then .ok fl
  else if hi < x then .ok fh
  else if x0 = x1 then .error .undefined
  else .ok (y0 + (y1 - y0) / (x1 - x0) * (x - x0))

/-- `gDisc_and_EB05` (`ompy/spinfunctions.py` 150-187). -/
noncomputable def gDiscEB05 (mass NLDa Eshift Sn : ℝ) (disc : ℝ × ℝ) (Ex : ℝ) : Except Err ℝ := do
  let sSn ← gEB05 mass NLDa Eshift Sn
  let s ← interpTwo disc.1 disc.2 Sn sSn disc.2 sSn Ex
  let e ← gEB05 mass NLDa Eshift Ex
  pure (if Ex < Sn then s else e)

/-- `gDisc_and_sigmaSn` (`ompy/spinfunctions.py` 189-220). -/
noncomputable def gDiscSn (disc sn : ℝ × ℝ) (Ex : ℝ) : Except Err ℝ :=
  interpTwo disc.1 disc.2 sn.1 sn.2 disc.2 sn.2 Ex

/-- `get_sigma2` (`ompy/spinfunctions.py` 25-50). -/
noncomputable def getSigma2 (model : String) (pars : SPars) (intEx : Bool) (Ex : ℝ) : Except Err ℝ :=
  if model = "const" then
    if hasAll pars ["sigma"] then do
      let s ← pars.num "sigma"
      pure (gconst intEx s)
    else .error .typeError
  else if model = "EB05" then
    if hasAll pars ["mass", "NLDa", "Eshift"] then do
      let m ← pars.num "mass"
      let a ← pars.num "NLDa"
      let e ← pars.num "Eshift"
      gEB05 m a e Ex
    else .error .typeError
  else if model = "EB09_CT" then
    if hasAll pars ["mass"] then do
      let m ← pars.num "mass"
      pure (gEB09CT m)
    else .error .typeError
  else if model = "EB09_emp" then
    if hasAll pars ["mass", "Pa_prime"] then do
      let m ← pars.num "mass"
      let p ← pars.num "Pa_prime"
      pure (gEB09emp m p Ex)
    else .error .typeError
  else if model = "Disc_and_EB05" then
    if hasAll pars ["mass", "NLDa", "Eshift", "Sn", "sigma2_disc"] then do
      let m ← pars.num "mass"
      let a ← pars.num "NLDa"
      let e ← pars.num "Eshift"
      let s ← pars.num "Sn"
      let d ← pars.pair "sigma2_disc"
      gDiscEB05 m a e s d Ex
    else .error .typeError
  else if model = "Disc_and_sigmaSn" then
    if hasAll pars ["sigma2_disc", "sigma2_Sn"] then do
      let d ← pars.pair "sigma2_disc"
      let s ← pars.pair "sigma2_Sn"
      gDiscSn d s Ex
    else .error .typeError
  else .error .typeError

/-- The value of `distribution` for one spin-cut (`ompy/spinfunctions.py` 65-67). -/
noncomputable def spinDist (sigma2 J : ℝ) : Except Err ℝ :=
  if 2 * sigma2 = 0 then .error .undefined
  else .ok ((2 * J + 1) / (2 * sigma2) * Real.exp (-(J + 1 / 2) ^ 2 / (2 * sigma2)))

/-- `SpinFunctions(Ex, J, model, pars).distribution()` (`ompy/spinfunctions.py` 52-67). -/
noncomputable def distribution (model : String) (pars : SPars) (intEx : Bool) (Ex J : ℝ) :
    Except Err ℝ := do
  let s ← getSigma2 model pars intEx Ex
  spinDist s J

/-- `summe` (`ompy/normalizer_nld.py` 573-576, 617-620). -/
noncomputable def spinHalfSum (g : ℝ → Except Err ℝ) (Jt : ℝ) : Except Err ℝ :=
  if Jt = 0 then do
    let a ← g (Jt + 1 / 2)
    pure (1 / 2 * a)
  else do
    let a ← g (Jt - 1 / 2)
    let b ← g (Jt + 1 / 2)
    pure (1 / 2 * (a + b))

/-- `1 / x` with numpy's infinity for 0 made an error. -/
noncomputable def recip (x : ℝ) : Except Err ℝ := if x = 0 then .error .undefined else .ok (1 / x)

/-- `nldSn_from_D0(…)[1]` (`ompy/normalizer_nld.py` 565-579). -/
noncomputable def nldSnFromD0 (g : ℝ → Except Err ℝ) (D0 Jt : ℝ) : Except Err ℝ := do
  let s ← spinHalfSum g Jt
  recip (s * D0 * (1 / 1000000))

/-- `D0_from_nldSn` (`ompy/normalizer_nld.py` 609-623), `nld` being the value of the model at Sn. -/
noncomputable def D0FromNldSn (g : ℝ → Except Err ℝ) (nld Jt : ℝ) : Except Err ℝ := do
  let s ← spinHalfSum g Jt
  recip (s * nld * (1 / 1000000))

/-! ## The spin sum of `ompy/normalizer_gsf.py` -/

/-- `Jres_min` (`ompy/normalizer_gsf.py` 388-389). -/
def jresMin (J L : ℚ) : ℚ := min (min |J - 1 / 2 - L| |J + 1 / 2 - L|) |J - 1 / 2 + L|

/-- The pairs visited by the two loops of `SpinSum` (`ompy/normalizer_gsf.py` 388-399). -/
def spinPairs (J L : ℚ) : List (ℚ × ℚ) :=
  (arange (jresMin J L) (J + 1 / 2 + L + 1) 1).flatMap fun Jres =>
    ((arange (min |Jres - 1| Jres) (Jres + 1 + 1) 1).filter fun Jf => ¬ (Jres = Jf ∧ Jf = 0)).map
      fun Jf => (Jres, Jf)

/-- `SpinSum` without the cache (`ompy/normalizer_gsf.py` 384-399). -/
noncomputable def spinSumFresh (g : ℚ → ℝ) (J L : ℚ) : Except Err ℝ :=
  if ¬ (0 ≤ J ∧ 0 ≤ L) then .error .assertion
  else .ok ((spinPairs J L).foldl (fun acc p => acc + g p.2) 0)

/-! ## The cache of `SpinSum`

Dictionaries and arrays are references into a heap, so that the saved values are the caller's objects
and not copies of them.  `F` is the computation without cache for given model, parameters, energies,
target spin and transfer. -/

/-- The argument `Ex`: a number or an array object. -/
inductive ExArg
  | scalar (x : ℚ)
  | arr (ref : ℕ)
  deriving DecidableEq

/-- The value of `Ex` at some moment. -/
inductive ExVal
  | scalar (x : ℚ)
  | arr (xs : List ℚ)
  deriving DecidableEq

/-- The attributes `_saved_SpinSum`, `_saved_spincutModel`, `_saved_spincutPars` and
`_saved_SpinSum_args` (`ompy/normalizer_gsf.py` 402-405). -/
structure SavedSum (M V : Type) where
  value : V
  model : M
  pars : ℕ
  ex : ExArg
  J : ℚ
  L : ℚ

/-- The normaliser as far as `SpinSum` sees it: the heap, the current model and parameters
(`None` as `none`) and the saved result. -/
structure SpinState (M P V : Type) where
  dicts : ℕ → P
  arrays : ℕ → List ℚ
  model : Option M
  pars : Option ℕ
  saved : Option (SavedSum M V)

/-- The current value of an argument. -/
def SpinState.exVal {M P V : Type} (s : SpinState M P V) : ExArg → ExVal
  | .scalar x => .scalar x
  | .arr r => .arr (s.arrays r)

/-- `np.all(a == b)` with numpy's broadcasting; arrays that cannot be broadcast compare as `False`. -/
def npAllEq : ExVal → ExVal → Bool
  | .scalar x, .scalar y => x = y
  | .scalar x, .arr ys => ys.all fun y => x = y
  | .arr xs, .scalar y => xs.all fun x => x = y
  | .arr xs, .arr ys =>
    if xs.length = ys.length then xs = ys
    else if xs.length = 1 then ys.all fun y => xs.getD 0 0 = y
    else if ys.length = 1 then xs.all fun x => x = ys.getD 0 0
    else false

/-- `SpinSum_save_reload` (`ompy/normalizer_gsf.py` 409-433). -/
def SpinState.hit {M P V : Type} [DecidableEq M] [DecidableEq P] (s : SpinState M P V) (ex : ExArg)
    (J L : ℚ) : Bool :=
  match s.saved with
  | none => false
  | some c =>
    match s.pars with
    | none => false
    | some p =>
      decide (some c.model = s.model) && decide (s.dicts c.pars = s.dicts p) &&
        npAllEq (s.exVal c.ex) (s.exVal ex) && decide (c.J = J) && decide (c.L = L)

/-- `SpinSum` (`ompy/normalizer_gsf.py` 349-407).  An exception leaves the saved result as it was; a
`None` as model or parameters makes `get_sigma2` fail, which `F` is then not asked for. -/
def SpinState.call {M P V : Type} [DecidableEq M] [DecidableEq P]
    (F : M → P → ExVal → ℚ → ℚ → Except Err V) (s : SpinState M P V) (ex : ExArg) (J L : ℚ) :
    Except Err V × SpinState M P V :=
  if s.hit ex J L then
    match s.saved with
    | some c => (.ok c.value, s)
    | none => (.error .undefined, s)
  else
    match s.model, s.pars with
    | some m, some p =>
      match F m (s.dicts p) (s.exVal ex) J L with
      | .ok v => (.ok v, { s with saved := some ⟨v, m, p, ex, J, L⟩ })
      | .error e => (.error e, s)
    | _, _ => (.error .typeError, s)

/-- What happens between calls: new values for the attributes, or changes of the objects in place. -/
inductive SpinOp (M P : Type)
  | call (ex : ExArg) (J L : ℚ)
  | setModel (m : Option M)
  | setPars (r : Option ℕ)
  | changeDict (r : ℕ) (p : P)
  | changeArray (r : ℕ) (xs : List ℚ)

/-- One operation; only calls have a result. -/
def SpinState.step {M P V : Type} [DecidableEq M] [DecidableEq P]
    (F : M → P → ExVal → ℚ → ℚ → Except Err V) (s : SpinState M P V) :
    SpinOp M P → Option (Except Err V) × SpinState M P V
  | .call ex J L => (some (s.call F ex J L).1, (s.call F ex J L).2)
  | .setModel m => (none, { s with model := m })
  | .setPars r => (none, { s with pars := r })
  | .changeDict r p => (none, { s with dicts := fun q => if q = r then p else s.dicts q })
  | .changeArray r xs => (none, { s with arrays := fun q => if q = r then xs else s.arrays q })

/-- The results of a history. -/
def SpinState.run {M P V : Type} [DecidableEq M] [DecidableEq P]
    (F : M → P → ExVal → ℚ → ℚ → Except Err V) (s : SpinState M P V) :
    List (SpinOp M P) → List (Option (Except Err V))
  | [] => []
  | op :: r => (s.step F op).1 :: (s.step F op).2.run F r

end Ompy
