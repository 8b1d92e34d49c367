import Verif.MamaText

/-!
# Model of `ompy/introspection`: loggers and the hook that plots results

The registry of Python's `logging` is a list of names in the order of insertion.  A handler is its level.  Names with two dots in a row are not treated
(`logging` skips a parent there).
-/

namespace Ompy

/-! ## Loggers, ompy/introspection/logging.py -/

/-- The package name. -/
def ompyChars : List Char := ['o', 'm', 'p', 'y']

/-- ompy/introspection/logging.py:20-21. -/
def loggerName (name : List Char) : List Char := if ompyChars <+: name then name else ompyChars ++ '.' :: name

/-- An entry of `loggerDict`: a placeholder for a parent that was not asked for, or a logger with its level (`none` is NOTSET) and the levels of its handlers. -/
inductive LogEntry
  | placeholder
  | logger (level : Option ℕ) (handlers : List ℕ)
  deriving DecidableEq

/-- `logging.root.manager.loggerDict`. -/
abbrev LogReg := List (List Char × LogEntry)

/-- Replace the entry of a name where it is. -/
def LogReg.put (r : LogReg) (n : List Char) (e : LogEntry) : LogReg := r.map fun p => if p.1 = n then (n, e) else p

/-- The names of the parents, the nearest first: `a.b.c` has `a.b` and `a`. -/
def parentNames (name : List Char) : List (List Char) :=
  let parts := cutAt '.' name
  ((List.range (parts.length - 1)).reverse.map fun k : ℕ => joinC '.' (parts.take (k + 1))).filter (· ≠ [])

/-- `_fixupParents`: placeholders for missing parents, up to the first parent that is a logger. -/
def fixParents : List (List Char) → LogReg → LogReg
  | [], r => r
  | p :: ps, r =>
    match r.lookup p with
    | some (.logger _ _) => r
    | some .placeholder => fixParents ps r
    | none => fixParents ps (r ++ [(p, .placeholder)])

/-- `logging.getLogger(name)` for a name that is not empty: the registry afterwards. -/
def getLogger (r : LogReg) (name : List Char) : LogReg :=
  match r.lookup name with
  | some (.logger _ _) => r
  | some .placeholder => fixParents (parentNames name) (r.put name (.logger none []))
  | none => fixParents (parentNames name) (r ++ [(name, .logger none [])])

/-- `get_logger(name, level)`, ompy/introspection/logging.py:6-31: level and one handler. -/
def getLoggerOmpy (r : LogReg) (name : List Char) (level : ℕ) : LogReg :=
  (getLogger r (loggerName name)).put (loggerName name) (.logger (some level) [level])

/-- `available_loggers()`, ompy/introspection/logging.py:34-48. -/
def availableLoggers (r : LogReg) : Except Err (List (List Char)) :=
  ((r.map Prod.fst).filter fun k => decide (ompyChars <:+: k ∧ 5 < k.length)).mapM fun k =>
    match (cutAt '.' k)[1]? with
    | some s => .ok s
    | none => .error .indexError

/-- The loggers a message of `name` passes: itself and its parents, as far as they are loggers. -/
def logChain (r : LogReg) (name : List Char) : List (Option ℕ × List ℕ) :=
  (name :: parentNames name).filterMap fun n =>
    match r.lookup n with
    | some (.logger l hs) => some (l, hs)
    | _ => none

/-- `getEffectiveLevel`; the level of the root logger is 30 (WARNING). -/
def effectiveLevel (chain : List (Option ℕ × List ℕ)) : ℕ := ((chain.filterMap Prod.fst).head?).getD 30

/-- How many times a message of level `l` of logger `name` is written by handlers of these loggers (`callHandlers`; the root logger has none). -/
def written (r : LogReg) (name : List Char) (l : ℕ) : ℕ :=
  let chain := logChain r name
  if effectiveLevel chain ≤ l then ((chain.flatMap Prod.snd).filter (· ≤ l)).length else 0

/-! ## The plotting hook, ompy/introspection/hooks.py -/

/-- White space. -/
def isWs (c : Char) : Bool := c == ' ' || c == '\n' || c == '\t' || c == '\r'

/-- `str.strip()`. -/
def stripWs (s : List Char) : List Char := ((s.dropWhile isWs).reverse.dropWhile isWs).reverse

/-- `return_var_names`, ompy/introspection/hooks.py:51-58, on the last line of the source. -/
def returnVarNames (line : List Char) : List (List Char) :=
  (cutAt ',' (joinC ' ' (cutAt ' ' (stripWs line)).tail)).map stripWs

/-- One returned thing: a matrix with its number of rows and columns, a vector with its length, a numpy array, or something that is neither. -/
inductive RItem
  | mat (rows cols : ℕ)
  | vec (n : ℕ)
  | arr (shape : List ℕ) (data : List ℚ)
  | other
  deriving DecidableEq

/-- What the function returns: a tuple (or list), one thing, or a generator with what it will yield. -/
inductive RetVal
  | tup (l : List RItem)
  | one (x : RItem)
  | gen (l : List RItem)
  deriving DecidableEq

/-- What `enumerate` sees.  A `Matrix` has `__getitem__` only, so that its rows are visited (ompy/abstractarray.py:135-136); the elements of a vector
and of a one-dimensional array are numbers.  The data of the rows of a matrix do not matter here. -/
def RetVal.iter : RetVal → Except Err (List RItem)
  | .tup l => .ok l
  | .gen l => .ok l
  | .one (.mat r c) => .ok (List.replicate r (.arr [c] []))
  | .one (.vec n) => .ok (List.replicate n .other)
  | .one (.arr [] _) => .error .typeError
  | .one (.arr [n] _) => .ok (List.replicate n .other)
  | .one (.arr (n :: m :: t) d) =>
    .ok ((List.range n).map fun k : ℕ => .arr (m :: t) ((d.drop (k * (m :: t).prod)).take (m :: t).prod))
  | .one .other => .error .typeError

/-- What remains of the returned value after the loop. -/
def RetVal.after : RetVal → RetVal
  | .gen _ => .gen []
  | v => v

/-- What is drawn: an object by its own method, an empty figure, a line, a coloured mesh with its title and whether its colours are logarithmic. -/
inductive HFig
  | object | blank | line
  | mesh (title : List Char) (log : Bool)
  deriving DecidableEq

/-- One pass of the loop, ompy/introspection/hooks.py:26-44. -/
def hookItem (names : List (List Char)) (i : ℕ) : RItem → Except Err (List HFig)
  | .mat _ _ => .ok [.object]
  | .vec _ => .ok [.object]
  | .other => .ok []
  | .arr shape data =>
    if shape.length = 1 then .ok [.line]
    else if shape.length = 2 then
      match names[i]? with
      | some t => .ok [.mesh t (decide (1000 < data.sum))]
      | none => .error .indexError
    else .ok [.blank]

/-- The loop, ompy/introspection/hooks.py:26-44. -/
def hookItems (names : List (List Char)) : ℕ → List RItem → Except Err (List HFig)
  | _, [] => .ok []
  | i, x :: xs =>
    match hookItem names i x with
    | .error e => .error e
    | .ok fs =>
      match hookItems names (i + 1) xs with
      | .error e => .error e
      | .ok gs => .ok (fs ++ gs)

/-- Names (or the exception of `inspect` if there is no source), loop and counter, ompy/introspection/hooks.py:25-46. -/
def hookDraw (line : Except Err (List Char)) (calls : ℕ) (v : RetVal) : ℕ × Except Err (RetVal × List HFig) :=
  match line with
  | .error e => (calls, .error e)
  | .ok s =>
    match v.iter with
    | .error e => (calls, .error e)
    | .ok l =>
      match hookItems (returnVarNames s) 0 l with
      | .error e => (calls, .error e)
      | .ok fs => (calls + 1, .ok (v.after, fs))

/-- One call of the hooked function, ompy/introspection/hooks.py:18-46; `res` is what the function does in this call. -/
def hookCall (line : Except Err (List Char)) (condition : ℕ → Bool) (calls : ℕ) (res : Except Err RetVal) :
    ℕ × Except Err (RetVal × List HFig) :=
  match res with
  | .error e => (calls, .error e)
  | .ok v => if condition calls then hookDraw line calls v else (calls + 1, .ok (v, []))

/-- A sequence of calls. -/
def hookRun (line : Except Err (List Char)) (condition : ℕ → Bool) : ℕ → List (Except Err RetVal) →
    ℕ × List (Except Err (RetVal × List HFig))
  | calls, [] => (calls, [])
  | calls, r :: rs =>
    let (c1, out) := hookCall line condition calls r
    let (c2, outs) := hookRun line condition c1 rs
    (c2, out :: outs)

end Ompy
