import Verif.Sharing

/-!
# Which objects share arrays

The other model files treat a vector or a matrix as a value of its own.  Here: for which programs this is right, and what happens in the others.
-/

namespace Ompy

/-! ### What is expected: every object has its own numbers -/

/-- The numbers of an argument. -/
def valArg (vs : List ObjVal) : Arg → Except Err (List ℚ)
  | .lit d => .ok d
  | .vecE k => match vs[k]? with
    | some (.vec v) => .ok v.E
    | _ => .error .nameError
  | .vecValues k => match vs[k]? with
    | some (.vec v) => .ok v.values
    | _ => .error .nameError
  | .matEg k => match vs[k]? with
    | some (.mat m) => .ok m.Eg
    | _ => .error .nameError
  | .matEx k => match vs[k]? with
    | some (.mat m) => .ok m.Ex
    | _ => .error .nameError

/-- The numbers of an argument that may be left out. -/
def valArgOpt (vs : List ObjVal) : Option Arg → Except Err (Option (List ℚ))
  | none => .ok none
  | some a => (valArg vs a).map some

/-- The numbers of an argument of two dimensions. -/
def valArg2 (vs : List ObjVal) : Arg2 → Except Err (List (List ℚ))
  | .lit d => .ok d
  | .matValues k => match vs[k]? with
    | some (.mat m) => .ok m.values
    | _ => .error .nameError
  | .matStd k => match vs[k]? with
    | some (.mat ⟨_, _, _, some s, _⟩) => .ok s
    | _ => .error .nameError

/-- The same for an argument that may be left out. -/
def valArgOpt2 (vs : List ObjVal) : Option Arg2 → Except Err (Option (List (List ℚ)))
  | none => .ok none
  | some a => (valArg2 vs a).map some

/-- Object `k` becomes `v`. -/
def nowVec (vs : List ObjVal) (k : ℕ) (r : Vec ℚ × Except Err Unit) : List ObjVal × Except Err Unit := (vs.set k (.vec r.1), r.2)

/-- Object `k` becomes `m`. -/
def nowMat (vs : List ObjVal) (k : ℕ) (r : Mat × Except Err Unit) : List ObjVal × Except Err Unit := (vs.set k (.mat r.1), r.2)

/-- Object `k` becomes `v`, or stays. -/
def mayVec (vs : List ObjVal) (k : ℕ) (r : Except Err (Vec ℚ)) : List ObjVal × Except Err Unit :=
  match r with
  | .ok v => (vs.set k (.vec v), .ok ())
  | .error e => (vs, .error e)

/-- Object `k` becomes `m`, or stays. -/
def mayMat (vs : List ObjVal) (k : ℕ) (r : Except Err Mat) : List ObjVal × Except Err Unit :=
  match r with
  | .ok m => (vs.set k (.mat m), .ok ())
  | .error e => (vs, .error e)

/-- One more object. -/
def moreVec (vs : List ObjVal) (r : Except Err (Vec ℚ)) : List ObjVal × Except Err Unit :=
  match r with
  | .ok v => (vs ++ [.vec v], .ok ())
  | .error e => (vs, .error e)

/-- One more object. -/
def moreMat (vs : List ObjVal) (r : Except Err Mat) : List ObjVal × Except Err Unit :=
  match r with
  | .ok m => (vs ++ [.mat m], .ok ())
  | .error e => (vs, .error e)

/-- Methods of vectors by the model of `Verif/Vector.lean`. -/
def vecOwn (ex rt : ℚ → ℚ) (vs : List ObjVal) (k : ℕ) (v : Vec ℚ) : VCall → List ObjVal × Except Err Unit
  | .cut a b => mayVec vs k (v.cut a b)
  | .cutCopy a b => moreVec vs (v.cut a b)
  | .rebin mids f => match valArgOpt vs mids with
    | .error e => (vs, .error e)
    | .ok m => nowVec vs k (v.rebinInplace m f)
  | .rebinCopy mids f => match valArgOpt vs mids with
    | .error e => (vs, .error e)
    | .ok m => moreVec vs (v.rebinCopy m f)
  | .toMeV => mayVec vs k v.toMeV
  | .toKeV => mayVec vs k v.toKeV
  | .closest e right => match valArg vs e with
    | .error e => (vs, .error e)
    | .ok x => mayVec vs k (v.closest x right)
  | .closestCopy e right => match valArg vs e with
    | .error e => (vs, .error e)
    | .ok x => moreVec vs (v.closest x right)
  | .transform c a => mayVec vs k (.ok (v.transform id ex c a))
  | .transformCopy c a => moreVec vs (.ok (v.transform id ex c a))
  | .cumulative f => mayVec vs k (v.cumulative id rt f)
  | .cumulativeCopy f => moreVec vs (v.cumulative id rt f)
  | .setItem j x => mayVec vs k (if j < v.values.length then .ok { v with values := v.values.set j x } else .error .indexError)
  | .copy => moreVec vs (.ok v)

/-- Methods of matrices by the models of `Verif/Matrix.lean`, `MatrixRebin.lean`, `Trapezoid.lean` and `Diagonal.lean`. -/
def matOwn (vs : List ObjVal) (k : ℕ) (m : Mat) : MCall → List ObjVal × Except Err Unit
  | .cut ax a b i j => mayMat vs k (m.cut ax a b i j)
  | .cutCopy ax a b i j => moreMat vs (m.cutCopy ax a b i j)
  | .rebin ax mids f => match valArgOpt vs mids with
    | .error e => (vs, .error e)
    | .ok x => nowMat vs k (m.rebinInplace ax x f)
  | .rebinCopy ax mids f => match valArgOpt vs mids with
    | .error e => (vs, .error e)
    | .ok x => moreMat vs (m.rebinCopy ax x f)
  | .fill eg ex c => mayMat vs k (m.fill eg ex c)
  | .cutDiagonal p q => nowMat vs k ((m.cutDiagonal p q true).1, (m.cutDiagonal p q true).2.map fun _ => ())
  | .removeNegative => mayMat vs k (.ok { m with values := removeNegativeQ m.values })
  | .toLowerBin => mayMat vs k m.toLowerBin
  | .toMidBin => mayMat vs k m.toMidBin
  | .trapezoid a b c d => nowMat vs k ((m.trapezoidCall a b c d true).1, (m.trapezoidCall a b c d true).2.map fun _ => ())
  | .copy => moreMat vs (.ok m)

/-- One call, if every object had its own numbers. -/
def stepOwn (ex rt : ℚ → ℚ) (vs : List ObjVal) : PyCall → List ObjVal × Except Err Unit
  | .newVec values E std units =>
    match valArg vs values, valArg vs E, valArgOpt vs std with
    | .ok v, .ok e, .ok s => moreVec vs (Vec.new (some v) (some e) s units)
    | .error x, _, _ => (vs, .error x)
    | _, .error x, _ => (vs, .error x)
    | _, _, .error x => (vs, .error x)
  | .newMat values Eg Ex std state =>
    match valArg2 vs values, valArg vs Eg, valArg vs Ex, valArgOpt2 vs std with
    | .ok v, .ok g, .ok x, .ok s => moreMat vs (Mat.new v g.length (some g) (some x) s state)
    | .error x, _, _, _ => (vs, .error x)
    | _, .error x, _, _ => (vs, .error x)
    | _, _, .error x, _ => (vs, .error x)
    | _, _, _, .error x => (vs, .error x)
  | .onVec k c => match vs[k]? with
    | some (.vec v) => vecOwn ex rt vs k v c
    | _ => (vs, .error .attributeError)
  | .onMat k c => match vs[k]? with
    | some (.mat m) => matOwn vs k m c
    | _ => (vs, .error .attributeError)

/-- A program, if every object had its own numbers. -/
def runOwn (ex rt : ℚ → ℚ) (vs : List ObjVal) : List PyCall → List ObjVal × List (Except Err Unit)
  | [] => (vs, [])
  | c :: cs => ((runOwn ex rt (stepOwn ex rt vs c).1 cs).1, (stepOwn ex rt vs c).2 :: (runOwn ex rt (stepOwn ex rt vs c).1 cs).2)

/-! ### Calls that bind no array of another object -/

/-- The array is new. -/
def Arg.isLit : Arg → Bool
  | .lit _ => true
  | _ => false

/-- The array is new. -/
def Arg2.isLit : Arg2 → Bool
  | .lit _ => true
  | _ => false

/-- Calls in place get new arrays only, no array is given for both axes in place, and `std` of a new matrix is new. -/
def PyCall.careful : PyCall → Bool
  | .newVec .. => true
  | .newMat _ _ _ std _ => std.all Arg2.isLit
  | .onVec _ (.rebin mids _) => mids.all Arg.isLit
  | .onVec _ (.closest e _) => e.isLit
  | .onVec _ _ => true
  | .onMat _ (.rebin ax mids _) => if ax = 2 then mids.isNone else mids.all Arg.isLit
  | .onMat _ (.rebinCopy ax mids _) => if ax = 2 then mids.all Arg.isLit else true
  | .onMat _ _ => true

/-! ### Objects apart -/

/-- The buffers an object refers to. -/
def AnyObj.bufs : AnyObj → List ℕ
  | .vec o => o.E.buf :: o.values.buf :: (o.std.map Ref1.buf).toList
  | .mat o => o.values.buf :: o.Eg.buf :: o.Ex.buf :: (o.std.map Ref2.buf).toList

/-- No array of the object has an entry twice (slices and new arrays have not). -/
def AnyObj.simple : AnyObj → Prop
  | .vec o => o.E.pos.Nodup ∧ o.values.pos.Nodup ∧ ∀ r ∈ o.std, r.pos.Nodup
  | .mat o => o.values.pos.flatten.Nodup ∧ o.Eg.pos.Nodup ∧ o.Ex.pos.Nodup ∧ ∀ r ∈ o.std, r.pos.flatten.Nodup

/-- An object whose attributes are separate arrays in used memory. -/
structure AnyObj.fine (h : Memory) (o : AnyObj) : Prop where
  separate : o.bufs.Nodup
  used : ∀ b ∈ o.bufs, b < h.next
  simple : o.simple

/-- All attributes of all objects are separate arrays. -/
structure World.apart (s : World) : Prop where
  fine : ∀ (i : ℕ) (o : AnyObj), s.objs[i]? = some o → o.fine s.mem
  separate : ∀ (i j : ℕ) (o p : AnyObj), s.objs[i]? = some o → s.objs[j]? = some p → i ≠ j → ∀ b ∈ o.bufs, b ∉ p.bufs

/-! ### Memory -/

/-- Only the buffers `bs` may have changed, and new ones may have been added. -/
structure Touched (h h' : Memory) (bs : List ℕ) : Prop where
  le : h.next ≤ h'.next
  same : ∀ b, b < h.next → b ∉ bs → h'.cell b = h.cell b

theorem Touched.refl (h : Memory) (bs : List ℕ) : Touched h h bs := ⟨le_refl _, fun _ _ _ => rfl⟩

theorem Touched.mono {h h' : Memory} {bs cs : List ℕ} (t : Touched h h' bs) (hs : bs ⊆ cs) : Touched h h' cs :=
  ⟨t.le, fun b hb hn => t.same b hb fun hm => hn (hs hm)⟩

theorem Touched.trans {h h' h'' : Memory} {bs : List ℕ} (t : Touched h h' bs) (u : Touched h' h'' bs) : Touched h h'' bs :=
  ⟨le_trans t.le u.le, fun b hb hn => (u.same b (lt_of_lt_of_le hb t.le) hn).trans (t.same b hb hn)⟩

theorem Touched.read1 {h h' : Memory} {bs : List ℕ} (t : Touched h h' bs) (r : Ref1) (hr : r.buf < h.next) (hn : r.buf ∉ bs) :
    h'.read1 r = h.read1 r := by
  unfold Memory.read1
  rw [t.same _ hr hn]

theorem Touched.read2 {h h' : Memory} {bs : List ℕ} (t : Touched h h' bs) (r : Ref2) (hr : r.buf < h.next) (hn : r.buf ∉ bs) :
    h'.read2 r = h.read2 r := by
  unfold Memory.read2
  rw [t.same _ hr hn]

theorem touched_new1 (h : Memory) (d : List ℚ) : Touched h (h.new1 d).1 [] :=
  ⟨by simp [Memory.new1], fun b hb _ => by simp [Memory.new1, Function.update_of_ne (ne_of_lt hb)]⟩

theorem touched_new2 (h : Memory) (d : List (List ℚ)) : Touched h (h.new2 d).1 [] :=
  ⟨by simp [Memory.new2], fun b hb _ => by simp [Memory.new2, Function.update_of_ne (ne_of_lt hb)]⟩

theorem touched_newOpt1 (h : Memory) (d : Option (List ℚ)) : Touched h (h.newOpt1 d).1 [] := by
  cases d with
  | none => exact Touched.refl _ _
  | some d => exact touched_new1 h d

theorem touched_newOpt2 (h : Memory) (d : Option (List (List ℚ))) : Touched h (h.newOpt2 d).1 [] := by
  cases d with
  | none => exact Touched.refl _ _
  | some d => exact touched_new2 h d

theorem touched_put (h : Memory) (b : ℕ) (w : List ((ℕ × ℕ) × ℚ)) : Touched h (h.put b w) [b] :=
  ⟨le_refl _, fun c _ hn => by
    have : c ≠ b := by simpa using hn
    simp [Memory.put, Function.update_of_ne this]⟩

@[simp] theorem new1_next (h : Memory) (d : List ℚ) : (h.new1 d).1.next = h.next + 1 := rfl
@[simp] theorem new1_buf (h : Memory) (d : List ℚ) : (h.new1 d).2.buf = h.next := rfl
@[simp] theorem new2_next (h : Memory) (d : List (List ℚ)) : (h.new2 d).1.next = h.next + 1 := rfl
@[simp] theorem new2_buf (h : Memory) (d : List (List ℚ)) : (h.new2 d).2.buf = h.next := rfl

theorem new1_nodup (h : Memory) (d : List ℚ) : (h.new1 d).2.pos.Nodup := by
  unfold Memory.new1
  exact List.Nodup.map (fun a b hab => by simpa using hab) List.nodup_range

theorem new2_nodup (h : Memory) (d : List (List ℚ)) : (h.new2 d).2.pos.flatten.Nodup := by
  unfold Memory.new2
  rw [List.nodup_flatten]
  constructor
  · intro l hl
    simp only [List.mem_map] at hl
    obtain ⟨i, _, rfl⟩ := hl
    exact List.Nodup.map (fun a b hab => by simpa using hab) List.nodup_range
  · rw [List.pairwise_map]
    refine List.Pairwise.imp ?_ (List.nodup_range (n := d.length))
    intro a b hab x hx hy
    simp only [List.mem_map] at hx hy
    obtain ⟨j, _, rfl⟩ := hx
    obtain ⟨j', _, e⟩ := hy
    exact hab (by simpa using (congrArg Prod.fst e).symm)

theorem getD_range_self (d : List ℚ) : (List.range d.length).map (fun j => d.getD j 0) = d := by
  apply List.ext_getElem
  · simp
  · intro i h1 h2
    simp [List.getD_eq_getElem?_getD, h2]

theorem read1_new1 (h : Memory) (d : List ℚ) : (h.new1 d).1.read1 (h.new1 d).2 = d := by
  unfold Memory.read1 Memory.new1
  simp only [Function.update_self, List.map_map]
  exact getD_range_self d

theorem read2_new2 (h : Memory) (d : List (List ℚ)) : (h.new2 d).1.read2 (h.new2 d).2 = d := by
  unfold Memory.read2 Memory.new2
  simp only [Function.update_self, List.map_map]
  apply List.ext_getElem
  · simp
  · intro i h1 h2
    simp only [List.getElem_map, List.getElem_range, Function.comp, List.map_map]
    have e : d.getD i [] = d[i] := by simp [List.getD_eq_getElem?_getD, h2]
    simp only [Function.comp_def, e]
    exact getD_range_self _

theorem foldl_update_other (w : List ((ℕ × ℕ) × ℚ)) (f : ℕ × ℕ → ℚ) (p : ℕ × ℕ) (hp : p ∉ w.map Prod.fst) :
    w.foldl (fun f q => Function.update f q.1 q.2) f p = f p := by
  induction w generalizing f with
  | nil => rfl
  | cons q w ih =>
    simp only [List.map_cons, List.mem_cons, not_or] at hp
    rw [List.foldl_cons, ih _ hp.2, Function.update_of_ne hp.1]

theorem map_foldl_update (ps : List (ℕ × ℕ)) (d : List ℚ) (f : ℕ × ℕ → ℚ) (hn : ps.Nodup) (hl : ps.length = d.length) :
    ps.map ((ps.zip d).foldl (fun f q => Function.update f q.1 q.2) f) = d := by
  induction ps generalizing d f with
  | nil => cases d <;> simp_all
  | cons p ps ih =>
    cases d with
    | nil => simp at hl
    | cons x d =>
      simp only [List.nodup_cons] at hn
      simp only [List.length_cons, Nat.add_right_cancel_iff] at hl
      simp only [List.zip_cons_cons, List.foldl_cons, List.map_cons]
      rw [ih d _ hn.2 hl, foldl_update_other _ _ _ (by rw [List.map_fst_zip (le_of_eq hl)]; exact hn.1), Function.update_self]

theorem read1_store1 (h : Memory) (r : Ref1) (d : List ℚ) (hn : r.pos.Nodup) (hl : r.pos.length = d.length) :
    (h.store1 r d).read1 r = d := by
  unfold Memory.read1 Memory.store1 Memory.put
  simp only [Function.update_self]
  exact map_foldl_update _ _ _ hn hl

theorem read2_store2 (h : Memory) (r : Ref2) (d : List (List ℚ)) (hn : r.pos.flatten.Nodup) (hl : r.pos.map List.length = d.map List.length) :
    (h.store2 r d).read2 r = d := by
  unfold Memory.read2 Memory.store2 Memory.put
  simp only [Function.update_self]
  rw [List.eq_iff_flatten_eq]
  constructor
  · rw [← List.map_flatten]
    apply map_foldl_update _ _ _ hn
    rw [List.length_flatten, List.length_flatten, hl]
  · simp only [List.map_map, Function.comp_def, List.length_map]
    exact hl

theorem read1_length (h : Memory) (r : Ref1) : (h.read1 r).length = r.pos.length := by simp [Memory.read1]

theorem read2_lengths (h : Memory) (r : Ref2) : (h.read2 r).map List.length = r.pos.map List.length := by
  simp [Memory.read2, Function.comp_def]

theorem pySlice_map {α β : Type} (f : α → β) (l : List α) (a b : ℤ) : pySlice (l.map f) a b = (pySlice l a b).map f := by
  simp [pySlice, List.map_drop, List.map_take]

theorem pySlice_sublist {α : Type} (l : List α) (a b : ℤ) : (pySlice l a b).Sublist l :=
  (List.drop_sublist _ _).trans (List.take_sublist _ _)

theorem read1_slice (h : Memory) (r : Ref1) (a b : ℤ) : h.read1 (r.slice a b) = pySlice (h.read1 r) a b := by
  unfold Memory.read1 Ref1.slice
  rw [pySlice_map]

theorem read2_rows (h : Memory) (r : Ref2) (a b : ℤ) : h.read2 (r.rows a b) = pySlice (h.read2 r) a b := by
  unfold Memory.read2 Ref2.rows
  rw [pySlice_map]

theorem read2_cols (h : Memory) (r : Ref2) (a b : ℤ) : h.read2 (r.cols a b) = (h.read2 r).map fun row => pySlice row a b := by
  unfold Memory.read2 Ref2.cols
  simp [Function.comp_def, pySlice_map]

theorem slice_nodup (r : Ref1) (a b : ℤ) (hn : r.pos.Nodup) : (r.slice a b).pos.Nodup := hn.sublist (pySlice_sublist _ _ _)

theorem flatten_map_sublist {α : Type} (l : List (List α)) (f : List α → List α) (hf : ∀ x, (f x).Sublist x) : (l.map f).flatten.Sublist l.flatten := by
  induction l with
  | nil => simp
  | cons x l ih => simpa using (hf x).append ih

theorem rows_nodup (r : Ref2) (a b : ℤ) (hn : r.pos.flatten.Nodup) : (r.rows a b).pos.flatten.Nodup :=
  hn.sublist (pySlice_sublist _ _ _).flatten

theorem cols_nodup (r : Ref2) (a b : ℤ) (hn : r.pos.flatten.Nodup) : (r.cols a b).pos.flatten.Nodup :=
  hn.sublist (flatten_map_sublist _ _ fun _ => pySlice_sublist _ _ _)

/-! ### Objects -/

theorem Touched.view {h h' : Memory} {bs : List ℕ} (t : Touched h h' bs) (o : AnyObj) (hu : ∀ b ∈ o.bufs, b < h.next) (hn : ∀ b ∈ o.bufs, b ∉ bs) :
    o.view h' = o.view h := by
  cases o with
  | vec o =>
    obtain ⟨E, v, s, u⟩ := o
    cases s with
    | none => simp_all [AnyObj.view, VObj.view, AnyObj.bufs, t.read1]
    | some s => simp_all [AnyObj.view, VObj.view, AnyObj.bufs, t.read1]
  | mat o =>
    obtain ⟨v, g, x, s, u⟩ := o
    cases s with
    | none => simp_all [AnyObj.view, MObj.view, AnyObj.bufs, t.read1, t.read2]
    | some s => simp_all [AnyObj.view, MObj.view, AnyObj.bufs, t.read1, t.read2]

/-- A method in place: it writes to arrays of its object only, and the object has arrays of its own afterwards. -/
structure Inside (h : Memory) (o : AnyObj) (h' : Memory) (o' : AnyObj) : Prop where
  touched : Touched h h' o.bufs
  fine : o'.fine h'
  own : ∀ b ∈ o'.bufs, b ∈ o.bufs ∨ h.next ≤ b

/-- A new object, with new arrays. -/
structure Fresh (h h' : Memory) (o : AnyObj) : Prop where
  touched : Touched h h' []
  fine : o.fine h'
  own : ∀ b ∈ o.bufs, h.next ≤ b

theorem Fresh.after {h0 h h' : Memory} {o : AnyObj} (t : Touched h0 h []) (f : Fresh h h' o) : Fresh h0 h' o :=
  ⟨t.trans f.touched, f.fine, fun b hb => le_trans t.le (f.own b hb)⟩

theorem World.apart_keep {s : World} (ha : s.apart) {h' : Memory} (t : Touched s.mem h' []) :
    World.apart ⟨h', s.objs⟩ ∧ World.vals ⟨h', s.objs⟩ = s.vals := by
  refine ⟨⟨fun i o ho => ?_, ha.separate⟩, ?_⟩
  · have f := ha.fine i o ho
    exact ⟨f.separate, fun b hb => lt_of_lt_of_le (f.used b hb) t.le, f.simple⟩
  · unfold World.vals
    apply List.map_congr_left
    intro o ho
    obtain ⟨i, hi, rfl⟩ := List.getElem_of_mem ho
    exact t.view _ (ha.fine i _ (List.getElem?_eq_getElem hi)).used (by simp)

theorem World.apart_set {s : World} (ha : s.apart) {k : ℕ} {o o' : AnyObj} (hk : s.objs[k]? = some o) {h' : Memory} (t : Inside s.mem o h' o') :
    World.apart ⟨h', s.objs.set k o'⟩ ∧ World.vals ⟨h', s.objs.set k o'⟩ = s.vals.set k (o'.view h') := by
  have hkl : k < s.objs.length := (List.getElem?_eq_some_iff.mp hk).1
  have get : ∀ (i : ℕ) (p : AnyObj), (s.objs.set k o')[i]? = some p → (i = k ∧ p = o') ∨ (i ≠ k ∧ s.objs[i]? = some p) := by
    intro i p hp
    by_cases hik : i = k
    · subst hik
      rw [List.getElem?_set_self hkl] at hp
      exact .inl ⟨rfl, (Option.some.inj hp).symm⟩
    · rw [List.getElem?_set_ne (Ne.symm hik)] at hp
      exact .inr ⟨hik, hp⟩
  refine ⟨⟨fun i p hp => ?_, fun i j p q hp hq hij b hb hb' => ?_⟩, ?_⟩
  · rcases get i p hp with ⟨_, rfl⟩ | ⟨_, hp⟩
    · exact t.fine
    · have f := ha.fine i p hp
      exact ⟨f.separate, fun b hb => lt_of_lt_of_le (f.used b hb) t.touched.le, f.simple⟩
  · rcases get i p hp with ⟨rfl, rfl⟩ | ⟨hi, hp'⟩ <;> rcases get j q hq with ⟨rfl, rfl⟩ | ⟨hj, hq'⟩
    · exact hij rfl
    · rcases t.own b hb with h1 | h1
      · exact ha.separate i j o q hk hq' hij b h1 hb'
      · exact absurd ((ha.fine j q hq').used b hb') (by omega)
    · rcases t.own b hb' with h1 | h1
      · exact ha.separate i j p o hp' hk hij b hb h1
      · exact absurd ((ha.fine i p hp').used b hb) (by omega)
    · exact ha.separate i j p q hp' hq' hij b hb hb'
  · unfold World.vals
    apply List.ext_getElem?
    intro i
    by_cases hik : k = i
    · subst hik
      simp [hkl]
    · rw [List.getElem?_set_ne hik, List.getElem?_map, List.getElem?_map, List.getElem?_set_ne hik]
      cases hp : s.objs[i]? with
      | none => rfl
      | some p =>
        simp only [Option.map_some]
        rw [t.touched.view p (ha.fine i p hp).used fun b hb => ha.separate i k p o hp hk (Ne.symm hik) b hb]

theorem World.apart_add {s : World} (ha : s.apart) {o : AnyObj} {h' : Memory} (t : Fresh s.mem h' o) :
    World.apart ⟨h', s.objs ++ [o]⟩ ∧ World.vals ⟨h', s.objs ++ [o]⟩ = s.vals ++ [o.view h'] := by
  have get : ∀ (i : ℕ) (p : AnyObj), (s.objs ++ [o])[i]? = some p → (i = s.objs.length ∧ p = o) ∨ (i < s.objs.length ∧ s.objs[i]? = some p) := by
    intro i p hp
    rw [List.getElem?_append] at hp
    split at hp
    · exact .inr ⟨by assumption, hp⟩
    · rw [List.getElem?_singleton] at hp
      split at hp
      · exact .inl ⟨by omega, (Option.some.inj hp).symm⟩
      · cases hp
  refine ⟨⟨fun i p hp => ?_, fun i j p q hp hq hij b hb hb' => ?_⟩, ?_⟩
  · rcases get i p hp with ⟨_, rfl⟩ | ⟨_, hp⟩
    · exact t.fine
    · have f := ha.fine i p hp
      exact ⟨f.separate, fun b hb => lt_of_lt_of_le (f.used b hb) t.touched.le, f.simple⟩
  · rcases get i p hp with ⟨rfl, rfl⟩ | ⟨hi, hp'⟩ <;> rcases get j q hq with ⟨rfl, rfl⟩ | ⟨hj, hq'⟩
    · exact hij rfl
    · exact absurd ((ha.fine j q hq').used b hb') (by have := t.own b hb; omega)
    · exact absurd ((ha.fine i p hp').used b hb) (by have := t.own b hb'; omega)
    · exact ha.separate i j p q hp' hq' hij b hb hb'
  · have := (World.apart_keep ha t.touched).2
    unfold World.vals at this ⊢
    simp only at this
    rw [List.map_append, this]
    rfl

/-! ### New objects -/

theorem newOpt1_spec (h : Memory) (d : Option (List ℚ)) :
    ((h.newOpt1 d).2.map (h.newOpt1 d).1.read1 = d) ∧ (∀ r ∈ (h.newOpt1 d).2, r.buf = h.next ∧ r.buf < (h.newOpt1 d).1.next ∧ r.pos.Nodup) := by
  cases d with
  | none => simp [Memory.newOpt1]
  | some d => simp [Memory.newOpt1, read1_new1, new1_nodup]

theorem newOpt2_spec (h : Memory) (d : Option (List (List ℚ))) :
    ((h.newOpt2 d).2.map (h.newOpt2 d).1.read2 = d) ∧ (∀ r ∈ (h.newOpt2 d).2, r.buf = h.next ∧ r.buf < (h.newOpt2 d).1.next ∧ r.pos.flatten.Nodup) := by
  cases d with
  | none => simp [Memory.newOpt2]
  | some d => simp [Memory.newOpt2, read2_new2, new2_nodup]

theorem VObj.make_fresh (h : Memory) (v : Vec ℚ) : Fresh h (VObj.make h v).1 (.vec (VObj.make h v).2) ∧ (VObj.make h v).2.view (VObj.make h v).1 = v := by
  obtain ⟨E, x, s, u⟩ := v
  unfold VObj.make
  simp only
  have t1 := touched_new1 h x
  have n1 := new1_nodup h x
  have r1 := read1_new1 h x
  have b1 := new1_buf h x
  have l1 := new1_next h x
  generalize h.new1 x = a1 at *
  have t2 := touched_new1 a1.1 E
  have n2 := new1_nodup a1.1 E
  have r2 := read1_new1 a1.1 E
  have b2 := new1_buf a1.1 E
  have l2 := new1_next a1.1 E
  generalize a1.1.new1 E = a2 at *
  have t3 := touched_newOpt1 a2.1 s
  obtain ⟨r3, n3⟩ := newOpt1_spec a2.1 s
  generalize a2.1.newOpt1 s = a3 at *
  have le3 := t3.le
  refine ⟨⟨t1.trans (t2.trans t3), ⟨?_, ?_, n2, n1, fun r hr => (n3 r hr).2.2⟩, ?_⟩, ?_⟩
  · cases hs : a3.2 with
    | none => simp [AnyObj.bufs, b1, b2, l1]
    | some r =>
      have := n3 r (by simp [hs])
      simp [AnyObj.bufs]
      omega
  · cases hs : a3.2 with
    | none => simp [AnyObj.bufs]; omega
    | some r =>
      have := n3 r (by simp [hs])
      simp [AnyObj.bufs]
      omega
  · cases hs : a3.2 with
    | none => simp [AnyObj.bufs]; omega
    | some r =>
      have := n3 r (by simp [hs])
      simp [AnyObj.bufs]
      omega
  · simp only [VObj.view, r3, Vec.mk.injEq, and_true]
    constructor
    · rw [t3.read1 _ (by omega) (by simp), r2]
    · rw [t3.read1 _ (by omega) (by simp), t2.read1 _ (by omega) (by simp), r1]

theorem MObj.make_fresh (h : Memory) (m : Mat) : Fresh h (MObj.make h m).1 (.mat (MObj.make h m).2) ∧ (MObj.make h m).2.view (MObj.make h m).1 = m := by
  obtain ⟨v, g, x, s, u⟩ := m
  unfold MObj.make
  simp only
  have t1 := touched_new2 h v
  have n1 := new2_nodup h v
  have r1 := read2_new2 h v
  have b1 := new2_buf h v
  have l1 := new2_next h v
  generalize h.new2 v = a1 at *
  have t2 := touched_new1 a1.1 g
  have n2 := new1_nodup a1.1 g
  have r2 := read1_new1 a1.1 g
  have b2 := new1_buf a1.1 g
  have l2 := new1_next a1.1 g
  generalize a1.1.new1 g = a2 at *
  have t3 := touched_new1 a2.1 x
  have n3 := new1_nodup a2.1 x
  have r3 := read1_new1 a2.1 x
  have b3 := new1_buf a2.1 x
  have l3 := new1_next a2.1 x
  generalize a2.1.new1 x = a3 at *
  have t4 := touched_newOpt2 a3.1 s
  obtain ⟨r4, n4⟩ := newOpt2_spec a3.1 s
  generalize a3.1.newOpt2 s = a4 at *
  have le4 := t4.le
  refine ⟨⟨t1.trans (t2.trans (t3.trans t4)), ⟨?_, ?_, n1, n2, n3, fun r hr => (n4 r hr).2.2⟩, ?_⟩, ?_⟩
  · cases hs : a4.2 with
    | none => simp [AnyObj.bufs]; omega
    | some r =>
      have := n4 r (by simp [hs])
      simp [AnyObj.bufs]
      omega
  · cases hs : a4.2 with
    | none => simp [AnyObj.bufs]; omega
    | some r =>
      have := n4 r (by simp [hs])
      simp [AnyObj.bufs]
      omega
  · cases hs : a4.2 with
    | none => simp [AnyObj.bufs]; omega
    | some r =>
      have := n4 r (by simp [hs])
      simp [AnyObj.bufs]
      omega
  · simp only [MObj.view, r4, Mat.mk.injEq, and_true]
    refine ⟨?_, ?_, ?_⟩
    · rw [t4.read2 _ (by omega) (by simp), t3.read2 _ (by omega) (by simp), t2.read2 _ (by omega) (by simp), r1]
    · rw [t4.read1 _ (by omega) (by simp), t3.read1 _ (by omega) (by simp), r2]
    · rw [t4.read1 _ (by omega) (by simp), r3]

theorem returnVec_add {s : World} (ha : s.apart) {h : Memory} (t : Touched s.mem h []) (r : Except Err (Vec ℚ)) :
    (s.addVec (returnVec h r)).1.apart ∧ ((s.addVec (returnVec h r)).1.vals, (s.addVec (returnVec h r)).2) = moreVec s.vals r := by
  cases r with
  | error e =>
    have := World.apart_keep ha t
    exact ⟨this.1, by simp [World.addVec, returnVec, moreVec, this.2]⟩
  | ok v =>
    obtain ⟨f, hv⟩ := VObj.make_fresh h v
    have := World.apart_add ha (f.after t)
    refine ⟨this.1, ?_⟩
    simp only [World.addVec, returnVec, moreVec, this.2, AnyObj.view, hv]

theorem returnMat_add {s : World} (ha : s.apart) {h : Memory} (t : Touched s.mem h []) (r : Except Err Mat) :
    (s.addMat (returnMat h r)).1.apart ∧ ((s.addMat (returnMat h r)).1.vals, (s.addMat (returnMat h r)).2) = moreMat s.vals r := by
  cases r with
  | error e =>
    have := World.apart_keep ha t
    exact ⟨this.1, by simp [World.addMat, returnMat, moreMat, this.2]⟩
  | ok v =>
    obtain ⟨f, hv⟩ := MObj.make_fresh h v
    have := World.apart_add ha (f.after t)
    refine ⟨this.1, ?_⟩
    simp only [World.addMat, returnMat, moreMat, this.2, AnyObj.view, hv]

/-! ### Methods in place: vectors -/

theorem VObj.cut_inside {h : Memory} {o : VObj} (f : (AnyObj.vec o).fine h) (a b : Option ℚ) :
    Inside h (.vec o) h (.vec (VObj.cut h o a b).1) ∧
      (match (o.view h).cut a b with
        | .ok v => (VObj.cut h o a b).1.view h = v ∧ (VObj.cut h o a b).2 = .ok ()
        | .error e => (VObj.cut h o a b).1 = o ∧ (VObj.cut h o a b).2 = .error e) := by
  obtain ⟨n1, n2, n3⟩ := f.simple
  have sp := f.separate
  have us := f.used
  unfold VObj.cut Vec.cut
  simp only [VObj.view, bind, Except.bind, pure, Except.pure]
  cases orElseE a (listMin (h.read1 o.E)) with
  | error e => exact ⟨⟨Touched.refl _ _, f, fun b hb => .inl hb⟩, by simp⟩
  | ok lo =>
    simp only
    cases orElseE b (listMax (h.read1 o.E)) with
    | error e => exact ⟨⟨Touched.refl _ _, f, fun b hb => .inl hb⟩, by simp⟩
    | ok hi =>
      simp only
      cases index (h.read1 o.E) lo with
      | error e => exact ⟨⟨Touched.refl _ _, f, fun b hb => .inl hb⟩, by simp⟩
      | ok i =>
        simp only
        cases index (h.read1 o.E) hi with
        | error e => exact ⟨⟨Touched.refl _ _, f, fun b hb => .inl hb⟩, by simp⟩
        | ok j =>
          simp only
          have eb : (AnyObj.vec { o with E := o.E.slice i (j + 1), values := o.values.slice i (j + 1), std := o.std.map fun s => s.slice i (j + 1) }).bufs = (AnyObj.vec o).bufs := by
            cases hs : o.std <;> simp [AnyObj.bufs, Ref1.slice, hs]
          refine ⟨⟨Touched.refl _ _, ⟨by rw [eb]; exact sp, by rw [eb]; exact us, slice_nodup _ _ _ n1, slice_nodup _ _ _ n2, ?_⟩, fun b hb => .inl (by rwa [eb] at hb)⟩, ?_, trivial⟩
          · intro r hr
            simp only [Option.mem_def, Option.map_eq_some_iff] at hr
            obtain ⟨q, hq, rfl⟩ := hr
            exact slice_nodup _ _ _ (n3 q hq)
          · simp only [read1_slice, Option.map_map, Vec.mk.injEq, and_true, true_and]
            cases o.std <;> simp [read1_slice]

theorem VObj.rebin_inside {h0 h : Memory} {o : VObj} (f : (AnyObj.vec o).fine h0) (t : Touched h0 h []) (mids : Option Ref1)
    (hm : ∀ r ∈ mids, h0.next ≤ r.buf ∧ r.buf < h.next ∧ r.pos.Nodup) (q : Option ℚ) :
    Inside h0 (.vec o) (VObj.rebin h o mids q).1 (.vec (VObj.rebin h o mids q).2.1) ∧
      ((VObj.rebin h o mids q).2.1.view (VObj.rebin h o mids q).1, (VObj.rebin h o mids q).2.2) = (o.view h).rebinInplace (mids.map h.read1) q := by
  obtain ⟨n1, n2, n3⟩ := f.simple
  have sp := f.separate
  have us := f.used
  have le := t.le
  have stay : Inside h0 (.vec o) h (.vec o) :=
    ⟨t.mono (by simp), ⟨sp, fun b hb => lt_of_lt_of_le (us b hb) t.le, f.simple⟩, fun b hb => .inl hb⟩
  unfold VObj.rebin Vec.rebinInplace
  have e1 : (o.view h).E = h.read1 o.E := rfl
  have e2 : (o.view h).values = h.read1 o.values := rfl
  rw [e1, e2]
  cases hmid : rebinMids (h.read1 o.E) (mids.map h.read1) q with
  | error e => exact ⟨stay, rfl⟩
  | ok m =>
    simp only
    cases hreb : rebin1D (h.read1 o.values) (h.read1 o.E) m with
    | error e => exact ⟨stay, rfl⟩
    | ok r =>
      simp only
      have t1 := touched_new1 h r
      have m1 := new1_nodup h r
      have r1 := read1_new1 h r
      have b1 := new1_buf h r
      have l1 := new1_next h r
      generalize h.new1 r = a1 at *
      obtain ⟨oE, ov, os, ou⟩ := o
      cases mids with
      | some a =>
        have ha := hm a rfl
        have hma : m = h.read1 a := by
          cases q with
          | none => simpa [rebinMids] using hmid.symm
          | some q => simp [rebinMids] at hmid
        have rb : a1.1.read1 a = m := by rw [t1.read1 a (by omega) (by simp), hma]
        cases os with
        | none =>
          simp [AnyObj.bufs] at us sp
          refine ⟨⟨(t.trans t1).mono (by simp), ⟨?_, ?_, ha.2.2, m1, by simp⟩, ?_⟩, ?_⟩
          · simp [AnyObj.bufs]; omega
          · simp [AnyObj.bufs]; omega
          · simp [AnyObj.bufs]; omega
          · simp [VObj.view, rb, r1]
        | some s =>
          simp [AnyObj.bufs] at us sp
          have hs : a1.1.read1 s = h.read1 s := t1.read1 s (by omega) (by simp)
          refine ⟨⟨(t.trans t1).mono (by simp), ⟨?_, ?_, ha.2.2, m1, by simpa using n3⟩, ?_⟩, ?_⟩
          · simp [AnyObj.bufs]; omega
          · simp [AnyObj.bufs]; omega
          · simp [AnyObj.bufs]; omega
          · simp [VObj.view, rb, r1, hs]
      | none =>
        simp only
        have t2 := touched_new1 a1.1 m
        have m2 := new1_nodup a1.1 m
        have r2 := read1_new1 a1.1 m
        have b2 := new1_buf a1.1 m
        have l2 := new1_next a1.1 m
        generalize a1.1.new1 m = a2 at *
        have rv : a2.1.read1 a1.2 = r := by rw [t2.read1 _ (by omega) (by simp), r1]
        cases os with
        | none =>
          simp [AnyObj.bufs] at us sp
          refine ⟨⟨(t.trans (t1.trans t2)).mono (by simp), ⟨?_, ?_, m2, m1, by simp⟩, ?_⟩, ?_⟩
          · simp [AnyObj.bufs]; omega
          · simp [AnyObj.bufs]; omega
          · simp [AnyObj.bufs]; omega
          · simp [VObj.view, rv, r2]
        | some s =>
          simp [AnyObj.bufs] at us sp
          have hs : a2.1.read1 s = h.read1 s := (t1.trans t2).read1 s (by omega) (by simp)
          refine ⟨⟨(t.trans (t1.trans t2)).mono (by simp), ⟨?_, ?_, m2, m1, by simpa using n3⟩, ?_⟩, ?_⟩
          · simp [AnyObj.bufs]; omega
          · simp [AnyObj.bufs]; omega
          · simp [AnyObj.bufs]; omega
          · simp [VObj.view, rv, r2, hs]

theorem VObj.write_E {h : Memory} {o : VObj} (f : (AnyObj.vec o).fine h) (g : ℚ → ℚ) (u : String) :
    Inside h (.vec o) (h.store1 o.E ((h.read1 o.E).map g)) (.vec { o with units := u }) ∧
      VObj.view (h.store1 o.E ((h.read1 o.E).map g)) { o with units := u } = { o.view h with E := (o.view h).E.map g, units := u } := by
  obtain ⟨n1, n2, n3⟩ := f.simple
  have sp := f.separate
  have t : Touched h (h.store1 o.E ((h.read1 o.E).map g)) [o.E.buf] := touched_put _ _ _
  have us := f.used
  refine ⟨⟨t.mono (by simp [AnyObj.bufs]), ⟨sp, fun b hb => lt_of_lt_of_le (us b hb) t.le, n1, n2, n3⟩, fun b hb => .inl hb⟩, ?_⟩
  obtain ⟨oE, ov, os, ou⟩ := o
  have rE : (h.store1 oE ((h.read1 oE).map g)).read1 oE = (h.read1 oE).map g := read1_store1 _ _ _ n1 (by simp [read1_length])
  cases os with
  | none =>
    simp [AnyObj.bufs] at us sp
    simp only [VObj.view, rE, Option.map_none]
    rw [t.read1 ov (by omega) (by simp; omega)]
  | some s =>
    simp [AnyObj.bufs] at us sp
    simp only [VObj.view, rE, Option.map_some]
    rw [t.read1 ov (by omega) (by simp; omega), t.read1 s (by omega) (by simp; omega)]

theorem VObj.toMeV_inside {h : Memory} {o : VObj} (f : (AnyObj.vec o).fine h) :
    Inside h (.vec o) (VObj.toMeV h o).1 (.vec (VObj.toMeV h o).2.1) ∧
      (match (o.view h).toMeV with
        | .ok v => (VObj.toMeV h o).2.1.view (VObj.toMeV h o).1 = v ∧ (VObj.toMeV h o).2.2 = .ok ()
        | .error e => (VObj.toMeV h o).2.1 = o ∧ (VObj.toMeV h o).1 = h ∧ (VObj.toMeV h o).2.2 = .error e) := by
  have stay : Inside h (.vec o) h (.vec o) := ⟨Touched.refl _ _, f, fun b hb => .inl hb⟩
  unfold VObj.toMeV Vec.toMeV
  have eu : (o.view h).units = o.units := rfl
  rw [eu]
  split
  · exact ⟨stay, rfl, rfl⟩
  · split
    · have := VObj.write_E f (· / 1000) "MeV"
      exact ⟨this.1, this.2, rfl⟩
    · exact ⟨stay, rfl, rfl, rfl⟩

theorem VObj.toKeV_inside {h : Memory} {o : VObj} (f : (AnyObj.vec o).fine h) :
    Inside h (.vec o) (VObj.toKeV h o).1 (.vec (VObj.toKeV h o).2.1) ∧
      (match (o.view h).toKeV with
        | .ok v => (VObj.toKeV h o).2.1.view (VObj.toKeV h o).1 = v ∧ (VObj.toKeV h o).2.2 = .ok ()
        | .error e => (VObj.toKeV h o).2.1 = o ∧ (VObj.toKeV h o).1 = h ∧ (VObj.toKeV h o).2.2 = .error e) := by
  have stay : Inside h (.vec o) h (.vec o) := ⟨Touched.refl _ _, f, fun b hb => .inl hb⟩
  unfold VObj.toKeV Vec.toKeV
  have eu : (o.view h).units = o.units := rfl
  rw [eu]
  split
  · exact ⟨stay, rfl, rfl⟩
  · split
    · have := VObj.write_E f (· * 1000) "keV"
      exact ⟨this.1, this.2, rfl⟩
    · exact ⟨stay, rfl, rfl, rfl⟩

/-- `values` and `std` become new arrays, the energies the array `a`. -/
theorem VObj.rebind_inside {h0 h : Memory} {o : VObj} (f : (AnyObj.vec o).fine h0) (t : Touched h0 h []) (a : Ref1) (v : Vec ℚ)
    (ha : a = o.E ∨ (h0.next ≤ a.buf ∧ a.buf < h.next ∧ a.pos.Nodup)) (hE : v.E = h.read1 a) (hu : v.units = o.units) :
    Inside h0 (.vec o) ((h.new1 v.values).1.newOpt1 v.std).1 (.vec { o with E := a, values := (h.new1 v.values).2, std := ((h.new1 v.values).1.newOpt1 v.std).2 }) ∧
      VObj.view ((h.new1 v.values).1.newOpt1 v.std).1 { o with E := a, values := (h.new1 v.values).2, std := ((h.new1 v.values).1.newOpt1 v.std).2 } = v := by
  obtain ⟨n1, n2, n3⟩ := f.simple
  have us := f.used
  have le := t.le
  have hab : a.buf < h.next ∧ a.pos.Nodup ∧ (a.buf = o.E.buf ∨ h0.next ≤ a.buf) := by
    have := us o.E.buf (by simp [AnyObj.bufs])
    rcases ha with rfl | ⟨h1, h2, h3⟩
    · exact ⟨by omega, n1, .inl rfl⟩
    · exact ⟨h2, h3, .inr h1⟩
  have t1 := touched_new1 h v.values
  have m1 := new1_nodup h v.values
  have r1 := read1_new1 h v.values
  have b1 := new1_buf h v.values
  have l1 := new1_next h v.values
  generalize h.new1 v.values = a1 at *
  have t2 := touched_newOpt1 a1.1 v.std
  obtain ⟨r2, m2⟩ := newOpt1_spec a1.1 v.std
  generalize a1.1.newOpt1 v.std = a2 at *
  have le2 := t2.le
  have own : ∀ b ∈ (AnyObj.vec { o with E := a, values := a1.2, std := a2.2 }).bufs, b = a.buf ∨ h.next ≤ b := by
    cases hs : a2.2 with
    | none => simp [AnyObj.bufs]; omega
    | some r =>
      have := m2 r (by simp [hs])
      simp [AnyObj.bufs]
      omega
  refine ⟨⟨(t.trans (t1.trans t2)).mono (by simp), ⟨?_, ?_, hab.2.1, m1, fun r hr => (m2 r hr).2.2⟩, ?_⟩, ?_⟩
  · cases hs : a2.2 with
    | none => simp [AnyObj.bufs]; omega
    | some r =>
      have := m2 r (by simp [hs])
      simp [AnyObj.bufs]
      omega
  · cases hs : a2.2 with
    | none => simp [AnyObj.bufs]; omega
    | some r =>
      have := m2 r (by simp [hs])
      simp [AnyObj.bufs]
      omega
  · intro b hb
    rcases own b hb with rfl | h1
    · rcases hab.2.2 with h2 | h2
      · exact .inl (by rw [h2]; simp [AnyObj.bufs])
      · exact .inr h2
    · exact .inr (by omega)
  · obtain ⟨vE, vv, vs, vu⟩ := v
    simp only at hE hu r1 r2
    simp only [VObj.view, r2, hu, Vec.mk.injEq, and_true]
    exact ⟨by rw [(t1.trans t2).read1 a (by omega) (by simp), hE], by rw [t2.read1 _ (by omega) (by simp), r1]⟩

theorem VObj.setItem_inside {h : Memory} {o : VObj} (f : (AnyObj.vec o).fine h) (j : ℕ) (x : ℚ) :
    Inside h (.vec o) (VObj.setItem h o j x).1 (.vec (VObj.setItem h o j x).2.1) ∧
      (match (if j < (o.view h).values.length then .ok { o.view h with values := (o.view h).values.set j x } else .error .indexError : Except Err (Vec ℚ)) with
        | .ok v => (VObj.setItem h o j x).2.1.view (VObj.setItem h o j x).1 = v ∧ (VObj.setItem h o j x).2.2 = .ok ()
        | .error e => (VObj.setItem h o j x).2.1 = o ∧ (VObj.setItem h o j x).1 = h ∧ (VObj.setItem h o j x).2.2 = .error e) := by
  have el : (o.view h).values.length = o.values.pos.length := by simp [VObj.view, read1_length]
  unfold VObj.setItem
  rw [el]
  split
  · obtain ⟨n1, n2, n3⟩ := f.simple
    have sp := f.separate
    have t : Touched h (h.store1 o.values ((h.read1 o.values).set j x)) [o.values.buf] := touched_put _ _ _
    have us := f.used
    refine ⟨⟨t.mono (by simp [AnyObj.bufs]), ⟨sp, fun b hb => lt_of_lt_of_le (us b hb) t.le, n1, n2, n3⟩, fun b hb => .inl hb⟩, ?_, rfl⟩
    obtain ⟨oE, ov, os, ou⟩ := o
    have rE : (h.store1 ov ((h.read1 ov).set j x)).read1 ov = (h.read1 ov).set j x := read1_store1 _ _ _ n2 (by simp [read1_length])
    cases os with
    | none =>
      simp [AnyObj.bufs] at us sp
      simp only [VObj.view, rE, Option.map_none]
      rw [t.read1 oE (by omega) (by simp; omega)]
    | some s =>
      simp [AnyObj.bufs] at us sp
      simp only [VObj.view, rE, Option.map_some]
      rw [t.read1 oE (by omega) (by simp; omega), t.read1 s (by omega) (by simp; omega)]
  · exact ⟨⟨Touched.refl _ _, f, fun b hb => .inl hb⟩, rfl, rfl, rfl⟩

/-! ### Arguments -/

theorem World.vals_get (s : World) (k : ℕ) : s.vals[k]? = (s.objs[k]?).map (AnyObj.view s.mem) := by
  simp [World.vals]

theorem arg_spec {s : World} (ha : s.apart) (a : Arg) :
    (∃ h r, s.arg a = .ok (h, r) ∧ Touched s.mem h [] ∧ r.buf < h.next ∧ valArg s.vals a = .ok (h.read1 r) ∧
      (a.isLit = true → s.mem.next ≤ r.buf ∧ r.pos.Nodup)) ∨ ∃ e, s.arg a = .error e ∧ valArg s.vals a = .error e := by
  cases a with
  | lit d =>
    exact .inl ⟨(s.mem.new1 d).1, (s.mem.new1 d).2, rfl, touched_new1 _ _, by simp, by rw [read1_new1]; rfl, fun _ => ⟨by simp, new1_nodup _ _⟩⟩
  | vecE k =>
    cases hk : s.objs[k]? with
    | none => exact .inr ⟨.nameError, by simp [World.arg, hk], by simp [valArg, World.vals_get, hk]⟩
    | some p =>
      cases p with
      | vec o =>
        exact .inl ⟨s.mem, o.E, by simp [World.arg, hk], Touched.refl _ _, (ha.fine k _ hk).used _ (by simp [AnyObj.bufs]),
          by simp [valArg, World.vals_get, hk, AnyObj.view, VObj.view], by simp [Arg.isLit]⟩
      | mat o => exact .inr ⟨.nameError, by simp [World.arg, hk], by simp [valArg, World.vals_get, hk, AnyObj.view]⟩
  | vecValues k =>
    cases hk : s.objs[k]? with
    | none => exact .inr ⟨.nameError, by simp [World.arg, hk], by simp [valArg, World.vals_get, hk]⟩
    | some p =>
      cases p with
      | vec o =>
        exact .inl ⟨s.mem, o.values, by simp [World.arg, hk], Touched.refl _ _, (ha.fine k _ hk).used _ (by simp [AnyObj.bufs]),
          by simp [valArg, World.vals_get, hk, AnyObj.view, VObj.view], by simp [Arg.isLit]⟩
      | mat o => exact .inr ⟨.nameError, by simp [World.arg, hk], by simp [valArg, World.vals_get, hk, AnyObj.view]⟩
  | matEg k =>
    cases hk : s.objs[k]? with
    | none => exact .inr ⟨.nameError, by simp [World.arg, hk], by simp [valArg, World.vals_get, hk]⟩
    | some p =>
      cases p with
      | mat o =>
        exact .inl ⟨s.mem, o.Eg, by simp [World.arg, hk], Touched.refl _ _, (ha.fine k _ hk).used _ (by simp [AnyObj.bufs]),
          by simp [valArg, World.vals_get, hk, AnyObj.view, MObj.view], by simp [Arg.isLit]⟩
      | vec o => exact .inr ⟨.nameError, by simp [World.arg, hk], by simp [valArg, World.vals_get, hk, AnyObj.view]⟩
  | matEx k =>
    cases hk : s.objs[k]? with
    | none => exact .inr ⟨.nameError, by simp [World.arg, hk], by simp [valArg, World.vals_get, hk]⟩
    | some p =>
      cases p with
      | mat o =>
        exact .inl ⟨s.mem, o.Ex, by simp [World.arg, hk], Touched.refl _ _, (ha.fine k _ hk).used _ (by simp [AnyObj.bufs]),
          by simp [valArg, World.vals_get, hk, AnyObj.view, MObj.view], by simp [Arg.isLit]⟩
      | vec o => exact .inr ⟨.nameError, by simp [World.arg, hk], by simp [valArg, World.vals_get, hk, AnyObj.view]⟩

theorem argOpt_spec {s : World} (ha : s.apart) (a : Option Arg) :
    (∃ h r, s.argOpt a = .ok (h, r) ∧ Touched s.mem h [] ∧ (∀ q ∈ r, q.buf < h.next) ∧ valArgOpt s.vals a = .ok (r.map h.read1) ∧
      (a.all Arg.isLit = true → ∀ q ∈ r, s.mem.next ≤ q.buf ∧ q.buf < h.next ∧ q.pos.Nodup) ∧ (a = none → r = none)) ∨
      ∃ e, s.argOpt a = .error e ∧ valArgOpt s.vals a = .error e := by
  cases a with
  | none => exact .inl ⟨s.mem, none, rfl, Touched.refl _ _, by simp, rfl, by simp, fun _ => rfl⟩
  | some a =>
    rcases arg_spec ha a with ⟨h, r, h1, h2, h3, h4, h5⟩ | ⟨e, h1, h2⟩
    · refine .inl ⟨h, some r, by simp [World.argOpt, h1], h2, by simpa using h3, by simp [valArgOpt, h4, Except.map], ?_, by simp⟩
      intro hl q hq
      simp only [Option.mem_def, Option.some.injEq] at hq
      subst hq
      exact ⟨(h5 (by simpa using hl)).1, h3, (h5 (by simpa using hl)).2⟩
    · exact .inr ⟨e, by simp [World.argOpt, h1], by simp [valArgOpt, h2, Except.map]⟩

theorem arg2_spec {s : World} (ha : s.apart) (a : Arg2) :
    (∃ h r, s.arg2 a = .ok (h, r) ∧ Touched s.mem h [] ∧ r.buf < h.next ∧ valArg2 s.vals a = .ok (h.read2 r) ∧
      (a.isLit = true → s.mem.next ≤ r.buf ∧ r.pos.flatten.Nodup)) ∨ ∃ e, s.arg2 a = .error e ∧ valArg2 s.vals a = .error e := by
  cases a with
  | lit d =>
    exact .inl ⟨(s.mem.new2 d).1, (s.mem.new2 d).2, rfl, touched_new2 _ _, by simp, by rw [read2_new2]; rfl, fun _ => ⟨by simp, new2_nodup _ _⟩⟩
  | matValues k =>
    cases hk : s.objs[k]? with
    | none => exact .inr ⟨.nameError, by simp [World.arg2, hk], by simp [valArg2, World.vals_get, hk]⟩
    | some p =>
      cases p with
      | mat o =>
        exact .inl ⟨s.mem, o.values, by simp [World.arg2, hk], Touched.refl _ _, (ha.fine k _ hk).used _ (by simp [AnyObj.bufs]),
          by simp [valArg2, World.vals_get, hk, AnyObj.view, MObj.view], by simp [Arg2.isLit]⟩
      | vec o => exact .inr ⟨.nameError, by simp [World.arg2, hk], by simp [valArg2, World.vals_get, hk, AnyObj.view]⟩
  | matStd k =>
    cases hk : s.objs[k]? with
    | none => exact .inr ⟨.nameError, by simp [World.arg2, hk], by simp [valArg2, World.vals_get, hk]⟩
    | some p =>
      cases p with
      | mat o =>
        obtain ⟨ov, og, ox, os, ou⟩ := o
        cases os with
        | none => exact .inr ⟨.nameError, by simp [World.arg2, hk], by simp [valArg2, World.vals_get, hk, AnyObj.view, MObj.view]⟩
        | some r =>
          exact .inl ⟨s.mem, r, by simp [World.arg2, hk], Touched.refl _ _, (ha.fine k _ hk).used _ (by simp [AnyObj.bufs]),
            by simp [valArg2, World.vals_get, hk, AnyObj.view, MObj.view], by simp [Arg2.isLit]⟩
      | vec o => exact .inr ⟨.nameError, by simp [World.arg2, hk], by simp [valArg2, World.vals_get, hk, AnyObj.view]⟩

theorem argOpt2_spec {s : World} (ha : s.apart) (a : Option Arg2) :
    (∃ h r, s.argOpt2 a = .ok (h, r) ∧ Touched s.mem h [] ∧ (∀ q ∈ r, q.buf < h.next) ∧ valArgOpt2 s.vals a = .ok (r.map h.read2) ∧
      (a.all Arg2.isLit = true → ∀ q ∈ r, s.mem.next ≤ q.buf ∧ q.buf < h.next ∧ q.pos.flatten.Nodup)) ∨
      ∃ e, s.argOpt2 a = .error e ∧ valArgOpt2 s.vals a = .error e := by
  cases a with
  | none => exact .inl ⟨s.mem, none, rfl, Touched.refl _ _, by simp, rfl, by simp⟩
  | some a =>
    rcases arg2_spec ha a with ⟨h, r, h1, h2, h3, h4, h5⟩ | ⟨e, h1, h2⟩
    · refine .inl ⟨h, some r, by simp [World.argOpt2, h1], h2, by simpa using h3, by simp [valArgOpt2, h4, Except.map], ?_⟩
      intro hl q hq
      simp only [Option.mem_def, Option.some.injEq] at hq
      subst hq
      exact ⟨(h5 (by simpa using hl)).1, h3, (h5 (by simpa using hl)).2⟩
    · exact .inr ⟨e, by simp [World.argOpt2, h1], by simp [valArgOpt2, h2, Except.map]⟩

/-! ### Calls -/

theorem World.vals_set_self {s : World} {k : ℕ} {o : AnyObj} (hk : s.objs[k]? = some o) : s.vals.set k (o.view s.mem) = s.vals := by
  apply List.ext_getElem?
  intro i
  by_cases hik : k = i
  · subst hik
    rw [List.getElem?_set]
    simp only [if_true, World.vals_get, hk, Option.map_some]
    rw [if_pos]
    have := (List.getElem?_eq_some_iff.mp hk).1
    simpa [World.vals] using this
  · rw [List.getElem?_set_ne hik]

theorem vec_may {s : World} (ha : s.apart) {k : ℕ} {o : VObj} (hk : s.objs[k]? = some (.vec o)) {res : Memory × VObj × Except Err Unit} {r : Except Err (Vec ℚ)}
    (hi : Inside s.mem (.vec o) res.1 (.vec res.2.1))
    (hv : match r with
      | .ok v => res.2.1.view res.1 = v ∧ res.2.2 = .ok ()
      | .error e => res.2.1 = o ∧ res.1 = s.mem ∧ res.2.2 = .error e) :
    (s.setVec k res).1.apart ∧ ((s.setVec k res).1.vals, (s.setVec k res).2) = mayVec s.vals k r := by
  have := World.apart_set ha hk hi
  refine ⟨this.1, ?_⟩
  unfold World.setVec
  rw [this.2]
  cases r with
  | ok v => simp [mayVec, AnyObj.view, hv.1, hv.2]
  | error e =>
    simp only at hv
    simp only [mayVec, hv.1, hv.2.1, hv.2.2, World.vals_set_self hk]

theorem mat_may {s : World} (ha : s.apart) {k : ℕ} {o : MObj} (hk : s.objs[k]? = some (.mat o)) {res : Memory × MObj × Except Err Unit} {r : Except Err Mat}
    (hi : Inside s.mem (.mat o) res.1 (.mat res.2.1))
    (hv : match r with
      | .ok v => res.2.1.view res.1 = v ∧ res.2.2 = .ok ()
      | .error e => res.2.1 = o ∧ res.1 = s.mem ∧ res.2.2 = .error e) :
    (s.setMat k res).1.apart ∧ ((s.setMat k res).1.vals, (s.setMat k res).2) = mayMat s.vals k r := by
  have := World.apart_set ha hk hi
  refine ⟨this.1, ?_⟩
  unfold World.setMat
  rw [this.2]
  cases r with
  | ok v => simp [mayMat, AnyObj.view, hv.1, hv.2]
  | error e =>
    simp only at hv
    simp only [mayMat, hv.1, hv.2.1, hv.2.2, World.vals_set_self hk]

theorem vec_call {s : World} (ha : s.apart) {k : ℕ} {o : VObj} (hk : s.objs[k]? = some (.vec o)) (ex rt : ℚ → ℚ) (c : VCall)
    (hc : (PyCall.onVec k c).careful = true) :
    (s.vecCall ex rt k o c).1.apart ∧ ((s.vecCall ex rt k o c).1.vals, (s.vecCall ex rt k o c).2) = vecOwn ex rt s.vals k (o.view s.mem) c := by
  have f := ha.fine k _ hk
  have vw : ∀ h, Touched s.mem h [] → o.view h = o.view s.mem := by
    intro h t
    have := t.view (.vec o) f.used (by simp)
    simpa [AnyObj.view] using this
  cases c with
  | cut a b =>
    have := VObj.cut_inside f a b
    refine vec_may ha hk (res := (s.mem, VObj.cut s.mem o a b)) this.1 ?_
    have h2 := this.2
    revert h2
    cases (o.view s.mem).cut a b with
    | ok v => exact id
    | error e => exact fun h => ⟨h.1, rfl, h.2⟩
  | cutCopy a b => exact returnVec_add ha (Touched.refl _ _) _
  | rebin mids q =>
    rcases argOpt_spec ha mids with ⟨h, r, h1, h2, h3, h4, h5, _⟩ | ⟨e, h1, h2⟩
    · simp only [World.vecCall, vecOwn, h1, h4]
      have := VObj.rebin_inside f h2 r (h5 hc) q
      have st := World.apart_set ha hk this.1
      refine ⟨st.1, ?_⟩
      unfold World.setVec nowVec
      rw [st.2, ← vw h h2, ← this.2]
      rfl
    · simp only [World.vecCall, vecOwn, h1, h2]
      exact ⟨ha, trivial⟩
  | rebinCopy mids q =>
    rcases argOpt_spec ha mids with ⟨h, r, h1, h2, h3, h4, h5, _⟩ | ⟨e, h1, h2⟩
    · simp only [World.vecCall, vecOwn, h1, h4]
      rw [vw h h2]
      exact returnVec_add ha h2 _
    · simp only [World.vecCall, vecOwn, h1, h2]
      exact ⟨ha, trivial⟩
  | toMeV => exact vec_may ha hk (VObj.toMeV_inside f).1 (VObj.toMeV_inside f).2
  | toKeV => exact vec_may ha hk (VObj.toKeV_inside f).1 (VObj.toKeV_inside f).2
  | closest a right =>
    rcases arg_spec ha a with ⟨h, r, h1, h2, h3, h4, h5⟩ | ⟨e, h1, h2⟩
    · simp only [World.vecCall, vecOwn, h1, h4, VObj.closest]
      rw [vw h h2]
      have h6 := h5 hc
      cases hcl : (o.view s.mem).closest (h.read1 r) right with
      | error e =>
        have kp := World.apart_keep ha h2
        refine ⟨?_, ?_⟩
        · simp only [World.setVec]
          have : s.objs.set k (.vec o) = s.objs := by
            obtain ⟨hl, he⟩ := List.getElem?_eq_some_iff.mp hk
            rw [← he, List.set_getElem_self]
          rw [this]
          exact kp.1
        · simp only [World.setVec, mayVec]
          have : s.objs.set k (.vec o) = s.objs := by
            obtain ⟨hl, he⟩ := List.getElem?_eq_some_iff.mp hk
            rw [← he, List.set_getElem_self]
          rw [this, kp.2]
      | ok v =>
        simp only
        have hv : v.E = h.read1 r ∧ v.units = o.units := by
          unfold Vec.closest at hcl
          split at hcl
          · cases hcl
            exact ⟨rfl, rfl⟩
          · cases hcl
        have ri := VObj.rebind_inside f h2 r v (.inr ⟨h6.1, h3, h6.2⟩) hv.1 hv.2
        have st := World.apart_set ha hk ri.1
        refine ⟨st.1, ?_⟩
        simp only [World.setVec, mayVec]
        rw [st.2]
        simp only [AnyObj.view, ri.2]
    · simp only [World.vecCall, vecOwn, h1, h2]
      exact ⟨ha, trivial⟩
  | closestCopy a right =>
    rcases arg_spec ha a with ⟨h, r, h1, h2, h3, h4, h5⟩ | ⟨e, h1, h2⟩
    · simp only [World.vecCall, vecOwn, h1, h4]
      rw [vw h h2]
      exact returnVec_add ha h2 _
    · simp only [World.vecCall, vecOwn, h1, h2]
      exact ⟨ha, trivial⟩
  | transform c a =>
    have ri := VObj.rebind_inside f (Touched.refl s.mem []) o.E ((o.view s.mem).transform id ex c a) (.inl rfl) rfl rfl
    exact vec_may ha hk (res := VObj.renew s.mem o (.ok ((o.view s.mem).transform id ex c a))) (r := .ok _) ri.1 ⟨ri.2, rfl⟩
  | transformCopy c a => exact returnVec_add ha (Touched.refl _ _) _
  | cumulative q =>
    refine vec_may ha hk (res := VObj.renew s.mem o ((o.view s.mem).cumulative id rt q)) (r := (o.view s.mem).cumulative id rt q) ?_ ?_
    · cases hcu : (o.view s.mem).cumulative id rt q with
      | error e => exact ⟨Touched.refl _ _, f, fun b hb => .inl hb⟩
      | ok v =>
        have hv : v.E = s.mem.read1 o.E ∧ v.units = o.units := by
          unfold Vec.cumulative at hcu
          simp only [bind, Except.bind] at hcu
          split at hcu
          · cases hcu
          · cases hcu
            exact ⟨rfl, rfl⟩
        exact (VObj.rebind_inside f (Touched.refl s.mem []) o.E v (.inl rfl) hv.1 hv.2).1
    · cases hcu : (o.view s.mem).cumulative id rt q with
      | error e => exact ⟨rfl, rfl, rfl⟩
      | ok v =>
        have hv : v.E = s.mem.read1 o.E ∧ v.units = o.units := by
          unfold Vec.cumulative at hcu
          simp only [bind, Except.bind] at hcu
          split at hcu
          · cases hcu
          · cases hcu
            exact ⟨rfl, rfl⟩
        exact ⟨(VObj.rebind_inside f (Touched.refl s.mem []) o.E v (.inl rfl) hv.1 hv.2).2, rfl⟩
  | cumulativeCopy q => exact returnVec_add ha (Touched.refl _ _) _
  | setItem j x => exact vec_may ha hk (VObj.setItem_inside f j x).1 (VObj.setItem_inside f j x).2
  | copy => exact returnVec_add ha (Touched.refl _ _) _

/-! ### Methods in place: matrices -/

theorem Inside.trans {h h' h'' : Memory} {o o' o'' : AnyObj} (a : Inside h o h' o') (b : Inside h' o' h'' o'') : Inside h o h'' o'' := by
  refine ⟨⟨le_trans a.touched.le b.touched.le, fun c hc hn => ?_⟩, b.fine, fun c hc => ?_⟩
  · rw [b.touched.same c (lt_of_lt_of_le hc a.touched.le) ?_, a.touched.same c hc hn]
    intro hm
    rcases a.own c hm with h1 | h1
    · exact hn h1
    · omega
  · rcases b.own c hc with h1 | h1
    · exact a.own c h1
    · exact .inr (le_trans a.touched.le h1)

theorem MObj.cut_inside {h : Memory} {o : MObj} (f : (AnyObj.mat o).fine h) (ax : ℕ) (a b : Option ℚ) (i j : Bool) :
    Inside h (.mat o) h (.mat (MObj.cut h o ax a b i j).1) ∧
      (match (o.view h).cut ax a b i j with
        | .ok v => (MObj.cut h o ax a b i j).1.view h = v ∧ (MObj.cut h o ax a b i j).2 = .ok ()
        | .error e => (MObj.cut h o ax a b i j).1 = o ∧ (MObj.cut h o ax a b i j).2 = .error e) := by
  obtain ⟨n1, n2, n3, n4⟩ := f.simple
  have sp := f.separate
  have us := f.used
  have stay : Inside h (.mat o) h (.mat o) := ⟨Touched.refl _ _, f, fun b hb => .inl hb⟩
  unfold MObj.cut Mat.cut
  simp only [MObj.view]
  cases cutBounds (if ax = 0 then h.read1 o.Eg else h.read1 o.Ex) a b i j with
  | error e => exact ⟨stay, rfl, rfl⟩
  | ok p =>
    obtain ⟨p, q⟩ := p
    simp only
    by_cases h0 : ax = 0
    · simp only [if_pos h0]
      exact ⟨⟨Touched.refl _ _, ⟨sp, us, cols_nodup _ _ _ n1, slice_nodup _ _ _ n2, n3, n4⟩, fun b hb => .inl hb⟩,
        by simp [read2_cols, read1_slice], trivial⟩
    · simp only [if_neg h0]
      by_cases h1 : ax = 1
      · simp only [if_pos h1]
        exact ⟨⟨Touched.refl _ _, ⟨sp, us, rows_nodup _ _ _ n1, n2, slice_nodup _ _ _ n3, n4⟩, fun b hb => .inl hb⟩,
          by simp [read2_rows, read1_slice], trivial⟩
      · simp only [if_neg h1]
        exact ⟨stay, trivial, trivial⟩

theorem MObj.rebinOne_spec {h : Memory} {o : MObj} (f : (AnyObj.mat o).fine h) (isEx : Bool) (mids : Option Ref1)
    (hm : ∀ r ∈ mids, r.buf ∉ (AnyObj.mat o).bufs ∧ r.buf < h.next ∧ r.pos.Nodup) (q : Option ℚ) :
    Touched h (MObj.rebinOne h o isEx mids q).1 [] ∧ (AnyObj.mat (MObj.rebinOne h o isEx mids q).2.1).fine (MObj.rebinOne h o isEx mids q).1 ∧
      (∀ b ∈ (AnyObj.mat (MObj.rebinOne h o isEx mids q).2.1).bufs, b ∈ (AnyObj.mat o).bufs ∨ h.next ≤ b ∨ ∃ r ∈ mids, b = r.buf) ∧
      ((MObj.rebinOne h o isEx mids q).2.1.view (MObj.rebinOne h o isEx mids q).1, (MObj.rebinOne h o isEx mids q).2.2) = (o.view h).rebinOne isEx (mids.map h.read1) q := by
  obtain ⟨n1, n2, n3, n4⟩ := f.simple
  have sp := f.separate
  have us := f.used
  unfold MObj.rebinOne Mat.rebinOne
  simp only [MObj.view]
  cases hmid : rebinMids (if isEx then h.read1 o.Ex else h.read1 o.Eg) (mids.map h.read1) q with
  | error e => exact ⟨Touched.refl _ _, f, fun b hb => .inl hb, rfl⟩
  | ok m =>
    simp only
    cases rebin2D (h.read2 o.values) (h.read1 o.Eg).length (if isEx then h.read1 o.Ex else h.read1 o.Eg) m (if isEx then 0 else 1) with
    | error e => exact ⟨Touched.refl _ _, f, fun b hb => .inl hb, rfl⟩
    | ok r =>
      simp only
      have t1 := touched_new2 h r
      have m1 := new2_nodup h r
      have r1 := read2_new2 h r
      have b1 := new2_buf h r
      have l1 := new2_next h r
      generalize h.new2 r = a1 at *
      have key : ∃ h2 ra, newAxis a1.1 mids m = (h2, ra) ∧ Touched a1.1 h2 [] ∧ h2.read1 ra = m ∧ ra.buf < h2.next ∧ ra.pos.Nodup ∧ ra.buf ≠ h.next ∧
          ra.buf ∉ (AnyObj.mat o).bufs ∧ (h.next ≤ ra.buf ∨ ∃ r ∈ mids, ra.buf = r.buf) := by
        cases mids with
        | some a =>
          have ha := hm a rfl
          have hma : m = h.read1 a := by
            cases q with
            | none => simpa [rebinMids] using hmid.symm
            | some q => simp [rebinMids] at hmid
          exact ⟨a1.1, a, rfl, Touched.refl _ _, by rw [t1.read1 a (by omega) (by simp), hma], by omega, ha.2.2, by omega, ha.1, .inr ⟨a, rfl, rfl⟩⟩
        | none =>
          refine ⟨(a1.1.new1 m).1, (a1.1.new1 m).2, rfl, touched_new1 _ _, read1_new1 _ _, by simp, new1_nodup _ _, by simp; omega, ?_, .inl (by simp; omega)⟩
          intro hb
          have := us _ hb
          simp at this
          omega
      obtain ⟨h2, ra, hra, t2, r2, l2, m2, ne2, nb2, ow2⟩ := key
      rw [hra]
      simp only
      have le2 := t2.le
      have rv : h2.read2 a1.2 = r := by rw [t2.read2 _ (by omega) (by simp), r1]
      have tt := t1.trans t2
      obtain ⟨ov, og, ox, os, ou⟩ := o
      have ow3 : ∀ b, b = ra.buf → (b ∈ (AnyObj.mat ⟨ov, og, ox, os, ou⟩).bufs ∨ h.next ≤ b ∨ ∃ r ∈ mids, b = r.buf) := by
        rintro b rfl
        exact .inr ow2
      clear ow2
      cases isEx with
      | true =>
        simp only [if_true]
        have rg : h2.read1 og = h.read1 og := tt.read1 _ (us _ (by simp [AnyObj.bufs])) (by simp)
        cases os with
        | none =>
          simp [AnyObj.bufs] at us sp nb2
          refine ⟨tt, ⟨?_, ?_, m1, n2, m2, by simp⟩, ?_, ?_⟩
          · simp [AnyObj.bufs]; omega
          · simp [AnyObj.bufs]; omega
          · intro b hb
            simp [AnyObj.bufs] at hb
            rcases hb with hb | hb | hb
            · exact .inr (.inl (by omega))
            · exact .inl (by simp [AnyObj.bufs, hb])
            · exact ow3 b hb
          · simp [rv, r2, rg]
        | some s =>
          have rs : h2.read2 s = h.read2 s := tt.read2 _ (us _ (by simp [AnyObj.bufs])) (by simp)
          simp [AnyObj.bufs] at us sp nb2
          refine ⟨tt, ⟨?_, ?_, m1, n2, m2, n4⟩, ?_, ?_⟩
          · simp [AnyObj.bufs]; omega
          · simp [AnyObj.bufs]; omega
          · intro b hb
            simp [AnyObj.bufs] at hb
            rcases hb with hb | hb | hb | hb
            · exact .inr (.inl (by omega))
            · exact .inl (by simp [AnyObj.bufs, hb])
            · exact ow3 b hb
            · exact .inl (by simp [AnyObj.bufs, hb])
          · simp [rv, r2, rg, rs]
      | false =>
        simp only [Bool.false_eq_true, if_false]
        have rg : h2.read1 ox = h.read1 ox := tt.read1 _ (us _ (by simp [AnyObj.bufs])) (by simp)
        cases os with
        | none =>
          simp [AnyObj.bufs] at us sp nb2
          refine ⟨tt, ⟨?_, ?_, m1, m2, n3, by simp⟩, ?_, ?_⟩
          · simp [AnyObj.bufs]; omega
          · simp [AnyObj.bufs]; omega
          · intro b hb
            simp [AnyObj.bufs] at hb
            rcases hb with hb | hb | hb
            · exact .inr (.inl (by omega))
            · exact ow3 b hb
            · exact .inl (by simp [AnyObj.bufs, hb])
          · simp [rv, r2, rg]
        | some s =>
          have rs : h2.read2 s = h.read2 s := tt.read2 _ (us _ (by simp [AnyObj.bufs])) (by simp)
          simp [AnyObj.bufs] at us sp nb2
          refine ⟨tt, ⟨?_, ?_, m1, m2, n3, n4⟩, ?_, ?_⟩
          · simp [AnyObj.bufs]; omega
          · simp [AnyObj.bufs]; omega
          · intro b hb
            simp [AnyObj.bufs] at hb
            rcases hb with hb | hb | hb | hb
            · exact .inr (.inl (by omega))
            · exact ow3 b hb
            · exact .inl (by simp [AnyObj.bufs, hb])
            · exact .inl (by simp [AnyObj.bufs, hb])
          · simp [rv, r2, rg, rs]

theorem MObj.rebinOne_inside {h0 h : Memory} {o : MObj} (f : (AnyObj.mat o).fine h0) (t : Touched h0 h []) (isEx : Bool) (mids : Option Ref1)
    (hm : ∀ r ∈ mids, h0.next ≤ r.buf ∧ r.buf < h.next ∧ r.pos.Nodup) (q : Option ℚ) :
    Inside h0 (.mat o) (MObj.rebinOne h o isEx mids q).1 (.mat (MObj.rebinOne h o isEx mids q).2.1) := by
  have f' : (AnyObj.mat o).fine h := ⟨f.separate, fun b hb => lt_of_lt_of_le (f.used b hb) t.le, f.simple⟩
  have sp := MObj.rebinOne_spec f' isEx mids (fun r hr => ⟨fun hb => absurd (f.used _ hb) (by have := (hm r hr).1; omega), (hm r hr).2⟩) q
  refine ⟨(t.trans sp.1).mono (by simp), sp.2.1, fun b hb => ?_⟩
  rcases sp.2.2.1 b hb with h1 | h1 | ⟨r, hr, rfl⟩
  · exact .inl h1
  · exact .inr (le_trans t.le h1)
  · exact .inr (hm r hr).1

theorem MObj.rebinOne_view {h0 h : Memory} {o : MObj} (f : (AnyObj.mat o).fine h0) (t : Touched h0 h []) (isEx : Bool) (mids : Option Ref1)
    (hm : ∀ r ∈ mids, h0.next ≤ r.buf ∧ r.buf < h.next ∧ r.pos.Nodup) (q : Option ℚ) :
    ((MObj.rebinOne h o isEx mids q).2.1.view (MObj.rebinOne h o isEx mids q).1, (MObj.rebinOne h o isEx mids q).2.2) = (o.view h).rebinOne isEx (mids.map h.read1) q := by
  have f' : (AnyObj.mat o).fine h := ⟨f.separate, fun b hb => lt_of_lt_of_le (f.used b hb) t.le, f.simple⟩
  exact (MObj.rebinOne_spec f' isEx mids (fun r hr => ⟨fun hb => absurd (f.used _ hb) (by have := (hm r hr).1; omega), (hm r hr).2⟩) q).2.2.2

theorem MObj.rebin_inside {h0 h : Memory} {o : MObj} (f : (AnyObj.mat o).fine h0) (t : Touched h0 h []) (ax : ℕ) (mids : Option Ref1)
    (hm : ∀ r ∈ mids, h0.next ≤ r.buf ∧ r.buf < h.next ∧ r.pos.Nodup) (h2 : ax = 2 → mids = none) (q : Option ℚ) :
    Inside h0 (.mat o) (MObj.rebin h o ax mids q).1 (.mat (MObj.rebin h o ax mids q).2.1) ∧
      ((MObj.rebin h o ax mids q).2.1.view (MObj.rebin h o ax mids q).1, (MObj.rebin h o ax mids q).2.2) = (o.view h).rebinInplace ax (mids.map h.read1) q := by
  unfold MObj.rebin Mat.rebinInplace
  by_cases hax : ax = 2
  · rw [if_pos hax, if_pos hax, h2 hax]
    have i1 := MObj.rebinOne_inside f t false none (by simp) q
    have v1 := MObj.rebinOne_view f t false none (by simp) q
    simp only [Option.map_none] at v1 ⊢
    rw [← v1]
    generalize MObj.rebinOne h o false none q = a at *
    obtain ⟨h1, o1, e1⟩ := a
    cases e1 with
    | error e => exact ⟨i1, rfl⟩
    | ok u =>
      simp only at i1 ⊢
      have i2 := MObj.rebinOne_inside i1.fine (Touched.refl _ _) true none (by simp) q
      have v2 := MObj.rebinOne_view i1.fine (Touched.refl _ _) true none (by simp) q
      exact ⟨i1.trans i2, v2⟩
  · rw [if_neg hax, if_neg hax]
    exact ⟨MObj.rebinOne_inside f t _ mids hm q, MObj.rebinOne_view f t _ mids hm q⟩

theorem MObj.write_inside {h : Memory} {o : MObj} (f : (AnyObj.mat o).fine h) (d : List (List ℚ)) (hd : d.map List.length = (o.view h).values.map List.length) :
    Inside h (.mat o) (h.store2 o.values d) (.mat o) ∧ o.view (h.store2 o.values d) = { o.view h with values := d } := by
  obtain ⟨n1, n2, n3, n4⟩ := f.simple
  have sp := f.separate
  have us := f.used
  have t : Touched h (h.store2 o.values d) [o.values.buf] := touched_put _ _ _
  refine ⟨⟨t.mono (by simp [AnyObj.bufs]), ⟨sp, fun b hb => lt_of_lt_of_le (us b hb) t.le, n1, n2, n3, n4⟩, fun b hb => .inl hb⟩, ?_⟩
  obtain ⟨ov, og, ox, os, ou⟩ := o
  have rE : (h.store2 ov d).read2 ov = d := read2_store2 _ _ _ n1 (by rw [hd]; exact (read2_lengths h ov).symm)
  cases os with
  | none =>
    simp [AnyObj.bufs] at us sp
    simp only [MObj.view, rE, Option.map_none]
    rw [t.read1 og (by omega) (by simp; omega), t.read1 ox (by omega) (by simp; omega)]
  | some s =>
    simp [AnyObj.bufs] at us sp
    simp only [MObj.view, rE, Option.map_some]
    rw [t.read1 og (by omega) (by simp; omega), t.read1 ox (by omega) (by simp; omega), t.read2 s (by omega) (by simp; omega)]

theorem MObj.removeNegative_inside {h : Memory} {o : MObj} (f : (AnyObj.mat o).fine h) :
    Inside h (.mat o) (MObj.removeNegative h o).1 (.mat (MObj.removeNegative h o).2.1) ∧
      (MObj.removeNegative h o).2.1.view (MObj.removeNegative h o).1 = { o.view h with values := removeNegativeQ (o.view h).values } := by
  obtain ⟨n1, n2, n3, n4⟩ := f.simple
  have sp := f.separate
  have us := f.used
  unfold MObj.removeNegative
  simp only
  obtain ⟨ov, og, ox, os, ou⟩ := o
  have t1 := touched_new2 h (removeNegativeQ (h.read2 ov))
  have m1 := new2_nodup h (removeNegativeQ (h.read2 ov))
  have r1 := read2_new2 h (removeNegativeQ (h.read2 ov))
  have b1 := new2_buf h (removeNegativeQ (h.read2 ov))
  have l1 := new2_next h (removeNegativeQ (h.read2 ov))
  simp only at *
  have e : (MObj.view h ⟨ov, og, ox, os, ou⟩).values = h.read2 ov := rfl
  rw [e]
  generalize removeNegativeQ (h.read2 ov) = w at *
  generalize h.new2 w = a1 at *
  cases os with
  | none =>
    simp [AnyObj.bufs] at us sp
    refine ⟨⟨t1.mono (by simp), ⟨?_, ?_, m1, n2, n3, n4⟩, ?_⟩, ?_⟩
    · simp [AnyObj.bufs]; omega
    · simp [AnyObj.bufs]; omega
    · simp [AnyObj.bufs]; omega
    · simp only [MObj.view, r1, Option.map_none]
      rw [t1.read1 og (by omega) (by simp), t1.read1 ox (by omega) (by simp)]
  | some s =>
    simp [AnyObj.bufs] at us sp
    refine ⟨⟨t1.mono (by simp), ⟨?_, ?_, m1, n2, n3, n4⟩, ?_⟩, ?_⟩
    · simp [AnyObj.bufs]; omega
    · simp [AnyObj.bufs]; omega
    · simp [AnyObj.bufs]; omega
    · simp only [MObj.view, r1, Option.map_some]
      rw [t1.read1 og (by omega) (by simp), t1.read1 ox (by omega) (by simp), t1.read2 s (by omega) (by simp)]

theorem MObj.shift_inside {h : Memory} {o : MObj} (f : (AnyObj.mat o).fine h) (sign : ℚ) :
    Inside h (.mat o) (MObj.shiftBins h o sign).1 (.mat (MObj.shiftBins h o sign).2.1) ∧
      (match halfBin (o.view h).Ex, halfBin (o.view h).Eg with
        | .ok dx, .ok dg => (MObj.shiftBins h o sign).2.1.view (MObj.shiftBins h o sign).1 =
            { o.view h with Ex := (o.view h).Ex.map (· + sign * dx), Eg := (o.view h).Eg.map (· + sign * dg) } ∧ (MObj.shiftBins h o sign).2.2 = .ok ()
        | .error e, _ => (MObj.shiftBins h o sign).2.1 = o ∧ (MObj.shiftBins h o sign).1 = h ∧ (MObj.shiftBins h o sign).2.2 = .error e
        | _, .error e => (MObj.shiftBins h o sign).2.1 = o ∧ (MObj.shiftBins h o sign).1 = h ∧ (MObj.shiftBins h o sign).2.2 = .error e) := by
  have stay : Inside h (.mat o) h (.mat o) := ⟨Touched.refl _ _, f, fun b hb => .inl hb⟩
  obtain ⟨n1, n2, n3, n4⟩ := f.simple
  have sp := f.separate
  have us := f.used
  unfold MObj.shiftBins
  have ex : (o.view h).Ex = h.read1 o.Ex := rfl
  have eg : (o.view h).Eg = h.read1 o.Eg := rfl
  rw [ex, eg]
  cases halfBin (h.read1 o.Ex) with
  | error e => exact ⟨stay, rfl, rfl, rfl⟩
  | ok dx =>
    cases halfBin (h.read1 o.Eg) with
    | error e => exact ⟨stay, rfl, rfl, rfl⟩
    | ok dg =>
      simp only
      have t1 : Touched h (h.store1 o.Ex ((h.read1 o.Ex).map (· + sign * dx))) [o.Ex.buf] := touched_put _ _ _
      have rx : (h.store1 o.Ex ((h.read1 o.Ex).map (· + sign * dx))).read1 o.Ex = (h.read1 o.Ex).map (· + sign * dx) :=
        read1_store1 _ _ _ n3 (by simp [read1_length])
      generalize h.store1 o.Ex ((h.read1 o.Ex).map (· + sign * dx)) = h1 at *
      have t2 : Touched h1 (h1.store1 o.Eg ((h1.read1 o.Eg).map (· + sign * dg))) [o.Eg.buf] := touched_put _ _ _
      have rg : (h1.store1 o.Eg ((h1.read1 o.Eg).map (· + sign * dg))).read1 o.Eg = (h1.read1 o.Eg).map (· + sign * dg) :=
        read1_store1 _ _ _ n2 (by simp [read1_length])
      generalize h1.store1 o.Eg ((h1.read1 o.Eg).map (· + sign * dg)) = h2 at *
      have le1 := t1.le
      have le2 := t2.le
      have tt : Touched h h2 (AnyObj.mat o).bufs := (t1.mono (by simp [AnyObj.bufs])).trans (t2.mono (by simp [AnyObj.bufs]))
      refine ⟨⟨tt, ⟨sp, fun b hb => lt_of_lt_of_le (us b hb) tt.le, n1, n2, n3, n4⟩, fun b hb => .inl hb⟩, ?_, trivial⟩
      obtain ⟨ov, og, ox, os, ou⟩ := o
      simp only at *
      cases os with
      | none =>
        simp [AnyObj.bufs] at us sp
        simp only [MObj.view, rg, Option.map_none]
        rw [t1.read1 og (by omega) (by simp; omega), t2.read1 ox (by omega) (by simp; omega), rx, t2.read2 ov (by omega) (by simp; omega), t1.read2 ov (by omega) (by simp; omega)]
      | some s =>
        simp [AnyObj.bufs] at us sp
        simp only [MObj.view, rg, Option.map_some]
        rw [t1.read1 og (by omega) (by simp; omega), t2.read1 ox (by omega) (by simp; omega), rx, t2.read2 ov (by omega) (by simp; omega), t1.read2 ov (by omega) (by simp; omega),
          t2.read2 s (by omega) (by simp; omega), t1.read2 s (by omega) (by simp; omega)]

theorem MObj.trapezoid_inside {h : Memory} {o : MObj} (f : (AnyObj.mat o).fine h) (a b c : ℚ) (d : Option ℚ) :
    Inside h (.mat o) (MObj.trapezoid h o a b c d).1 (.mat (MObj.trapezoid h o a b c d).2.1) ∧
      (MObj.trapezoid h o a b c d).2.1.view (MObj.trapezoid h o a b c d).1 = ((o.view h).trapezoidCall a b c d true).1 ∧
      (MObj.trapezoid h o a b c d).2.2 = ((o.view h).trapezoidCall a b c d true).2.map fun _ => () := by
  have stay : Inside h (.mat o) h (.mat o) := ⟨Touched.refl _ _, f, fun b hb => .inl hb⟩
  obtain ⟨n1, n2, n3, n4⟩ := f.simple
  have us := f.used
  have sp := f.separate
  unfold MObj.trapezoid Mat.trapezoidCall
  cases (o.view h).trapezoid a b c d with
  | error e => exact ⟨stay, rfl, rfl⟩
  | ok m =>
    simp only [if_true]
    obtain ⟨ov, og, ox, os, ou⟩ := o
    obtain ⟨mv, mg, mx, ms, mu⟩ := m
    simp only
    have t1 := touched_new2 h mv
    have m1 := new2_nodup h mv
    have r1 := read2_new2 h mv
    have b1 := new2_buf h mv
    have l1 := new2_next h mv
    generalize h.new2 mv = a1 at *
    have t2 := touched_new1 a1.1 mx
    have m2 := new1_nodup a1.1 mx
    have r2 := read1_new1 a1.1 mx
    have b2 := new1_buf a1.1 mx
    have l2 := new1_next a1.1 mx
    generalize a1.1.new1 mx = a2 at *
    have t3 := touched_new1 a2.1 mg
    have m3 := new1_nodup a2.1 mg
    have r3 := read1_new1 a2.1 mg
    have b3 := new1_buf a2.1 mg
    have l3 := new1_next a2.1 mg
    generalize a2.1.new1 mg = a3 at *
    have tt := t1.trans (t2.trans t3)
    cases os with
    | none =>
      simp [AnyObj.bufs] at us sp
      refine ⟨⟨tt.mono (by simp), ⟨?_, ?_, m1, m3, m2, n4⟩, ?_⟩, ?_, rfl⟩
      · simp [AnyObj.bufs]; omega
      · simp [AnyObj.bufs]; omega
      · simp [AnyObj.bufs]; omega
      · simp only [MObj.view, r3, Option.map_none]
        rw [t3.read2 _ (by omega) (by simp), t2.read2 _ (by omega) (by simp), r1, t3.read1 _ (by omega) (by simp), r2]
    | some s =>
      simp [AnyObj.bufs] at us sp
      refine ⟨⟨tt.mono (by simp), ⟨?_, ?_, m1, m3, m2, n4⟩, ?_⟩, ?_, rfl⟩
      · simp [AnyObj.bufs]; omega
      · simp [AnyObj.bufs]; omega
      · simp [AnyObj.bufs]; omega
      · simp only [MObj.view, r3, Option.map_some]
        rw [t3.read2 _ (by omega) (by simp), t2.read2 _ (by omega) (by simp), r1, t3.read1 _ (by omega) (by simp), r2, tt.read2 s (by omega) (by simp)]

theorem MObj.copy_fresh {h : Memory} {o : MObj} (f : (AnyObj.mat o).fine h) : Fresh h (MObj.copy h o).1 (.mat (MObj.copy h o).2) ∧ (MObj.copy h o).2.view (MObj.copy h o).1 = o.view h := by
  have ne : o.Ex ≠ o.Eg := by
    intro he
    have := f.separate
    simp [AnyObj.bufs, he] at this
  unfold MObj.copy
  simp only [if_neg ne]
  exact MObj.make_fresh h (o.view h)

theorem MObj.rebinCopy_add {s : World} (ha : s.apart) {h : Memory} (t : Touched s.mem h []) (o : MObj) (ax : ℕ) (mids : Option Ref1)
    (hm : ax = 2 → ∀ r ∈ mids, s.mem.next ≤ r.buf ∧ r.buf < h.next ∧ r.pos.Nodup) (q : Option ℚ) :
    (s.addMat (MObj.rebinCopy h o ax mids q)).1.apart ∧
      ((s.addMat (MObj.rebinCopy h o ax mids q)).1.vals, (s.addMat (MObj.rebinCopy h o ax mids q)).2) = moreMat s.vals ((o.view h).rebinCopy ax (mids.map h.read1) q) := by
  unfold MObj.rebinCopy Mat.rebinCopy
  by_cases hax : ax = 2
  · rw [if_pos hax, if_pos hax]
    simp only [bind, Except.bind]
    cases (o.view h).rebinOneCopy false (mids.map h.read1) q with
    | error e =>
      have kp := World.apart_keep ha t
      exact ⟨kp.1, by simp [World.addMat, moreMat, kp.2]⟩
    | ok m =>
      simp only
      obtain ⟨fr, vw⟩ := MObj.make_fresh h m
      generalize MObj.make h m = a at *
      obtain ⟨h1, n⟩ := a
      simp only at fr vw ⊢
      have hm' : ∀ r ∈ mids, r.buf ∉ (AnyObj.mat n).bufs ∧ r.buf < h1.next ∧ r.pos.Nodup := by
        intro r hr
        have := hm hax r hr
        exact ⟨fun hb => by have := fr.own _ hb; omega, lt_of_lt_of_le this.2.1 fr.touched.le, this.2.2⟩
      obtain ⟨t2, f2, w2, v2⟩ := MObj.rebinOne_spec fr.fine true mids hm' q
      have em : mids.map h1.read1 = mids.map h.read1 := by
        cases mids with
        | none => rfl
        | some r => simp [fr.touched.read1 r (hm hax r rfl).2.1 (by simp)]
      have e1 : m.rebinInplace 1 (mids.map h.read1) q = m.rebinOne true (mids.map h.read1) q := by
        simp [Mat.rebinInplace]
      rw [em, vw] at v2
      rw [e1, ← v2]
      have fr2 : Fresh s.mem (MObj.rebinOne h1 n true mids q).1 (.mat (MObj.rebinOne h1 n true mids q).2.1) := by
        refine ⟨t.trans (fr.touched.trans t2), f2, fun b hb => ?_⟩
        have le1 := t.le
        have le2 := fr.touched.le
        rcases w2 b hb with h3 | h3 | ⟨r, hr, rfl⟩
        · have := fr.own b h3
          omega
        · omega
        · exact (hm hax r hr).1
      generalize MObj.rebinOne h1 n true mids q = a at *
      obtain ⟨h2, n2, e2⟩ := a
      simp only at fr2 ⊢
      cases e2 with
      | error e =>
        have kp := World.apart_keep ha fr2.touched
        exact ⟨kp.1, by simp [World.addMat, moreMat, kp.2]⟩
      | ok u =>
        have ad := World.apart_add ha fr2
        exact ⟨ad.1, by simp [World.addMat, moreMat, ad.2, AnyObj.view, pure, Except.pure]⟩
  · rw [if_neg hax, if_neg hax]
    exact returnMat_add ha t _

theorem lengths_addAt (v : List (List ℚ)) (i j : ℕ) (c : ℚ) : (addAt v i j c).map List.length = v.map List.length := by
  unfold addAt
  apply List.ext_getElem?
  intro k
  simp only [List.getElem?_map, List.getElem?_modify]
  cases hv : v[k]? with
  | none => simp
  | some r =>
    by_cases hik : i = k <;> simp [hik]

theorem lengths_setMasked (v : List (List ℚ)) (mask : List (List Bool)) (w : List (List ℚ)) (h : setMasked v mask = .ok w) : w.map List.length = v.map List.length := by
  unfold setMasked at h
  split at h
  · rename_i hl
    cases h
    induction v generalizing mask with
    | nil => simp
    | cons r v ih =>
      cases mask with
      | nil => simp at hl
      | cons m mask =>
        simp only [List.map_cons, List.cons.injEq] at hl
        simp only [List.zipWith_cons_cons, List.map_cons, List.length_zipWith, List.cons.injEq]
        exact ⟨by omega, ih mask hl.2⟩
  · cases h

theorem mat_call {s : World} (ha : s.apart) {k : ℕ} {o : MObj} (hk : s.objs[k]? = some (.mat o)) (c : MCall)
    (hc : (PyCall.onMat k c).careful = true) :
    (s.matCall k o c).1.apart ∧ ((s.matCall k o c).1.vals, (s.matCall k o c).2) = matOwn s.vals k (o.view s.mem) c := by
  have f := ha.fine k _ hk
  have vw : ∀ h, Touched s.mem h [] → o.view h = o.view s.mem := by
    intro h t
    have := t.view (.mat o) f.used (by simp)
    simpa [AnyObj.view] using this
  have stay : Inside s.mem (.mat o) s.mem (.mat o) := ⟨Touched.refl _ _, f, fun b hb => .inl hb⟩
  cases c with
  | cut ax a b i j =>
    have := MObj.cut_inside f ax a b i j
    refine mat_may ha hk (res := (s.mem, MObj.cut s.mem o ax a b i j)) this.1 ?_
    have h2 := this.2
    revert h2
    cases (o.view s.mem).cut ax a b i j with
    | ok v => exact id
    | error e => exact fun h => ⟨h.1, rfl, h.2⟩
  | cutCopy ax a b i j => exact returnMat_add ha (Touched.refl _ _) _
  | rebin ax mids q =>
    rcases argOpt_spec ha mids with ⟨h, r, h1, h2, h3, h4, h5, h6⟩ | ⟨e, h1, h2⟩
    · simp only [World.matCall, matOwn, h1, h4]
      have hl : mids.all Arg.isLit = true := by
        unfold PyCall.careful at hc
        simp only at hc
        split at hc
        · cases mids <;> simp_all
        · exact hc
      have hn : ax = 2 → r = none := by
        intro hax
        apply h6
        unfold PyCall.careful at hc
        simp only [if_pos hax] at hc
        simpa using hc
      have := MObj.rebin_inside f h2 ax r (h5 hl) hn q
      have st := World.apart_set ha hk this.1
      refine ⟨st.1, ?_⟩
      unfold World.setMat nowMat
      rw [st.2, ← vw h h2, ← this.2]
      rfl
    · simp only [World.matCall, matOwn, h1, h2]
      exact ⟨ha, trivial⟩
  | rebinCopy ax mids q =>
    rcases argOpt_spec ha mids with ⟨h, r, h1, h2, h3, h4, h5, h6⟩ | ⟨e, h1, h2⟩
    · simp only [World.matCall, matOwn, h1, h4]
      rw [← vw h h2]
      refine MObj.rebinCopy_add ha h2 o ax r (fun hax => h5 ?_) q
      unfold PyCall.careful at hc
      simpa only [if_pos hax] using hc
    · simp only [World.matCall, matOwn, h1, h2]
      exact ⟨ha, trivial⟩
  | fill eg ex q =>
    refine mat_may ha hk (res := MObj.write s.mem o (((o.view s.mem).fill eg ex q).map Mat.values)) (r := (o.view s.mem).fill eg ex q) ?_ ?_
    · cases hf : (o.view s.mem).fill eg ex q with
      | error e => exact stay
      | ok m =>
        have hm : ∃ i j, m = { o.view s.mem with values := addAt (o.view s.mem).values i j q } := by
          unfold Mat.fill at hf
          simp only [bind, Except.bind, pure, Except.pure] at hf
          split at hf
          · cases hf
          · split at hf
            · cases hf
            · cases hf
              exact ⟨_, _, rfl⟩
        obtain ⟨i, j, rfl⟩ := hm
        exact (MObj.write_inside f _ (lengths_addAt _ _ _ _)).1
    · cases hf : (o.view s.mem).fill eg ex q with
      | error e => exact ⟨rfl, rfl, rfl⟩
      | ok m =>
        have hm : ∃ i j, m = { o.view s.mem with values := addAt (o.view s.mem).values i j q } := by
          unfold Mat.fill at hf
          simp only [bind, Except.bind, pure, Except.pure] at hf
          split at hf
          · cases hf
          · split at hf
            · cases hf
            · cases hf
              exact ⟨_, _, rfl⟩
        obtain ⟨i, j, rfl⟩ := hm
        exact ⟨(MObj.write_inside f _ (lengths_addAt _ _ _ _)).2, rfl⟩
  | cutDiagonal p q =>
    have key : ∀ res, res = (o.view s.mem).cutDiagonal p q true →
        (s.setMat k (MObj.write s.mem o (res.2.map fun _ => res.1.values))).1.apart ∧
        ((s.setMat k (MObj.write s.mem o (res.2.map fun _ => res.1.values))).1.vals, (s.setMat k (MObj.write s.mem o (res.2.map fun _ => res.1.values))).2) =
          nowMat s.vals k (res.1, res.2.map fun _ => ()) := by
      intro res hres
      obtain ⟨m, r⟩ := res
      have hm : (∃ e, r = .error e ∧ m = o.view s.mem) ∨ ∃ w x, r = .ok x ∧ m = { o.view s.mem with values := w } ∧ w.map List.length = (o.view s.mem).values.map List.length := by
        unfold Mat.cutDiagonal at hres
        split at hres
        · split at hres
          · cases hres
            exact .inl ⟨_, rfl, rfl⟩
          · split at hres
            · cases hres
              exact .inl ⟨_, rfl, rfl⟩
            · rename_i hs
              simp only [if_true] at hres
              cases hres
              exact .inr ⟨_, _, rfl, rfl, lengths_setMasked _ _ _ hs⟩
        · cases hres
          exact .inl ⟨_, rfl, rfl⟩
      rcases hm with ⟨e, rfl, rfl⟩ | ⟨w, x, rfl, rfl, hl⟩
      · have := World.apart_set ha hk stay
        exact ⟨this.1, by simp only [World.setMat, MObj.write, Except.map, nowMat, this.2, AnyObj.view]⟩
      · have wi := MObj.write_inside f w hl
        have := World.apart_set ha hk wi.1
        exact ⟨this.1, by simp only [World.setMat, MObj.write, Except.map, nowMat, this.2, AnyObj.view, wi.2]⟩
    exact key _ rfl
  | removeNegative => exact mat_may ha hk (r := .ok _) (MObj.removeNegative_inside f).1 ⟨(MObj.removeNegative_inside f).2, rfl⟩
  | toLowerBin =>
    have := MObj.shift_inside f (-1)
    refine mat_may ha hk (res := MObj.shiftBins s.mem o (-1)) this.1 ?_
    have h2 := this.2
    unfold Mat.toLowerBin
    simp only [bind, Except.bind, pure, Except.pure]
    revert h2
    cases halfBin (o.view s.mem).Ex with
    | error e => exact id
    | ok dx =>
      cases halfBin (o.view s.mem).Eg with
      | error e => exact id
      | ok dg =>
        intro h2
        refine ⟨h2.1.trans ?_, h2.2⟩
        simp only [neg_one_mul, sub_eq_add_neg]
  | toMidBin =>
    have := MObj.shift_inside f 1
    refine mat_may ha hk (res := MObj.shiftBins s.mem o 1) this.1 ?_
    have h2 := this.2
    unfold Mat.toMidBin
    simp only [bind, Except.bind, pure, Except.pure]
    revert h2
    cases halfBin (o.view s.mem).Ex with
    | error e => exact id
    | ok dx =>
      cases halfBin (o.view s.mem).Eg with
      | error e => exact id
      | ok dg =>
        intro h2
        refine ⟨h2.1.trans ?_, h2.2⟩
        simp only [one_mul]
  | trapezoid a b c d =>
    have ti := MObj.trapezoid_inside f a b c d
    have st := World.apart_set ha hk ti.1
    refine ⟨st.1, ?_⟩
    simp only [World.matCall, World.setMat, matOwn, nowMat, st.2, AnyObj.view, ti.2.1, ti.2.2]
  | copy =>
    have cf := MObj.copy_fresh f
    have ad := World.apart_add ha cf.1
    refine ⟨ad.1, ?_⟩
    simp only [World.matCall, World.addMat, matOwn, moreMat, ad.2, AnyObj.view, cf.2]

end Ompy
