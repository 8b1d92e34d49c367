import Verif.Arith

/-!
# C09: arithmetic leaves its operands alone and checks the binning
-/

namespace Ompy

variable {α : Type}

/-- Specification: what a user sees of an object. -/
structure View (α : Type) where
  values : Arr α
  axes : List (Arr α)
  std : Option (Arr α)
  tag : String

/-- Specification: the visible content of an object in a heap. -/
def view (h : Heap α) (o : Obj) : View α :=
  ⟨cell h o.values, o.axes.map (cell h), o.std.map (cell h), o.tag⟩

/-- An object is alive in a heap if all its arrays exist. -/
def Obj.alive (h : Heap α) (o : Obj) : Prop := ∀ a ∈ o.addrs, a < h.length

theorem cell_append (h t : Heap α) (a : ℕ) (ha : a < h.length) : cell (h ++ t) a = cell h a := by
  unfold cell
  rw [List.getD_append _ _ _ _ ha]

theorem cell_write_other (h : Heap α) (a b : ℕ) (d : List α) (hab : a ≠ b) :
    cell (writeData h a d) b = cell h b := by
  unfold cell writeData
  simp [List.getD_eq_getElem?_getD, List.getElem?_set, hab]

theorem cell_write_same (h : Heap α) (a : ℕ) (d : List α) (ha : a < h.length) :
    cell (writeData h a d) a = { cell h a with data := d } := by
  unfold writeData
  conv_lhs => unfold cell
  simp [List.getD_eq_getElem?_getD, ha]
  simp [cell, List.getD_eq_getElem?_getD, ha]

theorem copy_cell (h : Heap α) (o : Obj) (a : ℕ) (ha : a ∈ o.addrs) :
    h.length + o.addrs.idxOf a < (deepcopy h o).1.length ∧
    cell (deepcopy h o).1 (h.length + o.addrs.idxOf a) = cell h a := by
  have hidx : o.addrs.idxOf a < o.addrs.length := List.idxOf_lt_length_iff.2 ha
  refine ⟨by simp [deepcopy, hidx], ?_⟩
  unfold deepcopy
  simp only
  conv_lhs => unfold cell
  rw [List.getD_append_right _ _ _ _ (by omega)]
  simp [List.getD_eq_getElem?_getD, hidx, cell]

theorem mem_values (o : Obj) : o.values ∈ o.addrs := by simp [Obj.addrs]
theorem mem_axes (o : Obj) {a : ℕ} (h : a ∈ o.axes) : a ∈ o.addrs := by simp [Obj.addrs, h]
theorem mem_std (o : Obj) {a : ℕ} (h : o.std = some a) : a ∈ o.addrs := by simp [Obj.addrs, h]

theorem view_congr (h h' : Heap α) (o : Obj) (hl : ∀ a ∈ o.addrs, cell h' a = cell h a) :
    view h' o = view h o := by
  unfold view
  rw [hl _ (mem_values o)]
  congr 1
  · exact List.map_congr_left fun a ha => hl a (mem_axes o ha)
  · cases hs : o.std with
    | none => rfl
    | some a => simp [hl a (mem_std o hs)]

theorem copy_len (h : Heap α) (o : Obj) : h.length ≤ (deepcopy h o).1.length := by
  simp [deepcopy]

theorem copy_frame (h : Heap α) (o : Obj) (a : ℕ) (ha : a < h.length) :
    cell (deepcopy h o).1 a = cell h a := cell_append _ _ _ ha

/-- Reading an old object in the heap after the copy gives what it was. -/
theorem binning_frame (close : α → α → Bool) (h : Heap α) (a b c : Obj) (ha : a.alive h)
    (hb : b.alive h) :
    hasEqualBinning close (deepcopy h c).1 a b = hasEqualBinning close h a b := by
  have e : List.zipWith (fun x y => allclose close (cell (deepcopy h c).1 x)
      (cell (deepcopy h c).1 y)) a.axes b.axes
      = List.zipWith (fun x y => allclose close (cell h x) (cell h y)) a.axes b.axes := by
    apply List.ext_getElem
    · simp
    · intro k k1 k2
      simp only [List.length_zipWith, lt_min_iff] at k1
      simp only [List.getElem_zipWith]
      rw [copy_frame h c _ (ha _ (mem_axes a (List.getElem_mem k1.1))),
        copy_frame h c _ (hb _ (mem_axes b (List.getElem_mem k1.2)))]
  unfold hasEqualBinning
  rw [copy_frame h c _ (ha _ (mem_values a)), copy_frame h c _ (hb _ (mem_values b)), e]

/-- What the right operand contributes to position `k` of the result. -/
def operandFits (close : α → α → Bool) (h : Heap α) (a : Obj) : Operand α → Prop
  | .scalar _ => True
  | .obj o => hasEqualBinning close h a o = .ok ()
  | .other => False

/-- Specification: the elementwise result. -/
def elementwise (op : α → α → α) (h : Heap α) (a : Obj) : Operand α → List α
  | .scalar c => (cell h a.values).data.map fun x => op x c
  | .obj o => List.zipWith op (cell h a.values).data (cell h o.values).data
  | .other => []

/-- The operand, if it is an object, is alive. -/
def Operand.alive (h : Heap α) : Operand α → Prop
  | .obj o => o.alive h
  | _ => True

/-- **C09.** `a op b`, whether it succeeds or raises: every array that existed before is unchanged. -/
theorem C09_frame (close : α → α → Bool) (op : α → α → α) (h : Heap α) (a : Obj) (b : Operand α) :
    (∀ o : Obj, o.alive h → view (binop close op h a b).1 o = view h o) ∧
    (∀ o : Obj, o.alive h → view (rbinop close op h a b).1 o = view h o) := by
  have hr : h.length ≤ (deepcopy h a).2.values := by simp [deepcopy]
  constructor
  · intro o ho
    apply view_congr
    intro x hx
    have hxl := ho x hx
    unfold binop
    cases b with
    | scalar c =>
      simp only
      rw [cell_write_other _ _ _ _ (by omega), copy_frame h a x hxl]
    | obj p =>
      simp only
      cases hasEqualBinning close (deepcopy h a).1 a p with
      | error e => exact copy_frame h a x hxl
      | ok u =>
        simp only
        rw [cell_write_other _ _ _ _ (by omega), copy_frame h a x hxl]
    | other => exact copy_frame h a x hxl
  · intro o ho
    apply view_congr
    intro x hx
    have hxl := ho x hx
    have hxl' := lt_of_lt_of_le hxl (copy_len h a)
    unfold rbinop
    cases b with
    | scalar c =>
      simp only
      rw [cell_append _ _ _ hxl', copy_frame h a x hxl]
    | obj p =>
      simp only
      cases hasEqualBinning close (deepcopy h a).1 a p with
      | error e => exact copy_frame h a x hxl
      | ok u =>
        simp only
        rw [cell_append _ _ _ hxl', copy_frame h a x hxl]
    | other => exact copy_frame h a x hxl

/-- Position of an address of the copy, other than that of `values`, if `values` is not shared. -/
theorem idx_ne (o : Obj) (x : ℕ) (hne : x ≠ o.values) (n : ℕ) :
    n + o.addrs.idxOf o.values ≠ n + o.addrs.idxOf x := by
  intro h
  apply hne
  have h' : o.addrs.idxOf o.values = o.addrs.idxOf x := by omega
  exact ((List.idxOf_inj (mem_values o)).1 h').symm

/-- **C09.** If the operands fit, the result is a new object: none of its arrays existed before, its
values are the elementwise results, its axes, std, and units/state are those of the left
operand.  (The object must not use one array for `values` and for an axis or `std`.) -/
theorem C09_result (close : α → α → Bool) (op : α → α → α) (h : Heap α) (a : Obj) (b : Operand α)
    (ha : a.alive h) (hb : b.alive h) (hfit : operandFits close h a b)
    (hsep : a.values ∉ a.axes ∧ a.std ≠ some a.values) :
    ∃ r, (binop close op h a b).2 = .ok r ∧
      (∀ x ∈ r.addrs, h.length ≤ x) ∧ r.kind = a.kind ∧
      view (binop close op h a b).1 r =
        ⟨⟨(cell h a.values).shape, elementwise op h a b⟩, a.axes.map (cell h), a.std.map (cell h),
          a.tag⟩ := by
  obtain ⟨c1, c2⟩ := copy_cell h a a.values (mem_values a)
  have hfresh : ∀ x ∈ (deepcopy h a).2.addrs, h.length ≤ x := by
    intro x hx
    simp only [deepcopy, Obj.addrs, List.mem_cons, List.mem_append, List.mem_map,
      Option.mem_toList, Option.map_eq_some_iff] at hx
    rcases hx with rfl | ⟨y, _, rfl⟩ | ⟨y, _, rfl⟩ <;> omega
  have main : ∀ d : List α,
      view (writeData (deepcopy h a).1 (deepcopy h a).2.values d) (deepcopy h a).2
        = ⟨⟨(cell h a.values).shape, d⟩, a.axes.map (cell h), a.std.map (cell h), a.tag⟩ := by
    intro d
    unfold view
    have hv : (deepcopy h a).2.values = h.length + a.addrs.idxOf a.values := rfl
    have hx : ∀ x ∈ a.addrs, x ≠ a.values →
        cell (writeData (deepcopy h a).1 (deepcopy h a).2.values d)
          (h.length + a.addrs.idxOf x) = cell h x := by
      intro x hx hne
      rw [cell_write_other _ _ _ _ (by rw [hv]; exact idx_ne a x hne _)]
      exact (copy_cell h a x hx).2
    congr 1
    · rw [cell_write_same _ _ _ (by rw [hv]; exact c1), hv, c2]
    · show List.map _ (List.map _ _) = _
      rw [List.map_map]
      apply List.map_congr_left
      intro x hxa
      exact hx x (mem_axes a hxa) (by rintro rfl; exact hsep.1 hxa)
    · show Option.map _ (Option.map _ _) = _
      cases hs : a.std with
      | none => rfl
      | some x =>
        simp only [Option.map_some]
        congr 1
        exact hx x (mem_std a hs) (by rintro rfl; exact hsep.2 hs)
  unfold binop
  cases b with
  | scalar c =>
    refine ⟨(deepcopy h a).2, rfl, hfresh, rfl, ?_⟩
    simp only
    rw [main]
    simp only [elementwise]
    rw [show (deepcopy h a).2.values = h.length + a.addrs.idxOf a.values from rfl, c2]
  | obj o =>
    have hb' : hasEqualBinning close (deepcopy h a).1 a o = .ok () := by
      rw [binning_frame close h a o a ha hb]; exact hfit
    simp only [hb']
    refine ⟨(deepcopy h a).2, rfl, hfresh, rfl, ?_⟩
    rw [main]
    simp only [elementwise]
    rw [show (deepcopy h a).2.values = h.length + a.addrs.idxOf a.values from rfl, c2,
      copy_frame h a _ (hb _ (mem_values o))]
  | other => exact absurd hfit (by simp [operandFits])

/-- **C09.** The reflected operations (`number - vector`, `number / vector`): new object, values with
the arguments of `op` swapped. -/
theorem C09_reflected_result (close : α → α → Bool) (op : α → α → α) (h : Heap α) (a : Obj)
    (b : Operand α) (ha : a.alive h) (hb : b.alive h) (hfit : operandFits close h a b) :
    ∃ r, (rbinop close op h a b).2 = .ok r ∧
      (∀ x ∈ r.addrs, h.length ≤ x) ∧ r.kind = a.kind ∧
      view (rbinop close op h a b).1 r =
        ⟨⟨(cell h a.values).shape, match b with
            | .scalar c => (cell h a.values).data.map fun x => op c x
            | .obj o => List.zipWith op (cell h o.values).data (cell h a.values).data
            | .other => []⟩, a.axes.map (cell h), a.std.map (cell h), a.tag⟩ := by
  obtain ⟨c1, c2⟩ := copy_cell h a a.values (mem_values a)
  have hfresh : ∀ x ∈ ({ (deepcopy h a).2 with values := (deepcopy h a).1.length } : Obj).addrs,
      h.length ≤ x := by
    intro x hx
    simp only [deepcopy, Obj.addrs, List.mem_cons, List.mem_append, List.mem_map,
      Option.mem_toList, Option.map_eq_some_iff] at hx
    rcases hx with rfl | ⟨y, _, rfl⟩ | ⟨y, _, rfl⟩
    · simp
    · omega
    · omega
  have main : ∀ n : Arr α,
      view ((deepcopy h a).1 ++ [n]) { (deepcopy h a).2 with values := (deepcopy h a).1.length }
        = ⟨n, a.axes.map (cell h), a.std.map (cell h), a.tag⟩ := by
    intro n
    unfold view
    have hx : ∀ x ∈ a.addrs, cell ((deepcopy h a).1 ++ [n]) (h.length + a.addrs.idxOf x)
        = cell h x := by
      intro x hx
      rw [cell_append _ _ _ (copy_cell h a x hx).1, (copy_cell h a x hx).2]
    congr 1
    · simp [cell, List.getD_eq_getElem?_getD]
    · show List.map _ (List.map _ _) = _
      rw [List.map_map]
      exact List.map_congr_left fun x hxa => hx x (mem_axes a hxa)
    · show Option.map _ (Option.map _ _) = _
      cases hs : a.std with
      | none => rfl
      | some x =>
        simp only [Option.map_some]
        congr 1
        exact hx x (mem_std a hs)
  have hv : (deepcopy h a).2.values = h.length + a.addrs.idxOf a.values := rfl
  unfold rbinop
  cases b with
  | scalar c =>
    refine ⟨_, rfl, hfresh, rfl, ?_⟩
    simp only
    rw [main, hv, c2]
  | obj o =>
    have hb' : hasEqualBinning close (deepcopy h a).1 a o = .ok () := by
      rw [binning_frame close h a o a ha hb]; exact hfit
    simp only [hb']
    refine ⟨_, rfl, hfresh, rfl, ?_⟩
    rw [main, hv, c2, copy_frame h a _ (hb _ (mem_values o))]
  | other => exact absurd hfit (by simp [operandFits])

/-- **C09.** Operands with a different number of bins or with an energy that is not close are a
ValueError; an operand of another class is a TypeError. -/
theorem C09_binning_checked (close : α → α → Bool) (op : α → α → α) (h : Heap α) (a o : Obj)
    (ha : a.alive h) (ho : o.alive h) :
    (a.kind ≠ o.kind → (binop close op h a (.obj o)).2 = .error .typeError ∧
      (rbinop close op h a (.obj o)).2 = .error .typeError) ∧
    (a.kind = o.kind →
      ((cell h a.values).shape ≠ (cell h o.values).shape ∨
        ∃ k, ∃ (h1 : k < a.axes.length) (h2 : k < o.axes.length),
          allclose close (cell h a.axes[k]) (cell h o.axes[k]) = false) →
      (binop close op h a (.obj o)).2 = .error .valueError ∧
        (rbinop close op h a (.obj o)).2 = .error .valueError) ∧
    (binop close op h a .other).2 = .error .typeError := by
  have hb := binning_frame close h a o a ha ho
  refine ⟨?_, ?_, rfl⟩
  · intro hk
    have : hasEqualBinning close h a o = .error .typeError := by simp [hasEqualBinning, hk]
    rw [this] at hb
    simp [binop, rbinop, hb]
  · intro hk hbad
    have : hasEqualBinning close h a o = .error .valueError := by
      unfold hasEqualBinning
      rw [if_neg (by simp [hk])]
      rcases hbad with hbad | ⟨k, h1, h2, hbad⟩
      · rw [if_pos hbad]
      · split_ifs with c1 c2
        · rfl
        · exfalso
          have := List.all_eq_true.1 c2.2 (allclose close (cell h a.axes[k]) (cell h o.axes[k]))
            (List.mem_iff_getElem.2 ⟨k, by simp [h1, h2], by simp⟩)
          simp [hbad] at this
        · rfl
    rw [this] at hb
    simp [binop, rbinop, hb]

/-- Two vectors on the same axis, sharing the axis array: `v + w`. -/
example :
    let h : Heap ℚ := [⟨[2], [1, 2]⟩, ⟨[2], [10, 20]⟩, ⟨[2], [5, 6]⟩]
    let v : Obj := ⟨.vector, 1, [0], none, "keV"⟩
    let w : Obj := ⟨.vector, 2, [0], none, "keV"⟩
    let out := binop (fun x y => x == y) (· + ·) h v (.obj w)
    out.2 = .ok ⟨.vector, 3, [4], none, "keV"⟩ ∧
      out.1 = h ++ [⟨[2], [15, 26]⟩, ⟨[2], [1, 2]⟩] := by decide +kernel

/-- The units are not compared: adding a keV and an MeV vector with the same numbers succeeds. -/
theorem C09_units_not_checked :
    let h : Heap ℚ := [⟨[2], [1, 2]⟩, ⟨[2], [10, 20]⟩, ⟨[2], [5, 6]⟩]
    (binop (fun x y => x == y) (· + ·) h ⟨.vector, 1, [0], none, "keV"⟩
      (.obj ⟨.vector, 2, [0], none, "MeV"⟩)).2 = .ok ⟨.vector, 3, [4], none, "keV"⟩ := by
  decide +kernel

end Ompy
