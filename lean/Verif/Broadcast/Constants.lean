import Verif.Broadcast.Strided
import Verif.Broadcast.Combine

/-
Model of the rules of the constant operators: src/pyoperators/core.py:4430-4503 (`ConstantOperator`), and property C80.
-/

namespace Verif.Broadcast

open Verif.Shape Verif.Block

variable {R : Type} [CommRing R] [DecidableEq R]

/-- A constant operator: its attributes data, broadcast and shapeout.  The zero operator has the data 0. -/
structure Constant (R : Type) where
  data : Strided R
  kind : Kind
  shapeout : Option Shape

/-- `ConstantOperator(data, broadcast, shapeout=shapeout)`: src/pyoperators/core.py:4436-4452.  `none` is the exception IndexError of
`data.flat[0]` for empty data.  The zero operator is not distinguished, nor is the attribute dtype represented. -/
def constant (data : Strided R) (broadcast : Option Kind) (shapeout : Option Shape) : Option (Constant R) :=
  let b := defaultKind data.shape broadcast
  let shapeout := if b = .disabled then some data.shape else shapeout
  if data.shape ≠ [] then
    match data.toData.flat with
    | [] => none
    | v :: vs => if (v :: vs).all (· = v) then some ⟨⟨fun _ => v, 0, [], []⟩, .scalar, shapeout⟩ else some ⟨data, b, shapeout⟩
  else some ⟨data, b, shapeout⟩

/-- The output of the operator, if it has the shape t: src/pyoperators/core.py:1449-1469 for the check of the shape, and 4473-4477 for
the values. -/
def Constant.call (c : Constant R) (t : Shape) : Option (Data R) :=
  if c.shapeout.any (· != t) then none else apply (fun _ v => v) c.kind ⟨t, fun _ => 0⟩ c.data.toData

/-- The operator that is applied to a constant. -/
structure Fn (R : Type) where
  /-- `op(x)`, `none` if it raises an exception -/
  fn : Data R → Option (Data R)
  shapein : Option Shape
  /-- `flags.shape_output == 'unconstrained'` -/
  unconstrained : Bool
  /-- commin or commout is not None -/
  comm : Bool

/-- `_rule_right(op, self)`: src/pyoperators/core.py:4486-4498, for the composition of an operator and a constant.  The array returned by
the operator is in C order. -/
def ruleRight (op : Fn R) (c : Constant R) : Outcome (Constant R) :=
  if op.comm || op.unconstrained then .refused
  else
    match c.shapeout, op.shapein with
    | none, none => .refused
    | some t, _ => apply t
    | none, some t => apply t
where
  apply (t : Shape) : Outcome (Constant R) :=
    match op.fn (c.data.asStrided c.kind (some t)).toData with
    | none => .error
    | some y =>
      match constant (Strided.ofData y) none none with
      | none => .error
      | some c => .result c

/-- `_merge_shape`: src/pyoperators/core.py:1972-1982.  The outer `none` is the exception. -/
def mergeShape : Option Shape → Option Shape → Option (Option Shape)
  | none, s => some s
  | s, none => some s
  | some s, some t => if s = t then some (some s) else none

/-- `_rule_broadcast(c1, c2, ConstantOperator, np.add or np.multiply)`: src/pyoperators/core.py:4019-4036 for the sum and the product of two
constants (4462-4471).  The attribute shapeout is that of the sum (or product), which is set afterwards: 1825-1830.  The result of the
universal function is in C order. -/
def ruleConstants (add : Bool) (c1 c2 : Constant R) : Outcome (Constant R) :=
  match mergeShape c1.shapeout c2.shapeout, mergeKinds c1.kind c2.kind with
  | none, _ => .error
  | some _, none => .refused
  | some shapeout, some b =>
    match oriented (c1.kind == .rightward || c2.kind == .rightward) (fun x y => if add then x + y else x * y) c1.data.toData c2.data.toData with
    | none => .error
    | some d =>
      match constant (Strided.ofData d) (some b) none with
      | none => .error
      | some c => .result { c with shapeout := shapeout }

/-- `_rule_mul(self, op)`: src/pyoperators/core.py:4500-4505, the operator that is applied to the result of the linear operator (or
composition). -/
def ruleMul (cast : R → R) (c : Constant R) : Op R := diagonalOperator cast (.nums c.data.toData) (some c.kind)

/-! ### Specification -/

/-- The values of a constant operator for an output of shape t: those of the data at the same place, where the missing dimensions are
the first ones, or the last ones if the broadcast is rightward, and the dimensions of length one are repeated. -/
def IsConstant (c : Constant R) (t : Shape) (y : Data R) : Prop :=
  y.shape = t ∧ ∀ k, inShape t k = true → y.get k = coefficient c.data.toData c.kind k

/-- The output can have the shape t. -/
def Constant.Accepts (c : Constant R) (t : Shape) : Prop :=
  (∀ s, c.shapeout = some s → s = t) ∧ Compatible c.data.shape c.kind t

/-- What the constructor ensures. -/
def Constant.Valid (c : Constant R) : Prop :=
  (c.kind = .disabled → c.shapeout = some c.data.shape) ∧ ValidKind c.data.shape c.kind

/-! ### Proofs -/

omit [DecidableEq R] in
theorem any_ne_false {o : Option Shape} {t : Shape} (h : o.any (· != t) = false) : ∀ s, o = some s → s = t := by
  rintro s rfl
  simpa using h

omit [DecidableEq R] in
theorem call_some {c : Constant R} (hv : c.Valid) {t : Shape} {y : Data R} (h : c.call t = some y) : c.Accepts t ∧ IsConstant c t y := by
  simp only [Constant.call] at h
  split at h
  · cases h
  · next hs =>
    have hs := any_ne_false (by simpa using hs)
    have hf := apply_some h
    obtain ⟨y', h1, h2, h3⟩ := apply_fits (f := fun (_ : R) (v : R) => v) hf
    rw [h] at h1
    obtain rfl := Option.some.inj h1
    refine ⟨⟨hs, ?_⟩, h2, h3⟩
    simp only [Compatible]
    split
    · next e => exact hs _ (hv.1 e)
    · exact hf

omit [DecidableEq R] in
theorem call_accepts {c : Constant R} {t : Shape} (h : c.Accepts t) : ∃ y, c.call t = some y ∧ IsConstant c t y := by
  obtain ⟨y, h1, h2, h3⟩ := apply_fits (f := fun (_ : R) (v : R) => v) (b := c.kind) (x := ⟨t, fun _ => 0⟩) (d := c.data.toData) h.2.fits
  refine ⟨y, ?_, h2, h3⟩
  rw [Constant.call, if_neg (by rw [any_ne h.1]; simp), h1]

theorem flat_nil_or (d : Data R) : d.flat = [] ∨ ∃ v vs, d.flat = v :: vs := by
  cases d.flat with
  | nil => exact .inl rfl
  | cons v vs => exact .inr ⟨v, vs, rfl⟩

/-- What the constructor yields. -/
theorem constant_acts {data : Strided R} {b : Kind} {shapeout : Option Shape} {c : Constant R} (h : constant data (some b) shapeout = some c)
    {t : Shape} (hs : ∀ s, shapeout = some s → s = t) (hc : Compatible data.shape b t) :
    c.Accepts t ∧ ∀ k, inShape t k = true → coefficient c.data.toData c.kind k = coefficient data.toData b k := by
  have hd := compatible_default hc
  have hso : ∀ s, (if defaultKind data.shape (some b) = .disabled then some data.shape else shapeout) = some s → s = t := by
    intro s h
    split at h
    · next e =>
      rw [Option.some.injEq] at h
      rw [e, Compatible, if_pos rfl] at hd
      rw [← h, hd]
    · exact hs s h
  have hco : ∀ k, coefficient data.toData (defaultKind data.shape (some b)) k = coefficient data.toData b k := fun k =>
    coefficient_default data.toData b k
  simp only [constant] at h
  split at h
  · split at h
    · cases h
    · next v vs e =>
      split at h
      · next hall =>
        rw [← Option.some.inj h]
        refine ⟨⟨hso, by simp [Compatible, aligned, Fits]⟩, fun k hk => ?_⟩
        simp only [List.all_eq_true, decide_eq_true_eq] at hall
        have hm := coefficient_mem (data := data.toData) (b := b) hc.fits hk
        rw [e] at hm
        rw [hall _ hm]
        rfl
      · rw [← Option.some.inj h]
        exact ⟨⟨hso, hd⟩, fun k _ => hco k⟩
  · rw [← Option.some.inj h]
    exact ⟨⟨hso, hd⟩, fun k _ => hco k⟩

theorem constant_none {data : Strided R} {b : Option Kind} {s : Option Shape} (h : constant data b s = none) : data.toData.flat = [] := by
  simp only [constant] at h
  split at h
  · split at h
    · next e => exact e
    · split at h <;> cases h
  · cases h

/-- C80: the constructor gives a valid operator. -/
theorem constant_valid {data : Strided R} {b : Option Kind} {s : Option Shape} (hb : b = some .scalar → data.shape = []) {c : Constant R}
    (h : constant data b s = some c) : c.Valid := by
  have hd : ValidKind data.shape (defaultKind data.shape b) := by
    intro e
    cases b with
    | none => simp only [defaultKind] at e; split at e <;> simp_all
    | some b =>
      simp only [defaultKind] at e
      split at e
      · simp_all
      · subst e; exact hb rfl
  have key : Constant.Valid (R := R) ⟨data, defaultKind data.shape b, if defaultKind data.shape b = .disabled then some data.shape else s⟩ :=
    ⟨fun e => by simp only at e; rw [if_pos e], hd⟩
  simp only [constant] at h
  split at h
  · split at h
    · cases h
    · split at h
      · rw [← Option.some.inj h]
        exact ⟨(nomatch ·), fun _ => rfl⟩
      · rw [← Option.some.inj h]; exact key
  · rw [← Option.some.inj h]; exact key

omit [CommRing R] [DecidableEq R] in
theorem compatible_self (y : Data R) : Compatible y.shape (defaultKind y.shape none) y.shape := by
  simp only [defaultKind]
  split
  · next e => simp [Compatible, e, aligned, Fits]
  · simp [Compatible]

omit [CommRing R] in
theorem constant_default (data : Strided R) (s : Option Shape) :
    constant data none s = constant data (some (defaultKind data.shape none)) s := by
  have : defaultKind data.shape (some (defaultKind data.shape none)) = defaultKind data.shape none := by
    simp only [defaultKind]
    split <;> simp_all
  simp only [constant, this]

/-- C80: an operator applied to a constant.  If the data are contiguous and the rule yields a constant, then its value is what the operator
returns for the output of the constant. -/
theorem C80_applied_partial (op : Fn R) (hop : ∀ a a', Same a a' → op.fn a = op.fn a') (c : Constant R) (hv : c.Valid) (hc : c.data.Contiguous)
    {t : Shape} {a y : Data R} (ha : c.call t = some a) (ht : c.shapeout = some t ∨ op.shapein = some t) (hy : op.fn a = some y) :
    ruleRight op c = .refused ∨ y.flat = [] ∨
      ∃ c', ruleRight op c = .result c' ∧ ∃ z, c'.call y.shape = some z ∧ Same z y := by
  obtain ⟨hacc, hsh, hval⟩ := call_some hv ha
  have hsame : Same (c.data.asStrided c.kind (some t)).toData a := by
    refine ⟨hsh.symm, fun k hk => ?_⟩
    have hk : inShape t k = true := hk
    rw [asStrided_get hc hacc.2.fits hk, hval k hk]
  have key : ruleRight.apply op c t = .error ∧ y.flat = [] ∨
      ∃ c', ruleRight.apply op c t = .result c' ∧ ∃ z, c'.call y.shape = some z ∧ Same z y := by
    simp only [ruleRight.apply]
    rw [hop _ _ hsame, hy]
    simp only
    have hfl : (Strided.ofData y).toData.flat = y.flat := by
      simp only [Data.flat]
      refine List.map_congr_left fun k hk => ofData_get y (mem_enum.1 hk)
    cases hcst : constant (Strided.ofData y) none none with
    | none => exact .inl ⟨rfl, hfl ▸ constant_none hcst⟩
    | some c' =>
      refine .inr ⟨c', rfl, ?_⟩
      rw [constant_default] at hcst
      obtain ⟨h1, h2⟩ := constant_acts hcst (t := y.shape) (by simp) (compatible_self y)
      obtain ⟨z, hz, hzs, hzv⟩ := call_accepts h1
      refine ⟨z, hz, hzs, fun k hk => ?_⟩
      rw [hzs] at hk
      rw [hzv k hk, h2 k hk]
      have hk' : inShape (Strided.ofData y).shape k = true := hk
      rw [show (Strided.ofData y).shape = y.shape from rfl]
      by_cases e : y.shape = []
      · have : k = [] := by have := Verif.Broadcast.inShape_length hk; rw [e] at this; simpa using this
        subst this
        rw [← ofData_get y hk]
        simp [coefficient, defaultKind, e, aligned, bindex]
      · rw [coefficient]
        have : (Strided.ofData y).toData.shape = y.shape := rfl
        rw [this, bindex_self (by rw [inShape_aligned]; exact hk), aligned_aligned, ofData_get y hk]
  have hr : (op.comm || op.unconstrained) = true ∨ ruleRight op c = ruleRight.apply op c t := by
    by_cases h : (op.comm || op.unconstrained) = true
    · exact .inl h
    · right
      simp only [ruleRight, if_neg h]
      have hs := hacc.1
      cases hco : c.shapeout with
      | some s => rw [hs s hco]
      | none =>
        rw [hco] at ht
        rcases ht with ht | ht
        · cases ht
        · rw [ht]
  rcases hr with h | h
  · left; simp only [ruleRight, if_pos h]
  · rw [h]
    rcases key with ⟨_, h⟩ | h
    · exact .inr (.inl h)
    · exact .inr (.inr h)

omit [CommRing R] in
/-- C80: the rule applies unless the operator has a communicator or an unconstrained output shape, or both shapes are unknown. -/
theorem C80_applies (op : Fn R) (c : Constant R) :
    ruleRight op c = .refused ↔ op.comm = true ∨ op.unconstrained = true ∨ c.shapeout = none ∧ op.shapein = none := by
  have e : ∀ t, ruleRight.apply op c t ≠ .refused := by
    intro t
    simp only [ruleRight.apply]
    split
    · simp
    · split <;> simp
  simp only [ruleRight]
  cases hco : c.shapeout <;> cases hi : op.shapein <;> cases op.comm <;> cases op.unconstrained <;> simp [e]

/-- C80: the sum (or product) of two constants.  If the rule yields a constant, its value is the sum (or product) of their values, for all
the shapes that both accept. -/
theorem C80_combined (add : Bool) (c1 c2 : Constant R) (h1 : c1.Valid) (h2 : c2.Valid) {t : Shape} {y1 y2 : Data R} (e1 : c1.call t = some y1)
    (e2 : c2.call t = some y2) (ht : y1.flat ≠ []) :
    (ruleConstants add c1 c2).Holds fun c => ∃ y, c.call t = some y ∧
      Same y ⟨t, fun k => if add then y1.get k + y2.get k else y1.get k * y2.get k⟩ := by
  obtain ⟨a1, s1, v1⟩ := call_some h1 e1
  obtain ⟨a2, s2, v2⟩ := call_some h2 e2
  have hm : ∃ s, mergeShape c1.shapeout c2.shapeout = some s ∧ ∀ u, s = some u → u = t := by
    cases hs1 : c1.shapeout with
    | none => exact ⟨_, rfl, a2.1⟩
    | some u1 =>
      cases hs2 : c2.shapeout with
      | none => exact ⟨_, rfl, hs1 ▸ a1.1⟩
      | some u2 =>
        have := a1.1 _ hs1; have := a2.1 _ hs2
        subst_vars
        exact ⟨_, by simp [mergeShape]; rfl, by simp⟩
  obtain ⟨so, hso, hsot⟩ := hm
  simp only [ruleConstants, hso]
  cases hmk : mergeKinds c1.kind c2.kind with
  | none => simp [Outcome.Holds]
  | some b =>
    obtain ⟨d, hd, hc, hco⟩ := combine_data add (v1 := .nums c1.data.toData) (v2 := .nums c2.data.toData) hmk a1.2 h1.2 a2.2 h2.2
      (by rintro - ⟨⟨a, ha⟩, -⟩; cases ha)
    simp only [combine, Values.toNums, Option.map_eq_some_iff] at hd
    obtain ⟨d, hd, rfl⟩ := hd
    simp only [hd]
    simp only [Values.shape, Values.toNums] at hc hco
    cases hcst : constant (Strided.ofData d) (some b) none with
    | none =>
      exfalso
      have hfl : d.flat = [] := by
        rw [← constant_none hcst]
        simp only [Data.flat]
        exact (List.map_congr_left fun k hk => ofData_get d (mem_enum.1 hk)).symm
      apply ht
      rw [List.eq_nil_iff_forall_not_mem]
      intro v hv
      obtain ⟨k, hk, -⟩ := mem_flat.1 hv
      rw [s1] at hk
      have := coefficient_mem (data := d) (b := b) hc.fits hk
      rw [hfl] at this
      simp at this
    | some c =>
      obtain ⟨g1, g2⟩ := constant_acts hcst (t := t) (by simp) hc
      obtain ⟨y, hy, hys, hyv⟩ := call_accepts (c := { c with shapeout := so }) (t := t) ⟨hsot, g1.2⟩
      refine ⟨y, hy, hys, fun k hk => ?_⟩
      rw [hys] at hk
      rw [hyv k hk]
      show coefficient c.data.toData c.kind k = _
      rw [g2 k hk]
      have hcf : coefficient (Strided.ofData d).toData b k = coefficient d b k := by
        simp only [coefficient]
        have : (Strided.ofData d).toData.shape = d.shape := rfl
        rw [this]
        apply ofData_get
        rw [← inShape_aligned b, aligned_aligned]
        exact bindex_inShape hc.fits (by rw [inShape_aligned]; exact hk)
      rw [hcf, hco k hk]
      simp only [v1 k hk, v2 k hk]

/-- C80: the sum (or product) of two constants has the output shapes of both: it is refused if they differ, and it has a shape if one of
them has it. -/
theorem C80_shapes (add : Bool) (c1 c2 : Constant R) {c : Constant R} (h : ruleConstants add c1 c2 = .result c) (u : Shape) :
    c.shapeout = some u ↔ c1.shapeout = some u ∨ c2.shapeout = some u := by
  simp only [ruleConstants] at h
  split at h
  · cases h
  · cases h
  · next so b hs _ =>
    split at h
    · cases h
    · split at h
      · cases h
      · cases h
        simp only
        cases e1 : c1.shapeout <;> cases e2 : c2.shapeout <;> rw [e1, e2] at hs <;> simp only [mergeShape] at hs
        · cases hs; simp
        · cases hs; simp
        · cases hs; simp
        · next s t =>
          split at hs
          · next e => cases hs; subst e; simp
          · cases hs

/-- C80: the product of a constant and of a linear operator (or a composition) is the operator followed by a diagonal. -/
theorem C80_product [Nontrivial R] {cast : R → R} (hcast : Exact cast) (c : Constant R) (hv : c.Valid) {y z : Data R}
    (hz : c.call y.shape = some z) :
    ∃ w, (ruleMul cast c).call y = some w ∧ Same w ⟨y.shape, fun k => z.get k * y.get k⟩ := by
  obtain ⟨a, s, v⟩ := call_some hv hz
  obtain ⟨w, hw, hs, hg⟩ := C28_diagonal_partial hcast (.nums c.data.toData) c.kind y a.2
  refine ⟨w, hw, hs, fun k hk => ?_⟩
  rw [hs] at hk
  rw [hg k hk]
  simp only [Values.toNums]
  rw [v k hk, mul_comm]

/-! ### Examples and witnesses -/

/-- `np.array([[1, 2], [3, 4]]).T` -/
def transposed : Strided Int := ⟨fun p => p + 1, 0, [2, 2], [1, 2]⟩

/-- `np.array([[1, 2], [3, 4]])` -/
def twoByTwo : Strided Int := ⟨fun p => p + 1, 0, [2, 2], [2, 1]⟩

/-- An operator with explicit shapes that squares its input. -/
def squares : Fn Int := ⟨fun a => if a.shape = [2, 2] then some ⟨a.shape, fun k => a.get k ^ 2⟩ else none, some [2, 2], false, false⟩

/-- C80: the square of a constant whose data are the transpose of an array is the square of the array, not that of its transpose. -/
theorem C80_applied_fails : ∃ c c' : Constant Int, constant transposed none none = some c ∧ c.Valid ∧
    (c.call [2, 2]).map Data.flat = some [1, 3, 2, 4] ∧
    ((c.call [2, 2]).bind squares.fn).map Data.flat = some [1, 9, 4, 16] ∧
    ruleRight squares c = .result c' ∧ (c'.call [2, 2]).map Data.flat = some [1, 4, 9, 16] := by
  refine ⟨⟨transposed, .disabled, some [2, 2]⟩, _, rfl, ⟨fun _ => rfl, fun h => nomatch h⟩, by decide, by decide, rfl, by decide⟩

/-- `np.broadcast_to([1, 2], (2, 2))`, followed in memory by a number. -/
def repeated (v : Int) : Strided Int := ⟨fun p => if p < 2 then p + 1 else v, 0, [2, 2], [0, 1]⟩

/-- C80: if the data are a broadcast view, memory that is not that of the array is read: for the same data, the squares depend on the number
that follows them. -/
theorem C80_memory_fails : ∃ c c' d d' : Constant Int,
    constant (repeated 3) none none = some c ∧ c.Valid ∧ constant (repeated 5) none none = some d ∧ d.Valid ∧
    (c.call [2, 2]).map Data.flat = some [1, 2, 1, 2] ∧ (d.call [2, 2]).map Data.flat = some [1, 2, 1, 2] ∧
    ruleRight squares c = .result c' ∧ (c'.call [2, 2]).map Data.flat = some [1, 4, 9, 9] ∧
    ruleRight squares d = .result d' ∧ (d'.call [2, 2]).map Data.flat = some [1, 4, 25, 25] :=
  ⟨⟨repeated 3, .disabled, some [2, 2]⟩, _, ⟨repeated 5, .disabled, some [2, 2]⟩, _, rfl, ⟨fun _ => rfl, (nomatch ·)⟩, rfl,
    ⟨fun _ => rfl, (nomatch ·)⟩, by decide, by decide, rfl, by decide, rfl, by decide⟩

/-- C80: a constant operator cannot be empty. -/
theorem C80_empty_fails : constant (⟨fun _ => 0, 0, [0], [1]⟩ : Strided Int) none none = none := by decide

/-- A constant operator with a row that is broadcast to the left. -/
def rowConstant : Constant Int := ⟨⟨fun p => p + 5, 0, [2], [1]⟩, .leftward, none⟩

/-- A constant operator without broadcasting. -/
def tableConstant : Constant Int := ⟨twoByTwo, .disabled, some [2, 2]⟩

/-- The square of a table. -/
example : twoByTwo.Contiguous ∧ constant twoByTwo none none = some tableConstant ∧ tableConstant.Valid ∧
    ((tableConstant.call [2, 2]).bind squares.fn).map Data.flat = some [1, 4, 9, 16] ∧ squares.shapein = some [2, 2] ∧
    ∃ c, ruleRight squares tableConstant = .result c ∧ (c.call [2, 2]).map Data.flat = some [1, 4, 9, 16] := by
  refine ⟨?_, rfl, ⟨fun _ => rfl, (nomatch ·)⟩, by decide, rfl, _, rfl, by decide⟩
  intro k hk
  obtain ⟨i, j, rfl⟩ : ∃ i j, k = [i, j] := by
    have := Verif.Broadcast.inShape_length hk
    match k, this with
    | [i, j], _ => exact ⟨i, j, rfl⟩
  simp [twoByTwo, offset, ravel, size]

/-- The square of a row that is broadcast to the input of the operator. -/
example : rowConstant.Valid ∧ ((rowConstant.call [2, 2]).bind squares.fn).map Data.flat = some [25, 36, 25, 36] ∧
    ∃ c, ruleRight squares rowConstant = .result c ∧ (c.call [2, 2]).map Data.flat = some [25, 36, 25, 36] :=
  ⟨⟨(nomatch ·), (nomatch ·)⟩, by decide, _, rfl, by decide⟩

/-- Sum and product of a table and a row. -/
example : (tableConstant.call [2, 2]).map Data.flat = some [1, 2, 3, 4] ∧ (rowConstant.call [2, 2]).map Data.flat = some [5, 6, 5, 6] ∧
    (∃ c, ruleConstants true tableConstant rowConstant = .result c ∧ (c.call [2, 2]).map Data.flat = some [6, 8, 8, 10]) ∧
    ∃ c, ruleConstants false tableConstant rowConstant = .result c ∧ (c.call [2, 2]).map Data.flat = some [5, 12, 15, 24] :=
  ⟨by decide, by decide, ⟨_, rfl, by decide⟩, _, rfl, by decide⟩

/-- A row times the result of an operator. -/
example : ((ruleMul id rowConstant).call ⟨[2, 2], fun k => 10 * k.getD 0 0 + k.getD 1 0 + 1⟩).map Data.flat = some [5, 12, 55, 72] := by
  decide

/-- A rowConstant and an operator without input shape: the composition is kept. -/
example : ruleRight { squares with shapein := none } rowConstant = .refused := rfl

end Verif.Broadcast
