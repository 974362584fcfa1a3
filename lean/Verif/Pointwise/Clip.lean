import Verif.Broadcast.Props
import Verif.Block.FuseSeparable
import Mathlib.Order.Lattice
import Mathlib.Algebra.Order.Ring.Int

/-
Model of the operators that limit the values of an array: src/pyoperators/nonlinear.py:232-278 (`ClipOperator`), 534-573
(`MaximumOperator`) and 576-615 (`MinimumOperator`), and property C72.

The values are those of a linear order: there is no NaN.
-/

namespace Verif.Pointwise

open Verif.Shape
open Verif.Block hiding Fits inShape_length inShape_append
open Verif.Broadcast

variable {K : Type} [LinearOrder K]

/-- The operators and their parameters. -/
inductive Limit (K : Type) where
  | clip (minvalue maxvalue : Data K)
  | maximum (value : Data K)
  | minimum (value : Data K)

/-- The method direct: src/pyoperators/nonlinear.py:271-272, 563-564 and 605-606.  The output has the shape of the input.  `np.clip` takes
the maximum with the lower limit, then the minimum with the upper one; broadcasting the three arrays to the shape of the output
is broadcasting each limit to it.  `none` is the exception raised if the parameters cannot be broadcast. -/
def Limit.direct : Limit K → Data K → Option (Data K)
  | .clip lo hi, x => (apply max .disabled x lo).bind fun y => apply min .disabled y hi
  | .maximum v, x => apply max .disabled x v
  | .minimum v, x => apply min .disabled x v

/-! ### Specification -/

/-- The element of the parameter that NumPy's broadcasting associates with the element k of the input: the last axes are aligned, and the
axes of dimension one are repeated. -/
def broadcastAt (v : Data K) (k : MIndex) : K :=
  v.get (List.zipWith (fun d i => if d = 1 then 0 else i) v.shape (k.drop (k.length - v.shape.length)))

/-- The parameter can be broadcast to the shape s. -/
def Broadcastable (v : Data K) (s : Shape) : Prop :=
  v.shape.length ≤ s.length ∧
    ∀ p ∈ v.shape.zip (s.drop (s.length - v.shape.length)), p.1 = 1 ∨ p.1 = p.2

/-- The operator as an operand of the block operators: the values of the results of the method direct, see `onBlocks_direct`. -/
def Limit.onBlocks (op : Limit K) : Operand K :=
  { fn := fun _ x k =>
      match op with
      | .clip lo hi => min (max (x k) (broadcastAt lo k)) (broadcastAt hi k)
      | .maximum v => max (x k) (broadcastAt v k)
      | .minimum v => min (x k) (broadcastAt v k) }

/-! ### Proofs -/

theorem bindex_zipWith : ∀ (s k : List Nat), bindex s k = List.zipWith (fun d i => if d = 1 then 0 else i) s k
  | [], k => by simp [bindex]
  | _ :: _, [] => by simp [bindex]
  | d :: s, i :: k => by simp [bindex, bindex_zipWith s k]

theorem zipWith_take (f : Nat → Nat → Nat) : ∀ (s k : List Nat), List.zipWith f s k = List.zipWith f s (k.take s.length)
  | [], _ => by simp
  | _ :: _, [] => by simp
  | d :: s, i :: k => by simp [zipWith_take f s k]

theorem bindex_reversed {s k : List Nat} (h : s.length ≤ k.length) :
    (bindex s.reverse k.reverse).reverse =
      List.zipWith (fun d i => if d = 1 then 0 else i) s (k.drop (k.length - s.length)) := by
  rw [bindex_zipWith, zipWith_take, List.length_reverse]
  have : k.reverse.take s.length = (k.drop (k.length - s.length)).reverse := by
    rw [List.take_reverse]
  rw [this, ← List.reverse_zipWith (by rw [List.length_drop]; omega), List.reverse_reverse]

theorem fits_pairs : ∀ {s t : Shape}, Fits s t ↔ s.length ≤ t.length ∧ ∀ p ∈ s.zip t, p.1 = 1 ∨ p.1 = p.2
  | [], _ => by simp [Fits]
  | _ :: _, [] => by simp [Fits]
  | d :: s, n :: t => by
    simp only [Fits, fits_pairs (s := s) (t := t), List.length_cons, List.zip_cons_cons, List.mem_cons]
    constructor
    · rintro ⟨h1, h2, h3⟩
      refine ⟨by omega, ?_⟩
      rintro p (rfl | hp)
      · exact h1
      · exact h3 p hp
    · rintro ⟨h1, h2⟩
      exact ⟨h2 (d, n) (.inl rfl), by omega, fun p hp => h2 p (.inr hp)⟩

theorem zip_take : ∀ (s k : List Nat), s.zip k = s.zip (k.take s.length)
  | [], _ => by simp
  | _ :: _, [] => by simp
  | d :: s, i :: k => by simp [zip_take s k]

omit [LinearOrder K] in
theorem fits_broadcastable {v : Data K} {s : Shape} :
    Fits (aligned .disabled v.shape) (aligned .disabled s) ↔ Broadcastable v s := by
  have e : ∀ l : List Nat, aligned .disabled l = l.reverse := fun l => by simp [aligned]
  rw [e, e, fits_pairs, Broadcastable, List.length_reverse, List.length_reverse]
  refine and_congr_right fun h => ?_
  rw [zip_take, List.length_reverse, List.take_reverse]
  have : v.shape.reverse.zip (s.drop (s.length - v.shape.length)).reverse = (v.shape.zip (s.drop (s.length - v.shape.length))).reverse := by
    simp only [List.zip]
    rw [List.reverse_zipWith (by rw [List.length_drop]; omega)]
  rw [this]
  simp

omit [LinearOrder K] in
theorem apply_broadcast {f : K → K → K} {x v : Data K} :
    (Broadcastable v x.shape → ∃ y, apply f .disabled x v = some y) ∧ ∀ y, apply f .disabled x v = some y →
      Broadcastable v x.shape ∧ y.shape = x.shape ∧ ∀ k, inShape x.shape k = true → y.get k = f (x.get k) (broadcastAt v k) := by
  constructor
  · intro h
    obtain ⟨y, hy, -⟩ := apply_fits (f := f) (fits_broadcastable.2 h)
    exact ⟨y, hy⟩
  · intro y hy
    have hf := apply_some hy
    have hb := fits_broadcastable.1 hf
    obtain ⟨y', h1, h2, h3⟩ := apply_fits (f := f) hf
    rw [hy] at h1
    obtain rfl := Option.some.inj h1
    refine ⟨hb, h2, fun k hk => ?_⟩
    have e : ∀ l : List Nat, aligned .disabled l = l.reverse := fun l => by simp [aligned]
    rw [h3 k hk, e, e, e, bindex_reversed (by rw [Verif.Broadcast.inShape_length hk]; exact hb.1)]
    rfl

/-- **C72** Clipping an array leaves the values that are inside the interval, and replaces the other ones by the nearest edge. -/
theorem C72_clip (lo hi x : Data K) :
    ((∃ y, (Limit.clip lo hi).direct x = some y) ↔ Broadcastable lo x.shape ∧ Broadcastable hi x.shape) ∧
    ∀ y, (Limit.clip lo hi).direct x = some y → y.shape = x.shape ∧ ∀ k, inShape x.shape k = true →
      broadcastAt lo k ≤ broadcastAt hi k →
        (broadcastAt lo k ≤ x.get k → x.get k ≤ broadcastAt hi k → y.get k = x.get k) ∧
        (x.get k < broadcastAt lo k → y.get k = broadcastAt lo k) ∧
        (broadcastAt hi k < x.get k → y.get k = broadcastAt hi k) := by
  refine ⟨⟨?_, ?_⟩, ?_⟩
  · rintro ⟨y, hy⟩
    obtain ⟨z, hz, hy⟩ := Option.bind_eq_some_iff.1 hy
    obtain ⟨h1, h2, -⟩ := apply_broadcast.2 z hz
    obtain ⟨h3, -, -⟩ := apply_broadcast.2 y hy
    exact ⟨h1, h2 ▸ h3⟩
  · rintro ⟨h1, h2⟩
    obtain ⟨z, hz⟩ := (apply_broadcast (f := max)).1 h1
    obtain ⟨-, hs, -⟩ := apply_broadcast.2 z hz
    obtain ⟨y, hy⟩ := (apply_broadcast (f := min) (x := z)).1 (hs.symm ▸ h2)
    exact ⟨y, Option.bind_eq_some_iff.2 ⟨z, hz, hy⟩⟩
  · intro y hy
    obtain ⟨z, hz, hy⟩ := Option.bind_eq_some_iff.1 hy
    obtain ⟨-, h2, h3⟩ := apply_broadcast.2 z hz
    obtain ⟨-, h5, h6⟩ := apply_broadcast.2 y hy
    refine ⟨h5.trans h2, fun k hk hle => ?_⟩
    rw [h6 k (h2 ▸ hk), h3 k hk]
    refine ⟨fun a b => ?_, fun a => ?_, fun a => ?_⟩
    · rw [max_eq_left a, min_eq_left b]
    · rw [max_eq_right a.le, min_eq_left hle]
    · rw [min_eq_right (le_trans a.le (le_max_left _ _))]

/-- **C72** Clipping is idempotent. -/
theorem C72_idempotent (lo hi x : Data K) {y : Data K} (hy : (Limit.clip lo hi).direct x = some y) :
    ∃ z, (Limit.clip lo hi).direct y = some z ∧ z.shape = y.shape ∧ ∀ k, inShape y.shape k = true → z.get k = y.get k := by
  obtain ⟨u, hu, hy'⟩ := Option.bind_eq_some_iff.1 hy
  obtain ⟨-, h2, h3⟩ := apply_broadcast.2 u hu
  obtain ⟨-, h5, h6⟩ := apply_broadcast.2 y hy'
  have hs : y.shape = x.shape := h5.trans h2
  obtain ⟨b1, b2⟩ := (C72_clip lo hi x).1.1 ⟨y, hy⟩
  obtain ⟨z, hz⟩ := (C72_clip lo hi y).1.2 ⟨hs.symm ▸ b1, hs.symm ▸ b2⟩
  obtain ⟨w, hw, hz'⟩ := Option.bind_eq_some_iff.1 hz
  obtain ⟨-, g2, g3⟩ := apply_broadcast.2 w hw
  obtain ⟨-, g5, g6⟩ := apply_broadcast.2 z hz'
  refine ⟨z, hz, g5.trans g2, fun k hk => ?_⟩
  rw [g6 k (g2 ▸ hk), g3 k hk, h6 k (by rw [← h5]; exact hk), h3 k (hs ▸ hk)]
  rcases le_total (broadcastAt lo k) (broadcastAt hi k) with h | h
  · rcases le_total (max (x.get k) (broadcastAt lo k)) (broadcastAt hi k) with h' | h'
    · rw [min_eq_left h', max_eq_left (le_max_right _ _), min_eq_left h']
    · rw [min_eq_right h', max_eq_left h, min_eq_right le_rfl]
  · rw [min_eq_right (le_trans h (le_max_right (x.get k) _)), min_eq_right (le_max_left _ _)]

/-- **C72** The maximum operator raises the values that are below the parameter to it, and keeps the other ones. -/
theorem C72_maximum (v x : Data K) :
    ((∃ y, (Limit.maximum v).direct x = some y) ↔ Broadcastable v x.shape) ∧
    ∀ y, (Limit.maximum v).direct x = some y → y.shape = x.shape ∧ ∀ k, inShape x.shape k = true →
      (x.get k < broadcastAt v k → y.get k = broadcastAt v k) ∧ (broadcastAt v k ≤ x.get k → y.get k = x.get k) := by
  refine ⟨⟨fun ⟨y, hy⟩ => (apply_broadcast.2 y hy).1, apply_broadcast.1⟩, fun y hy => ?_⟩
  obtain ⟨-, h2, h3⟩ := apply_broadcast.2 y hy
  refine ⟨h2, fun k hk => ?_⟩
  rw [h3 k hk]
  exact ⟨fun h => max_eq_right h.le, fun h => max_eq_left h⟩

/-- **C72** The minimum operator lowers the values that are above the parameter to it, and keeps the other ones. -/
theorem C72_minimum (v x : Data K) :
    ((∃ y, (Limit.minimum v).direct x = some y) ↔ Broadcastable v x.shape) ∧
    ∀ y, (Limit.minimum v).direct x = some y → y.shape = x.shape ∧ ∀ k, inShape x.shape k = true →
      (broadcastAt v k < x.get k → y.get k = broadcastAt v k) ∧ (x.get k ≤ broadcastAt v k → y.get k = x.get k) := by
  refine ⟨⟨fun ⟨y, hy⟩ => (apply_broadcast.2 y hy).1, apply_broadcast.1⟩, fun y hy => ?_⟩
  obtain ⟨-, h2, h3⟩ := apply_broadcast.2 y hy
  refine ⟨h2, fun k hk => ?_⟩
  rw [h3 k hk]
  exact ⟨fun h => min_eq_right h.le, fun h => min_eq_left h⟩

/-- **C72** With lower limits below the upper ones, clipping is also the maximum of the minimum, in this order. -/
theorem C72_order (lo hi x : Data K) {y : Data K} (hy : (Limit.clip lo hi).direct x = some y)
    (h : ∀ k, inShape x.shape k = true → broadcastAt lo k ≤ broadcastAt hi k) :
    ∃ u z, (Limit.minimum hi).direct x = some u ∧ (Limit.maximum lo).direct u = some z ∧ z.shape = y.shape ∧
      ∀ k, inShape y.shape k = true → z.get k = y.get k := by
  obtain ⟨w, hw, hy'⟩ := Option.bind_eq_some_iff.1 hy
  obtain ⟨-, h2, h3⟩ := apply_broadcast.2 w hw
  obtain ⟨-, h5, h6⟩ := apply_broadcast.2 y hy'
  have hs : y.shape = x.shape := h5.trans h2
  obtain ⟨b1, b2⟩ := (C72_clip lo hi x).1.1 ⟨y, hy⟩
  obtain ⟨u, hu⟩ := (C72_minimum hi x).1.2 b2
  obtain ⟨-, g2, g3⟩ := apply_broadcast.2 u hu
  obtain ⟨z, hz⟩ := (C72_maximum lo u).1.2 (g2.symm ▸ b1)
  obtain ⟨-, g5, g6⟩ := apply_broadcast.2 z hz
  refine ⟨u, z, hu, hz, g5.trans (g2.trans hs.symm), fun k hk => ?_⟩
  rw [hs] at hk
  rw [g6 k (g2.symm ▸ hk), g3 k hk, h6 k (h2.symm ▸ hk), h3 k hk]
  rw [max_min_distrib_right, max_eq_left (h k hk)]

/-- The values of a scalar. -/
def scalarData (c : K) : Data K := ⟨[], fun _ => c⟩

omit [LinearOrder K] in
theorem scalar_fits (c : K) (s : Shape) : Broadcastable (scalarData c) s := ⟨Nat.zero_le _, by simp [scalarData]⟩

omit [LinearOrder K] in
theorem scalar_at (c : K) (k : MIndex) : broadcastAt (scalarData c) k = c := rfl

/-- An operator whose parameters are scalars. -/
inductive Scalar : Limit K → (K → K) → Prop
  | clip (lo hi : K) : Scalar (.clip (scalarData lo) (scalarData hi)) fun v => min (max v lo) hi
  | maximum (c : K) : Scalar (.maximum (scalarData c)) fun v => max v c
  | minimum (c : K) : Scalar (.minimum (scalarData c)) fun v => min v c

theorem onBlocks_direct (op : Limit K) {x y : Data K} (h : op.direct x = some y) {k : MIndex} (hk : inShape x.shape k = true) :
    y.get k = op.onBlocks.fn x.shape x.get k := by
  cases op with
  | clip lo hi =>
    obtain ⟨w, hw, h⟩ := Option.bind_eq_some_iff.1 h
    obtain ⟨-, h2, h3⟩ := apply_broadcast.2 w hw
    obtain ⟨-, h5, h6⟩ := apply_broadcast.2 y h
    rw [h6 k (h2.symm ▸ hk), h3 k hk]
    rfl
  | maximum v => exact (apply_broadcast.2 y h).2.2 k hk
  | minimum v => exact (apply_broadcast.2 y h).2.2 k hk

theorem scalar_elementwise {op : Limit K} {g : K → K} (h : Scalar op g) : Elementwise op.onBlocks g := by
  refine ⟨fun _ => rfl, fun s x k => ?_⟩
  cases h <;> rfl

theorem scalar_direct {op : Limit K} {g : K → K} (h : Scalar op g) (x : Data K) : ∃ y, op.direct x = some y := by
  cases h with
  | clip lo hi => exact (C72_clip _ _ x).1.2 ⟨scalar_fits _ _, scalar_fits _ _⟩
  | maximum c => exact (C72_maximum _ x).1.2 (scalar_fits _ _)
  | minimum c => exact (C72_minimum _ x).1.2 (scalar_fits _ _)

/-- **C72** These operators are flagged separable, so that a composition with a block operator is fused.  If the parameters are scalars, the
fused operator gives the same results.  Missing: the parameters that are arrays, see `C72_blocks_fails`. -/
theorem C72_blocks_partial [Zero K] {op : Limit K} {g : K → K} (h : Scalar op g) (operation : K → K → K) (b : BlockOp K) (sx sy : Shape)
    (hw : WellFormed b sx sy) (ri ro : Option Nat) (b0 : Block K) (hf : fuseLeft op.onBlocks (b.attrs ri ro) = some b0)
    (hs : ∀ (i : Nat) (o : Operand K), b.operands[i]? = some o → o.reshapein (b.inputShape sx i) = b.outputShape sy i)
    (x y w tmp : Nat) (hx : x ≠ y ∧ x ≠ w ∧ tmp ≠ x ∧ tmp ≠ y ∧ tmp ≠ w) (oks : List Bool)
    (hk : oks.length = b.operands.length) (m : Mem K) :
    ∃ b' m1 m3 z, b0.resolve = some b' ∧ b.direct operation sx sy x y tmp oks m = some m1 ∧
      b'.direct operation sx sy x w tmp oks m = some m3 ∧ op.direct ⟨sy, m1 y⟩ = some z ∧
      ∀ k, inShape sy k = true → m3 w k = z.get k := by
  obtain ⟨b', m1, m3, h1, h2, h3, h4⟩ := C24_left operation b op.onBlocks g (scalar_elementwise h) sx sy hw ri ro b0 hf hs x y w tmp hx oks
    hk m
  obtain ⟨z, hz⟩ := scalar_direct h ⟨sy, m1 y⟩
  refine ⟨b', m1, m3, z, h1, h2, h3, hz, fun k hk => ?_⟩
  rw [h4 k hk, onBlocks_direct op hz hk]

/-- Two copies of the input, along a new last axis. -/
def twoCopies : BlockOp Int :=
  { operands := [{ fn := fun _ x => x }, { fn := fun _ x => x }], partitionin := [], partitionout := [1, 1], axisin := none,
    axisout := some (.newAxis (-1)) }

/-- The maximum with the vector (0, 10). -/
def zeroTen : Limit Int := .maximum ⟨[2], fun k => if k = [0] then 0 else 10⟩

/-- **C72** If the parameters are arrays, the fused operator gives other results: the array is broadcast along the last axis of the output,
which is the axis of the blocks, whereas it is broadcast along the axis of the input in each block. -/
theorem C72_blocks_fails : WellFormed twoCopies [2] [2, 2] ∧ ∃ b0 b' m1 m3 z, fuseLeft zeroTen.onBlocks (twoCopies.attrs none none) = some b0 ∧
    b0.resolve = some b' ∧ twoCopies.direct (· + ·) [2] [2, 2] 0 1 3 [true, true] (fun _ _ => 5) = some m1 ∧
    b'.direct (· + ·) [2] [2, 2] 0 2 3 [true, true] (fun _ _ => 5) = some m3 ∧
    zeroTen.direct ⟨[2, 2], m1 1⟩ = some z ∧ z.get [0, 1] = 10 ∧ m3 2 [0, 1] = 5 ∧ z.get [1, 0] = 5 ∧ m3 2 [1, 0] = 10 := by
  refine ⟨⟨by simp [twoCopies], by simp [twoCopies], ?_, ?_⟩, _, _, _, _, _, rfl, rfl, rfl, rfl, rfl, rfl, rfl, rfl, rfl⟩
  · rintro a ha; cases ha
  · rintro a ha; cases ha; exact ⟨rfl, ⟨by decide, by decide, rfl, by simp [twoCopies]⟩⟩

/-- **C72** The documentation of the maximum operator says that the values above the parameter are set to it: they are not. -/
theorem C72_maximum_fails : ∃ (v x y : Data Int), (Limit.maximum v).direct x = some y ∧ inShape x.shape [0] = true ∧
    broadcastAt v [0] < x.get [0] ∧ y.get [0] ≠ broadcastAt v [0] :=
  ⟨scalarData 1, ⟨[1], fun _ => 2⟩, _, rfl, rfl, by decide, by decide⟩

/-- Hypotheses of the theorems on the values: a lower limit for each column. -/
example : ∃ y, (Limit.clip ⟨[3], fun k => (k.sum : Int)⟩ (scalarData 2)).direct ⟨[2, 3], fun _ => 1⟩ = some y ∧
    y.get [1, 0] = 1 ∧ y.get [1, 2] = 2 ∧
    ∀ k, inShape [2, 3] k = true → broadcastAt ⟨[3], fun k => (k.sum : Int)⟩ k ≤ broadcastAt (scalarData 2) k := by
  refine ⟨_, rfl, rfl, rfl, ?_⟩
  intro k hk
  match k, hk with
  | [_], hk => simp [inShape] at hk
  | _ :: _ :: _ :: _, hk => simp [inShape] at hk
  | [i, j], hk =>
    simp only [inShape, Bool.and_eq_true, decide_eq_true_eq] at hk
    simp [broadcastAt, scalarData]
    omega

/-- Hypotheses of C72_blocks_partial. -/
example : Scalar (.maximum (scalarData (3 : Int))) (fun v => max v 3) ∧
    (∃ b, fuseLeft (Limit.maximum (scalarData (3 : Int))).onBlocks (twoCopies.attrs none none) = some b) ∧
    ∀ (i : Nat) (o : Operand Int), twoCopies.operands[i]? = some o → o.reshapein (twoCopies.inputShape [2] i) = twoCopies.outputShape [2, 2] i := by
  refine ⟨.maximum 3, ⟨_, rfl⟩, fun i o h => ?_⟩
  match i, h with
  | 0, h => cases h; rfl
  | 1, h => cases h; rfl

end Verif.Pointwise
