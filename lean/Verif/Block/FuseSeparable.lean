import Verif.Block.FuseMore
import Verif.Block.Inplace

/- Property C24: separable operators, counterexamples and examples. -/

namespace Verif.Block

open Verif.Shape

variable {R : Type}

/-- An operator that applies the same function to all the elements of an array. -/
def Elementwise (op : Operand R) (g : R → R) : Prop :=
  (∀ s, op.reshapein s = s) ∧ ∀ s x k, op.fn s x k = g (x k)

theorem resolve_attrs (b : BlockOp R) (ri ro : Option Nat) (ops : List (Operand R)) :
    ({ b.attrs ri ro with operands := ops } : Block R).resolve = some (b.withOperands ops) := by
  simp only [BlockOp.attrs, Block.resolve, entries_known]
  rfl

/-- C24 (partial).  The sum or the product of a block diagonal operator, with the same axis and partition for its input and its output, and
of an operator that applies a function to all the elements is fused correctly.  Missing: the block row operators
(C24_separable_fails) and the operators that depend on the position of the elements. -/
theorem C24_separable_partial [Zero R] (f operation : R → R → R) (b : BlockOp R) (op : Operand R) (g : R → R) (hg : Elementwise op g)
    (s : Shape) (a : Axis) (hai : b.axisin = some a) (hao : b.axisout = some a) (hp : b.partitionin = b.partitionout)
    (hw : WellFormed b s s) (ri ro : Option Nat) (x y w tmp : Nat) (hx : x ≠ y ∧ x ≠ w ∧ tmp ≠ x ∧ tmp ≠ y ∧ tmp ≠ w)
    (oks : List Bool) (hk : oks.length = b.operands.length) (m : Mem R) :
    ∃ b' m1 m3, (fuseSeparable f (b.attrs ri ro) op).resolve = some b' ∧ b.direct operation s s x y tmp oks m = some m1 ∧
      b'.direct operation s s x w tmp oks m = some m3 ∧ ∀ k, inShape s k = true → m3 w k = f (m1 y k) (op.fn s (m x) k) := by
  have hzl : (b.operands.map (fun o => pointwise f o op)).length = b.operands.length := List.length_map ..
  have hw3 := hw.withOperands _ hzl
  obtain ⟨m1, e1, h1, _⟩ := direct_holds b operation s s hw x y tmp hx.1 hx.2.2.1 hx.2.2.2.1 oks hk m
  obtain ⟨m3, e3, h3, _⟩ := direct_holds _ operation s s hw3 x w tmp hx.2.1 hx.2.2.1 hx.2.2.2.2 oks (by rw [hk]; exact hzl.symm) m
  refine ⟨_, m1, m3, resolve_attrs b ri ro _, e1, e3, ?_⟩
  intro k hkk
  obtain ⟨w1, w2⟩ := hw.lenout a hao
  obtain ⟨i, idx, l, hi, hin, rfl⟩ := (C22_tiles _ _ _ w2).cover k hkk
  have hlen := (C22_parts _ _ _ w2).1
  have hilt : i < b.operands.length := by have := (List.getElem?_eq_some_iff.mp hi).1; omega
  have g1 : b.operands[i]? = some b.operands[i] := List.getElem?_eq_getElem hilt
  have g3 : (b.operands.map (fun o => pointwise f o op))[i]? = some (pointwise f b.operands[i] op) := by
    rw [List.getElem?_map, g1]; rfl
  have hpt := part_of_get (s := s) hi
  rw [← hpt]
  have hin' : inShape (partShape s (getSlices b.partitionout a) i) l = true := by rw [partShape, hpt]; exact hin
  rw [hao] at h1
  have ha3 : (b.withOperands (b.operands.map (fun o => pointwise f o op))).axisout = some a := hao
  have hp3 : (b.withOperands (b.operands.map (fun o => pointwise f o op))).partitionout = b.partitionout := by
    simp only [BlockOp.withOperands, hao]
  rw [ha3, hp3] at h3
  rw [h1 i _ (blockResults_get hw (m x) g1) l hin', h3 i _ (blockResults_get hw3 (m x) g3) l hin',
    (withOperands_input b _ s (m x) i).1, (withOperands_input b _ s (m x) i).2]
  simp only [pointwise, hg.2]
  congr 2
  simp only [BlockOp.blockInput, hai, hp, view, clip]
  have hin2 : inShape (viewShape (expand s.length ((getSlices b.partitionout a).getD i [])) s) l = true := hin'
  rw [if_pos hin2]
  rfl

/-- C24.  An elementwise operator applied to the output of a block diagonal or block column operator can be applied to the blocks. -/
theorem C24_left [Zero R] (operation : R → R → R) (b : BlockOp R) (op : Operand R) (g : R → R) (hg : Elementwise op g)
    (sx sy : Shape) (hw : WellFormed b sx sy) (ri ro : Option Nat) (b0 : Block R) (hf : fuseLeft op (b.attrs ri ro) = some b0)
    (hs : ∀ (i : Nat) (o : Operand R), b.operands[i]? = some o → o.reshapein (b.inputShape sx i) = b.outputShape sy i)
    (x y w tmp : Nat) (hx : x ≠ y ∧ x ≠ w ∧ tmp ≠ x ∧ tmp ≠ y ∧ tmp ≠ w) (oks : List Bool)
    (hk : oks.length = b.operands.length) (m : Mem R) :
    ∃ b' m1 m3, b0.resolve = some b' ∧ b.direct operation sx sy x y tmp oks m = some m1 ∧
      b'.direct operation sx sy x w tmp oks m = some m3 ∧ ∀ k, inShape sy k = true → m3 w k = op.fn sy (m1 y) k := by
  have hzl : (b.operands.map (fun o => comp op o)).length = b.operands.length := List.length_map ..
  have hw3 := hw.withOperands _ hzl
  obtain ⟨m1, e1, h1, _⟩ := direct_holds b operation sx sy hw x y tmp hx.1 hx.2.2.1 hx.2.2.2.1 oks hk m
  obtain ⟨m3, e3, h3, _⟩ := direct_holds _ operation sx sy hw3 x w tmp hx.2.1 hx.2.2.1 hx.2.2.2.2 oks (by rw [hk]; exact hzl.symm) m
  cases hao : b.axisout with
  | none => simp [fuseLeft, BlockOp.attrs, hao] at hf
  | some a =>
    have hf' : b0 = { b.attrs ri ro with operands := b.operands.map (fun o => comp op o) } := by
      unfold fuseLeft at hf
      have : (b.attrs ri ro).partitionout = some (b.partitionout.map some) := by simp [BlockOp.attrs, hao]
      simp only [this] at hf
      rw [← Option.some.inj hf, ← this]
      rfl
    refine ⟨_, m1, m3, by rw [hf']; exact resolve_attrs b ri ro _, e1, e3, ?_⟩
    intro k hkk
    obtain ⟨w1, w2⟩ := hw.lenout a hao
    obtain ⟨i, idx, l, hi, hin, rfl⟩ := (C22_tiles _ _ _ w2).cover k hkk
    have hlen := (C22_parts _ _ _ w2).1
    have hilt : i < b.operands.length := by have := (List.getElem?_eq_some_iff.mp hi).1; omega
    have g1 : b.operands[i]? = some b.operands[i] := List.getElem?_eq_getElem hilt
    have g3 : (b.operands.map (fun o => comp op o))[i]? = some (comp op b.operands[i]) := by
      rw [List.getElem?_map, g1]; rfl
    have hpt := part_of_get (s := sy) hi
    rw [← hpt, hg.2]
    have hin' : inShape (partShape sy (getSlices b.partitionout a) i) l = true := by rw [partShape, hpt]; exact hin
    rw [hao] at h1
    have ha3 : (b.withOperands (b.operands.map (fun o => comp op o))).axisout = some a := hao
    have hp3 : (b.withOperands (b.operands.map (fun o => comp op o))).partitionout = b.partitionout := by
      simp only [BlockOp.withOperands, hao]
    rw [ha3, hp3] at h3
    rw [h1 i _ (blockResults_get hw (m x) g1) l hin', h3 i _ (blockResults_get hw3 (m x) g3) l hin',
      (withOperands_input b _ sx (m x) i).1, (withOperands_input b _ sx (m x) i).2]
    simp only [comp, hg.2, hs i _ g1, clip, BlockOp.outputShape, hao, hin', if_true]

/-- C24.  A block diagonal or block row operator applied to the output of an elementwise operator. -/
theorem C24_right [Zero R] (operation : R → R → R) (b : BlockOp R) (op : Operand R) (g : R → R) (hg : Elementwise op g)
    (sx sy : Shape) (hw : WellFormed b sx sy) (ri ro : Option Nat) (b0 : Block R) (hf : fuseRight (b.attrs ri ro) op = some b0)
    (x t y w tmp : Nat) (hx : x ≠ w ∧ t ≠ y ∧ tmp ≠ x ∧ tmp ≠ t ∧ tmp ≠ y ∧ tmp ≠ w) (oks : List Bool)
    (hk : oks.length = b.operands.length) (m : Mem R) :
    ∃ b' m1 m3, b0.resolve = some b' ∧ b.direct operation sx sy t y tmp oks (m.set t (op.fn sx (m x))) = some m1 ∧
      b'.direct operation sx sy x w tmp oks m = some m3 ∧ ∀ k, inShape sy k = true → m3 w k = m1 y k := by
  have hzl : (b.operands.map (fun o => comp o op)).length = b.operands.length := List.length_map ..
  have hw3 := hw.withOperands _ hzl
  obtain ⟨m1, e1, h1, _⟩ := direct_holds b operation sx sy hw t y tmp hx.2.1 hx.2.2.2.1 hx.2.2.2.2.1 oks hk
    (m.set t (op.fn sx (m x)))
  obtain ⟨m3, e3, h3, _⟩ := direct_holds _ operation sx sy hw3 x w tmp hx.1 hx.2.2.1 hx.2.2.2.2.2 oks (by rw [hk]; exact hzl.symm) m
  cases hai : b.axisin with
  | none => simp [fuseRight, BlockOp.attrs, hai] at hf
  | some a =>
    have hf' : b0 = { b.attrs ri ro with operands := b.operands.map (fun o => comp o op) } := by
      unfold fuseRight at hf
      have : (b.attrs ri ro).partitionin = some (b.partitionin.map some) := by simp [BlockOp.attrs, hai]
      simp only [this] at hf
      rw [← Option.some.inj hf, ← this]
      rfl
    refine ⟨_, m1, m3, by rw [hf']; exact resolve_attrs b ri ro _, e1, e3, ?_⟩
    have hres : (b.withOperands (b.operands.map (fun o => comp o op))).blockResults sx (m x) =
        b.blockResults sx ((m.set t (op.fn sx (m x))) t) := by
      apply List.ext_getElem?
      intro i
      by_cases hi : i < b.operands.length
      · have g1 : b.operands[i]? = some b.operands[i] := List.getElem?_eq_getElem hi
        have g3 : (b.operands.map (fun o => comp o op))[i]? = some (comp b.operands[i] op) := by
          rw [List.getElem?_map, g1]; rfl
        rw [blockResults_get hw3 (m x) g3, blockResults_get hw _ g1, (withOperands_input b _ sx (m x) i).1,
          (withOperands_input b _ sx (m x) i).2]
        simp only [comp, hg.1]
        congr 2
        funext l
        simp only [BlockOp.blockInput, BlockOp.inputShape, hai, view, clip, hg.2, Mem.set, if_true, partShape, part]
        split
        · rfl
        · rfl
      · rw [List.getElem?_eq_none, List.getElem?_eq_none]
        · rw [blockResults_length b sx sy hw]; omega
        · rw [blockResults_length _ sx sy hw3]
          show (b.operands.map (fun o => comp o op)).length ≤ i
          omega
    intro k hkk
    rw [hres] at h3
    refine Holds.unique (hf := ?_) h3 ?_ k hkk
    · intro c hc
      have hc' : b.axisout = some c := hc
      obtain ⟨w1, w2⟩ := hw3.lenout c hc
      refine ⟨?_, w2⟩
      rw [w1, blockResults_length b sx sy hw]
      exact hzl
    · cases hao : b.axisout with
      | none =>
        rw [hao] at h1
        have : (b.withOperands (b.operands.map (fun o => comp o op))).axisout = none := hao
        rw [this]; exact h1
      | some c =>
        rw [hao] at h1
        have e1 : (b.withOperands (b.operands.map (fun o => comp o op))).axisout = some c := hao
        have e2 : (b.withOperands (b.operands.map (fun o => comp o op))).partitionout = b.partitionout := by
          simp only [BlockOp.withOperands, hao]
        rw [e1, e2]; exact h1

/-! ### Counterexamples -/

/-- A block row operator of two blocks with one input and one output. -/
def smallRow : BlockOp Int :=
  { operands := [doubling false, doubling false], partitionin := [1, 1], partitionout := [], axisin := some (.axis 0),
    axisout := none }

/-- The elementwise product of two block row operators is replaced by the block row of the products of their blocks, which is
different: 2 x1 + 2 x2 multiplied by itself is not 4 x1 x1 + 4 x2 x2. -/
theorem C24_mul_fails : WellFormed smallRow [2] [1] ∧ ∃ b b' m1 m3,
    fuseCommutative (· * ·) (smallRow.attrs none none) (smallRow.attrs none none) = some b ∧ b.resolve = some b' ∧
    smallRow.direct (· + ·) [2] [1] 0 1 2 [true, true] (fun _ _ => 1) = some m1 ∧
    b'.direct (· + ·) [2] [1] 0 1 2 [true, true] (fun _ _ => 1) = some m3 ∧ m1 1 [0] * m1 1 [0] = 16 ∧ m3 1 [0] = 8 := by
  refine ⟨⟨by simp [smallRow], by simp [smallRow], ?_, ?_⟩, _, _, _, _, rfl, rfl, rfl, rfl, rfl, rfl⟩
  · rintro a ha; cases ha; exact ⟨rfl, ⟨by decide, by decide, rfl, by simp⟩⟩
  · rintro a ha; cases ha

/-- A block diagonal operator of two blocks with one input and one output. -/
def smallDiag : BlockOp Int :=
  { operands := [doubling false, doubling false], partitionin := [1, 1], partitionout := [1, 1], axisin := some (.axis 0),
    axisout := some (.axis 0) }

/-- The product of a block row operator whose operation is the multiplication and of a block diagonal operator is replaced by a block row
operator whose operation is the addition. -/
theorem C24_operation_fails : WellFormed smallRow [2] [1] ∧ WellFormed smallDiag [2] [2] ∧ ∃ b b' m1 m2 m3,
    fuseComposition (smallRow.attrs none none) (smallDiag.attrs none none) id id = some (some (.block b)) ∧ b.resolve = some b' ∧
    smallDiag.direct (· * ·) [2] [2] 0 1 3 [true, true] (fun _ _ => 1) = some m1 ∧
    smallRow.direct (· * ·) [2] [1] 1 2 3 [true, true] m1 = some m2 ∧
    b'.direct (· + ·) [2] [1] 0 2 3 [true, true] (fun _ _ => 1) = some m3 ∧ m2 2 [0] = 16 ∧ m3 2 [0] = 8 := by
  refine ⟨⟨by simp [smallRow], by simp [smallRow], ?_, ?_⟩, ⟨by simp [smallDiag], by simp [smallDiag], ?_, ?_⟩, _, _, _, _, _, rfl, rfl,
    rfl, rfl, rfl, rfl, rfl⟩
  · rintro a ha; cases ha; exact ⟨rfl, ⟨by decide, by decide, rfl, by simp⟩⟩
  · rintro a ha; cases ha
  · rintro a ha; cases ha; exact ⟨rfl, ⟨by decide, by decide, rfl, by simp⟩⟩
  · rintro a ha; cases ha; exact ⟨rfl, ⟨by decide, by decide, rfl, by simp⟩⟩

/-- The square of the elements of an array; an array of length one is broadcast to the output. -/
def squaring : Operand Int :=
  { fn := fun s x k => x (List.zipWith (fun d i => if d = 1 then 0 else i) s k) * x (List.zipWith (fun d i => if d = 1 then 0 else i) s k) }

/-- The matrices ((1, 0))ᵀ and ((0, 1))ᵀ. -/
def column (j : Nat) : Operand Int := { fn := fun _ x k => if k = [j] then x [0] else 0, reshapein := fun _ => [2] }

/-- The identity as a block row of its columns. -/
def identityRow : BlockOp Int :=
  { operands := [column 0, column 1], partitionin := [1, 1], partitionout := [], axisin := some (.axis 0), axisout := none }

/-- The sum of a block row operator and of a separable operator is replaced by the block row of the sums of its blocks and of the
separable operator: x + x² becomes (x1 + x1² + x2², x2 + x1² + x2²). -/
theorem C24_separable_fails : WellFormed identityRow [2] [2] ∧ ∃ b' m1 m3,
    (fuseSeparable (· + ·) (identityRow.attrs none none) squaring).resolve = some b' ∧
    identityRow.direct (· + ·) [2] [2] 0 1 3 [true, true] (fun _ k => k.sum + 1) = some m1 ∧
    b'.direct (· + ·) [2] [2] 0 2 3 [true, true] (fun _ k => k.sum + 1) = some m3 ∧
    m1 1 [0] + squaring.fn [2] (fun k => k.sum + 1) [0] = 2 ∧ m3 2 [0] = 6 ∧
    m1 1 [1] + squaring.fn [2] (fun k => k.sum + 1) [1] = 6 ∧ m3 2 [1] = 7 := by
  refine ⟨⟨by simp [identityRow], by simp [identityRow], ?_, ?_⟩, _, _, _, rfl, rfl, rfl, rfl, rfl, rfl, rfl⟩
  · rintro a ha; cases ha; exact ⟨rfl, ⟨by decide, by decide, rfl, by simp⟩⟩
  · rintro a ha; cases ha

/-! ### Examples -/

/-- Hypotheses of C24_composition: a block row applied to a block diagonal operator, whose axes are 0 and -1. -/
example : ∃ f : Block Int, fuseComposition (smallRow.attrs (some 1) none)
    (({ smallDiag with axisin := some (.axis (-1)), axisout := some (.axis (-1)) } : BlockOp Int).attrs none none)
    (fun p => p) (fun p => p) = some (some (.block f)) ∧ f.partitionin = some [some 1, some 1] ∧ f.partitionout = none ∧
    ∀ (i : Nat) (op : Operand Int), smallDiag.operands[i]? = some op →
      op.reshapein (smallDiag.inputShape [2] i) = smallDiag.outputShape [2] i := by
  refine ⟨_, rfl, rfl, rfl, ?_⟩
  intro i op h
  have : op = doubling false := by
    have := List.mem_of_getElem? h
    simpa [smallDiag] using this
  subst this
  rfl

/-- The product of a block row and of a block column. -/
example : ∃ ops : List (Operand Int), fuseComposition (smallRow.attrs (some 1) none)
    (({ smallDiag with axisin := none, partitionin := [] } : BlockOp Int).attrs none none)
    (fun p => p) (fun p => p) = some (some (.sum ops)) ∧ ops.length = 2 := ⟨_, rfl, rfl⟩

/-- Hypotheses of C24_pointwise and C24_row_add. -/
example : (∃ b, fuseCommutative (· + ·) (smallDiag.attrs none none) (smallDiag.attrs none none) = some b) ∧
    (∃ b, fuseCommutative (· + ·) (smallRow.attrs none none) (smallRow.attrs none none) = some b) ∧
    smallDiag.axisout ≠ none ∧ smallRow.axisout = none := ⟨⟨_, rfl⟩, ⟨_, rfl⟩, by simp [smallDiag], rfl⟩

/-- Hypotheses of C24_refused. -/
example : ([some 1, none] : List (Option Nat))[0]? = some (some 1) ∧ ([some 2, some 3] : List (Option Nat))[0]? = some (some 2) ∧ 1 ≠ 2 := by
  decide

/-- Hypotheses of the theorems on separable operators. -/
example : Elementwise (doubling false) (fun v => 2 * v) ∧
    (∃ b, fuseLeft (doubling false) (smallDiag.attrs none none) = some b) ∧
    ∃ b, fuseRight (smallRow.attrs none none) (doubling false) = some b :=
  ⟨⟨fun _ => rfl, fun _ _ _ => rfl⟩, ⟨_, rfl⟩, ⟨_, rfl⟩⟩

end Verif.Block
