import Verif.Block.FuseSeparable

/- Operators that act on the parts of an array: they can be applied to the blocks. -/

namespace Verif.Block

open Verif.Shape

variable {R : Type}

/-- The operator acts on the parts of an array of shape s as the operators of the list. -/
def ActsByParts [Zero R] (op : Operand R) (ds : List (Operand R)) (s : Shape) (idxs : List (List Index)) : Prop :=
  ∀ (i : Nat) (d : Operand R), ds[i]? = some d → ∀ y l, inShape (partShape s idxs i) l = true →
    op.fn s y (place (part s idxs i) l) = d.fn (partShape s idxs i) (view s (idxs.getD i []) y) l

theorem left_pieces [Zero R] (operation : R → R → R) (b : BlockOp R) (op : Operand R) (ds : List (Operand R))
    (sx sy : Shape) (hw : WellFormed b sx sy) (a : Axis) (hao : b.axisout = some a) (hl : ds.length = b.operands.length)
    (hd : ActsByParts op ds sy (getSlices b.partitionout a))
    (hs : ∀ (i : Nat) (o : Operand R), b.operands[i]? = some o → o.reshapein (b.inputShape sx i) = b.outputShape sy i)
    (x y w tmp : Nat) (hx : x ≠ y ∧ x ≠ w ∧ tmp ≠ x ∧ tmp ≠ y ∧ tmp ≠ w) (oks : List Bool)
    (hk : oks.length = b.operands.length) (m : Mem R) :
    ∃ m1 m3, b.direct operation sx sy x y tmp oks m = some m1 ∧
      (b.withOperands (List.zipWith comp ds b.operands)).direct operation sx sy x w tmp oks m = some m3 ∧
      ∀ k, inShape sy k = true → m3 w k = op.fn sy (m1 y) k := by
  have hzl : (List.zipWith comp ds b.operands).length = b.operands.length := by simp [hl]
  have hw3 := hw.withOperands _ hzl
  obtain ⟨m1, e1, h1, _⟩ := direct_holds b operation sx sy hw x y tmp hx.1 hx.2.2.1 hx.2.2.2.1 oks hk m
  obtain ⟨m3, e3, h3, _⟩ := direct_holds _ operation sx sy hw3 x w tmp hx.2.1 hx.2.2.1 hx.2.2.2.2 oks (by rw [hk]; exact hzl.symm) m
  refine ⟨m1, m3, e1, e3, ?_⟩
  intro k hkk
  obtain ⟨w1, w2⟩ := hw.lenout a hao
  obtain ⟨i, idx, l, hi, hin, rfl⟩ := (C22_tiles _ _ _ w2).cover k hkk
  have hlen := (C22_parts _ _ _ w2).1
  have hilt : i < b.operands.length := by have := (List.getElem?_eq_some_iff.mp hi).1; omega
  have g1 : b.operands[i]? = some b.operands[i] := List.getElem?_eq_getElem hilt
  have g2 : ds[i]? = some ds[i] := List.getElem?_eq_getElem (by omega)
  have g3 : (List.zipWith comp ds b.operands)[i]? = some (comp ds[i] b.operands[i]) := by
    rw [List.getElem?_zipWith, g1, g2]
  have hpt := part_of_get (s := sy) hi
  rw [← hpt]
  have hin' : inShape (partShape sy (getSlices b.partitionout a) i) l = true := by rw [partShape, hpt]; exact hin
  rw [hao] at h1
  have ha3 : (b.withOperands (List.zipWith comp ds b.operands)).axisout = some a := hao
  have hp3 : (b.withOperands (List.zipWith comp ds b.operands)).partitionout = b.partitionout := by
    simp only [BlockOp.withOperands, hao]
  rw [ha3, hp3] at h3
  rw [h3 i _ (blockResults_get hw3 (m x) g3) l hin', (withOperands_input b _ sx (m x) i).1, (withOperands_input b _ sx (m x) i).2,
    hd i _ g2 (m1 y) l hin']
  simp only [comp, hs i _ g1, BlockOp.outputShape, hao]
  congr 1
  funext l'
  simp only [clip, view]
  split
  · rename_i hl'
    rw [← h1 i _ (blockResults_get hw (m x) g1) l' hl']
    have : inShape (viewShape (expand sy.length ((getSlices b.partitionout a).getD i [])) sy) l' = true := hl'
    rw [if_pos this]
    rfl
  · rename_i hl'
    have : ¬ inShape (viewShape (expand sy.length ((getSlices b.partitionout a).getD i [])) sy) l' = true := hl'
    rw [if_neg this]

theorem right_pieces [Zero R] (operation : R → R → R) (b : BlockOp R) (op : Operand R) (ds : List (Operand R))
    (sx sy : Shape) (hw : WellFormed b sx sy) (a : Axis) (hai : b.axisin = some a) (hl : ds.length = b.operands.length)
    (hd : ActsByParts op ds sx (getSlices b.partitionin a)) (hr : ∀ d ∈ ds, ∀ s, d.reshapein s = s)
    (x t y w tmp : Nat) (hx : x ≠ w ∧ t ≠ y ∧ tmp ≠ x ∧ tmp ≠ t ∧ tmp ≠ y ∧ tmp ≠ w) (oks : List Bool)
    (hk : oks.length = b.operands.length) (m : Mem R) :
    ∃ m1 m3, b.direct operation sx sy t y tmp oks (m.set t (op.fn sx (m x))) = some m1 ∧
      (b.withOperands (List.zipWith comp b.operands ds)).direct operation sx sy x w tmp oks m = some m3 ∧
      ∀ k, inShape sy k = true → m3 w k = m1 y k := by
  have hzl : (List.zipWith comp b.operands ds).length = b.operands.length := by simp [hl]
  have hw3 := hw.withOperands _ hzl
  obtain ⟨m1, e1, h1, _⟩ := direct_holds b operation sx sy hw t y tmp hx.2.1 hx.2.2.2.1 hx.2.2.2.2.1 oks hk
    (m.set t (op.fn sx (m x)))
  obtain ⟨m3, e3, h3, _⟩ := direct_holds _ operation sx sy hw3 x w tmp hx.1 hx.2.2.1 hx.2.2.2.2.2 oks (by rw [hk]; exact hzl.symm) m
  refine ⟨m1, m3, e1, e3, ?_⟩
  have hres : (b.withOperands (List.zipWith comp b.operands ds)).blockResults sx (m x) =
      b.blockResults sx ((m.set t (op.fn sx (m x))) t) := by
    apply List.ext_getElem?
    intro i
    by_cases hi : i < b.operands.length
    · have g1 : b.operands[i]? = some b.operands[i] := List.getElem?_eq_getElem hi
      have g2 : ds[i]? = some ds[i] := List.getElem?_eq_getElem (by omega)
      have g3 : (List.zipWith comp b.operands ds)[i]? = some (comp b.operands[i] ds[i]) := by
        rw [List.getElem?_zipWith, g1, g2]
      rw [blockResults_get hw3 (m x) g3, blockResults_get hw _ g1, (withOperands_input b _ sx (m x) i).1,
        (withOperands_input b _ sx (m x) i).2]
      simp only [comp, hr ds[i] (List.getElem_mem _)]
      congr 2
      funext l
      simp only [BlockOp.blockInput, BlockOp.inputShape, hai, Mem.set, if_true]
      simp only [view, clip]
      by_cases hin : inShape (partShape sx (getSlices b.partitionin a) i) l = true
      · have : inShape (viewShape (expand sx.length ((getSlices b.partitionin a).getD i [])) sx) l = true := hin
        rw [if_pos hin, if_pos this]
        exact (hd i _ g2 (m x) l hin).symm
      · have : ¬ inShape (viewShape (expand sx.length ((getSlices b.partitionin a).getD i [])) sx) l = true := hin
        rw [if_neg hin, if_neg this]
    · rw [List.getElem?_eq_none, List.getElem?_eq_none]
      · rw [blockResults_length b sx sy hw]; omega
      · rw [blockResults_length _ sx sy hw3]
        show (List.zipWith comp b.operands ds).length ≤ i
        omega
  intro k hkk
  rw [hres] at h3
  refine Holds.unique (hf := ?_) h3 ?_ k hkk
  · intro c hc
    have hc' : b.axisout = some c := hc
    obtain ⟨w1, w2⟩ := hw.lenout c hc'
    simp only [BlockOp.withOperands, hc', blockResults_length b sx sy hw]
    exact ⟨w1, w2⟩
  · have hp : (b.withOperands (List.zipWith comp b.operands ds)).axisout = b.axisout := rfl
    rw [hp]
    cases hao : b.axisout with
    | none => rw [hao] at h1; exact h1
    | some c =>
      rw [hao] at h1
      simp only [BlockOp.withOperands, hao]
      exact h1

end Verif.Block
