import Verif.Block.FuseProps

/- Property C24: refusals, sums and products of block operators, and separable operators. -/

namespace Verif.Block

open Verif.Shape

variable {R : Type}

/-- C24.  The product of two block operators is not fused if the numbers of blocks are different or if the sizes of two blocks are known and
different. -/
theorem C24_refused [Zero R] (b1 b2 : Block R) (inferOut inferIn : List (Option Nat) → List (Option Nat)) (p1 p2 : List (Option Nat))
    (h1 : b1.partitionin = some p1) (h2 : b2.partitionout = some p2)
    (hne : p1.length ≠ p2.length ∨ ∃ (i v w : Nat), p1[i]? = some (some v) ∧ p2[i]? = some (some w) ∧ v ≠ w) :
    fuseComposition b1 b2 inferOut inferIn = some none := by
  have hm : mergeNone p1 p2 = none := by
    rw [C21_failure]
    exact hne
  unfold fuseComposition validateComposition
  rw [h1, h2]
  cases b1.axisin <;> cases b2.axisout <;> simp only [hm, ite_self]

/-- C24.  The product of two block operators whose partitions are known is fused if the input blocks of the first one are the output blocks
of the second one, along the same axis or along the same new axis. -/
theorem C24_fused [Zero R] (b1 b2 : BlockOp R) (a : Axis) (r r1 r2 : Option Nat) (h1 : b1.axisin = some a) (h2 : b2.axisout = some a)
    (hp : b1.partitionin = b2.partitionout) (inferOut inferIn : List (Option Nat) → List (Option Nat))
    (ho : inferOut (b1.partitionin.map some) = b1.partitionout.map some) (hi : inferIn (b2.partitionout.map some) = b2.partitionin.map some) :
    ∃ f, fuseComposition (b1.attrs r r1) (b2.attrs r2 r) inferOut inferIn = some (some f) := by
  have hk : sameKind a a = true := by cases a <;> rfl
  have hm : mergeInferred (b1.axisout.map fun _ => b1.partitionout.map some) (inferOut (b2.partitionout.map some)) =
      some (b1.axisout.map fun _ => b1.partitionout.map some) := by
    rw [← hp, ho]
    cases b1.axisout with
    | none => rfl
    | some _ => simp [mergeInferred, C21_idempotent]
  have hm' : mergeInferred (b2.axisin.map fun _ => b2.partitionin.map some) (inferIn (b2.partitionout.map some)) =
      some (b2.axisin.map fun _ => b2.partitionin.map some) := by
    rw [hi]
    cases b2.axisin with
    | none => rfl
    | some _ => simp [mergeInferred, C21_idempotent]
  have hv : validateComposition (b1.attrs r r1) (b2.attrs r2 r) inferOut inferIn =
      .accepted (b1.axisout.map fun _ => b1.partitionout.map some) (b2.axisin.map fun _ => b2.partitionin.map some) := by
    rw [validateComposition.eq_def]
    simp only [BlockOp.attrs, h1, h2, Option.map_some, hp, C21_idempotent, hk, hm, hm', ne_eq, not_true_eq_false, if_false, Bool.not_true]
    simp
  unfold fuseComposition
  rw [hv]
  simp only
  split
  · exact ⟨_, rfl⟩
  · exact ⟨_, rfl⟩

example : ∃ f, fuseComposition (BlockOp.attrs (R := Int) ⟨[⟨fun _ x => x, fun s => s, false, false, false⟩, ⟨fun _ x => x, fun s => s, false, false, false⟩], [1, 1], [], some (.newAxis 0), none⟩ none none)
    (BlockOp.attrs ⟨[⟨fun _ x => x, fun s => s, false, false, false⟩, ⟨fun _ x => x, fun s => s, false, false, false⟩], [], [1, 1], none, some (.newAxis 0)⟩ none none) (fun _ => []) (fun _ => []) = some (some f) :=
  C24_fused _ _ (.newAxis 0) none none none rfl rfl rfl _ _ rfl rfl

/-- C24.  The sums and the elementwise products of block operators with the same blocks are fused. -/
theorem C24_fused_commutative (f : R → R → R) (b1 b2 : BlockOp R) (r1 r1o r2 r2o : Option Nat) (hi : b1.axisin = b2.axisin) (ho : b1.axisout = b2.axisout)
    (hpi : b1.partitionin = b2.partitionin) (hpo : b1.partitionout = b2.partitionout) :
    ∃ b, fuseCommutative f (b1.attrs r1 r1o) (b2.attrs r2 r2o) = some b ∧ b.operands = List.zipWith (pointwise f) b1.operands b2.operands := by
  have hk : ∀ a : Option Axis, sameAxis a a = true := by
    intro a
    cases a with
    | none => rfl
    | some a => cases a <;> simp [sameAxis, sameKind]
  have hm : ∀ (a : Option Axis) (p : List Nat), mergePartitions (a.map fun _ => p.map some) (a.map fun _ => p.map some) = some (a.map fun _ => p.map some) := by
    intro a p
    cases a with
    | none => rfl
    | some a => simp [mergePartitions, C21_idempotent]
  unfold fuseCommutative validateCommutative
  simp only [BlockOp.attrs, hi, ho, hpi, hpo, hk, hm, Bool.not_true, Bool.or_self]
  exact ⟨_, rfl, rfl⟩

/-- C24.  The sums (or the elementwise products) of block operators are not fused either in these cases. -/
theorem C24_refused_commutative (f : R → R → R) (b1 b2 : Block R) (p1 p2 : List (Option Nat))
    (h : b1.partitionin = some p1 ∧ b2.partitionin = some p2 ∨ b1.partitionout = some p1 ∧ b2.partitionout = some p2)
    (hne : p1.length ≠ p2.length ∨ ∃ (i v w : Nat), p1[i]? = some (some v) ∧ p2[i]? = some (some w) ∧ v ≠ w) :
    fuseCommutative f b1 b2 = none := by
  have hm : mergeNone p1 p2 = none := by
    rw [C21_failure]
    exact hne
  have hv : validateCommutative b1 b2 = none := by
    unfold validateCommutative
    split
    · rfl
    · rcases h with ⟨e1, e2⟩ | ⟨e1, e2⟩
      · rw [e1, e2]
        have : mergePartitions (some p1) (some p2) = none := by simp only [mergePartitions, hm, Option.map_none]
        rw [this]
        cases mergePartitions b1.partitionout b2.partitionout <;> rfl
      · rw [e1, e2]
        simp only [mergePartitions, hm, Option.map_none]
  unfold fuseCommutative
  rw [hv]

theorem sameAxis_eq {a b : Option Axis} (h : sameAxis a b = true) : a = b := by
  cases a with
  | none => cases b <;> simp [sameAxis] at h ⊢
  | some a =>
    cases b with
    | none => simp [sameAxis] at h
    | some b =>
      simp only [sameAxis, Bool.and_eq_true, beq_iff_eq] at h
      cases a <;> cases b <;> simp_all [sameKind, Axis.pos]

theorem mergePartitions_known (a : Option Axis) (p q : List Nat) (r : Partition)
    (h : mergePartitions (a.map (fun _ => p.map some)) (a.map (fun _ => q.map some)) = some r) :
    r = a.map (fun _ => p.map some) ∧ (a ≠ none → p = q) := by
  cases a with
  | none => simp only [Option.map_none, mergePartitions, Option.some.injEq] at h; exact ⟨h.symm, by simp⟩
  | some a =>
    simp only [Option.map_some, mergePartitions, Option.map_eq_some_iff] at h
    obtain ⟨c, hc, rfl⟩ := h
    obtain ⟨e1, e2⟩ := merge_known _ _ _ hc
    exact ⟨by rw [e2]; rfl, fun _ => e1⟩

/-- A block operator with other operands. -/
def BlockOp.withOperands (b : BlockOp R) (ops : List (Operand R)) : BlockOp R :=
  { operands := ops
    partitionin := match b.axisin with | some _ => b.partitionin | none => []
    partitionout := match b.axisout with | some _ => b.partitionout | none => []
    axisin := b.axisin
    axisout := b.axisout }

theorem entries_known (a : Option Axis) (p : List Nat) :
    entries (a.map (fun _ => p.map some)) = some (match a with | some _ => p | none => []) := by
  cases a with
  | none => rfl
  | some a => exact mapOpt_some _

theorem WellFormed.withOperands {b : BlockOp R} {sx sy : Shape} (hw : WellFormed b sx sy) (ops : List (Operand R))
    (hl : ops.length = b.operands.length) : WellFormed (b.withOperands ops) sx sy := by
  constructor
  · intro h
    apply hw.blocks
    rw [← List.length_eq_zero_iff, ← hl]
    simpa [BlockOp.withOperands] using congrArg List.length h
  · exact hw.axes
  · intro a ha
    obtain ⟨w1, w2⟩ := hw.lenin a ha
    have ha' : b.axisin = some a := ha
    simp only [BlockOp.withOperands, ha']
    exact ⟨by rw [w1, hl], w2⟩
  · intro a ha
    obtain ⟨w1, w2⟩ := hw.lenout a ha
    have ha' : b.axisout = some a := ha
    simp only [BlockOp.withOperands, ha']
    exact ⟨by rw [w1, hl], w2⟩

theorem withOperands_input [Zero R] (b : BlockOp R) (ops : List (Operand R)) (sx : Shape) (x : Arr R) (i : Nat) :
    (b.withOperands ops).inputShape sx i = b.inputShape sx i ∧ (b.withOperands ops).blockInput sx x i = b.blockInput sx x i := by
  unfold BlockOp.inputShape BlockOp.blockInput BlockOp.withOperands
  cases h : b.axisin with
  | none => exact ⟨rfl, rfl⟩
  | some a => exact ⟨rfl, rfl⟩

theorem fuseCommutative_known (f : R → R → R) (b1 b2 : BlockOp R) (sx sy : Shape) (hw1 : WellFormed b1 sx sy)
    (hw2 : WellFormed b2 sx sy) (ri1 ro1 ri2 ro2 : Option Nat) (b : Block R)
    (hf : fuseCommutative f (b1.attrs ri1 ro1) (b2.attrs ri2 ro2) = some b) :
    b.resolve = some (b1.withOperands (List.zipWith (pointwise f) b1.operands b2.operands)) ∧
      b1.operands.length = b2.operands.length ∧ b1.axisin = b2.axisin ∧ b1.axisout = b2.axisout ∧
      (b1.axisin ≠ none → b1.partitionin = b2.partitionin) ∧ (b1.axisout ≠ none → b1.partitionout = b2.partitionout) := by
  unfold fuseCommutative validateCommutative at hf
  simp only [BlockOp.attrs] at hf
  cases hs : (!sameAxis b1.axisin b2.axisin || !sameAxis b1.axisout b2.axisout) with
  | true => simp [hs] at hf
  | false =>
    simp only [hs, Bool.false_eq_true, if_false] at hf
    simp only [Bool.or_eq_false_iff, Bool.not_eq_false'] at hs
    have hi := sameAxis_eq hs.1
    have ho := sameAxis_eq hs.2
    rw [← hi, ← ho] at hf
    cases hpo : mergePartitions (Option.map (fun _ => b1.partitionout.map some) b1.axisout)
        (Option.map (fun _ => b2.partitionout.map some) b1.axisout) with
    | none => simp [hpo] at hf
    | some po =>
      cases hpi : mergePartitions (Option.map (fun _ => b1.partitionin.map some) b1.axisin)
          (Option.map (fun _ => b2.partitionin.map some) b1.axisin) with
      | none => simp [hpo, hpi] at hf
      | some pi =>
        simp only [hpo, hpi] at hf
        cases hf
        obtain ⟨e1, e2⟩ := mergePartitions_known _ _ _ _ hpo
        obtain ⟨e3, e4⟩ := mergePartitions_known _ _ _ _ hpi
        refine ⟨?_, ?_, hi, ho, e4, e2⟩
        · simp only [Block.resolve, e1, e3, entries_known]
          rfl
        · rcases hw1.axes with h | h
          · obtain ⟨a, ha⟩ := Option.ne_none_iff_exists'.mp h
            rw [← (hw1.lenin a ha).1, ← (hw2.lenin a (hi ▸ ha)).1, e4 h]
          · obtain ⟨a, ha⟩ := Option.ne_none_iff_exists'.mp h
            rw [← (hw1.lenout a ha).1, ← (hw2.lenout a (ho ▸ ha)).1, e2 h]

/-- C24.  When the sum or the elementwise product of two block diagonal or of two block column operators is fused, the output of the result
is the sum or the elementwise product of their outputs. -/
theorem C24_pointwise [Zero R] (f operation : R → R → R) (b1 b2 : BlockOp R) (sx sy : Shape) (hw1 : WellFormed b1 sx sy)
    (hw2 : WellFormed b2 sx sy) (ri1 ro1 ri2 ro2 : Option Nat) (b : Block R)
    (hf : fuseCommutative f (b1.attrs ri1 ro1) (b2.attrs ri2 ro2) = some b) (hout : b1.axisout ≠ none)
    (x y z w tmp : Nat) (hx : x ≠ y ∧ x ≠ z ∧ x ≠ w ∧ tmp ≠ x ∧ tmp ≠ y ∧ tmp ≠ z ∧ tmp ≠ w) (oks : List Bool)
    (hk : oks.length = b1.operands.length) (m : Mem R) :
    ∃ b' m1 m2 m3, b.resolve = some b' ∧ b1.direct operation sx sy x y tmp oks m = some m1 ∧
      b2.direct operation sx sy x z tmp oks m = some m2 ∧ b'.direct operation sx sy x w tmp oks m = some m3 ∧
      ∀ k, inShape sy k = true → m3 w k = f (m1 y k) (m2 z k) := by
  obtain ⟨hr, hl, hai, hao, hpi, hpo⟩ := fuseCommutative_known f b1 b2 sx sy hw1 hw2 ri1 ro1 ri2 ro2 b hf
  have hzl : (List.zipWith (pointwise f) b1.operands b2.operands).length = b1.operands.length := by
    rw [List.length_zipWith]; omega
  have hw3 := hw1.withOperands _ hzl
  obtain ⟨m1, e1, h1, _⟩ := direct_holds b1 operation sx sy hw1 x y tmp hx.1 hx.2.2.2.1 hx.2.2.2.2.1 oks hk m
  obtain ⟨m2, e2, h2, _⟩ := direct_holds b2 operation sx sy hw2 x z tmp hx.2.1 hx.2.2.2.1 hx.2.2.2.2.2.1 oks (by omega) m
  obtain ⟨m3, e3, h3, _⟩ := direct_holds _ operation sx sy hw3 x w tmp hx.2.2.1 hx.2.2.2.1 hx.2.2.2.2.2.2 oks
    (by rw [hk]; exact hzl.symm) m
  refine ⟨_, m1, m2, m3, hr, e1, e2, e3, ?_⟩
  intro k hkk
  obtain ⟨a, ha⟩ := Option.ne_none_iff_exists'.mp hout
  obtain ⟨w1, w2⟩ := hw1.lenout a ha
  obtain ⟨i, idx, l, hi, hin, rfl⟩ := (C22_tiles _ _ _ w2).cover k hkk
  have hlen := (C22_parts _ _ _ w2).1
  have hilt : i < b1.operands.length := by have := (List.getElem?_eq_some_iff.mp hi).1; omega
  have g1 : b1.operands[i]? = some b1.operands[i] := List.getElem?_eq_getElem hilt
  have g2 : b2.operands[i]? = some b2.operands[i] := List.getElem?_eq_getElem (by omega)
  have g3 : (List.zipWith (pointwise f) b1.operands b2.operands)[i]? = some (pointwise f b1.operands[i] b2.operands[i]) := by
    rw [List.getElem?_zipWith, g1, g2]
  have hp := part_of_get (s := sy) hi
  rw [← hp]
  have hin' : inShape (partShape sy (getSlices b1.partitionout a) i) l = true := by rw [partShape, hp]; exact hin
  rw [ha] at h1
  rw [← hao, ha, ← hpo hout] at h2
  have ha3 : (b1.withOperands (List.zipWith (pointwise f) b1.operands b2.operands)).axisout = some a := ha
  have hp3 : (b1.withOperands (List.zipWith (pointwise f) b1.operands b2.operands)).partitionout = b1.partitionout := by
    simp only [BlockOp.withOperands, ha]
  rw [ha3, hp3] at h3
  rw [h1 i _ (blockResults_get hw1 (m x) g1) l hin', h2 i _ (blockResults_get hw2 (m x) g2) l hin',
    h3 i _ (blockResults_get hw3 (m x) g3) l hin', (withOperands_input b1 _ sx (m x) i).1, (withOperands_input b1 _ sx (m x) i).2]
  have hb : b2.inputShape sx i = b1.inputShape sx i ∧ b2.blockInput sx (m x) i = b1.blockInput sx (m x) i := by
    unfold BlockOp.inputShape BlockOp.blockInput
    rw [← hai]
    cases h : b1.axisin with
    | none => exact ⟨rfl, rfl⟩
    | some c => rw [hpi (by simp [h])]; exact ⟨rfl, rfl⟩
  rw [hb.1, hb.2]
  rfl

theorem foldl_sum [AddCommMonoid R] (r : Arr R) (rs : List (Arr R)) (k : MIndex) :
    rs.foldl (fun a r => a + r k) (r k) = ((r :: rs).map (fun r => r k)).sum := by
  rw [foldl_add]; simp

/-- C24.  The same for the sum of two block row operators, whose operation is the addition. -/
theorem C24_row_add [AddCommMonoid R] (b1 b2 : BlockOp R) (sx sy : Shape) (hw1 : WellFormed b1 sx sy)
    (hw2 : WellFormed b2 sx sy) (ri1 ro1 ri2 ro2 : Option Nat) (b : Block R)
    (hf : fuseCommutative (· + ·) (b1.attrs ri1 ro1) (b2.attrs ri2 ro2) = some b) (hout : b1.axisout = none)
    (x y z w tmp : Nat) (hx : x ≠ y ∧ x ≠ z ∧ x ≠ w ∧ tmp ≠ x ∧ tmp ≠ y ∧ tmp ≠ z ∧ tmp ≠ w) (oks : List Bool)
    (hk : oks.length = b1.operands.length) (m : Mem R) :
    ∃ b' m1 m2 m3, b.resolve = some b' ∧ b1.direct (· + ·) sx sy x y tmp oks m = some m1 ∧
      b2.direct (· + ·) sx sy x z tmp oks m = some m2 ∧ b'.direct (· + ·) sx sy x w tmp oks m = some m3 ∧
      ∀ k, inShape sy k = true → m3 w k = m1 y k + m2 z k := by
  obtain ⟨hr, hl, hai, hao, hpi, hpo⟩ := fuseCommutative_known (· + ·) b1 b2 sx sy hw1 hw2 ri1 ro1 ri2 ro2 b hf
  have hzl : (List.zipWith (pointwise (· + ·)) b1.operands b2.operands).length = b1.operands.length := by
    rw [List.length_zipWith]; omega
  have hw3 := hw1.withOperands _ hzl
  obtain ⟨m1, e1, h1, _⟩ := direct_holds b1 (· + ·) sx sy hw1 x y tmp hx.1 hx.2.2.2.1 hx.2.2.2.2.1 oks hk m
  obtain ⟨m2, e2, h2, _⟩ := direct_holds b2 (· + ·) sx sy hw2 x z tmp hx.2.1 hx.2.2.2.1 hx.2.2.2.2.2.1 oks (by omega) m
  obtain ⟨m3, e3, h3, _⟩ := direct_holds _ (· + ·) sx sy hw3 x w tmp hx.2.2.1 hx.2.2.2.1 hx.2.2.2.2.2.2 oks
    (by rw [hk]; exact hzl.symm) m
  refine ⟨_, m1, m2, m3, hr, e1, e2, e3, ?_⟩
  intro k hkk
  rw [hout] at h1
  rw [← hao, hout] at h2
  have ha3 : (b1.withOperands (List.zipWith (pointwise (· + ·)) b1.operands b2.operands)).axisout = none := hout
  rw [ha3] at h3
  obtain ⟨r1, rs1, q1, q1'⟩ := h1
  obtain ⟨r2, rs2, q2, q2'⟩ := h2
  obtain ⟨r3, rs3, q3, q3'⟩ := h3
  rw [q1' k hkk, q2' k hkk, q3' k hkk, foldl_sum, foldl_sum, foldl_sum, ← q1, ← q2, ← q3]
  have hb : ∀ i, b2.inputShape sx i = b1.inputShape sx i ∧ b2.blockInput sx (m x) i = b1.blockInput sx (m x) i := by
    intro i
    unfold BlockOp.inputShape BlockOp.blockInput
    rw [← hai]
    cases h : b1.axisin with
    | none => exact ⟨rfl, rfl⟩
    | some c => rw [hpi (by simp [h])]; exact ⟨rfl, rfl⟩
  have l1 := blockResults_length b1 sx sy hw1 (m x)
  have l2 := blockResults_length b2 sx sy hw2 (m x)
  have l3 := blockResults_length _ sx sy hw3 (m x)
  rw [sum_range_get _ k l1.symm, sum_range_get _ k l2.symm, sum_range_get _ k l3.symm]
  have hzl' : (b1.withOperands (List.zipWith (pointwise (· + ·)) b1.operands b2.operands)).operands.length =
    b1.operands.length := hzl
  rw [hzl', ← hl, ← Finset.sum_add_distrib]
  apply Finset.sum_congr rfl
  intro i hi
  rw [Finset.mem_range] at hi
  have g1 : b1.operands[i]? = some b1.operands[i] := List.getElem?_eq_getElem hi
  have g2 : b2.operands[i]? = some b2.operands[i] := List.getElem?_eq_getElem (by omega)
  have g3 : (List.zipWith (pointwise (· + ·)) b1.operands b2.operands)[i]? =
      some (pointwise (· + ·) b1.operands[i] b2.operands[i]) := by
    rw [List.getElem?_zipWith, g1, g2]
  rw [blockResults_get hw1 (m x) g1, blockResults_get hw2 (m x) g2, blockResults_get hw3 (m x) g3,
    (withOperands_input b1 _ sx (m x) i).1, (withOperands_input b1 _ sx (m x) i).2, (hb i).1, (hb i).2]
  rfl

end Verif.Block
