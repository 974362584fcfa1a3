import Verif.Block.Matrix
import Verif.Shape.Props

/-
Model of the fusions of block operators: src/pyoperators/core.py:3398-3422 (`_validate_partition_commutative`), 3425-3475
(`_validate_partition_composition`), 3554-3570 (`_rule_blocksameoperator_commutative`), 3582-3606
(`_rule_blockoperator_noncommutative`) and 3477-3489 (`_rule_operator_commutative`), and property C24.
-/

namespace Verif.Block

open Verif.Shape

variable {R : Type}

/-- A partition whose entries can be unknown, or None. -/
abbrev Partition := Option (List (Option Nat))

/-- The attributes of a block operator that are used by the fusions.  `rankin` and `rankout` are the numbers of dimensions of the
attributes shapein and shapeout, if they are known. -/
structure Block (R : Type) where
  operands : List (Operand R)
  partitionin : Partition
  partitionout : Partition
  axisin : Option Axis
  axisout : Option Axis
  rankin : Option Nat
  rankout : Option Nat

/-- `if axis < 0 and shape is not None: axis += len(shape)`: src/pyoperators/core.py:3430-3433. -/
def normalised (a : Int) : Option Nat → Int
  | some n => if a < 0 then a + n else a
  | none => a

/-- The keywords axis and new_axis are not mixed: src/pyoperators/core.py:3405-3416 and 3436-3443. -/
def sameKind : Axis → Axis → Bool
  | .axis _, .axis _ => true
  | .newAxis _, .newAxis _ => true
  | _, _ => false

/-- `None if p is None else merge_none(q, infer(p))`, where q is None only if the inferred partition is: the outer `none` is
the ValueError.  src/pyoperators/core.py:3448-3475. -/
def mergeInferred (q : Partition) (inferred : List (Option Nat)) : Option Partition :=
  match q with
  | none => some none
  | some q => (mergeNone q inferred).map some

/-- The outcome of a validation. -/
inductive Validation where
  | refused
  | error
  | accepted (partitionout partitionin : Partition)
deriving DecidableEq, Repr

/-- `_validate_partition_composition`: src/pyoperators/core.py:3425-3475.  The inference of the partitions of the operands of op1 and
op2 from the merged partition are the parameters inferOut and inferIn (they are modelled for property C63). -/
def validateComposition (op1 op2 : Block R) (inferOut inferIn : List (Option Nat) → List (Option Nat)) : Validation :=
  match op1.axisin, op2.axisout, op1.partitionin, op2.partitionout with
  | some a1, some a2, some p1, some p2 =>
    if normalised a1.pos op2.rankout ≠ normalised a2.pos op1.rankin then .refused
    else if !sameKind a1 a2 then .refused
    else
      match mergeNone p1 p2 with
      | none => .refused
      | some p =>
        match mergeInferred op1.partitionout (inferOut p), mergeInferred op2.partitionin (inferIn p) with
        | some pout, some pin => .accepted pout pin
        | _, _ => .error
  | _, _, _, _ => .refused

/-- The composition of two operands: the input of the first one is the output of the second one. -/
def comp [Zero R] (o1 o2 : Operand R) : Operand R :=
  { fn := fun s x => o1.fn (o2.reshapein s) (clip (o2.reshapein s) (o2.fn s x))
    reshapein := fun s => o1.reshapein (o2.reshapein s) }

/-- The elementwise sum or product of two operands. -/
def pointwise (f : R → R → R) (o1 o2 : Operand R) : Operand R :=
  { fn := fun s x k => f (o1.fn s x k) (o2.fn s x k)
    reshapein := o1.reshapein }

/-- The result of a fusion: a block operator or an AdditionOperator. -/
inductive Fused (R : Type) where
  | block (b : Block R)
  | sum (ops : List (Operand R))

/-- `_rule_blockoperator_noncommutative` for compositions: src/pyoperators/core.py:3582-3606.  The outer `none` is an exception, the
inner one is the absence of fusion.  The constructor of the result is not modelled: it merges the partitions with the ones that are inferred
from the operands, and infers the output partition of a block diagonal operator from its input partition.  The operation of a block
row is the default one. -/
def fuseComposition [Zero R] (op1 op2 : Block R) (inferOut inferIn : List (Option Nat) → List (Option Nat)) :
    Option (Option (Fused R)) :=
  match validateComposition op1 op2 inferOut inferIn with
  | .refused => some none
  | .error => none
  | .accepted partitionout partitionin =>
    let operands := List.zipWith comp op1.operands op2.operands
    if partitionin = none ∧ partitionout = none then some (some (.sum operands))
    else some (some (.block
      { operands := operands, partitionin := partitionin, partitionout := partitionout, axisin := op2.axisin,
        axisout := op1.axisout, rankin := op2.rankin, rankout := op1.rankout }))

/-- `merge_none` on two partitions, which are both None or both known for block operators of the same type. -/
def mergePartitions : Partition → Partition → Option Partition
  | none, none => some none
  | some p, some q => (mergeNone p q).map some
  | _, _ => none

/-- The positions of the axes are the same and the keywords are not mixed: src/pyoperators/core.py:3399-3418. -/
def sameAxis : Option Axis → Option Axis → Bool
  | none, none => true
  | some a, some b => a.pos == b.pos && sameKind a b
  | _, _ => false

/-- `_validate_partition_commutative`: src/pyoperators/core.py:3398-3422. -/
def validateCommutative (op1 op2 : Block R) : Option (Partition × Partition) :=
  if !sameAxis op1.axisin op2.axisin || !sameAxis op1.axisout op2.axisout then none
  else
    match mergePartitions op1.partitionout op2.partitionout, mergePartitions op1.partitionin op2.partitionin with
    | some pout, some pin => some (pout, pin)
    | _, _ => none

/-- `_rule_blocksameoperator_commutative`: src/pyoperators/core.py:3554-3570, for two block operators of the same type.  `f` is the
addition or the multiplication. -/
def fuseCommutative (f : R → R → R) (op1 op2 : Block R) : Option (Block R) :=
  match validateCommutative op1 op2 with
  | none => none
  | some (partitionout, partitionin) =>
    some { operands := List.zipWith (pointwise f) op1.operands op2.operands, partitionin := partitionin,
           partitionout := partitionout, axisin := op1.axisin, axisout := op1.axisout, rankin := op1.rankin,
           rankout := op1.rankout }

/-- `_rule_operator_commutative`: src/pyoperators/core.py:3477-3489, for a separable operator. -/
def fuseSeparable (f : R → R → R) (b : Block R) (op : Operand R) : Block R :=
  { b with operands := b.operands.map (fun o => pointwise f o op) }

/-- `_rule_operator_lcomp`: src/pyoperators/core.py:3501-3527, for a separable operator that preserves the shapes (so that it
preserves the partition) and a block operator that has an output partition. -/
def fuseLeft [Zero R] (op : Operand R) (b : Block R) : Option (Block R) :=
  match b.partitionout with
  | none => none
  | some _ => some { b with operands := b.operands.map (fun o => comp op o) }

/-- `_rule_operator_rcomp`: src/pyoperators/core.py:3530-3552, for a separable operator that preserves the shapes and a block
operator that has an input partition. -/
def fuseRight [Zero R] (b : Block R) (op : Operand R) : Option (Block R) :=
  match b.partitionin with
  | none => none
  | some _ => some { b with operands := b.operands.map (fun o => comp o op) }

/-- The known entries of a partition. -/
def entries : Partition → Option (List Nat)
  | none => some []
  | some p => mapOpt id p

/-- The block operator, if its partitions are known. -/
def Block.resolve (b : Block R) : Option (BlockOp R) :=
  match entries b.partitionin, entries b.partitionout with
  | some p, some q => some { operands := b.operands, partitionin := p, partitionout := q, axisin := b.axisin, axisout := b.axisout }
  | _, _ => none

/-- The attributes of a block operator whose partitions are known. -/
def BlockOp.attrs (b : BlockOp R) (rankin rankout : Option Nat) : Block R :=
  { operands := b.operands, partitionin := b.axisin.map (fun _ => b.partitionin.map some),
    partitionout := b.axisout.map (fun _ => b.partitionout.map some), axisin := b.axisin, axisout := b.axisout,
    rankin := rankin, rankout := rankout }

/-! ### Partitions -/

theorem mapOpt_some (p : List Nat) : mapOpt id (p.map some) = some p := by
  induction p with
  | nil => rfl
  | cons a p ih => simp [mapOpt, ih]

theorem merge_known (p q : List Nat) (r : List (Option Nat)) (h : mergeNone (p.map some) (q.map some) = some r) :
    p = q ∧ r = p.map some := by
  obtain ⟨h1, h2, h3, h4⟩ := mergeNone_some.mp h
  have hl : p.length = q.length := by simpa using h1
  have he : p = q := by
    apply List.ext_getElem hl
    intro i hi hj
    exact h3 i p[i] q[i] (by simp [List.getElem?_eq_getElem hi]) (by simp [List.getElem?_eq_getElem hj])
  refine ⟨he, ?_⟩
  subst he
  apply List.ext_getElem?
  intro i
  by_cases hi : i < p.length
  · have : (p.map some)[i]? = some (some p[i]) := by simp [List.getElem?_eq_getElem hi]
    rw [this, (h4 i p[i]).mpr (Or.inl this)]
  · rw [List.getElem?_eq_none (by simpa [h2] using hi), List.getElem?_eq_none (by simpa using hi)]

theorem merge_known_left (p : List Nat) (q r : List (Option Nat)) (h : mergeNone (p.map some) q = some r) : r = p.map some := by
  obtain ⟨h1, h2, h3, h4⟩ := mergeNone_some.mp h
  apply List.ext_getElem?
  intro i
  by_cases hi : i < p.length
  · have : (p.map some)[i]? = some (some p[i]) := by simp [List.getElem?_eq_getElem hi]
    rw [this, (h4 i p[i]).mpr (Or.inl this)]
  · rw [List.getElem?_eq_none (by simpa [h2] using hi), List.getElem?_eq_none (by simpa using hi)]

/-! ### Effect of a block operator -/

/-- The results of the blocks for the input x. -/
def BlockOp.blockResults [Zero R] (b : BlockOp R) (sx : Shape) (x : Arr R) : List (Arr R) :=
  match b.axisin with
  | some ai => results sx x b.operands (getSlices b.partitionin ai)
  | none => b.operands.map (fun op => op.fn sx x)

/-- The value of an array after the results of the blocks have been written or accumulated: they are written in their parts of the
output if there is an output axis, otherwise they are accumulated. -/
def Holds [Zero R] (operation : R → R → R) (ax : Option Axis) (partition : List Nat) (sy : Shape) (rs : List (Arr R)) (z : Arr R) :
    Prop :=
  match ax with
  | some ao => ∀ (i : Nat) (r : Arr R), rs[i]? = some r → ∀ l, inShape (partShape sy (getSlices partition ao) i) l = true →
      z (place (part sy (getSlices partition ao) i) l) = r l
  | none => ∃ r rs', rs = r :: rs' ∧ ∀ k, inShape sy k = true → z k = rs'.foldl (fun a r => operation a (r k)) (r k)

theorem part_of_get {s : Shape} {idxs : List (List Index)} {i : Nat} {idx : List Index} (h : idxs[i]? = some idx) :
    part s idxs i = expand s.length idx := by
  simp [part, List.getD_eq_getElem?_getD, h]

theorem blockResults_length [Zero R] (b : BlockOp R) (sx sy : Shape) (hw : WellFormed b sx sy) (x : Arr R) :
    (b.blockResults sx x).length = b.operands.length := by
  unfold BlockOp.blockResults
  cases h : b.axisin with
  | none => simp
  | some ai =>
    obtain ⟨h1, h2⟩ := hw.lenin ai h
    have := (C22_parts _ _ _ h2).1
    simp only [results, List.length_zipWith]
    omega

theorem direct_holds [Zero R] (b : BlockOp R) (operation : R → R → R) (sx sy : Shape) (hw : WellFormed b sx sy) (x y tmp : Nat)
    (hxy : x ≠ y) (htx : tmp ≠ x) (hty : tmp ≠ y) (oks : List Bool) (ho : oks.length = b.operands.length) (m : Mem R) :
    ∃ m', b.direct operation sx sy x y tmp oks m = some m' ∧
      Holds operation b.axisout b.partitionout sy (b.blockResults sx (m x)) (m' y) ∧
      ∀ k, inShape sx k = true → m' x k = m x k := by
  cases hai : b.axisin with
  | none =>
    cases hao : b.axisout with
    | none => have := hw.axes; simp [hai, hao] at this
    | some ao =>
      obtain ⟨hl, hf⟩ := hw.lenout ao hao
      have ht := C22_tiles _ _ _ hf
      have hlen := (C22_parts _ _ _ hf).1
      simp only [BlockOp.direct, hai, hao, BlockOp.blockResults, Holds]
      obtain ⟨e1, e2⟩ := colLoop_value sx sy x y hxy b.operands (getSlices b.partitionout ao) m
      refine ⟨_, rfl, ?_, fun k _ => by rw [e2]⟩
      intro i r hr l hin
      have hilt := (List.getElem?_eq_some_iff.mp hr).1
      rw [List.length_map] at hilt
      have hi := getD_getSlices hf (i := i) (by omega)
      rw [e1]
      exact scatter_get sy _ _ _ ht i _ r hi hr l hin
  | some ai =>
    obtain ⟨hli, hfi⟩ := hw.lenin ai hai
    have hti := C22_tiles _ _ _ hfi
    have hleni := (C22_parts _ _ _ hfi).1
    cases hao : b.axisout with
    | none =>
      simp only [BlockOp.direct, hai, hao, BlockOp.blockResults, Holds]
      obtain ⟨m', r, rs, e0, e1, e2, e3⟩ := rowDirect_value operation sx x y tmp hxy htx hty b.operands
        (getSlices b.partitionin ai) oks hw.blocks (by omega) (by omega) hti.each m
      exact ⟨m', e1, ⟨r, rs, e0, fun k _ => e2 k⟩, e3⟩
    | some ao =>
      obtain ⟨hlo, hfo⟩ := hw.lenout ao hao
      have hto := C22_tiles _ _ _ hfo
      have hleno := (C22_parts _ _ _ hfo).1
      simp only [BlockOp.direct, hai, hao, BlockOp.blockResults, Holds]
      obtain ⟨e1, e2⟩ := diagLoop_value sx sy x y hxy b.operands (getSlices b.partitionin ai) (getSlices b.partitionout ao) oks
        (by omega) (by omega) (by omega) hti.each (m x) m (fun _ _ => rfl)
      refine ⟨_, rfl, ?_, e2⟩
      intro i r hr l hin
      have hilt := (List.getElem?_eq_some_iff.mp hr).1
      simp only [results, List.length_zipWith] at hilt
      have hi := getD_getSlices hfo (i := i) (by omega)
      rw [e1]
      exact scatter_get sy _ _ _ hto i _ r hi hr l hin

theorem Holds.unique [Zero R] {operation : R → R → R} {ax : Option Axis} {partition : List Nat} {sy : Shape} {rs : List (Arr R)}
    {z z' : Arr R} (hf : ∀ a, ax = some a → partition.length = rs.length ∧ Fits partition a sy)
    (h : Holds operation ax partition sy rs z) (h' : Holds operation ax partition sy rs z') (k : MIndex)
    (hk : inShape sy k = true) : z k = z' k := by
  cases ax with
  | none =>
    obtain ⟨r, rs1, e1, e2⟩ := h
    obtain ⟨r', rs2, e3, e4⟩ := h'
    rw [e1] at e3; cases e3
    rw [e2 k hk, e4 k hk]
  | some a =>
    obtain ⟨hl, hfit⟩ := hf a rfl
    obtain ⟨i, idx, l, hi, hin, rfl⟩ := (C22_tiles _ _ _ hfit).cover k hk
    have hlen := (C22_parts _ _ _ hfit).1
    have hilt : i < rs.length := by have := (List.getElem?_eq_some_iff.mp hi).1; omega
    have hp := part_of_get (s := sy) hi
    rw [← hp]
    have hin' : inShape (partShape sy (getSlices partition a) i) l = true := by rw [partShape, hp]; exact hin
    rw [h i _ (List.getElem?_eq_getElem hilt) l hin', h' i _ (List.getElem?_eq_getElem hilt) l hin']

end Verif.Block
