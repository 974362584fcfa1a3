/-
Model of the simplification of the commutative composites, `CommutativeCompositeOperator._apply_rules`
(src/pyoperators/core.py:1867-1933), and of `BlockSliceOperator` (src/pyoperators/core.py:2067-2172).
-/

namespace Verif.Simplify

/-- What the loop uses: the rules of an operand for the class of the composite (`none` if the class is not in its
dictionary of rules), in the order of the list; whether an operand is a HomothetyOperator; and whether its data is zero.
Simplification: a rule that returns a tuple of operators is not modelled (the source would put the tuple among the
operands). -/
structure CTable (Op : Type) where
  rules : Op → Option (List (Op → Op → Option Op))
  isHomothety : Op → Bool
  isZero : Op → Bool

variable {Op : Type}

/-- The first rule of ops[i] that applies to ops[j]: src/pyoperators/core.py:1898-1904. -/
def applyFirst (rs : List (Op → Op → Option Op)) (oi oj : Op) : Option Op := rs.findSome? (fun r => r oi oj)

/-- The loop over j: the first j ≠ i for which a rule applies, src/pyoperators/core.py:1894-1921. -/
def scan (rs : List (Op → Op → Option Op)) (ops : List Op) (oi : Op) (i : Nat) : Nat → List Op → Option (Nat × Op)
  | _, [] => none
  | j, oj :: rest =>
    if j = i then scan rs ops oi i (j + 1) rest
    else match applyFirst rs oi oj with
      | some new => some (j, new)
      | none => scan rs ops oi i (j + 1) rest

/-- One iteration of `while i < len(ops)`: src/pyoperators/core.py:1889-1925. -/
def CTable.step (t : CTable Op) (ops : List Op) (i : Nat) (oi : Op) : List Op × Nat :=
  match t.rules oi with
  | none => (ops, i + 1)
  | some rs =>
    match scan rs ops oi i 0 ops with
    | none => (ops, i + 1)
    | some (j, new) =>
      let i' := if j < i then i - 1 else i
      ((ops.eraseIdx j).set i' new, i')

/-- The loop, with a bound on the number of iterations. -/
def CTable.loop (t : CTable Op) : Nat → List Op → Nat → Option (List Op)
  | fuel, ops, i =>
    match ops[i]? with
    | none => some ops
    | some oi =>
      match fuel with
      | 0 => none
      | fuel + 1 => let s := t.step ops i oi; t.loop fuel s.1 s.2

/-- The displacement of the first homothety to the front, and its removal if it is zero:
src/pyoperators/core.py:1927-1932. -/
def CTable.moveHomothety (t : CTable Op) (ops : List Op) : List Op :=
  match ops.findIdx? t.isHomothety with
  | none => ops
  | some k =>
    match ops[k]? with
    | none => ops
    | some h =>
      let ops := (h :: ops).eraseIdx (k + 1)
      if t.isZero h && decide (1 < ops.length) then ops.eraseIdx 0 else ops

/-- `_apply_rules`: src/pyoperators/core.py:1867-1933. -/
def CTable.applyRules (t : CTable Op) (disabled : Bool) (fuel : Nat) (ops : List Op) : Option (List Op) :=
  if disabled then some ops
  else if ops.length ≤ 1 then some ops
  else (t.loop fuel ops 0).map t.moveHomothety

/-! ### BlockSliceOperator -/

/-- A slice of an array, as the list of the positions of its elements. -/
abbrev Slice := List Nat

/-- `input[s]`. -/
def part (x : Nat → Int) (s : Slice) : List Int := s.map x

/-- `output[s] = v`. -/
def assign (out : Nat → Int) (s : Slice) (v : List Int) : Nat → Int :=
  fun k => match s.findIdx? (· == k) with
    | none => out k
    | some j => match v[j]? with
      | none => out k
      | some z => z

/-- An operand of the block slice operator: what it computes on a slice and whether it is a homothety. -/
structure SliceOp where
  apply : List Int → List Int
  isHomothety : Bool

/-- The operands after `CommutativeCompositeOperator.__init__` (src/pyoperators/core.py:1823-1829), which applies
the simplification of the commutative composites to the operands; no rule is set for the class BlockSliceOperator. -/
def sliceTable : CTable SliceOp :=
  { rules := fun _ => none, isHomothety := fun o => o.isHomothety, isZero := fun _ => false }

/-- `BlockSliceOperator.__init__`: src/pyoperators/core.py:2096-2118.  The slices are kept in their order. -/
def newBlockSlice (ops : List SliceOp) (slices : List Slice) : Option (List (Slice × SliceOp)) :=
  (sliceTable.applyRules false (ops.length + 1) ops).map (fun ops => slices.zip ops)

/-- `direct`: src/pyoperators/core.py:2136-2147.  `inplace` when the input and the output are the same array.
Simplification: the copies made by `copy_if` are transparent (see C08 and C51 for them). -/
def blockSliceDirect (inplace : Bool) (blocks : List (Slice × SliceOp)) (x : Nat → Int) : Nat → Int :=
  blocks.foldl (fun out b => assign out b.1 (b.2.apply (part (if inplace then out else x) b.1))) x

/-- The rule ('.', HomothetyOperator) of the composition: every operand is multiplied by the scalar,
src/pyoperators/core.py:2128-2134. -/
def sliceRuleHomothety (blocks : List (Slice × SliceOp)) (c : Int) : List (Slice × SliceOp) :=
  blocks.map (fun b => (b.1, { b.2 with apply := fun v => (b.2.apply v).map (c * ·) }))

end Verif.Simplify
