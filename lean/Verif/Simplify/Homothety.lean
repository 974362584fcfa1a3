/-
Model of the gathering of the scalars in a composition, `CompositionOperator._apply_rule_homothety` and
`_apply_rule_homothety_linear` (src/pyoperators/core.py:2435-2490).
-/

namespace Verif.Simplify

/-- What the functions use of the operands.  `K` is the type of the scalars. -/
structure HTable (Op K : Type) where
  /-- `op.flags.linear` -/
  linear : Op → Bool
  /-- `isinstance(op, IdentityOperator)` -/
  isIdentity : Op → Bool
  /-- `op.data` when `isinstance(op, HomothetyOperator)` -/
  homothety : Op → Option K
  /-- `_copy_direct(op, IdentityOperator())` -/
  toIdentity : Op → Op
  /-- `HomothetyOperator(scalar)` -/
  mkHomothety : K → Op
  /-- the rules of `op.rules[CompositionOperator]['left']` with the subjects ('.', HomothetyOperator), in their order; a
  rule receives the operand and the homothety; the list is empty if CompositionOperator is not in `op.rules` -/
  left : Op → List (Op → K → Option Op)
  /-- the rules of `op.rules[CompositionOperator]['right']` with the subjects (HomothetyOperator, '.') -/
  right : Op → List (Op → K → Option Op)

variable {Op K : Type}

/-- The collection of the scalars: src/pyoperators/core.py:2454-2461.  The scalar starts at one. -/
def HTable.collect [Mul K] (t : HTable Op K) : K → List Op → K × List Op
  | c, [] => (c, [])
  | c, op :: rest =>
    if t.isIdentity op then let r := t.collect c rest; (r.1, op :: r.2)
    else match t.homothety op with
      | none => let r := t.collect c rest; (r.1, op :: r.2)
      | some d => let r := t.collect (c * d) rest; (r.1, t.toIdentity op :: r.2)

/-- The first rule of an operand that absorbs the scalar, left rules first: src/pyoperators/core.py:2474-2485. -/
def HTable.absorb (t : HTable Op K) (op : Op) (c : K) : Option Op :=
  match (t.left op).findSome? (fun r => r op c) with
  | some new => some new
  | none => (t.right op).findSome? (fun r => r op c)

/-- The search of the operand that absorbs the scalar: src/pyoperators/core.py:2468-2487.  Simplification: the shapes
and dtypes copied by `_copy_direct` into the new operand are not represented. -/
def HTable.absorbFirst (t : HTable Op K) (c : K) : List Op → Option (List Op)
  | [] => none
  | op :: rest =>
    if t.isIdentity op then (t.absorbFirst c rest).map (op :: ·)
    else match t.absorb op c with
      | some new => some (new :: rest)
      | none => (t.absorbFirst c rest).map (op :: ·)

/-- `_apply_rule_homothety_linear`: src/pyoperators/core.py:2451-2490. -/
def HTable.applyLinear [Mul K] [One K] [DecidableEq K] (t : HTable Op K) (ops : List Op) : List Op :=
  if ops.length ≤ 1 then ops
  else
    let r := t.collect 1 ops
    if r.1 = 1 then r.2
    else match t.absorbFirst r.1 r.2 with
      | some res => res
      | none => t.mkHomothety r.1 :: r.2

/-- `itertools.groupby(operands, key)`: the maximal runs of operands with the same key. -/
def groupby (key : Op → Bool) : List Op → List (Bool × List Op)
  | [] => []
  | op :: rest =>
    match groupby key rest with
    | [] => [(key op, [op])]
    | (k, g) :: gs => if key op = k then (k, op :: g) :: gs else (key op, [op]) :: (k, g) :: gs

/-- `_apply_rule_homothety`: src/pyoperators/core.py:2435-2449. -/
def HTable.applyHomothety [Mul K] [One K] [DecidableEq K] (t : HTable Op K) (ops : List Op) : List Op :=
  ((groupby t.linear ops).map (fun g => if g.1 then t.applyLinear g.2 else g.2)).flatten

end Verif.Simplify
