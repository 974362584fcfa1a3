/-
Model of the simplification of a composition by the binary rules: `NonCommutativeCompositeOperator._apply_rules`
(src/pyoperators/core.py:2182-2273).
-/

namespace Verif.Simplify

/-- What a binary rule returns when it applies: one operator, a pair, or a tuple of another length (which the loop
rejects with NotImplementedError). -/
inductive Outcome (Op : Type) where
  | one (o : Op)
  | two (o1 o2 : Op)
  | many (os : List Op)

/-- A binary rule: its sorting key for two operands (`key_rule`, src/pyoperators/core.py:2222-2227) and its effect
(`BinaryRule.__call__`, src/pyoperators/rules.py:226-254; `none` when it does not apply). -/
structure Rule (Op : Type) where
  key : Op → Op → Int
  act : Op → Op → Option (Outcome Op)

/-- The rules attached to the operands: `o.rules[cls]['left']` and `o.rules[cls]['right']`
(empty if the class is not in the dictionary), and `cls._merge`, which resets the attributes of the operator obtained
from two operands (src/pyoperators/core.py:2706-2716) and is a parameter here. -/
structure Table (Op : Type) where
  left : Op → List (Rule Op)
  right : Op → List (Rule Op)
  merge : Op → Op → Op → Op

variable {Op : Type}

/-- `rules = rules1 + rules2; rules.sort(key=key_rule)`: src/pyoperators/core.py:2217-2230.  The sort of Python is
stable, as is `List.mergeSort`. -/
def Table.rules (t : Table Op) (o1 o2 : Op) : List (Rule Op) :=
  (t.left o1 ++ t.right o2).mergeSort (fun r s => decide (r.key o1 o2 ≤ s.key o1 o2))

/-- The first rule that applies: src/pyoperators/core.py:2235-2238. -/
def Table.first (t : Table Op) (o1 o2 : Op) : Option (Outcome Op) :=
  (t.rules o1 o2).findSome? (fun r => r.act o1 o2)

/-- The errors of the loop. -/
inductive Err where
  | notImplemented
  | indexError
deriving DecidableEq, Repr

/-- State of the loop: the operands and the number of pairs still to be examined, that is the index i of the source
plus one. -/
structure State (Op : Type) where
  ops : List Op
  pos : Nat

/-- One iteration of `while i >= 0`, for i = pos - 1 ≥ 0: src/pyoperators/core.py:2213-2262. -/
def Table.step (t : Table Op) (ops : List Op) (i : Nat) : Except Err (State Op) :=
  match ops[i]?, ops[i + 1]? with
  | some o1, some o2 =>
    match t.first o1 o2 with
    | none => .ok ⟨ops, i⟩
    | some (.many _) => .error .notImplemented
    | some (.two a b) =>
      -- i += 1; then `if consumed and i < len(ops) - 1: continue`, otherwise i -= 1
      let ops := (ops.set i a).set (i + 1) b
      if i + 1 + 1 < ops.length then .ok ⟨ops, i + 1 + 1⟩ else .ok ⟨ops, i + 1⟩
    | some (.one a) =>
      let ops := (ops.eraseIdx (i + 1)).set i (t.merge a o1 o2)
      if i + 1 < ops.length then .ok ⟨ops, i + 1⟩ else .ok ⟨ops, i⟩
  | _, _ => .error .indexError

/-- The loop, with a bound on the number of iterations: `none` when the bound is reached. -/
def Table.loop (t : Table Op) : Nat → State Op → Option (Except Err (List Op))
  | 0, s => if s.pos = 0 then some (.ok s.ops) else none
  | fuel + 1, s =>
    match s.pos with
    | 0 => some (.ok s.ops)
    | i + 1 =>
      match t.step s.ops i with
      | .error e => some (.error e)
      | .ok s => t.loop fuel s

/-- `_apply_rules`: src/pyoperators/core.py:2182-2273.  `none` is the value of the trigger 'none' of the rule manager. -/
def Table.applyRules (t : Table Op) (disabled : Bool) (fuel : Nat) (ops : List Op) :
    Option (Except Err (List Op)) :=
  if disabled then some (.ok ops)
  else if ops.length ≤ 1 then some (.ok ops)
  else t.loop fuel ⟨ops, ops.length - 1⟩

end Verif.Simplify
