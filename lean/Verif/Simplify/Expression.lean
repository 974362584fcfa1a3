import Verif.Simplify.Props
import Verif.Simplify.CommutativeProps
import Verif.Simplify.HomothetyProps
import Mathlib.LinearAlgebra.Matrix.Notation
import Mathlib.Data.Fin.VecNotation
import Mathlib.Data.Fintype.Basic
import Mathlib.Algebra.Group.TypeTags.Basic
import Mathlib.Tactic.FinCases
import Mathlib.Tactic.NormNum

/-
Model of the expressions of operators (sums, differences, opposites, multiples, compositions and element-wise products)
with the rules that the classes of src/pyoperators/core.py and src/pyoperators/nonlinear.py register, applied by the
loops of C14 and C15 and by the gathering of the scalars of C16.

Simplifications: all the vectors have the same number of elements and their entries are the elements of a commutative
ring; the Python constructors call each other through the rules, which is represented by a depth: at depth 0 the rules
are not applied, and a rule applied at depth d + 1 calls the constructors at depth d.
-/

namespace Verif.Expression

open Verif.Simplify

variable {K : Type} {n : Nat}

/-- The vectors. -/
abbrev Vec (K : Type) (n : Nat) := Fin n → K

/-- The operators.  `matrix` is a linear operator without rules of its own, or one of the dense operators of
src/pyoperators/linear.py; `function` is a nonlinear operator without rules; `power` is a PowerOperator
(src/pyoperators/nonlinear.py:285-335); `diagonal` a DiagonalOperator or a MaskOperator, `homothety` a
HomothetyOperator (its data is not zero, see `newHomothety`), `identity`, `zero`, `constant` the operators of
src/pyoperators/core.py:4204-4572; `sum`, `product` and `composition` the composites. -/
inductive Op (K : Type) [Zero K] (n : Nat) where
  | matrix (a : Matrix (Fin n) (Fin n) K)
  | function (f : Vec K n → Vec K n)
  | power (k : Nat)
  | diagonal (d : Vec K n)
  | homothety (c : {c : K // c ≠ 0})
  | identity
  | zero
  | constant (b : Vec K n)
  | sum (ops : List (Op K n))
  | product (ops : List (Op K n))
  | composition (ops : List (Op K n))

variable [CommRing K] [DecidableEq K]

mutual

/-- What an operator computes: the methods `direct` of the classes above, src/pyoperators/core.py:1841-1865 (sums and
products), 2327-2374 (compositions), 4291-4295, 4416-4417, 4474-4478 and 4548-4549, and
src/pyoperators/nonlinear.py:333-334.  Simplification: the buffers are not represented (C04 to C08). -/
def Op.eval : Op K n → Vec K n → Vec K n
  | .matrix a, x => a.mulVec x
  | .function f, x => f x
  | .power k, x => fun i => x i ^ k
  | .diagonal d, x => fun i => d i * x i
  | .homothety c, x => fun i => c.1 * x i
  | .identity, x => x
  | .zero, _ => 0
  | .constant b, _ => b
  | .sum ops, x => evalSum ops x
  | .product ops, x => evalProduct ops x
  | .composition ops, x => evalComposition ops x

/-- The sum of the outputs: src/pyoperators/core.py:1841-1865 with `iadd`. -/
def evalSum : List (Op K n) → Vec K n → Vec K n
  | [], _ => 0
  | o :: ops, x => fun i => o.eval x i + evalSum ops x i

/-- The element-wise product of the outputs: src/pyoperators/core.py:1841-1865 with `imul`. -/
def evalProduct : List (Op K n) → Vec K n → Vec K n
  | [], _ => 1
  | o :: ops, x => fun i => o.eval x i * evalProduct ops x i

/-- The operands applied from right to left: src/pyoperators/core.py:2327-2374. -/
def evalComposition : List (Op K n) → Vec K n → Vec K n
  | [], x => x
  | o :: ops, x => o.eval (evalComposition ops x)

end

mutual

/-- The flag linear that the class and the operands give: the decorators of the classes (`@linear` through `@square
@symmetric` for the diagonals, src/pyoperators/core.py:4154-4156 and 4529-4531), all the operands of a sum
(2024-2027) and of a composition (2737-2740); a product, a constant and a nonlinear function do not have it. -/
def Op.isLinear : Op K n → Bool
  | .matrix _ => true
  | .diagonal _ => true
  | .homothety _ => true
  | .identity => true
  | .zero => true
  | .function _ => false
  | .power _ => false
  | .constant _ => false
  | .sum ops => allLinear ops
  | .product _ => false
  | .composition ops => allLinear ops

/-- `all(op.flags.linear for op in operands)`. -/
def allLinear : List (Op K n) → Bool
  | [] => true
  | o :: ops => o.isLinear && allLinear ops

end

/-- What the rules look at and is not represented in the operators.  Each field is arbitrary, except for the two
hypotheses of `Context.Sound`. -/
structure Context (K : Type) [Zero K] (n : Nat) where
  /-- the flag linear was lost: a composite that is morphed into its single operand is given the flags of the composite
  (src/pyoperators/core.py:1823-1829 and 1272-1289) -/
  forgotten : Op K n → Bool
  /-- the kinds of broadcasting of two operands can be merged (src/pyoperators/core.py:4019-4034) -/
  fuse : Op K n → Op K n → Bool
  /-- the operator has communicators (`op.commin` or `op.commout`) -/
  comm : Op K n → Bool
  /-- the shape of the constant or of the input of the operator is explicit, and the output is constrained
  (src/pyoperators/core.py:4488-4495) -/
  explicit : Op K n → Op K n → Bool
  /-- the operator is one of the dense operators, which absorb the scalars (src/pyoperators/linear.py:195-207) -/
  dense : Op K n → Bool
  /-- the first operator is the inverse of the second: the rules 'I,.', 'T,.' (orthogonal), 'H,.' (unitary) and '.,.'
  (involutary) of src/pyoperators/core.py:1120-1128 -/
  inverse : Op K n → Op K n → Bool
  /-- the operands are the same idempotent operator (src/pyoperators/core.py:1125-1126) -/
  idempotent : Op K n → Op K n → Bool
  /-- the number of classes of the operator (`len(type(o).mro())`, by which the rules are sorted) -/
  mro : Op K n → Int

/-- The flags of the operators are right: an inverse undoes the operator, and an idempotent operator applied twice is
the operator applied once. -/
structure Context.Sound (ctx : Context K n) : Prop where
  inverse : ∀ a b, ctx.inverse a b = true → ∀ x, a.eval (b.eval x) = x
  idempotent : ∀ a b, ctx.idempotent a b = true → ∀ x, a.eval (b.eval x) = a.eval x

/-- `op.flags.linear`. -/
def Context.linear (ctx : Context K n) : Op K n → Bool
  | .identity => true
  | .homothety _ => true
  | o => o.isLinear && !ctx.forgotten o

/-- All the elements are the value. -/
def allEqual (d : Vec K n) (c : K) : Bool := decide (∀ i, d i = c)

/-- `HomothetyOperator(c)`: src/pyoperators/core.py:4356-4364, which becomes a ZeroOperator or an IdentityOperator
(4254-4268). -/
def newHomothety (c : K) : Op K n :=
  if h : c = 0 then .zero else if c = 1 then .identity else .homothety ⟨c, h⟩

/-- `DiagonalOperator(d)`: src/pyoperators/core.py:4248-4289 (all zeros, all ones, all the same). -/
def newDiagonal (d : Vec K n) : Op K n :=
  if allEqual d 0 then .zero
  else if allEqual d 1 then .identity
  else match (List.ofFn d).head? with
    | none => .diagonal d
    | some c => if allEqual d c then newHomothety c else .diagonal d

/-- `ConstantOperator(b)`: src/pyoperators/core.py:4436-4451, which becomes a ZeroOperator. -/
def newConstant (b : Vec K n) : Op K n := if allEqual b 0 then .zero else .constant b

/-- `PowerOperator(k)` for a natural number k: src/pyoperators/nonlinear.py:288-309.  SquareOperator is the power 2. -/
def newPower (k : Nat) : Op K n :=
  if k = 0 then newConstant 1 else if k = 1 then .identity else .power k

/-- The diagonal of a DiagonalBase operator: `get_data()`. -/
def Op.diag? : Op K n → Option (Vec K n)
  | .diagonal d => some d
  | .homothety c => some (fun _ => c.1)
  | .identity => some 1
  | _ => none

/-- The data of a ConstantOperator; a ZeroOperator is one. -/
def Op.const? : Op K n → Option (Vec K n)
  | .constant b => some b
  | .zero => some 0
  | _ => none

/-- The constructors of the composites that the rules call. -/
structure Make (K : Type) [Zero K] (n : Nat) where
  sum : List (Op K n) → Op K n
  product : List (Op K n) → Op K n
  composition : List (Op K n) → Op K n

/-- A composite of one operand is the operand: src/pyoperators/core.py:1826-1829 and 2292-2295. -/
def wrap (make : List (Op K n) → Op K n) : List (Op K n) → Op K n
  | [o] => o
  | ops => make ops

/-! ### The rules of the composition -/

/-- The left rules of an operand in a composition, ('.', …).  In turn: '.,.' of the idempotent operators
(src/pyoperators/core.py:1125-1126); ('.', DiagonalBase) of the diagonals (4180-4184); ('.', Operator) of the identity
(4410, 4419-4420), of the constants (4459, 4480-4483) and of the zero (4552-4555); ('.', PowerOperator) of the powers
(src/pyoperators/nonlinear.py:312-316); ('.', CompositionOperator) and ('.', Operator) of the compositions
(src/pyoperators/core.py:2312-2321).  The key of a rule on a class is 1000 minus the numbers of classes of the operand
and of the class of the rule (2222-2227). -/
def leftRules (ctx : Context K n) (m : Make K n) (o : Op K n) : List (Simplify.Rule (Op K n)) :=
  [⟨fun _ _ => 0, fun a b => if ctx.idempotent a b then some (.one a) else none⟩] ++
  (match o with
    | .diagonal _ | .homothety _ =>
      [⟨fun a _ => 1000 - ctx.mro a - 4, fun a b =>
        match a.diag?, b.diag? with
        | some d, some e => if ctx.fuse a b then some (.one (newDiagonal fun i => d i * e i)) else none
        | _, _ => none⟩]
    | .identity =>
      [⟨fun a _ => 1000 - ctx.mro a - 4, fun a b =>
        match a.diag?, b.diag? with
        | some d, some e => if ctx.fuse a b then some (.one (newDiagonal fun i => d i * e i)) else none
        | _, _ => none⟩,
       ⟨fun a _ => 1000 - ctx.mro a - 2, fun _ b => some (.one b)⟩]
    | .constant b => [⟨fun a _ => 1000 - ctx.mro a - 2, fun _ o => if ctx.comm o then none else some (.one (.constant b))⟩]
    | .zero => [⟨fun a _ => 1000 - ctx.mro a - 2, fun _ o => if ctx.comm o then none else some (.one .zero)⟩]
    | .power k =>
      [⟨fun a _ => 1000 - ctx.mro a - 3, fun _ o =>
        match o with
        | .power l => some (.one (newPower (k * l)))
        | _ => none⟩]
    | .composition ops =>
      [⟨fun a _ => 1000 - ctx.mro a - 5, fun _ o =>
        match o with
        | .composition ops' => some (.one (m.composition (ops ++ ops')))
        | _ => none⟩,
       ⟨fun a _ => 1000 - ctx.mro a - 2, fun _ o => some (.one (m.composition (ops ++ [o])))⟩]
    | _ => [])

/-- The right rules of an operand in a composition, (…, '.').  In turn: 'I,.' and its variants
(src/pyoperators/core.py:1120-1128); (Operator, '.') of the identity (4411, 4423-4424), of the constants (4460,
4486-4497), of the zero (4558-4563) and of the compositions (2322-2326). -/
def rightRules (ctx : Context K n) (m : Make K n) (o : Op K n) : List (Simplify.Rule (Op K n)) :=
  [⟨fun _ _ => 0, fun a b => if ctx.inverse a b then some (.one .identity) else none⟩] ++
  (match o with
    | .identity => [⟨fun _ b => 1000 - ctx.mro b - 2, fun a _ => some (.one a)⟩]
    | .constant b =>
      [⟨fun _ b => 1000 - ctx.mro b - 2, fun a o =>
        if ctx.comm a then none else if ctx.explicit a o then some (.one (newConstant (a.eval b))) else none⟩]
    | .zero =>
      [⟨fun _ b => 1000 - ctx.mro b - 2, fun a o =>
        if ctx.comm a then none
        else if ctx.linear a then some (.one .zero)
        else if ctx.explicit a o then some (.one (newConstant (a.eval 0))) else none⟩]
    | .composition ops => [⟨fun _ b => 1000 - ctx.mro b - 2, fun a _ => some (.one (m.composition (a :: ops)))⟩]
    | _ => [])

/-- The rules of the composition; `_merge` (src/pyoperators/core.py:2706-2716) only sets shapes and dtypes. -/
def compositionTable (ctx : Context K n) (m : Make K n) : Table (Op K n) where
  left := leftRules ctx m
  right := rightRules ctx m
  merge a _ _ := a

/-- The gathering of the scalars: the only rules ('.', HomothetyOperator) are those of the dense operators
(src/pyoperators/linear.py:195-207). -/
def scalarTable (ctx : Context K n) : HTable (Op K n) K where
  linear := ctx.linear
  isIdentity | .identity => true | _ => false
  homothety | .homothety c => some c.1 | .identity => some 1 | _ => none
  toIdentity _ := .identity
  mkHomothety := newHomothety
  left
    | .matrix a => if ctx.dense (.matrix a) then [fun _ c => some (.matrix (c • a))] else []
    | _ => []
  right _ := []

/-! ### The rules of the sums and of the products -/

/-- The rules of an operand in a sum.  In turn: ('.', DiagonalBase) of the diagonals (src/pyoperators/core.py:4165-4169);
('.', ConstantOperator) of the constants (4462-4466), which the zero inherits; ('.', Operator) of the zero (4545);
('.', AdditionOperator) and ('.', Operator) of the sums (1831-1836).  None means that the class of the sums is not in
the dictionary of rules. -/
def sumRules (ctx : Context K n) (m : Make K n) (o : Op K n) :
    Option (List (Op K n → Op K n → Option (Op K n))) :=
  let constants : Op K n → Op K n → Option (Op K n) := fun a b =>
    match a.const?, b.const? with
    | some d, some e => if ctx.fuse a b then some (newConstant fun i => d i + e i) else none
    | _, _ => none
  match o with
  | .diagonal _ | .homothety _ | .identity =>
    some [fun a b =>
      match a.diag?, b.diag? with
      | some d, some e => if ctx.fuse a b then some (newDiagonal fun i => d i + e i) else none
      | _, _ => none]
  | .constant _ => some [constants]
  | .zero => some [constants, fun _ b => some b]
  | .sum ops =>
    some [fun _ b =>
      match b with
      | .sum ops' => some (m.sum (ops ++ ops'))
      | _ => none,
      fun _ b => some (m.sum (ops ++ [b]))]
  | _ => none

/-- The rules of an operand in a product.  In turn: ('.', DiagonalBase) and ('.', ConstantOperator) of the diagonals
(src/pyoperators/core.py:4170-4179, 4187-4201); ('.', ConstantOperator) and ('.', Operator) of the constants (4461,
4467-4471, 4500-4504); ('.', Operator) of the zero (4541-4546); ('.', PowerOperator) and ('.', DiagonalBase) of the
powers (src/pyoperators/nonlinear.py:317-331); ('.', MultiplicationOperator) and ('.', Operator) of the products
(src/pyoperators/core.py:1831-1836). -/
def productRules (ctx : Context K n) (m : Make K n) (o : Op K n) :
    Option (List (Op K n → Op K n → Option (Op K n))) :=
  match o with
  | .diagonal _ | .homothety _ | .identity =>
    some [fun a b =>
      match a.diag?, b.diag? with
      | some d, some e =>
        if ctx.fuse a b then some (m.product [newConstant fun i => d i * e i, newPower 2]) else none
      | _, _ => none,
      fun a b =>
      match a.diag?, b.const? with
      | some d, some e => if ctx.fuse a b then some (newDiagonal fun i => d i * e i) else none
      | _, _ => none]
  | .constant d =>
    some [fun a b =>
      match b.const? with
      | some e => if ctx.fuse a b then some (newConstant fun i => d i * e i) else none
      | none => none,
      fun _ b =>
      match b with
      | .composition _ => some (m.composition [newDiagonal d, b])
      | _ => if ctx.linear b then some (m.composition [newDiagonal d, b]) else none]
  | .zero => some [fun _ _ => some .zero]
  | .power k =>
    some [fun _ b =>
      match b with
      | .power l => some (newPower (k + l))
      | _ => none,
      fun _ b =>
      match b.diag? with
      | some d => some (m.product [newConstant d, newPower (k + 1)])
      | none => none]
  | .product ops =>
    some [fun _ b =>
      match b with
      | .product ops' => some (m.product (ops ++ ops'))
      | _ => none,
      fun _ b => some (m.product (ops ++ [b]))]
  | _ => none

/-- `isinstance(o, HomothetyOperator)`; the identity is one. -/
def Op.isHomothety : Op K n → Bool
  | .homothety _ => true
  | .identity => true
  | _ => false

/-- `o.data == 0` for a HomothetyOperator. -/
def Op.isZeroHomothety : Op K n → Bool
  | .homothety c => decide (c.1 = 0)
  | _ => false

/-- The rules of the sums. -/
def sumTable (ctx : Context K n) (m : Make K n) : CTable (Op K n) where
  rules := sumRules ctx m
  isHomothety := Op.isHomothety
  isZero := Op.isZeroHomothety

/-- The rules of the products. -/
def productTable (ctx : Context K n) (m : Make K n) : CTable (Op K n) where
  rules := productRules ctx m
  isHomothety := Op.isHomothety
  isZero := Op.isZeroHomothety

/-- `CompositionOperator(operands)`: src/pyoperators/core.py:2289-2296 and 2429-2433 (the scalars first, then the rules).
The loop ends within the bound (C14); otherwise the operands would be left as they are. -/
def newComposition (ctx : Context K n) (m : Make K n) (ops : List (Op K n)) : Op K n :=
  let ops := (scalarTable ctx).applyHomothety ops
  match (compositionTable ctx m).applyRules false (2 * ops.length) ops with
  | some (.ok res) => wrap .composition res
  | _ => wrap .composition ops

/-- `AdditionOperator(operands)`: src/pyoperators/core.py:1823-1838 and 2012-2017. -/
def newSum (ctx : Context K n) (m : Make K n) (ops : List (Op K n)) : Op K n :=
  match (sumTable ctx m).applyRules false (2 * ops.length) ops with
  | some res => wrap .sum res
  | none => wrap .sum ops

/-- `MultiplicationOperator(operands)`: src/pyoperators/core.py:1823-1838 and 2046-2051. -/
def newProduct (ctx : Context K n) (m : Make K n) (ops : List (Op K n)) : Op K n :=
  match (productTable ctx m).applyRules false (2 * ops.length) ops with
  | some res => wrap .product res
  | none => wrap .product ops

/-- The constructors.  At depth 0 no rule is applied, as when the rules are disabled
(`rule_manager['none']`, src/pyoperators/core.py:1868-1869 and 2429-2431). -/
def make (ctx : Context K n) : Nat → Make K n
  | 0 => ⟨wrap .sum, wrap .product, wrap .composition⟩
  | d + 1 => ⟨newSum ctx (make ctx d), newProduct ctx (make ctx d), newComposition ctx (make ctx d)⟩

/-! ### The expressions -/

/-- The expressions: an operator, A + B, A - B, -A, c * A, A(B) and MultiplicationOperator([A, B]). -/
inductive Expr (K : Type) [Zero K] (n : Nat) where
  | op (o : Op K n)
  | add (a b : Expr K n)
  | sub (a b : Expr K n)
  | neg (a : Expr K n)
  | scale (c : K) (a : Expr K n)
  | comp (a b : Expr K n)
  | mul (a b : Expr K n)

/-- `HomothetyOperator(-1) * self`: the opposite of an operator, src/pyoperators/core.py:1544-1545 and 1480-1499;
`ConstantOperator.__neg__` (4516-4525) and `ZeroOperator.__neg__` (4565-4566).  The homothety is linear. -/
def opposite (ctx : Context K n) (m : Make K n) (o : Op K n) : Op K n :=
  match o with
  | .constant b => newConstant fun i => -b i
  | .zero => .zero
  | o =>
    if ctx.linear o then m.composition [newHomothety (-1), o]
    else m.product [newHomothety (-1), o]

/-- `c * self` for a scalar c: src/pyoperators/core.py:1501-1516; `asoperator` makes a HomothetyOperator for a linear
operator, and a ConstantOperator for another one. -/
def multiple (ctx : Context K n) (m : Make K n) (c : K) (o : Op K n) : Op K n :=
  if ctx.linear o then m.composition [newHomothety c, o]
  else m.product [newConstant fun _ => c, o]

/-- The operator that Python builds for the expression: src/pyoperators/core.py:1501-1545 and 434-437 (call on an
operator). -/
def build (ctx : Context K n) (depth : Nat) : Expr K n → Op K n
  | .op o => o
  | .add a b => (make ctx depth).sum [build ctx depth a, build ctx depth b]
  | .sub a b => (make ctx depth).sum [build ctx depth a, opposite ctx (make ctx depth) (build ctx depth b)]
  | .neg a => opposite ctx (make ctx depth) (build ctx depth a)
  | .scale c a => multiple ctx (make ctx depth) c (build ctx depth a)
  | .comp a b => (make ctx depth).composition [build ctx depth a, build ctx depth b]
  | .mul a b => (make ctx depth).product [build ctx depth a, build ctx depth b]

/-- What the expression means: the function of the vectors, independently of the composites. -/
def Expr.value : Expr K n → Vec K n → Vec K n
  | .op o, x => o.eval x
  | .add a b, x => fun i => a.value x i + b.value x i
  | .sub a b, x => fun i => a.value x i - b.value x i
  | .neg a, x => fun i => -a.value x i
  | .scale c a, x => fun i => c * a.value x i
  | .comp a b, x => a.value (b.value x)
  | .mul a b, x => fun i => a.value x i * b.value x i

end Verif.Expression
