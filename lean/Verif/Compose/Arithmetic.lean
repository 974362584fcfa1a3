import Verif.Compose.Algebra
import Mathlib.Algebra.Field.Basic
import Mathlib.Algebra.Field.Rat
import Mathlib.Tactic.Ring

/-
Model of the sums, differences, opposites and quotients of operators in expressions: src/pyoperators/core.py:1470-1478 (`Operator.__truediv__`,
`__rtruediv__`), 1532-1545 (`__add__`, `__radd__`, `__sub__`, `__rsub__`, `__neg__`), 4516-4525 and 4565-4566 (`__neg__` of the constant operators), and
property C113. The products are those of Verif/Compose/Algebra.lean. Sums and products are modelled before their simplifications by the rules (C14 to
C16 and C98 to C110); matrices are left out.
-/

namespace Verif.Arithmetic

open Verif.Algebra

variable {K : Type} [Field K] {n : ℕ}

/-- An operator: an instance of ConstantOperator, of ZeroOperator, or of another class. -/
inductive Operand (K : Type) (n : ℕ) where
  | plain (o : Op K n)
  | constant (v : Fin n → K)
  | zero

/-- The operator as a function with flags: src/pyoperators/core.py:4473-4477 and 4548-4549. ZeroOperator is flagged as linear (4528). -/
def Operand.op : Operand K n → Op K n
  | .plain o => o
  | .constant v => ⟨0, false, false, fun _ => v, fun _ _ => 0⟩
  | .zero => ⟨0, true, false, fun _ _ => 0, fun _ _ => 0⟩

/-- The other term of an expression: an operator, a scalar, an array (`numpy` is true), a list or a tuple of numbers, or an object that cannot be
converted. -/
inductive Term (K : Type) (n : ℕ) where
  | operand (o : Operand K n)
  | scalar (c : K)
  | array (numpy : Bool) (v : Fin n → K)
  | other

/-- `HomothetyOperator(c)` -/
def homothety (c : K) : Op K n := ⟨0, true, false, fun x i => c * x i, fun x i => c * x i⟩

/-- `DiagonalOperator(v)` -/
def diagonal (v : Fin n → K) : Op K n := ⟨0, true, false, fun x i => v i * x i, fun x i => v i * x i⟩

/-- `asoperator(x, constant)`: src/pyoperators/core.py:4841-4917. `none` is the exception TypeError. -/
def convert (constant : Bool) : Term K n → Option (Op K n)
  | .operand o => some o.op
  | .scalar c => some (if constant then (Operand.constant fun _ => c).op else homothety c)
  | .array _ v => some (if constant then (Operand.constant v).op else diagonal v)
  | .other => none

/-- `AdditionOperator([a, b])`: src/pyoperators/core.py:2013-2034; the transpose is the sum of the transposes (2019). -/
def addition (a b : Op K n) : Op K n := ⟨0, a.linear && b.linear, false, fun x i => a.fn x i + b.fn x i, fun y i => a.tr y i + b.tr y i⟩

/-- `MultiplicationOperator([a, b])`, with `_validate_operands(operands, constant=True)`: src/pyoperators/core.py:2047-2063. -/
def multiplication (a b : Term K n) : Option (Op K n) := do
  let a ← convert true a
  let b ← convert true b
  some (pointwise a b)

/-- `-self`: src/pyoperators/core.py:1544-1545, 4516-4525 and 4565-4566. The product is that of `__mul__`. -/
def neg : Operand K n → Operand K n
  | .plain o =>
    match mul (homothety (-1)) (.op o) with
    | .op r => .plain r
    | _ => .plain o
  | .constant v => .constant fun i => -v i
  | .zero => .zero

/-- `-other` in Python, for any term: lists, tuples and other objects have no opposite. -/
def Term.neg : Term K n → Option (Term K n)
  | .operand o => some (.operand (Arithmetic.neg o))
  | .scalar c => some (.scalar (-c))
  | .array true v => some (.array true fun i => -v i)
  | .array false _ => none
  | .other => none

/-- `self + other`: src/pyoperators/core.py:1532-1533. -/
def add (a : Operand K n) (t : Term K n) : Option (Op K n) := (convert false t).map (addition a.op)

/-- `Operator.__radd__(self, other)`: src/pyoperators/core.py:1535-1536. -/
def radd (a : Operand K n) (t : Term K n) : Option (Op K n) := (convert false t).map fun b => addition b a.op

/-- `self - other`: src/pyoperators/core.py:1538-1539. -/
def sub (a : Operand K n) (t : Term K n) : Option (Op K n) := t.neg.bind (add a)

/-- `Operator.__rsub__(self, other)`: src/pyoperators/core.py:1541-1542. -/
def rsub (a : Operand K n) (t : Term K n) : Option (Op K n) := (convert false t).map fun b => addition b (Arithmetic.neg a).op

/-- `PowerOperator(-1)(other)`: src/pyoperators/core.py:1471 and 1476, and 431-437, where the composition is made; nonlinear.py:345-354. Numbers give the array
of their inverses. Simplification: the inverse of zero is that of the field. -/
def reciprocal : Term K n → Option (Term K n)
  | .operand o => some (.operand (.plain ⟨0, false, false, fun x i => (o.op.fn x i)⁻¹, fun _ _ => 0⟩))
  | .scalar c => some (.scalar c⁻¹)
  | .array _ v => some (.array true fun i => (v i)⁻¹)
  | .other => none

/-- `self / other`: src/pyoperators/core.py:1470-1471. -/
def div (a : Operand K n) (t : Term K n) : Option (Op K n) := (reciprocal t).bind (multiplication (.operand a))

/-- `Operator.__rtruediv__(self, other)`: src/pyoperators/core.py:1475-1476. -/
def rdiv (a : Operand K n) (t : Term K n) : Option (Op K n) := (reciprocal (.operand a)).bind (multiplication t)

/-- `other + self`, `other - self` or `other / self` in Python. As for the products, NumPy handles the operator as a scalar of dtype object if `other` is
an array: the result is an array of operators. -/
inductive LeftResult (K : Type) (n : ℕ) where
  | op (o : Option (Op K n))
  | objects (o : Fin n → Option (Op K n))

def left (method : Operand K n → Term K n → Option (Op K n)) (t : Term K n) (a : Operand K n) : LeftResult K n :=
  match t with
  | .array true v => .objects fun i => method a (.scalar (v i))
  | t => .op (method a t)

/-! ### The property -/

/-- The value of a term for the input x, in an expression with nonlinear operators: numbers are numbers. -/
def Term.value (x : Fin n → K) : Term K n → Fin n → K
  | .operand o => o.op.fn x
  | .scalar c => fun _ => c
  | .array _ v => v
  | .other => fun _ => 0

/-- An operator whose opposite is well computed: linear or constant. -/
def Operand.Simple : Operand K n → Prop
  | .plain o => o.linear = true
  | _ => True

/-- The sum of valid operators is valid: its flag and its transpose are what they should be. -/
theorem addition_valid {a b : Op K n} (ha : a.Valid) (hb : b.Valid) : (addition a b).Valid := by
  refine ⟨fun h => ?_, fun h x y => ?_, fun h => by cases h⟩
  · simp only [addition, Bool.and_eq_true] at h
    refine ⟨fun x y => ?_, fun c x => ?_⟩
    · funext i
      simp only [addition, (ha.linear h.1).map_add, (hb.linear h.2).map_add, Pi.add_apply]
      ring
    · funext i
      simp only [addition, (ha.linear h.1).map_smul, (hb.linear h.2).map_smul, Pi.smul_apply, smul_eq_mul]
      ring
  · simp only [addition, Bool.and_eq_true] at h
    have e1 := ha.transpose h.1 x y
    have e2 := hb.transpose h.2 x y
    simp only [dot, addition, mul_add, add_mul, Finset.sum_add_distrib] at e1 e2 ⊢
    rw [e1, e2]

/-- C113: the sum of two operators computes the sum of what they compute; if they are linear, so is the sum, and its transpose is its transpose. -/
theorem C113_add (a b : Operand K n) (ha : a.op.Valid) (hb : b.op.Valid) :
    ∃ s, add a (.operand b) = some s ∧ s.Valid ∧ (s.linear = true ↔ a.op.linear = true ∧ b.op.linear = true) ∧
      ∀ x i, s.fn x i = a.op.fn x i + b.op.fn x i :=
  ⟨addition a.op b.op, rfl, addition_valid ha hb, by simp [addition], fun _ _ => rfl⟩

/-- C113: in sums and differences with linear operators, scalars and arrays are the operators that multiply by them, on both sides. An array on the left is
handled by NumPy (`C113_ndarray_fails`). -/
theorem C113_numbers (a : Operand K n) (ha : a.op.linear = true) (c : K) (v : Fin n → K) :
    (∃ s, add a (.scalar c) = some s ∧ s.linear = true ∧ ∀ x i, s.fn x i = a.op.fn x i + c * x i) ∧
    (∃ s, left radd (.scalar c) a = .op (some s) ∧ s.linear = true ∧ ∀ x i, s.fn x i = c * x i + a.op.fn x i) ∧
    (∃ s, sub a (.scalar c) = some s ∧ s.linear = true ∧ ∀ x i, s.fn x i = a.op.fn x i - c * x i) ∧
    (∀ numpy, ∃ s, add a (.array numpy v) = some s ∧ s.linear = true ∧ ∀ x i, s.fn x i = a.op.fn x i + v i * x i) ∧
    (∃ s, sub a (.array true v) = some s ∧ s.linear = true ∧ ∀ x i, s.fn x i = a.op.fn x i - v i * x i) ∧
    (∃ s, left radd (.array false v) a = .op (some s) ∧ s.linear = true ∧ ∀ x i, s.fn x i = v i * x i + a.op.fn x i) := by
  refine ⟨⟨_, rfl, ?_, fun x i => rfl⟩, ⟨_, rfl, ?_, fun x i => rfl⟩, ⟨_, rfl, ?_, fun x i => ?_⟩, fun _ => ⟨_, rfl, ?_, fun x i => rfl⟩,
    ⟨_, rfl, ?_, fun x i => ?_⟩, ⟨_, rfl, ?_, fun x i => rfl⟩⟩
  all_goals first
    | (simp [addition, ha, homothety, diagonal]; done)
    | (simp only [addition, homothety, diagonal, Bool.false_eq_true, if_false]; ring)

/-- C113, partial: the opposite of a linear or constant operator computes the opposite, and is linear if the operator is. Missing: the other
operators (`C113_neg_fails`). -/
theorem C113_neg_partial (a : Operand K n) (h : a.Simple) :
    (∀ x i, (neg a).op.fn x i = -a.op.fn x i) ∧ (neg a).op.linear = a.op.linear ∧ (neg a).Simple := by
  rcases a with o | v | _
  · have hl : o.linear = true := h
    have e : neg (.plain o) = .plain (comp (homothety (-1)) o) := by
      simp [neg, mul, homothety, asoperator, hl]
    rw [e]
    refine ⟨fun x i => ?_, ?_, ?_⟩
    · simp [Operand.op, comp, homothety]
    · simp [Operand.op, comp, homothety]
    · simp [Operand.Simple, comp, homothety, hl]
  · exact ⟨fun _ _ => rfl, rfl, trivial⟩
  · exact ⟨fun _ _ => by simp [neg, Operand.op], rfl, trivial⟩

/-- C113, partial: the difference of two operators computes the difference, if the second one is linear or constant. Missing: see `C113_sub_fails`. -/
theorem C113_sub_partial (a b : Operand K n) (h : b.Simple) :
    (∃ s, sub a (.operand b) = some s ∧ ∀ x i, s.fn x i = a.op.fn x i - b.op.fn x i) ∧
    (∃ s, rsub b (.operand a) = some s ∧ ∀ x i, s.fn x i = a.op.fn x i - b.op.fn x i) := by
  refine ⟨⟨_, rfl, fun x i => ?_⟩, ⟨_, rfl, fun x i => ?_⟩⟩ <;>
    simp only [addition] <;> rw [(C113_neg_partial b h).1 x i, sub_eq_add_neg]

/-- C113: quotients of operators, linear or not, by operators, scalars, arrays and lists, and of these by operators, are those of the values; objects that
cannot be converted are refused. An array on the left is handled by NumPy. -/
theorem C113_div (a : Operand K n) (t : Term K n) :
    (∀ q, div a t = some q → q.linear = false ∧ ∀ x i, q.fn x i = a.op.fn x i / t.value x i) ∧
    (∀ q, rdiv a t = some q → q.linear = false ∧ ∀ x i, q.fn x i = t.value x i / a.op.fn x i) ∧
    ((div a t).isSome = true ↔ t ≠ .other) ∧ ((rdiv a t).isSome = true ↔ t ≠ .other) := by
  rcases t with o | c | ⟨b, v⟩ | _
  all_goals
    refine ⟨fun q hq => ?_, fun q hq => ?_, ?_, ?_⟩
  all_goals first
    | (simp [div, rdiv, reciprocal, multiplication, convert] at hq; done)
    | (simp only [div, rdiv, reciprocal, multiplication, convert, Option.bind_some, Option.bind_eq_bind, Option.some.injEq] at hq
       subst hq
       exact ⟨rfl, fun x i => by simp [pointwise, Operand.op, Term.value, div_eq_mul_inv]⟩)
    | simp [div, rdiv, reciprocal, multiplication, convert]

/-! ### Where the code differs -/

/-- C113 fails: the opposite of an operator that is neither linear nor constant is x ↦ -x f(x): it is the product of HomothetyOperator(-1), which is an operator,
and of the operator. -/
theorem C113_neg_fails (f : Op K n) (h : f.linear = false) : ∀ x i, (neg (.plain f)).op.fn x i = -x i * f.fn x i := by
  intro x i
  simp [neg, mul, homothety, asoperator, h, Operand.op, pointwise]

/-- The square of each element. -/
def squared : Op ℚ 1 := ⟨7, false, false, fun x i => x i * x i, fun _ _ => 0⟩

/-- C113 fails: for the square f, f - f is not zero: it is x ↦ x² - x³. -/
theorem C113_sub_fails : ∃ s, sub (.plain squared) (.operand (.plain squared)) = some s ∧ s.fn ![2] 0 = -4 := by
  refine ⟨_, rfl, ?_⟩
  simp only [addition]
  rw [C113_neg_fails squared rfl]
  norm_num [squared, Operand.op]

/-- C113 fails: the sum of an operator that is not linear and of a number is not the sum of its value and of the number, whereas the product is the product:
for the square f, (f + 1)(2) = 6 and (f * 1)(2) = 4. -/
theorem C113_constant_fails : ∃ s p, add (.plain squared) (.scalar 1) = some s ∧ s.fn ![2] 0 = 6 ∧
    mul squared (.scalar 1) = .op p ∧ p.fn ![2] 0 = 4 := by
  refine ⟨_, _, rfl, ?_, rfl, ?_⟩
  · norm_num [addition, squared, homothety, Operand.op]
  · norm_num [pointwise, squared]

/-- C113 fails: the sum of an array and of an operator is an array of operators, in which the elements are scalars. -/
theorem C113_ndarray_fails (a : Operand K n) (v : Fin n → K) :
    ∃ o : Fin n → Op K n, left radd (.array true v) a = .objects (fun i => some (o i)) ∧ ∀ i x j, (o i).fn x j = v i * x j + a.op.fn x j :=
  ⟨fun i => addition (homothety (v i)) a.op, rfl, fun _ _ _ => rfl⟩

/-! ### Examples -/

/-- The exchange of two elements, minus a diagonal. -/
def exchange : Op ℚ 2 := ⟨3, true, false, fun x => ![x 1, x 0], fun x => ![x 1, x 0]⟩

theorem exchange_valid : exchange.Valid := by
  refine ⟨fun _ => ⟨fun x y => ?_, fun c x => ?_⟩, fun _ x y => ?_, fun h => by cases h⟩
  · funext i; fin_cases i <;> simp [exchange]
  · funext i; fin_cases i <;> simp [exchange]
  · simp [dot, exchange, Fin.sum_univ_two]; ring

example : (Operand.plain exchange).op.Valid ∧ (Operand.plain exchange).Simple := ⟨exchange_valid, rfl⟩

example : ∃ s, sub (.plain exchange) (.array true ![5, 7]) = some s ∧ s.fn ![1, 2] = ![-3, -13] := by
  refine ⟨_, rfl, ?_⟩
  funext i; fin_cases i <;> norm_num [addition, exchange, diagonal, Operand.op]

example : ∃ s, sub (.plain squared) (.operand (.constant ![1])) = some s ∧ s.fn ![3] 0 = 8 := by
  refine ⟨_, rfl, ?_⟩
  norm_num [addition, squared, neg, Operand.op]

example : ∃ q, rdiv (.plain squared) (.scalar 1) = some q ∧ q.fn ![2] 0 = 1 / 4 := by
  refine ⟨_, rfl, ?_⟩
  norm_num [pointwise, squared, Operand.op]

end Verif.Arithmetic
