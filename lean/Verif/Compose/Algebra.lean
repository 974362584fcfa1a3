import Mathlib.LinearAlgebra.Matrix.ToLin
import Mathlib.Algebra.BigOperators.Fin
import Mathlib.Tactic.FinCases
import Mathlib.Tactic.NormNum

/-
Model of the products and powers of operators in expressions: src/pyoperators/core.py:1480-1530 (`Operator.__mul__`, `__rmul__`, `__pow__`), with
the conversion of the other factor: 4841-4871 (`asoperator`).
-/

namespace Verif.Algebra

/-! ### Model -/

variable {K : Type} [CommRing K] {n : ℕ}

/-- An operator for vectors of length n: its identity as a Python object, its flags, and its direct and transpose methods. -/
structure Op (K : Type) (n : ℕ) where
  id : ℕ
  linear : Bool
  idempotent : Bool
  fn : (Fin n → K) → (Fin n → K)
  tr : (Fin n → K) → (Fin n → K)

/-- The other factor: an operator, a Python or NumPy scalar, a NumPy array with one dimension (`numpy` is true) or a list or a tuple, a
`np.matrix`, or an object that cannot be converted. -/
inductive Arg (K : Type) (n : ℕ) where
  | op (o : Op K n)
  | scalar (c : K)
  | array (numpy : Bool) (v : Fin n → K)
  | matrix (m : Matrix (Fin n) (Fin n) K)
  | other

/-- `asoperator(x, constant)`: src/pyoperators/core.py:4841-4871.  `none` is the exception TypeError. -/
def asoperator (constant : Bool) : Arg K n → Option (Op K n)
  | .op o => some o
  | .scalar c => some (if constant then ⟨0, false, false, fun _ _ => c, fun _ _ => 0⟩ else ⟨0, true, false, fun x i => c * x i, fun x i => c * x i⟩)
  | .array _ v => some (if constant then ⟨0, false, false, fun _ => v, fun _ _ => 0⟩ else ⟨0, true, false, fun x i => v i * x i, fun x i => v i * x i⟩)
  | .matrix m => some ⟨0, true, false, m.mulVec, m.transpose.mulVec⟩
  | .other => none

/-- `CompositionOperator([a, b])`, before the simplifications. -/
def comp (a b : Op K n) : Op K n := ⟨0, a.linear && b.linear, false, fun x => a.fn (b.fn x), fun y => b.tr (a.tr y)⟩

/-- `MultiplicationOperator([a, b])` -/
def pointwise (a b : Op K n) : Op K n := ⟨0, false, false, fun x i => a.fn x i * b.fn x i, fun _ _ => 0⟩

/-- The result of a product: an array, an operator, an array of objects that are operators, or `NotImplemented`. -/
inductive Result (K : Type) (n : ℕ) where
  | array (v : Fin n → K)
  | op (o : Op K n)
  | objects (o : Fin n → Op K n)
  | notImplemented

/-- `self * other`: src/pyoperators/core.py:1480-1499.  The operators are not variables. -/
def mul (a : Op K n) (other : Arg K n) : Result K n :=
  match a.linear, other with
  | true, .array _ v => .array (a.fn v)
  | _, _ =>
    match asoperator (!a.linear) other with
    | none => .notImplemented
    | some b =>
      if !a.linear || !b.linear then .op (pointwise a b)
      else if a.idempotent && a.id == b.id then .op a
      else .op (comp a b)

/-- `Operator.__rmul__(self, other)`: src/pyoperators/core.py:1501-1515. -/
def rmul (a : Op K n) (other : Arg K n) : Result K n :=
  match a.linear, other with
  | true, .array _ v => .array (a.tr v)
  | _, _ =>
    match asoperator (!a.linear) other with
    | none => .notImplemented
    | some b => if !a.linear || !b.linear then .op (pointwise b a) else .op (comp b a)

/-- The elements of an array of objects: operators, as `__rmul__` is called with scalars. -/
def element (a : Op K n) (c : K) : Op K n :=
  match rmul a (.scalar c) with
  | .op o => o
  | _ => a

/-- `other * self` in Python, if `other` is not an operator.  The class `Operator` has neither `__array_ufunc__` nor `__array_priority__`, so that
`ndarray.__mul__` does not return `NotImplemented`: NumPy handles the operator as a scalar of dtype object and multiplies it by each of the elements.
`np.matrix.__mul__`, lists, tuples and scalars give way to `Operator.__rmul__`. -/
def leftMul (other : Arg K n) (a : Op K n) : Result K n :=
  match other with
  | .array true v => .objects fun i => element a (v i)
  | _ => rmul a other

/-- The identity operator. -/
def identity : Op K n := ⟨0, true, true, fun x => x, fun x => x⟩

/-- The composition of a list of operators. -/
def compose : List (Op K n) → Op K n
  | [] => identity
  | [a] => a
  | a :: l => comp a (compose l)

/-- The exponents: Python integers, or floating point numbers. -/
inductive Exponent where
  | int (k : Int)
  | float (x : ℚ)

/-- `self ** n`, for linear operators: src/pyoperators/core.py:1517-1530.  `inv` is `self.I`.  The exceptions ValueError (1521) and TypeError (a list
is not multiplied by a floating point number, 1529-1530) are `none`.  Simplification: the test `np.allclose(n, np.round(n))` is exact. -/
def pow (a inv : Op K n) (e : Exponent) : Option (Op K n) :=
  let x : ℚ := match e with | .int k => k | .float x => x
  if x.den ≠ 1 then none
  else if x = -1 then some inv
  else if x = 0 then some identity
  else if x = 1 then some a
  else match e with
    | .float _ => none
    | .int k => if k > 0 then some (compose (List.replicate k.toNat a)) else some (compose (List.replicate (-k).toNat inv))

/-! ### Specification -/

/-- The scalar product, without conjugation. -/
def dot (x y : Fin n → K) : K := ∑ i, x i * y i

/-- The flags and the transpose of the operator are what they should be; an object has one value. -/
structure Op.Valid (a : Op K n) : Prop where
  linear : a.linear = true → IsLinearMap K a.fn
  transpose : a.linear = true → ∀ x y, dot y (a.fn x) = dot (a.tr y) x
  idempotent : a.idempotent = true → ∀ x, a.fn (a.fn x) = a.fn x

/-! ### Proofs -/

theorem fn_smul {a : Op K n} (ha : a.Valid) (hl : a.linear = true) (c : K) (x : Fin n → K) : a.fn (fun i => c * x i) = fun i => c * a.fn x i := by
  have := (ha.linear hl).map_smul c x
  exact this

/-- C88: the product of a linear operator and an array is the operator applied to the array; the product of a list or a tuple and a
linear operator is the product of a row by the matrix. -/
theorem C88_array_partial {a : Op K n} (ha : a.Valid) (hl : a.linear = true) (v : Fin n → K) :
    (∀ numpy, mul a (.array numpy v) = .array (a.fn v)) ∧ ∃ w, leftMul (.array false v) a = .array w ∧ ∀ x, dot w x = dot v (a.fn x) := by
  refine ⟨fun b => by simp [mul, hl], a.tr v, by simp [leftMul, rmul, hl], fun x => (ha.transpose hl x v).symm⟩

/-- C88: the product of linear operators is their composition, and it is a linear operator. -/
theorem C88_composition {a b : Op K n} (ha : a.Valid) (hb : b.Valid) (hla : a.linear = true) (hlb : b.linear = true)
    (hid : a.id = b.id → a = b) : ∃ c, mul a (.op b) = .op c ∧ c.linear = true ∧ c.Valid ∧ ∀ x, c.fn x = a.fn (b.fn x) := by
  have hv : (comp a b).Valid := by
    refine ⟨fun _ => ?_, fun _ x y => ?_, fun h => by simp [comp] at h⟩
    · have h1 := ha.linear hla
      have h2 := hb.linear hlb
      exact ⟨fun x y => by simp [comp, h2.map_add, h1.map_add], fun c x => by simp [comp, h2.map_smul, h1.map_smul]⟩
    · simp only [comp]
      rw [ha.transpose hla, hb.transpose hlb]
  simp only [mul, asoperator, hla, hlb, Bool.not_true, Bool.or_self, Bool.false_eq_true, if_false]
  by_cases h : (a.idempotent && a.id == b.id) = true
  · rw [if_pos h]
    simp only [Bool.and_eq_true, beq_iff_eq] at h
    have := hid h.2
    subst this
    exact ⟨a, rfl, hla, ha, fun x => (ha.idempotent h.1 x).symm⟩
  · rw [if_neg h]
    exact ⟨_, rfl, by simp [comp, hla, hlb], hv, fun x => rfl⟩

/-- C88: the products of an operator, linear or not, by a scalar on the left and on the right. -/
theorem C88_scalar {a : Op K n} (ha : a.Valid) (hid : a.id ≠ 0) (c : K) :
    (∃ b, mul a (.scalar c) = .op b ∧ b.linear = a.linear ∧ ∀ x i, b.fn x i = c * a.fn x i) ∧
    ∃ b, leftMul (.scalar c) a = .op b ∧ b.linear = a.linear ∧ ∀ x i, b.fn x i = c * a.fn x i := by
  cases hl : a.linear with
  | true =>
    refine ⟨⟨comp a ⟨0, true, false, fun x i => c * x i, fun x i => c * x i⟩, ?_, by simp [comp, hl], fun x i => ?_⟩,
      ⟨comp ⟨0, true, false, fun x i => c * x i, fun x i => c * x i⟩ a, ?_, by simp [comp, hl], fun x i => rfl⟩⟩
    · simp [mul, hl, asoperator, hid]
    · simp only [comp]; rw [fn_smul ha hl]
    · simp [leftMul, rmul, hl, asoperator]
  | false =>
    refine ⟨⟨pointwise a ⟨0, false, false, fun _ _ => c, fun _ _ => 0⟩, ?_, rfl, fun x i => by simp [pointwise, mul_comm]⟩,
      ⟨pointwise ⟨0, false, false, fun _ _ => c, fun _ _ => 0⟩ a, ?_, rfl, fun x i => rfl⟩⟩
    · simp [mul, hl, asoperator]
    · simp [leftMul, rmul, hl, asoperator]

/-- C88: the products with a non-linear operator are those of the values, element by element, on both sides; arrays on the left are
lists or tuples. -/
theorem C88_pointwise_partial (a : Op K n) (ha : a.linear = false) :
    (∀ b : Op K n, ∃ c d, mul a (.op b) = .op c ∧ mul b (.op a) = .op d ∧ ∀ x i, c.fn x i = a.fn x i * b.fn x i ∧ d.fn x i = a.fn x i * b.fn x i) ∧
    ∀ numpy v, ∃ c d, mul a (.array numpy v) = .op c ∧ leftMul (.array false v) a = .op d ∧ ∀ x i, c.fn x i = v i * a.fn x i ∧ d.fn x i = v i * a.fn x i := by
  refine ⟨fun b => ⟨pointwise a b, pointwise b a, by simp [mul, ha, asoperator], ?_, fun x i => ⟨rfl, mul_comm _ _⟩⟩,
    fun b v => ⟨pointwise a ⟨0, false, false, fun _ => v, fun _ _ => 0⟩, pointwise ⟨0, false, false, fun _ => v, fun _ _ => 0⟩ a,
      by simp [mul, ha, asoperator], by simp [leftMul, rmul, ha, asoperator], fun x i => ⟨mul_comm _ _, rfl⟩⟩⟩
  cases hb : b.linear <;> simp [mul, ha, hb, asoperator]

/-- C88: the products of a linear operator by a matrix. -/
theorem C88_matrix {a : Op K n} (hl : a.linear = true) (hid : a.id ≠ 0) (m : Matrix (Fin n) (Fin n) K) :
    (∃ c, mul a (.matrix m) = .op c ∧ ∀ x, c.fn x = a.fn (m.mulVec x)) ∧ ∃ c, leftMul (.matrix m) a = .op c ∧ ∀ x, c.fn x = m.mulVec (a.fn x) :=
  ⟨⟨comp a ⟨0, true, false, m.mulVec, m.transpose.mulVec⟩, by simp [mul, hl, asoperator, hid], fun x => rfl⟩,
    ⟨comp ⟨0, true, false, m.mulVec, m.transpose.mulVec⟩ a, by simp [leftMul, rmul, hl, asoperator], fun x => rfl⟩⟩

theorem compose_fn (a : Op K n) : ∀ (k : ℕ) (x : Fin n → K), (compose (List.replicate k a)).fn x = a.fn^[k] x
  | 0, x => rfl
  | 1, x => rfl
  | k + 2, x => by
    have := compose_fn a (k + 1)
    rw [List.replicate_succ] at this
    simp only [List.replicate_succ, compose, comp]
    rw [this, ← Function.iterate_succ_apply' a.fn (k + 1) x]

/-- C88: the integer powers of a linear operator are those of its matrix: the power 1 is the operator, and the power k + 1 is the operator
applied to the power k, for all integers k, the negative ones being those of the inverse. -/
theorem C88_power {a inv : Op K n} (h : ∀ x, a.fn (inv.fn x) = x) :
    ∃ p : Int → Op K n, (∀ k, pow a inv (.int k) = some (p k)) ∧ (∀ x, (p 0).fn x = x) ∧ (∀ x, (p 1).fn x = a.fn x) ∧
      ∀ k x, (p (k + 1)).fn x = a.fn ((p k).fn x) := by
  have key : ∀ k : Int, ∃ b, pow a inv (.int k) = some b ∧ ∀ x, b.fn x = if 0 ≤ k then a.fn^[k.toNat] x else inv.fn^[(-k).toNat] x := by
    intro k
    simp only [pow, Rat.den_intCast, ne_eq, not_true_eq_false, if_false]
    by_cases e1 : k = -1
    · subst e1; exact ⟨inv, by simp, fun x => by simp⟩
    · by_cases e2 : k = 0
      · subst e2; exact ⟨identity, by simp, fun x => rfl⟩
      · by_cases e3 : k = 1
        · subst e3; exact ⟨a, by norm_num, fun x => rfl⟩
        · have f1 : ((k : ℚ) = -1) = False := by simp only [eq_iff_iff, iff_false]; exact_mod_cast e1
          have f2 : ((k : ℚ) = 0) = False := by simp only [eq_iff_iff, iff_false]; exact_mod_cast e2
          have f3 : ((k : ℚ) = 1) = False := by simp only [eq_iff_iff, iff_false]; exact_mod_cast e3
          simp only [f1, f2, f3, if_false]
          by_cases hk : k > 0
          · exact ⟨_, if_pos hk, fun x => by rw [compose_fn, if_pos (by omega)]⟩
          · exact ⟨_, if_neg hk, fun x => by rw [compose_fn, if_neg (by omega)]⟩
  choose p hp hf using key
  refine ⟨p, hp, fun x => by rw [hf]; rfl, fun x => by rw [hf]; rfl, fun k x => ?_⟩
  rw [hf, hf]
  by_cases hk : 0 ≤ k
  · rw [if_pos (by omega), if_pos hk, show (k + 1).toNat = k.toNat + 1 by omega, Function.iterate_succ_apply']
  · by_cases hk1 : k = -1
    · subst hk1; simp [h]
    · rw [if_neg (by omega), if_neg hk, show (-k).toNat = (-(k + 1)).toNat + 1 by omega, Function.iterate_succ_apply', h]

omit [CommRing K] in
/-- C88: an exponent that is not an integer is refused. -/
theorem C88_fractional (a inv : Op K n) {x : ℚ} (hx : x.den ≠ 1) : pow a inv (.float x) = none := by simp [pow, hx]

/-- Multiplication by two, squares and the exchange of two elements. -/
def double : Op ℤ 2 := ⟨1, true, false, fun x i => 2 * x i, fun x i => 2 * x i⟩
def squares : Op ℤ 2 := ⟨2, false, false, fun x i => x i ^ 2, fun _ _ => 0⟩
def swap : Op ℤ 2 := ⟨3, true, false, fun x => ![x 1, x 0], fun x => ![x 1, x 0]⟩

/-- The value of a result for a vector. -/
def Result.at (x : Fin n → K) : Result K n → Option (Fin n → K)
  | .op o => some (o.fn x)
  | _ => none

/-- The product of a result by an operator. -/
def Result.times (r : Result K n) (b : Op K n) : Result K n :=
  match r with
  | .op o => mul o (.op b)
  | r => r

/-- The product of an operator by a result. -/
def timesResult (a : Op K n) : Result K n → Result K n
  | .op o => mul a (.op o)
  | r => r

/-- C88: the product is not associative if linear and non-linear operators are mixed: composition is used for some of the products and the product
of the values for the others.  Here, (double * double) * squares and double * (double * squares). -/
theorem C88_associative_fails : ((mul double (.op { double with id := 4 })).times squares).at ![1, 3] = some ![4, 108] ∧
    (timesResult double (mul { double with id := 4 } (.op squares))).at ![1, 3] = some ![4, 324] := by
  constructor <;> decide

/-- C88: the exponents 2.0 and -2.0, that pass the validation, raise an exception, although 1.0, 0.0 and -1.0 do not. -/
theorem C88_float_fails : (pow swap swap (.float 2)).isNone ∧ (pow swap swap (.float (-2))).isNone ∧ (pow swap swap (.float 1)).isSome ∧
    (pow swap swap (.int 2)).isSome := by decide +kernel

/-- The values of the elements of an array of operators. -/
def Result.elements (x : Fin n → K) : Result K n → Option (Fin n → Fin n → K)
  | .objects o => some fun i => (o i).fn x
  | _ => none

/-- C88: for all operators, the product of a NumPy array by the operator is an array of operators, one for each element of the array: neither the
product of the row by the matrix, nor the operator that multiplies the values. -/
theorem C88_ndarray_fails {a : Op K n} (v : Fin n → K) :
    (∀ w, leftMul (.array true v) a ≠ .array w) ∧ (∀ b, leftMul (.array true v) a ≠ .op b) ∧
    ∀ x, (leftMul (.array true v) a).elements x = some fun i j => v i * a.fn x j := by
  refine ⟨fun w h => by simp [leftMul] at h, fun b h => by simp [leftMul] at h, fun x => ?_⟩
  simp only [leftMul, Result.elements, Option.some.injEq]
  funext i j
  cases hl : a.linear <;> simp [element, rmul, asoperator, hl, pointwise, comp]

/-- `np.array([1, 2]) * swap` has two operators, and `[1, 2] * swap` is `[2, 1]`. -/
example : (leftMul (.array true ![1, 2]) swap).elements ![5, 7] = some ![![7, 5], ![14, 10]] ∧
    (∃ w, leftMul (.array false ![1, 2]) swap = .array w ∧ w = ![2, 1]) := ⟨by decide, _, rfl, by decide⟩

theorem swap_valid : swap.Valid := by
  refine ⟨fun _ => ⟨fun x y => ?_, fun c x => ?_⟩, fun _ x y => ?_, fun h => by simp [swap] at h⟩
  · funext i; fin_cases i <;> simp [swap]
  · funext i; fin_cases i <;> simp [swap]
  · simp [dot, swap, Fin.sum_univ_succ]; ring

theorem double_valid : double.Valid := by
  refine ⟨fun _ => ⟨fun x y => ?_, fun c x => ?_⟩, fun _ x y => ?_, fun h => by simp [double] at h⟩
  · funext i; simp [double]; ring
  · funext i; simp [double]; ring
  · simp [dot, double, Fin.sum_univ_succ]; ring

/-- The hypotheses hold for these operators. -/
example : swap.Valid ∧ double.Valid ∧ swap.linear = true ∧ double.linear = true ∧ (swap.id = double.id → swap = double) ∧ swap.id ≠ 0 ∧
    squares.Valid ∧ (∀ x, swap.fn (swap.fn x) = x) :=
  ⟨swap_valid, double_valid, rfl, rfl, fun h => absurd h (by decide), by decide, ⟨(nomatch ·), (nomatch ·), (nomatch ·)⟩, fun x => by
    funext i; fin_cases i <;> simp [swap]⟩

/-- Some products. -/
example : (mul swap (.op double)).at ![1, 2] = some ![4, 2] ∧ (leftMul (.scalar 3) squares).at ![1, 2] = some ![3, 12] ∧
    (mul squares (.op swap)).at ![1, 2] = some ![2, 4] ∧ ((pow swap swap (.int (-3))).map fun o => o.fn ![1, 2]) = some ![2, 1] := by
  refine ⟨by decide, by decide, by decide, by decide +kernel⟩

end Verif.Algebra
