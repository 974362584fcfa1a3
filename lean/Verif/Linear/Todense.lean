import Mathlib.LinearAlgebra.Matrix.ToLin
import Mathlib.Data.List.FinRange
import Mathlib.Data.Rat.Floor
import Mathlib.Algebra.Order.Field.Rat

/-
Model of the dense representation and of the products with vectors: src/pyoperators/core.py:322-344 (`toshapein`, `toshapeout`),
506-564 (`todense`), 566-585 (`matvec` and `rmatvec`).
-/

namespace Verif.Todense

/-! ### Model -/

variable {R : Type} [CommRing R] {n m l : ℕ}

/-- An operator with explicit shapes, applied to arrays whose elements are numbered in C order: `v.reshape(shape)` and `o.ravel()` do not move
the elements of contiguous arrays.  `inplace` is `direct(v, w)` for the arrays `v = u[:n]` and `w = u[:m]` of the same memory `u`. -/
structure Op (R : Type) (n m : ℕ) where
  direct : (Fin n → R) → (Fin m → R)
  inplace : (ℕ → R) → (ℕ → R)

/-- The loop of the out-of-place branch: src/pyoperators/core.py:541-552.  The two variants, with and without aligned output, write the same
values into the array `d`.  `store` is the conversion of a number to the dtype of `d`. -/
def fill (store : R → R) (op : Op R n m) : List (Fin n) → (Fin n → R) → List (Fin m → R)
  | [], _ => []
  | i :: is, v =>
    let v := Function.update v i 1
    (fun j => store (op.direct v j)) :: fill store op is (Function.update v i 0)

/-- The loop of the in-place branch: src/pyoperators/core.py:555-563. -/
def fillInplace (store : R → R) (op : Op R n m) : List (Fin n) → (ℕ → R) → List (Fin m → R)
  | [], _ => []
  | i :: is, u =>
    let u := fun k => if k < n then if k = i then 1 else 0 else u k
    let u := fun k => if k < m then store (op.inplace u k) else op.inplace u k
    (fun j => u j) :: fillInplace store op is u

/-- `todense(inplace=...)`: src/pyoperators/core.py:506-564.  `junk` is what `empty` returns; `d.T` is the transpose of the array. -/
def todense (store : R → R) (junk : ℕ → R) (op : Op R n m) (inplace : Bool) : Matrix (Fin m) (Fin n) R :=
  let d := if inplace then fillInplace store op (List.finRange n) junk else fill store op (List.finRange n) fun _ => 0
  fun j i => (d.getD i fun _ => 0) j

/-- The conversion to the dtype int, which is that of the matrix if the operator has no dtype: src/pyoperators/core.py:538.  The direct
method assigns the values as `out[...] = values`. -/
def toInt (x : ℚ) : ℚ := if 0 ≤ x then ⌊x⌋ else ⌈x⌉

/-- `matvec(x)`: src/pyoperators/core.py:566-573.  `none` is the exception of `v.reshape(shapein)`: the number of elements is not the one of
the input shape. -/
def matvec (op : Op R n m) (x : List R) : Option (List R) :=
  if h : x.length = n then some (List.ofFn (op.direct fun i => x[i])) else none

/-! ### Specification -/

/-- The operator may be applied in place: the output is the same, whatever the rest of the memory. -/
def Op.Inplace (op : Op R n m) : Prop := ∀ u (j : Fin m), op.inplace u j = op.direct (fun i => u i) j

/-- The unit vector. -/
def unit (i : Fin n) : Fin n → R := fun k => if k = i then 1 else 0

/-- The dtype of the matrix represents its elements. -/
def Represents (store : R → R) (op : Op R n m) : Prop := ∀ i j, store (op.direct (unit i) j) = op.direct (unit i) j

/-! ### Proofs -/

theorem fill_eq (store : R → R) (op : Op R n m) : ∀ (is : List (Fin n)) (v : Fin n → R), v = (fun _ => 0) →
    fill store op is v = is.map fun i j => store (op.direct (unit i) j)
  | [], _, _ => rfl
  | i :: is, v, hv => by
    subst hv
    have e : Function.update (fun _ : Fin n => (0 : R)) i 1 = unit i := by
      funext k; simp [Function.update, unit]
    have e' : Function.update (unit i : Fin n → R) i 0 = fun _ => 0 := by
      funext k; by_cases h : k = i <;> simp [Function.update, unit, h]
    simp only [fill, e, e', List.map_cons, fill_eq store op is _ rfl]

theorem fillInplace_eq (store : R → R) (op : Op R n m) (h : op.Inplace) : ∀ (is : List (Fin n)) (u : ℕ → R),
    fillInplace store op is u = is.map fun i j => store (op.direct (unit i) j)
  | [], _ => rfl
  | i :: is, u => by
    simp only [fillInplace, List.map_cons, fillInplace_eq store op h is, List.cons.injEq, and_true]
    funext j
    rw [if_pos j.2, h]
    congr 2
    funext k
    simp [unit, Fin.ext_iff]

theorem todense_apply {store : R → R} {junk : ℕ → R} {op : Op R n m} {inplace : Bool} (h : inplace = true → op.Inplace) (j : Fin m) (i : Fin n) :
    todense store junk op inplace j i = store (op.direct (unit i) j) := by
  simp only [todense]
  have : (if inplace then fillInplace store op (List.finRange n) junk else fill store op (List.finRange n) fun _ => 0) =
      (List.finRange n).map fun i j => store (op.direct (unit i) j) := by
    split
    · next hi => exact fillInplace_eq store op (h hi) _ _
    · exact fill_eq store op _ _ rfl
  rw [this]
  simp

theorem out_apply (store : R → R) (junk : ℕ → R) (op : Op R n m) (j : Fin m) (i : Fin n) :
    todense store junk op false j i = store (op.direct (unit i) j) := todense_apply (fun h => by cases h) j i

/-- A linear function is the sum of its values for the unit vectors. -/
theorem linear_sum {f : (Fin n → R) → (Fin m → R)} (hf : IsLinearMap R f) (x : Fin n → R) (j : Fin m) :
    f x j = ∑ i, f (unit i) j * x i := by
  have e : ∀ i, (unit i : Fin n → R) = Pi.single i 1 := fun i => by funext k; simp [unit, Pi.single_apply]
  have key := LinearMap.congr_fun (Matrix.toLin'_toMatrix' (hf.mk' f)) x
  rw [Matrix.toLin'_apply] at key
  have kj := congrFun key j
  simp only [IsLinearMap.mk'_apply] at kj
  rw [← kj]
  simp [Matrix.mulVec, dotProduct, LinearMap.toMatrix'_apply, e]

/-- C86 (partial): the product of the dense representation by a vector is the operator applied to the vector, if the operator is linear and if
the dtype represents the elements.  The operator is applied in place or out of place. -/
theorem C86_product_partial {store : R → R} (junk : ℕ → R) {op : Op R n m} {inplace : Bool} (h : inplace = true → op.Inplace)
    (hl : IsLinearMap R op.direct) (hs : Represents store op) (x : Fin n → R) :
    (todense store junk op inplace).mulVec x = op.direct x := by
  funext j
  rw [linear_sum hl]
  simp only [Matrix.mulVec, dotProduct, todense_apply h]
  exact Finset.sum_congr rfl fun i _ => by rw [hs i j]

/-- C86 (partial): the dense representation determines the operator. -/
theorem C86_injective_partial {store : R → R} (junk : ℕ → R) {a b : Op R n m} (ha : IsLinearMap R a.direct) (hb : IsLinearMap R b.direct)
    (sa : Represents store a) (sb : Represents store b) : todense store junk a false = todense store junk b false ↔ a.direct = b.direct := by
  constructor
  · intro h
    funext x
    rw [← C86_product_partial junk (inplace := false) (fun h => by cases h) ha sa, h, C86_product_partial junk (inplace := false) (fun h => by cases h) hb sb]
  · intro h
    funext j i
    rw [out_apply, out_apply, h]

/-- C86 (partial): if an operator is the transpose of another one, its dense representation is the transpose of that of the other. -/
theorem C86_transpose_partial {store : R → R} (junk : ℕ → R) {a : Op R n m} {t : Op R m n}
    (ht : ∀ x y, ∑ j, y j * a.direct x j = ∑ i, t.direct y i * x i) :
    todense store junk t false = (todense store junk a false).transpose := by
  funext i j
  rw [Matrix.transpose_apply, out_apply, out_apply]
  have := ht (unit i) (unit j)
  simp only [unit, ite_mul, one_mul, zero_mul, mul_ite, mul_one, mul_zero, Finset.sum_ite_eq', Finset.mem_univ, if_true] at this
  congr 1
  exact this.symm

/-- C86 (partial): the dense representation of a composition is the product of the matrices. -/
theorem C86_composition_partial {store : R → R} (junk : ℕ → R) {a : Op R n m} {b : Op R l n} {c : Op R l m}
    (ha : IsLinearMap R a.direct) (sa : Represents store a) (sb : Represents store b) (sc : Represents store c)
    (hc : ∀ x, c.direct x = a.direct (b.direct x)) :
    todense store junk c false = todense store junk a false * todense store junk b false := by
  funext j i
  rw [Matrix.mul_apply, out_apply, sc, hc, linear_sum ha]
  simp only [out_apply]
  exact Finset.sum_congr rfl fun k _ => by rw [sa k j, sb i k]

/-- C86 (partial): `matvec` accepts the vectors that have the length of the input and returns the product by the dense representation. -/
theorem C86_matvec_partial {store : R → R} (junk : ℕ → R) {op : Op R n m} (hl : IsLinearMap R op.direct) (hs : Represents store op) (x : List R) :
    ((∃ y, matvec op x = some y) ↔ x.length = n) ∧ ∀ v : Fin n → R, matvec op (List.ofFn v) =
      some (List.ofFn ((todense store junk op false).mulVec v)) := by
  constructor
  · simp only [matvec]
    split <;> simp_all
  · intro v
    rw [C86_product_partial junk (inplace := false) (fun h => by cases h) hl hs]
    simp [matvec]

/-- Division by two, by an operator without dtype. -/
def half : Op ℚ 2 2 := ⟨fun x i => x i / 2, fun u k => u k / 2⟩

/-- C86: the matrix of an operator without dtype has integer elements: the one of a division by two is zero. -/
theorem C86_integer_fails (junk : ℕ → ℚ) : IsLinearMap ℚ half.direct ∧ half.Inplace ∧ todense toInt junk half false = 0 ∧
    todense id junk half false = Matrix.of ![![1 / 2, 0], ![0, 1 / 2]] := by
  have hh : ⌊(2 : ℚ)⁻¹⌋ = 0 := by rw [Int.floor_eq_iff]; norm_num
  refine ⟨⟨fun x y => ?_, fun c x => ?_⟩, fun u j => rfl, ?_, ?_⟩
  · funext i; simp [half]; ring
  · funext i; simp [half]; ring
  · funext j i
    rw [out_apply]
    simp only [half, unit, toInt]
    split <;> simp [hh]
  · funext j i
    rw [out_apply]
    fin_cases i <;> fin_cases j <;> simp [half, unit]

/-- The differences of successive elements, in place. -/
def differences : Op ℤ 3 2 := ⟨fun x i => x i.succ - x i.castSucc, fun u k => u (k + 1) - u k⟩

/-- The hypotheses hold for the differences, and this is the matrix. -/
example (junk : ℕ → ℤ) : IsLinearMap ℤ differences.direct ∧ differences.Inplace ∧ Represents id differences ∧
    todense id junk differences true = Matrix.of ![![-1, 1, 0], ![0, -1, 1]] := by
  have hi : differences.Inplace := fun u j => by simp [differences]
  refine ⟨⟨fun x y => ?_, fun c x => ?_⟩, hi, fun _ _ => rfl, ?_⟩
  · funext i; simp [differences]; ring
  · funext i; simp [differences]; ring
  · funext j i
    rw [todense_apply fun _ => hi]
    fin_cases i <;> fin_cases j <;> simp [differences, unit]

/-- The transpose of the differences. -/
example (x : Fin 3 → ℤ) (y : Fin 2 → ℤ) : ∑ j, y j * differences.direct x j = ∑ i, ![-y 0, y 0 - y 1, y 1] i * x i := by
  simp [Fin.sum_univ_succ, differences]; ring

/-- The product of the differences by a vector. -/
example : matvec differences [1, 4, 9] = some [3, 5] ∧ matvec differences [1, 4] = none := by decide

end Verif.Todense
