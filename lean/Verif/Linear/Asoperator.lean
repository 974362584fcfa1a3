import Mathlib.LinearAlgebra.Matrix.ConjTranspose
import Mathlib.LinearAlgebra.Matrix.Notation
import Mathlib.Data.Complex.Basic
import Mathlib.Tactic.FinCases
import Mathlib.Tactic.NormNum

/-
Model of the conversions to and from operators: src/pyoperators/core.py:4841-4917 (`asoperator`), 4920-4924 (`asoperator1d`), 566-576
(`Operator.matvec`, `rmatvec`), which is the interface of the linear operators of SciPy.
-/

namespace Verif.Asoperator

open Matrix

/-! ### Model -/

variable {K : Type} [CommRing K] [StarRing K]

/-- An object with the methods of the linear operators of SciPy, of the given shape. -/
structure LinearOperator (K : Type) (m n : ℕ) where
  matvec : (Fin n → K) → (Fin m → K)
  rmatvec : (Fin m → K) → (Fin n → K)

/-- The argument of `asoperator`: an array with two dimensions (or a `np.matrix`, or nested lists), or a linear operator of SciPy, that are not
necessarily square; and, if they are, a scalar or an array with one dimension. -/
inductive Arg (K : Type) : ℕ → ℕ → Type where
  | scalar {n : ℕ} (c : K) : Arg K n n
  | vector {n : ℕ} (v : Fin n → K) : Arg K n n
  | array {m n : ℕ} (a : Matrix (Fin m) (Fin n) K) : Arg K m n
  | linear {m n : ℕ} (l : LinearOperator K m n) : Arg K m n

/-- An operator: its direct and transpose methods. -/
structure Op (K : Type) (m n : ℕ) where
  direct : (Fin n → K) → (Fin m → K)
  transpose : (Fin m → K) → (Fin n → K)

/-- The transpose: src/pyoperators/core.py:718-722 and 764-890. -/
def Op.T {m n : ℕ} (o : Op K m n) : Op K n m := ⟨o.transpose, o.direct⟩

/-- The conjugate: src/pyoperators/core.py:416-423 (`Operator.conjugate`). -/
def Op.C {m n : ℕ} (o : Op K m n) : Op K m n := ⟨fun x => star (o.direct (star x)), fun y => star (o.transpose (star y))⟩

/-- The adjoint. -/
def Op.H {m n : ℕ} (o : Op K m n) : Op K n m := o.T.C

/-- `asoperator(x)`: `HomothetyOperator`, `DiagonalOperator`, `DenseOperator` (their transposes use the same data), or the operator of lines 4883-4901,
whose transpose is `x.rmatvec`. -/
def asoperator {m n : ℕ} : Arg K m n → Op K m n
  | .scalar c => ⟨fun x i => c * x i, fun y i => c * y i⟩
  | .vector v => ⟨fun x i => v i * x i, fun y i => v i * y i⟩
  | .array a => ⟨fun x i => ∑ j, a i j * x j, fun y j => ∑ i, a i j * y i⟩
  | .linear l => ⟨l.matvec, l.rmatvec⟩

/-- The operator used by SciPy: it calls the methods `matvec` and `rmatvec` of the operator, src/pyoperators/core.py:566-576.  The operator has an
input and an output with one dimension. -/
def toScipy {m n : ℕ} (o : Op K m n) : LinearOperator K m n := ⟨o.direct, o.T.direct⟩

/-! ### Specification -/

/-- The method `rmatvec` of the linear operators of SciPy is the product by the adjoint of the matrix: documentation of
`scipy.sparse.linalg.LinearOperator`. -/
def LinearOperator.Represents {m n : ℕ} (l : LinearOperator K m n) (a : Matrix (Fin m) (Fin n) K) : Prop :=
  (∀ x, l.matvec x = a *ᵥ x) ∧ ∀ y, l.rmatvec y = aᴴ *ᵥ y

/-- The matrix of the argument. -/
inductive HasMatrix : ∀ {m n : ℕ}, Arg K m n → Matrix (Fin m) (Fin n) K → Prop where
  | scalar {n : ℕ} (c : K) : HasMatrix (.scalar c) (c • (1 : Matrix (Fin n) (Fin n) K))
  | vector {n : ℕ} (v : Fin n → K) : HasMatrix (.vector v) (diagonal v)
  | array {m n : ℕ} (a : Matrix (Fin m) (Fin n) K) : HasMatrix (.array a) a
  | linear {m n : ℕ} {l : LinearOperator K m n} {a : Matrix (Fin m) (Fin n) K} (h : l.Represents a) : HasMatrix (.linear l) a

/-- The argument is not a linear operator of SciPy. -/
def Arg.isArray {m n : ℕ} : Arg K m n → Prop
  | .linear _ => False
  | _ => True

/-! ### Proofs -/

/-- C90: the operator is the product by the matrix. -/
theorem C90_direct {m n : ℕ} {x : Arg K m n} {a : Matrix (Fin m) (Fin n) K} (h : HasMatrix x a) (v : Fin n → K) :
    (asoperator x).direct v = a *ᵥ v := by
  cases h with
  | scalar c => funext i; simp [asoperator, smul_mulVec]
  | vector d => funext i; simp [asoperator, mulVec_diagonal]
  | array a => funext i; rfl
  | linear h => exact h.1 v

theorem transpose_array {m n : ℕ} {x : Arg K m n} {a : Matrix (Fin m) (Fin n) K} (h : HasMatrix x a) (hx : x.isArray) (v : Fin m → K) :
    (asoperator x).transpose v = aᵀ *ᵥ v := by
  cases h with
  | scalar c => funext i; simp [asoperator, smul_mulVec]
  | vector d => funext i; simp [asoperator, mulVec_diagonal]
  | array a => funext i; rfl
  | linear h => exact hx.elim

theorem star_mulVec' {m n : ℕ} (a : Matrix (Fin m) (Fin n) K) (v : Fin n → K) : star (a *ᵥ star v) = (a.map star) *ᵥ v := by
  funext i
  simp [mulVec, dotProduct, star_sum, mul_comm]

/-- C90: the transpose, the conjugate and the adjoint are those of the matrix, for arrays and scalars, and for the linear operators of SciPy with
real elements. -/
theorem C90_associated_partial {m n : ℕ} {x : Arg K m n} {a : Matrix (Fin m) (Fin n) K} (h : HasMatrix x a)
    (hx : x.isArray ∨ ∀ i j, star (a i j) = a i j) :
    (∀ v, (asoperator x).T.direct v = aᵀ *ᵥ v) ∧ (∀ v, (asoperator x).C.direct v = (a.map star) *ᵥ v) ∧ ∀ v, (asoperator x).H.direct v = aᴴ *ᵥ v := by
  have ht : ∀ v, (asoperator x).transpose v = aᵀ *ᵥ v := by
    intro v
    rcases hx with hx | hx
    · exact transpose_array h hx v
    · cases h with
      | scalar c => exact transpose_array (.scalar c) (by simp [Arg.isArray]) v
      | vector d => exact transpose_array (.vector d) (by simp [Arg.isArray]) v
      | array a => exact transpose_array (.array a) (by simp [Arg.isArray]) v
      | linear h =>
        show LinearOperator.rmatvec _ v = _
        rw [h.2 v]
        congr 1
        ext i j
        exact hx j i
  refine ⟨ht, fun v => ?_, fun v => ?_⟩
  · show star ((asoperator x).direct (star v)) = _
    rw [C90_direct h, star_mulVec']
  · show star ((asoperator x).transpose (star v)) = _
    rw [ht, star_mulVec']
    rfl

omit [StarRing K] in
/-- C90: SciPy's view of an operator, converted back to an operator, is the operator. -/
theorem C90_roundtrip {m n : ℕ} (o : Op K m n) : (∀ x, (asoperator (.linear (toScipy o))).direct x = o.direct x) ∧
    ∀ y, (asoperator (.linear (toScipy o))).T.direct y = o.T.direct y := ⟨fun _ => rfl, fun _ => rfl⟩

/-- C90: for arrays and scalars that are real, SciPy's view of the operator represents the matrix. -/
theorem C90_scipy_partial {m n : ℕ} {x : Arg K m n} {a : Matrix (Fin m) (Fin n) K} (h : HasMatrix x a) (hr : ∀ i j, star (a i j) = a i j) :
    (toScipy (asoperator x)).Represents a := by
  refine ⟨C90_direct h, fun y => ?_⟩
  show (asoperator x).T.direct y = _
  rw [(C90_associated_partial h (.inr hr)).1 y]
  congr 1
  ext i j
  exact (hr j i).symm

/-- The linear operator of SciPy for the matrix. -/
def scipyMatrix {m n : ℕ} (a : Matrix (Fin m) (Fin n) K) : LinearOperator K m n := ⟨a.mulVec, aᴴ.mulVec⟩

theorem scipyMatrix_represents {m n : ℕ} (a : Matrix (Fin m) (Fin n) K) : (scipyMatrix a).Represents a := ⟨fun _ => rfl, fun _ => rfl⟩

/-- The matrix with the element i. -/
def imaginary : Matrix (Fin 1) (Fin 1) ℂ := fun _ _ => Complex.I

/-- C90: the transpose of the operator obtained from a linear operator of SciPy is its adjoint, and its adjoint is its transpose. -/
theorem C90_complex_fails : HasMatrix (.linear (scipyMatrix imaginary)) imaginary ∧
    (asoperator (.linear (scipyMatrix imaginary))).T.direct (fun _ => 1) ≠ imaginaryᵀ *ᵥ (fun _ => 1) ∧
    (asoperator (.linear (scipyMatrix imaginary))).H.direct (fun _ => 1) ≠ imaginaryᴴ *ᵥ (fun _ => 1) := by
  have e : -Complex.I ≠ Complex.I := by
    intro h
    have := congrArg Complex.im h
    simp at this
    exact absurd this (by norm_num)
  refine ⟨.linear (scipyMatrix_represents _), fun h => ?_, fun h => ?_⟩
  · have := congrFun h 0
    simp [asoperator, Op.T, scipyMatrix, mulVec, dotProduct, imaginary] at this
    exact e this
  · have := congrFun h 0
    simp [asoperator, Op.T, Op.C, Op.H, scipyMatrix, mulVec, dotProduct, imaginary] at this
    exact e this.symm

/-- C90: SciPy's view of a complex operator does not represent its matrix. -/
theorem C90_scipy_fails : HasMatrix (.array imaginary) imaginary ∧ ¬ (toScipy (asoperator (.array imaginary))).Represents imaginary := by
  refine ⟨.array _, fun h => ?_⟩
  have := congrFun (h.2 fun _ => 1) 0
  simp [asoperator, toScipy, Op.T, mulVec, dotProduct, imaginary] at this
  have := congrArg Complex.im this
  simp at this
  exact absurd this (by norm_num)

/-- A real matrix that is not symmetric, and a complex one. -/
example : HasMatrix (.linear (scipyMatrix !![1, 2; 3, 4])) (!![1, 2; 3, 4] : Matrix (Fin 2) (Fin 2) ℤ) ∧
    (∀ i j, star ((!![1, 2; 3, 4] : Matrix (Fin 2) (Fin 2) ℤ) i j) = (!![1, 2; 3, 4] : Matrix (Fin 2) (Fin 2) ℤ) i j) ∧
    (asoperator (.linear (scipyMatrix (!![1, 2; 3, 4] : Matrix (Fin 2) (Fin 2) ℤ)))).T.direct ![1, 10] = ![31, 42] ∧
    (asoperator (.array (!![1, 2, 3; 4, 5, 6] : Matrix (Fin 2) (Fin 3) ℤ))).direct ![1, 10, 100] = ![321, 654] ∧
    Arg.isArray (.array imaginary) :=
  ⟨.linear (scipyMatrix_represents _), fun i j => by fin_cases i <;> fin_cases j <;> rfl, by decide, by decide, trivial⟩

end Verif.Asoperator
