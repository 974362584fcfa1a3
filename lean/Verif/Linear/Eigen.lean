import Mathlib.LinearAlgebra.Matrix.NonsingularInverse
import Mathlib.LinearAlgebra.Matrix.Trace
import Mathlib.LinearAlgebra.Matrix.ZPow
import Mathlib.LinearAlgebra.Matrix.Notation
import Mathlib.Analysis.SpecialFunctions.Log.Basic
import Mathlib.Data.Finset.Max
import Mathlib.Tactic.FinCases
import Mathlib.Tactic.Linarith
import Mathlib.Tactic.NormNum

/-
Model of the operators defined by their eigenvalues and eigenvectors: src/pyoperators/linear.py:1862-1942
(`EigendecompositionOperator`), in exact real arithmetic, and property C74.

Arrays are functions of their indices.  The case in which the eigenvalues or the eigenvectors are computed by `eigsh` is not modelled: the
theorems are about the arrays v and w.
-/

namespace Verif.Eigen

open Matrix

/-- The attributes: the eigenvectors are the columns of v.  src/pyoperators/linear.py:1894-1903. -/
structure Eigen (n k : Nat) where
  v : Fin n → Fin k → ℝ
  w : Fin k → ℝ

variable {n k : Nat}

/-- The matrix of the composition `[V, W, V.T]` of a dense, a diagonal and a dense operator: src/pyoperators/linear.py:1897-1902. -/
def Eigen.matrix (e : Eigen n k) : Matrix (Fin n) (Fin n) ℝ :=
  fun i j => ∑ l, e.v i l * (e.w l * e.v j l)

/-- `det`: src/pyoperators/linear.py:1909-1913. -/
def Eigen.det (e : Eigen n k) : ℝ := ∏ l, e.w l

/-- `logdet`: src/pyoperators/linear.py:1915-1920. -/
noncomputable def Eigen.logdet (e : Eigen n k) : ℝ := ∑ l, Real.log (e.w l)

/-- `__pow__`: src/pyoperators/linear.py:1922-1927.  The exponent is an integer; the eigenvalues are floating point numbers. -/
noncomputable def Eigen.pow (e : Eigen n k) (m : Int) : Eigen n k := ⟨e.v, fun l => e.w l ^ m⟩

/-- The rule for the inverse: src/pyoperators/linear.py:1903. -/
noncomputable def Eigen.inverse (e : Eigen n k) : Eigen n k := e.pow (-1)

/-- `trace`: src/pyoperators/linear.py:1929-1930. -/
def Eigen.trace (e : Eigen n k) : ℝ := ∑ l, e.w l

/-- `nze.max() / nze.min()`: src/pyoperators/linear.py:1932-1942.  `none` is the ValueError raised if there is no eigenvalue different
from zero. -/
noncomputable def Eigen.cond (e : Eigen n k) : Option ℝ :=
  let nze := (Finset.univ.image e.w).filter (· ≠ 0)
  if h : nze.Nonempty then some (nze.max' h / nze.min' h) else none

/-! ### Specification -/

/-- The eigenvectors are orthogonal to each other and of length one. -/
def Eigen.Orthonormal (e : Eigen n k) : Prop := ∀ a b, ∑ i, e.v i a * e.v i b = if a = b then 1 else 0

/-- The square of the length of a vector. -/
def sqLength (x : Fin n → ℝ) : ℝ := ∑ i, x i * x i

/-! ### Proofs -/

/-- The eigenvectors as a matrix. -/
def Eigen.V (e : Eigen n k) : Matrix (Fin n) (Fin k) ℝ := Matrix.of e.v

theorem matrix_eq (e : Eigen n k) : e.matrix = e.V * diagonal e.w * e.Vᵀ := by
  ext i j
  rw [Matrix.mul_assoc, Matrix.mul_apply]
  simp only [Eigen.matrix, diagonal_mul, transpose_apply]
  rfl

theorem orthonormal_iff (e : Eigen n k) : e.Orthonormal ↔ e.Vᵀ * e.V = 1 := by
  constructor
  · intro h
    ext a b
    rw [Matrix.mul_apply, Matrix.one_apply]
    exact h a b
  · intro h a b
    have := congrFun (congrFun h a) b
    rw [Matrix.mul_apply, Matrix.one_apply] at this
    exact this

theorem mul_matrix {e f : Eigen n k} (h : e.Orthonormal) (hv : e.v = f.v) :
    e.matrix * f.matrix = e.V * diagonal (fun l => e.w l * f.w l) * e.Vᵀ := by
  have hV : f.V = e.V := by unfold Eigen.V; rw [hv]
  rw [matrix_eq, matrix_eq, hV]
  have := (orthonormal_iff e).1 h
  calc e.V * diagonal e.w * e.Vᵀ * (e.V * diagonal f.w * e.Vᵀ)
      = e.V * diagonal e.w * (e.Vᵀ * e.V) * diagonal f.w * e.Vᵀ := by simp only [Matrix.mul_assoc]
    _ = _ := by rw [this, Matrix.mul_one, Matrix.mul_assoc e.V, diagonal_mul_diagonal]

theorem V_right {e : Eigen n n} (h : e.Orthonormal) : e.V * e.Vᵀ = 1 := mul_eq_one_comm.1 ((orthonormal_iff e).1 h)

/-- **C74** The operator is symmetric, and its eigenvalues and eigenvectors are those it was given. -/
theorem C74_eigen (e : Eigen n k) (h : e.Orthonormal) :
    (∀ i j, e.matrix i j = e.matrix j i) ∧ ∀ (l : Fin k) (i : Fin n), ∑ j, e.matrix i j * e.v j l = e.w l * e.v i l := by
  constructor
  · intro i j
    exact Finset.sum_congr rfl fun l _ => by ring
  · intro l i
    have h1 : e.matrix * e.V = e.V * diagonal e.w := by
      rw [matrix_eq, Matrix.mul_assoc, (orthonormal_iff e).1 h, Matrix.mul_one]
    have := congrFun (congrFun h1 i) l
    rw [Matrix.mul_apply, mul_diagonal] at this
    rw [mul_comm]
    exact this

/-- **C74** A positive power of the operator is the product of the operator by itself, even if some eigenvectors are missing.  The other
powers are right if no eigenvector is missing and no eigenvalue is zero (for the negative ones).  Missing: the powers that are zero or
negative of an incomplete decomposition, see `C74_power_fails` and `C74_inverse_fails`. -/
theorem C74_power_partial (e : Eigen n k) (h : e.Orthonormal) :
    (∀ m : Nat, 0 < m → (e.pow m).matrix = e.matrix ^ m) ∧
      (k = n → (e.pow 0).matrix = 1 ∧ ((∀ l, e.w l ≠ 0) → ∀ m : Int, (e.pow m).matrix = e.matrix ^ m)) := by
  have pos : ∀ m : Nat, (e.pow (m + 1 : Nat)).matrix = e.matrix ^ (m + 1) := by
    intro m
    induction m with
    | zero =>
      rw [zero_add, pow_one]
      congr 1
      simp [Eigen.pow]
    | succ m ih =>
      rw [_root_.pow_succ, ← ih]
      rw [mul_matrix (e := e.pow (m + 1 : Nat)) (f := e) h rfl, matrix_eq]
      have : (e.pow (m + 1 + 1 : Nat)).w = fun l => (e.pow (m + 1 : Nat)).w l * e.w l := by
        funext l
        simp only [Eigen.pow, zpow_natCast]
        rw [_root_.pow_succ]
      rw [this]
      rfl
  refine ⟨fun m hm => ?_, ?_⟩
  · obtain ⟨m, rfl⟩ := Nat.exists_eq_succ_of_ne_zero hm.ne'
    exact pos m
  · rintro rfl
    have zero : (e.pow 0).matrix = 1 := by
      rw [matrix_eq]
      have : (e.pow 0).w = 1 := by funext l; simp [Eigen.pow]
      rw [this]
      show e.V * diagonal 1 * e.Vᵀ = 1
      rw [show diagonal (1 : Fin k → ℝ) = 1 from diagonal_one, Matrix.mul_one, V_right h]
    refine ⟨zero, fun hw m => ?_⟩
    have nat : ∀ m : Nat, (e.pow m).matrix = e.matrix ^ m := fun m => by
      cases m with
      | zero => rw [_root_.pow_zero]; exact zero
      | succ m => exact pos m
    cases m with
    | ofNat m => rw [Int.ofNat_eq_natCast, zpow_natCast]; exact nat m
    | negSucc m =>
      rw [zpow_negSucc]
      refine (inv_eq_left_inv ?_).symm
      rw [← nat, mul_matrix (e := e.pow (Int.negSucc m)) (f := e.pow (m + 1 : Nat)) h rfl]
      have : (fun l => (e.pow (Int.negSucc m)).w l * (e.pow (m + 1 : Nat)).w l) = 1 := by
        funext l
        simp only [Eigen.pow, zpow_negSucc, zpow_natCast, Pi.one_apply]
        exact inv_mul_cancel₀ (pow_ne_zero _ (hw l))
      rw [this, show diagonal (1 : Fin k → ℝ) = 1 from diagonal_one, Matrix.mul_one]
      exact V_right h

/-- **C74** If no eigenvector is missing and no eigenvalue is zero, A.I is the inverse of the operator. -/
theorem C74_inverse_partial (e : Eigen n n) (h : e.Orthonormal) (hw : ∀ l, e.w l ≠ 0) :
    e.inverse.matrix * e.matrix = 1 ∧ e.matrix * e.inverse.matrix = 1 := by
  have h1 : e.inverse.matrix * e.matrix = 1 := by
    rw [mul_matrix (e := e.inverse) (f := e) h rfl]
    have : (fun l => e.inverse.w l * e.w l) = 1 := by
      funext l
      simp only [Eigen.inverse, Eigen.pow, _root_.zpow_neg, _root_.zpow_one, Pi.one_apply]
      exact inv_mul_cancel₀ (hw l)
    rw [this, show diagonal (1 : Fin n → ℝ) = 1 from diagonal_one, Matrix.mul_one]
    exact V_right h
  exact ⟨h1, mul_eq_one_comm.1 h1⟩

/-- **C74** The trace is that of the operator. -/
theorem C74_trace (e : Eigen n k) (h : e.Orthonormal) : e.trace = ∑ i, e.matrix i i := by
  show _ = Matrix.trace e.matrix
  rw [matrix_eq, trace_mul_comm, ← Matrix.mul_assoc, (orthonormal_iff e).1 h, Matrix.one_mul, trace_diagonal]
  rfl

/-- **C74** If no eigenvector is missing, `det` is the determinant of the operator and, if the eigenvalues are positive, `logdet` is its
logarithm.  Missing: the incomplete decompositions, see `C74_det_fails`. -/
theorem C74_det_partial (e : Eigen n n) (h : e.Orthonormal) :
    e.det = e.matrix.det ∧ ((∀ l, 0 < e.w l) → e.logdet = Real.log e.matrix.det) := by
  have hd : e.det = e.matrix.det := by
    rw [matrix_eq, det_mul, det_mul, det_diagonal, mul_right_comm, ← det_mul, V_right h, det_one, one_mul]
    rfl
  refine ⟨hd, fun hw => ?_⟩
  rw [← hd]
  exact (Real.log_prod fun l _ => (hw l).ne').symm

theorem sqLength_eq (x : Fin n → ℝ) : sqLength x = x ⬝ᵥ x := rfl

theorem sqLength_V {e : Eigen n n} (h : e.Orthonormal) (x : Fin n → ℝ) : sqLength (e.Vᵀ *ᵥ x) = sqLength x := by
  rw [sqLength_eq, dotProduct_mulVec, vecMul_transpose, mulVec_mulVec, V_right h, one_mulVec]
  rfl

theorem sqLength_matrix {e : Eigen n n} (h : e.Orthonormal) (x : Fin n → ℝ) :
    sqLength (fun i => ∑ j, e.matrix i j * x j) = ∑ l, e.w l ^ 2 * (e.Vᵀ *ᵥ x) l ^ 2 := by
  have : (fun i => ∑ j, e.matrix i j * x j) = e.V *ᵥ (diagonal e.w *ᵥ (e.Vᵀ *ᵥ x)) := by
    rw [mulVec_mulVec, mulVec_mulVec, ← matrix_eq]
    rfl
  rw [this, sqLength_eq, dotProduct_mulVec, vecMul_mulVec, (orthonormal_iff e).1 h, Matrix.vecMul_one]
  exact Finset.sum_congr rfl fun l _ => by rw [mulVec_diagonal]; ring

/-- **C74** If no eigenvector is missing and the eigenvalues are positive, `cond` is the condition number: it bounds the ratio of the
stretching factors of two vectors, and is attained.  Missing: the other eigenvalues, see `C74_cond_fails`. -/
theorem C74_cond_partial (e : Eigen n n) (h : e.Orthonormal) (hw : ∀ l, 0 < e.w l) (hn : 0 < n) :
    ∃ c, e.cond = some c ∧ 0 < c ∧
      (∀ x y : Fin n → ℝ, sqLength (fun i => ∑ j, e.matrix i j * x j) * sqLength y ≤
        c ^ 2 * (sqLength (fun i => ∑ j, e.matrix i j * y j) * sqLength x)) ∧
      ∃ x y : Fin n → ℝ, sqLength x = 1 ∧ sqLength y = 1 ∧ sqLength (fun i => ∑ j, e.matrix i j * x j) =
        c ^ 2 * sqLength (fun i => ∑ j, e.matrix i j * y j) := by
  have hne : ((Finset.univ.image e.w).filter (· ≠ 0)).Nonempty :=
    ⟨e.w ⟨0, hn⟩, Finset.mem_filter.2 ⟨Finset.mem_image_of_mem _ (Finset.mem_univ _), (hw _).ne'⟩⟩
  generalize hM : ((Finset.univ.image e.w).filter (· ≠ 0)).max' hne = M
  generalize hm : ((Finset.univ.image e.w).filter (· ≠ 0)).min' hne = m
  have memM := Finset.max'_mem _ hne
  have memm := Finset.min'_mem _ hne
  rw [hM, Finset.mem_filter, Finset.mem_image] at memM
  rw [hm, Finset.mem_filter, Finset.mem_image] at memm
  obtain ⟨⟨a, -, ha⟩, -⟩ := memM
  obtain ⟨⟨b, -, hb⟩, -⟩ := memm
  have hpm : 0 < m := hb ▸ hw b
  have hpM : 0 < M := ha ▸ hw a
  have le : ∀ l, m ≤ e.w l ∧ e.w l ≤ M := fun l => by
    have : e.w l ∈ (Finset.univ.image e.w).filter (· ≠ 0) :=
      Finset.mem_filter.2 ⟨Finset.mem_image_of_mem _ (Finset.mem_univ _), (hw _).ne'⟩
    exact ⟨hm ▸ Finset.min'_le _ _ this, hM ▸ Finset.le_max' _ _ this⟩
  have upper : ∀ x, sqLength (fun i => ∑ j, e.matrix i j * x j) ≤ M ^ 2 * sqLength x := by
    intro x
    rw [sqLength_matrix h, ← sqLength_V h x, sqLength, Finset.mul_sum]
    refine Finset.sum_le_sum fun l _ => ?_
    rw [← sq]
    exact mul_le_mul_of_nonneg_right (pow_le_pow_left₀ (hw l).le (le l).2 2) (sq_nonneg _)
  have lower : ∀ x, m ^ 2 * sqLength x ≤ sqLength (fun i => ∑ j, e.matrix i j * x j) := by
    intro x
    rw [sqLength_matrix h, ← sqLength_V h x, sqLength, Finset.mul_sum]
    refine Finset.sum_le_sum fun l _ => ?_
    rw [← sq]
    exact mul_le_mul_of_nonneg_right (pow_le_pow_left₀ hpm.le (le l).1 2) (sq_nonneg _)
  have unit : ∀ l, sqLength (fun i => e.v i l) = 1 := fun l => by
    have := h l l
    rw [if_pos rfl] at this
    exact this
  have image : ∀ l, sqLength (fun i => ∑ j, e.matrix i j * e.v j l) = e.w l ^ 2 := fun l => by
    have : (fun i => ∑ j, e.matrix i j * e.v j l) = fun i => e.w l * e.v i l := funext fun i => (C74_eigen e h).2 l i
    rw [this]
    have u := unit l
    simp only [sqLength] at u ⊢
    rw [show (∑ i, e.w l * e.v i l * (e.w l * e.v i l)) = e.w l ^ 2 * ∑ i, e.v i l * e.v i l by
      rw [Finset.mul_sum]; exact Finset.sum_congr rfl fun i _ => by ring, u, mul_one]
  have nonneg : ∀ x : Fin n → ℝ, 0 ≤ sqLength x := fun x => Finset.sum_nonneg fun i _ => mul_self_nonneg _
  refine ⟨M / m, ?_, div_pos hpM hpm, fun x y => ?_, ⟨fun i => e.v i a, fun i => e.v i b, unit a, unit b, ?_⟩⟩
  · simp only [Eigen.cond, dif_pos hne, hM, hm]
  · rw [div_pow]
    calc _ ≤ M ^ 2 * sqLength x * sqLength y := mul_le_mul_of_nonneg_right (upper x) (nonneg y)
      _ = M ^ 2 / m ^ 2 * (m ^ 2 * sqLength y * sqLength x) := by
        have := hpm.ne'
        field_simp
      _ ≤ _ := by
        refine mul_le_mul_of_nonneg_left (mul_le_mul_of_nonneg_right (lower y) (nonneg x)) ?_
        positivity
  · rw [image, image, ha, hb]
    have := hpm.ne'
    field_simp

/-! ### Counterexamples -/

/-- The first vector of the basis of the plane, with the eigenvalue 2. -/
def oneOfTwo : Eigen 2 1 := ⟨fun i _ => if i = 0 then 1 else 0, fun _ => 2⟩

theorem oneOfTwo_orthonormal : oneOfTwo.Orthonormal := by
  intro a b
  fin_cases a; fin_cases b
  simp [oneOfTwo]

/-- **C74** If an eigenvector is missing, the power zero is not the identity. -/
theorem C74_power_fails : oneOfTwo.Orthonormal ∧ (oneOfTwo.pow 0).matrix ≠ oneOfTwo.matrix ^ 0 := by
  refine ⟨oneOfTwo_orthonormal, fun h => ?_⟩
  have := congrFun (congrFun h 1) 1
  simp [oneOfTwo, Eigen.pow, Eigen.matrix] at this

/-- **C74** If an eigenvector is missing, the product of A.I by A is not the identity, into which it is simplified. -/
theorem C74_inverse_fails : oneOfTwo.Orthonormal ∧ (∀ l, oneOfTwo.w l ≠ 0) ∧ oneOfTwo.inverse.matrix * oneOfTwo.matrix ≠ 1 := by
  refine ⟨oneOfTwo_orthonormal, fun l => by simp [oneOfTwo], fun h => ?_⟩
  have := congrFun (congrFun h 1) 1
  simp [oneOfTwo, Eigen.inverse, Eigen.pow, Eigen.matrix, Matrix.mul_apply] at this

/-- **C74** If an eigenvector is missing, `det` is not the determinant, which is zero. -/
theorem C74_det_fails : oneOfTwo.Orthonormal ∧ oneOfTwo.det = 2 ∧ oneOfTwo.matrix.det = 0 := by
  refine ⟨oneOfTwo_orthonormal, by simp [oneOfTwo, Eigen.det], ?_⟩
  rw [det_fin_two]
  simp [oneOfTwo, Eigen.matrix]

/-- The reflection of the plane, with the eigenvalues -1 and 1. -/
def reflection : Eigen 2 2 := ⟨fun i l => if i = l then 1 else 0, fun l => if l = 0 then -1 else 1⟩

theorem reflection_orthonormal : reflection.Orthonormal := by
  intro a b
  fin_cases a <;> fin_cases b <;> simp [reflection]

/-- **C74** If the eigenvalues have different signs, `cond` is negative: it is -1 for a reflection, whose condition number is 1. -/
theorem C74_cond_fails : reflection.Orthonormal ∧ reflection.cond = some (-1) ∧
    ∀ x, sqLength (fun i => ∑ j, reflection.matrix i j * x j) = sqLength x := by
  refine ⟨reflection_orthonormal, ?_, fun x => ?_⟩
  · have hs : (Finset.univ.image reflection.w).filter (· ≠ 0) = {-1, 1} := by
      ext x
      simp only [Finset.mem_filter, Finset.mem_image, Finset.mem_univ, true_and, Finset.mem_insert, Finset.mem_singleton]
      constructor
      · rintro ⟨⟨l, rfl⟩, -⟩
        fin_cases l <;> simp [reflection]
      · rintro (rfl | rfl)
        · exact ⟨⟨0, by simp [reflection]⟩, by norm_num⟩
        · exact ⟨⟨1, by simp [reflection]⟩, by norm_num⟩
    have hp : ({-1, 1} : Finset ℝ).Nonempty := by simp
    simp only [Eigen.cond, hs]
    rw [dif_pos hp]
    have h1 : ({-1, 1} : Finset ℝ).max' hp = 1 := by
      apply le_antisymm
      · exact Finset.max'_le _ _ _ fun y hy => by
          rcases Finset.mem_insert.1 hy with rfl | hy
          · norm_num
          · rw [Finset.mem_singleton.1 hy]
      · exact Finset.le_max' _ _ (by simp)
    have h2 : ({-1, 1} : Finset ℝ).min' hp = -1 := by
      apply le_antisymm
      · exact Finset.min'_le _ _ (by simp)
      · exact Finset.le_min' _ _ _ fun y hy => by
          rcases Finset.mem_insert.1 hy with rfl | hy
          · exact le_rfl
          · rw [Finset.mem_singleton.1 hy]; norm_num
    rw [h1, h2]
    norm_num
  · rw [sqLength_matrix reflection_orthonormal, ← sqLength_V reflection_orthonormal x]
    simp [sqLength, reflection, Fin.sum_univ_two, sq]

/-- Hypotheses of the theorems: the rotation of an eighth of turn is not needed, a permutation of the axes does. -/
example : (⟨fun i l => if i = l then 0 else 1, fun l => if l = 0 then 2 else 3⟩ : Eigen 2 2).Orthonormal ∧
    ∀ l : Fin 2, (0 : ℝ) < if l = 0 then 2 else 3 := by
  refine ⟨?_, fun l => by split <;> norm_num⟩
  intro a b
  fin_cases a <;> fin_cases b <;> simp

end Verif.Eigen
