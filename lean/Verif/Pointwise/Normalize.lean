import Mathlib.Analysis.SpecialFunctions.Pow.Complex
import Mathlib.Analysis.SpecialFunctions.Sqrt
import Mathlib.Tactic.Linarith
import Mathlib.Tactic.FieldSimp

/-
Model of the normalisation of vectors: src/pyoperators/nonlinear.py:618-640 (`NormalizeOperator`), and property C73.

The numbers are the real or complex numbers, in which a division by zero gives zero instead of NaN: the theorems are about vectors that
are not zero.  An array of shape s + (n,) is the list of its rows of n elements in C order.
-/

namespace Verif.Pointwise

/-- One row of `NormalizeOperator.direct`: src/pyoperators/nonlinear.py:638-639, with the square root of the type of the elements. -/
def normalizedRow {K : Type} [Field K] (root : K → K) (row : List K) : List K :=
  let norm := root ((row.map (· ^ 2)).sum)
  row.map (· / norm)

/-- The method direct for real numbers. -/
noncomputable def normalized (rows : List (List ℝ)) : List (List ℝ) := rows.map (normalizedRow Real.sqrt)

/-- The method direct for complex numbers: the square root of NumPy is the principal one. -/
noncomputable def normalizedComplex (rows : List (List ℂ)) : List (List ℂ) := rows.map (normalizedRow (· ^ (1 / 2 : ℂ)))

/-! ### Specification -/

/-- The square of the Euclidean length. -/
def lengthSq : List ℝ → ℝ
  | [] => 0
  | x :: l => x * x + lengthSq l

/-- The square of the Euclidean length of a complex vector. -/
noncomputable def lengthSqComplex : List ℂ → ℝ
  | [] => 0
  | x :: l => Complex.normSq x + lengthSqComplex l

theorem lengthSq_eq (l : List ℝ) : (l.map (· ^ 2)).sum = lengthSq l := by
  induction l with
  | nil => rfl
  | cons x l ih => rw [List.map_cons, List.sum_cons, ih, sq]; rfl

theorem lengthSq_nonneg (l : List ℝ) : 0 ≤ lengthSq l := by
  induction l with
  | nil => exact le_rfl
  | cons x l ih => exact add_nonneg (mul_self_nonneg x) ih

theorem lengthSq_pos {l : List ℝ} (h : ∃ x ∈ l, x ≠ 0) : 0 < lengthSq l := by
  induction l with
  | nil => obtain ⟨x, hx, _⟩ := h; cases hx
  | cons y l ih =>
    obtain ⟨x, hx, h0⟩ := h
    rcases List.mem_cons.1 hx with rfl | hx
    · exact add_pos_of_pos_of_nonneg (mul_self_pos.2 h0) (lengthSq_nonneg l)
    · exact add_pos_of_nonneg_of_pos (mul_self_nonneg y) (ih ⟨x, hx, h0⟩)

theorem lengthSq_map (c : ℝ) (l : List ℝ) : lengthSq (l.map (c * ·)) = c ^ 2 * lengthSq l := by
  induction l with
  | nil => simp [lengthSq]
  | cons x l ih => simp only [List.map_cons, lengthSq, ih]; ring

theorem normalizedRow_eq (l : List ℝ) : normalizedRow Real.sqrt l = l.map ((√(lengthSq l))⁻¹ * ·) := by
  simp only [normalizedRow, lengthSq_eq]
  exact List.map_congr_left fun x _ => by rw [div_eq_mul_inv, mul_comm]

/-- **C73** Each row is replaced by the vector of length one that has the same direction. -/
theorem C73_unit (rows : List (List ℝ)) (i : Nat) (l : List ℝ) (hi : rows[i]? = some l) (h : ∃ x ∈ l, x ≠ 0) :
    ∃ l' c, (normalized rows)[i]? = some l' ∧ lengthSq l' = 1 ∧ 0 < c ∧ l' = l.map (c * ·) := by
  have hp := lengthSq_pos h
  refine ⟨normalizedRow Real.sqrt l, (√(lengthSq l))⁻¹, by simp [normalized, hi], ?_, inv_pos.2 (Real.sqrt_pos.2 hp), normalizedRow_eq l⟩
  rw [normalizedRow_eq, lengthSq_map, inv_pow, Real.sq_sqrt hp.le, inv_mul_cancel₀ hp.ne']

/-- **C73** Normalising an array twice is the same as normalising it once, and the lengths of the rows do not matter. -/
theorem C73_scale (rows : List (List ℝ)) (c : List ℝ → ℝ) (hc : ∀ l ∈ rows, 0 < c l) (h : ∀ l ∈ rows, ∃ x ∈ l, x ≠ 0) :
    normalized (rows.map fun l => l.map (c l * ·)) = normalized rows ∧ normalized (normalized rows) = normalized rows := by
  have key : ∀ l : List ℝ, (∃ x ∈ l, x ≠ 0) → ∀ a : ℝ, 0 < a → normalizedRow Real.sqrt (l.map (a * ·)) = normalizedRow Real.sqrt l := by
    intro l hl a ha
    have hp := lengthSq_pos hl
    rw [normalizedRow_eq, normalizedRow_eq, lengthSq_map, Real.sqrt_mul (sq_nonneg a), Real.sqrt_sq ha.le, List.map_map]
    refine List.map_congr_left fun x _ => ?_
    have := (Real.sqrt_pos.2 hp).ne'
    have := ha.ne'
    simp only [Function.comp]
    field_simp
  constructor
  · simp only [normalized, List.map_map]
    exact List.map_congr_left fun l hl => key l (h l hl) _ (hc l hl)
  · simp only [normalized, List.map_map]
    refine List.map_congr_left fun l hl => ?_
    show normalizedRow Real.sqrt (normalizedRow Real.sqrt l) = normalizedRow Real.sqrt l
    conv_lhs => rw [normalizedRow_eq l]
    exact key l (h l hl) _ (inv_pos.2 (Real.sqrt_pos.2 (lengthSq_pos (h l hl))))

/-- Hypotheses of the theorems: two rows of three coordinates. -/
example : ∀ l ∈ [[1, 0, -2], [0, 3, 0]], ∃ x ∈ l, x ≠ (0 : ℝ) := by
  intro l hl
  simp only [List.mem_cons, List.not_mem_nil, or_false] at hl
  rcases hl with rfl | rfl
  · exact ⟨1, by simp, by norm_num⟩
  · exact ⟨3, by simp, by norm_num⟩

/-- **C73** The complex vector (1, i, 1), of length √3, is left unchanged: the elements are squared instead of multiplied by their
conjugates. -/
theorem C73_complex_fails : ∃ l : List ℂ, normalizedComplex [l] = [l] ∧ lengthSqComplex l = 3 := by
  refine ⟨[1, Complex.I, 1], ?_, ?_⟩
  · simp [normalizedComplex, normalizedRow]
  · simp only [lengthSqComplex, Complex.normSq_one, Complex.normSq_I]
    norm_num

end Verif.Pointwise
