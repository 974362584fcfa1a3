import Mathlib.Analysis.SpecialFunctions.Trigonometric.Basic
import Mathlib.LinearAlgebra.Matrix.Determinant.Basic
import Mathlib.LinearAlgebra.Matrix.Notation
import Mathlib.Tactic.FinCases
import Mathlib.Tactic.LinearCombination
import Mathlib.Tactic.NormNum

/-
Model of the rotation operators: src/pyoperators/linear.py:977-1011 (`Rotation2dOperator`) and 1017-1284 (`Rotation3dOperator`), and
property C34.

A single rotation is modelled: arrays of angles give one matrix per element (`np.rollaxis`, `_get_matrix`).  The angles are real
numbers, without rounding.
-/

namespace Verif.Linear

open Matrix Real

/-- `np.radians` -/
noncomputable def radians (degrees : Bool) (a : ℝ) : ℝ := if degrees then a * (π / 180) else a

/-- The matrix of `Rotation2dOperator(angle)`: src/pyoperators/linear.py:1000-1005. -/
noncomputable def rotation2d (degrees : Bool) (angle : ℝ) : Matrix (Fin 2) (Fin 2) ℝ :=
  let a := radians degrees angle
  !![cos a, -sin a; sin a, cos a]

/-- The matrices of the conventions for the intrinsic rotations: src/pyoperators/linear.py:1107-1260.  `none` is the ValueError.  The
convention is the list of the characters. -/
def table (c1 s1 c2 s2 c3 s3 : ℝ) : List Char → Option (Matrix (Fin 3) (Fin 3) ℝ)
  | ['X'] =>
    some !![1, 0, 0; 0, c1, -s1; 0, s1, c1]
  | ['Y'] =>
    some !![c1, 0, s1; 0, 1, 0; -s1, 0, c1]
  | ['Z'] =>
    some !![c1, -s1, 0; s1, c1, 0; 0, 0, 1]
  | ['X', 'Z', '\''] =>
    some !![c2, -s2, 0; c1 * s2, c1 * c2, -s1; s1 * s2, c2 * s1, c1]
  | ['X', 'Y', '\''] =>
    some !![c2, 0, s2; s1 * s2, c1, -c2 * s1; -c1 * s2, s1, c1 * c2]
  | ['Y', 'X', '\''] =>
    some !![c1, s1 * s2, c2 * s1; 0, c2, -s2; -s1, c1 * s2, c1 * c2]
  | ['Y', 'Z', '\''] =>
    some !![c1 * c2, -c1 * s2, s1; s2, c2, 0; -c2 * s1, s1 * s2, c1]
  | ['Z', 'Y', '\''] =>
    some !![c1 * c2, -s1, c1 * s2; c2 * s1, c1, s1 * s2; -s2, 0, c2]
  | ['Z', 'X', '\''] =>
    some !![c1, -c2 * s1, s1 * s2; s1, c1 * c2, -c1 * s2; 0, s2, c2]
  | ['X', 'Z', '\'', 'X', '\'', '\''] =>
    some !![c2, -c3 * s2, s2 * s3; c1 * s2, c1 * c2 * c3 - s1 * s3, -c3 * s1 - c1 * c2 * s3; s1 * s2, c1 * s3 + c2 * c3 * s1, c1 * c3 - c2 * s1 * s3]
  | ['X', 'Z', '\'', 'Y', '\'', '\''] =>
    some !![c2 * c3, -s2, c2 * s3; s1 * s3 + c1 * c3 * s2, c1 * c2, c1 * s2 * s3 - c3 * s1; c3 * s1 * s2 - c1 * s3, c2 * s1, c1 * c3 + s1 * s2 * s3]
  | ['X', 'Y', '\'', 'X', '\'', '\''] =>
    some !![c2, s2 * s3, c3 * s2; s1 * s2, c1 * c3 - c2 * s1 * s3, -c1 * s3 - c2 * c3 * s1; -c1 * s2, c3 * s1 + c1 * c2 * s3, c1 * c2 * c3 - s1 * s3]
  | ['X', 'Y', '\'', 'Z', '\'', '\''] =>
    some !![c2 * c3, -c2 * s3, s2; c1 * s3 + c3 * s1 * s2, c1 * c3 - s1 * s2 * s3, -c2 * s1; s1 * s3 - c1 * c3 * s2, c3 * s1 + c1 * s2 * s3, c1 * c2]
  | ['Y', 'X', '\'', 'Y', '\'', '\''] =>
    some !![c1 * c3 - c2 * s1 * s3, s1 * s2, c1 * s3 + c2 * c3 * s1; s2 * s3, c2, -c3 * s2; -c3 * s1 - c1 * c2 * s3, c1 * s2, c1 * c2 * c3 - s1 * s3]
  | ['Y', 'X', '\'', 'Z', '\'', '\''] =>
    some !![c1 * c3 + s1 * s2 * s3, c3 * s1 * s2 - c1 * s3, c2 * s1; c2 * s3, c2 * c3, -s2; c1 * s2 * s3 - c3 * s1, s1 * s3 + c1 * c3 * s2, c1 * c2]
  | ['Y', 'Z', '\'', 'Y', '\'', '\''] =>
    some !![c1 * c2 * c3 - s1 * s3, -c1 * s2, c3 * s1 + c1 * c2 * s3; c3 * s2, c2, s2 * s3; -c1 * s3 - c2 * c3 * s1, s1 * s2, c1 * c3 - c2 * s1 * s3]
  | ['Y', 'Z', '\'', 'X', '\'', '\''] =>
    some !![c1 * c2, s1 * s3 - c1 * c3 * s2, c3 * s1 + c1 * s2 * s3; s2, c2 * c3, -c2 * s3; -c2 * s1, c1 * s3 + c3 * s1 * s2, c1 * c3 - s1 * s2 * s3]
  | ['Z', 'Y', '\'', 'Z', '\'', '\''] =>
    some !![c1 * c2 * c3 - s1 * s3, -c3 * s1 - c1 * c2 * s3, c1 * s2; c1 * s3 + c2 * c3 * s1, c1 * c3 - c2 * s1 * s3, s1 * s2; -c3 * s2, s2 * s3, c2]
  | ['Z', 'Y', '\'', 'X', '\'', '\''] =>
    some !![c1 * c2, c1 * s2 * s3 - c3 * s1, s1 * s3 + c1 * c3 * s2; c2 * s1, c1 * c3 + s1 * s2 * s3, c3 * s1 * s2 - c1 * s3; -s2, c2 * s3, c2 * c3]
  | ['Z', 'X', '\'', 'Z', '\'', '\''] =>
    some !![c1 * c3 - c2 * s1 * s3, -c1 * s3 - c2 * c3 * s1, s1 * s2; c3 * s1 + c1 * c2 * s3, c1 * c2 * c3 - s1 * s3, -c1 * s2; s2 * s3, c3 * s2, c2]
  | ['Z', 'X', '\'', 'Y', '\'', '\''] =>
    some !![c1 * c3 - s1 * s2 * s3, -c2 * s1, c1 * s3 + c3 * s1 * s2; c3 * s1 + c1 * s2 * s3, c1 * c2, s1 * s3 - c1 * c3 * s2; -c2 * s3, s2, c2 * c3]
  | _ => none

/-- The conversion of the extrinsic rotations to intrinsic ones: src/pyoperators/linear.py:1091-1098. -/
def toIntrinsic (convention : List Char) (a1 a2 a3 : ℝ) : List Char × ℝ × ℝ × ℝ :=
  let naxes := (convention.filter (· ≠ '\'')).length
  match convention with
  | [p, q] => if naxes = 2 then ([q, p, '\''], a2, a1, a3) else (convention, a1, a2, a3)
  | [p, q, r] => if naxes = 3 then ([r, q, '\'', p, '\'', '\''], a3, a2, a1) else (convention, a1, a2, a3)
  | _ => (convention, a1, a2, a3)

/-- The matrix of `Rotation3dOperator(convention, a1, a2, a3, degrees)`: src/pyoperators/linear.py:1064-1266, after the conversion of
the convention to upper case. -/
noncomputable def rotation3d (convention : List Char) (a1 a2 a3 : ℝ) (degrees : Bool) : Option (Matrix (Fin 3) (Fin 3) ℝ) :=
  if convention.any (fun c => ¬ c ∈ ['X', 'Y', 'Z', '\'']) then none
  else
    let r := toIntrinsic convention (radians degrees a1) (radians degrees a2) (radians degrees a3)
    table (cos r.2.1) (sin r.2.1) (cos r.2.2.1) (sin r.2.2.1) (cos r.2.2.2) (sin r.2.2.2) r.1

/-! ### Specification -/

/-- The rotation about a coordinate axis p, counter-clockwise for an observer towards whom the axis points: it turns the next axis
into the one after that (the axes being in cyclic order). -/
noncomputable def about (p : Fin 3) (a : ℝ) : Matrix (Fin 3) (Fin 3) ℝ := fun i j =>
  if i = p ∧ j = p then 1 else if i = p ∨ j = p then 0 else if i = j then cos a else if j = i + 1 then -sin a else sin a

/-- The letter of an axis. -/
def letter (p : Fin 3) : Char := if p = 0 then 'X' else if p = 1 then 'Y' else 'Z'

/-- A rotation: it preserves the scalar product and the orientation. -/
def IsRotation {n : Nat} (m : Matrix (Fin n) (Fin n) ℝ) : Prop := mᵀ * m = 1 ∧ m * mᵀ = 1 ∧ m.det = 1

theorem about_zero (a : ℝ) : about 0 a = !![1, 0, 0; 0, cos a, -sin a; 0, sin a, cos a] := by
  ext i j
  fin_cases i <;> fin_cases j <;> simp [about]

theorem about_one (a : ℝ) : about 1 a = !![cos a, 0, sin a; 0, 1, 0; -sin a, 0, cos a] := by
  ext i j
  fin_cases i <;> fin_cases j <;> simp [about]

theorem about_two (a : ℝ) : about 2 a = !![cos a, -sin a, 0; sin a, cos a, 0; 0, 0, 1] := by
  ext i j
  fin_cases i <;> fin_cases j <;> simp [about]

theorem about_rotation (p : Fin 3) (a : ℝ) : IsRotation (about p a) := by
  have h := sin_sq_add_cos_sq a
  fin_cases p
  · show IsRotation (about 0 a)
    rw [about_zero]
    refine ⟨?_, ?_, ?_⟩
    · ext i j
      fin_cases i <;> fin_cases j <;> simp [Matrix.mul_apply, Fin.sum_univ_three] <;> first | ring1 | linear_combination h
    · ext i j
      fin_cases i <;> fin_cases j <;> simp [Matrix.mul_apply, Fin.sum_univ_three] <;> first | ring1 | linear_combination h
    · rw [Matrix.det_fin_three]
      simp
      linear_combination h
  · show IsRotation (about 1 a)
    rw [about_one]
    refine ⟨?_, ?_, ?_⟩
    · ext i j
      fin_cases i <;> fin_cases j <;> simp [Matrix.mul_apply, Fin.sum_univ_three] <;> first | ring1 | linear_combination h
    · ext i j
      fin_cases i <;> fin_cases j <;> simp [Matrix.mul_apply, Fin.sum_univ_three] <;> first | ring1 | linear_combination h
    · rw [Matrix.det_fin_three]
      simp
      linear_combination h
  · show IsRotation (about 2 a)
    rw [about_two]
    refine ⟨?_, ?_, ?_⟩
    · ext i j
      fin_cases i <;> fin_cases j <;> simp [Matrix.mul_apply, Fin.sum_univ_three] <;> first | ring1 | linear_combination h
    · ext i j
      fin_cases i <;> fin_cases j <;> simp [Matrix.mul_apply, Fin.sum_univ_three] <;> first | ring1 | linear_combination h
    · rw [Matrix.det_fin_three]
      simp
      linear_combination h

theorem IsRotation.mul {n : Nat} {a b : Matrix (Fin n) (Fin n) ℝ} (ha : IsRotation a) (hb : IsRotation b) : IsRotation (a * b) := by
  refine ⟨?_, ?_, ?_⟩
  · rw [Matrix.transpose_mul, Matrix.mul_assoc, ← Matrix.mul_assoc aᵀ, ha.1, Matrix.one_mul, hb.1]
  · rw [Matrix.transpose_mul, Matrix.mul_assoc, ← Matrix.mul_assoc b, hb.2.1, Matrix.one_mul, ha.2.1]
  · rw [Matrix.det_mul, ha.2.2, hb.2.2, one_mul]

/-! ### The conventions -/

theorem letters (p : Fin 3) : letter p = 'X' ∨ letter p = 'Y' ∨ letter p = 'Z' := by
  fin_cases p <;> simp [letter]

/-- What the angles are multiplied by to be in radians. -/
noncomputable def unitOf (degrees : Bool) : ℝ := if degrees then π / 180 else 1

theorem radians_eq (degrees : Bool) (a : ℝ) : radians degrees a = a * unitOf degrees := by
  cases degrees <;> simp [radians, unitOf]

/-- C34: a rotation about one axis. -/
theorem C34_single (p : Fin 3) (a1 a2 a3 : ℝ) (degrees : Bool) :
    rotation3d [letter p] a1 a2 a3 degrees = some (about p (a1 * unitOf degrees)) := by
  simp only [← radians_eq]
  fin_cases p
  · exact congrArg some (about_zero _).symm
  · exact congrArg some (about_one _).symm
  · exact congrArg some (about_two _).symm

/-- The product of elementary rotations, entry by entry. -/
macro "product" : tactic => `(tactic| (
  refine congrArg some ?_
  ext i j
  fin_cases i <;> fin_cases j <;>
    simp [about_zero, about_one, about_two, Matrix.mul_apply, Fin.sum_univ_three] <;> try ring))

theorem table_two {p q : Fin 3} (h : p ≠ q) (b1 b2 b3 : ℝ) :
    table (cos b1) (sin b1) (cos b2) (sin b2) (cos b3) (sin b3) [letter p, letter q, '\''] = some (about p b1 * about q b2) := by
  match p, q, h with
  | 0, 1, _ => product
  | 0, 2, _ => product
  | 1, 0, _ => product
  | 1, 2, _ => product
  | 2, 0, _ => product
  | 2, 1, _ => product
  | 0, 0, h => exact absurd rfl h
  | 1, 1, h => exact absurd rfl h
  | 2, 2, h => exact absurd rfl h

theorem table_three {p q r : Fin 3} (h : p ≠ q) (h' : q ≠ r) (b1 b2 b3 : ℝ) :
    table (cos b1) (sin b1) (cos b2) (sin b2) (cos b3) (sin b3) [letter p, letter q, '\'', letter r, '\'', '\''] =
      some (about p b1 * about q b2 * about r b3) := by
  match p, q, r, h, h' with
  | 0, 1, 0, _, _ => product
  | 0, 1, 2, _, _ => product
  | 0, 2, 0, _, _ => product
  | 0, 2, 1, _, _ => product
  | 1, 0, 1, _, _ => product
  | 1, 0, 2, _, _ => product
  | 1, 2, 0, _, _ => product
  | 1, 2, 1, _, _ => product
  | 2, 0, 1, _, _ => product
  | 2, 0, 2, _, _ => product
  | 2, 1, 0, _, _ => product
  | 2, 1, 2, _, _ => product
  | 0, 0, 0, h, _ => exact absurd rfl h
  | 0, 0, 1, h, _ => exact absurd rfl h
  | 0, 0, 2, h, _ => exact absurd rfl h
  | 1, 1, 0, h, _ => exact absurd rfl h
  | 1, 1, 1, h, _ => exact absurd rfl h
  | 1, 1, 2, h, _ => exact absurd rfl h
  | 2, 2, 0, h, _ => exact absurd rfl h
  | 2, 2, 1, h, _ => exact absurd rfl h
  | 2, 2, 2, h, _ => exact absurd rfl h
  | 1, 0, 0, _, h => exact absurd rfl h
  | 2, 0, 0, _, h => exact absurd rfl h
  | 0, 1, 1, _, h => exact absurd rfl h
  | 2, 1, 1, _, h => exact absurd rfl h
  | 0, 2, 2, _, h => exact absurd rfl h
  | 1, 2, 2, _, h => exact absurd rfl h

/-- C34: the intrinsic rotations about two axes: each rotation is about an axis that the previous one has rotated, which amounts to
applying the last one first. -/
theorem C34_intrinsic_two {p q : Fin 3} (h : p ≠ q) (a1 a2 a3 : ℝ) (degrees : Bool) :
    rotation3d [letter p, letter q, '\''] a1 a2 a3 degrees = some (about p (a1 * unitOf degrees) * about q (a2 * unitOf degrees)) := by
  simp only [← radians_eq]
  refine Eq.trans ?_ (table_two h _ _ (radians degrees a3))
  match p, q, h with
  | 0, 1, _ => rfl
  | 0, 2, _ => rfl
  | 1, 0, _ => rfl
  | 1, 2, _ => rfl
  | 2, 0, _ => rfl
  | 2, 1, _ => rfl
  | 0, 0, h => exact absurd rfl h
  | 1, 1, h => exact absurd rfl h
  | 2, 2, h => exact absurd rfl h

/-- C34: the intrinsic rotations about three axes. -/
theorem C34_intrinsic_three {p q r : Fin 3} (h : p ≠ q) (h' : q ≠ r) (a1 a2 a3 : ℝ) (degrees : Bool) :
    rotation3d [letter p, letter q, '\'', letter r, '\'', '\''] a1 a2 a3 degrees =
      some (about p (a1 * unitOf degrees) * about q (a2 * unitOf degrees) * about r (a3 * unitOf degrees)) := by
  simp only [← radians_eq]
  refine Eq.trans ?_ (table_three h h' _ _ _)
  match p, q, r, h, h' with
  | 0, 1, 0, _, _ => rfl
  | 0, 1, 2, _, _ => rfl
  | 0, 2, 0, _, _ => rfl
  | 0, 2, 1, _, _ => rfl
  | 1, 0, 1, _, _ => rfl
  | 1, 0, 2, _, _ => rfl
  | 1, 2, 0, _, _ => rfl
  | 1, 2, 1, _, _ => rfl
  | 2, 0, 1, _, _ => rfl
  | 2, 0, 2, _, _ => rfl
  | 2, 1, 0, _, _ => rfl
  | 2, 1, 2, _, _ => rfl
  | 0, 0, 0, h, _ => exact absurd rfl h
  | 0, 0, 1, h, _ => exact absurd rfl h
  | 0, 0, 2, h, _ => exact absurd rfl h
  | 1, 1, 0, h, _ => exact absurd rfl h
  | 1, 1, 1, h, _ => exact absurd rfl h
  | 1, 1, 2, h, _ => exact absurd rfl h
  | 2, 2, 0, h, _ => exact absurd rfl h
  | 2, 2, 1, h, _ => exact absurd rfl h
  | 2, 2, 2, h, _ => exact absurd rfl h
  | 1, 0, 0, _, h => exact absurd rfl h
  | 2, 0, 0, _, h => exact absurd rfl h
  | 0, 1, 1, _, h => exact absurd rfl h
  | 2, 1, 1, _, h => exact absurd rfl h
  | 0, 2, 2, _, h => exact absurd rfl h
  | 1, 2, 2, _, h => exact absurd rfl h

/-- C34: the extrinsic rotations about two axes, which do not move: the first one is applied first. -/
theorem C34_extrinsic_two {p q : Fin 3} (h : p ≠ q) (a1 a2 a3 : ℝ) (degrees : Bool) :
    rotation3d [letter p, letter q] a1 a2 a3 degrees = some (about q (a2 * unitOf degrees) * about p (a1 * unitOf degrees)) := by
  simp only [← radians_eq]
  refine Eq.trans ?_ (table_two h.symm _ _ (radians degrees a3))
  match p, q, h with
  | 0, 1, _ => rfl
  | 0, 2, _ => rfl
  | 1, 0, _ => rfl
  | 1, 2, _ => rfl
  | 2, 0, _ => rfl
  | 2, 1, _ => rfl
  | 0, 0, h => exact absurd rfl h
  | 1, 1, h => exact absurd rfl h
  | 2, 2, h => exact absurd rfl h

/-- C34: the extrinsic rotations about three axes. -/
theorem C34_extrinsic_three {p q r : Fin 3} (h : p ≠ q) (h' : q ≠ r) (a1 a2 a3 : ℝ) (degrees : Bool) :
    rotation3d [letter p, letter q, letter r] a1 a2 a3 degrees =
      some (about r (a3 * unitOf degrees) * about q (a2 * unitOf degrees) * about p (a1 * unitOf degrees)) := by
  simp only [← radians_eq]
  refine Eq.trans ?_ (table_three h'.symm h.symm _ _ _)
  match p, q, r, h, h' with
  | 0, 1, 0, _, _ => rfl
  | 0, 1, 2, _, _ => rfl
  | 0, 2, 0, _, _ => rfl
  | 0, 2, 1, _, _ => rfl
  | 1, 0, 1, _, _ => rfl
  | 1, 0, 2, _, _ => rfl
  | 1, 2, 0, _, _ => rfl
  | 1, 2, 1, _, _ => rfl
  | 2, 0, 1, _, _ => rfl
  | 2, 0, 2, _, _ => rfl
  | 2, 1, 0, _, _ => rfl
  | 2, 1, 2, _, _ => rfl
  | 0, 0, 0, h, _ => exact absurd rfl h
  | 0, 0, 1, h, _ => exact absurd rfl h
  | 0, 0, 2, h, _ => exact absurd rfl h
  | 1, 1, 0, h, _ => exact absurd rfl h
  | 1, 1, 1, h, _ => exact absurd rfl h
  | 1, 1, 2, h, _ => exact absurd rfl h
  | 2, 2, 0, h, _ => exact absurd rfl h
  | 2, 2, 1, h, _ => exact absurd rfl h
  | 2, 2, 2, h, _ => exact absurd rfl h
  | 1, 0, 0, _, h => exact absurd rfl h
  | 2, 0, 0, _, h => exact absurd rfl h
  | 0, 1, 1, _, h => exact absurd rfl h
  | 2, 1, 1, _, h => exact absurd rfl h
  | 0, 2, 2, _, h => exact absurd rfl h
  | 1, 2, 2, _, h => exact absurd rfl h

/-- The documented conventions: src/pyoperators/linear.py:1023-1037. -/
def Documented (c : List Char) : Prop :=
  (∃ p, c = [letter p]) ∨
  (∃ p q, p ≠ q ∧ (c = [letter p, letter q] ∨ c = [letter p, letter q, '\''])) ∨
  ∃ p q r, p ≠ q ∧ q ≠ r ∧ (c = [letter p, letter q, letter r] ∨ c = [letter p, letter q, '\'', letter r, '\'', '\''])

theorem table_some {c1 s1 c2 s2 c3 s3 : ℝ} {c : List Char} {m : Matrix (Fin 3) (Fin 3) ℝ}
    (h : table c1 s1 c2 s2 c3 s3 c = some m) : (∃ p, c = [letter p]) ∨ (∃ p q, p ≠ q ∧ c = [letter p, letter q, '\'']) ∨
      ∃ p q r, p ≠ q ∧ q ≠ r ∧ c = [letter p, letter q, '\'', letter r, '\'', '\''] := by
  unfold table at h
  split at h
  · exact .inl ⟨0, rfl⟩
  · exact .inl ⟨1, rfl⟩
  · exact .inl ⟨2, rfl⟩
  · exact .inr (.inl ⟨0, 2, by decide, rfl⟩)
  · exact .inr (.inl ⟨0, 1, by decide, rfl⟩)
  · exact .inr (.inl ⟨1, 0, by decide, rfl⟩)
  · exact .inr (.inl ⟨1, 2, by decide, rfl⟩)
  · exact .inr (.inl ⟨2, 1, by decide, rfl⟩)
  · exact .inr (.inl ⟨2, 0, by decide, rfl⟩)
  · exact .inr (.inr ⟨0, 2, 0, by decide, by decide, rfl⟩)
  · exact .inr (.inr ⟨0, 2, 1, by decide, by decide, rfl⟩)
  · exact .inr (.inr ⟨0, 1, 0, by decide, by decide, rfl⟩)
  · exact .inr (.inr ⟨0, 1, 2, by decide, by decide, rfl⟩)
  · exact .inr (.inr ⟨1, 0, 1, by decide, by decide, rfl⟩)
  · exact .inr (.inr ⟨1, 0, 2, by decide, by decide, rfl⟩)
  · exact .inr (.inr ⟨1, 2, 1, by decide, by decide, rfl⟩)
  · exact .inr (.inr ⟨1, 2, 0, by decide, by decide, rfl⟩)
  · exact .inr (.inr ⟨2, 1, 2, by decide, by decide, rfl⟩)
  · exact .inr (.inr ⟨2, 1, 0, by decide, by decide, rfl⟩)
  · exact .inr (.inr ⟨2, 0, 2, by decide, by decide, rfl⟩)
  · exact .inr (.inr ⟨2, 0, 1, by decide, by decide, rfl⟩)
  · exact absurd h (by simp)

/-- C34: only the documented conventions are accepted. -/
theorem C34_conventions {c : List Char} {a1 a2 a3 : ℝ} {degrees : Bool} {m : Matrix (Fin 3) (Fin 3) ℝ}
    (h : rotation3d c a1 a2 a3 degrees = some m) : Documented c := by
  unfold rotation3d at h
  split at h
  · exact absurd h (by simp)
  · have h := table_some h
    unfold Documented
    generalize radians degrees a1 = b1 at h
    generalize radians degrees a2 = b2 at h
    generalize radians degrees a3 = b3 at h
    unfold toIntrinsic at h
    split at h
    · simp only at h
      split at h
      · rcases h with ⟨p, h⟩ | ⟨p, q, hpq, h⟩ | ⟨p, q, r, _, _, h⟩
        · simp at h
        · simp only [List.cons.injEq, and_true] at h
          refine .inr (.inl ⟨q, p, hpq.symm, .inl ?_⟩)
          rw [← h.1, ← h.2]
        · simp at h
      · rcases h with ⟨p, h⟩ | ⟨p, q, hpq, h⟩ | ⟨p, q, r, _, _, h⟩ <;> simp at h
    · simp only at h
      split at h
      · rcases h with ⟨p, h⟩ | ⟨p, q, hpq, h⟩ | ⟨p, q, r, h1, h2, h⟩
        · simp at h
        · simp at h
        · simp only [List.cons.injEq, and_true, true_and] at h
          refine .inr (.inr ⟨r, q, p, h2.symm, h1.symm, .inl ?_⟩)
          rw [← h.1, ← h.2.1, ← h.2.2]
      · rcases h with ⟨p, h⟩ | ⟨p, q, hpq, h⟩ | ⟨p, q, r, _, _, h⟩
        · simp at h
        · exact .inr (.inl ⟨p, q, hpq, .inr h⟩)
        · simp at h
    · rcases h with ⟨p, h⟩ | ⟨p, q, hpq, h⟩ | ⟨p, q, r, h1, h2, h⟩
      · exact .inl ⟨p, h⟩
      · exact .inr (.inl ⟨p, q, hpq, .inr h⟩)
      · exact .inr (.inr ⟨p, q, r, h1, h2, .inr h⟩)

/-- C34: the matrix of a 3-d rotation operator is orthogonal, and its determinant is one, whatever the convention. -/
theorem C34_rotation3d {c : List Char} {a1 a2 a3 : ℝ} {degrees : Bool} {m : Matrix (Fin 3) (Fin 3) ℝ}
    (h : rotation3d c a1 a2 a3 degrees = some m) : IsRotation m := by
  have e : ∀ {m'}, rotation3d c a1 a2 a3 degrees = some m' → m = m' := fun h' => Option.some.inj (h.symm.trans h')
  rcases C34_conventions h with ⟨p, rfl⟩ | ⟨p, q, hpq, rfl | rfl⟩ | ⟨p, q, r, h1, h2, rfl | rfl⟩
  · rw [e (C34_single p ..)]
    exact about_rotation _ _
  · rw [e (C34_extrinsic_two hpq ..)]
    exact (about_rotation _ _).mul (about_rotation _ _)
  · rw [e (C34_intrinsic_two hpq ..)]
    exact (about_rotation _ _).mul (about_rotation _ _)
  · rw [e (C34_extrinsic_three h1 h2 ..)]
    exact ((about_rotation _ _).mul (about_rotation _ _)).mul (about_rotation _ _)
  · rw [e (C34_intrinsic_three h1 h2 ..)]
    exact ((about_rotation _ _).mul (about_rotation _ _)).mul (about_rotation _ _)

/-- C34: the matrix of a 2-d rotation operator is orthogonal, its determinant is one, and it turns the first axis counter-clockwise by
the angle. -/
theorem C34_rotation2d (degrees : Bool) (a : ℝ) : IsRotation (rotation2d degrees a) ∧
    rotation2d degrees a *ᵥ ![1, 0] = ![cos (a * unitOf degrees), sin (a * unitOf degrees)] := by
  simp only [← radians_eq]
  unfold rotation2d
  simp only
  generalize radians degrees a = b
  have h := sin_sq_add_cos_sq b
  refine ⟨⟨?_, ?_, ?_⟩, ?_⟩
  · ext i j
    fin_cases i <;> fin_cases j <;> simp [Matrix.mul_apply, Fin.sum_univ_two] <;> first | ring1 | linear_combination h
  · ext i j
    fin_cases i <;> fin_cases j <;> simp [Matrix.mul_apply, Fin.sum_univ_two] <;> first | ring1 | linear_combination h
  · rw [Matrix.det_fin_two]
    simp
    linear_combination h
  · ext i
    fin_cases i <;> simp [Matrix.mulVec, dotProduct, Fin.sum_univ_two]

/-- The example of the documentation: a rotation by 90 degrees about the second axis turns the first axis to the opposite of the third. -/
example : ∃ m, rotation3d ['Y'] 90 0 0 true = some m ∧ m *ᵥ ![1, 0, 0] = ![0, 0, -1] := by
  refine ⟨_, C34_single 1 90 0 0 true, ?_⟩
  have h : (90 : ℝ) * unitOf true = π / 2 := by simp only [unitOf, if_true]; ring
  rw [h, about_one]
  ext i
  fin_cases i <;> simp [Matrix.mulVec, dotProduct, Fin.sum_univ_three]

/-- The hypotheses of C34_extrinsic_three and C34_intrinsic_three are met by the example of the documentation: both conventions
describe the same rotation. -/
example : rotation3d ['X', 'Y', 'Z'] 30 40 50 true = rotation3d ['Z', 'Y', '\'', 'X', '\'', '\''] 50 40 30 true := by
  have h1 := C34_extrinsic_three (p := 0) (q := 1) (r := 2) (by decide) (by decide) 30 40 50 true
  have h2 := C34_intrinsic_three (p := 2) (q := 1) (r := 0) (by decide) (by decide) 50 40 30 true
  exact h1.trans h2.symm

end Verif.Linear
