import Verif.Flags.Model
import Mathlib.LinearAlgebra.Matrix.ConjTranspose
import Mathlib.LinearAlgebra.Matrix.NonsingularInverse
import Mathlib.Data.Complex.Basic
import Mathlib.Tactic.FinCases
import Mathlib.Data.Matrix.Reflection

/-
Property C10. The flags are given their documented meaning (src/pyoperators/flags.py:14-23) for a matrix.
-/

namespace Verif.Flags

open Matrix

set_option linter.unusedSectionVars false

variable {n : Type} [Fintype n] [DecidableEq n]

/-- The complex conjugate of a matrix. -/
def conj (A : Matrix n n ℂ) : Matrix n n ℂ := A.map star

/-- The flags are true of the matrix (which is linear). -/
structure TrueOf (f : Flags) (A : Matrix n n ℂ) : Prop where
  real : f.real = true → conj A = A
  symmetric : f.symmetric = true → Aᵀ = A
  hermitian : f.hermitian = true → Aᴴ = A
  idempotent : f.idempotent = true → A * A = A
  involutary : f.involutary = true → A * A = 1
  orthogonal : f.orthogonal = true → A * Aᵀ = 1
  unitary : f.unitary = true → A * Aᴴ = 1

theorem conjTranspose_of_real {A : Matrix n n ℂ} (h : conj A = A) : Aᴴ = Aᵀ := by
  have h2 : (conj A)ᵀ = Aᵀ := by rw [h]
  exact h2

theorem one_of_idempotent_right {A B : Matrix n n ℂ} (h1 : A * A = A) (h2 : A * B = 1) : A = 1 := by
  have h3 : A * A * B = A * B := by rw [h1]
  rw [Matrix.mul_assoc, h2, Matrix.mul_one] at h3
  exact h3

/-- The two unsound deductions are made from these flags: src/pyoperators/core.py:1038 and 1044. -/
def doubtful (complexDtype : Bool) (f : Flags) : Bool :=
  let real := f.real || !complexDtype
  let symmetric := f.symmetric || (real && f.hermitian)
  let hermitian := f.hermitian || (real && f.symmetric)
  let orthogonal := f.orthogonal || (real && f.unitary)
  let unitary := f.unitary || (real && f.orthogonal)
  (orthogonal && symmetric) || (unitary && hermitian)

theorem when_true (f : Flags) (g : Flags → Flags) : when true g f = g f := rfl
theorem when_false (f : Flags) (g : Flags → Flags) : when false g f = f := rfl

/-- One application of a deduction. -/
theorem TrueOf.when {f : Flags} {A : Matrix n n ℂ} (h : TrueOf f A) (cond : Bool) (g : Flags → Flags)
    (hg : cond = true → TrueOf (g f) A) : TrueOf (Flags.when cond g f) A := by
  cases cond with
  | true => exact hg rfl
  | false => exact h

theorem TrueOf.setSymmetric {f : Flags} {A : Matrix n n ℂ} (h : TrueOf f A) (h' : Aᵀ = A) :
    TrueOf (setSymmetric f) A := ⟨h.1, fun _ => h', h.3, h.4, h.5, h.6, h.7⟩
theorem TrueOf.setHermitian {f : Flags} {A : Matrix n n ℂ} (h : TrueOf f A) (h' : Aᴴ = A) :
    TrueOf (setHermitian f) A := ⟨h.1, h.2, fun _ => h', h.4, h.5, h.6, h.7⟩
theorem TrueOf.setOrthogonal {f : Flags} {A : Matrix n n ℂ} (h : TrueOf f A) (h' : A * Aᵀ = 1) :
    TrueOf (setOrthogonal f) A := ⟨h.1, h.2, h.3, h.4, h.5, fun _ => h', h.7⟩
theorem TrueOf.setUnitary {f : Flags} {A : Matrix n n ℂ} (h : TrueOf f A) (h' : A * Aᴴ = 1) :
    TrueOf (setUnitary f) A := ⟨h.1, h.2, h.3, h.4, h.5, h.6, fun _ => h'⟩

theorem TrueOf.stepReal {f : Flags} {A : Matrix n n ℂ} (h : TrueOf f A) : TrueOf (stepReal f) A := by
  unfold Flags.stepReal
  split
  · rename_i hr
    have e := conjTranspose_of_real (h.real hr)
    have h1 : TrueOf (Flags.when f.symmetric Flags.setHermitian f) A :=
      h.when _ _ (fun hs => h.setHermitian (by rw [e]; exact h.symmetric hs))
    have h2 := h1.when (Flags.when f.symmetric Flags.setHermitian f).hermitian Flags.setSymmetric
      (fun hs => h1.setSymmetric (by rw [← e]; exact h1.hermitian hs))
    have h3 := h2.when _ Flags.setUnitary (fun hs => h2.setUnitary (by rw [e]; exact h2.orthogonal hs))
    exact h3.when _ Flags.setOrthogonal (fun hs => h3.setOrthogonal (by rw [← e]; exact h3.unitary hs))
  · exact h

theorem TrueOf.stepOrthogonal {f : Flags} {A : Matrix n n ℂ} (h : TrueOf f A)
    (hd : f.orthogonal = true → f.symmetric = true → A * A = A) : TrueOf (stepOrthogonal f) A := by
  unfold Flags.stepOrthogonal
  split
  · rename_i ho
    have h1 : TrueOf (Flags.when f.idempotent Flags.setSymmetric f) A :=
      h.when _ _ (fun hs => h.setSymmetric (by
        rw [one_of_idempotent_right (h.idempotent hs) (h.orthogonal ho)]; exact transpose_one))
    refine h1.when _ _ (fun hs => ?_)
    have hid : A * A = A := by
      cases hi : f.idempotent with
      | true => exact h.idempotent hi
      | false =>
        rw [hi] at hs
        exact hd ho hs
    exact ⟨h1.1, h1.2, h1.3, fun _ => hid, h1.5, h1.6, h1.7⟩
  · exact h

theorem TrueOf.stepUnitary {f : Flags} {A : Matrix n n ℂ} (h : TrueOf f A)
    (hd : f.unitary = true → f.hermitian = true → A * A = A) : TrueOf (stepUnitary f) A := by
  unfold Flags.stepUnitary
  split
  · rename_i ho
    have h1 : TrueOf (Flags.when f.idempotent Flags.setHermitian f) A :=
      h.when _ _ (fun hs => h.setHermitian (by
        rw [one_of_idempotent_right (h.idempotent hs) (h.unitary ho)]; exact conjTranspose_one))
    refine h1.when _ _ (fun hs => ?_)
    have hid : A * A = A := by
      cases hi : f.idempotent with
      | true => exact h.idempotent hi
      | false =>
        rw [hi] at hs
        exact hd ho hs
    exact ⟨h1.1, h1.2, h1.3, fun _ => hid, h1.5, h1.6, h1.7⟩
  · exact h

theorem eq_of_mul_eq_one {A B : Matrix n n ℂ} (h1 : A * A = 1) (h2 : A * B = 1) : B = A := by
  have h3 : A * (A * B) = A := by rw [h2, Matrix.mul_one]
  rw [← Matrix.mul_assoc, h1, Matrix.one_mul] at h3
  exact h3

theorem TrueOf.stepInvolutary {f : Flags} {A : Matrix n n ℂ} (h : TrueOf f A) : TrueOf (stepInvolutary f) A := by
  unfold Flags.stepInvolutary
  split
  · rename_i hi
    have e := h.involutary hi
    have h1 := h.when f.symmetric Flags.setOrthogonal (fun hs => h.setOrthogonal (by rw [h.symmetric hs]; exact e))
    have h2 := h1.when _ Flags.setSymmetric (fun hs => h1.setSymmetric (eq_of_mul_eq_one e (h1.orthogonal hs)))
    have h3 := h2.when _ Flags.setUnitary (fun hs => h2.setUnitary (by rw [h2.hermitian hs]; exact e))
    exact h3.when _ Flags.setHermitian (fun hs => h3.setHermitian (eq_of_mul_eq_one e (h3.unitary hs)))
  · exact h

theorem TrueOf.stepIdempotent {f : Flags} {A : Matrix n n ℂ} (h : TrueOf f A) : TrueOf (stepIdempotent f) A := by
  unfold Flags.stepIdempotent
  split
  · rename_i hi
    refine h.when _ _ (fun hs => ?_)
    have e := h.idempotent hi
    have hA : A = 1 := by
      simp only [Bool.or_eq_true] at hs
      rcases hs with (hs | hs) | hs
      · exact one_of_idempotent_right e (h.orthogonal hs)
      · exact one_of_idempotent_right e (h.unitary hs)
      · exact one_of_idempotent_right e (h.involutary hs)
    refine ⟨h.1, h.2, h.3, h.4, fun _ => ?_, fun _ => ?_, fun _ => ?_⟩
    · rw [hA]; simp
    · rw [hA]; simp
    · rw [hA]; simp
  · exact h

theorem declare_flags (f : Flags) : (declare f).real = f.real ∧ (declare f).symmetric = f.symmetric ∧
    (declare f).hermitian = f.hermitian ∧ (declare f).idempotent = f.idempotent ∧
    (declare f).involutary = f.involutary ∧ (declare f).orthogonal = f.orthogonal ∧
    (declare f).unitary = f.unitary := by
  unfold declare
  split <;> exact ⟨rfl, rfl, rfl, rfl, rfl, rfl, rfl⟩

/-- The deduction of the flags at the construction is sound, apart from the two doubtful deductions. -/
theorem closure_sound (complexDtype : Bool) (f : Flags) (A : Matrix n n ℂ) (h : TrueOf f A)
    (hreal : complexDtype = false → conj A = A) (hd : doubtful complexDtype f = true → A * A = A) :
    TrueOf (closure complexDtype f) A := by
  unfold closure
  have h0 : TrueOf (stepDtype complexDtype f) A := by
    unfold stepDtype
    refine h.when _ _ (fun hc => ⟨fun _ => hreal (by simpa using hc), h.2, h.3, h.4, h.5, h.6, h.7⟩)
  have h1 := h0.stepReal
  have d1 : (stepReal (stepDtype complexDtype f)).orthogonal = true →
      (stepReal (stepDtype complexDtype f)).symmetric = true → doubtful complexDtype f = true := by
    obtain ⟨a, b, c, d, e, g, i, j⟩ := f
    cases complexDtype <;> cases b <;> cases c <;> cases d <;> cases i <;> cases j <;>
      simp [stepReal, stepDtype, doubtful, Flags.when, Flags.setSymmetric, Flags.setHermitian, Flags.setOrthogonal,
        Flags.setUnitary]
  have d2 : (stepReal (stepDtype complexDtype f)).unitary = true →
      (stepReal (stepDtype complexDtype f)).hermitian = true → doubtful complexDtype f = true := by
    obtain ⟨a, b, c, d, e, g, i, j⟩ := f
    cases complexDtype <;> cases b <;> cases c <;> cases d <;> cases i <;> cases j <;>
      simp [stepReal, stepDtype, doubtful, Flags.when, Flags.setSymmetric, Flags.setHermitian, Flags.setOrthogonal,
        Flags.setUnitary]
  have h2 := h1.stepOrthogonal (fun ho hs => hd (d1 ho hs))
  have h3 := h2.stepUnitary (by
    intro hu hh
    have hu1 : (stepReal (stepDtype complexDtype f)).unitary = true := by
      revert hu
      generalize stepReal (stepDtype complexDtype f) = g
      unfold Flags.stepOrthogonal Flags.when Flags.setSymmetric
      dsimp only
      split <;> (try split) <;> (try split) <;> exact fun h => h
    have hh1 : (stepReal (stepDtype complexDtype f)).hermitian = true := by
      revert hh
      generalize stepReal (stepDtype complexDtype f) = g
      unfold Flags.stepOrthogonal Flags.when Flags.setSymmetric
      dsimp only
      split <;> (try split) <;> (try split) <;> exact fun h => h
    exact hd (d2 hu1 hh1))
  exact h3.stepInvolutary.stepIdempotent

/-- C10, partial: if the declared flags (and the real data type) are true of the matrix of the operator, all the flags
after the construction are true of it, unless the operator is declared, directly or through real, both symmetric and
orthogonal or both hermitian and unitary; for such a matrix the deduced flags are true if it is idempotent.
Missing from the full property: the declarations for which the deduction of idempotent is wrong
(`C10_reflection_fails`). -/
theorem C10_flags_sound_partial (complexDtype : Bool) (declared : Flags) (A : Matrix n n ℂ) (h : TrueOf declared A)
    (hreal : complexDtype = false → conj A = A) (hd : doubtful complexDtype declared = true → A * A = A) :
    TrueOf (initFlags complexDtype declared) A := by
  obtain ⟨e1, e2, e3, e4, e5, e6, e7⟩ := declare_flags declared
  unfold initFlags
  refine closure_sound complexDtype _ A ⟨?_, ?_, ?_, ?_, ?_, ?_, ?_⟩ hreal ?_
  · rw [e1]; exact h.1
  · rw [e2]; exact h.2
  · rw [e3]; exact h.3
  · rw [e4]; exact h.4
  · rw [e5]; exact h.5
  · rw [e6]; exact h.6
  · rw [e7]; exact h.7
  · intro hd'
    apply hd
    unfold doubtful at hd' ⊢
    rwa [e1, e2, e3, e6, e7] at hd'

/-- C10: a declared flag is never removed, and hermitian, symmetric, orthogonal and unitary operators are linear. -/
theorem C10_flags_kept (complexDtype : Bool) (f : Flags) :
    let g := initFlags complexDtype f
    (f.real = true → g.real = true) ∧ (f.symmetric = true → g.symmetric = true) ∧
    (f.hermitian = true → g.hermitian = true) ∧ (f.idempotent = true → g.idempotent = true) ∧
    (f.involutary = true → g.involutary = true) ∧ (f.orthogonal = true → g.orthogonal = true) ∧
    (f.unitary = true → g.unitary = true) ∧ (f.linear = true → g.linear = true) ∧
    (g.symmetric || g.hermitian || g.orthogonal || g.unitary → g.linear = true) := by
  obtain ⟨a, b, c, d, e, g, i, j⟩ := f
  revert complexDtype a b c d e g i j
  decide +kernel

/-- The reflection of the plane that changes the sign of the second coordinate. -/
def reflection : Matrix (Fin 2) (Fin 2) ℂ := !![1, 0; 0, -1]

theorem reflection_sq : reflection * reflection = 1 := by
  unfold reflection
  ext i j
  fin_cases i <;> fin_cases j <;> simp [Matrix.mul_apply, Fin.sum_univ_two]

theorem reflection_transpose : reflectionᵀ = reflection := by
  unfold reflection
  ext i j
  fin_cases i <;> fin_cases j <;> simp

theorem reflection_conj : conj reflection = reflection := by
  unfold reflection conj
  ext i j
  fin_cases i <;> fin_cases j <;> simp

theorem reflection_not_idempotent : reflection * reflection ≠ reflection := by
  rw [reflection_sq]
  intro h
  have := congrFun (congrFun h 1) 1
  simp [reflection] at this
  norm_num at this

theorem reflection_adjoint : reflectionᴴ = reflection := by
  rw [conjTranspose_of_real reflection_conj, reflection_transpose]

/-- Non-trivial instance of the hypotheses of the partial theorem: the reflection, declared involutary and symmetric. -/
example : TrueOf (initFlags false { symmetric := true, involutary := true }) reflection :=
  C10_flags_sound_partial false { symmetric := true, involutary := true } reflection
    ⟨by simp, fun _ => reflection_transpose, by simp, by simp, fun _ => reflection_sq, by simp, by simp⟩
    (fun _ => reflection_conj) (by decide)

/-- C10 is violated by the code: a reflection declared symmetric and orthogonal, as it is, is given the flag
idempotent, which is false; the library then replaces its composition with itself by itself. -/
theorem C10_reflection_fails :
    ∃ (declared : Flags) (A : Matrix (Fin 2) (Fin 2) ℂ), TrueOf declared A ∧ conj A = A ∧
      (initFlags false declared).idempotent = true ∧ A * A ≠ A :=
  ⟨{ symmetric := true, orthogonal := true }, reflection,
    ⟨by simp, fun _ => reflection_transpose, by simp, by simp, by simp,
      fun _ => by rw [reflection_transpose, reflection_sq], by simp⟩,
    reflection_conj, by decide, reflection_not_idempotent⟩

/-- C10 is violated by the code: the flags of a reflection declared symmetric and involutary are true after the
construction, but not after the operator has been initialized again with its own flags. -/
theorem C10_reset_fails :
    ∃ (declared : Flags) (A : Matrix (Fin 2) (Fin 2) ℂ), TrueOf declared A ∧ conj A = A ∧
      TrueOf (initFlags false declared) A ∧ ¬ TrueOf (resetFlags false (initFlags false declared)) A :=
  ⟨{ symmetric := true, involutary := true }, reflection,
    ⟨by simp, fun _ => reflection_transpose, by simp, by simp, fun _ => reflection_sq, by simp, by simp⟩,
    reflection_conj,
    C10_flags_sound_partial false { symmetric := true, involutary := true } reflection
      ⟨by simp, fun _ => reflection_transpose, by simp, by simp, fun _ => reflection_sq, by simp, by simp⟩
      (fun _ => reflection_conj) (by decide),
    fun h => reflection_not_idempotent (h.idempotent (by decide))⟩

end Verif.Flags
