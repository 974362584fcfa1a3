import Verif.Iter.Criterions
import Mathlib.Tactic.FieldSimp
import Mathlib.Tactic.LinearCombination

/-
Model of the line searches: src/pyoperators/iterative/linesearch.py:25-76, in exact real arithmetic, and property C77.
-/

namespace Verif.Criterions

open Matrix

variable {m n : Nat}

/-! ### Model -/

/-- An element of a criterion and `isinstance(norm, Norm2)`, which is kept by the multiplication by a scalar:
src/pyoperators/iterative/criterions.py:129-140. -/
structure Term (n : Nat) where
  element : Element n
  isNorm2 : Bool

/-- The norm used by the line search: src/pyoperators/iterative/linesearch.py:45-48. -/
def Term.stepNorm (t : Term n) : Norm t.element.m := if t.isNorm2 then t.element.norm else norm2 none

/-- The denominator: src/pyoperators/iterative/linesearch.py:52. -/
def curvature (ts : List (Term n)) (d : Fin n → ℝ) : ℝ := (ts.map fun t => t.stepNorm.call (t.element.op *ᵥ d)).sum

/-- `optimal_step`: src/pyoperators/iterative/linesearch.py:25-53.  `none` is the infinity or the NaN of a division by zero. -/
noncomputable def optimalStep (ts : List (Term n)) (d g : Fin n → ℝ) : Option ℝ :=
  if curvature ts d = 0 then none else some (-(1 / 2) * (d ⬝ᵥ g) / curvature ts d)

/-- The loop of `Backtracking.__call__`: src/pyoperators/iterative/linesearch.py:68-73.  `fuel` is the number of iterations that are left,
`f` is the criterion along the descent direction. -/
noncomputable def backtrackLoop (tau f0 : ℝ) (f : ℝ → ℝ) : Nat → ℝ → ℝ → ℝ
  | 0, a, _ => a
  | fuel + 1, a, fi => if fi > f0 then backtrackLoop tau f0 f fuel (a * tau) (f (a * tau)) else a

/-- `Backtracking.__call__`, where the result of `optimal_step` is a: src/pyoperators/iterative/linesearch.py:61-73. -/
noncomputable def backtrack (maxiter : Nat) (tau f0 : ℝ) (f : ℝ → ℝ) (a : ℝ) : ℝ := backtrackLoop tau f0 f maxiter a (2 * f0)

/-! ### The optimal step -/

/-- The norms that are quadratic: the 2-norms with a symmetric covariance matrix, and their multiples. -/
def Quadratic (N : Norm m) : Prop :=
  ∃ C : Matrix (Fin m) (Fin m) ℝ, C.IsSymm ∧ (∀ x, N.call x = x ⬝ᵥ C *ᵥ x) ∧ ∀ x, N.diff x = (2 : ℝ) • C *ᵥ x

theorem quadratic_norm2 : Quadratic (norm2 (m := m) none) := ⟨1, isSymm_one, fun x => by simp [norm2], fun x => by simp [norm2]⟩

theorem quadratic_covariance {C : Matrix (Fin m) (Fin m) ℝ} (h : C.IsSymm) : Quadratic (norm2 (some C)) := ⟨C, h, fun _ => rfl, fun _ => rfl⟩

theorem Quadratic.mul {N : Norm m} (h : Quadratic N) (a : ℝ) : Quadratic (N.mul a) := by
  obtain ⟨C, h1, h2, h3⟩ := h
  refine ⟨a • C, ?_, fun x => ?_, fun x => ?_⟩
  · rw [Matrix.IsSymm, transpose_smul, h1.eq]
  · simp [Norm.mul, h2, smul_mulVec]
  · simp only [Norm.mul, h3, smul_mulVec]
    rw [smul_comm]

theorem minusData_line (e : Element n) (x d : Fin n → ℝ) (t : ℝ) :
    e.minusData (e.op *ᵥ (x + t • d)) = e.minusData (e.op *ᵥ x) + t • (e.op *ᵥ d) := by
  rw [mulVec_add, mulVec_smul]
  unfold Element.minusData
  cases e.data with
  | none => rfl
  | some y => simp only; abel

theorem element_line {e : Element n} (h : Quadratic e.norm) (x d : Fin n → ℝ) (t : ℝ) :
    e.value (x + t • d) = e.value x + t * (d ⬝ᵥ e.gradient x) + t ^ 2 * e.norm.call (e.op *ᵥ d) := by
  obtain ⟨C, h1, h2, h3⟩ := h
  rw [Element.value, minusData_line, h2, quadratic_expand, Element.value, h2, h2, symm_dot h1 (e.minusData (e.op *ᵥ x)) (e.op *ᵥ d),
    Element.gradient, h3, dotProduct_mulVec d, vecMul_transpose, dotProduct_smul, smul_eq_mul]
  ring

/-- The gradient of the criterion of the terms. -/
def termsGradient (ts : List (Term n)) (x : Fin n → ℝ) : Fin n → ℝ := (ts.map fun t => t.element.gradient x).sum

theorem value_line (ts : List (Term n)) (h : ∀ t ∈ ts, t.isNorm2 = true ∧ Quadratic t.element.norm) (x d : Fin n → ℝ) (t : ℝ) :
    value (ts.map (·.element)) (x + t • d) =
      value (ts.map (·.element)) x + t * (d ⬝ᵥ termsGradient ts x) + t ^ 2 * curvature ts d := by
  induction ts with
  | nil => simp [value, termsGradient, curvature]
  | cons s ts ih =>
    have h1 := ih fun t ht => h t (List.mem_cons_of_mem _ ht)
    obtain ⟨h2, h3⟩ := h s List.mem_cons_self
    simp only [value, termsGradient, curvature, List.map_cons, List.sum_cons, Term.stepNorm, h2, if_true, dotProduct_add] at h1 ⊢
    rw [h1, element_line h3]
    ring

/-- What `diff` returns is the gradient of the terms. -/
theorem diff_terms (hn : 0 < n) (ts : List (Term n)) (calls : List (Call n)) (x g : Fin n → ℝ)
    (hg : (diff (calls.foldl after (create (ts.map (·.element)))) x).2 = some g) : g = termsGradient ts x := by
  obtain ⟨h1, h2⟩ := after_good hn (ts.map (·.element)) calls
  rw [(diff_good hn x _ h1).1, Option.some.injEq] at hg
  rw [← hg, termsGradient]
  have : ((calls.foldl after (create (ts.map (·.element)))).map fun l => l.element.gradient x) =
      (ts.map (·.element)).map fun e => e.gradient x := by
    conv_rhs => rw [← h2, List.map_map]
    rfl
  rw [this, List.map_map]
  rfl

/-- **C77** If the norms are 2-norms (with symmetric covariances, multiplied by scalars) and the criterion is strictly convex along the
descent direction, `optimal_step` returns the only minimum of the criterion along this direction. -/
theorem C77_optimal (hn : 0 < n) (ts : List (Term n)) (h : ∀ t ∈ ts, t.isNorm2 = true ∧ Quadratic t.element.norm)
    (calls : List (Call n)) (x d g : Fin n → ℝ) (hg : (diff (calls.foldl after (create (ts.map (·.element)))) x).2 = some g)
    (hd : 0 < (ts.map fun t => t.element.norm.call (t.element.op *ᵥ d)).sum) :
    ∃ a, optimalStep ts d g = some a ∧ ∀ b, b ≠ a →
      (ts.map fun t => t.element.norm.call (t.element.minusData (t.element.op *ᵥ (x + a • d)))).sum <
        (ts.map fun t => t.element.norm.call (t.element.minusData (t.element.op *ᵥ (x + b • d)))).sum := by
  have hc : curvature ts d = (ts.map fun t => t.element.norm.call (t.element.op *ᵥ d)).sum := by
    rw [curvature]
    congr 1
    refine List.map_congr_left fun t ht => ?_
    rw [Term.stepNorm, if_pos (h t ht).1]
  have hg := diff_terms hn ts calls x g hg
  rw [← hc] at hd
  refine ⟨_, if_neg hd.ne', fun b hb => ?_⟩
  have hv : ∀ t : ℝ, (ts.map fun s => s.element.norm.call (s.element.minusData (s.element.op *ᵥ (x + t • d)))).sum =
      value (ts.map (·.element)) x + t * (d ⬝ᵥ g) + t ^ 2 * curvature ts d := by
    intro t
    rw [hg, ← value_line ts h, value, List.map_map]
    rfl
  rw [hv, hv]
  generalize d ⬝ᵥ g = p at *
  generalize curvature ts d = c at *
  have h1 : 0 < c * (b - -(1 / 2) * p / c) ^ 2 := by
    have : b - -(1 / 2) * p / c ≠ 0 := sub_ne_zero.2 hb
    positivity
  have h2 : c * (b - -(1 / 2) * p / c) ^ 2 = b * p + b ^ 2 * c - (-(1 / 2) * p / c * p + (-(1 / 2) * p / c) ^ 2 * c) := by
    field_simp
    ring
  linarith

/-- **C77** With a descent direction, the optimal step decreases the criterion, by the square of the scalar product of the direction and of the
gradient divided by four times the curvature. -/
theorem C77_decrease (hn : 0 < n) (ts : List (Term n)) (h : ∀ t ∈ ts, t.isNorm2 = true ∧ Quadratic t.element.norm)
    (calls : List (Call n)) (x d g : Fin n → ℝ) (hg : (diff (calls.foldl after (create (ts.map (·.element)))) x).2 = some g)
    (a : ℝ) (ha : optimalStep ts d g = some a) :
    value (ts.map (·.element)) (x + a • d) = value (ts.map (·.element)) x -
      (d ⬝ᵥ g) ^ 2 / (4 * (ts.map fun t => t.element.norm.call (t.element.op *ᵥ d)).sum) := by
  have hc : curvature ts d = (ts.map fun t => t.element.norm.call (t.element.op *ᵥ d)).sum := by
    rw [curvature]
    congr 1
    refine List.map_congr_left fun t ht => ?_
    rw [Term.stepNorm, if_pos (h t ht).1]
  have hg := diff_terms hn ts calls x g hg
  rw [← hc]
  simp only [optimalStep] at ha
  split at ha
  · cases ha
  · next h0 =>
    rw [Option.some.injEq] at ha
    rw [value_line ts h, ← hg, ← ha]
    field_simp
    ring

/-! ### Backtracking -/

theorem backtrackLoop_spec (tau f0 : ℝ) (f : ℝ → ℝ) : ∀ (fuel : Nat) (a fi : ℝ),
    ∃ i ≤ fuel, backtrackLoop tau f0 f fuel a fi = a * tau ^ i ∧
      (∀ j < i, 0 < j → f0 < f (a * tau ^ j)) ∧ (0 < i → f0 < fi) ∧ (i < fuel → (if i = 0 then fi else f (a * tau ^ i)) ≤ f0)
  | 0, a, fi => ⟨0, le_refl _, by simp [backtrackLoop], by omega, by omega, by omega⟩
  | fuel + 1, a, fi => by
    by_cases h : fi > f0
    · obtain ⟨i, h1, h2, h3, h4, h5⟩ := backtrackLoop_spec tau f0 f fuel (a * tau) (f (a * tau))
      have e : ∀ j, a * tau * tau ^ j = a * tau ^ (j + 1) := fun j => by rw [_root_.pow_succ]; ring
      refine ⟨i + 1, by omega, by simp only [backtrackLoop, if_pos h, h2, e], fun j hj hj0 => ?_, fun _ => h, fun hi => ?_⟩
      · obtain ⟨j, rfl⟩ : ∃ k, j = k + 1 := ⟨j - 1, by omega⟩
        cases j with
        | zero => simpa using h4 (by omega)
        | succ j => rw [← e]; exact h3 (j + 1) (by omega) (by omega)
      · have := h5 (by omega)
        rw [if_neg (by omega)]
        cases i with
        | zero => simpa using this
        | succ i => rw [if_neg (by omega), e] at this; exact this
    · exact ⟨0, by omega, by simp [backtrackLoop, h], by omega, by omega, fun _ => by simpa using h⟩

/-- **C77** Backtracking, for a positive criterion: the step is the optimal one multiplied by tau^i with 1 ≤ i ≤ maxiter, the criterion does not
increase or i = maxiter, and the longer trials, from tau times the optimal step, increase the criterion. -/
theorem C77_backtracking (maxiter : Nat) (hm : 0 < maxiter) (tau f0 : ℝ) (h0 : 0 < f0) (f : ℝ → ℝ) (a : ℝ) :
    ∃ i, 1 ≤ i ∧ i ≤ maxiter ∧ backtrack maxiter tau f0 f a = a * tau ^ i ∧
      (f (backtrack maxiter tau f0 f a) ≤ f0 ∨ i = maxiter) ∧ ∀ j, 1 ≤ j → j < i → f0 < f (a * tau ^ j) := by
  obtain ⟨i, h1, h2, h3, h4, h5⟩ := backtrackLoop_spec tau f0 f maxiter a (2 * f0)
  have hi : 1 ≤ i := by
    by_contra hc
    have : i = 0 := by omega
    subst this
    have := h5 hm
    rw [if_pos rfl] at this
    linarith
  refine ⟨i, hi, h1, h2, ?_, fun j hj hji => h3 j hji hj⟩
  rcases Nat.lt_or_ge i maxiter with h | h
  · left
    have := h5 h
    rw [if_neg (by omega)] at this
    rw [backtrack, h2]
    exact this
  · right; omega

/-- **C77** Backtracking finds a step that does not increase the criterion, if there is one among the trials. -/
theorem C77_backtracking_decreases (maxiter : Nat) (tau f0 : ℝ) (h0 : 0 < f0) (f : ℝ → ℝ) (a : ℝ)
    (h : ∃ i, 1 ≤ i ∧ i ≤ maxiter ∧ f (a * tau ^ i) ≤ f0) : f (backtrack maxiter tau f0 f a) ≤ f0 := by
  obtain ⟨j, hj1, hj2, hj3⟩ := h
  obtain ⟨i, h1, h2, h3, h4, h5⟩ := C77_backtracking maxiter (by omega) tau f0 h0 f a
  rcases h4 with h | h
  · exact h
  · rcases Nat.lt_or_ge j i with hji | hji
    · exact absurd hj3 (not_le.2 (h5 j hj1 hji))
    · have : j = i := by omega
      rw [h3, ← this]
      exact hj3

/-- **C77** For a quadratic criterion, backtracking returns tau times the optimal step: the optimal step itself is never tried. -/
theorem C77_backtracking_quadratic (hn : 0 < n) (ts : List (Term n)) (h : ∀ t ∈ ts, t.isNorm2 = true ∧ Quadratic t.element.norm)
    (calls : List (Call n)) (x d g : Fin n → ℝ) (hg : (diff (calls.foldl after (create (ts.map (·.element)))) x).2 = some g)
    (hd : 0 < (ts.map fun t => t.element.norm.call (t.element.op *ᵥ d)).sum) (maxiter : Nat) (hm : 0 < maxiter) (tau : ℝ)
    (ht : 0 < tau ∧ tau ≤ 1) (h0 : 0 < value (ts.map (·.element)) x) :
    ∃ a, optimalStep ts d g = some a ∧
      backtrack maxiter tau (value (ts.map (·.element)) x) (fun b => value (ts.map (·.element)) (x + b • d)) a = tau * a := by
  have hc : curvature ts d = (ts.map fun t => t.element.norm.call (t.element.op *ᵥ d)).sum := by
    rw [curvature]
    congr 1
    refine List.map_congr_left fun t ht => ?_
    rw [Term.stepNorm, if_pos (h t ht).1]
  have hg := diff_terms hn ts calls x g hg
  rw [← hc] at hd
  refine ⟨_, if_neg hd.ne', ?_⟩
  obtain ⟨i, h1, h2, h3, h4, h5⟩ := C77_backtracking maxiter hm tau _ h0 (fun b => value (ts.map (·.element)) (x + b • d))
    (-(1 / 2) * (d ⬝ᵥ g) / curvature ts d)
  rw [h3]
  rcases Nat.lt_or_ge 1 i with hi | hi
  · exfalso
    have := h5 1 (le_refl _) hi
    simp only [pow_one] at this
    rw [value_line ts h, ← hg] at this
    generalize d ⬝ᵥ g = p at *
    generalize curvature ts d = c at *
    have e : -(1 / 2) * p / c * tau * p + (-(1 / 2) * p / c * tau) ^ 2 * c = - (p ^ 2 / c * (tau * (2 - tau) / 4)) := by
      field_simp
      ring
    have : 0 ≤ p ^ 2 / c * (tau * (2 - tau) / 4) := by
      have : 0 ≤ 2 - tau := by linarith [ht.2]
      have := ht.1.le
      positivity
    linarith
  · have : i = 1 := by omega
    rw [this]; ring

/-! ### What fails -/

/-- The criterion (x - 1)² with the 2-norm. -/
def square : List (Term 1) := [⟨⟨1, norm2 none, 1, some ![1]⟩, true⟩]

/-- **C77** Backtracking does not start with the optimal step, although it decreases the criterion: for (x - 1)² at 0, it goes to 1/2 instead
of 1. -/
theorem C77_backtracking_fails :
    optimalStep square ![1] ![-2] = some 1 ∧ value (square.map (·.element)) (![0] + (1 : ℝ) • ![1]) = 0 ∧
      backtrack 10 (1 / 2) (value (square.map (·.element)) ![0]) (fun b => value (square.map (·.element)) (![0] + b • ![1])) 1 = 1 / 2 := by
  have hv : ∀ b : ℝ, value (square.map (·.element)) (![0] + b • ![1]) = (b - 1) ^ 2 := by
    intro b
    simp [value, square, Element.value, Element.minusData, norm2, dotProduct]
    ring
  have h0 : value (square.map (·.element)) ![0] = 1 := by
    simp [value, square, Element.value, Element.minusData, norm2, dotProduct]
  refine ⟨?_, by rw [hv]; norm_num, ?_⟩
  · have : curvature square ![1] = 1 := by simp [curvature, square, Term.stepNorm, norm2, dotProduct]
    rw [optimalStep, this]
    norm_num [dotProduct]
  · simp only [hv, h0, backtrack, backtrackLoop]
    norm_num

/-- The criterion 10 h(x) with the Huber norm, whose parameter is 1, for |x| < 1. -/
noncomputable def scaledHuber : List (Term 1) := [⟨(⟨1, huberNorm 1, 1, none⟩ : Element 1).mul 10, false⟩]

/-- **C77** The norms that are not 2-norms are replaced by the 2-norm without the scalar that multiplies them.  For 10 h(x) at 1/2, where the
criterion is 10 x², the step along the opposite of the gradient is ten times too long: it goes to -9/2 and increases the criterion. -/
theorem C77_scale_fails :
    (diff (create (scaledHuber.map (·.element))) ![1 / 2]).2 = some ![10] ∧ optimalStep scaledHuber ![-10] ![10] = some (1 / 2) ∧
      value (scaledHuber.map (·.element)) ![1 / 2] < value (scaledHuber.map (·.element)) (![1 / 2] + (1 / 2 : ℝ) • ![-10]) := by
  refine ⟨?_, ?_, ?_⟩
  · have h1 := after_good (n := 1) (by decide) (scaledHuber.map (·.element)) []
    rw [List.foldl_nil] at h1
    rw [(diff_good (by decide) _ _ h1.1).1]
    congr 1
    funext i
    have : i = 0 := Subsingleton.elim _ _
    subst this
    simp [create, scaledHuber, Element.gradient, Element.mul, Element.minusData, Norm.mul, huberNorm, dhuber]
    norm_num
  · have : curvature scaledHuber ![-10] = 100 := by
      simp [curvature, scaledHuber, Term.stepNorm, norm2, Element.mul, dotProduct]
      norm_num
    rw [optimalStep, this]
    norm_num [dotProduct]
  · simp [value, scaledHuber, Element.value, Element.minusData, Element.mul, Norm.mul, huberNorm, huber]
    norm_num

/-- **C77** If the criterion is zero or negative (with a negative hyperparameter), backtracking returns the optimal step without trying it,
even if it increases the criterion. -/
theorem C77_nonpositive_fails (maxiter : Nat) (tau f0 : ℝ) (h : f0 ≤ 0) (f : ℝ → ℝ) (a : ℝ) : backtrack maxiter tau f0 f a = a := by
  unfold backtrack
  cases maxiter with
  | zero => rfl
  | succ m => rw [backtrackLoop, if_neg (by linarith)]

/-! ### Examples -/

/-- Two 2-norms, one with a covariance matrix and a factor. -/
def twoTerms : List (Term 2) :=
  [⟨⟨3, norm2 none, !![1, 0; 1, 1; 0, 2], some ![1, 2, 3]⟩, true⟩, ⟨(⟨2, norm2 (some !![2, 1; 1, 2]), 1, none⟩ : Element 2).mul 3, true⟩]

example (x g : Fin 2 → ℝ) (hg : (diff (create (twoTerms.map (·.element))) x).2 = some g) :
    ∃ a, optimalStep twoTerms ![1, 0] g = some a ∧ ∀ b, b ≠ a →
      (twoTerms.map fun t => t.element.norm.call (t.element.minusData (t.element.op *ᵥ (x + a • ![1, 0])))).sum <
        (twoTerms.map fun t => t.element.norm.call (t.element.minusData (t.element.op *ᵥ (x + b • ![1, 0])))).sum :=
  C77_optimal (by decide) twoTerms (by
    intro t ht
    simp only [twoTerms, List.mem_cons, List.not_mem_nil, or_false] at ht
    rcases ht with rfl | rfl
    · exact ⟨rfl, quadratic_norm2⟩
    · refine ⟨rfl, (quadratic_covariance ?_).mul 3⟩
      ext i j
      fin_cases i <;> fin_cases j <;> rfl) [] x ![1, 0] g hg (by
    simp [twoTerms, norm2, Element.mul, Norm.mul, Matrix.mulVec, dotProduct, Fin.sum_univ_succ]
    norm_num)

example : backtrack 10 (1 / 2) (-1) (fun b => b ^ 2) 3 = 3 := C77_nonpositive_fails _ _ _ (by norm_num) _ _

example : backtrack 10 (1 / 2) 1 (fun b => |b - 1|) 8 = 2 := by
  simp only [backtrack, backtrackLoop]
  norm_num

end Verif.Criterions
