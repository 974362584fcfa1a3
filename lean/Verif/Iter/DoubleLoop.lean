import Verif.Iter.Criterions
import Mathlib.Analysis.SpecialFunctions.Sqrt
import Mathlib.LinearAlgebra.Matrix.NonsingularInverse
import Mathlib.Tactic.FieldSimp
import Mathlib.Tactic.LinearCombination

/-
Model of the double loop algorithm: src/pyoperators/iterative/dli.py, in exact real arithmetic, and property C78.

The projections Xu and Bu, which are cached (src/pyoperators/iterative/dli.py:42-57) as the elements of the criterions of C76, are computed
here.
-/

namespace Verif.Criterions

open Matrix

/-! ### Model -/

/-- The attributes of the algorithm: src/pyoperators/iterative/dli.py:175-196. -/
structure Loop (m n k : Nat) where
  model : Matrix (Fin m) (Fin n) ℝ
  data : Fin m → ℝ
  prior : Matrix (Fin k) (Fin n) ℝ
  noise : Option (Matrix (Fin m) (Fin m) ℝ)
  tau : Fin k → ℝ
  sigma : ℝ

variable {m n k : Nat}

/-- `likelihood`: src/pyoperators/iterative/dli.py:59-63. -/
noncomputable def Loop.likelihood (p : Loop m n k) (u : Fin n → ℝ) : ℝ :=
  p.sigma ^ (-2 : Int) * (norm2 p.noise).call (p.model *ᵥ u - p.data)

/-- `dlike`: src/pyoperators/iterative/dli.py:65-70. -/
noncomputable def Loop.dlike (p : Loop m n k) (u : Fin n → ℝ) : Fin n → ℝ :=
  p.sigma ^ (-2 : Int) • p.modelᵀ *ᵥ (norm2 p.noise).diff (p.model *ᵥ u - p.data)

/-- `d2like`: src/pyoperators/iterative/dli.py:72-78. -/
noncomputable def Loop.d2like (p : Loop m n k) : Matrix (Fin n) (Fin n) ℝ :=
  p.sigma ^ (-2 : Int) • (p.modelᵀ * p.noise.getD 1 * p.model)

/-- `penalization`: src/pyoperators/iterative/dli.py:83-90. -/
noncomputable def Loop.penalization (p : Loop m n k) (z : Fin k → ℝ) (u : Fin n → ℝ) : ℝ :=
  ∑ i, p.tau i * Real.sqrt (z i + (|(p.prior *ᵥ u) i| / p.sigma) ^ 2)

/-- `dpen`: src/pyoperators/iterative/dli.py:92-100. -/
noncomputable def Loop.dpen (p : Loop m n k) (z : Fin k → ℝ) (u : Fin n → ℝ) : Fin n → ℝ :=
  (p.sigma ^ 2)⁻¹ • p.priorᵀ *ᵥ fun i =>
    2 * (p.tau i * (p.prior *ᵥ u) i) / Real.sqrt (z i + ((p.prior *ᵥ u) i / p.sigma) ^ 2)

/-- `d2pen`: src/pyoperators/iterative/dli.py:102-110. -/
noncomputable def Loop.d2pen (p : Loop m n k) (z : Fin k → ℝ) (u : Fin n → ℝ) : Matrix (Fin n) (Fin n) ℝ :=
  p.priorᵀ * diagonal (fun i =>
    p.tau i * z i / ((z i + ((p.prior *ᵥ u) i / p.sigma) ^ 2) ^ (3 / 2 : ℝ) * p.sigma ^ 2)) * p.prior

/-- `__call__`: src/pyoperators/iterative/dli.py:115-116. -/
noncomputable def Loop.call (p : Loop m n k) (z : Fin k → ℝ) (u : Fin n → ℝ) : ℝ := p.likelihood u + p.penalization z u

/-- `gradient`: src/pyoperators/iterative/dli.py:118-119. -/
noncomputable def Loop.gradient (p : Loop m n k) (z : Fin k → ℝ) (u : Fin n → ℝ) : Fin n → ℝ := p.dlike u + p.dpen z u

/-- `hessian` and `hessian_p`: src/pyoperators/iterative/dli.py:121-125. -/
noncomputable def Loop.hessianP (p : Loop m n k) (z : Fin k → ℝ) (u v : Fin n → ℝ) : Fin n → ℝ := (p.d2like + p.d2pen z u) *ᵥ v

/-- `update_inv_cov`: src/pyoperators/iterative/dli.py:243-251. -/
noncomputable def Loop.invCov (p : Loop m n k) (gamma : Fin k → ℝ) : Matrix (Fin n) (Fin n) ℝ :=
  p.modelᵀ * p.noise.getD 1 * p.model + p.priorᵀ * diagonal (fun i => (gamma i)⁻¹) * p.prior

/-- `update_z`: src/pyoperators/iterative/dli.py:257-262, for r eigenvalues e and eigenvectors, the columns of v. -/
def Loop.updateZ (p : Loop m n k) {r : Nat} (e : Fin r → ℝ) (v : Matrix (Fin n) (Fin r) ℝ) : Fin k → ℝ :=
  fun i => ∑ l, e l * (p.prior *ᵥ fun j => v j l) i ^ 2

/-- `update_gamma`: src/pyoperators/iterative/dli.py:285-288. -/
noncomputable def Loop.updateGamma (p : Loop m n k) (z : Fin k → ℝ) (u : Fin n → ℝ) : Fin k → ℝ :=
  fun i => Real.sqrt (z i + (|(p.prior *ᵥ u) i| / p.sigma) ^ 2) / p.tau i

/-! ### The gradient -/

/-- A sum of functions of the elements that depend on their indices. -/
theorem gradient_sum_index {f f' : Fin n → ℝ → ℝ} {x : Fin n → ℝ} (h : ∀ i, HasDerivAt (f i) (f' i (x i)) (x i)) :
    IsGradient (fun x => ∑ i, f i (x i)) x (fun i => f' i (x i)) := by
  intro d
  simp only [dotProduct]
  have : ∀ i ∈ (Finset.univ : Finset (Fin n)), HasDerivAt (fun t : ℝ => f i ((x + t • d) i)) (f' i (x i) * d i) 0 := by
    intro i _
    have h1 : HasDerivAt (fun t : ℝ => (x + t • d) i) (d i) 0 := by
      simp only [Pi.add_apply, Pi.smul_apply, smul_eq_mul]
      simpa using ((hasDerivAt_id (0 : ℝ)).mul_const (d i)).const_add (x i)
    have h2 : HasDerivAt (f i) (f' i (x i)) ((x + (0 : ℝ) • d) i) := by simpa using h i
    exact h2.comp (0 : ℝ) h1
  exact HasDerivAt.fun_sum this

theorem IsGradient.add {f g : (Fin n → ℝ) → ℝ} {x a b : Fin n → ℝ} (h : IsGradient f x a) (h' : IsGradient g x b) :
    IsGradient (fun x => f x + g x) x (a + b) := by
  intro d
  rw [add_dotProduct]
  exact (h d).fun_add (h' d)

theorem sqrt_deriv {z s t : ℝ} (hz : 0 < z) (sigma : ℝ) :
    HasDerivAt (fun s => t * Real.sqrt (z + (|s| / sigma) ^ 2)) (t * s / (sigma ^ 2 * Real.sqrt (z + (s / sigma) ^ 2))) s := by
  have e : (fun s => t * Real.sqrt (z + (|s| / sigma) ^ 2)) = fun s => t * Real.sqrt (z + (s / sigma) ^ 2) := by
    funext s
    rw [div_pow, sq_abs, ← div_pow]
  rw [e]
  have hp : 0 < z + (s / sigma) ^ 2 := by positivity
  have h1 : HasDerivAt (fun s : ℝ => z + (s / sigma) ^ 2) (2 * (s / sigma) * (1 / sigma)) s := by
    have := (((hasDerivAt_id s).div_const sigma).pow 2).const_add z
    simpa using this
  have h2 := (h1.sqrt hp.ne').const_mul t
  refine h2.congr_deriv ?_
  have hs := Real.sqrt_pos.2 hp
  by_cases h0 : sigma = 0
  · subst h0; simp
  · field_simp

theorem likelihood_gradient (p : Loop m n k) (hN : ∀ C, p.noise = some C → C.IsSymm) (u : Fin n → ℝ) :
    IsGradient p.likelihood u (p.dlike u) := by
  have h : (norm2 p.noise).Right (p.model *ᵥ u - p.data) := by
    cases hC : p.noise with
    | none => exact (C76_norms_partial _).1
    | some C => exact (C76_norms_partial _).2.1 C (hN C hC)
  have := element_gradient ⟨m, (norm2 p.noise).mul (p.sigma ^ (-2 : Int)), p.model, some p.data⟩ u (h.mul _)
  have e : p.dlike u = p.modelᵀ *ᵥ (p.sigma ^ (-2 : Int) • (norm2 p.noise).diff (p.model *ᵥ u - p.data)) := by
    rw [mulVec_smul]; rfl
  rw [e]
  exact this

theorem penalization_gradient (p : Loop m n k) {z : Fin k → ℝ} (hz : ∀ i, 0 < z i) (u : Fin n → ℝ) :
    IsGradient (fun u => 2 * p.penalization z u) u (p.dpen z u) := by
  let N : Norm k := ⟨fun x => ∑ i, (2 * p.tau i) * Real.sqrt (z i + (|x i| / p.sigma) ^ 2),
    fun x i => (2 * p.tau i) * x i / (p.sigma ^ 2 * Real.sqrt (z i + (x i / p.sigma) ^ 2))⟩
  have hN : N.Right (p.prior *ᵥ u) := by
    refine gradient_sum_index (f := fun i s => (2 * p.tau i) * Real.sqrt (z i + (|s| / p.sigma) ^ 2))
      (f' := fun i s => (2 * p.tau i) * s / (p.sigma ^ 2 * Real.sqrt (z i + (s / p.sigma) ^ 2))) fun i => ?_
    exact sqrt_deriv (hz i) p.sigma
  have := element_gradient ⟨k, N, p.prior, none⟩ u hN
  have e1 : (⟨k, N, p.prior, none⟩ : Element n).value = fun u => 2 * p.penalization z u := by
    funext u
    simp only [Element.value, Element.minusData, Loop.penalization, N, Finset.mul_sum, mul_assoc]
  have e2 : (⟨k, N, p.prior, none⟩ : Element n).gradient u = p.dpen z u := by
    rw [Loop.dpen, ← mulVec_smul]
    simp only [Element.gradient, Element.minusData, N]
    congr 1
    funext i
    simp only [Pi.smul_apply, smul_eq_mul]
    rw [div_mul_eq_div_div, inv_mul_eq_div, div_right_comm, mul_assoc]
  rwa [e1, e2] at this

/-- **C78** `gradient` is the gradient of the sum of the likelihood and of twice the penalization. -/
theorem C78_gradient_partial (p : Loop m n k) (hN : ∀ C, p.noise = some C → C.IsSymm) (z : Fin k → ℝ) (hz : ∀ i, 0 < z i)
    (u : Fin n → ℝ) : IsGradient (fun u => p.likelihood u + 2 * p.penalization z u) u (p.gradient z u) :=
  (likelihood_gradient p hN u).add (penalization_gradient p hz u)

/-- **C78** `gradient` is the gradient of the criterion only where the derivative of the penalization is zero. -/
theorem C78_gradient_fails (p : Loop m n k) (hN : ∀ C, p.noise = some C → C.IsSymm) (z : Fin k → ℝ) (hz : ∀ i, 0 < z i)
    (u : Fin n → ℝ) : IsGradient (p.call z) u (p.gradient z u) ↔ p.dpen z u = 0 := by
  have h1 : IsGradient (p.call z) u (p.dlike u + (1 / 2 : ℝ) • p.dpen z u) := by
    refine (likelihood_gradient p hN u).add ?_
    intro d
    have := (penalization_gradient p hz u d).const_mul (1 / 2)
    rw [smul_dotProduct, smul_eq_mul]
    have e : (fun t : ℝ => p.penalization z (u + t • d)) = fun t => 1 / 2 * (2 * p.penalization z (u + t • d)) := by
      funext t
      ring
    rw [e]
    exact this
  constructor
  · intro h
    have h2 := h.unique h1
    rw [Loop.gradient, add_right_inj] at h2
    have h3 : (1 / 2 : ℝ) • p.dpen z u = 0 := by
      have : p.dpen z u - (1 / 2 : ℝ) • p.dpen z u = 0 := by rw [← h2]; exact sub_self _
      rw [← this, sub_eq_add_neg, ← neg_smul]
      nth_rewrite 2 [← one_smul ℝ (p.dpen z u)]
      rw [← add_smul]
      norm_num
    have h4 := congrArg (fun v => (2 : ℝ) • v) h3
    simpa [smul_smul] using h4
  · intro h
    rw [Loop.gradient, h]
    rw [h, smul_zero] at h1
    exact h1

/-! ### The Hessian -/

theorem mulVec_deriv {a b : Nat} (M : Matrix (Fin a) (Fin b) ℝ) {v : ℝ → Fin b → ℝ} {v' : Fin b → ℝ} {t : ℝ} (h : HasDerivAt v v' t) :
    HasDerivAt (fun t => M *ᵥ v t) (M *ᵥ v') t := by
  rw [hasDerivAt_pi]
  intro i
  simp only [mulVec, dotProduct]
  exact HasDerivAt.fun_sum fun j _ => ((hasDerivAt_pi.1 h) j).const_mul (M i j)

theorem line_deriv {a : Nat} (x d : Fin a → ℝ) (t : ℝ) : HasDerivAt (fun t : ℝ => x + t • d) d t := by
  rw [hasDerivAt_pi]
  intro i
  simp only [Pi.add_apply, Pi.smul_apply, smul_eq_mul]
  simpa using ((hasDerivAt_id t).mul_const (d i)).const_add (x i)

theorem rpow_three_halves {w : ℝ} (h : 0 < w) : w ^ (3 / 2 : ℝ) = w * Real.sqrt w := by
  rw [Real.sqrt_eq_rpow, show (3 / 2 : ℝ) = 1 + 1 / 2 by norm_num, Real.rpow_add h, Real.rpow_one]

theorem dsqrt_deriv {z s t sigma : ℝ} (hz : 0 < z) :
    HasDerivAt (fun s => 2 * (t * s) / Real.sqrt (z + (s / sigma) ^ 2)) (2 * (t * z / (z + (s / sigma) ^ 2) ^ (3 / 2 : ℝ))) s := by
  have hp : 0 < z + (s / sigma) ^ 2 := by positivity
  have h1 : HasDerivAt (fun s : ℝ => z + (s / sigma) ^ 2) (2 * (s / sigma) * (1 / sigma)) s := by
    have := (((hasDerivAt_id s).div_const sigma).pow 2).const_add z
    simpa using this
  have h2 := h1.sqrt hp.ne'
  have hs := Real.sqrt_pos.2 hp
  have h3 : HasDerivAt (fun s : ℝ => 2 * (t * s)) (2 * t) s := by
    have := ((hasDerivAt_id s).const_mul t).const_mul 2
    simpa using this
  have h4 := h3.fun_div h2 hs.ne'
  refine h4.congr_deriv ?_
  rw [rpow_three_halves hp]
  have hq : Real.sqrt (z + (s / sigma) ^ 2) ^ 2 = z + (s / sigma) ^ 2 := Real.sq_sqrt hp.le
  generalize hw : Real.sqrt (z + (s / sigma) ^ 2) = w at *
  rw [← hq]
  have hz' : z = w ^ 2 - (s / sigma) ^ 2 := by rw [hq]; ring
  rw [hz']
  by_cases h0 : sigma = 0
  · subst h0
    simp
    field_simp
  · field_simp

/-- **C78** `hessian_p(u, v)` is half of the derivative of `gradient` along v. -/
theorem C78_hessian_partial (p : Loop m n k) (z : Fin k → ℝ) (hz : ∀ i, 0 < z i) (u v : Fin n → ℝ) :
    HasDerivAt (fun t : ℝ => p.gradient z (u + t • v)) ((2 : ℝ) • p.hessianP z u v) 0 := by
  have hlike : HasDerivAt (fun t : ℝ => p.dlike (u + t • v)) ((2 : ℝ) • p.d2like *ᵥ v) 0 := by
    have e : (fun t : ℝ => p.dlike (u + t • v)) = fun t =>
        p.sigma ^ (-2 : Int) • p.modelᵀ *ᵥ ((2 : ℝ) • p.noise.getD 1 *ᵥ ((p.model *ᵥ u - p.data) + t • p.model *ᵥ v)) := by
      funext t
      have : p.model *ᵥ (u + t • v) - p.data = (p.model *ᵥ u - p.data) + t • p.model *ᵥ v := by
        rw [mulVec_add, mulVec_smul]; abel
      rw [Loop.dlike, this]
      cases p.noise with
      | none => simp [norm2]
      | some C => simp [norm2]
    rw [e]
    have h1 := mulVec_deriv (p.noise.getD 1) (line_deriv (p.model *ᵥ u - p.data) (p.model *ᵥ v) 0)
    have h2 := (mulVec_deriv p.modelᵀ (h1.fun_const_smul (2 : ℝ))).fun_const_smul (p.sigma ^ (-2 : Int))
    refine h2.congr_deriv ?_
    simp only [Loop.d2like, smul_mulVec, mulVec_smul, mulVec_mulVec, Matrix.mul_assoc]
    rw [smul_comm]
  have hpen : HasDerivAt (fun t : ℝ => p.dpen z (u + t • v)) ((2 : ℝ) • p.d2pen z u *ᵥ v) 0 := by
    have h1 : HasDerivAt (fun t : ℝ => fun i => 2 * (p.tau i * (p.prior *ᵥ (u + t • v)) i) /
        Real.sqrt (z i + ((p.prior *ᵥ (u + t • v)) i / p.sigma) ^ 2))
        (fun i => 2 * (p.tau i * z i / (z i + ((p.prior *ᵥ u) i / p.sigma) ^ 2) ^ (3 / 2 : ℝ)) * (p.prior *ᵥ v) i) 0 := by
      rw [hasDerivAt_pi]
      intro i
      have h2 : HasDerivAt (fun t : ℝ => (p.prior *ᵥ (u + t • v)) i) ((p.prior *ᵥ v) i) 0 :=
        (hasDerivAt_pi.1 (mulVec_deriv p.prior (line_deriv u v 0))) i
      have h3 := dsqrt_deriv (s := (p.prior *ᵥ (u + (0 : ℝ) • v)) i) (t := p.tau i) (sigma := p.sigma) (hz i)
      have h4 := h3.comp (0 : ℝ) h2
      refine h4.congr_deriv ?_
      simp
    have h2 := (mulVec_deriv p.priorᵀ h1).fun_const_smul (p.sigma ^ 2)⁻¹
    refine h2.congr_deriv ?_
    rw [Loop.d2pen, ← mulVec_mulVec, ← mulVec_mulVec, ← mulVec_smul, ← mulVec_smul]
    congr 1
    funext i
    simp only [Pi.smul_apply, smul_eq_mul, mulVec_diagonal]
    rw [div_mul_eq_div_div]
    ring
  have := hlike.fun_add hpen
  refine this.congr_deriv ?_
  rw [Loop.hessianP, add_mulVec, smul_add]

/-- **C78** `hessian_p(u, v)` is the derivative of `gradient` along v only if it is zero. -/
theorem C78_hessian_fails (p : Loop m n k) (z : Fin k → ℝ) (hz : ∀ i, 0 < z i) (u v : Fin n → ℝ) :
    HasDerivAt (fun t : ℝ => p.gradient z (u + t • v)) (p.hessianP z u v) 0 ↔ p.hessianP z u v = 0 := by
  have h := C78_hessian_partial p z hz u v
  constructor
  · intro h'
    have e := h'.unique h
    rw [two_smul] at e
    exact left_eq_add.1 e
  · intro h'
    rw [h', smul_zero] at h
    rw [h']
    exact h

/-! ### The outer loop and the widths -/

/-- **C78** The widths gamma minimise (z + s² / sigma²) / gamma + tau² gamma, where s is the prior applied to the solution, and the minimum is
twice the penalization. -/
theorem C78_gamma (p : Loop m n k) (z : Fin k → ℝ) (u : Fin n → ℝ) (i : Fin k) (ht : 0 < p.tau i) (hz : 0 < z i) :
    0 < p.updateGamma z u i ∧
    (z i + ((p.prior *ᵥ u) i / p.sigma) ^ 2) / p.updateGamma z u i + p.tau i ^ 2 * p.updateGamma z u i =
      2 * (p.tau i * Real.sqrt (z i + (|(p.prior *ᵥ u) i| / p.sigma) ^ 2)) ∧
    ∀ g, 0 < g → g ≠ p.updateGamma z u i →
      (z i + ((p.prior *ᵥ u) i / p.sigma) ^ 2) / p.updateGamma z u i + p.tau i ^ 2 * p.updateGamma z u i <
        (z i + ((p.prior *ᵥ u) i / p.sigma) ^ 2) / g + p.tau i ^ 2 * g := by
  have ea : (|(p.prior *ᵥ u) i| / p.sigma) ^ 2 = ((p.prior *ᵥ u) i / p.sigma) ^ 2 := by rw [div_pow, sq_abs, ← div_pow]
  simp only [Loop.updateGamma, ea]
  have hp : 0 < z i + ((p.prior *ᵥ u) i / p.sigma) ^ 2 := by positivity
  have hs := Real.sqrt_pos.2 hp
  have hq := Real.sq_sqrt hp.le
  generalize Real.sqrt (z i + ((p.prior *ᵥ u) i / p.sigma) ^ 2) = w at *
  rw [← hq]
  generalize p.tau i = t at *
  have e : w ^ 2 / (w / t) + t ^ 2 * (w / t) = 2 * (t * w) := by
    field_simp
    ring
  refine ⟨by positivity, e, fun g hg hne => ?_⟩
  rw [e]
  have h1 : w - t * g ≠ 0 := by
    intro h0
    apply hne
    field_simp
    linarith
  have h2 : 0 < (w - t * g) ^ 2 / g := by positivity
  have h3 : (w - t * g) ^ 2 / g = w ^ 2 / g + t ^ 2 * g - 2 * (t * w) := by
    field_simp
    ring
  linarith

/-- **C78** The operator A of the outer loop is the inverse of the covariance of the posterior: its quadratic form is the sum of that of the noise and of the squares of
the components of the prior divided by their widths. -/
theorem C78_precision (p : Loop m n k) (gamma : Fin k → ℝ) (u : Fin n → ℝ) :
    u ⬝ᵥ p.invCov gamma *ᵥ u = (p.model *ᵥ u) ⬝ᵥ p.noise.getD 1 *ᵥ (p.model *ᵥ u) + ∑ i, (p.prior *ᵥ u) i ^ 2 / gamma i := by
  have hq : ∀ {q : Nat} (M : Matrix (Fin q) (Fin n) ℝ) (C : Matrix (Fin q) (Fin q) ℝ), u ⬝ᵥ (Mᵀ * C * M) *ᵥ u = (M *ᵥ u) ⬝ᵥ C *ᵥ (M *ᵥ u) := by
    intro q M C
    rw [← mulVec_mulVec, ← mulVec_mulVec, dotProduct_mulVec, vecMul_transpose]
  rw [Loop.invCov, add_mulVec, dotProduct_add, hq, hq]
  congr 1
  simp only [dotProduct, mulVec_diagonal]
  refine Finset.sum_congr rfl fun i _ => ?_
  rw [div_eq_mul_inv]
  ring

/-- **C78** With an exact eigendecomposition, z is the diagonal of B A Bᵀ where A is the inverse of the covariance of the posterior. -/
theorem C78_z_partial (p : Loop m n k) (gamma : Fin k → ℝ) {r : Nat} (e : Fin r → ℝ) (v : Matrix (Fin n) (Fin r) ℝ)
    (h : v * diagonal e * vᵀ = p.invCov gamma) (i : Fin k) :
    p.updateZ e v i = (p.prior * p.invCov gamma * p.priorᵀ) i i := by
  have e1 : p.prior * p.invCov gamma * p.priorᵀ = (p.prior * v) * diagonal e * (p.prior * v)ᵀ := by
    rw [← h, transpose_mul]
    simp only [Matrix.mul_assoc]
  rw [e1, Matrix.mul_apply]
  simp only [mul_diagonal, transpose_apply, Loop.updateZ]
  refine Finset.sum_congr rfl fun l _ => ?_
  have : (p.prior *ᵥ fun j => v j l) i = (p.prior * v) i l := rfl
  rw [this]
  ring

/-- One unknown, measured and penalized with unit weights. -/
def scalar : Loop 1 1 1 := ⟨1, ![2], 1, none, ![1], 1⟩

example : ![3] ⬝ᵥ scalar.invCov ![2] *ᵥ ![3] = 27 / 2 := by
  rw [C78_precision]
  norm_num [scalar, dotProduct, mulVec]


/-- **C78** z is not the variance of the prior components for the posterior, the diagonal of B A⁻¹ Bᵀ: the eigenvalues are not inverted.  For one
unknown, it is 2 instead of 1/2. -/
theorem C78_z_fails :
    (1 : Matrix (Fin 1) (Fin 1) ℝ) * diagonal ![2] * 1ᵀ = scalar.invCov ![1] ∧
      scalar.updateZ ![2] (1 : Matrix (Fin 1) (Fin 1) ℝ) 0 = 2 ∧ (scalar.prior * (scalar.invCov ![1])⁻¹ * scalar.priorᵀ) 0 0 = 1 / 2 := by
  have hA : scalar.invCov ![1] = diagonal ![2] := by
    ext i j
    have hi : i = 0 := Subsingleton.elim _ _
    have hj : j = 0 := Subsingleton.elim _ _
    subst hi; subst hj
    simp [Loop.invCov, scalar]
    norm_num
  refine ⟨by rw [hA]; simp, ?_, ?_⟩
  · rw [C78_z_partial scalar ![1] ![2] 1 (by rw [hA]; simp) 0, hA]
    simp [scalar]
  · have : (diagonal ![(2 : ℝ)])⁻¹ = diagonal ![(1 / 2 : ℝ)] := by
      refine Matrix.inv_eq_right_inv ?_
      ext i j
      have hi : i = 0 := Subsingleton.elim _ _
      have hj : j = 0 := Subsingleton.elim _ _
      subst hi; subst hj
      simp
    rw [hA, this]
    simp [scalar]

/-! ### Examples -/

example (u : Fin 1 → ℝ) : IsGradient (fun u => scalar.likelihood u + 2 * scalar.penalization ![1] u) u (scalar.gradient ![1] u) :=
  C78_gradient_partial scalar (by intro C h; cases h) ![1] (by intro i; simp) u

/-- The derivative of the penalization is not zero. -/
example : ¬ IsGradient (scalar.call ![1]) ![1] (scalar.gradient ![1] ![1]) := by
  rw [C78_gradient_fails scalar (by intro C h; cases h) ![1] (by intro i; simp)]
  intro h
  have := congrFun h 0
  simp [Loop.dpen, scalar] at this

/-- The Hessian is not zero. -/
example : ¬ HasDerivAt (fun t : ℝ => scalar.gradient ![1] (![0] + t • ![1])) (scalar.hessianP ![1] ![0] ![1]) 0 := by
  rw [C78_hessian_fails scalar ![1] (by intro i; simp)]
  intro h
  have := congrFun h 0
  simp [Loop.hessianP, Loop.d2like, Loop.d2pen, scalar, mulVec, dotProduct] at this

example : 0 < scalar.updateGamma ![3] ![1] 0 := (C78_gamma scalar ![3] ![1] 0 (by simp [scalar]) (by simp)).1

end Verif.Criterions
