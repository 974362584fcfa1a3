import Verif.Iter.LineSearch
import Verif.Iter.Cg
import Mathlib.Analysis.InnerProductSpace.PiL2
import Mathlib.LinearAlgebra.Matrix.DotProduct

/-
Model of the conjugate gradient for criterions: src/pyoperators/iterative/algorithms.py, in exact real arithmetic, and property C79.

`none` stands for a NaN or an infinity, in an array or in a number: the operations propagate it and the comparisons with it are false.  The
criterion and its gradient are computed without the caches, which do not change them (C76).
-/

namespace Verif.Criterions

open Matrix

variable {n : Nat}

/-! ### Model -/

/-- The attributes: src/pyoperators/iterative/algorithms.py:331-341. -/
structure St (n : Nat) where
  iter : Nat
  x : Option (Fin n → ℝ)
  g : Option (Fin n → ℝ)
  gnorm : Option ℝ
  lastGnorm : Option ℝ
  d : Option (Fin n → ℝ)
  crit : Option ℝ
  last : Option ℝ
  first : Option ℝ

/-- A division of floating point numbers. -/
noncomputable def quotient (a b : ℝ) : Option ℝ := if b = 0 then none else some (a / b)

/-- `initialize`: src/pyoperators/iterative/algorithms.py:343-360 and 48-51.  `first_guess` is called without an argument: x0, an argument
of `__init__` (315-341) that is not stored, is not used. -/
def start (ts : List (Term n)) (_x0 : Option (Fin n → ℝ)) (s : St n) : St n :=
  { s with iter := 0, x := some 0, first := some (value (ts.map (·.element)) 0), crit := some (value (ts.map (·.element)) 0) }

/-- `update_gradient`, `update_gradient_norm`: src/pyoperators/iterative/algorithms.py:363-369; `norm2` is the square of the norm:
src/pyoperators/iterative/criterions.py:41-42. -/
def updateGradient (ts : List (Term n)) (s : St n) : St n :=
  { s with g := s.x.map (termsGradient ts), lastGnorm := s.gnorm, gnorm := s.x.map fun x => termsGradient ts x ⬝ᵥ termsGradient ts x }

/-- `fletcher_reeves`: src/pyoperators/iterative/algorithms.py:171-175. -/
noncomputable def fletcherReeves (s : St n) : Option ℝ := s.gnorm.bind fun a => s.lastGnorm.bind fun b => quotient a b

/-- `update_descent`: src/pyoperators/iterative/algorithms.py:371-377. -/
noncomputable def updateDescent (s : St n) : St n :=
  { s with d :=
      if s.iter = 0 then s.g.map fun g => -g
      else s.g.bind fun g => s.d.bind fun d => (fletcherReeves s).map fun b => -g + b • d }

/-- `update_solution`: src/pyoperators/iterative/algorithms.py:379-382, with the default line search. -/
noncomputable def updateSolution (ts : List (Term n)) (s : St n) : St n :=
  { s with x := s.x.bind fun x => s.g.bind fun g => s.d.bind fun d => (optimalStep ts d g).map fun a => x + a • d }

/-- `update_criterion`: src/pyoperators/iterative/algorithms.py:384-386. -/
def updateCriterion (ts : List (Term n)) (s : St n) : St n :=
  { s with last := s.crit, crit := s.x.map (value (ts.map (·.element))) }

/-- `iterate`: src/pyoperators/iterative/algorithms.py:388-397 and 56-63. -/
noncomputable def iterate (ts : List (Term n)) (s : St n) : St n :=
  let s := updateCriterion ts (updateSolution ts (updateDescent (updateGradient ts s)))
  { s with iter := s.iter + 1 }

/-- `StopCondition`: src/pyoperators/iterative/algorithms.py:120-149; `all` is for np.all. -/
structure Stop where
  maxiter : Option Nat
  tol : Option ℝ
  gtol : Option ℝ
  all : Bool

open Classical in
/-- A comparison, which is false for a NaN. -/
noncomputable def below (a : Option ℝ) (b : ℝ) : Bool :=
  match a with
  | none => false
  | some a => a < b

/-- `_test_tol`: src/pyoperators/iterative/algorithms.py:112-115. -/
noncomputable def resid (s : St n) : Option ℝ :=
  s.last.bind fun l => s.crit.bind fun c => s.first.bind fun f => quotient |l - c| f

/-- `StopCondition.__call__`: src/pyoperators/iterative/algorithms.py:109-120 and 141-152. -/
noncomputable def Stop.holds (c : Stop) (s : St n) : Bool :=
  let tests := (c.maxiter.toList.map fun m => decide (m ≤ s.iter)) ++ (c.tol.toList.map fun t => below (resid s) t) ++
    (c.gtol.toList.map fun t => below s.gnorm t)
  if c.all then tests.all id else tests.any id

/-- The state after k iterations of `run`. -/
noncomputable def states (ts : List (Term n)) (x0 : Option (Fin n → ℝ)) (s : St n) (k : Nat) : St n :=
  (iterate ts)^[k] (start ts x0 s)

/-- `run` stops after k iterations: src/pyoperators/iterative/algorithms.py:65-82. -/
def Stops (ts : List (Term n)) (x0 : Option (Fin n → ℝ)) (c : Stop) (s : St n) (k : Nat) : Prop :=
  1 ≤ k ∧ c.holds (states ts x0 s k) = true ∧ ∀ j, 1 ≤ j → j < k → c.holds (states ts x0 s j) = false

/-- `default_stop`: src/pyoperators/iterative/algorithms.py:97-99 and 163. -/
noncomputable def defaultStop : Stop := ⟨none, some (1 / 10 ^ 6), some (1 / 10 ^ 6), false⟩

/-! ### The Hessian of the criterion -/

/-- H is half of the Hessian. -/
structure IsHessian (ts : List (Term n)) (H : Matrix (Fin n) (Fin n) ℝ) : Prop where
  symm : H.IsSymm
  curvature : ∀ d, curvature ts d = d ⬝ᵥ H *ᵥ d
  gradient : ∀ (x d : Fin n → ℝ) (t : ℝ), termsGradient ts (x + t • d) = termsGradient ts x + (2 * t) • H *ᵥ d

theorem exists_hessian (ts : List (Term n)) (h : ∀ t ∈ ts, t.isNorm2 = true ∧ Quadratic t.element.norm) : ∃ H, IsHessian ts H := by
  induction ts with
  | nil => exact ⟨0, ⟨by simp [Matrix.IsSymm], fun d => by simp [curvature], fun x d t => by simp [termsGradient]⟩⟩
  | cons s ts ih =>
    obtain ⟨H, hH⟩ := ih fun t ht => h t (List.mem_cons_of_mem _ ht)
    obtain ⟨h1, C, h2, h3, h4⟩ := h s List.mem_cons_self
    refine ⟨s.element.opᵀ * C * s.element.op + H, ⟨?_, fun d => ?_, fun x d t => ?_⟩⟩
    · rw [Matrix.IsSymm, transpose_add, hH.symm.eq, transpose_mul, transpose_mul, transpose_transpose, h2.eq, Matrix.mul_assoc]
    · have := hH.curvature d
      simp only [curvature, List.map_cons, List.sum_cons, Term.stepNorm, h1, if_true] at this ⊢
      rw [this, h3, add_mulVec, dotProduct_add, ← mulVec_mulVec, ← mulVec_mulVec, dotProduct_mulVec d s.element.opᵀ, vecMul_transpose]
    · have := hH.gradient x d t
      simp only [termsGradient, List.map_cons, List.sum_cons] at this ⊢
      rw [this, Element.gradient, Element.gradient, minusData_line, h4, h4, add_mulVec, ← mulVec_mulVec, ← mulVec_mulVec]
      simp only [mulVec_add, mulVec_smul, smul_add, smul_smul]
      abel

/-! ### The iterations -/

section Iterations

variable (ts : List (Term n)) (x0 : Option (Fin n → ℝ)) (s : St n)

/-- The solution, the gradient and the descent direction of the iteration k. -/
noncomputable def xs (k : Nat) : Fin n → ℝ := (states ts x0 s k).x.getD 0
noncomputable def gs (k : Nat) : Fin n → ℝ := termsGradient ts (xs ts x0 s k)
noncomputable def ds (k : Nat) : Fin n → ℝ := (states ts x0 s (k + 1)).d.getD 0

theorem states_succ (k : Nat) : states ts x0 s (k + 1) = iterate ts (states ts x0 s k) := by
  rw [states, Function.iterate_succ_apply', states]

theorem states_iter (k : Nat) : (states ts x0 s k).iter = k := by
  induction k with
  | zero => rfl
  | succ k ih => rw [states_succ]; exact congrArg (· + 1) ih

theorem states_first (k : Nat) : (states ts x0 s k).first = some (value (ts.map (·.element)) 0) := by
  induction k with
  | zero => rfl
  | succ k ih => rw [states_succ]; exact ih

/-- The values are finite. -/
structure Fine (k : Nat) : Prop where
  x : (states ts x0 s k).x = some (xs ts x0 s k)
  crit : (states ts x0 s k).crit = some (value (ts.map (·.element)) (xs ts x0 s k))
  d : ∀ j, k = j + 1 → (states ts x0 s k).d = some (ds ts x0 s j)
  gnorm : ∀ j, k = j + 1 → (states ts x0 s k).gnorm = some (gs ts x0 s j ⬝ᵥ gs ts x0 s j)
  orthogonal : ∀ j, k = j + 1 → gs ts x0 s k ⬝ᵥ ds ts x0 s j = 0

/-- The direction of Fletcher and Reeves. -/
noncomputable def direction : Nat → Fin n → ℝ
  | 0 => -gs ts x0 s 0
  | j + 1 => -gs ts x0 s (j + 1) + (gs ts x0 s (j + 1) ⬝ᵥ gs ts x0 s (j + 1) / (gs ts x0 s j ⬝ᵥ gs ts x0 s j)) • ds ts x0 s j

/-- The optimal step. -/
noncomputable def alpha (k : Nat) : ℝ := -(1 / 2) * (ds ts x0 s k ⬝ᵥ gs ts x0 s k) / curvature ts (ds ts x0 s k)

variable {ts} (hpos : ∀ d, d ≠ 0 → 0 < curvature ts d) {H : Matrix (Fin n) (Fin n) ℝ} (hH : IsHessian ts H)

include hpos hH in
theorem fine_step (k : Nat) (h : Fine ts x0 s k) (hg : ∀ j ≤ k, gs ts x0 s j ≠ 0) :
    Fine ts x0 s (k + 1) ∧ ds ts x0 s k = direction ts x0 s k ∧
    ds ts x0 s k ⬝ᵥ gs ts x0 s k = -(gs ts x0 s k ⬝ᵥ gs ts x0 s k) ∧
    0 < curvature ts (ds ts x0 s k) ∧
    xs ts x0 s (k + 1) = xs ts x0 s k + alpha ts x0 s k • ds ts x0 s k := by
  have hgg : ∀ j ≤ k, gs ts x0 s j ⬝ᵥ gs ts x0 s j ≠ 0 := fun j hj e => hg j hj (dotProduct_self_eq_zero.1 e)
  -- the direction
  have hd : ∃ d, (states ts x0 s (k + 1)).d = some d ∧ d = direction ts x0 s k := by
    refine ⟨_, ?_, rfl⟩
    cases k with
    | zero =>
      have hi : (states ts x0 s 0).iter = 0 := rfl
      simp only [states_succ, iterate, updateCriterion, updateSolution, updateDescent, updateGradient, hi, if_true, h.x, Option.map_some]
      rfl
    | succ j =>
      have hi : ¬ (states ts x0 s (j + 1)).iter = 0 := by rw [states_iter]; omega
      rw [states_succ]
      simp only [iterate, updateCriterion, updateSolution, updateDescent, updateGradient, hi, if_false, h.x, Option.map_some,
        h.d j rfl, h.gnorm j rfl, fletcherReeves, Option.bind_some, quotient, if_neg (hgg j (by omega))]
      rfl
  obtain ⟨d, hd1, hd2⟩ := hd
  have hds : ds ts x0 s k = d := by rw [ds, hd1]; rfl
  have hdg : d ⬝ᵥ gs ts x0 s k = -(gs ts x0 s k ⬝ᵥ gs ts x0 s k) := by
    rw [hd2]
    cases k with
    | zero => simp only [direction, neg_dotProduct]
    | succ j =>
      simp only [direction, add_dotProduct, neg_dotProduct, smul_dotProduct, dotProduct_comm (ds ts x0 s j), h.orthogonal j rfl]
      simp
  have hd0 : d ≠ 0 := by
    intro e
    rw [e, zero_dotProduct] at hdg
    exact hgg k (le_refl _) (neg_eq_zero.1 hdg.symm)
  have hc := hpos d hd0
  have ha : optimalStep ts d (gs ts x0 s k) = some (alpha ts x0 s k) := by rw [optimalStep, if_neg hc.ne', alpha, hds]
  have hx : (states ts x0 s (k + 1)).x = some (xs ts x0 s k + alpha ts x0 s k • d) := by
    have e : (states ts x0 s (k + 1)).x = (states ts x0 s k).x.bind fun x => ((states ts x0 s k).x.map (termsGradient ts)).bind fun g =>
      (states ts x0 s (k + 1)).d.bind fun d => (optimalStep ts d g).map fun a => x + a • d := by rw [states_succ]; rfl
    rw [e, h.x, hd1]
    simp only [Option.bind_some, Option.map_some]
    rw [show termsGradient ts (xs ts x0 s k) = gs ts x0 s k from rfl, ha]
    rfl
  have hxs : xs ts x0 s (k + 1) = xs ts x0 s k + alpha ts x0 s k • d := by rw [xs, hx]; rfl
  refine ⟨⟨by rw [hx, hxs], ?_, fun j hj => ?_, fun j hj => ?_, fun j hj => ?_⟩, hds.trans hd2, hds.symm ▸ hdg, hds.symm ▸ hc, hds.symm ▸ hxs⟩
  · have e : (states ts x0 s (k + 1)).crit = (states ts x0 s (k + 1)).x.map (value (ts.map (·.element))) := by rw [states_succ]; rfl
    rw [e, hx, hxs]; rfl
  · obtain rfl : k = j := by omega
    rw [hd1, hds]
  · obtain rfl : k = j := by omega
    have e : (states ts x0 s (k + 1)).gnorm = (states ts x0 s k).x.map fun x => termsGradient ts x ⬝ᵥ termsGradient ts x := by
      rw [states_succ]; rfl
    rw [e, h.x]; rfl
  · obtain rfl : k = j := by omega
    rw [hds]
    have e : gs ts x0 s (k + 1) = gs ts x0 s k + (2 * alpha ts x0 s k) • H *ᵥ d := by rw [gs, hxs, hH.gradient]; rfl
    rw [e, add_dotProduct, smul_dotProduct, dotProduct_comm (H *ᵥ d), ← hH.curvature, dotProduct_comm, alpha, hds, smul_eq_mul]
    field_simp
    ring

include hpos hH in
theorem fine (k : Nat) (hg : ∀ j < k, gs ts x0 s j ≠ 0) : Fine ts x0 s k := by
  induction k with
  | zero =>
    refine ⟨rfl, rfl, fun j hj => by omega, fun j hj => by omega, fun j hj => by omega⟩
  | succ k ih => exact (fine_step x0 s hpos hH k (ih fun j hj => hg j (by omega)) fun j hj => hg j (by omega)).1

/-! ### Conjugate gradients -/

theorem dot_toLp (x y : Fin n → ℝ) : Iter.dot (WithLp.toLp 2 x) (WithLp.toLp 2 y) = x ⬝ᵥ y := by
  rw [Iter.dot, EuclideanSpace.inner_toLp_toLp, dotProduct_comm]
  rfl

/-- The sequences are those of the conjugate gradient for the Hessian. -/
theorem is_cg (N : Nat) (hg : ∀ j ≤ N, gs ts x0 s j ≠ 0) (hpos : ∀ d, d ≠ 0 → 0 < curvature ts d) (hH : IsHessian ts H) :
    Iter.IsCg (toEuclideanLin ((2 : ℝ) • H)) LinearMap.id N (fun k => WithLp.toLp 2 (-gs ts x0 s k)) (fun k => WithLp.toLp 2 (ds ts x0 s k))
      (fun k => gs ts x0 s k ⬝ᵥ gs ts x0 s k) := by
  have hs := fun k (hk : k ≤ N) => fine_step x0 s hpos hH k (fine x0 s hpos hH k fun j hj => hg j (by omega)) fun j hj => hg j (by omega)
  have hA : ∀ v : Fin n → ℝ, toEuclideanLin ((2 : ℝ) • H) (WithLp.toLp 2 v) = WithLp.toLp 2 ((2 : ℝ) • H *ᵥ v) := by
    intro v
    rw [← smul_mulVec]
    exact toLpLin_toLp 2 2 ((2 : ℝ) • H) v
  refine ⟨?_, fun k hk => ?_, fun k hk => ?_, fun k hk => ?_⟩
  · simp only [LinearMap.id_coe, id_eq]
    rw [(hs 0 (by omega)).2.1]; rfl
  · simp only [LinearMap.id_coe, id_eq, dot_toLp, neg_dotProduct, dotProduct_neg, neg_neg]
  · obtain ⟨-, -, h3, h4, h5⟩ := hs k (by omega)
    have e : gs ts x0 s (k + 1) = gs ts x0 s k + (2 * alpha ts x0 s k) • H *ᵥ ds ts x0 s k := by rw [gs, h5, hH.gradient]; rfl
    simp only [hA, dot_toLp]
    rw [e, ← WithLp.toLp_smul, ← WithLp.toLp_sub]
    congr 1
    rw [dotProduct_smul, ← hH.curvature, alpha, h3, smul_smul, neg_add, sub_eq_add_neg, ← neg_smul, ← neg_smul]
    congr 2
    rw [smul_eq_mul]
    field_simp
  · rw [(hs (k + 1) (by omega)).2.1, direction, ← WithLp.toLp_smul]
    simp only [LinearMap.id_coe, id_eq]
    rw [← WithLp.toLp_add]
    congr 1
    abel

theorem spd_hessian (hpos : ∀ d, d ≠ 0 → 0 < curvature ts d) (hH : IsHessian ts H) : Iter.Spd (toEuclideanLin ((2 : ℝ) • H)) := by
  have hA : ∀ v : EuclideanSpace ℝ (Fin n), toEuclideanLin ((2 : ℝ) • H) v = WithLp.toLp 2 ((2 : ℝ) • H *ᵥ v.ofLp) := by
    intro v
    rw [← smul_mulVec]
    exact toLpLin_toLp 2 2 ((2 : ℝ) • H) v.ofLp
  refine ⟨fun x y => ?_, fun x hx => ?_⟩
  · rw [hA, hA]
    have := symm_dot hH.symm x.ofLp y.ofLp
    have e1 := dot_toLp ((2 : ℝ) • H *ᵥ x.ofLp) y.ofLp
    have e2 := dot_toLp x.ofLp ((2 : ℝ) • H *ᵥ y.ofLp)
    rw [WithLp.toLp_ofLp] at e1 e2
    rw [e1, e2, smul_dotProduct, dotProduct_smul, this, dotProduct_comm]
  · rw [hA]
    have e := dot_toLp x.ofLp ((2 : ℝ) • H *ᵥ x.ofLp)
    rw [WithLp.toLp_ofLp] at e
    rw [e, dotProduct_smul, ← hH.curvature, smul_eq_mul]
    have : x.ofLp ≠ 0 := fun h => hx (by rw [← WithLp.toLp_ofLp 2 x, h]; rfl)
    have := hpos _ this
    positivity

theorem spd_identity : Iter.Spd (LinearMap.id : EuclideanSpace ℝ (Fin n) →ₗ[ℝ] EuclideanSpace ℝ (Fin n)) :=
  ⟨fun x y => rfl, fun x hx => by
    simp only [Iter.dot, LinearMap.id_coe, id_eq]
    exact real_inner_self_pos.2 hx⟩

/-- The iterations after the minimum is reached: the step is 0 / 0. -/
theorem nan_step (k : Nat) (hpos : ∀ d, d ≠ 0 → 0 < curvature ts d) (hH : IsHessian ts H) (hg : ∀ j < k, gs ts x0 s j ≠ 0)
    (h0 : gs ts x0 s k = 0) : (states ts x0 s (k + 1)).x = none ∧ (states ts x0 s (k + 1)).gnorm = some 0 := by
  have h := fine x0 s hpos hH k hg
  have hc : curvature ts 0 = 0 := by rw [hH.curvature]; simp
  have hd : (states ts x0 s (k + 1)).d = some 0 := by
    cases k with
    | zero =>
      have hi : (states ts x0 s 0).iter = 0 := rfl
      simp only [states_succ, iterate, updateCriterion, updateSolution, updateDescent, updateGradient, hi, if_true, h.x, Option.map_some]
      rw [show termsGradient ts (xs ts x0 s 0) = 0 from h0, neg_zero]
    | succ j =>
      have hi : ¬ (states ts x0 s (j + 1)).iter = 0 := by rw [states_iter]; omega
      have hgg : gs ts x0 s j ⬝ᵥ gs ts x0 s j ≠ 0 := fun e => hg j (by omega) (dotProduct_self_eq_zero.1 e)
      rw [states_succ]
      simp only [iterate, updateCriterion, updateSolution, updateDescent, updateGradient, hi, if_false, h.x, Option.map_some,
        h.d j rfl, h.gnorm j rfl, fletcherReeves, Option.bind_some, quotient, if_neg hgg]
      rw [show termsGradient ts (xs ts x0 s (j + 1)) = 0 from h0]
      simp
  constructor
  · have e : (states ts x0 s (k + 1)).x = (states ts x0 s k).x.bind fun x => ((states ts x0 s k).x.map (termsGradient ts)).bind fun g =>
      (states ts x0 s (k + 1)).d.bind fun d => (optimalStep ts d g).map fun a => x + a • d := by rw [states_succ]; rfl
    rw [e, h.x, hd]
    simp only [Option.bind_some, Option.map_some, optimalStep, hc, if_true, Option.map_none]
  · have e : (states ts x0 s (k + 1)).gnorm = (states ts x0 s k).x.map fun x => termsGradient ts x ⬝ᵥ termsGradient ts x := by
      rw [states_succ]; rfl
    rw [e, h.x, Option.map_some, show termsGradient ts (xs ts x0 s k) = 0 from h0, dotProduct_zero]

omit hpos hH in
/-- A NaN stays. -/
theorem nan_stays (k : Nat) (h : (states ts x0 s k).x = none) (j : Nat) :
    (states ts x0 s (k + j)).x = none ∧ (0 < j → (states ts x0 s (k + j)).crit = none ∧ (states ts x0 s (k + j)).gnorm = none) := by
  induction j with
  | zero => exact ⟨h, by omega⟩
  | succ j ih =>
    have hx := ih.1
    rw [← Nat.add_assoc, states_succ]
    simp [iterate, updateCriterion, updateSolution, updateDescent, updateGradient, hx]

end Iterations

/-! ### Properties -/

/-- The norms are 2-norms, with symmetric covariances and multiplied by scalars, and the criterion is strictly convex. -/
def Regular (ts : List (Term n)) : Prop :=
  (∀ t ∈ ts, t.isNorm2 = true ∧ Quadratic t.element.norm) ∧
    ∀ d, d ≠ 0 → 0 < (ts.map fun t => t.element.norm.call (t.element.op *ᵥ d)).sum

theorem Regular.pos {ts : List (Term n)} (h : Regular ts) (d : Fin n → ℝ) (hd : d ≠ 0) : 0 < curvature ts d := by
  have hc : curvature ts d = (ts.map fun t => t.element.norm.call (t.element.op *ᵥ d)).sum := by
    rw [curvature]
    congr 1
    refine List.map_congr_left fun t ht => ?_
    rw [Term.stepNorm, if_pos (h.1 t ht).1]
  rw [hc]
  exact h.2 d hd

/-- x is the only minimum of the criterion. -/
def IsMin (ts : List (Term n)) (x : Fin n → ℝ) : Prop := ∀ y, y ≠ x → value (ts.map (·.element)) x < value (ts.map (·.element)) y

theorem min_iff {ts : List (Term n)} (h : Regular ts) (x : Fin n → ℝ) : IsMin ts x ↔ termsGradient ts x = 0 := by
  constructor
  · intro hm
    by_contra hg
    have hc := h.pos _ hg
    have hl := value_line ts h.1 x (termsGradient ts x) (-(1 / 2) * (termsGradient ts x ⬝ᵥ termsGradient ts x) /
      curvature ts (termsGradient ts x))
    have hgg : termsGradient ts x ⬝ᵥ termsGradient ts x ≠ 0 := fun e => hg (dotProduct_self_eq_zero.1 e)
    generalize ha : -(1 / 2) * (termsGradient ts x ⬝ᵥ termsGradient ts x) / curvature ts (termsGradient ts x) = a at *
    have ha0 : a ≠ 0 := by
      rw [← ha]
      exact div_ne_zero (mul_ne_zero (by norm_num) hgg) hc.ne'
    have hne : x + a • termsGradient ts x ≠ x := by
      intro e
      have : a • termsGradient ts x = 0 := by simpa using e
      rcases smul_eq_zero.1 this with h' | h'
      · exact ha0 h'
      · exact hg h'
    have hlt := hm _ hne
    rw [hl] at hlt
    have e : a * curvature ts (termsGradient ts x) = -(1 / 2) * (termsGradient ts x ⬝ᵥ termsGradient ts x) := by
      rw [← ha]; field_simp
    have h3 : 0 < a ^ 2 * curvature ts (termsGradient ts x) := by positivity
    have h4 : a * (termsGradient ts x ⬝ᵥ termsGradient ts x) = -2 * (a ^ 2 * curvature ts (termsGradient ts x)) := by
      linear_combination (2 * a) * e
    linarith
  · intro hg y hy
    have hl := value_line ts h.1 x (y - x) 1
    rw [hg, dotProduct_zero, one_smul, add_sub_cancel] at hl
    have := h.pos (y - x) (sub_ne_zero.2 hy)
    rw [hl]
    linarith

/-- **C79** If the criterion is quadratic and strictly convex, the conjugate gradient reaches its minimum after at most as many iterations as
there are unknowns. -/
theorem C79_finite {ts : List (Term n)} (h : Regular ts) (x0 : Option (Fin n → ℝ)) (s : St n) :
    ∃ k ≤ n, ∃ x, (states ts x0 s k).x = some x ∧ IsMin ts x := by
  obtain ⟨H, hH⟩ := exists_hessian ts h.1
  have hz : ∃ k ≤ n, gs ts x0 s k = 0 := by
    by_contra hc
    push Not at hc
    have h1 := is_cg x0 s n hc h.pos hH
    have h2 := (Iter.cg_independent h1 (spd_hessian h.pos hH) spd_identity (fun k hk e => hc k hk (by
      have := congrArg WithLp.ofLp e
      simpa using this))).fintype_card_le_finrank
    simp at h2
  classical
  have hf := Nat.find_spec hz
  refine ⟨Nat.find hz, hf.1, xs ts x0 s (Nat.find hz), (fine x0 s h.pos hH _ fun j hj e => Nat.find_min hz hj ⟨?_, e⟩).x,
    (min_iff h _).2 hf.2⟩
  omega

/-- **C79** As long as the minimum is not reached, the values are finite, the criterion decreases, the gradients are orthogonal to the earlier
ones and the descent directions are conjugate to the earlier ones. -/
theorem C79_conjugate {ts : List (Term n)} (h : Regular ts) (x0 : Option (Fin n → ℝ)) (s : St n) (k : Nat)
    (hk : ∀ j ≤ k, ∀ x, (states ts x0 s j).x = some x → ¬ IsMin ts x) :
    ∃ x x' g d, (states ts x0 s k).x = some x ∧ (states ts x0 s (k + 1)).x = some x' ∧ (states ts x0 s (k + 1)).g = some g ∧
      (states ts x0 s (k + 1)).d = some d ∧ value (ts.map (·.element)) x' < value (ts.map (·.element)) x ∧
      (∀ i < k, ∃ gi di, (states ts x0 s (i + 1)).g = some gi ∧ (states ts x0 s (i + 1)).d = some di ∧ gi ⬝ᵥ g = 0 ∧
        ∀ H, IsHessian ts H → di ⬝ᵥ H *ᵥ d = 0) := by
  obtain ⟨H, hH⟩ := exists_hessian ts h.1
  have hg : ∀ j ≤ k, gs ts x0 s j ≠ 0 := by
    intro j
    induction j using Nat.strong_induction_on with
    | _ j ih =>
    intro hj e
    exact hk j hj _ (fine x0 s h.pos hH j fun i hi => ih i hi (by omega)).x ((min_iff h _).2 e)
  have hs := fun j (hj : j ≤ k) => fine_step x0 s h.pos hH j (fine x0 s h.pos hH j fun i hi => hg i (by omega)) fun i hi => hg i (by omega)
  have hfine := fun j (hj : j ≤ k) => fine x0 s h.pos hH j fun i hi => hg i (by omega)
  have hgs : ∀ j ≤ k, (states ts x0 s (j + 1)).g = some (gs ts x0 s j) := by
    intro j hj
    have e : (states ts x0 s (j + 1)).g = (states ts x0 s j).x.map (termsGradient ts) := by rw [states_succ]; rfl
    rw [e, (hfine j hj).x]; rfl
  refine ⟨_, _, _, _, (hfine k (le_refl _)).x, (hs k (le_refl _)).1.x, hgs k (le_refl _), (hs k (le_refl _)).1.d k rfl, ?_, ?_⟩
  · obtain ⟨-, -, h3, h4, h5⟩ := hs k (le_refl _)
    have hl := value_line ts h.1 (xs ts x0 s k) (ds ts x0 s k) (alpha ts x0 s k)
    rw [← h5, show termsGradient ts (xs ts x0 s k) = gs ts x0 s k from rfl, h3] at hl
    have hgg : 0 < gs ts x0 s k ⬝ᵥ gs ts x0 s k := by
      have h1 : gs ts x0 s k ⬝ᵥ gs ts x0 s k ≠ 0 := fun e => hg k (le_refl _) (dotProduct_self_eq_zero.1 e)
      have h2 : 0 ≤ gs ts x0 s k ⬝ᵥ gs ts x0 s k := Finset.sum_nonneg fun i _ => mul_self_nonneg _
      exact lt_of_le_of_ne h2 h1.symm
    have ha : alpha ts x0 s k * curvature ts (ds ts x0 s k) = 1 / 2 * (gs ts x0 s k ⬝ᵥ gs ts x0 s k) := by
      rw [alpha, h3]; field_simp
    have hap : 0 < alpha ts x0 s k := by
      by_contra hc
      push Not at hc
      nlinarith
    rw [hl]
    nlinarith [mul_pos hap hgg]
  · intro i hi
    refine ⟨_, _, hgs i (by omega), (hs i (by omega)).1.d i rfl, ?_, fun H' hH' => ?_⟩
    · have h1 := is_cg x0 s k hg h.pos hH
      have h2 := ((Iter.cg_orthogonal h1 (spd_hessian h.pos hH) spd_identity (fun j hj e => hg j hj (by
        have := congrArg WithLp.ofLp e
        simpa using this)) k (le_refl _)).1 i hi).1
      simpa only [LinearMap.id_coe, id_eq, dot_toLp, neg_dotProduct, dotProduct_neg, neg_neg] using h2
    · have h1 := is_cg x0 s k hg h.pos hH'
      have h2 := ((Iter.cg_orthogonal h1 (spd_hessian h.pos hH') spd_identity (fun j hj e => hg j hj (by
        have := congrArg WithLp.ofLp e
        simpa using this)) k (le_refl _)).1 i hi).2
      have hA : toEuclideanLin ((2 : ℝ) • H') (WithLp.toLp 2 (ds ts x0 s k)) = WithLp.toLp 2 ((2 : ℝ) • H' *ᵥ ds ts x0 s k) := by
        rw [← smul_mulVec]
        exact toLpLin_toLp 2 2 ((2 : ℝ) • H') _
      rw [hA, dot_toLp, dotProduct_smul] at h2
      simpa using h2

/-- **C79** With a positive gtol, the algorithm stops after at most one iteration more than there are unknowns. -/
theorem C79_stops {ts : List (Term n)} (h : Regular ts) (x0 : Option (Fin n → ℝ)) (s : St n) (c : Stop) (hc : c.all = false)
    (gtol : ℝ) (hg : c.gtol = some gtol) (hp : 0 < gtol) : ∃ k ≤ n + 1, Stops ts x0 c s k := by
  obtain ⟨H, hH⟩ := exists_hessian ts h.1
  classical
  have hz : ∃ k ≤ n, gs ts x0 s k = 0 := by
    obtain ⟨k, hk, x, hx, hm⟩ := C79_finite h x0 s
    refine ⟨k, hk, ?_⟩
    rw [gs, xs, hx]
    exact (min_iff h x).1 hm
  have hf := Nat.find_spec hz
  have hnan := nan_step x0 s (Nat.find hz) h.pos hH (fun j hj e => Nat.find_min hz hj ⟨by omega, e⟩) hf.2
  have hst : ∃ k, 1 ≤ k ∧ c.holds (states ts x0 s k) = true := by
    refine ⟨Nat.find hz + 1, by omega, ?_⟩
    simp only [Stop.holds, hc, Bool.false_eq_true, if_false, hg, hnan.2, Option.toList_some, List.map_cons, List.map_nil, List.any_append,
      List.any_cons, List.any_nil, below, id_eq, hp, decide_true, Bool.or_true, Bool.or_false]
  have hst' : Nat.find hst ≤ Nat.find hz + 1 := by
    refine Nat.find_min' hst ⟨by omega, ?_⟩
    simp only [Stop.holds, hc, Bool.false_eq_true, if_false, hg, hnan.2, Option.toList_some, List.map_cons, List.map_nil, List.any_append,
      List.any_cons, List.any_nil, below, id_eq, hp, decide_true, Bool.or_true, Bool.or_false]
  refine ⟨Nat.find hst, by omega, (Nat.find_spec hst).1, (Nat.find_spec hst).2, fun j h1 h2 => ?_⟩
  have := Nat.find_min hst h2
  simpa [h1] using this

/-- **C79** If the result is finite, the criterion is smaller than for zero; if it is not, the minimum had been reached before the last iterations. -/
theorem C79_result_partial {ts : List (Term n)} (h : Regular ts) (x0 : Option (Fin n → ℝ)) (s : St n) (c : Stop) (k : Nat)
    (hk : Stops ts x0 c s k) :
    match (states ts x0 s k).x with
    | some x => value (ts.map (·.element)) x < value (ts.map (·.element)) 0
    | none => ∃ j < k, ∃ x, (states ts x0 s j).x = some x ∧ IsMin ts x := by
  by_cases hm : ∃ j < k, ∃ x, (states ts x0 s j).x = some x ∧ IsMin ts x
  · obtain ⟨H, hH⟩ := exists_hessian ts h.1
    have hn : (states ts x0 s k).x = none := by
      classical
      have hz : ∃ j, j < k ∧ gs ts x0 s j = 0 := by
        obtain ⟨j, hj, x, hx, hm⟩ := hm
        refine ⟨j, hj, ?_⟩
        rw [gs, xs, hx]
        exact (min_iff h x).1 hm
      have hf := Nat.find_spec hz
      have hnan := nan_step x0 s (Nat.find hz) h.pos hH (fun j hj e => Nat.find_min hz hj ⟨by omega, e⟩) hf.2
      have := (nan_stays x0 s _ hnan.1 (k - (Nat.find hz + 1))).1
      rwa [show Nat.find hz + 1 + (k - (Nat.find hz + 1)) = k by omega] at this
    rw [hn]
    exact hm
  · push Not at hm
    have hd : ∀ j, j + 1 ≤ k → ∃ x, (states ts x0 s (j + 1)).x = some x ∧ value (ts.map (·.element)) x < value (ts.map (·.element)) 0 := by
      intro j
      induction j with
      | zero =>
        intro hj
        obtain ⟨x, x', g, d, h1, h2, -, -, h3, -⟩ := C79_conjugate h x0 s 0 fun i hi x hx => hm i (by omega) x hx
        have : x = 0 := by
          have e : (states ts x0 s 0).x = some 0 := rfl
          rw [e] at h1
          exact (Option.some.inj h1).symm
        rw [this] at h3
        exact ⟨x', h2, h3⟩
      | succ j ih =>
        intro hj
        obtain ⟨y, hy, hlt⟩ := ih (by omega)
        obtain ⟨x, x', g, d, h1, h2, -, -, h3, -⟩ := C79_conjugate h x0 s (j + 1) fun i hi x hx => hm i (by omega) x hx
        rw [hy] at h1
        rw [← Option.some.inj h1] at h3
        exact ⟨x', h2, h3.trans hlt⟩
    obtain ⟨x, hx, hlt⟩ := hd (k - 1) (by have := hk.1; omega)
    rw [show k - 1 + 1 = k by have := hk.1; omega] at hx
    rw [hx]
    exact hlt

/-- **C79** With only a maximum number of iterations, which is positive, the algorithm does as many iterations. -/
theorem C79_maxiter (ts : List (Term n)) (x0 : Option (Fin n → ℝ)) (s : St n) (m k : Nat) (hm : 0 < m) (all : Bool) :
    Stops ts x0 ⟨some m, none, none, all⟩ s k ↔ k = m := by
  have hh : ∀ j, (⟨some m, none, none, all⟩ : Stop).holds (states ts x0 s j) = decide (m ≤ j) := by
    intro j
    simp [Stop.holds, states_iter]
  simp only [Stops, hh, decide_eq_true_eq, decide_eq_false_iff_not]
  constructor
  · rintro ⟨h1, h2, h3⟩
    by_contra hne
    exact h3 m hm (by omega) (le_refl _)
  · rintro rfl
    exact ⟨hm, le_refl _, fun j h1 h2 => by omega⟩

/-- **C79** With only a tolerance, the algorithm stops after the iteration that changes the criterion by less than this fraction of the criterion of the initial guess, which is zero, as long as the solutions are finite and this criterion is not zero. -/
theorem C79_tol (ts : List (Term n)) (x0 : Option (Fin n → ℝ)) (s : St n) (t : ℝ) (all : Bool) (k : Nat) (a b : Fin n → ℝ) (ha : (states ts x0 s k).x = some a)
    (hb : (states ts x0 s (k + 1)).x = some b) (h0 : value (ts.map (·.element)) 0 ≠ 0) :
    (⟨none, some t, none, all⟩ : Stop).holds (states ts x0 s (k + 1)) = true ↔
      |value (ts.map (·.element)) a - value (ts.map (·.element)) b| / value (ts.map (·.element)) 0 < t := by
  have hc : ∀ j, (states ts x0 s j).crit = (states ts x0 s j).x.map (value (ts.map (·.element))) := by
    intro j
    cases j with
    | zero => rfl
    | succ j => rw [states_succ]; rfl
  have hl : (states ts x0 s (k + 1)).last = (states ts x0 s k).crit := by rw [states_succ]; rfl
  have hr : resid (states ts x0 s (k + 1)) = some (|value (ts.map (·.element)) a - value (ts.map (·.element)) b| / value (ts.map (·.element)) 0) := by
    rw [resid, hl, hc, hc, states_first, ha, hb]
    simp [quotient, h0]
  cases all <;> simp [Stop.holds, hr, below]

/-- **C79** A second call of `run` does as the first one: what the attributes are before does not matter. -/
theorem C79_restart (ts : List (Term n)) (x0 : Option (Fin n → ℝ)) (c : Stop) (s s' : St n) (k : Nat) :
    (Stops ts x0 c s k ↔ Stops ts x0 c s' k) ∧ (states ts x0 s k).x = (states ts x0 s' k).x := by
  have hs : ∀ j, ({ states ts x0 s (j + 1) with lastGnorm := none } : St n) = { states ts x0 s' (j + 1) with lastGnorm := none } := by
    intro j
    induction j with
    | zero => rfl
    | succ j ih =>
      rw [states_succ ts x0 s (j + 1), states_succ ts x0 s' (j + 1)]
      have hi : ∀ t : St n, ({ iterate ts t with lastGnorm := none } : St n) =
          { iterate ts { t with lastGnorm := none } with lastGnorm := none } := fun t => rfl
      rw [hi, hi (states ts x0 s' (j + 1)), ih]
  have hh : ∀ j, 1 ≤ j → c.holds (states ts x0 s j) = c.holds (states ts x0 s' j) := by
    intro j hj
    obtain ⟨j, rfl⟩ : ∃ i, j = i + 1 := ⟨j - 1, by omega⟩
    have hc : ∀ t : St n, c.holds t = c.holds { t with lastGnorm := none } := fun t => rfl
    rw [hc, hc (states ts x0 s' (j + 1)), hs]
  refine ⟨?_, ?_⟩
  · constructor
    · rintro ⟨h1, h2, h3⟩
      exact ⟨h1, by rw [← hh k h1]; exact h2, fun j h4 h5 => by rw [← hh j h4]; exact h3 j h4 h5⟩
    · rintro ⟨h1, h2, h3⟩
      exact ⟨h1, by rw [hh k h1]; exact h2, fun j h4 h5 => by rw [hh j h4]; exact h3 j h4 h5⟩
  · cases k with
    | zero => rfl
    | succ k =>
      have := congrArg St.x (hs k)
      exact this

/-! ### What fails -/

theorem square_regular : Regular square := by
  refine ⟨fun t ht => ?_, fun d hd => ?_⟩
  · simp only [square, List.mem_cons, List.not_mem_nil, or_false] at ht
    subst ht
    exact ⟨rfl, quadratic_norm2⟩
  · have : d 0 ≠ 0 := fun e => hd (by funext i; rw [Subsingleton.elim i 0]; exact e)
    simp [square, norm2, dotProduct]
    positivity

theorem square_gradient (x : Fin 1 → ℝ) : termsGradient square x = ![2 * (x 0 - 1)] := by
  funext i
  have : i = 0 := Subsingleton.elim _ _
  subst this
  simp [termsGradient, square, Element.gradient, Element.minusData, norm2]
  rfl

theorem square_curvature (d : Fin 1 → ℝ) : curvature square d = d 0 ^ 2 := by
  simp [curvature, square, Term.stepNorm, norm2, dotProduct, sq]

theorem square_value (x : Fin 1 → ℝ) : value (square.map (·.element)) x = (x 0 - 1) ^ 2 := by
  simp [value, square, Element.value, Element.minusData, norm2, dotProduct, sq]

/-- The first iteration for (x - 1)² finds the minimum. -/
theorem square_first (x0 : Option (Fin 1 → ℝ)) (s : St 1) :
    (states square x0 s 1).x = some ![1] ∧ (states square x0 s 1).crit = some 0 ∧ (states square x0 s 1).last = some 1 ∧
      (states square x0 s 1).gnorm = some 4 := by
  have e0 : (states square x0 s 0).x = some 0 := rfl
  have hi : (states square x0 s 0).iter = 0 := rfl
  have hc : (states square x0 s 0).crit = some (value (square.map (·.element)) 0) := rfl
  have ho : optimalStep square (-![2 * ((0 : Fin 1 → ℝ) 0 - 1)]) ![2 * ((0 : Fin 1 → ℝ) 0 - 1)] = some (1 / 2) := by
    rw [optimalStep, square_curvature, if_neg (by norm_num)]
    norm_num [dotProduct]
  have hx : (states square x0 s 1).x = some ![1] := by
    rw [states_succ]
    simp only [iterate, updateCriterion, updateSolution, updateDescent, updateGradient, hi, e0, if_true, Option.map_some, Option.bind_some,
      square_gradient, ho]
    congr 1
    funext i
    rw [Subsingleton.elim i 0]
    simp
  refine ⟨hx, ?_, ?_, ?_⟩
  · have e : (states square x0 s 1).crit = (states square x0 s 1).x.map (value (square.map (·.element))) := by rw [states_succ]; rfl
    rw [e, hx, Option.map_some, square_value]
    norm_num
  · have e : (states square x0 s 1).last = (states square x0 s 0).crit := by rw [states_succ]; rfl
    rw [e, hc, square_value]
    norm_num
  · have e : (states square x0 s 1).gnorm = (states square x0 s 0).x.map fun x => termsGradient square x ⬝ᵥ termsGradient square x := by
      rw [states_succ]; rfl
    rw [e, e0, Option.map_some, square_gradient]
    norm_num [dotProduct]

theorem square_second (x0 : Option (Fin 1 → ℝ)) (s : St 1) :
    (states square x0 s 2).x = none ∧ (states square x0 s 2).gnorm = some 0 := by
  obtain ⟨H, hH⟩ := exists_hessian square square_regular.1
  refine nan_step x0 s 1 square_regular.pos hH (fun j hj e => ?_) ?_
  · have : j = 0 := by omega
    subst this
    have e0 : xs square x0 s 0 = 0 := rfl
    rw [gs, e0, square_gradient] at e
    have := congrFun e 0
    norm_num at this
  · rw [gs, xs, (square_first x0 s).1, square_gradient]
    funext i
    rw [Subsingleton.elim i 0]
    simp

/-- The first iteration changes the criterion of (x - 1)² by all of it: it is less than twice the criterion of the initial guess, but not less than half of it. -/
example (s : St 1) : (⟨none, some 2, none, false⟩ : Stop).holds (states square none s 1) = true ∧ ¬ (⟨none, some (1 / 2), none, false⟩ : Stop).holds (states square none s 1) = true := by
  have h := fun t => C79_tol square none s t false 0 0 ![1] rfl (square_first none s).1 (by rw [square_value]; norm_num)
  rw [h, h, square_value, square_value]
  norm_num

/-- **C79** With the default stop condition, the result is NaN if the minimum is reached exactly: the algorithm goes on, because the gradient
that is tested is that of the preceding solution, and the next step is 0 / 0.  For instance for the identity and the data 1: the minimum is
found by the first iteration and lost by the second one. -/
theorem C79_nan_fails (x0 : Option (Fin 1 → ℝ)) (s : St 1) :
    IsMin square ![1] ∧ (states square x0 s 1).x = some ![1] ∧ Stops square x0 defaultStop s 2 ∧ (states square x0 s 2).x = none := by
  obtain ⟨h1, h2, h3, h4⟩ := square_first x0 s
  refine ⟨(min_iff square_regular _).2 ?_, h1, ⟨by omega, ?_, fun j hj1 hj2 => ?_⟩, (square_second x0 s).1⟩
  · rw [square_gradient]
    funext i
    rw [Subsingleton.elim i 0]
    simp
  · simp [Stop.holds, defaultStop, (square_second x0 s).2, below]
  · have : j = 1 := by omega
    subst this
    have hf := states_first square x0 s 1
    rw [square_value] at hf
    simp [Stop.holds, defaultStop, h4, below, resid, h2, h3, hf, quotient]
    norm_num

/-- **C79** The result is NaN if the solution is zero: at least one iteration is done. -/
theorem C79_zero_fails {ts : List (Term n)} (h : Regular ts) (x0 : Option (Fin n → ℝ)) (s : St n) (hm : IsMin ts 0) :
    Stops ts x0 defaultStop s 1 ∧ (states ts x0 s 1).x = none := by
  obtain ⟨H, hH⟩ := exists_hessian ts h.1
  have := nan_step x0 s 0 h.pos hH (by omega) ((min_iff h 0).1 hm)
  refine ⟨⟨le_refl _, ?_, by omega⟩, this.1⟩
  simp [Stop.holds, defaultStop, this.2, below]

/-- **C79** With the default condition, the algorithm stops after at most n + 1 iterations, for all the criterions. -/
theorem C79_default {ts : List (Term n)} (h : Regular ts) (x0 : Option (Fin n → ℝ)) (s : St n) : ∃ k ≤ n + 1, Stops ts x0 defaultStop s k :=
  C79_stops h x0 s defaultStop rfl _ rfl (by norm_num)

/-- **C79** With tol and without gtol, the algorithm never stops for the identity and the data 1. -/
theorem C79_loop_fails (x0 : Option (Fin 1 → ℝ)) (s : St 1) (k : Nat) : ¬ Stops square x0 ⟨none, some (1 / 10 ^ 6), none, false⟩ s k := by
  rintro ⟨h1, h2, -⟩
  obtain ⟨e1, e2, e3, e4⟩ := square_first x0 s
  rcases Nat.lt_or_ge k 2 with hk | hk
  · have : k = 1 := by omega
    subst this
    have hf := states_first square x0 s 1
    rw [square_value] at hf
    simp [Stop.holds, below, resid, e2, e3, hf, quotient] at h2
    norm_num at h2
  · have hn := nan_stays x0 s 2 (square_second x0 s).1 (k - 2)
    rw [show 2 + (k - 2) = k by omega] at hn
    have hc : (states square x0 s k).crit = none := by
      obtain ⟨j, rfl⟩ : ∃ j, k = j + 1 := ⟨k - 1, by omega⟩
      have e : (states square x0 s (j + 1)).crit = (states square x0 s (j + 1)).x.map (value (square.map (·.element))) := by
        rw [states_succ]; rfl
      rw [e, hn.1]; rfl
    have hr : resid (states square x0 s k) = none := by
      simp only [resid, hc, Option.bind_none]
      cases (states square x0 s k).last <;> rfl
    simp [Stop.holds, below, hr] at h2

/-- **C79** The first guess is ignored: the algorithm starts at zero. -/
theorem C79_x0_fails (s : St 1) : (states square (some ![1]) s 0).x = some 0 ∧ IsMin square ![1] :=
  ⟨rfl, (C79_nan_fails none s).1⟩

/-- **C79** `gtol` is compared to the square of the norm of the gradient: for (x - 1)², whose gradient at 0 is -2, a tolerance of 3 is not
met by the first iteration. -/
theorem C79_gtol_fails (x0 : Option (Fin 1 → ℝ)) (s : St 1) :
    (states square x0 s 1).g = some ![-2] ∧ (⟨none, none, some 3, false⟩ : Stop).holds (states square x0 s 1) = false := by
  refine ⟨?_, ?_⟩
  · have e : (states square x0 s 1).g = (states square x0 s 0).x.map (termsGradient square) := by rw [states_succ]; rfl
    have e0 : (states square x0 s 0).x = some 0 := rfl
    rw [e, e0, Option.map_some, square_gradient]
    norm_num
  · simp [Stop.holds, below, (square_first x0 s).2.2.2]
    norm_num

/-! ### Examples -/

example (s : St 1) : ∃ k ≤ 2, Stops square none defaultStop s k :=
  C79_default square_regular none s

/-- Before the minimum is reached, the first iteration is fine. -/
example (s : St 1) : ∃ x x', (states square none s 0).x = some x ∧ (states square none s 1).x = some x' ∧
    value (square.map (·.element)) x' < value (square.map (·.element)) x := by
  obtain ⟨x, x', g, d, h1, h2, -, -, h3, -⟩ := C79_conjugate square_regular none s 0 (by
    intro j hj x hx
    have : j = 0 := by omega
    subst this
    have e0 : (states square none s 0).x = some 0 := rfl
    rw [e0, Option.some.injEq] at hx
    rw [min_iff square_regular, ← hx, square_gradient]
    intro e
    have := congrFun e 0
    norm_num at this)
  exact ⟨x, x', h1, h2, h3⟩

/-- (x - 1)² + (2 y - 1)². -/
def plane : List (Term 2) := [⟨⟨2, norm2 none, !![1, 0; 0, 2], some ![1, 1]⟩, true⟩]

theorem plane_regular : Regular plane := by
  refine ⟨fun t ht => ?_, fun d hd => ?_⟩
  · simp only [plane, List.mem_cons, List.not_mem_nil, or_false] at ht
    subst ht
    exact ⟨rfl, quadratic_norm2⟩
  · have h1 : d 0 ≠ 0 ∨ d 1 ≠ 0 := by
      by_contra hc
      push Not at hc
      exact hd (by funext i; fin_cases i <;> simp [hc.1, hc.2])
    have e : (plane.map fun t => t.element.norm.call (t.element.op *ᵥ d)).sum = d 0 ^ 2 + 4 * d 1 ^ 2 := by
      simp [plane, norm2, dotProduct, mulVec, Fin.sum_univ_two]
      ring
    rw [e]
    rcases h1 with h1 | h1 <;> positivity

theorem plane_gradient (x : Fin 2 → ℝ) : termsGradient plane x = ![2 * (x 0 - 1), 4 * (2 * x 1 - 1)] := by
  funext i
  fin_cases i
  · simp [termsGradient, plane, Element.gradient, Element.minusData, norm2, mulVec, dotProduct, Fin.sum_univ_two]
  · simp [termsGradient, plane, Element.gradient, Element.minusData, norm2, mulVec, dotProduct, Fin.sum_univ_two]
    ring

theorem plane_curvature (d : Fin 2 → ℝ) : curvature plane d = d 0 ^ 2 + 4 * d 1 ^ 2 := by
  simp [curvature, plane, Term.stepNorm, norm2, dotProduct, mulVec, Fin.sum_univ_two]
  ring

/-- The minimum is not reached by the first iteration: the second direction is conjugate to the first one. -/
example (s : St 2) : ∀ i < 1, ∃ di d, (states plane none s (i + 1)).d = some di ∧ (states plane none s 2).d = some d ∧
    ∀ H, IsHessian plane H → di ⬝ᵥ H *ᵥ d = 0 := by
  obtain ⟨H, hH⟩ := exists_hessian plane plane_regular.1
  have h0 : gs plane none s 0 = ![-2, -4] := by
    rw [gs, show xs plane none s 0 = 0 from rfl, plane_gradient]
    norm_num
  have hne : gs plane none s 0 ≠ 0 := by
    rw [h0]
    intro e
    have := congrFun e 0
    norm_num at this
  obtain ⟨-, h2, -, -, h5⟩ := fine_step none s plane_regular.pos hH 0 (fine none s plane_regular.pos hH 0 (by omega)) (by
    intro j hj
    have : j = 0 := by omega
    subst this
    exact hne)
  have h1 : ¬ gs plane none s 1 = 0 := by
    have hd : ds plane none s 0 = ![2, 4] := by
      rw [h2, direction, h0]
      norm_num
    have ha : alpha plane none s 0 = 5 / 34 := by
      rw [alpha, hd, h0, plane_curvature]
      norm_num [dotProduct, Fin.sum_univ_two]
    rw [gs, h5, ha, hd, show xs plane none s 0 = 0 from rfl, plane_gradient]
    intro e
    have := congrFun e 0
    norm_num at this
  have hm : ∀ j ≤ 1, ∀ x, (states plane none s j).x = some x → ¬ IsMin plane x := by
    intro j hj x hx
    rw [min_iff plane_regular]
    have e : xs plane none s j = x := by rw [xs, hx]; rfl
    rw [← e]
    rcases Nat.lt_or_ge j 1 with h | h
    · have : j = 0 := by omega
      subst this
      exact hne
    · have : j = 1 := by omega
      subst this
      exact h1
  obtain ⟨x, x', g, d, -, -, -, hd, -, hc⟩ := C79_conjugate plane_regular none s 1 hm
  intro i hi
  obtain ⟨gi, di, -, hdi, -, hz⟩ := hc i hi
  exact ⟨di, d, hdi, hd, hz⟩

end Verif.Criterions
