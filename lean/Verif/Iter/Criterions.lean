import Mathlib.Analysis.InnerProductSpace.NormPow
import Mathlib.Analysis.Calculus.Deriv.Add
import Mathlib.Analysis.Calculus.Deriv.Abs
import Mathlib.Analysis.Calculus.Deriv.Mul
import Mathlib.Analysis.Calculus.Deriv.Pow
import Mathlib.Analysis.Calculus.Deriv.Comp
import Mathlib.Data.Matrix.Mul
import Mathlib.LinearAlgebra.Matrix.Symmetric
import Mathlib.LinearAlgebra.Matrix.Notation
import Mathlib.Data.Real.Sign
import Mathlib.Tactic.FinCases
import Mathlib.Tactic.Linarith
import Mathlib.Tactic.NormNum

/-
Model of the criterions: src/pyoperators/iterative/criterions.py, in exact real arithmetic, and property C76.

Arrays are functions of their indices.  The operators are matrices.
-/

namespace Verif.Criterions

open Matrix

/-! ### Norms -/

/-- A norm: the methods `__call__` and `diff`.  src/pyoperators/iterative/criterions.py:118-127. -/
structure Norm (m : Nat) where
  call : (Fin m → ℝ) → ℝ
  diff : (Fin m → ℝ) → (Fin m → ℝ)

variable {m n : Nat}

/-- `Norm2(C)`: src/pyoperators/iterative/criterions.py:163-190. -/
def norm2 (C : Option (Matrix (Fin m) (Fin m) ℝ)) : Norm m :=
  match C with
  | none => ⟨fun x => x ⬝ᵥ x, fun x => (2 : ℝ) • x⟩
  | some C => ⟨fun x => x ⬝ᵥ C *ᵥ x, fun x => (2 : ℝ) • C *ᵥ x⟩

/-- `huber`, for an element of an array of floating point numbers: src/pyoperators/iterative/criterions.py:65-72. -/
noncomputable def huber (delta t : ℝ) : ℝ := if |t| < delta then |t| ^ 2 else 2 * delta * |t| - delta ^ 2

/-- `dhuber`: src/pyoperators/iterative/criterions.py:75-84.  The indices are computed before the assignments, and the last assignment
wins. -/
noncomputable def dhuber (delta t : ℝ) : ℝ :=
  if t ≤ -delta then -2 * delta else if t ≥ delta then 2 * delta else if |t| < delta then 2 * t else t

/-- `Huber(delta)`: src/pyoperators/iterative/criterions.py:87-106 and 210-213. -/
noncomputable def huberNorm (delta : ℝ) : Norm m := ⟨fun x => ∑ i, huber delta (x i), fun x i => dhuber delta (x i)⟩

/-- `Normp(p)`: src/pyoperators/iterative/criterions.py:50-61 and 232-235.  The power of zero is that of NumPy for non-negative exponents. -/
noncomputable def normp (p : ℝ) : Norm m :=
  ⟨fun x => ∑ i, |x i| ^ p, fun x i => Real.sign (x i) * p * |x i| ^ (p - 1)⟩

/-- The multiplication by a scalar: src/pyoperators/iterative/criterions.py:110-114 and 129-143.  The attributes C, delta and p of the
product, which are not used by its methods, are not represented. -/
def Norm.mul (N : Norm m) (a : ℝ) : Norm m := ⟨fun x => a * N.call x, fun x => a • N.diff x⟩

/-! ### Elements -/

/-- `CriterionElement(norm, op, data)`: src/pyoperators/iterative/criterions.py:242-256. -/
structure Element (n : Nat) where
  m : Nat
  norm : Norm m
  op : Matrix (Fin m) (Fin n) ℝ
  data : Option (Fin m → ℝ)

/-- What is stored: `last_x` and `last_ox`, None at first.  src/pyoperators/iterative/criterions.py:259-260. -/
abbrev Cache (X Y : Type) := Option (X × Y)

/-- `_storex`, unless `_islastx`; and last_ox.  src/pyoperators/iterative/criterions.py:263-266 and 290-295.  `same` is
`np.all(x == self.last_x)`. -/
def load {X Y : Type} (same : X → Option X → Bool) (op : X → Y) (c : Cache X Y) (x : X) : Cache X Y × Option Y :=
  if same x (c.map Prod.fst) then (c, c.map Prod.snd) else (some (x, op x), some (op x))

open Classical in
/-- `np.all(x == self.last_x)` for arrays that have the same shape: the comparison with None is false for each element. -/
noncomputable def same (x : Fin n → ℝ) : Option (Fin n → ℝ) → Bool
  | none => n = 0
  | some y => x = y

/-- The residual. -/
def Element.minusData (e : Element n) (y : Fin e.m → ℝ) : Fin e.m → ℝ :=
  match e.data with
  | none => y
  | some d => y - d

/-- `_call` and `_data_call`: src/pyoperators/iterative/criterions.py:263-266 and 273-276.  `none` is the error raised by the norm of None. -/
noncomputable def Element.call (e : Element n) (c : Cache (Fin n → ℝ) (Fin e.m → ℝ)) (x : Fin n → ℝ) :
    Cache (Fin n → ℝ) (Fin e.m → ℝ) × Option ℝ :=
  let (c, ox) := load same (e.op *ᵥ ·) c x
  (c, ox.map fun ox => e.norm.call (e.minusData ox))

/-- `_diff` and `_data_diff`: src/pyoperators/iterative/criterions.py:268-271 and 278-281. -/
noncomputable def Element.diff (e : Element n) (c : Cache (Fin n → ℝ) (Fin e.m → ℝ)) (x : Fin n → ℝ) :
    Cache (Fin n → ℝ) (Fin e.m → ℝ) × Option (Fin n → ℝ) :=
  let (c, ox) := load same (e.op *ᵥ ·) c x
  (c, ox.map fun ox => e.opᵀ *ᵥ e.norm.diff (e.minusData ox))

/-- `x * element`: src/pyoperators/iterative/criterions.py:303-307.  The caches of the new element are empty. -/
def Element.mul (e : Element n) (a : ℝ) : Element n := ⟨e.m, e.norm.mul a, e.op, e.data⟩

/-- The check of the shape of the data: src/pyoperators/iterative/criterions.py:254.  The comparison of the shape and of the product is done by
NumPy element by element: the truth value of the result is an error if the shape has several elements (and false if it has none). -/
def acceptsData (shapeout : Option (List Nat)) (shape : List Nat) : Bool :=
  match shapeout, shape with
  | some s, [d] => d = s.prod
  | _, _ => false

/-! ### Criterions -/

/-- An element and its cache. -/
structure Live (n : Nat) where
  element : Element n
  cache : Cache (Fin n → ℝ) (Fin element.m → ℝ)

/-- `Criterion.__call__`: src/pyoperators/iterative/criterions.py:353-354. -/
noncomputable def call : List (Live n) → (Fin n → ℝ) → List (Live n) × Option ℝ
  | [], _ => ([], some 0)
  | e :: es, x =>
    let (c, v) := e.element.call e.cache x
    let (es, w) := call es x
    (⟨e.element, c⟩ :: es, v.bind fun v => w.map fun w => v + w)

/-- `Criterion.diff`: src/pyoperators/iterative/criterions.py:356-357. -/
noncomputable def diff : List (Live n) → (Fin n → ℝ) → List (Live n) × Option (Fin n → ℝ)
  | [], _ => ([], some 0)
  | e :: es, x =>
    let (c, v) := e.element.diff e.cache x
    let (es, w) := diff es x
    (⟨e.element, c⟩ :: es, v.bind fun v => w.map fun w => v + w)

/-- A method and its argument. -/
inductive Call (n : Nat) where
  | call (x : Fin n → ℝ)
  | diff (x : Fin n → ℝ)

noncomputable def after (es : List (Live n)) : Call n → List (Live n)
  | .call x => (call es x).1
  | .diff x => (diff es x).1

/-- A new criterion. -/
def create (es : List (Element n)) : List (Live n) := es.map fun e => ⟨e, none⟩

/-- A prior: its operator. -/
structure Prior (n : Nat) where
  m : Nat
  op : Matrix (Fin m) (Fin n) ℝ

/-- `quadratic_criterion(model, data, hypers, priors)`: src/pyoperators/iterative/criterions.py:394-405, without covariances.  `zip` stops at
the end of the shortest list. -/
def quadratic (model : Matrix (Fin m) (Fin n) ℝ) (data : Fin m → ℝ) (hypers : List ℝ) (priors : List (Prior n)) : List (Element n) :=
  let elements := (List.zip (List.replicate hypers.length ()) priors).map fun (_, p) => (⟨p.m, norm2 none, p.op, none⟩ : Element n)
  ⟨m, norm2 none, model, some data⟩ :: (List.zip hypers elements).map fun (h, e) => e.mul h

/-! ### Specification -/

/-- g is the gradient of f at x: the derivatives of f along the lines that go through x are the scalar products of g by their directions. -/
def IsGradient (f : (Fin n → ℝ) → ℝ) (x g : Fin n → ℝ) : Prop := ∀ d : Fin n → ℝ, HasDerivAt (fun t : ℝ => f (x + t • d)) (g ⬝ᵥ d) 0

/-- The value of an element. -/
def Element.value (e : Element n) (x : Fin n → ℝ) : ℝ := e.norm.call (e.minusData (e.op *ᵥ x))

/-- The value of a criterion. -/
def value (es : List (Element n)) (x : Fin n → ℝ) : ℝ := (es.map fun e => e.value x).sum

/-! ### Gradients of the norms -/

theorem IsGradient.unique {f : (Fin n → ℝ) → ℝ} {x g g' : Fin n → ℝ} (h : IsGradient f x g) (h' : IsGradient f x g') : g = g' := by
  funext i
  have := (h (Pi.single i 1)).unique (h' (Pi.single i 1))
  simpa using this

/-- A sum of functions of the elements. -/
theorem gradient_sum {f f' : ℝ → ℝ} {x : Fin n → ℝ} (h : ∀ i, HasDerivAt f (f' (x i)) (x i)) :
    IsGradient (fun x => ∑ i, f (x i)) x (fun i => f' (x i)) := by
  intro d
  simp only [dotProduct]
  have : ∀ i ∈ (Finset.univ : Finset (Fin n)), HasDerivAt (fun t : ℝ => f ((x + t • d) i)) (f' (x i) * d i) 0 := by
    intro i _
    have h1 : HasDerivAt (fun t : ℝ => (x + t • d) i) (d i) 0 := by
      simp only [Pi.add_apply, Pi.smul_apply, smul_eq_mul]
      simpa using ((hasDerivAt_id (0 : ℝ)).mul_const (d i)).const_add (x i)
    have h2 : HasDerivAt f (f' (x i)) ((x + (0 : ℝ) • d) i) := by simpa using h i
    exact h2.comp (0 : ℝ) h1
  have := HasDerivAt.fun_sum this
  exact this

/-- A function that is a quadratic polynomial along the lines. -/
theorem gradient_quadratic {f : (Fin n → ℝ) → ℝ} {x g : Fin n → ℝ}
    (h : ∀ d, ∃ c : ℝ, ∀ t : ℝ, f (x + t • d) = f x + t * (g ⬝ᵥ d) + t ^ 2 * c) : IsGradient f x g := by
  intro d
  obtain ⟨c, hc⟩ := h d
  have : (fun t : ℝ => f (x + t • d)) = fun t => f x + t * (g ⬝ᵥ d) + t ^ 2 * c := funext hc
  rw [this]
  have h1 : HasDerivAt (fun t : ℝ => t * (g ⬝ᵥ d)) (g ⬝ᵥ d) 0 := by simpa using (hasDerivAt_id (0 : ℝ)).mul_const (g ⬝ᵥ d)
  have h2 : HasDerivAt (fun t : ℝ => t ^ 2 * c) 0 0 := by simpa using (hasDerivAt_pow 2 (0 : ℝ)).mul_const c
  have := (h1.const_add (f x)).fun_add h2
  rwa [add_zero] at this

theorem hasDerivAt_of_bound {f : ℝ → ℝ} {f' t : ℝ} (h : ∀ s, |f s - f t - (s - t) * f'| ≤ (s - t) ^ 2) : HasDerivAt f f' t := by
  rw [hasDerivAt_iff_isLittleO]
  refine Asymptotics.IsBigO.trans_isLittleO (g := fun s => ‖s - t‖ ^ 2) ?_ (Asymptotics.isLittleO_pow_sub_sub t one_lt_two)
  refine Asymptotics.IsBigO.of_bound 1 (Filter.Eventually.of_forall fun s => ?_)
  simp only [smul_eq_mul, Real.norm_eq_abs, one_mul, sq_abs]
  rw [abs_of_nonneg (sq_nonneg (s - t))]
  exact h s

theorem huber_le {delta : ℝ} (hd : 0 ≤ delta) (s : ℝ) :
    0 ≤ huber delta s ∧ huber delta s ≤ s ^ 2 ∧ 2 * delta * s - delta ^ 2 ≤ huber delta s ∧ -2 * delta * s - delta ^ 2 ≤ huber delta s := by
  have h1 : |s| ^ 2 = s ^ 2 := sq_abs s
  have h2 := le_abs_self s
  have h3 := neg_abs_le s
  have h4 := abs_nonneg s
  simp only [huber]
  split
  · refine ⟨by positivity, h1.le, ?_, ?_⟩
    · nlinarith [sq_nonneg (s - delta)]
    · nlinarith [sq_nonneg (s + delta)]
  · next h =>
    push Not at h
    refine ⟨by nlinarith, by nlinarith [sq_nonneg (|s| - delta)], by nlinarith, by nlinarith⟩

theorem huber_deriv {delta : ℝ} (hd : 0 ≤ delta) (t : ℝ) : HasDerivAt (huber delta) (dhuber delta t) t := by
  refine hasDerivAt_of_bound fun s => ?_
  obtain ⟨s0, s1, s2, s3⟩ := huber_le hd s
  rw [abs_le]
  by_cases h1 : t ≤ -delta
  · have e : dhuber delta t = -2 * delta := by simp only [dhuber, if_pos h1]
    have e' : huber delta t = 2 * delta * (-t) - delta ^ 2 := by
      have : |t| = -t := abs_of_nonpos (by linarith)
      rw [huber, this, if_neg (by linarith)]
    rw [e, e']
    constructor
    · nlinarith [sq_nonneg (s - t)]
    · rcases le_or_gt s (-delta) with h | h
      · have : huber delta s = 2 * delta * (-s) - delta ^ 2 := by
          have : |s| = -s := abs_of_nonpos (by linarith)
          rw [huber, this, if_neg (by linarith)]
        rw [this]
        nlinarith [sq_nonneg (s - t)]
      · nlinarith [mul_nonneg (by linarith : 0 ≤ s + delta) (by linarith : 0 ≤ -delta - t), sq_nonneg (delta + t)]
  · by_cases h2 : t ≥ delta
    · have e : dhuber delta t = 2 * delta := by simp only [dhuber, if_neg h1, if_pos h2]
      have e' : huber delta t = 2 * delta * t - delta ^ 2 := by
        have : |t| = t := abs_of_nonneg (by linarith)
        rw [huber, this, if_neg (by linarith)]
      rw [e, e']
      constructor
      · nlinarith [sq_nonneg (s - t)]
      · rcases le_or_gt delta s with h | h
        · have : huber delta s = 2 * delta * s - delta ^ 2 := by
            have : |s| = s := abs_of_nonneg (by linarith)
            rw [huber, this, if_neg (by linarith)]
          rw [this]
          nlinarith [sq_nonneg (s - t)]
        · nlinarith [mul_nonneg (by linarith : 0 ≤ delta - s) (by linarith : 0 ≤ t - delta), sq_nonneg (t - delta)]
    · have h3 : |t| < delta := by rw [abs_lt]; constructor <;> linarith
      have e : dhuber delta t = 2 * t := by simp only [dhuber, if_neg h1, if_neg h2, if_pos h3]
      have e' : huber delta t = t ^ 2 := by rw [huber, if_pos h3, sq_abs]
      rw [e, e']
      constructor
      · have := abs_nonneg s
        by_cases h : |s| < delta
        · have : huber delta s = s ^ 2 := by rw [huber, if_pos h, sq_abs]
          rw [this]; nlinarith [sq_nonneg (s - t)]
        · have hs : huber delta s = 2 * delta * |s| - delta ^ 2 := by rw [huber, if_neg h]
          push Not at h
          rw [abs_lt] at h3
          rcases abs_cases s with ⟨ha, hb⟩ | ⟨ha, hb⟩ <;> rw [ha] at h hs <;> rw [hs]
          · nlinarith [mul_nonneg (by linarith : 0 ≤ s - delta) (by linarith : 0 ≤ delta - t), sq_nonneg (s - t)]
          · nlinarith [mul_nonneg (by linarith : 0 ≤ -s - delta) (by linarith : 0 ≤ delta + t), sq_nonneg (s - t)]
      · nlinarith

theorem normp_deriv {p t : ℝ} (h : 1 < p ∨ t ≠ 0) : HasDerivAt (fun t => |t| ^ p) (Real.sign t * p * |t| ^ (p - 1)) t := by
  by_cases ht : t = 0
  · subst ht
    have := hasDerivAt_abs_rpow 0 (h.resolve_right (by simp))
    simpa using this
  · have h1 : HasDerivAt (fun t : ℝ => |t|) (Real.sign t) t := by
      rcases lt_or_gt_of_ne ht with h | h
      · rw [Real.sign_of_neg h]; exact hasDerivAt_abs_neg h
      · rw [Real.sign_of_pos h]; exact hasDerivAt_abs_pos h
    have := h1.rpow_const (p := p) (Or.inl (abs_ne_zero.2 ht))
    exact this

/-- A norm whose derivative is right. -/
def Norm.Right (N : Norm m) (x : Fin m → ℝ) : Prop := IsGradient N.call x (N.diff x)

theorem Norm.Right.mul {N : Norm m} {x : Fin m → ℝ} (h : N.Right x) (a : ℝ) : (N.mul a).Right x := by
  intro d
  have := (h d).const_mul a
  simpa [Norm.mul, smul_dotProduct] using this

theorem quadratic_expand (C : Matrix (Fin m) (Fin m) ℝ) (x d : Fin m → ℝ) (t : ℝ) :
    (x + t • d) ⬝ᵥ C *ᵥ (x + t • d) = x ⬝ᵥ C *ᵥ x + t * (x ⬝ᵥ C *ᵥ d + d ⬝ᵥ C *ᵥ x) + t ^ 2 * (d ⬝ᵥ C *ᵥ d) := by
  simp only [mulVec_add, mulVec_smul, add_dotProduct, dotProduct_add, smul_dotProduct, dotProduct_smul, smul_eq_mul]
  ring

theorem symm_dot {C : Matrix (Fin m) (Fin m) ℝ} (hC : C.IsSymm) (x y : Fin m → ℝ) : x ⬝ᵥ C *ᵥ y = y ⬝ᵥ C *ᵥ x := by
  rw [dotProduct_mulVec, ← mulVec_transpose, hC.eq, dotProduct_comm]

/-- **C76** `diff` of a norm is its gradient: for the 2-norm with a symmetric covariance matrix, for the Huber norm with a parameter that is
not negative, for the p-norm if p is larger than 1 or away from zero, and for the multiples of these norms. -/
theorem C76_norms_partial (x : Fin m → ℝ) :
    (norm2 (m := m) none).Right x ∧ (∀ C, C.IsSymm → (norm2 (some C)).Right x) ∧ (∀ delta, 0 ≤ delta → (huberNorm delta).Right x) ∧
      (∀ p, (1 < p ∨ ∀ i, x i ≠ 0) → (normp p).Right x) ∧ ∀ (N : Norm m) (a : ℝ), N.Right x → (N.mul a).Right x := by
  have h2 : ∀ C : Matrix (Fin m) (Fin m) ℝ, C.IsSymm → (norm2 (some C)).Right x := by
    intro C hC
    refine gradient_quadratic fun d => ⟨d ⬝ᵥ C *ᵥ d, fun t => ?_⟩
    show (x + t • d) ⬝ᵥ C *ᵥ (x + t • d) = x ⬝ᵥ C *ᵥ x + t * (((2 : ℝ) • C *ᵥ x) ⬝ᵥ d) + _
    rw [quadratic_expand, symm_dot hC x d, smul_dotProduct, dotProduct_comm d, smul_eq_mul]
    ring
  refine ⟨?_, h2, fun delta hd => gradient_sum fun i => huber_deriv hd _, fun p hp => gradient_sum (f := fun t => |t| ^ p)
    (f' := fun t => Real.sign t * p * |t| ^ (p - 1)) fun i => normp_deriv (hp.imp_right fun h => h i), fun N a h => h.mul a⟩
  have := h2 1 Matrix.isSymm_one
  simp only [Norm.Right, norm2, one_mulVec] at this ⊢
  simpa using this

/-! ### The caches -/

/-- What is stored is right. -/
def Live.Good (l : Live n) : Prop := ∀ x ox, l.cache = some (x, ox) → ox = l.element.op *ᵥ x

theorem load_good {l : Live n} (hn : 0 < n) (h : l.Good) (x : Fin n → ℝ) :
    (load same (l.element.op *ᵥ ·) l.cache x).2 = some (l.element.op *ᵥ x) ∧
      (⟨l.element, (load same (l.element.op *ᵥ ·) l.cache x).1⟩ : Live n).Good := by
  obtain ⟨e, c⟩ := l
  unfold load
  cases c with
  | none =>
    have : same x (Option.map Prod.fst (none : Cache (Fin n → ℝ) (Fin e.m → ℝ))) = false := by
      simp only [same, Option.map_none, decide_eq_false_iff_not]; omega
    simp only [this, Bool.false_eq_true, if_false, true_and]
    rintro x' ox h'
    simp only [Option.some.injEq, Prod.mk.injEq] at h'
    rw [← h'.1, ← h'.2]
  | some p =>
    obtain ⟨x', ox⟩ := p
    by_cases hx : x = x'
    · subst hx
      have : same x (Option.map Prod.fst (some (x, ox) : Cache (Fin n → ℝ) (Fin e.m → ℝ))) = true := by simp [same]
      simp only [this, if_true]
      exact ⟨congrArg some (h x ox rfl), h⟩
    · have : same x (Option.map Prod.fst (some (x', ox) : Cache (Fin n → ℝ) (Fin e.m → ℝ))) = false := by simp [same, hx]
      simp only [this, Bool.false_eq_true, if_false, true_and]
      rintro x' ox h'
      simp only [Option.some.injEq, Prod.mk.injEq] at h'
      rw [← h'.1, ← h'.2]

/-- The gradient of an element. -/
def Element.gradient (e : Element n) (x : Fin n → ℝ) : Fin n → ℝ := e.opᵀ *ᵥ e.norm.diff (e.minusData (e.op *ᵥ x))

theorem call_good (hn : 0 < n) (x : Fin n → ℝ) : ∀ (ls : List (Live n)), (∀ l ∈ ls, l.Good) →
    (call ls x).2 = some (value (ls.map (·.element)) x) ∧ (∀ l ∈ (call ls x).1, l.Good) ∧
      (call ls x).1.map (·.element) = ls.map (·.element)
  | [], _ => ⟨rfl, by simp [call], rfl⟩
  | l :: ls, h => by
    obtain ⟨h1, h2, h3⟩ := call_good hn x ls fun l hl => h l (List.mem_cons_of_mem _ hl)
    obtain ⟨h4, h5⟩ := load_good hn (h l List.mem_cons_self) x
    simp only [call, Element.call, h1, h3, h4, Option.map_some, Option.bind_some, List.map_cons, List.mem_cons, forall_eq_or_imp]
    refine ⟨?_, ⟨h5, h2⟩, trivial⟩
    simp [value, Element.value]

theorem diff_good (hn : 0 < n) (x : Fin n → ℝ) : ∀ (ls : List (Live n)), (∀ l ∈ ls, l.Good) →
    (diff ls x).2 = some (ls.map fun l => l.element.gradient x).sum ∧ (∀ l ∈ (diff ls x).1, l.Good) ∧
      (diff ls x).1.map (·.element) = ls.map (·.element)
  | [], _ => ⟨rfl, by simp [diff], rfl⟩
  | l :: ls, h => by
    obtain ⟨h1, h2, h3⟩ := diff_good hn x ls fun l hl => h l (List.mem_cons_of_mem _ hl)
    obtain ⟨h4, h5⟩ := load_good hn (h l List.mem_cons_self) x
    simp only [diff, Element.diff, h1, h3, h4, Option.map_some, Option.bind_some, List.map_cons, List.mem_cons, forall_eq_or_imp]
    refine ⟨?_, ⟨h5, h2⟩, trivial⟩
    simp [Element.gradient]

theorem after_good (hn : 0 < n) (es : List (Element n)) (calls : List (Call n)) :
    (∀ l ∈ calls.foldl after (create es), l.Good) ∧ (calls.foldl after (create es)).map (·.element) = es := by
  have : ∀ ls : List (Live n), (∀ l ∈ ls, l.Good) → (∀ l ∈ calls.foldl after ls, l.Good) ∧
      (calls.foldl after ls).map (·.element) = ls.map (·.element) := by
    induction calls with
    | nil => exact fun ls h => ⟨h, rfl⟩
    | cons c calls ih =>
      intro ls h
      cases c with
      | call x =>
        obtain ⟨-, h2, h3⟩ := call_good hn x ls h
        obtain ⟨h4, h5⟩ := ih _ h2
        exact ⟨h4, h5.trans h3⟩
      | diff x =>
        obtain ⟨-, h2, h3⟩ := diff_good hn x ls h
        obtain ⟨h4, h5⟩ := ih _ h2
        exact ⟨h4, h5.trans h3⟩
  obtain ⟨h1, h2⟩ := this (create es) (by
    intro l hl
    obtain ⟨e, -, rfl⟩ := List.mem_map.1 hl
    intro x ox h
    cases h)
  refine ⟨h1, h2.trans ?_⟩
  simp [create, Function.comp_def]

/-- The gradient of an element at a point where the derivative of its norm is right. -/
theorem element_gradient (e : Element n) (x : Fin n → ℝ) (h : e.norm.Right (e.minusData (e.op *ᵥ x))) :
    IsGradient e.value x (e.gradient x) := by
  intro d
  have := h (e.op *ᵥ d)
  have h1 : (fun t : ℝ => e.value (x + t • d)) = fun t => e.norm.call (e.minusData (e.op *ᵥ x) + t • (e.op *ᵥ d)) := by
    funext t
    have : e.minusData (e.op *ᵥ (x + t • d)) = e.minusData (e.op *ᵥ x) + t • (e.op *ᵥ d) := by
      rw [mulVec_add, mulVec_smul]
      unfold Element.minusData
      cases e.data with
      | none => rfl
      | some y => simp only; abel
    rw [Element.value, this]
  rw [h1]
  have h2 : e.gradient x ⬝ᵥ d = e.norm.diff (e.minusData (e.op *ᵥ x)) ⬝ᵥ e.op *ᵥ d := by
    rw [Element.gradient, dotProduct_mulVec, ← mulVec_transpose]
  rw [h2]
  exact this

/-- **C76** Whatever the calls that have been made, a criterion returns the sum of the norms of the residuals. -/
theorem C76_value (hn : 0 < n) (es : List (Element n)) (calls : List (Call n)) (x : Fin n → ℝ) :
    (call (calls.foldl after (create es)) x).2 = some ((es.map fun e => e.norm.call (e.minusData (e.op *ᵥ x))).sum) := by
  obtain ⟨h1, h2⟩ := after_good hn es calls
  rw [(call_good hn x _ h1).1, h2]
  rfl

/-- **C76** Whatever the calls that have been made, `diff` returns the gradient of the criterion, if the derivatives of the norms are right. -/
theorem C76_gradient (hn : 0 < n) (es : List (Element n)) (calls : List (Call n)) (x : Fin n → ℝ)
    (h : ∀ e ∈ es, e.norm.Right (e.minusData (e.op *ᵥ x))) :
    ∃ g, (diff (calls.foldl after (create es)) x).2 = some g ∧
      IsGradient (fun x => (es.map fun e => e.norm.call (e.minusData (e.op *ᵥ x))).sum) x g := by
  obtain ⟨h1, h2⟩ := after_good hn es calls
  refine ⟨_, (diff_good hn x _ h1).1, ?_⟩
  have h3 : ((calls.foldl after (create es)).map fun l => l.element.gradient x) = es.map fun e => e.gradient x := by
    conv_rhs => rw [← h2, List.map_map]
    rfl
  rw [h3]
  clear h1 h2 h3
  induction es with
  | nil =>
    intro d
    simp only [List.map_nil, List.sum_nil, zero_dotProduct]
    exact hasDerivAt_const _ _
  | cons e es ih =>
    intro d
    have h4 := element_gradient e x (h e List.mem_cons_self) d
    have h5 := ih (fun e he => h e (List.mem_cons_of_mem _ he)) d
    simp only [List.map_cons, List.sum_cons, add_dotProduct]
    exact h4.fun_add h5

/-- **C76** A quadratic criterion is the sum of the squares of the residuals and of the priors multiplied by the parameters. -/
theorem C76_quadratic (model : Matrix (Fin m) (Fin n) ℝ) (data : Fin m → ℝ) (hypers : List ℝ) (priors : List (Prior n))
    (h : hypers.length = priors.length) (x : Fin n → ℝ) :
    value (quadratic model data hypers priors) x = ∑ i, ((model *ᵥ x) i - data i) ^ 2 +
      ((List.zip hypers priors).map fun (a, p) => a * ∑ i, (p.op *ᵥ x) i ^ 2).sum := by
  have h1 : ∀ (hs : List ℝ) (ps : List (Prior n)), hs.length = ps.length →
      (((List.zip hs ((List.zip (List.replicate hs.length ()) ps).map
        fun (_, p) => (⟨p.m, norm2 none, p.op, none⟩ : Element n))).map fun (h, e) => e.mul h).map fun e => e.value x).sum =
      ((List.zip hs ps).map fun (a, p) => a * ∑ i, (p.op *ᵥ x) i ^ 2).sum := by
    intro hs
    induction hs with
    | nil => intro ps _; rfl
    | cons a hs ih =>
      intro ps hl
      cases ps with
      | nil => cases hl
      | cons p ps =>
        have := ih ps (by simpa using hl)
        simp only [List.length_cons, List.replicate_succ, List.zip_cons_cons, List.map_cons, List.sum_cons, this]
        congr 1
        simp [Element.value, Element.mul, Norm.mul, norm2, Element.minusData, dotProduct, sq]
  simp only [value, quadratic, List.map_cons, List.sum_cons, h1 hypers priors h]
  congr 1
  simp [Element.value, norm2, Element.minusData, dotProduct, sq]

/-! ### What fails -/

/-- **C76** If the covariance matrix is not symmetric, `diff` is not the gradient of the norm. -/
theorem C76_covariance_fails : ¬ (norm2 (some !![0, 1; 0, 0])).Right ![1, 0] := by
  intro h
  have h1 : IsGradient (norm2 (some !![0, 1; 0, 0])).call ![1, 0] ![0, 1] := by
    refine gradient_quadratic fun d => ⟨d 0 * d 1, fun t => ?_⟩
    simp only [norm2, dotProduct, Fin.sum_univ_two, Matrix.mulVec, Matrix.of_apply, Matrix.cons_val_zero, Matrix.cons_val_one, Pi.add_apply,
      Pi.smul_apply, smul_eq_mul]
    ring
  have := congrFun (IsGradient.unique h h1) 1
  simp [norm2, Matrix.mulVec, dotProduct] at this

/-- **C76** The derivative of the Huber norm is wrong if the parameter is negative. -/
theorem C76_huber_fails : ¬ (huberNorm (m := 1) (-1)).Right ![1 / 2] := by
  intro h
  have h1 : HasDerivAt (fun t : ℝ => huber (-1) (1 / 2 + t)) 2 0 := by
    have := h ![1]
    simp only [huberNorm, Finset.univ_unique, Fin.default_eq_zero, Finset.sum_singleton, dotProduct] at this
    have e : dhuber (-1) (1 / 2) = 2 := by norm_num [dhuber]
    simp only [Pi.add_apply, Pi.smul_apply, Matrix.cons_val_zero, smul_eq_mul, mul_one, e] at this
    exact this
  have h2 : HasDerivAt (fun t : ℝ => huber (-1) (1 / 2 + t)) (-2) 0 := by
    have h3 : HasDerivAt (fun t : ℝ => -2 * (1 / 2 + t) - 1) (-2) 0 := by
      have := (((hasDerivAt_id (0 : ℝ)).const_add (1 / 2)).const_mul (-2)).sub_const 1
      rw [mul_one] at this
      exact this
    refine h3.congr_of_eventuallyEq ?_
    filter_upwards [Ioi_mem_nhds (show (-1 / 2 : ℝ) < 0 by norm_num)] with t ht
    have ht : -1 / 2 < t := ht
    have : |1 / 2 + t| = 1 / 2 + t := abs_of_pos (by linarith)
    rw [huber, this, if_neg (by linarith)]
    ring
  have := h1.unique h2
  norm_num at this

/-- `huber`, for an element of an array of integers: the values, which are not integers if delta is not, are truncated when they are
assigned.  src/pyoperators/iterative/criterions.py:67-71. -/
noncomputable def huberInt (delta : ℝ) (t : Int) : Int :=
  if |(t : ℝ)| < delta then t.natAbs ^ 2 else
    let v := 2 * delta * |(t : ℝ)| - delta ^ 2
    if 0 ≤ v then ⌊v⌋ else ⌈v⌉

/-- **C76, partial.** The Huber norm of integers is exact if delta is an integer.  Missing from the full property: the other values of delta
(`C76_integers_fails`). -/
theorem C76_integers_partial (delta t : Int) : (huberInt delta t : ℝ) = huber delta t := by
  unfold huberInt huber
  split
  · push_cast
    rfl
  · have e : 2 * (delta : ℝ) * |(t : ℝ)| - (delta : ℝ) ^ 2 = ((2 * delta * |t| - delta ^ 2 : Int) : ℝ) := by push_cast; ring
    simp only [e, Int.floor_intCast, Int.ceil_intCast, ite_self]

example : huberInt 2 1 = 1 ∧ huberInt 2 (-3) = 8 := by
  constructor <;> norm_num [huberInt]

/-- **C76** The Huber norm of integers is truncated: it is zero for 1 and delta = 1/2. -/
theorem C76_integers_fails : huberInt (1 / 2) 1 = 0 ∧ huber (1 / 2) 1 = 3 / 4 := by
  constructor
  · norm_num [huberInt]
  · norm_num [huber]

/-- **C76** Data of one dimension are accepted if they have as many elements as the output of the operator, and only then. -/
theorem C76_data_partial (s : List Nat) (d : Nat) : acceptsData (some s) [d] = true ↔ d = s.prod := by
  simp [acceptsData]

example : acceptsData (some [4]) [4] = true ∧ acceptsData (some [4]) [3] = false := ⟨rfl, by decide⟩

/-- **C76** The data must have one dimension: those that have the shape of the output of the operator are refused if it has two dimensions or
none, or if the operator is implicit, and data that have not its shape are accepted. -/
theorem C76_data_fails : (∀ s, (acceptsData (some s) s = true ↔ s.length = 1)) ∧ (∀ s, acceptsData none s = false) ∧
    acceptsData (some [2, 3]) [6] = true := by
  refine ⟨fun s => ?_, fun s => ?_, rfl⟩
  · match s with
    | [] => simp [acceptsData]
    | [d] => simp [acceptsData]
    | a :: b :: s => simp [acceptsData]
  · match s with
    | [] => rfl
    | [d] => rfl
    | a :: b :: s => rfl

/-- `np.all(x == self.last_x)` for arrays with one dimension: the comparison broadcasts its operands.  If it cannot, it is false or an
error, according to the version of NumPy. -/
def sameList (x : List Int) : Option (List Int) → Bool
  | none => x.isEmpty
  | some y =>
    if x.length = y.length then x == y
    else
      match x, y with
      | [a], _ => y.all (· == a)
      | _, [a] => x.all (· == a)
      | _, _ => false

/-- **C76** For an implicit operator, the value for an array is also returned for an array of another shape: the criterion of 2 x for (1, 1, 1)
is also returned for (1). -/
theorem C76_cache_fails :
    (load sameList (fun x => x.map (2 * ·)) (load sameList (fun x => x.map (2 * ·)) none [1, 1, 1]).1 [1]).2 = some [2, 2, 2] := rfl

/-- **C76** The criterion of an empty array is an error: it is taken for the last one. -/
theorem C76_empty_fails (es : List (Element 0)) (e : Element 0) : (call (create (e :: es)) ![]).2 = none := by
  simp [create, call, Element.call, load, same]

/-- **C76** The priors that have no parameter are ignored, without an error. -/
theorem C76_priors_fails (model : Matrix (Fin m) (Fin n) ℝ) (data : Fin m → ℝ) (priors : List (Prior n)) :
    quadratic model data [] priors = quadratic model data [] [] := rfl

/-! ### Examples -/

/-- A least squares problem with a Huber prior. -/
noncomputable def problem : List (Element 2) :=
  [⟨3, norm2 none, !![1, 0; 1, 1; 0, 2], some ![1, 2, 3]⟩, (⟨2, huberNorm (1 / 2), 1, none⟩ : Element 2).mul 3]

example (calls : List (Call 2)) (x : Fin 2 → ℝ) : ∃ g, (diff (calls.foldl after (create problem)) x).2 = some g ∧
    IsGradient (fun x => (problem.map fun e => e.norm.call (e.minusData (e.op *ᵥ x))).sum) x g :=
  C76_gradient (by decide) problem calls x (by
    intro e he
    simp only [problem, List.mem_cons, List.not_mem_nil, or_false] at he
    rcases he with rfl | rfl
    · exact (C76_norms_partial _).1
    · exact (C76_norms_partial _).2.2.2.2 _ 3 ((C76_norms_partial _).2.2.1 (1 / 2) (by norm_num)))

/-- The value at 0 of (x - 1)² + (2 x - 2)² + 10 (3 x)², and at 1. -/
example : value (quadratic !![1; 2] ![1, 2] [10] [⟨1, !![3]⟩]) ![0] = 5 ∧ value (quadratic !![1; 2] ![1, 2] [10] [⟨1, !![3]⟩]) ![1] = 90 := by
  constructor
  · rw [C76_quadratic _ _ _ _ rfl]
    simp [Fin.sum_univ_two, Matrix.mulVec, dotProduct]
    norm_num
  · rw [C76_quadratic _ _ _ _ rfl]
    simp [Fin.sum_univ_two, Matrix.mulVec, dotProduct]
    norm_num

end Verif.Criterions
