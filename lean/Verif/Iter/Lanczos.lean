import Verif.Iter.ControlProps
import Verif.Linear.Eigen
import Mathlib.LinearAlgebra.Matrix.Rank
import Mathlib.LinearAlgebra.Span.Basic
import Mathlib.Analysis.Matrix.Spectrum
import Mathlib.Tactic.LinearCombination

/-
Model of the Lanczos algorithm: src/pyoperators/iterative/lanczos.py:9-99 (`LanczosAlgorithm`), in exact real arithmetic, and property C75.

An array or a number that contains NaN is `none`: NaN appears through divisions by zero and propagates.
-/

namespace Verif.Lanczos

open Matrix Verif.Eigen Verif.Iter

/-- The problem and the parameters: src/pyoperators/iterative/lanczos.py:41-47.  v0 is the array given by the user, or the random
vector. -/
structure Lanczos (n : Nat) where
  A : Matrix (Fin n) (Fin n) ℝ
  v0 : Fin n → ℝ
  maxiter : Nat

/-- The attributes.  The arrays have maxiter elements (maxiter + 1 for the vectors).  `count` is niterations. -/
structure LanczosState (n : Nat) where
  count : Nat
  alpha : Nat → Option ℝ
  beta : Nat → Option ℝ
  vectors : Nat → Option (Fin n → ℝ)

variable {n : Nat}

/-- `self.norm`: src/pyoperators/iterative/lanczos.py:44. -/
noncomputable def norm (x : Fin n → ℝ) : ℝ := √(x ⬝ᵥ x)

open Classical in
/-- `x /= c` -/
noncomputable def divide (x : Fin n → ℝ) (c : ℝ) : Option (Fin n → ℝ) := if c = 0 then none else some fun i => x i / c

/-- `initialize`: src/pyoperators/iterative/lanczos.py:54-63. -/
noncomputable def Lanczos.setup (p : Lanczos n) (s : LanczosState n) : LanczosState n × Signal :=
  ({ count := 0, alpha := fun _ => some 0, beta := fun _ => some 0
     vectors := Function.update s.vectors 0 (divide p.v0 (norm p.v0)) }, .go)

/-- The contents of the array v0 of the user after `initialize`: `ravel` returns a view of a contiguous array, which is divided in place.
src/pyoperators/iterative/lanczos.py:60-61. -/
noncomputable def Lanczos.userArray (p : Lanczos n) : Option (Fin n → ℝ) := divide p.v0 (norm p.v0)

/-- The vector after the first orthogonalisation: src/pyoperators/iterative/lanczos.py:65-73. -/
noncomputable def Lanczos.first (p : Lanczos n) (s : LanczosState n) (k : Nat) : Option (Fin n → ℝ) :=
  (s.vectors (k - 1)).bind fun v =>
    if 1 < k then
      (s.beta (k - 2)).bind fun b => (s.vectors (k - 2)).map fun u => p.A *ᵥ v - b • u
    else some (p.A *ᵥ v)

/-- `iteration`: src/pyoperators/iterative/lanczos.py:65-82. -/
noncomputable def Lanczos.iteration (p : Lanczos n) (s : LanczosState n) : LanczosState n × Signal :=
  let k := s.count + 1
  let v := s.vectors (k - 1)
  let vnew := p.first s k
  let alpha := vnew.bind fun x => v.map fun y => x ⬝ᵥ y
  let vnew := vnew.bind fun x => alpha.bind fun a => v.map fun y => x - a • y
  let beta := vnew.map norm
  let vnew := vnew.bind fun x => beta.bind fun b => divide x b
  ({ count := k, alpha := Function.update s.alpha (k - 1) alpha, beta := Function.update s.beta (k - 1) beta
     vectors := Function.update s.vectors k vnew }, .go)

/-- The algorithm: src/pyoperators/iterative/lanczos.py:45-47.  There is no recursion variable. -/
noncomputable def Lanczos.algo (p : Lanczos n) : Algo (LanczosState n) :=
  { order := 1, reuse := false, setup := p.setup, iteration := p.iteration, update := id
    normal := (Cond.maxIteration p.maxiter).holds, abnormal := Cond.none.holds }

/-- The elements of an array, if none is NaN. -/
def noNan {α : Type} (a : Nat → Option α) : (m : Nat) → Option (Fin m → α)
  | 0 => some fun i => i.elim0
  | m + 1 => (noNan a m).bind fun f => (a m).map fun x => Fin.snoc (α := fun _ => α) f x

/-- The matrix of `TridiagonalOperator(self.alpha, self.beta[:-1])`: src/pyoperators/iterative/lanczos.py:90. -/
def tridiagonal {m : Nat} (alpha : Fin m → ℝ) (beta : Nat → ℝ) : Matrix (Fin m) (Fin m) ℝ := fun i j =>
  if i = j then alpha i else if (i : Nat) + 1 = j then beta i else if (j : Nat) + 1 = i then beta j else 0

/-- The eigendecomposition given by `T.toband().eigen()`, which is that of LAPACK, is exact. -/
structure IsEigen {m : Nat} (T : Matrix (Fin m) (Fin m) ℝ) (U : Matrix (Fin m) (Fin m) ℝ) (w : Fin m → ℝ) : Prop where
  orthogonal : Uᵀ * U = 1
  eq : T = U * diagonal w * Uᵀ

/-- `finalize`: src/pyoperators/iterative/lanczos.py:84-99, where U and w are the eigenvectors and eigenvalues of the tridiagonal matrix;
`none` is the ValueError raised if its elements or the vectors are NaN. -/
def Lanczos.finalize (p : Lanczos n) (s : LanczosState n)
    (eigen : Matrix (Fin p.maxiter) (Fin p.maxiter) ℝ → Matrix (Fin p.maxiter) (Fin p.maxiter) ℝ × (Fin p.maxiter → ℝ)) :
    Option (Eigen n p.maxiter) :=
  (noNan s.alpha p.maxiter).bind fun alpha =>
    (noNan s.beta (p.maxiter - 1)).bind fun beta =>
      (noNan s.vectors p.maxiter).map fun vectors =>
        let (U, w) := eigen (tridiagonal alpha fun j => if h : j < p.maxiter - 1 then beta ⟨j, h⟩ else 0)
        ⟨fun i l => ∑ j, vectors j i * U j l, w⟩

/-! ### Proofs -/

theorem noNan_some {α : Type} {a : Nat → Option α} : ∀ {m : Nat} {f : Fin m → α}, noNan a m = some f → ∀ j : Fin m, a j = some (f j)
  | 0, _, _, j => j.elim0
  | m + 1, f, h, j => by
    obtain ⟨g, hg, h⟩ := Option.bind_eq_some_iff.1 h
    obtain ⟨x, hx, rfl⟩ := Option.map_eq_some_iff.1 h
    refine Fin.lastCases ?_ (fun i => ?_) j
    · simpa using hx
    · simpa using noNan_some hg i

theorem noNan_of {α : Type} {a : Nat → Option α} : ∀ {m : Nat}, (∀ j < m, (a j).isSome) → ∃ f, noNan a m = some f
  | 0, _ => ⟨_, rfl⟩
  | m + 1, h => by
    obtain ⟨f, hf⟩ := noNan_of (a := a) (m := m) fun j hj => h j (by omega)
    obtain ⟨x, hx⟩ := Option.isSome_iff_exists.1 (h m (by omega))
    exact ⟨Fin.snoc (α := fun _ => α) f x, by simp [noNan, hf, hx]⟩

/-- The state after k iterations. -/
noncomputable def Lanczos.state (p : Lanczos n) (s : LanczosState n) : Nat → LanczosState n
  | 0 => (p.setup s).1
  | k + 1 => (p.iteration (p.state s k)).1

theorem state_count (p : Lanczos n) (s : LanczosState n) (k : Nat) : (p.state s k).count = k := by
  induction k with
  | zero => rfl
  | succ k ih => show (p.state s k).count + 1 = k + 1; rw [ih]

theorem after_state (p : Lanczos n) (s : LanczosState n) (k : Nat) :
    p.algo.after ⟨0, (p.setup s).1⟩ k = ⟨k, p.state s k⟩ := by
  induction k with
  | zero => rfl
  | succ k ih => rw [after_add, ih]; rfl

theorem run_state (p : Lanczos n) (s : LanczosState n) (h : p.maxiter < maxInt) :
    p.algo.run none ⟨0, s⟩ = (⟨p.maxiter, p.state s p.maxiter⟩, .returned) := by
  have hst : p.algo.Starts ⟨0, s⟩ ⟨0, (p.setup s).1⟩ := Or.inl ⟨rfl, rfl, rfl⟩
  have hn := C40_normal p.algo ⟨0, s⟩ ⟨0, (p.setup s).1⟩ maxInt p.maxiter hst h
    (fun j hj => by
      rw [after_state]
      refine ⟨?_, rfl, rfl⟩
      simp [Lanczos.algo, Cond.holds]
      omega)
    (by rw [after_state]; simp [Lanczos.algo, Cond.holds])
  rw [after_state] at hn
  show catchStop (p.algo.next maxInt ⟨0, s⟩) = _
  rw [hn]
  rfl

/-- Later iterations do not change what has been written. -/
theorem state_keeps (p : Lanczos n) (s : LanczosState n) {j k : Nat} (h : j ≤ k) :
    (p.state s k).vectors j = (p.state s j).vectors j ∧
      ∀ i < j, (p.state s k).alpha i = (p.state s j).alpha i ∧ (p.state s k).beta i = (p.state s j).beta i := by
  induction k with
  | zero => obtain rfl : j = 0 := by omega
            exact ⟨rfl, fun i hi => by omega⟩
  | succ k ih =>
    rcases Nat.lt_or_ge k j with h' | h'
    · obtain rfl : j = k + 1 := by omega
      exact ⟨rfl, fun i hi => ⟨rfl, rfl⟩⟩
    · obtain ⟨h1, h2⟩ := ih h'
      have hc := state_count p s k
      refine ⟨?_, fun i hi => ⟨?_, ?_⟩⟩
      · rw [← h1]
        show Function.update _ ((p.state s k).count + 1) _ j = _
        rw [Function.update_of_ne (by omega)]
      · rw [← (h2 i hi).1]
        show Function.update _ ((p.state s k).count + 1 - 1) _ i = _
        rw [Function.update_of_ne (by omega)]
      · rw [← (h2 i hi).2]
        show Function.update _ ((p.state s k).count + 1 - 1) _ i = _
        rw [Function.update_of_ne (by omega)]

theorem divide_some {x y : Fin n → ℝ} {c : ℝ} (h : divide x c = some y) : c ≠ 0 ∧ x = c • y := by
  unfold divide at h
  split at h
  · simp at h
  · next hc =>
    refine ⟨hc, ?_⟩
    simp only [Option.some.injEq] at h
    subst h
    funext i
    simp only [Pi.smul_apply, smul_eq_mul]
    field_simp

theorem norm_sq (x : Fin n → ℝ) : norm x * norm x = x ⬝ᵥ x :=
  Real.mul_self_sqrt (Finset.sum_nonneg fun i _ => mul_self_nonneg (x i))

theorem norm_nonneg (x : Fin n → ℝ) : 0 ≤ norm x := Real.sqrt_nonneg _

theorem unit_of {x y : Fin n → ℝ} (h : norm x ≠ 0) (hy : x = norm x • y) : y ⬝ᵥ y = 1 := by
  have h1 := norm_sq x
  have h2 : x ⬝ᵥ x = norm x * norm x * (y ⬝ᵥ y) := by
    conv_lhs => rw [hy]
    rw [smul_dotProduct, dotProduct_smul, smul_eq_mul, smul_eq_mul, mul_assoc]
  rw [h2] at h1
  have h3 : norm x * norm x ≠ 0 := mul_ne_zero h h
  exact (mul_left_cancel₀ h3 (by rw [mul_one]; exact h1)).symm

/-- What is subtracted from A q in the first orthogonalisation. -/
def before (q : Nat → Fin n → ℝ) (b : Nat → ℝ) : Nat → Fin n → ℝ
  | 0 => 0
  | k + 1 => b k • q k

/-- The relations between the vectors and the coefficients. -/
structure Recurrence (A : Matrix (Fin n) (Fin n) ℝ) (m : Nat) (q : Nat → Fin n → ℝ) (a b : Nat → ℝ) : Prop where
  unit : ∀ k < m, q k ⬝ᵥ q k = 1
  diag : ∀ k < m, a k = (A *ᵥ q k - before q b k) ⬝ᵥ q k
  pos : ∀ k, k + 1 < m → 0 < b k
  next : ∀ k, k + 1 < m → A *ᵥ q k - before q b k - a k • q k = b k • q (k + 1)

theorem first_eq {p : Lanczos n} {s : LanczosState n} {q : Nat → Fin n → ℝ} {b : Nat → ℝ} {k : Nat}
    (hq : ∀ j ≤ k, s.vectors j = some (q j)) (hb : ∀ j < k, s.beta j = some (b j)) :
    p.first s (k + 1) = some (p.A *ᵥ q k - before q b k) := by
  cases k with
  | zero => simp [Lanczos.first, hq 0 (le_refl _), before]
  | succ k =>
    simp [Lanczos.first, hq (k + 1) (le_refl _), hq k (by omega), hb k (by omega), before]

/-- The values written by an iteration. -/
theorem iteration_eq {p : Lanczos n} {s : LanczosState n} {q : Nat → Fin n → ℝ} {b : Nat → ℝ} {k : Nat}
    (hc : s.count = k) (hq : ∀ j ≤ k, s.vectors j = some (q j)) (hb : ∀ j < k, s.beta j = some (b j)) :
    (p.iteration s).1.alpha k = some ((p.A *ᵥ q k - before q b k) ⬝ᵥ q k) ∧
    (p.iteration s).1.beta k = some (norm (p.A *ᵥ q k - before q b k - ((p.A *ᵥ q k - before q b k) ⬝ᵥ q k) • q k)) ∧
    (p.iteration s).1.vectors (k + 1) =
      divide (p.A *ᵥ q k - before q b k - ((p.A *ᵥ q k - before q b k) ⬝ᵥ q k) • q k)
        (norm (p.A *ᵥ q k - before q b k - ((p.A *ᵥ q k - before q b k) ⬝ᵥ q k) • q k)) := by
  subst hc
  have h1 := first_eq (p := p) hq hb
  have h2 := hq _ (le_refl _)
  simp only [Lanczos.iteration, Nat.add_sub_cancel, Function.update_self, h1, h2, Option.bind_some, Option.map_some, and_self]

/-- The arrays at the end satisfy the recurrence if they do not contain NaN. -/
theorem recurrence {p : Lanczos n} {s : LanczosState n} {m : Nat} {q : Nat → Fin n → ℝ} {a b : Nat → ℝ}
    (hq : ∀ j < m, (p.state s m).vectors j = some (q j)) (ha : ∀ j < m, (p.state s m).alpha j = some (a j))
    (hb : ∀ j < m - 1, (p.state s m).beta j = some (b j)) :
    Recurrence p.A m q a b ∧ (0 < m → norm p.v0 ≠ 0 ∧ p.v0 = norm p.v0 • q 0) := by
  have h0 : 0 < m → norm p.v0 ≠ 0 ∧ p.v0 = norm p.v0 • q 0 := by
    intro hm
    have := hq 0 hm
    rw [(state_keeps p s (Nat.zero_le m)).1] at this
    exact divide_some this
  have step : ∀ k < m, a k = (p.A *ᵥ q k - before q b k) ⬝ᵥ q k ∧ (k + 1 < m →
      b k = norm (p.A *ᵥ q k - before q b k - a k • q k) ∧ b k ≠ 0 ∧ p.A *ᵥ q k - before q b k - a k • q k = b k • q (k + 1)) := by
    intro k hk
    have hq' : ∀ j ≤ k, (p.state s k).vectors j = some (q j) := fun j hj => by
      rw [(state_keeps p s hj).1, ← (state_keeps p s (show j ≤ m by omega)).1]
      exact hq j (by omega)
    have hb' : ∀ j < k, (p.state s k).beta j = some (b j) := fun j hj => by
      rw [← ((state_keeps p s (show k ≤ m by omega)).2 j hj).2]
      exact hb j (by omega)
    obtain ⟨e1, e2, e3⟩ := iteration_eq (p := p) (state_count p s k) hq' hb'
    have k1 := state_keeps p s (show k + 1 ≤ m by omega)
    have ea : a k = (p.A *ᵥ q k - before q b k) ⬝ᵥ q k := by
      have := ha k hk
      rw [(k1.2 k (by omega)).1] at this
      exact Option.some.inj (this.symm.trans e1)
    refine ⟨ea, fun hk' => ?_⟩
    rw [← ea] at e2 e3
    have eb : b k = norm (p.A *ᵥ q k - before q b k - a k • q k) := by
      have := hb k (by omega)
      rw [(k1.2 k (by omega)).2] at this
      exact Option.some.inj (this.symm.trans e2)
    have := hq (k + 1) hk'
    rw [k1.1] at this
    have := divide_some (e3.symm.trans this)
    rw [← eb] at this
    exact ⟨eb, this⟩
  refine ⟨⟨?_, fun k hk => (step k hk).1, fun k hk => ?_, fun k hk => ((step k (by omega)).2 hk).2.2⟩, h0⟩
  · intro k hk
    cases k with
    | zero => exact unit_of (h0 hk).1 (h0 hk).2
    | succ k =>
      obtain ⟨e1, e2, e3⟩ := (step k (by omega)).2 hk
      rw [e1] at e2 e3
      exact unit_of e2 e3
  · obtain ⟨e1, e2, -⟩ := (step k (by omega)).2 hk
    exact lt_of_le_of_ne (e1 ▸ norm_nonneg _) (Ne.symm e2)

/-! ### The linear algebra -/

section
variable {A : Matrix (Fin n) (Fin n) ℝ} {m : Nat} {q : Nat → Fin n → ℝ} {a b : Nat → ℝ}

theorem symm_dot (hA : A.IsSymm) (x y : Fin n → ℝ) : x ⬝ᵥ A *ᵥ y = y ⬝ᵥ A *ᵥ x := by
  rw [dotProduct_mulVec, ← mulVec_transpose, hA.eq, dotProduct_comm]

/-- The product of A and a vector that is not the last one. -/
theorem Recurrence.mul (r : Recurrence A m q a b) {k : Nat} (h : k + 1 < m) :
    A *ᵥ q k = b k • q (k + 1) + before q b k + a k • q k := by
  rw [← r.next k h]; abel

theorem before_dot {q : Nat → Fin n → ℝ} {b : Nat → ℝ} {k j : Nat} (h : ∀ i < k, q i ⬝ᵥ q j = if i = j then 1 else 0) :
    before q b k ⬝ᵥ q j = if j + 1 = k then b j else 0 := by
  cases k with
  | zero => simp [before]
  | succ k =>
    rw [before, smul_dotProduct, h k (by omega)]
    by_cases e : k = j
    · subst e; simp
    · rw [if_neg e, if_neg (by omega), smul_zero]

theorem Recurrence.orthonormal (r : Recurrence A m q a b) (hA : A.IsSymm) :
    ∀ k < m, ∀ i ≤ k, ∀ j ≤ k, q i ⬝ᵥ q j = if i = j then 1 else 0 := by
  intro k
  induction k with
  | zero =>
    intro hk i hi j hj
    obtain rfl : i = 0 := by omega
    obtain rfl : j = 0 := by omega
    rw [if_pos rfl, r.unit 0 hk]
  | succ k ih =>
    intro hk
    have ih := ih (by omega)
    have key : ∀ i ≤ k, q (k + 1) ⬝ᵥ q i = 0 := by
      intro i hi
      have hb := r.pos k hk
      have h1 := congrArg (fun x => x ⬝ᵥ q i) (r.next k hk)
      simp only [sub_dotProduct, smul_dotProduct, smul_eq_mul] at h1
      rcases Nat.lt_or_ge i k with hik | hik
      · have h2 : A *ᵥ q k ⬝ᵥ q i = if i + 1 = k then b i else 0 := by
          rw [dotProduct_comm, symm_dot hA, r.mul (by omega), dotProduct_add, dotProduct_add, dotProduct_smul, dotProduct_smul,
            dotProduct_comm (q k) (before q b i), before_dot (fun l hl => ih l (by omega) k (le_refl _)),
            ih k (le_refl _) (i + 1) (by omega), ih k (le_refl _) i hi, if_neg (show ¬ (k + 1 = i) by omega),
            if_neg (show ¬ (k = i) by omega)]
          by_cases e : i + 1 = k
          · rw [if_pos e, if_pos e.symm]; simp
          · rw [if_neg e, if_neg (Ne.symm e)]; simp
        rw [h2, before_dot (fun l hl => ih l (by omega) i hi), ih k (le_refl _) i hi, if_neg (show ¬ (k = i) by omega)] at h1
        have : b k * (q (k + 1) ⬝ᵥ q i) = 0 := by rw [← h1]; ring
        exact (mul_eq_zero.1 this).resolve_left hb.ne'
      · obtain rfl : i = k := by omega
        have h2 := r.diag i (by omega)
        rw [sub_dotProduct] at h2
        rw [r.unit i (by omega)] at h1
        have : b i * (q (i + 1) ⬝ᵥ q i) = 0 := by rw [← h1, h2]; ring
        exact (mul_eq_zero.1 this).resolve_left hb.ne'
    intro i hi j hj
    rcases Nat.lt_or_ge i (k + 1) with hi' | hi' <;> rcases Nat.lt_or_ge j (k + 1) with hj' | hj'
    · exact ih i (by omega) j (by omega)
    · obtain rfl : j = k + 1 := by omega
      rw [dotProduct_comm, key i (by omega), if_neg (by omega)]
    · obtain rfl : i = k + 1 := by omega
      rw [key j (by omega), if_neg (by omega)]
    · obtain rfl : i = k + 1 := by omega
      obtain rfl : j = k + 1 := by omega
      rw [r.unit _ hk, if_pos rfl]

theorem Recurrence.ortho (r : Recurrence A m q a b) (hA : A.IsSymm) {i j : Nat} (hi : i < m) (hj : j < m) :
    q i ⬝ᵥ q j = if i = j then 1 else 0 :=
  r.orthonormal hA (max i j) (by omega) i (le_max_left _ _) j (le_max_right _ _)

/-- The vectors as the columns of a matrix. -/
def columns (m : Nat) (q : Nat → Fin n → ℝ) : Matrix (Fin n) (Fin m) ℝ := fun i j => q j i

theorem Recurrence.columns_orthonormal (r : Recurrence A m q a b) (hA : A.IsSymm) : (columns m q)ᵀ * columns m q = 1 := by
  ext i j
  have := r.ortho hA i.2 j.2
  rw [Matrix.one_apply]
  simp only [Fin.ext_iff]
  exact this

theorem Recurrence.upper (r : Recurrence A m q a b) (hA : A.IsSymm) {i j : Nat} (hij : i < j) (hj : j < m) :
    q j ⬝ᵥ A *ᵥ q i = if i + 1 = j then b i else 0 := by
  rw [r.mul (by omega), dotProduct_add, dotProduct_add, dotProduct_smul, dotProduct_smul, dotProduct_comm (q j) (before q b i),
    before_dot (fun l hl => r.ortho hA (by omega) hj), r.ortho hA hj (by omega), r.ortho hA hj (by omega),
    if_neg (show ¬ (j + 1 = i) by omega), if_neg (show ¬ (j = i) by omega)]
  by_cases e : i + 1 = j
  · rw [if_pos e, if_pos e.symm]; simp
  · rw [if_neg e, if_neg (Ne.symm e)]; simp

theorem Recurrence.compressed (r : Recurrence A m q a b) (hA : A.IsSymm) :
    (columns m q)ᵀ * (A * columns m q) = tridiagonal (fun i : Fin m => a i) b := by
  ext i j
  have h : ((columns m q)ᵀ * (A * columns m q)) i j = q i ⬝ᵥ A *ᵥ q j := rfl
  rw [h]
  unfold tridiagonal
  rcases Nat.lt_trichotomy i j with hij | hij | hij
  · rw [if_neg (by simp only [Fin.ext_iff]; omega), symm_dot hA, r.upper hA hij j.2]
    rw [if_neg (show ¬ ((j : Nat) + 1 = i) by omega)]
  · obtain rfl := Fin.ext hij
    rw [if_pos rfl]
    show _ = a i
    rw [r.diag i i.2, sub_dotProduct, before_dot (fun l hl => r.ortho hA (by omega) i.2), if_neg (by omega),
      dotProduct_comm, sub_zero]
  · rw [if_neg (by simp only [Fin.ext_iff]; omega), r.upper hA hij i.2, if_neg (show ¬ ((i : Nat) + 1 = j) by omega)]

theorem Recurrence.project (r : Recurrence A m q a b) (hA : A.IsSymm) {j : Nat} (hj : j < m) :
    (columns m q * (columns m q)ᵀ) *ᵥ q j = q j := by
  have h1 : q j = columns m q *ᵥ Pi.single (⟨j, hj⟩ : Fin m) 1 := by
    rw [mulVec_single_one]; rfl
  rw [h1, mulVec_mulVec, Matrix.mul_assoc, r.columns_orthonormal hA, Matrix.mul_one]

/-- The span of the first vectors. -/
def Q (q : Nat → Fin n → ℝ) (k : Nat) : Submodule ℝ (Fin n → ℝ) := Submodule.span ℝ {x | ∃ j < k, x = q j}

theorem mem_Q {k j : Nat} (h : j < k) : q j ∈ Q q k := Submodule.subset_span ⟨j, h, rfl⟩

theorem Q_mono {k l : Nat} (h : k ≤ l) : Q q k ≤ Q q l := Submodule.span_mono fun _ ⟨j, hj, e⟩ => ⟨j, by omega, e⟩

theorem before_mem (q : Nat → Fin n → ℝ) (b : Nat → ℝ) (k : Nat) : before q b k ∈ Q q k := by
  cases k with
  | zero => exact Submodule.zero_mem _
  | succ k => exact Submodule.smul_mem _ _ (mem_Q (by omega))

theorem Recurrence.maps (r : Recurrence A m q a b) {k : Nat} (hk : k < m) {x : Fin n → ℝ} (hx : x ∈ Q q k) :
    A *ᵥ x ∈ Q q (k + 1) := by
  induction hx using Submodule.span_induction with
  | mem x h =>
    obtain ⟨j, hj, rfl⟩ := h
    rw [r.mul (by omega)]
    exact Submodule.add_mem _ (Submodule.add_mem _ (Submodule.smul_mem _ _ (mem_Q (by omega)))
      (Q_mono (by omega) (before_mem q b j))) (Submodule.smul_mem _ _ (mem_Q (by omega)))
  | zero => rw [mulVec_zero]; exact Submodule.zero_mem _
  | add x y _ _ h1 h2 => rw [mulVec_add]; exact Submodule.add_mem _ h1 h2
  | smul c x _ h => rw [mulVec_smul]; exact Submodule.smul_mem _ _ h

theorem Recurrence.fixed (r : Recurrence A m q a b) (hA : A.IsSymm) {x : Fin n → ℝ} (hx : x ∈ Q q m) :
    (columns m q * (columns m q)ᵀ) *ᵥ x = x := by
  induction hx using Submodule.span_induction with
  | mem x h => obtain ⟨j, hj, rfl⟩ := h; exact r.project hA hj
  | zero => rw [mulVec_zero]
  | add x y _ _ h1 h2 => rw [mulVec_add, h1, h2]
  | smul c x _ h => rw [mulVec_smul, h]

/-- A vector orthogonal to the first vectors is orthogonal to their span. -/
theorem Recurrence.orthogonal (r : Recurrence A m q a b) (hA : A.IsSymm) {k : Nat} (hk : k < m) {x : Fin n → ℝ} (hx : x ∈ Q q k) :
    q k ⬝ᵥ x = 0 := by
  induction hx using Submodule.span_induction with
  | mem x h => obtain ⟨j, hj, rfl⟩ := h; rw [r.ortho hA hk (by omega), if_neg (by omega)]
  | zero => rw [dotProduct_zero]
  | add x y _ _ h1 h2 => rw [dotProduct_add, h1, h2, add_zero]
  | smul c x _ h => rw [dotProduct_smul, h, smul_zero]

end

/-- The vectors v, A v, A (A v) and so on. -/
def krylov (A : Matrix (Fin n) (Fin n) ℝ) (v : Fin n → ℝ) : Nat → Fin n → ℝ
  | 0 => v
  | k + 1 => A *ᵥ krylov A v k

section
variable {A : Matrix (Fin n) (Fin n) ℝ} {m : Nat} {q : Nat → Fin n → ℝ} {a b : Nat → ℝ} {v : Fin n → ℝ} {c : ℝ}

theorem Recurrence.krylov_mem (r : Recurrence A m q a b) (hv : v = c • q 0) :
    ∀ k < m, krylov A v k ∈ Q q (k + 1)
  | 0, _ => by rw [krylov, hv]; exact Submodule.smul_mem _ _ (mem_Q (by omega))
  | k + 1, h => r.maps h (r.krylov_mem hv k (by omega))

theorem krylov_maps {A : Matrix (Fin n) (Fin n) ℝ} {v : Fin n → ℝ} {k : Nat} {x : Fin n → ℝ} (hx : x ∈ Q (krylov A v) k) :
    A *ᵥ x ∈ Q (krylov A v) (k + 1) := by
  induction hx using Submodule.span_induction with
  | mem x h => obtain ⟨j, hj, rfl⟩ := h; exact mem_Q (q := krylov A v) (j := j + 1) (by omega)
  | zero => rw [mulVec_zero]; exact Submodule.zero_mem _
  | add x y _ _ h1 h2 => rw [mulVec_add]; exact Submodule.add_mem _ h1 h2
  | smul c x _ h => rw [mulVec_smul]; exact Submodule.smul_mem _ _ h

end

/-- A vector is the k-th one, up to a factor, and a combination of the previous ones. -/
def Leads (u : Nat → Fin n → ℝ) (k : Nat) (x : Fin n → ℝ) : Prop := ∃ g : ℝ, g ≠ 0 ∧ ∃ y ∈ Q u k, x = g • u k + y

theorem Leads.mem {u : Nat → Fin n → ℝ} {k : Nat} {x : Fin n → ℝ} (h : Leads u k x) : x ∈ Q u (k + 1) := by
  obtain ⟨g, -, y, hy, rfl⟩ := h
  exact Submodule.add_mem _ (Submodule.smul_mem _ _ (mem_Q (by omega))) (Q_mono (by omega) hy)

/-- One iteration, for the vector before it is normalised. -/
theorem leads_next {A : Matrix (Fin n) (Fin n) ℝ} {v : Fin n → ℝ} {q : Nat → Fin n → ℝ} {b : Nat → ℝ} {k : Nat} (c : ℝ)
    (h : ∀ j ≤ k, Leads (krylov A v) j (q j)) : Leads (krylov A v) (k + 1) (A *ᵥ q k - before q b k - c • q k) := by
  obtain ⟨g, hg, y, hy, e⟩ := h k (le_refl _)
  refine ⟨g, hg, A *ᵥ y - before q b k - c • q k, ?_, ?_⟩
  · refine Submodule.sub_mem _ (Submodule.sub_mem _ (krylov_maps hy) ?_) (Submodule.smul_mem _ _ (h k (le_refl _)).mem)
    cases k with
    | zero => exact Submodule.zero_mem _
    | succ k => exact Submodule.smul_mem _ _ (Q_mono (by omega) (h k (by omega)).mem)
  · conv_lhs => enter [1, 1]; rw [e, mulVec_add, mulVec_smul]
    show g • krylov A v (k + 1) + A *ᵥ y - before q b k - c • q k = _
    abel

theorem Leads.scale {u : Nat → Fin n → ℝ} {k : Nat} {x : Fin n → ℝ} {c : ℝ} (hc : c ≠ 0) (h : Leads u k (c • x)) : Leads u k x := by
  obtain ⟨g, hg, y, hy, e⟩ := h
  refine ⟨c⁻¹ * g, mul_ne_zero (inv_ne_zero hc) hg, c⁻¹ • y, Submodule.smul_mem _ _ hy, ?_⟩
  have := congrArg (fun z => c⁻¹ • z) e
  simp only [smul_smul, inv_mul_cancel₀ hc, one_smul, smul_add] at this
  exact this

theorem Recurrence.leads {A : Matrix (Fin n) (Fin n) ℝ} {m : Nat} {q : Nat → Fin n → ℝ} {a b : Nat → ℝ} {v : Fin n → ℝ} {c : ℝ}
    (r : Recurrence A m q a b) (hc : c ≠ 0) (hv : v = c • q 0) : ∀ k < m, ∀ j ≤ k, Leads (krylov A v) j (q j) := by
  intro k
  induction k with
  | zero =>
    intro _ j hj
    obtain rfl : j = 0 := by omega
    exact ⟨c⁻¹, inv_ne_zero hc, 0, Submodule.zero_mem _, by rw [krylov, hv, smul_smul, inv_mul_cancel₀ hc, one_smul, add_zero]⟩
  | succ k ih =>
    intro hk j hj
    have ih := ih (by omega)
    rcases Nat.lt_or_ge k j with h | h
    · obtain rfl : j = k + 1 := by omega
      have := leads_next (b := b) (a k) ih
      rw [r.next k hk] at this
      exact this.scale (r.pos k hk).ne'
    · exact ih j h

/-- The vectors v, A v, … of which there are m are linearly independent. -/
def Independent (A : Matrix (Fin n) (Fin n) ℝ) (v : Fin n → ℝ) (m : Nat) : Prop := ∀ k < m, krylov A v k ∉ Q (krylov A v) k

theorem Recurrence.independent {A : Matrix (Fin n) (Fin n) ℝ} {m : Nat} {q : Nat → Fin n → ℝ} {a b : Nat → ℝ} {v : Fin n → ℝ} {c : ℝ}
    (r : Recurrence A m q a b) (hA : A.IsSymm) (hc : c ≠ 0) (hv : v = c • q 0) : Independent A v m := by
  intro k hk hmem
  obtain ⟨g, hg, y, hy, e⟩ := r.leads hc hv k hk k (le_refl _)
  have h1 : q k ∈ Q (krylov A v) k := by
    rw [e]; exact Submodule.add_mem _ (Submodule.smul_mem _ _ hmem) hy
  have h2 : Q (krylov A v) k ≤ Q q k := by
    refine Submodule.span_le.2 ?_
    rintro _ ⟨j, hj, rfl⟩
    exact Q_mono (by omega) (r.krylov_mem hv j (by omega))
  have h3 := r.orthogonal hA hk (h2 h1)
  rw [r.unit k hk] at h3
  exact one_ne_zero h3

theorem divide_of {x : Fin n → ℝ} {c : ℝ} (h : c ≠ 0) : ∃ y, divide x c = some y ∧ x = c • y := by
  refine ⟨fun i => x i / c, by simp [divide, h], ?_⟩
  funext i
  simp only [Pi.smul_apply, smul_eq_mul]
  field_simp

theorem norm_eq_zero {x : Fin n → ℝ} (h : norm x = 0) : x = 0 := by
  have := norm_sq x
  rw [h, zero_mul] at this
  exact dotProduct_self_eq_zero.1 this.symm

/-- As long as the vectors are independent, NaN does not appear. -/
theorem finite {p : Lanczos n} {s : LanczosState n} {m : Nat} (hi : Independent p.A p.v0 m) : ∀ k < m,
    ∃ (q : Nat → Fin n → ℝ) (b : Nat → ℝ), (∀ j ≤ k, (p.state s k).vectors j = some (q j) ∧ Leads (krylov p.A p.v0) j (q j)) ∧
      ∀ j < k, (p.state s k).beta j = some (b j) ∧ ∃ a, (p.state s k).alpha j = some a := by
  intro k
  induction k with
  | zero =>
    intro hm
    have h0 : norm p.v0 ≠ 0 := fun h => hi 0 hm (by
      show p.v0 ∈ _
      rw [norm_eq_zero h]; exact Submodule.zero_mem _)
    obtain ⟨y, hy, e⟩ := divide_of h0
    refine ⟨fun _ => y, fun _ => 0, fun j hj => ?_, fun j hj => by omega⟩
    obtain rfl : j = 0 := by omega
    refine ⟨hy, (norm p.v0)⁻¹, inv_ne_zero h0, 0, Submodule.zero_mem _, ?_⟩
    show y = _ • p.v0 + 0
    have := congrArg (fun z => (norm p.v0)⁻¹ • z) e
    simp only [smul_smul, inv_mul_cancel₀ h0, one_smul] at this
    rw [this, add_zero]
  | succ k ih =>
    intro hm
    obtain ⟨q, b, hq, hb⟩ := ih (by omega)
    obtain ⟨e1, e2, e3⟩ := iteration_eq (p := p) (state_count p s k) (fun j hj => (hq j hj).1) (fun j hj => (hb j hj).1)
    have hl := leads_next (b := b) ((p.A *ᵥ q k - before q b k) ⬝ᵥ q k) (fun j hj => (hq j hj).2)
    set y := p.A *ᵥ q k - before q b k - ((p.A *ᵥ q k - before q b k) ⬝ᵥ q k) • q k with hy
    have hn : norm y ≠ 0 := by
      intro h
      obtain ⟨g, hg, z, hz, e⟩ := hl
      rw [norm_eq_zero h] at e
      refine hi (k + 1) hm ?_
      have : krylov p.A p.v0 (k + 1) = (-g⁻¹) • z := by
        have h2 := congrArg (fun z => g⁻¹ • z) e
        simp only [smul_add, smul_smul, inv_mul_cancel₀ hg, one_smul, smul_zero] at h2
        rw [neg_smul]
        exact eq_neg_of_add_eq_zero_left h2.symm
      rw [this]
      exact Submodule.smul_mem _ _ hz
    obtain ⟨z, hz, ez⟩ := divide_of hn
    rw [hz] at e3
    rw [ez] at hl
    refine ⟨Function.update q (k + 1) z, Function.update b k (norm y), fun j hj => ?_, fun j hj => ?_⟩
    · rcases Nat.lt_or_ge k j with h | h
      · obtain rfl : j = k + 1 := by omega
        rw [Function.update_self]
        exact ⟨e3, hl.scale hn⟩
      · rw [Function.update_of_ne (by omega)]
        refine ⟨?_, (hq j h).2⟩
        rw [(state_keeps p s (show j ≤ k + 1 by omega)).1, ← (state_keeps p s h).1]
        exact (hq j h).1
    · rcases Nat.lt_or_ge j k with h | h
      · rw [Function.update_of_ne (by omega)]
        have h1 := (state_keeps p s (show j + 1 ≤ k + 1 by omega)).2 j (by omega)
        have h2 := (state_keeps p s (show j + 1 ≤ k by omega)).2 j (by omega)
        rw [h1.1, h1.2, ← h2.1, ← h2.2]
        exact hb j h
      · obtain rfl : j = k := by omega
        rw [Function.update_self]
        exact ⟨e2, _, e1⟩

/-! ### C75 -/

/-- The value of `LanczosAlgorithm(A, v0, maxiter).run()`, where s contains the arrays before the call. -/
noncomputable def Lanczos.result (p : Lanczos n) (s : LanczosState n)
    (eigen : Matrix (Fin p.maxiter) (Fin p.maxiter) ℝ → Matrix (Fin p.maxiter) (Fin p.maxiter) ℝ × (Fin p.maxiter → ℝ)) :
    Option (Eigen n p.maxiter) :=
  p.finalize (p.algo.run none ⟨0, s⟩).1.state eigen

/-- The routine for the symmetric matrices is exact. -/
def Exact {m : Nat} (eigen : Matrix (Fin m) (Fin m) ℝ → Matrix (Fin m) (Fin m) ℝ × (Fin m → ℝ)) : Prop :=
  ∀ T, T.IsSymm → IsEigen T (eigen T).1 (eigen T).2

theorem tridiagonal_symm {m : Nat} (alpha : Fin m → ℝ) (beta : Nat → ℝ) : (tridiagonal alpha beta).IsSymm := by
  ext i j
  simp only [transpose_apply, tridiagonal, Fin.ext_iff]
  by_cases h1 : (j : Nat) = i
  · have := Fin.ext h1; subst this; simp
  · rw [if_neg h1, if_neg (Ne.symm h1)]
    by_cases h2 : (j : Nat) + 1 = i
    · rw [if_pos h2, if_neg (by omega), if_pos h2]
    · rw [if_neg h2]
      by_cases h3 : (i : Nat) + 1 = j
      · rw [if_pos h3, if_pos h3]
      · rw [if_neg h3, if_neg h3, if_neg h2]

/-- The result, when there is one. -/
theorem result_some {p : Lanczos n} {s : LanczosState n} {eigen} {e : Eigen n p.maxiter} (hm : p.maxiter < maxInt)
    (h : p.result s eigen = some e) : ∃ q a b, Recurrence p.A p.maxiter q a b ∧ (0 < p.maxiter → norm p.v0 ≠ 0 ∧ p.v0 = norm p.v0 • q 0) ∧
      e.V = columns p.maxiter q * (eigen (tridiagonal (fun i => a i) b)).1 ∧ e.w = (eigen (tridiagonal (fun i => a i) b)).2 := by
  unfold Lanczos.result at h
  rw [run_state p s hm] at h
  obtain ⟨alpha, ha, h⟩ := Option.bind_eq_some_iff.1 h
  obtain ⟨beta, hb, h⟩ := Option.bind_eq_some_iff.1 h
  obtain ⟨vectors, hv, rfl⟩ := Option.map_eq_some_iff.1 h
  have ha := noNan_some ha
  have hb := noNan_some hb
  have hv := noNan_some hv
  let q : Nat → Fin n → ℝ := fun j => if h : j < p.maxiter then vectors ⟨j, h⟩ else 0
  let a : Nat → ℝ := fun j => if h : j < p.maxiter then alpha ⟨j, h⟩ else 0
  let b : Nat → ℝ := fun j => if h : j < p.maxiter - 1 then beta ⟨j, h⟩ else 0
  have ea : (fun i : Fin p.maxiter => a i) = alpha := by funext i; simp [a]
  have eq : (fun i : Fin p.maxiter => q i) = vectors := by funext i; simp [q]
  obtain ⟨r, h0⟩ := recurrence (p := p) (s := s) (m := p.maxiter) (q := q) (a := a) (b := b)
    (fun j hj => by simp only [q, dif_pos hj]; exact hv ⟨j, hj⟩) (fun j hj => by simp only [a, dif_pos hj]; exact ha ⟨j, hj⟩)
    (fun j hj => by simp only [b, dif_pos hj]; exact hb ⟨j, hj⟩)
  refine ⟨q, a, b, r, h0, ?_, ?_⟩
  · rw [ea]
    ext i l
    rw [Matrix.mul_apply]
    simp only [columns, Eigen.V, Matrix.of_apply]
    rw [← eq]
  · rw [ea]

/-- The operator that is returned. -/
theorem result_matrix {p : Lanczos n} {eigen} {e : Eigen n p.maxiter} {q a b} (r : Recurrence p.A p.maxiter q a b) (hA : p.A.IsSymm)
    (hE : Exact eigen) (hV : e.V = columns p.maxiter q * (eigen (tridiagonal (fun i => a i) b)).1)
    (hw : e.w = (eigen (tridiagonal (fun i => a i) b)).2) :
    e.Orthonormal ∧ (columns p.maxiter q * (columns p.maxiter q)ᵀ) * e.V = e.V ∧
      e.matrix = (columns p.maxiter q * (columns p.maxiter q)ᵀ) * p.A * (columns p.maxiter q * (columns p.maxiter q)ᵀ) := by
  obtain ⟨o, d⟩ := hE _ (tridiagonal_symm (fun i : Fin p.maxiter => a i) b)
  have hQ := r.columns_orthonormal hA
  refine ⟨?_, ?_, ?_⟩
  · rw [orthonormal_iff, hV, transpose_mul, Matrix.mul_assoc, ← Matrix.mul_assoc _ (columns _ q), hQ, Matrix.one_mul, o]
  · rw [hV, ← Matrix.mul_assoc, Matrix.mul_assoc _ _ (columns p.maxiter q), hQ, Matrix.mul_one]
  · rw [matrix_eq, hV, hw, transpose_mul]
    have h1 := r.compressed hA
    rw [d] at h1
    calc _ = columns p.maxiter q * ((eigen (tridiagonal (fun i => a i) b)).1 * diagonal (eigen (tridiagonal (fun i => a i) b)).2 *
          (eigen (tridiagonal (fun i => a i) b)).1ᵀ) * (columns p.maxiter q)ᵀ := by simp only [Matrix.mul_assoc]
      _ = _ := by rw [← h1]; simp only [Matrix.mul_assoc]

/-- **C75** The eigenvectors of the operator that is returned are orthonormal. -/
theorem C75_orthonormal (p : Lanczos n) (s : LanczosState n) (eigen) (hE : Exact eigen) (hA : p.A.IsSymm) (hm : p.maxiter < maxInt)
    (e : Eigen n p.maxiter) (h : p.result s eigen = some e) : e.Orthonormal := by
  obtain ⟨q, a, b, r, -, hV, hw⟩ := result_some hm h
  exact (result_matrix r hA hE hV hw).1

/-- **C75** The operator that is returned is equal to A for the vectors v0, A v0, A² v0, … of the Krylov subspace except the last one, and
on the whole subspace for the scalar products. -/
theorem C75_krylov (p : Lanczos n) (s : LanczosState n) (eigen) (hE : Exact eigen) (hA : p.A.IsSymm) (hm : p.maxiter < maxInt)
    (e : Eigen n p.maxiter) (h : p.result s eigen = some e) :
    (∀ j, j + 1 < p.maxiter → e.matrix *ᵥ krylov p.A p.v0 j = krylov p.A p.v0 (j + 1)) ∧
      ∀ i j, i < p.maxiter → j < p.maxiter →
        krylov p.A p.v0 i ⬝ᵥ e.matrix *ᵥ krylov p.A p.v0 j = krylov p.A p.v0 i ⬝ᵥ p.A *ᵥ krylov p.A p.v0 j := by
  obtain ⟨q, a, b, r, h0, hV, hw⟩ := result_some hm h
  obtain ⟨-, -, hM⟩ := result_matrix r hA hE hV hw
  have fx : ∀ j < p.maxiter, (columns p.maxiter q * (columns p.maxiter q)ᵀ) *ᵥ krylov p.A p.v0 j = krylov p.A p.v0 j :=
    fun j hj => r.fixed hA (Q_mono (by omega) (r.krylov_mem (h0 (by omega)).2 j hj))
  refine ⟨fun j hj => ?_, fun i j hi hj => ?_⟩
  · rw [hM, ← mulVec_mulVec, ← mulVec_mulVec, fx j (by omega)]
    exact fx (j + 1) hj
  · rw [hM, ← mulVec_mulVec, ← mulVec_mulVec, fx j hj, dotProduct_mulVec, ← mulVec_transpose, transpose_mul, transpose_transpose,
      fx i hi]

/-- **C75** The eigenvalues are between the bounds of A. -/
theorem C75_bounds (p : Lanczos n) (s : LanczosState n) (eigen) (hE : Exact eigen) (hA : p.A.IsSymm) (hm : p.maxiter < maxInt)
    (e : Eigen n p.maxiter) (h : p.result s eigen = some e) (c : ℝ) (l : Fin p.maxiter) :
    ((∀ x, c * (x ⬝ᵥ x) ≤ x ⬝ᵥ p.A *ᵥ x) → c ≤ e.w l) ∧ ((∀ x, x ⬝ᵥ p.A *ᵥ x ≤ c * (x ⬝ᵥ x)) → e.w l ≤ c) := by
  obtain ⟨q, a, b, r, h0, hV, hw⟩ := result_some hm h
  obtain ⟨o, hP, hM⟩ := result_matrix r hA hE hV hw
  let x : Fin n → ℝ := fun i => e.v i l
  have hx : x ⬝ᵥ x = 1 := by
    have := o l l
    rw [if_pos rfl] at this
    exact this
  have hPx : (columns p.maxiter q * (columns p.maxiter q)ᵀ) *ᵥ x = x := by
    funext i
    exact congrFun (congrFun hP i) l
  have h1 : e.matrix *ᵥ x = e.w l • x := by
    funext i
    exact (C74_eigen e o).2 l i
  have h2 : x ⬝ᵥ p.A *ᵥ x = e.w l := by
    have h3 : x ⬝ᵥ e.matrix *ᵥ x = e.w l := by rw [h1, dotProduct_smul, hx, smul_eq_mul, mul_one]
    rw [hM, ← mulVec_mulVec, ← mulVec_mulVec, hPx, dotProduct_mulVec, ← mulVec_transpose, transpose_mul, transpose_transpose, hPx] at h3
    exact h3
  constructor
  · intro hc
    have := hc x
    rw [hx, h2, mul_one] at this
    exact this
  · intro hc
    have := hc x
    rw [hx, h2, mul_one] at this
    exact this

/-- **C75** With as many iterations as rows, the operator that is returned is A. -/
theorem C75_complete (p : Lanczos n) (s : LanczosState n) (eigen) (hE : Exact eigen) (hA : p.A.IsSymm) (hm : p.maxiter < maxInt)
    (e : Eigen n p.maxiter) (h : p.result s eigen = some e) (hn : p.maxiter = n) : e.matrix = p.A := by
  obtain ⟨q, a, b, r, h0, hV, hw⟩ := result_some hm h
  obtain ⟨-, -, hM⟩ := result_matrix r hA hE hV hw
  have h1 := r.columns_orthonormal hA
  have h2 : columns p.maxiter q * (columns p.maxiter q)ᵀ = 1 := by
    clear hM hV hw hE h
    revert h1
    generalize p.maxiter = m at hn ⊢
    subst hn
    exact fun h1 => mul_eq_one_comm.1 h1
  rw [hM, h2, Matrix.one_mul, Matrix.mul_one]

/-- **C75** The call returns an operator if and only if v0, A v0, A² v0, … (maxiter vectors) are linearly independent. -/
theorem C75_returns_partial (p : Lanczos n) (s : LanczosState n) (eigen) (hA : p.A.IsSymm) (hm : p.maxiter < maxInt) :
    (p.result s eigen).isSome ↔ ∀ k < p.maxiter, krylov p.A p.v0 k ∉ Submodule.span ℝ {x | ∃ j < k, x = krylov p.A p.v0 j} := by
  constructor
  · intro h
    obtain ⟨e, h⟩ := Option.isSome_iff_exists.1 h
    obtain ⟨q, a, b, r, h0, -, -⟩ := result_some hm h
    intro k hk
    obtain ⟨h1, h2⟩ := h0 (by omega)
    exact r.independent hA h1 h2 k hk
  · intro h
    rcases Nat.eq_zero_or_pos p.maxiter with hz | hz
    · unfold Lanczos.result Lanczos.finalize
      obtain ⟨f1, h1⟩ := noNan_of (a := (p.algo.run none ⟨0, s⟩).1.state.alpha) (m := p.maxiter) (fun j hj => by omega)
      obtain ⟨f2, h2⟩ := noNan_of (a := (p.algo.run none ⟨0, s⟩).1.state.beta) (m := p.maxiter - 1) (fun j hj => by omega)
      obtain ⟨f3, h3⟩ := noNan_of (a := (p.algo.run none ⟨0, s⟩).1.state.vectors) (m := p.maxiter) (fun j hj => by omega)
      rw [h1, h2, h3]
      rfl
    · obtain ⟨m, e⟩ : ∃ m, p.maxiter = m + 1 := ⟨p.maxiter - 1, by omega⟩
      obtain ⟨q, b, hq, hb⟩ := finite (p := p) (s := s) h m (by omega)
      obtain ⟨e1, e2, e3⟩ := iteration_eq (p := p) (state_count p s m) (fun j hj => (hq j hj).1) (fun j hj => (hb j hj).1)
      have hr : (p.algo.run none ⟨0, s⟩).1.state = p.state s (m + 1) := by rw [run_state p s hm, e]
      unfold Lanczos.result Lanczos.finalize
      rw [hr]
      have keep := fun j (hj : j ≤ m) => state_keeps p s (show j ≤ m + 1 by omega)
      have keep' := fun j (hj : j ≤ m) => state_keeps p s hj
      obtain ⟨f1, h1⟩ := noNan_of (a := (p.state s (m + 1)).alpha) (m := p.maxiter) (fun j hj => by
        rcases Nat.lt_or_ge j m with hj' | hj'
        · rw [((keep (j + 1) (by omega)).2 j (by omega)).1, ← ((keep' (j + 1) (by omega)).2 j (by omega)).1]
          obtain ⟨a, ha⟩ := (hb j hj').2
          rw [ha]; rfl
        · obtain rfl : j = m := by omega
          exact Option.isSome_iff_exists.2 ⟨_, e1⟩)
      obtain ⟨f2, h2⟩ := noNan_of (a := (p.state s (m + 1)).beta) (m := p.maxiter - 1) (fun j hj => by
        rw [((keep (j + 1) (by omega)).2 j (by omega)).2, ← ((keep' (j + 1) (by omega)).2 j (by omega)).2, (hb j (by omega)).1]
        rfl)
      obtain ⟨f3, h3⟩ := noNan_of (a := (p.state s (m + 1)).vectors) (m := p.maxiter) (fun j hj => by
        rw [(keep j (by omega)).1, ← (keep' j (by omega)).1, (hq j (by omega)).1]
        rfl)
      rw [h1, h2, h3]
      rfl

/-- **C75** A ValueError is raised, whatever A and v0, if there are more iterations than rows, for example with the default value 300 of
maxiter and a matrix of 100 rows. -/
theorem C75_returns_fails (p : Lanczos n) (s : LanczosState n) (eigen) (hA : p.A.IsSymm) (hm : p.maxiter < maxInt) (h : n < p.maxiter) :
    p.result s eigen = none := by
  cases hr : p.result s eigen with
  | none => rfl
  | some e =>
    obtain ⟨q, a, b, r, -, -, -⟩ := result_some hm hr
    have h1 := congrArg Matrix.rank (r.columns_orthonormal hA)
    rw [Matrix.rank_one, Fintype.card_fin] at h1
    have h2 := Matrix.rank_mul_le_right (columns p.maxiter q)ᵀ (columns p.maxiter q)
    have h3 := Matrix.rank_le_height (columns p.maxiter q)
    omega

/-- **C75** It is also raised for two iterations with the identity. -/
theorem C75_identity_fails (v0 : Fin n → ℝ) (s : LanczosState n) (eigen) : (⟨1, v0, 2⟩ : Lanczos n).result s eigen = none := by
  have h := C75_returns_partial ⟨1, v0, 2⟩ s eigen Matrix.isSymm_one (show 2 < maxInt by decide)
  rw [← Option.not_isSome_iff_eq_none, h]
  intro hi
  refine hi 1 (show 1 < 2 by decide) (Submodule.subset_span ⟨0, by omega, ?_⟩)
  show (1 : Matrix (Fin n) (Fin n) ℝ) *ᵥ v0 = v0
  rw [one_mulVec]

/-- **C75** The array given by the user is modified: its norm is one after the call. -/
theorem C75_v0_fails (p : Lanczos n) (h : p.v0 ≠ 0) (h1 : p.v0 ⬝ᵥ p.v0 ≠ 1) : ∃ x, p.userArray = some x ∧ x ≠ p.v0 ∧ x ⬝ᵥ x = 1 := by
  have hn : norm p.v0 ≠ 0 := fun h' => h (norm_eq_zero h')
  obtain ⟨y, hy, e⟩ := divide_of hn
  have hu := unit_of hn e
  exact ⟨y, hy, fun h' => h1 (h' ▸ hu), hu⟩

/-- There is an exact routine. -/
theorem exact_exists (m : Nat) : ∃ eigen : Matrix (Fin m) (Fin m) ℝ → Matrix (Fin m) (Fin m) ℝ × (Fin m → ℝ), Exact eigen := by
  have : ∀ T : Matrix (Fin m) (Fin m) ℝ, ∃ r : Matrix (Fin m) (Fin m) ℝ × (Fin m → ℝ), T.IsSymm → IsEigen T r.1 r.2 := by
    intro T
    by_cases h : T.IsSymm
    · have hT : T.IsHermitian := by
        rw [Matrix.IsHermitian, conjTranspose_eq_transpose_of_trivial]; exact h
      refine ⟨(hT.eigenvectorUnitary, hT.eigenvalues), fun _ => ⟨?_, ?_⟩⟩
      · have := Matrix.mem_unitaryGroup_iff'.1 hT.eigenvectorUnitary.2
        rw [star_eq_conjTranspose, conjTranspose_eq_transpose_of_trivial] at this
        exact this
      · have := hT.spectral_theorem
        rw [Unitary.conjStarAlgAut_apply, star_eq_conjTranspose, conjTranspose_eq_transpose_of_trivial] at this
        exact this
    · exact ⟨(0, 0), fun h' => absurd h' h⟩
  choose f hf using this
  exact ⟨f, hf⟩

/-- A positive definite matrix. -/
def sample : Lanczos 2 := ⟨!![2, 1; 1, 2], ![1, 0], 2⟩

theorem sample_symm : sample.A.IsSymm := by
  ext i j; fin_cases i <;> fin_cases j <;> rfl

theorem sample_vectors (s : LanczosState 2) : (sample.state s 0).vectors 0 = some ![1, 0] := by
  show divide ![1, 0] (norm ![1, 0]) = some ![1, 0]
  have : norm (![1, 0] : Fin 2 → ℝ) = 1 := by simp [norm]
  rw [this]
  simp [divide]

theorem sample_state (s : LanczosState 2) : (sample.state s 1).vectors 0 = some ![1, 0] ∧ (sample.state s 1).vectors 1 = some ![0, 1] ∧
    (sample.state s 1).alpha 0 = some 2 ∧ (sample.state s 1).alpha 1 = some 0 ∧ (sample.state s 1).beta 0 = some 1 := by
  have h0 := sample_vectors s
  obtain ⟨e1, e2, e3⟩ := iteration_eq (p := sample) (s := sample.state s 0) (q := fun _ => ![1, 0]) (b := fun _ => 0) (k := 0) rfl
    (fun j hj => by obtain rfl : j = 0 := by omega
                    exact h0) (fun j hj => by omega)
  have m1 : sample.A *ᵥ ![1, 0] = ![2, 1] := by
    funext i; fin_cases i <;> simp [sample, Matrix.mulVec, dotProduct]
  have m2 : (![2, 1] : Fin 2 → ℝ) - (2 : ℝ) • ![1, 0] = ![0, 1] := by
    funext i; fin_cases i <;> simp
  have m3 : (![2, 1] : Fin 2 → ℝ) ⬝ᵥ ![1, 0] = 2 := by simp [dotProduct]
  have m4 : norm (![0, 1] : Fin 2 → ℝ) = 1 := by simp [norm]
  simp only [before, sub_zero, m1, m2, m3, m4] at e1 e2 e3
  refine ⟨?_, ?_, e1, ?_, e2⟩
  · rw [(state_keeps sample s (show 0 ≤ 1 by omega)).1]; exact h0
  · refine e3.trans ?_
    simp [divide]
  · rfl

/-- **C75** If the algorithm is stopped before maxiter iterations by `run(n)`, the coefficients of the iterations that have not been done are
zero in the tridiagonal matrix, but the coupling with them is not.  A is larger than the identity and the operator that is returned is not
even positive. -/
theorem C75_run_fails (s : LanczosState 2) (eigen : Matrix (Fin 2) (Fin 2) ℝ → Matrix (Fin 2) (Fin 2) ℝ × (Fin 2 → ℝ))
    (hE : Exact eigen) :
    (∀ x, x ⬝ᵥ x ≤ x ⬝ᵥ sample.A *ᵥ x) ∧ (sample.algo.run (some 1) ⟨0, s⟩).2 = .returned ∧
      ∃ e : Eigen 2 2, sample.finalize (sample.algo.run (some 1) ⟨0, s⟩).1.state eigen = some e ∧
        ∃ x, x ⬝ᵥ e.matrix *ᵥ x < 0 := by
  have hr : sample.algo.run (some 1) ⟨0, s⟩ = (⟨1, sample.state s 1⟩, .returned) := rfl
  refine ⟨fun x => ?_, by rw [hr], ?_⟩
  · simp only [dotProduct, sample, Matrix.mulVec, Fin.sum_univ_two, Matrix.of_apply, Matrix.cons_val_zero, Matrix.cons_val_one]
    nlinarith [sq_nonneg (x 0 + x 1)]
  · obtain ⟨h1, h2, h3, h4, h5⟩ := sample_state s
    rw [hr]
    let T : Matrix (Fin 2) (Fin 2) ℝ := !![2, 1; 1, 0]
    have hT : T.IsSymm := by ext i j; fin_cases i <;> fin_cases j <;> rfl
    obtain ⟨o, d⟩ := hE T hT
    let e : Eigen 2 2 := ⟨fun i l => (eigen T).1 i l, (eigen T).2⟩
    refine ⟨e, ?_, ![1, -2], ?_⟩
    · unfold Lanczos.finalize
      show ((noNan (sample.state s 1).alpha 2).bind fun alpha => (noNan (sample.state s 1).beta 1).bind fun beta =>
        (noNan (sample.state s 1).vectors 2).map fun vectors => _) = some e
      simp only [noNan, h1, h2, h3, h4, h5, Option.bind_some, Option.map_some]
      have ht : tridiagonal (m := 2) (Fin.snoc (α := fun _ => ℝ) (Fin.snoc (α := fun _ => ℝ) (fun i => i.elim0) (2 : ℝ)) 0)
          (fun j => if h : j < 2 - 1 then (Fin.snoc (α := fun _ => ℝ) (fun i => i.elim0) (1 : ℝ) : Fin 1 → ℝ) ⟨j, h⟩ else 0) = T := by
        ext i j
        fin_cases i <;> fin_cases j <;> rfl
      refine congrArg some ?_
      have ext : ∀ {v v' : Fin 2 → Fin 2 → ℝ} {w w' : Fin 2 → ℝ}, v = v' → w = w' → (⟨v, w⟩ : Eigen 2 2) = ⟨v', w'⟩ := by
        rintro _ _ _ _ rfl rfl; rfl
      refine ext ?_ ?_
      · funext i l
        refine (Fin.sum_univ_two _).trans ?_
        show (![1, 0] : Fin 2 → ℝ) i * (eigen _).1 0 l + (![0, 1] : Fin 2 → ℝ) i * (eigen _).1 1 l = (eigen T).1 i l
        rw [← ht]
        fin_cases i
        · show (1 : ℝ) * _ + 0 * _ = _
          rw [one_mul, zero_mul, add_zero]; rfl
        · show (0 : ℝ) * _ + 1 * _ = _
          rw [one_mul, zero_mul, zero_add]; rfl
      · show (eigen _).2 = (eigen T).2
        rw [← ht]; rfl
    · have hM : e.matrix = T := by rw [matrix_eq, d]; rfl
      rw [hM]
      simp [T, Matrix.mulVec, dotProduct, Fin.sum_univ_two]

/-- Two iterations on the sample return an operator, which is the matrix itself. -/
example (s : LanczosState 2) (eigen) (hE : Exact eigen) : ∃ e, sample.result s eigen = some e ∧ e.matrix = !![2, 1; 1, 2] := by
  have h := (C75_returns_partial sample s eigen sample_symm (show 2 < maxInt by decide)).2 (by
    intro k hk hmem
    have hk : k < 2 := hk
    obtain rfl | rfl : k = 0 ∨ k = 1 := by omega
    · have : {x | ∃ j < 0, x = krylov sample.A sample.v0 j} = ∅ := by ext; simp
      rw [this, Submodule.span_empty, Submodule.mem_bot] at hmem
      have := congrFun hmem 0
      simp [krylov, sample] at this
    · have : {x | ∃ j < 1, x = krylov sample.A sample.v0 j} = {krylov sample.A sample.v0 0} := by
        ext; simp
      rw [this, Submodule.mem_span_singleton] at hmem
      obtain ⟨c, hc⟩ := hmem
      have := congrFun hc 1
      simp [krylov, sample, Matrix.mulVec, dotProduct] at this)
  obtain ⟨e, he⟩ := Option.isSome_iff_exists.1 h
  exact ⟨e, he, C75_complete sample s eigen hE sample_symm (show 2 < maxInt by decide) e he rfl⟩

/-- The array of the user. -/
example : ∃ x, (⟨1, ![3, 4], 1⟩ : Lanczos 2).userArray = some x ∧ x ≠ ![3, 4] ∧ x ⬝ᵥ x = 1 :=
  C75_v0_fails ⟨1, ![3, 4], 1⟩ (fun h => by simpa using congrFun h 0) (by simp [dotProduct, Fin.sum_univ_two]; norm_num)

end Verif.Lanczos
