import Mathlib.Analysis.SpecialFunctions.Pow.Real
import Mathlib.Tactic.NormNum
import Mathlib.Tactic.Linarith

/-
Model of the power operators: src/pyoperators/nonlinear.py:281-377 (`PowerOperator`, `ReciprocalOperator`, `SqrtOperator`,
`SquareOperator`), and properties C33 and C65.

The operators act on each element; the numbers are real numbers, without rounding, and `none` is the NaN or the infinity of an input
for which the result is not defined.
-/

namespace Verif.Pointwise

/-- The number is an integer. -/
def Integral (n : ℝ) : Prop := ∃ k : ℤ, n = k

open Classical in
/-- `np.power(x, n)` -/
noncomputable def power (n x : ℝ) : Option ℝ :=
  if x < 0 ∧ ¬ Integral n then none else if x = 0 ∧ n < 0 then none else some (x ^ n)

/-- `np.allclose(n, b)`, with the default tolerances. -/
def Allclose (n b : ℝ) : Prop := |n - b| ≤ 1 / 10 ^ 8 + 1 / 10 ^ 5 * |b|

/-- The classes that a power operator can turn into: src/pyoperators/nonlinear.py:288-307. -/
inductive Power where
  | reciprocal
  | one
  | sqrt
  | identity
  | square
  | other (n : ℝ)

open Classical in
/-- `PowerOperator(n)`: src/pyoperators/nonlinear.py:288-308. -/
noncomputable def powerOperator (n : ℝ) : Power :=
  if Allclose n (-1) then .reciprocal
  else if n = 0 then .one
  else if Allclose n (1 / 2) then .sqrt
  else if Allclose n 1 then .identity
  else if Allclose n 2 then .square
  else .other n

/-- The attribute n of the subclasses of PowerOperator: src/pyoperators/nonlinear.py:308, 348, 361, 371.  The constant and identity
operators are not subclasses. -/
noncomputable def Power.exponent : Power → Option ℝ
  | .reciprocal => some (-1)
  | .one => none
  | .sqrt => some (1 / 2)
  | .identity => none
  | .square => some 2
  | .other n => some n

/-- The method direct: src/pyoperators/nonlinear.py:332-333, 350-351, 363-364 and 373-374. -/
noncomputable def Power.direct : Power → ℝ → Option ℝ
  | .reciprocal, x => if x = 0 then none else some x⁻¹
  | .one, _ => some 1
  | .sqrt, x => if x < 0 then none else some (Real.sqrt x)
  | .identity, x => some x
  | .square, x => some (x * x)
  | .other n, x => power n x

/-- The rule for the composition of two power operators: src/pyoperators/nonlinear.py:310-314. -/
noncomputable def composed (f g : Power) : Option Power :=
  match f.exponent, g.exponent with
  | some n, some m => some (powerOperator (n * m))
  | _, _ => none

/-- The rule for the elementwise product of two power operators: src/pyoperators/nonlinear.py:315-319. -/
noncomputable def multiplied (f g : Power) : Option Power :=
  match f.exponent, g.exponent with
  | some n, some m => some (powerOperator (n + m))
  | _, _ => none

/-- The inverse of a power operator: src/pyoperators/nonlinear.py:309. -/
noncomputable def inverted (f : Power) : Option Power := f.exponent.map fun n => powerOperator (1 / n)

/-! ### Properties -/

/-- The exponent is not mistaken for a close one. -/
def Distinct (n : ℝ) : Prop := ∀ b ∈ ({-1, 1 / 2, 1, 2} : Set ℝ), Allclose n b → n = b

theorem power_neg_one (x : ℝ) : power (-1) x = if x = 0 then none else some x⁻¹ := by
  have h : Integral (-1) := ⟨-1, by simp⟩
  unfold power
  rw [if_neg (by simp [h])]
  by_cases hx : x = 0
  · simp [hx]
  · simp [hx, Real.rpow_neg_one]

theorem power_half (x : ℝ) : power (1 / 2) x = if x < 0 then none else some (Real.sqrt x) := by
  have h : ¬ Integral (1 / 2) := by
    rintro ⟨k, hk⟩
    have h1 : (2 * k : ℝ) = 1 := by rw [← hk]; norm_num
    have h2 : 2 * k = 1 := by exact_mod_cast h1
    omega
  unfold power
  by_cases hx : x < 0
  · simp only [hx, h, not_false_iff, and_self, if_true]
  · simp only [hx, false_and, if_false]
    rw [if_neg (by norm_num), Real.sqrt_eq_rpow]

theorem power_one (x : ℝ) : power 1 x = some x := by
  have h : Integral 1 := ⟨1, by simp⟩
  unfold power
  rw [if_neg (by simp [h]), if_neg (by norm_num), Real.rpow_one]

theorem power_two (x : ℝ) : power 2 x = some (x * x) := by
  have h : Integral 2 := ⟨2, by simp⟩
  unfold power
  rw [if_neg (by simp [h]), if_neg (by norm_num)]
  congr 1
  have := Real.rpow_natCast x 2
  rw [pow_two] at this
  exact_mod_cast this

theorem power_zero (x : ℝ) : power 0 x = some 1 := by
  have h : Integral 0 := ⟨0, by simp⟩
  unfold power
  rw [if_neg (by simp [h]), if_neg (by norm_num), Real.rpow_zero]

/-- C33: the power operators raise to the power, if the exponent is not mistaken. -/
theorem C33_power_partial {n : ℝ} (h : Distinct n) (x : ℝ) : (powerOperator n).direct x = power n x := by
  unfold powerOperator
  split
  · rename_i e
    rw [h (-1) (by simp) e]
    exact (power_neg_one x).symm
  · split
    · rename_i e
      rw [e]
      exact (power_zero x).symm
    · split
      · rename_i e
        rw [h (1 / 2) (by simp) e]
        exact (power_half x).symm
      · split
        · rename_i e
          rw [h 1 (by simp) e]
          exact (power_one x).symm
        · split
          · rename_i e
            rw [h 2 (by simp) e]
            exact (power_two x).symm
          · rfl

theorem direct_exponent {f : Power} {n : ℝ} (h : f.exponent = some n) (x : ℝ) : f.direct x = power n x := by
  cases f with
  | reciprocal =>
    obtain rfl : -1 = n := Option.some.inj h
    exact (power_neg_one x).symm
  | one => cases h
  | sqrt =>
    obtain rfl : 1 / 2 = n := Option.some.inj h
    exact (power_half x).symm
  | identity => cases h
  | square =>
    obtain rfl : 2 = n := Option.some.inj h
    exact (power_two x).symm
  | other m =>
    obtain rfl : m = n := Option.some.inj h
    rfl

theorem power_pos (n : ℝ) {x : ℝ} (hx : 0 < x) : power n x = some (x ^ n) := by
  unfold power
  rw [if_neg (by intro h; linarith [h.1]), if_neg (by intro h; linarith [h.1])]

theorem rules_some {f g r : Power} {op : ℝ → ℝ → ℝ}
    (h : (match f.exponent, g.exponent with | some n, some m => some (powerOperator (op n m)) | _, _ => none) = some r) :
    ∃ n m, f.exponent = some n ∧ g.exponent = some m ∧ r = powerOperator (op n m) := by
  cases hf : f.exponent <;> cases hg : g.exponent <;> simp_all

/-- C33: the simplified composition has the effect of applying the operators one after the other, on the positive numbers, and on all
the numbers for which the latter is defined if the exponents are integers; the product of the exponents must not be mistaken. -/
theorem C33_compose_partial {f g r : Power} (h : composed f g = some r) {n m : ℝ} (hf : f.exponent = some n) (hg : g.exponent = some m)
    (hd : Distinct (n * m)) {x y z : ℝ} (hy : g.direct x = some y) (hz : f.direct y = some z)
    (hx : 0 < x ∨ Integral n ∧ Integral m) : r.direct x = some z := by
  have e : r = powerOperator (n * m) := by
    simp only [composed, hf, hg] at h
    exact (Option.some.inj h).symm
  rw [e, C33_power_partial hd]
  rw [direct_exponent hg] at hy
  rw [direct_exponent hf] at hz
  rcases hx with hx | ⟨⟨a, rfl⟩, ⟨b, rfl⟩⟩
  · rw [power_pos m hx] at hy
    obtain rfl := Option.some.inj hy
    rw [power_pos n (Real.rpow_pos_of_pos hx m)] at hz
    obtain rfl := Option.some.inj hz
    rw [power_pos _ hx, mul_comm, Real.rpow_mul hx.le]
  · have hab : Integral ((a : ℝ) * b) := ⟨a * b, by push_cast; rfl⟩
    unfold power at hy hz ⊢
    rw [if_neg (by intro h; exact h.2 ⟨b, rfl⟩)] at hy
    rw [if_neg (by intro h; exact h.2 ⟨a, rfl⟩)] at hz
    rw [if_neg (by intro h; exact h.2 hab)]
    by_cases hb : x = 0 ∧ (b : ℝ) < 0
    · rw [if_pos hb] at hy
      exact absurd hy (by simp)
    · rw [if_neg hb] at hy
      obtain rfl := Option.some.inj hy
      by_cases ha : x ^ (b : ℝ) = 0 ∧ (a : ℝ) < 0
      · rw [if_pos ha] at hz
        exact absurd hz (by simp)
      · rw [if_neg ha] at hz
        obtain rfl := Option.some.inj hz
        rw [if_neg]
        · congr 1
          rw [Real.rpow_intCast x b, Real.rpow_intCast (x ^ b) a, ← zpow_mul, mul_comm b a]
          exact_mod_cast Real.rpow_intCast x (a * b)
        · rintro ⟨rfl, hn⟩
          have hb' : (0 : ℝ) ≤ b := by
            by_contra hc
            exact hb ⟨rfl, not_le.1 hc⟩
          rcases hb'.lt_or_eq with hb' | hb'
          · refine ha ⟨Real.zero_rpow hb'.ne', ?_⟩
            by_contra hc
            exact absurd hn (not_lt.2 (mul_nonneg (not_lt.1 hc) hb'.le))
          · rw [← hb', mul_zero] at hn
            exact lt_irrefl _ hn

/-- C33: the square root of the square is simplified into the identity, although it is the absolute value. -/
theorem C33_sqrt_square_fails : ∃ (f g r : Power) (x y z : ℝ), f = powerOperator (1 / 2) ∧ g = powerOperator 2 ∧ composed f g = some r ∧
    g.direct x = some y ∧ f.direct y = some z ∧ r.direct x ≠ some z := by
  have h1 : powerOperator (1 / 2) = .sqrt := by
    unfold powerOperator Allclose
    rw [if_neg (by norm_num [abs_of_pos, abs_of_neg]), if_neg (by norm_num), if_pos (by norm_num)]
  have h2 : powerOperator 2 = .square := by
    unfold powerOperator Allclose
    rw [if_neg (by norm_num [abs_of_pos, abs_of_neg]), if_neg (by norm_num), if_neg (by norm_num [abs_of_pos, abs_of_neg]),
      if_neg (by norm_num [abs_of_pos, abs_of_neg]), if_pos (by norm_num)]
  have h3 : powerOperator (1 / 2 * 2) = .identity := by
    unfold powerOperator Allclose
    rw [if_neg (by norm_num [abs_of_pos, abs_of_neg]), if_neg (by norm_num), if_neg (by norm_num [abs_of_pos, abs_of_neg]),
      if_pos (by norm_num)]
  refine ⟨.sqrt, .square, .identity, -1, 1, 1, h1.symm, h2.symm, ?_, ?_, ?_, ?_⟩
  · simp only [composed, Power.exponent, h3]
  · norm_num [Power.direct]
  · norm_num [Power.direct]
  · norm_num [Power.direct]

/-- C33: an exponent close to 1 is mistaken for 1, so that the composition of the powers 3 and 333335/1000000 is simplified into the identity. -/
theorem C33_close_fails : ∃ (f g r : Power) (x y z : ℝ), f = powerOperator 3 ∧ g = powerOperator (333335 / 1000000) ∧
    composed f g = some r ∧ 0 < x ∧ g.direct x = some y ∧ f.direct y = some z ∧ r.direct x ≠ some z := by
  have h1 : powerOperator 3 = .other 3 := by
    unfold powerOperator Allclose
    rw [if_neg (by norm_num [abs_of_pos, abs_of_neg]), if_neg (by norm_num), if_neg (by norm_num [abs_of_pos, abs_of_neg]),
      if_neg (by norm_num [abs_of_pos, abs_of_neg]), if_neg (by norm_num [abs_of_pos, abs_of_neg])]
  have h2 : powerOperator (333335 / 1000000) = .other (333335 / 1000000) := by
    unfold powerOperator Allclose
    rw [if_neg (by norm_num [abs_of_pos, abs_of_neg]), if_neg (by norm_num), if_neg (by norm_num [abs_of_pos, abs_of_neg]),
      if_neg (by norm_num [abs_of_pos, abs_of_neg]), if_neg (by norm_num [abs_of_pos, abs_of_neg])]
  have h3 : powerOperator (3 * (333335 / 1000000)) = .identity := by
    unfold powerOperator Allclose
    rw [if_neg (by norm_num [abs_of_pos, abs_of_neg]), if_neg (by norm_num), if_neg (by norm_num [abs_of_pos, abs_of_neg]),
      if_pos (by norm_num [abs_of_pos, abs_of_neg])]
  refine ⟨_, _, .identity, 2, 2 ^ (333335 / 1000000 : ℝ), (2 ^ (333335 / 1000000 : ℝ)) ^ (3 : ℝ), rfl, rfl, ?_, by norm_num, ?_, ?_, ?_⟩
  · rw [h1, h2]
    simp only [composed, Power.exponent, h3]
  · rw [h2]
    exact power_pos _ (by norm_num)
  · rw [h1]
    exact power_pos _ (Real.rpow_pos_of_pos (by norm_num) _)
  · rw [← Real.rpow_mul (by norm_num)]
    intro h
    have h : (2 : ℝ) = 2 ^ (333335 / 1000000 * 3 : ℝ) := Option.some.inj h
    have : (2 : ℝ) ^ (1 : ℝ) < 2 ^ (333335 / 1000000 * 3 : ℝ) := Real.rpow_lt_rpow_of_exponent_lt (by norm_num) (by norm_num)
    rw [Real.rpow_one] at this
    exact absurd h this.ne

/-- C65: the simplified product of two power operators has the effect of the product of their results, wherever these are defined; the
sum of the exponents must not be mistaken. -/
theorem C65_product_partial {f g r : Power} (h : multiplied f g = some r) {n m : ℝ} (hf : f.exponent = some n) (hg : g.exponent = some m)
    (hd : Distinct (n + m)) {x y z : ℝ} (hy : g.direct x = some y) (hz : f.direct x = some z) : r.direct x = some (z * y) := by
  have e : r = powerOperator (n + m) := by
    simp only [multiplied, hf, hg] at h
    exact (Option.some.inj h).symm
  rw [e, C33_power_partial hd]
  rw [direct_exponent hg] at hy
  rw [direct_exponent hf] at hz
  rcases lt_trichotomy x 0 with hx | rfl | hx
  · unfold power at hy hz
    by_cases hn : Integral n
    · by_cases hm : Integral m
      · rw [if_neg (by simp [hm]), if_neg (by intro h; exact hx.ne h.1)] at hy
        rw [if_neg (by simp [hn]), if_neg (by intro h; exact hx.ne h.1)] at hz
        obtain rfl := Option.some.inj hy
        obtain rfl := Option.some.inj hz
        obtain ⟨a, rfl⟩ := hn
        obtain ⟨b, rfl⟩ := hm
        unfold power
        rw [if_neg (by intro h; exact h.2 ⟨a + b, by push_cast; rfl⟩), if_neg (by intro h; exact hx.ne h.1)]
        congr 1
        have := Real.rpow_intCast x (a + b)
        push_cast at this
        rw [this, Real.rpow_intCast, Real.rpow_intCast, zpow_add₀ hx.ne]
      · rw [if_pos ⟨hx, hm⟩] at hy
        exact absurd hy (by simp)
    · rw [if_pos ⟨hx, hn⟩] at hz
      exact absurd hz (by simp)
  · unfold power at hy hz ⊢
    rw [if_neg (by simp)] at hy hz
    rw [if_neg (by simp)]
    by_cases hm : m < 0
    · rw [if_pos ⟨rfl, hm⟩] at hy
      exact absurd hy (by simp)
    · by_cases hn : n < 0
      · rw [if_pos ⟨rfl, hn⟩] at hz
        exact absurd hz (by simp)
      · rw [if_neg (by intro h; exact hm h.2)] at hy
        rw [if_neg (by intro h; exact hn h.2)] at hz
        rw [if_neg (by rintro ⟨-, h⟩; linarith)]
        obtain rfl := Option.some.inj hy
        obtain rfl := Option.some.inj hz
        congr 1
        rcases (not_lt.1 hm).lt_or_eq with hm | rfl
        · rw [Real.zero_rpow hm.ne', mul_zero, Real.zero_rpow (by linarith)]
        · simp
  · rw [power_pos _ hx] at hy hz ⊢
    obtain rfl := Option.some.inj hy
    obtain rfl := Option.some.inj hz
    rw [Real.rpow_add hx]

/-- C65: the inverse of a power operator undoes it on the positive numbers, if the exponent is not mistaken. -/
theorem C65_inverse_partial {f r : Power} {n : ℝ} (hf : f.exponent = some n) (hn : n ≠ 0) (h : inverted f = some r)
    (hd : Distinct (1 / n)) {x y : ℝ} (hx : 0 < x) (hy : f.direct x = some y) : r.direct y = some x := by
  have e : r = powerOperator (1 / n) := by
    simp only [inverted, hf, Option.map_some] at h
    exact (Option.some.inj h).symm
  rw [direct_exponent hf, power_pos _ hx] at hy
  obtain rfl := Option.some.inj hy
  rw [e, C33_power_partial hd, power_pos _ (Real.rpow_pos_of_pos hx n), ← Real.rpow_mul hx.le, mul_one_div, div_self hn, Real.rpow_one]

/-- C65: the inverse of the square is the square root, which does not undo it on the negative numbers. -/
theorem C65_inverse_fails : ∃ (r : Power) (x y : ℝ), inverted .square = some r ∧ Power.square.direct x = some y ∧ r.direct y ≠ some x := by
  have h1 : powerOperator (1 / 2) = .sqrt := by
    unfold powerOperator Allclose
    rw [if_neg (by norm_num [abs_of_pos, abs_of_neg]), if_neg (by norm_num), if_pos (by norm_num)]
  refine ⟨.sqrt, -1, 1, ?_, ?_, ?_⟩
  · simp only [inverted, Power.exponent, Option.map_some, h1]
  · norm_num [Power.direct]
  · norm_num [Power.direct]

/-- The hypotheses of C33_compose_partial and C65_product_partial are met by the powers 3 and 2. -/
example : composed (.other 3) .square = some (powerOperator (3 * 2)) ∧ multiplied (.other 3) .square = some (powerOperator (3 + 2)) ∧
    Distinct (3 * 2) ∧ Distinct (3 + 2) ∧ Power.square.direct (-1) = some 1 ∧ (Power.other 3).direct 1 = some 1 ∧
    Integral 3 ∧ Integral 2 := by
  refine ⟨rfl, rfl, ?_, ?_, by norm_num [Power.direct], ?_, ⟨3, by norm_num⟩, ⟨2, by norm_num⟩⟩
  · intro b hb h
    exfalso
    simp only [Set.mem_insert_iff, Set.mem_singleton_iff] at hb
    rcases hb with rfl | rfl | rfl | rfl <;> norm_num [Allclose, abs_of_pos, abs_of_neg] at h
  · intro b hb h
    exfalso
    simp only [Set.mem_insert_iff, Set.mem_singleton_iff] at hb
    rcases hb with rfl | rfl | rfl | rfl <;> norm_num [Allclose, abs_of_pos, abs_of_neg] at h
  · show power 3 1 = some 1
    rw [power_pos _ (by norm_num), Real.one_rpow]

end Verif.Pointwise
