import Mathlib.Algebra.Order.Round
import Mathlib.Algebra.Order.Floor.Ring
import Mathlib.Data.Rat.Floor
import Mathlib.Tactic.Linarith
import Mathlib.Tactic.NormNum
import Mathlib.Tactic.Ring

/-
Model of the rounding operators: src/pyoperators/nonlinear.py:697-763 (`RoundOperator`), and property C31.

The operators act on each element.  The numbers are those of an ordered field with a floor function, such as the real or the rational
numbers, and `fl` is the rounding of the sum of two floating-point numbers.
-/

namespace Verif.Pointwise

variable {K : Type} [Field K] [LinearOrder K] [IsStrictOrderedRing K] [FloorRing K]

/-- `np.trunc` -/
def trunc (x : K) : K := if 0 ≤ x then ⌊x⌋ else ⌈x⌉

/-- `np.round(x, 0)`: the closest integer, and the even one if there are two (NumPy's documentation). -/
def roundEven (x : K) : K :=
  if x - ⌊x⌋ < 1 / 2 then ⌊x⌋ else if 1 / 2 < x - ⌊x⌋ then ⌊x⌋ + 1 else if ⌊x⌋ % 2 = 0 then ⌊x⌋ else ⌊x⌋ + 1

/-- `_direct_rhtmi`: src/pyoperators/nonlinear.py:740-745. -/
def halfDown (fl : K → K) (x : K) : K := fl (⌈fl (x + 1 / 2)⌉ + -1)

/-- `_direct_rhtpi`: src/pyoperators/nonlinear.py:747-752. -/
def halfUp (fl : K → K) (x : K) : K := fl (⌊fl (x + -(1 / 2))⌋ + 1)

/-- The methods that the documentation describes without the mention "Not implemented": src/pyoperators/nonlinear.py:702-712. -/
inductive Method where
  | rtz | rtmi | rtpi | rhti | rhtmi | rhtpi | rhte | rhto
deriving DecidableEq, Repr

/-- The table of the methods: src/pyoperators/nonlinear.py:718-734.  `none` is the ValueError. -/
def table (fl : K → K) : Method → Option (K → K)
  | .rtz => some trunc
  | .rtmi => some fun x => ⌊x⌋
  | .rtpi => some fun x => ⌈x⌉
  | .rhtmi => some (halfDown fl)
  | .rhtpi => some (halfUp fl)
  | .rhte => some roundEven
  | .rhti => none
  | .rhto => none

/-! ### Specification -/

/-- The number is an integer. -/
def IsInt (y : K) : Prop := ∃ n : ℤ, y = n

/-- The methods that round half: to a closest integer. -/
def Method.half : Method → Bool
  | .rtz | .rtmi | .rtpi => false
  | _ => true

/-- The documented direction: for the directed methods that of the result, and for the other ones that of the result if the number is
halfway between two integers. -/
def Method.Direction (m : Method) (x y : K) : Prop :=
  match m with
  | .rtz => |y| ≤ |x| ∧ 0 ≤ x * y
  | .rtmi => y ≤ x
  | .rtpi => x ≤ y
  | .rhti => |y - x| = 1 / 2 → |x| ≤ |y|
  | .rhtmi => |y - x| = 1 / 2 → y ≤ x
  | .rhtpi => |y - x| = 1 / 2 → x ≤ y
  | .rhte => |y - x| = 1 / 2 → ∃ n : ℤ, y = 2 * n
  | .rhto => |y - x| = 1 / 2 → ∃ n : ℤ, y = 2 * n + 1

/-- What the documentation of a method says of its result. -/
def Rounds (m : Method) (x y : K) : Prop :=
  IsInt y ∧ (if m.half then |y - x| ≤ 1 / 2 else |y - x| < 1) ∧ m.Direction x y

/-- The sums that the method computes for the number are exact. -/
def ExactAt (fl : K → K) (m : Method) (x : K) : Prop :=
  match m with
  | .rhtmi => fl (x + 1 / 2) = x + 1 / 2 ∧ fl (⌈x + 1 / 2⌉ + -1) = ⌈x + 1 / 2⌉ + -1
  | .rhtpi => fl (x + -(1 / 2)) = x + -(1 / 2) ∧ fl (⌊x + -(1 / 2)⌋ + 1) = ⌊x + -(1 / 2)⌋ + 1
  | _ => True

/-- C31: the methods that are implemented round as documented, if the sums are exact. -/
theorem C31_rounds_partial {fl : K → K} {m : Method} {f : K → K} (hf : table fl m = some f) {x : K} (hx : ExactAt fl m x) :
    Rounds m x (f x) := by
  have h1 := Int.floor_le x
  have h2 := Int.lt_floor_add_one x
  have h3 := Int.le_ceil x
  have h4 := Int.ceil_lt_add_one x
  cases m with
  | rhti => simp [table] at hf
  | rhto => simp [table] at hf
  | rtz =>
    obtain rfl := Option.some.inj hf
    unfold trunc Rounds Method.half Method.Direction
    split
    · rename_i h0
      have hn : (0 : K) ≤ ⌊x⌋ := by exact_mod_cast Int.floor_nonneg.2 h0
      refine ⟨⟨_, rfl⟩, ?_, ?_, mul_nonneg h0 hn⟩
      · simp only [Bool.false_eq_true, if_false]
        rw [abs_lt]
        constructor <;> linarith
      · rwa [abs_of_nonneg h0, abs_of_nonneg hn]
    · rename_i h0
      push Not at h0
      have hn : (⌈x⌉ : K) ≤ 0 := by exact_mod_cast Int.ceil_le.2 (by simpa using h0.le)
      refine ⟨⟨_, rfl⟩, ?_, ?_, mul_nonneg_of_nonpos_of_nonpos h0.le hn⟩
      · simp only [Bool.false_eq_true, if_false]
        rw [abs_lt]
        constructor <;> linarith
      · rw [abs_of_neg h0, abs_of_nonpos hn]
        linarith
  | rtmi =>
    obtain rfl := Option.some.inj hf
    refine ⟨⟨_, rfl⟩, ?_, h1⟩
    simp only [Method.half, Bool.false_eq_true, if_false]
    rw [abs_lt]
    constructor <;> linarith
  | rtpi =>
    obtain rfl := Option.some.inj hf
    refine ⟨⟨_, rfl⟩, ?_, h3⟩
    simp only [Method.half, Bool.false_eq_true, if_false]
    rw [abs_lt]
    constructor <;> linarith
  | rhtmi =>
    obtain rfl := Option.some.inj hf
    unfold halfDown
    rw [hx.1, hx.2]
    have h5 := Int.le_ceil (x + 1 / 2)
    have h6 := Int.ceil_lt_add_one (x + 1 / 2)
    refine ⟨⟨⌈x + 1 / 2⌉ - 1, by push_cast; ring⟩, ?_, ?_⟩
    · simp only [Method.half, if_true]
      rw [abs_le]
      constructor <;> linarith
    · intro h
      rcases abs_choice ((⌈x + 1 / 2⌉ : K) + -1 - x) with e | e <;> rw [e] at h <;> linarith
  | rhtpi =>
    obtain rfl := Option.some.inj hf
    unfold halfUp
    rw [hx.1, hx.2]
    have h5 := Int.floor_le (x + -(1 / 2))
    have h6 := Int.lt_floor_add_one (x + -(1 / 2))
    refine ⟨⟨⌊x + -(1 / 2)⌋ + 1, by push_cast; ring⟩, ?_, ?_⟩
    · simp only [Method.half, if_true]
      rw [abs_le]
      constructor <;> linarith
    · intro h
      rcases abs_choice ((⌊x + -(1 / 2)⌋ : K) + 1 - x) with e | e <;> rw [e] at h <;> linarith
  | rhte =>
    obtain rfl := Option.some.inj hf
    unfold roundEven
    split
    · refine ⟨⟨_, rfl⟩, ?_, ?_⟩
      · simp only [Method.half, if_true]
        rw [abs_le]
        constructor <;> linarith
      · intro h
        rcases abs_choice ((⌊x⌋ : K) - x) with e | e <;> rw [e] at h <;> linarith
    · split
      · refine ⟨⟨⌊x⌋ + 1, by push_cast; ring⟩, ?_, ?_⟩
        · simp only [Method.half, if_true]
          rw [abs_le]
          constructor <;> linarith
        · intro h
          rcases abs_choice ((⌊x⌋ : K) + 1 - x) with e | e <;> rw [e] at h <;> linarith
      · split
        · rename_i he
          refine ⟨⟨_, rfl⟩, ?_, ?_⟩
          · simp only [Method.half, if_true]
            rw [abs_le]
            constructor <;> linarith
          · intro _
            refine ⟨⌊x⌋ / 2, ?_⟩
            have : ⌊x⌋ = 2 * (⌊x⌋ / 2) := by omega
            exact_mod_cast this
        · rename_i he
          refine ⟨⟨⌊x⌋ + 1, by push_cast; ring⟩, ?_, ?_⟩
          · simp only [Method.half, if_true]
            rw [abs_le]
            constructor <;> linarith
          · intro _
            refine ⟨(⌊x⌋ + 1) / 2, ?_⟩
            have : ⌊x⌋ + 1 = 2 * ((⌊x⌋ + 1) / 2) := by omega
            exact_mod_cast this

/-- The directed methods and the rounding to even do no floating-point operation, and round all the numbers as documented. -/
theorem C31_exact {fl : K → K} {m : Method} {f : K → K} (hf : table fl m = some f)
    (hm : m ≠ .rhtmi ∧ m ≠ .rhtpi) (x : K) : Rounds m x (f x) := by
  apply C31_rounds_partial hf
  cases m <;> simp_all [ExactAt]

/-- C31: two of the documented methods are not implemented. -/
theorem C31_methods_fails : table (id : ℚ → ℚ) .rhti = none ∧ table (id : ℚ → ℚ) .rhto = none := ⟨rfl, rfl⟩

/-- The double precision number closest to a number between 2⁵² and 2⁵³: these are the integers, and the ties go to the even one. -/
def double (q : ℚ) : ℚ := roundEven q

theorem floor_half : ⌊(2 ^ 52 : ℚ) + 1 / 2⌋ = 2 ^ 52 := by
  rw [Int.floor_eq_iff]
  norm_num

/-- The sum of 2⁵² and one half is rounded to 2⁵². -/
theorem double_half : double (2 ^ 52 + 1 / 2) = 2 ^ 52 := by
  unfold double roundEven
  rw [floor_half]
  norm_num

/-- C31: rounding half towards minus infinity returns 2⁵² - 1 for 2⁵², which is an integer. -/
theorem C31_large_fails : ∃ f : ℚ → ℚ, table double .rhtmi = some f ∧ f (2 ^ 52) = 2 ^ 52 - 1 ∧ ¬ Rounds .rhtmi (2 ^ 52) (f (2 ^ 52)) := by
  have e : halfDown double (2 ^ 52 : ℚ) = 2 ^ 52 - 1 := by
    unfold halfDown
    rw [double_half]
    have h : (⌈(2 ^ 52 : ℚ)⌉ : ℤ) = 2 ^ 52 := by
      rw [Int.ceil_eq_iff]
      norm_num
    rw [h]
    unfold double roundEven
    have h' : ⌊((2 ^ 52 : ℤ) : ℚ) + -1⌋ = 2 ^ 52 - 1 := by
      rw [Int.floor_eq_iff]
      norm_num
    rw [h']
    norm_num
  refine ⟨_, rfl, e, ?_⟩
  rw [e]
  rintro ⟨-, h, -⟩
  norm_num [Method.half] at h

/-- The hypotheses of C31_rounds_partial are met by 5/2, a tie. -/
example : table (id : ℚ → ℚ) .rhtmi = some (halfDown id) ∧ ExactAt (id : ℚ → ℚ) .rhtmi (5 / 2) ∧
    halfDown (id : ℚ → ℚ) (5 / 2) = 2 ∧ halfUp (id : ℚ → ℚ) (5 / 2) = 3 ∧ roundEven (5 / 2 : ℚ) = 2 ∧ roundEven (7 / 2 : ℚ) = 4 := by
  refine ⟨rfl, ⟨rfl, rfl⟩, ?_, ?_, ?_, ?_⟩
  · have h : ⌈(5 / 2 + 1 / 2 : ℚ)⌉ = 3 := by rw [Int.ceil_eq_iff]; norm_num
    simp only [halfDown, id, h]
    norm_num
  · have h : ⌊(5 / 2 + -(1 / 2) : ℚ)⌋ = 2 := by rw [Int.floor_eq_iff]; norm_num
    simp only [halfUp, id, h]
    norm_num
  · have h : ⌊(5 / 2 : ℚ)⌋ = 2 := by rw [Int.floor_eq_iff]; norm_num
    simp only [roundEven, h]
    norm_num
  · have h : ⌊(7 / 2 : ℚ)⌋ = 3 := by rw [Int.floor_eq_iff]; norm_num
    simp only [roundEven, h]
    norm_num

/-- Negative numbers. -/
example : trunc (-(3 / 2) : ℚ) = -1 := by
  have h : ⌈(-(3 / 2) : ℚ)⌉ = -1 := by rw [Int.ceil_eq_iff]; norm_num
  simp only [trunc, h]
  norm_num

end Verif.Pointwise
