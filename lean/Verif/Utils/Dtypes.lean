import Mathlib.Data.Rat.Defs
import Mathlib.Algebra.Order.Field.Rat
import Mathlib.Algebra.Order.Ring.Abs
import Mathlib.Tactic.Linarith
import Mathlib.Tactic.NormNum
import Mathlib.Tactic.Positivity
import Mathlib.Tactic.FieldSimp
import Mathlib.Tactic.Push

/-!
Model of the functions that choose data types, src/pyoperators/utils/misc.py:247-370 (`complex_dtype`, `float_dtype`, `float_intrinsic_dtype`,
`float_or_complex_dtype`), and property C112. Matrices are converted by them (linear.py:159), and so are the
angles of the rotations (linear.py:1001 and 1080) and the kernels of the convolutions (fft.py:129).
-/

namespace Verif.Dtypes

/-- `dtype.kind`: boolean, signed integer, unsigned integer, floating, complex, and the others (strings, dates, objects, records). -/
inductive Kind where
  | b | i | u | f | c | other
  deriving DecidableEq, Repr

/-- The first character of `dtype.str`: '<', '>' or '|' (for which the order of the bytes does not matter). -/
inductive Order where
  | little | big | none
  deriving DecidableEq, Repr

/-- A data type of NumPy: its kind, its size in bytes and the order of the bytes. The machine is little-endian. -/
structure Dtype where
  kind : Kind
  itemsize : Nat
  order : Order
  deriving DecidableEq, Repr

/-- The numeric data types of NumPy on x86-64 (long doubles are stored in 16 bytes), and the data types of the other kinds. -/
def Dtype.Valid (d : Dtype) : Prop :=
  match d.kind with
  | .b => d.itemsize = 1 ∧ d.order = .none
  | .i | .u => (d.itemsize = 1 ∧ d.order = .none) ∨ ((d.itemsize = 2 ∨ d.itemsize = 4 ∨ d.itemsize = 8) ∧ d.order ≠ .none)
  | .f => (d.itemsize = 2 ∨ d.itemsize = 4 ∨ d.itemsize = 8 ∨ d.itemsize = 16) ∧ d.order ≠ .none
  | .c => (d.itemsize = 8 ∨ d.itemsize = 16 ∨ d.itemsize = 32) ∧ d.order ≠ .none
  | .other => True

/-- `np.dtype(float)`. -/
def float64 : Dtype := ⟨.f, 8, .little⟩

/-- `np.dtype(complex)`. -/
def complex128 : Dtype := ⟨.c, 16, .little⟩

/-- `complex_dtype`: src/pyoperators/utils/misc.py:247-274. The exception TypeError is `none`. -/
def complexDtype (d : Dtype) : Option Dtype :=
  if d.kind = .c then some d
  else if d.kind = .other then none
  else if d.kind ≠ .f ∨ d.itemsize = 2 then some complex128
  else some ⟨.c, d.itemsize * 2, d.order⟩

/-- `float_dtype`: src/pyoperators/utils/misc.py:277-308. -/
def floatDtype (d : Dtype) : Option Dtype :=
  if d.kind = .f then some d
  else if d.kind = .other then none
  else if d.kind ≠ .c then some float64
  else some ⟨.f, d.itemsize / 2, d.order⟩

/-- `float_intrinsic_dtype`: src/pyoperators/utils/misc.py:311-342. -/
def floatIntrinsicDtype (d : Dtype) : Option Dtype :=
  if d.kind = .other then none
  else if d.kind = .b ∨ d.kind = .i ∨ d.kind = .u then some float64
  else
    let itemsize := if d.kind = .f then d.itemsize else d.itemsize / 2
    some ⟨.f, max 4 (min itemsize 8), .little⟩

/-- `float_or_complex_dtype`: src/pyoperators/utils/misc.py:345-370. -/
def floatOrComplexDtype (d : Dtype) : Option Dtype :=
  if d.kind = .other then none
  else if d.kind = .i ∨ d.kind = .u ∨ d.kind = .b then some float64
  else some d

/-! ### The values of the data types -/

/-- The rational numbers m 2^e where m has less than p bits and e is between two bounds: the finite numbers of a binary format. -/
def Binary (p : Nat) (low high : Int) (x : ℚ) : Prop := ∃ m e : Int, x = m * 2 ^ e ∧ |m| < 2 ^ p ∧ low ≤ e ∧ e ≤ high

/-- The finite numbers of the floating formats of IEEE 754, and of the long doubles (64 bits of precision). -/
def FloatValue (itemsize : Nat) (x : ℚ) : Prop :=
  match itemsize with
  | 2 => Binary 11 (-24) 5 x
  | 4 => Binary 24 (-149) 104 x
  | 8 => Binary 53 (-1074) 971 x
  | 16 => Binary 64 (-16445) 16320 x
  | _ => False

/-- The finite values of a numeric data type: the real and the imaginary parts. -/
def Dtype.Value (d : Dtype) (re im : ℚ) : Prop :=
  match d.kind with
  | .b => (re = 0 ∨ re = 1) ∧ im = 0
  | .i => (∃ n : Int, re = n ∧ -2 ^ (8 * d.itemsize - 1) ≤ n ∧ n < 2 ^ (8 * d.itemsize - 1)) ∧ im = 0
  | .u => (∃ n : Int, re = n ∧ 0 ≤ n ∧ n < 2 ^ (8 * d.itemsize)) ∧ im = 0
  | .f => FloatValue d.itemsize re ∧ im = 0
  | .c => FloatValue (d.itemsize / 2) re ∧ FloatValue (d.itemsize / 2) im
  | .other => False

/-- The integers of 64 bits. -/
def Dtype.Wide (d : Dtype) : Prop := (d.kind = .i ∨ d.kind = .u) ∧ d.itemsize = 8

theorem Binary.mono {p p' : Nat} {l l' h h' : Int} {x : ℚ} (hx : Binary p l h x) (hp : p ≤ p') (hl : l' ≤ l) (hh : h ≤ h') : Binary p' l' h' x := by
  obtain ⟨m, e, h1, h2, h3, h4⟩ := hx
  exact ⟨m, e, h1, lt_of_lt_of_le h2 (pow_le_pow_right₀ (by norm_num) hp), by omega, by omega⟩

theorem binary_int {p : Nat} {l h : Int} (n : Int) (hn : |n| < 2 ^ p) (hl : l ≤ 0) (hh : 0 ≤ h) : Binary p l h (n : ℚ) :=
  ⟨n, 0, by simp, hn, hl, hh⟩

theorem floatValue_mono {a b : Nat} {x : ℚ} (hx : FloatValue a x) (hab : a ≤ b) (hb : b = 4 ∨ b = 8 ∨ b = 16) : FloatValue b x := by
  unfold FloatValue at hx
  split at hx
  · rcases hb with rfl | rfl | rfl <;> exact hx.mono (by norm_num) (by norm_num) (by norm_num)
  · rcases hb with rfl | rfl | rfl <;> exact hx.mono (by norm_num) (by norm_num) (by norm_num)
  · rcases hb with rfl | rfl | rfl
    · omega
    · exact hx
    · exact hx.mono (by norm_num) (by norm_num) (by norm_num)
  · rcases hb with rfl | rfl | rfl
    · omega
    · omega
    · exact hx
  · exact hx.elim

theorem zero_value {b : Nat} (hb : b = 4 ∨ b = 8 ∨ b = 16) : FloatValue b 0 := by
  rcases hb with rfl | rfl | rfl <;> exact ⟨0, 0, by simp, by norm_num, by norm_num, by norm_num⟩

/-- The booleans and the integers of at most 32 bits are numbers of the double precision. -/
theorem integer_value {d : Dtype} (hd : d.Valid) (hw : ¬ d.Wide) (hk : d.kind = .b ∨ d.kind = .i ∨ d.kind = .u) {re im : ℚ} (hv : d.Value re im) :
    FloatValue 8 re ∧ im = 0 := by
  obtain ⟨k, s, o⟩ := d
  have small : ∀ n : Int, -2 ^ 32 ≤ n → n < 2 ^ 32 → FloatValue 8 (n : ℚ) := fun n h1 h2 =>
    binary_int n (by rw [abs_lt]; constructor <;> omega) (by norm_num) (by norm_num)
  simp only at hk
  rcases hk with rfl | rfl | rfl
  · obtain ⟨h | h, him⟩ := hv
    · refine ⟨?_, him⟩
      have := small 0 (by norm_num) (by norm_num)
      rw [h]
      exact_mod_cast this
    · refine ⟨?_, him⟩
      have := small 1 (by norm_num) (by norm_num)
      rw [h]
      exact_mod_cast this
  · obtain ⟨⟨n, rfl, h1, h2⟩, him⟩ := hv
    refine ⟨?_, him⟩
    simp only [Dtype.Valid, Dtype.Wide, true_or, true_and] at hd hw h1 h2
    rcases hd with ⟨rfl, _⟩ | ⟨rfl | rfl | rfl, _⟩
    · exact small n (by norm_num at h1 ⊢; omega) (by norm_num at h2 ⊢; omega)
    · exact small n (by norm_num at h1 ⊢; omega) (by norm_num at h2 ⊢; omega)
    · exact small n (by norm_num at h1 ⊢; omega) (by norm_num at h2 ⊢; omega)
    · exact absurd rfl hw
  · obtain ⟨⟨n, rfl, h1, h2⟩, him⟩ := hv
    refine ⟨?_, him⟩
    simp only [Dtype.Valid, Dtype.Wide, or_true, true_and] at hd hw h1 h2
    rcases hd with ⟨rfl, _⟩ | ⟨rfl | rfl | rfl, _⟩
    · exact small n (by omega) (by norm_num at h2 ⊢; omega)
    · exact small n (by omega) (by norm_num at h2 ⊢; omega)
    · exact small n (by omega) (by norm_num at h2 ⊢; omega)
    · exact absurd rfl hw

/-! ### The property -/

/-- C112: the four functions raise TypeError for the data types that are not numeric, and only for them; otherwise, they return a data type of NumPy
of the kind that their names tell. -/
theorem C112_kinds (d : Dtype) (hd : d.Valid) :
    (d.kind = .other → complexDtype d = none ∧ floatDtype d = none ∧ floatIntrinsicDtype d = none ∧ floatOrComplexDtype d = none) ∧
    (d.kind ≠ .other →
      (∃ c, complexDtype d = some c ∧ c.Valid ∧ c.kind = .c) ∧ (∃ f, floatDtype d = some f ∧ f.Valid ∧ f.kind = .f) ∧
      (∃ f, floatIntrinsicDtype d = some f ∧ (f = float64 ∨ f = ⟨.f, 4, .little⟩)) ∧
      ∃ r, floatOrComplexDtype d = some r ∧ r.Valid ∧ (d.kind = .c ∧ r.kind = .c ∨ d.kind ≠ .c ∧ r.kind = .f)) := by
  obtain ⟨k, s, o⟩ := d
  cases k
  case f =>
    obtain ⟨h | h | h | h, ho⟩ := hd <;> simp only at h ho <;> subst h <;>
      simp [complexDtype, floatDtype, floatIntrinsicDtype, floatOrComplexDtype, Dtype.Valid, float64, complex128, ho]
  case c =>
    obtain ⟨h | h | h, ho⟩ := hd <;> simp only at h ho <;> subst h <;>
      simp [complexDtype, floatDtype, floatIntrinsicDtype, floatOrComplexDtype, Dtype.Valid, float64, ho]
  all_goals simp [complexDtype, floatDtype, floatIntrinsicDtype, floatOrComplexDtype, Dtype.Valid, float64, complex128]

/-- C112, partial: the conversion to the data type that the functions return is exact, except for the integers of 64 bits and, for the intrinsic
data types, for the long doubles: each finite value of the initial data type is a value of the new one; for the functions that return a floating data
type, its real and imaginary parts are. The intrinsic data types are
documented as being at most of double precision. Missing: the integers of 64 bits, see `C112_integers_fails`. -/
theorem C112_exact_partial (d : Dtype) (hd : d.Valid) (hw : ¬ d.Wide) (re im : ℚ) (hv : d.Value re im) :
    (∀ c, complexDtype d = some c → c.Value re im) ∧
    (∀ r, floatOrComplexDtype d = some r → r.Value re im) ∧
    (∀ f, floatDtype d = some f → f.Value re 0 ∧ f.Value im 0) ∧
    (∀ f, floatIntrinsicDtype d = some f → ¬ (d.kind = .f ∧ d.itemsize = 16) → ¬ (d.kind = .c ∧ d.itemsize = 32) → f.Value re 0 ∧ f.Value im 0) := by
  by_cases hk : d.kind = .b ∨ d.kind = .i ∨ d.kind = .u
  · obtain ⟨h1, rfl⟩ := integer_value hd hw hk hv
    have h0 : FloatValue 8 0 := zero_value (by simp)
    obtain ⟨k, s, o⟩ := d
    simp only at hk
    rcases hk with rfl | rfl | rfl <;>
      refine ⟨?_, ?_, ?_, ?_⟩ <;> intro x hx <;> simp [complexDtype, floatDtype, floatIntrinsicDtype, floatOrComplexDtype] at hx <;> subst hx <;>
      simp [Dtype.Value, float64, complex128, h0, h1]
  · obtain ⟨k, s, o⟩ := d
    cases k <;> simp at hk
    case f =>
      obtain ⟨hf, rfl⟩ := hv
      obtain ⟨hs, ho⟩ := hd
      simp only at hf hs ho
      have h4 : FloatValue 4 0 := zero_value (by simp)
      have h8 : FloatValue 8 0 := zero_value (by simp)
      have h16 : FloatValue 16 0 := zero_value (by simp)
      have h2 : FloatValue 2 0 := ⟨0, 0, by simp, by norm_num, by norm_num, by norm_num⟩
      refine ⟨?_, ?_, ?_, ?_⟩ <;> intro x hx
      · rcases hs with rfl | rfl | rfl | rfl <;> simp [complexDtype] at hx <;> subst hx <;> simp only [Dtype.Value, complex128]
        · exact ⟨floatValue_mono hf (by norm_num) (by simp), h8⟩
        · exact ⟨hf, h4⟩
        · exact ⟨hf, h8⟩
        · exact ⟨hf, h16⟩
      · simp [floatOrComplexDtype] at hx
        subst hx
        exact ⟨hf, rfl⟩
      · simp [floatDtype] at hx
        subst hx
        refine ⟨⟨hf, rfl⟩, ?_, rfl⟩
        rcases hs with rfl | rfl | rfl | rfl <;> assumption
      · intro hn _
        rcases hs with rfl | rfl | rfl | rfl <;> simp [floatIntrinsicDtype] at hx hn <;> subst hx <;> simp only [Dtype.Value]
        · exact ⟨⟨floatValue_mono hf (by norm_num) (by simp), trivial⟩, h4, trivial⟩
        · exact ⟨⟨hf, trivial⟩, h4, trivial⟩
        · exact ⟨⟨hf, trivial⟩, h8, trivial⟩
    case c =>
      obtain ⟨hre, him⟩ := hv
      obtain ⟨hs, ho⟩ := hd
      simp only at hre him hs ho
      refine ⟨?_, ?_, ?_, ?_⟩ <;> intro x hx
      · simp [complexDtype] at hx
        subst hx
        exact ⟨hre, him⟩
      · simp [floatOrComplexDtype] at hx
        subst hx
        exact ⟨hre, him⟩
      · simp [floatDtype] at hx
        subst hx
        exact ⟨⟨hre, rfl⟩, him, rfl⟩
      · intro _ hn
        rcases hs with rfl | rfl | rfl <;> simp [floatIntrinsicDtype] at hx hn <;> subst hx <;> exact ⟨⟨hre, rfl⟩, him, rfl⟩
    case other => exact hv.elim

/-- C112, partial: the functions are consistent: the complex data type of the floating data type of a complex one is this data type; the
floating data type of the complex data type is the floating data type, except for the half precision (`C112_half_fails`). The order of the bytes is kept. -/
theorem C112_consistent_partial (d c f : Dtype) (hd : d.Valid) (hc : complexDtype d = some c) (hf : floatDtype d = some f) :
    (d.kind = .c → complexDtype f = some d) ∧ (¬ (d.kind = .f ∧ d.itemsize = 2) → floatDtype c = some f ∧ complexDtype f = some c) ∧
    (d.kind = .c ∨ d.kind = .f → f.order = d.order) ∧ (d.kind = .c ∨ d.kind = .f ∧ d.itemsize ≠ 2 → c.order = d.order) := by
  obtain ⟨k, s, o⟩ := d
  cases k
  case f =>
    obtain ⟨h | h | h | h, ho⟩ := hd <;> simp only at h ho <;> subst h <;> simp [complexDtype, floatDtype] at hc hf <;> subst hc <;> subst hf <;>
      simp [complexDtype, floatDtype]
  case c =>
    obtain ⟨h | h | h, ho⟩ := hd <;> simp only at h ho <;> subst h <;> simp [complexDtype, floatDtype] at hc hf <;> subst hc <;> subst hf <;>
      simp [complexDtype, floatDtype]
  all_goals
    simp [complexDtype, floatDtype] at hc hf
    try (subst hc; subst hf; simp [complexDtype, floatDtype, complex128, float64])

/-- C112: the intrinsic data type is the floating data type in the order of the bytes of the machine, if it is of single or double precision; otherwise it is
the closest of the two. -/
theorem C112_intrinsic (d f : Dtype) (hd : d.Valid) (hf : floatDtype d = some f) :
    (f.itemsize = 4 ∨ f.itemsize = 8 → floatIntrinsicDtype d = some ⟨.f, f.itemsize, .little⟩) ∧
    (f.itemsize < 4 → floatIntrinsicDtype d = some ⟨.f, 4, .little⟩) ∧ (8 < f.itemsize → floatIntrinsicDtype d = some float64) := by
  obtain ⟨k, s, o⟩ := d
  cases k
  case f =>
    obtain ⟨h | h | h | h, ho⟩ := hd <;> simp only at h ho <;> subst h <;> simp [floatDtype] at hf <;> subst hf <;>
      simp [floatIntrinsicDtype, float64]
  case c =>
    obtain ⟨h | h | h, ho⟩ := hd <;> simp only at h ho <;> subst h <;> simp [floatDtype] at hf <;> subst hf <;> simp [floatIntrinsicDtype, float64]
  all_goals
    simp [floatDtype] at hf
    try (subst hf; simp [floatIntrinsicDtype, float64])

example : floatDtype ⟨.c, 8, .big⟩ = some ⟨.f, 4, .big⟩ ∧ floatIntrinsicDtype ⟨.c, 8, .big⟩ = some ⟨.f, 4, .little⟩ := by decide

/-- C112: applying a function twice is applying it once. -/
theorem C112_idempotent (d : Dtype) :
    (complexDtype d).bind complexDtype = complexDtype d ∧ (floatDtype d).bind floatDtype = floatDtype d ∧
    (floatOrComplexDtype d).bind floatOrComplexDtype = floatOrComplexDtype d ∧
    (floatIntrinsicDtype d).bind floatIntrinsicDtype = floatIntrinsicDtype d := by
  obtain ⟨k, s, o⟩ := d
  refine ⟨?_, ?_, ?_, ?_⟩ <;> cases k <;> simp [complexDtype, floatDtype, floatOrComplexDtype, floatIntrinsicDtype, float64, complex128]
  by_cases h : s = 2 <;> simp [h, complexDtype]

/-! ### Where the code differs -/

/-- An integer m 2^e where m has less than p bits is even, if it has more than p bits. -/
theorem not_binary {p : Nat} {l h n : Int} (hn : 2 ^ p ≤ n) (ho : n % 2 = 1) : ¬ Binary p l h (n : ℚ) := by
  rintro ⟨m, e, h1, h2, _, _⟩
  rcases le_or_gt e 0 with he | he
  · have hle : (2 : ℚ) ^ e ≤ 1 := zpow_le_one_of_nonpos₀ (by norm_num) he
    have hpos : (0 : ℚ) < 2 ^ e := zpow_pos (by norm_num) e
    have hm : (n : ℚ) ≤ |(m : ℚ)| := by
      rw [h1]
      calc (m : ℚ) * 2 ^ e ≤ |(m : ℚ)| * 2 ^ e := mul_le_mul_of_nonneg_right (le_abs_self _) hpos.le
        _ ≤ |(m : ℚ)| * 1 := mul_le_mul_of_nonneg_left hle (abs_nonneg _)
        _ = |(m : ℚ)| := mul_one _
    have : n ≤ |m| := by exact_mod_cast hm
    omega
  · obtain ⟨k, rfl⟩ := Int.eq_succ_of_zero_lt he
    have e1 : (n : ℚ) = ((m * 2 ^ k * 2 : Int) : ℚ) := by
      rw [h1]
      push_cast
      rw [show ((k : Int) + 1) = ((k + 1 : Nat) : Int) from rfl, zpow_natCast, pow_succ, mul_assoc]
    have e2 : n = m * 2 ^ k * 2 := by exact_mod_cast e1
    omega

/-- C112 fails: the integers of 64 bits, which are the default ones, are not converted exactly: 2^53 + 1 is not a number of the data types that the
functions return for them. The matrix of a DenseOperator of integers of 64 bits is not the given one. -/
theorem C112_integers_fails : ∃ d : Dtype, d.Valid ∧ d.Value (2 ^ 53 + 1) 0 ∧
    floatOrComplexDtype d = some float64 ∧ floatDtype d = some float64 ∧ complexDtype d = some complex128 ∧
    ¬ float64.Value (2 ^ 53 + 1) 0 ∧ ¬ complex128.Value (2 ^ 53 + 1) 0 := by
  have hn : ¬ FloatValue 8 (2 ^ 53 + 1) := by
    have := not_binary (p := 53) (l := -1074) (h := 971) (n := 2 ^ 53 + 1) (by norm_num) (by norm_num)
    intro h
    apply this
    rw [show (((2 ^ 53 + 1 : Int)) : ℚ) = 2 ^ 53 + 1 by norm_num]
    exact h
  refine ⟨⟨.i, 8, .little⟩, by simp [Dtype.Valid], ⟨⟨2 ^ 53 + 1, by norm_num, by norm_num, by norm_num⟩, rfl⟩, by decide, by decide, by decide, ?_, ?_⟩
  · exact fun h => hn h.1
  · exact fun h => hn h.1

/-- C112 fails: the complex data type of the half precision is not the one that has the same precision or the next one (complex64), and the order of the
bytes is lost; `float_dtype` keeps both. -/
theorem C112_half_fails : ∃ d c f : Dtype, d.Valid ∧ complexDtype d = some c ∧ floatDtype d = some f ∧ floatDtype c ≠ some f ∧
    d.order = .big ∧ f.order = .big ∧ c.order = .little :=
  ⟨⟨.f, 2, .big⟩, complex128, ⟨.f, 2, .big⟩, by simp [Dtype.Valid], by decide, by decide, by decide, rfl, rfl, rfl⟩

/-! ### Examples -/

example : complexDtype ⟨.f, 8, .big⟩ = some ⟨.c, 16, .big⟩ ∧ floatDtype ⟨.c, 32, .big⟩ = some ⟨.f, 16, .big⟩ ∧
    floatIntrinsicDtype ⟨.c, 32, .little⟩ = some float64 ∧ floatOrComplexDtype ⟨.i, 4, .big⟩ = some float64 := by decide

example : (⟨.i, 4, .big⟩ : Dtype).Valid ∧ ¬ (⟨.i, 4, .big⟩ : Dtype).Wide ∧ (⟨.i, 4, .big⟩ : Dtype).Value (-2 ^ 31) 0 :=
  ⟨by simp [Dtype.Valid], by simp [Dtype.Wide], ⟨-2 ^ 31, by norm_num, by norm_num, by norm_num⟩, rfl⟩

/-- 3/4 + 5 i in single precision. -/
example : (⟨.c, 8, .little⟩ : Dtype).Value (3 / 4) 5 :=
  ⟨⟨3, -2, by norm_num, by norm_num, by norm_num, by norm_num⟩, ⟨5, 0, by norm_num, by norm_num, by norm_num, by norm_num⟩⟩

end Verif.Dtypes
