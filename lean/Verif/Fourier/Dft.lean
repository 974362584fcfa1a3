import Mathlib.Analysis.SpecialFunctions.Complex.CircleAddChar
import Mathlib.NumberTheory.LegendreSymbol.AddCharacter
import Mathlib.Algebra.BigOperators.Pi
import Mathlib.Algebra.BigOperators.Ring.Finset
import Mathlib.Tactic.Ring
import Mathlib.Tactic.FieldSimp

/-
The discrete Fourier transforms that the FFTW library computes, for arrays of any number of dimensions.  The transforms themselves are not
part of the repository: the definitions follow the documentation of FFTW (sections "What FFTW Really Computes" and "Multi-dimensional
Array Format"), in exact arithmetic.
-/

namespace Verif.Fourier

open Complex Finset

/-- The grid of the indices of an array, the indices being added modulo the dimensions, with the values e(j, k) = exp(2πi ∑ jₐkₐ/nₐ). -/
class Grid (G : Type) [AddCommGroup G] [Fintype G] [DecidableEq G] where
  e : G → G → ℂ
  add : ∀ a b k, e (a + b) k = e a k * e b k
  comm : ∀ a b, e a b = e b a
  conj : ∀ a k, (starRingEnd ℂ) (e a k) = e (-a) k
  sum : ∀ a, ∑ k, e a k = if a = 0 then (Fintype.card G : ℂ) else 0

/-- The values exp(2πijk/n) for one dimension. -/
noncomputable instance (n : ℕ) [NeZero n] : Grid (ZMod n) where
  e a k := ZMod.stdAddChar (a * k)
  add a b k := by rw [add_mul, AddChar.map_add_eq_mul]
  comm a b := by rw [mul_comm]
  conj a k := by
    rw [ZMod.stdAddChar_apply, ZMod.stdAddChar_apply, ← Circle.coe_inv_eq_conj, neg_mul, AddChar.map_neg_eq_inv]
  sum a := by
    have := AddChar.sum_mulShift a (ZMod.isPrimitive_stdAddChar n)
    simp only [mul_comm a]
    rw [this]
    split <;> simp

/-- The formula of the values for one dimension. -/
theorem e_formula (n : ℕ) [NeZero n] (a k : ℤ) :
    Grid.e ((a : ZMod n)) ((k : ZMod n)) = exp (2 * Real.pi * I * (a * k : ℤ) / n) := by
  have := ZMod.stdAddChar_coe (N := n) (a * k)
  rw [← this]
  simp [Grid.e]

/-- The products of the values along each dimension. -/
noncomputable instance (d : ℕ) (n : Fin d → ℕ) [∀ i, NeZero (n i)] : Grid ((i : Fin d) → ZMod (n i)) where
  e a k := ∏ i, Grid.e (a i) (k i)
  add a b k := by simp only [Pi.add_apply, Grid.add, Finset.prod_mul_distrib]
  comm a b := by simp only [Grid.comm]
  conj a k := by rw [map_prod]; simp only [Grid.conj, Pi.neg_apply]
  sum a := by
    have : ∑ k : (i : Fin d) → ZMod (n i), ∏ i, Grid.e (a i) (k i) = ∏ i, ∑ k : ZMod (n i), Grid.e (a i) k := by
      rw [Finset.prod_univ_sum]; simp
    rw [this]
    simp only [Grid.sum]
    by_cases h : a = 0
    · subst h
      simp [Fintype.card_pi]
    · rw [if_neg h]
      obtain ⟨i, hi⟩ := Function.ne_iff.1 h
      exact Finset.prod_eq_zero (Finset.mem_univ i) (if_neg hi)

variable {G : Type} [AddCommGroup G] [Fintype G] [DecidableEq G] [Grid G]

/-- The forward transform. -/
noncomputable def dft (x : G → ℂ) (k : G) : ℂ := ∑ j, x j * Grid.e (-j) k

/-- The backward transform, which is not normalised. -/
noncomputable def idft (y : G → ℂ) (j : G) : ℂ := ∑ k, y k * Grid.e j k

/-- The forward transform of a real array.  Only the elements of the half of the last dimension are stored. -/
noncomputable def r2c (x : G → ℝ) : G → ℂ := dft fun j => (x j : ℂ)

/-- The array, of which the half h is stored, that has the Hermitian symmetry. -/
noncomputable def extend (h : G → Bool) (y : G → ℂ) (k : G) : ℂ := if h k then y k else (starRingEnd ℂ) (y (-k))

/-- The backward transform into a real array, given the half h of an array that has the Hermitian symmetry. -/
noncomputable def c2r (h : G → Bool) (y : G → ℂ) (j : G) : ℝ := (idft (extend h y) j).re

/-- The circular convolution. -/
def conv {R : Type} [NonUnitalNonAssocSemiring R] (a x : G → R) (j : G) : R := ∑ t, a t * x (j - t)

theorem e_zero (k : G) : Grid.e 0 k = (1 : ℂ) := by
  have h1 := Grid.add (0 : G) 0 k
  rw [add_zero] at h1
  have h2 := Grid.conj (0 : G) k
  rw [neg_zero] at h2
  by_contra h
  have h3 : Grid.e (0 : G) k = (0 : ℂ) := by
    have : Grid.e (0 : G) k * (Grid.e (0 : G) k - 1) = (0 : ℂ) := by linear_combination -h1
    rcases mul_eq_zero.1 this with h4 | h4
    · exact h4
    · exact absurd (sub_eq_zero.1 h4) h
  have h4 : ∀ a : G, Grid.e a k = (0 : ℂ) := by
    intro a
    have := Grid.add a 0 k
    rw [add_zero, h3, mul_zero] at this
    exact this
  have h5 := Grid.sum (0 : G)
  rw [if_pos rfl] at h5
  have h6 : ∀ a b : G, (Grid.e a b : ℂ) = Grid.e (a - k) b * Grid.e k b := by
    intro a b; rw [← Grid.add, sub_add_cancel]
  have h7 : ∑ b : G, (Grid.e (0 : G) b : ℂ) * Grid.e (0 : G) b = Fintype.card G := by
    rw [← h5]; apply Finset.sum_congr rfl; intro b _; rw [← Grid.add, add_zero]
  have h8 : ∀ b : G, (Grid.e (0 : G) b : ℂ) = 0 ∨ (Grid.e (0 : G) b : ℂ) = 1 := by
    intro b
    have := Grid.add (0 : G) 0 b
    rw [add_zero] at this
    have : Grid.e (0 : G) b * (Grid.e (0 : G) b - 1) = (0 : ℂ) := by linear_combination -this
    rcases mul_eq_zero.1 this with h4 | h4
    · exact Or.inl h4
    · exact Or.inr (sub_eq_zero.1 h4)
  have h9 : ∑ b : G, (Grid.e (0 : G) b : ℂ).re < ∑ b : G, (1 : ℝ) := by
    apply Finset.sum_lt_sum
    · intro b _
      rcases h8 b with h | h <;> rw [h] <;> simp
    · exact ⟨k, Finset.mem_univ _, by rw [h3]; simp⟩
  have h10 := congrArg Complex.re h5
  rw [Complex.re_sum] at h10
  rw [h10] at h9
  simp at h9

theorem e_neg_mul (a k : G) : Grid.e (-a) k * Grid.e a k = (1 : ℂ) := by rw [← Grid.add, neg_add_cancel, e_zero]

theorem e_neg_neg (a k : G) : Grid.e (-a) (-k) = (Grid.e a k : ℂ) := by
  rw [← Grid.conj, Grid.comm, ← Grid.conj, Complex.conj_conj, Grid.comm]

theorem e_neg_right (a k : G) : Grid.e a (-k) = (Grid.e (-a) k : ℂ) := by
  rw [← e_neg_neg, neg_neg]

/-- The backward transform undoes the forward one, up to the number of elements. -/
theorem idft_dft (x : G → ℂ) (j : G) : idft (dft x) j = Fintype.card G * x j := by
  simp only [idft, dft, Finset.sum_mul]
  rw [Finset.sum_comm]
  have : ∀ t, ∑ k, x t * Grid.e (-t) k * Grid.e j k = if j = t then Fintype.card G * x t else 0 := by
    intro t
    simp only [mul_assoc, ← Grid.add, ← Finset.mul_sum]
    rw [Grid.sum]
    by_cases h : j = t
    · subst h; simp [mul_comm]
    · rw [if_neg h, if_neg (by rw [neg_add_eq_zero]; exact fun e => h e.symm), mul_zero]
  simp only [this]
  simp

theorem dft_idft (y : G → ℂ) (k : G) : dft (idft y) k = Fintype.card G * y k := by
  simp only [idft, dft, Finset.sum_mul]
  rw [Finset.sum_comm]
  have : ∀ t, ∑ j, y t * Grid.e j t * Grid.e (-j) k = if k = t then Fintype.card G * y t else 0 := by
    intro t
    have e : ∀ j : G, y t * Grid.e j t * Grid.e (-j) k = y t * Grid.e (t + -k) j := by
      intro j
      rw [Grid.add, mul_assoc, Grid.comm j t, ← e_neg_right, Grid.comm j (-k)]
    simp only [e, ← Finset.mul_sum]
    rw [Grid.sum]
    by_cases h : k = t
    · subst h; simp [mul_comm]
    · rw [if_neg h, if_neg (by rw [add_neg_eq_zero]; exact fun e => h e.symm), mul_zero]
  simp only [this]
  simp

theorem sum_shift (f : G → ℂ) (t : G) : ∑ j, f (j - t) = ∑ j, f j := by
  exact Fintype.sum_equiv (Equiv.subRight t) _ _ fun j => rfl

/-- The convolution theorem. -/
theorem dft_conv (a x : G → ℂ) (k : G) : dft (conv a x) k = dft a k * dft x k := by
  simp only [dft, conv, Finset.sum_mul]
  rw [Finset.sum_comm]
  apply Finset.sum_congr rfl
  intro t _
  rw [Finset.mul_sum, ← sum_shift (fun j => a t * Grid.e (-t) k * (x j * Grid.e (-j) k)) t]
  apply Finset.sum_congr rfl
  intro j _
  have : (Grid.e (-j) k : ℂ) = Grid.e (-t) k * Grid.e (-(j - t)) k := by rw [← Grid.add]; congr 1; abel
  rw [this]; ring

/-- The transform of a real array has the Hermitian symmetry. -/
theorem conj_r2c (x : G → ℝ) (k : G) : (starRingEnd ℂ) (r2c x k) = r2c x (-k) := by
  simp only [r2c, dft, map_sum, map_mul, Complex.conj_ofReal, Grid.conj]
  apply Finset.sum_congr rfl
  intro j _
  rw [e_neg_right]

/-- Each element is stored, or its symmetric one. -/
def Covers (h : G → Bool) : Prop := ∀ k, h k = true ∨ h (-k) = true

theorem extend_eq {h : G → Bool} (hh : Covers h) {y z : G → ℂ} (hz : ∀ k, (starRingEnd ℂ) (z k) = z (-k))
    (hy : ∀ k, h k = true → y k = z k) (k : G) : extend h y k = z k := by
  rw [extend]
  split
  · rename_i hk; exact hy k hk
  · rename_i hk
    rcases hh k with h1 | h1
    · exact absurd h1 hk
    · rw [hy _ h1, hz, neg_neg]

theorem c2r_eq {h : G → Bool} (hh : Covers h) {y z : G → ℂ} (hz : ∀ k, (starRingEnd ℂ) (z k) = z (-k))
    (hy : ∀ k, h k = true → y k = z k) (j : G) : c2r h y j = (idft z j).re := by
  rw [c2r, funext (extend_eq hh hz hy)]

theorem conv_ofReal (a x : G → ℝ) : (fun j => ((conv a x j : ℝ) : ℂ)) = conv (fun j => (a j : ℂ)) fun j => (x j : ℂ) := by
  funext j
  simp [conv]

theorem r2c_conv (a x : G → ℝ) (k : G) : r2c (conv a x) k = r2c a k * r2c x k := by
  rw [r2c, conv_ofReal, dft_conv]; rfl

/-- The backward transform of the product of the transforms, divided by the number of elements, is the convolution. -/
theorem c2r_conv {h : G → Bool} (hh : Covers h) (a x : G → ℝ) {y : G → ℂ}
    (hy : ∀ k, h k = true → y k = r2c x k * (r2c a k / Fintype.card G)) (j : G) : c2r h y j = conv a x j := by
  rw [c2r_eq hh (z := fun k => r2c x k * (r2c a k / Fintype.card G)) ?_ hy]
  · have hc : (Fintype.card G : ℂ) ≠ 0 := Nat.cast_ne_zero.2 (Fintype.card_ne_zero (α := G))
    have : idft (fun k => r2c x k * (r2c a k / Fintype.card G)) j = (conv a x j : ℝ) := by
      have e : (fun k => r2c x k * (r2c a k / Fintype.card G)) = fun k => (Fintype.card G : ℂ)⁻¹ * r2c (conv a x) k := by
        funext k; rw [r2c_conv]; ring
      rw [e, idft]
      simp only [mul_assoc, ← Finset.mul_sum]
      have := idft_dft (fun j => ((conv a x j : ℝ) : ℂ)) j
      rw [idft] at this
      rw [r2c, this, ← mul_assoc, inv_mul_cancel₀ hc, one_mul]
    rw [this, Complex.ofReal_re]
  · intro k
    rw [map_mul, map_div₀, conj_r2c, conj_r2c, map_natCast]

/-- The half of the last dimension. -/
def half (n : ℕ) [NeZero n] (k : ZMod n) : Bool := decide (k.val ≤ n / 2)

theorem half_covers (n : ℕ) [NeZero n] : Covers (half n) := by
  intro k
  simp only [half, decide_eq_true_eq]
  by_cases h : k = 0
  · subst h; simp
  · have : NeZero k := ⟨h⟩
    have h1 := ZMod.val_neg_of_ne_zero k
    have h2 := ZMod.val_lt k
    omega

/-- The half of an array of several dimensions, along the dimension a. -/
def halfAlong {d : ℕ} (n : Fin d → ℕ) [∀ i, NeZero (n i)] (a : Fin d) (k : (i : Fin d) → ZMod (n i)) : Bool := half (n a) (k a)

theorem halfAlong_covers {d : ℕ} (n : Fin d → ℕ) [∀ i, NeZero (n i)] (a : Fin d) : Covers (halfAlong n a) := by
  intro k
  exact half_covers (n a) (k a)

end Verif.Fourier
