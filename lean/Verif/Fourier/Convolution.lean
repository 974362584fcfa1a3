import Verif.Fourier.Dft
import Mathlib.Data.Fintype.Pi
import Mathlib.Tactic.FinCases
import Mathlib.Tactic.NormNum

/-
Model of the convolution and Fourier operators: src/pyoperators/fft.py, in exact arithmetic.  The Fourier transforms of FFTW are those of
Verif.Fourier.Dft.  The transforms are over all the axes, except in the last part.
-/

namespace Verif.Fourier.Convolution

open Complex Finset Verif.Fourier

/-! ### The kernel -/

section kernel

variable {d : ℕ} (n : Fin d → ℕ) [∀ i, NeZero (n i)] {R : Type} [Zero R]

/-- The padded kernel: src/pyoperators/fft.py:528-530.  The kernel has the shape m, which is not larger than n (95-99). -/
def padded (m : Fin d → ℕ) (ker : (Fin d → ℕ) → R) (j : (i : Fin d) → ZMod (n i)) : R :=
  if ∀ i, (j i).val < m i then ker fun i => (j i).val else 0

/-- `np.roll(a, -s, axis)`. -/
def roll (axis : Fin d) (s : ℕ) (a : ((i : Fin d) → ZMod (n i)) → R) (j : (i : Fin d) → ZMod (n i)) : R :=
  a (Function.update j axis (j axis + s))

/-- `ker_origin`: src/pyoperators/fft.py:531. -/
def origin (m : Fin d → ℕ) (i : Fin d) : ℕ := (m i - 1) / 2

/-- The kernel that is transformed: src/pyoperators/fft.py:526-533. -/
def centred (m : Fin d → ℕ) (ker : (Fin d → ℕ) → R) : ((i : Fin d) → ZMod (n i)) → R :=
  (List.finRange d).foldl (fun a i => roll n i (origin m i) a) (padded n m ker)

theorem rolls (o : Fin d → ℕ) (l : List (Fin d)) (hl : l.Nodup) : ∀ (a : ((i : Fin d) → ZMod (n i)) → R)
    (j : (i : Fin d) → ZMod (n i)), l.foldl (fun a i => roll n i (o i) a) a j = a fun i => if i ∈ l then j i + o i else j i := by
  induction l with
  | nil => intro a j; simp
  | cons b l ih =>
    intro a j
    rw [List.nodup_cons] at hl
    rw [List.foldl_cons, ih hl.2, roll]
    congr 1
    funext i
    by_cases h : i = b
    · subst h; simp [hl.1]
    · rw [Function.update_of_ne h]; simp [h]

/-- The kernel is shifted by its origin along all the axes. -/
theorem centred_eq (m : Fin d → ℕ) (ker : (Fin d → ℕ) → R) (j : (i : Fin d) → ZMod (n i)) :
    centred n m ker j = padded n m ker fun i => j i + (origin m i : ℕ) := by
  rw [centred, rolls n _ _ (List.nodup_finRange d)]
  simp

end kernel

/-! ### The operators -/

variable {G : Type} [AddCommGroup G] [Fintype G] [DecidableEq G] [Grid G]

/-- The real convolution operator and its transpose, a subclass: src/pyoperators/fft.py:170-362. -/
structure RealConv (G : Type) where
  kernel : G → ℂ
  transposed : Bool := false

/-- `get_kernel`: src/pyoperators/fft.py:255-258 and 350-351. -/
noncomputable def RealConv.getKernel (c : RealConv G) (k : G) : ℂ := if c.transposed then (starRingEnd ℂ) (c.kernel k) else c.kernel k

/-- `direct`: src/pyoperators/fft.py:243-253 and 353-359.  The function h tells which half of the transform is stored.  The function
`multiply_conjugate` is src/pyoperators/utils/ufuncs.c.src:236-250. -/
noncomputable def RealConv.direct (h : G → Bool) (c : RealConv G) (x : G → ℝ) : G → ℝ :=
  if c.transposed then c2r h fun k =>
    let a := r2c x k
    let b := c.kernel k
    ⟨a.re * b.re + a.im * b.im, -a.re * b.im + a.im * b.re⟩
  else c2r h fun k => r2c x k * c.kernel k

/-- The constructor, for a real kernel (already centred): src/pyoperators/fft.py:150-151. -/
noncomputable def RealConv.make (a : G → ℝ) : RealConv G := { kernel := fun k => r2c a k / Fintype.card G }

/-- The rule 'T': src/pyoperators/fft.py:216-221. -/
def RealConv.ruleT (c : RealConv G) : RealConv G := { kernel := c.kernel, transposed := true }

/-- `_rule_homothety`: src/pyoperators/fft.py:265-280. -/
noncomputable def RealConv.ruleHomothety (c : RealConv G) (s : ℂ) : RealConv G := { kernel := fun k => c.getKernel k * s }

/-- `_rule_add_real`: src/pyoperators/fft.py:282-301. -/
noncomputable def RealConv.ruleAdd (a b : RealConv G) : RealConv G :=
  let (a, b) := if b.transposed then (b, a) else (a, b)
  { kernel := fun k => a.getKernel k + b.getKernel k }

/-- `_rule_cmp_real`: src/pyoperators/fft.py:303-323. -/
noncomputable def RealConv.ruleCompose (a b : RealConv G) : RealConv G :=
  let (a, b) := if b.transposed then (b, a) else (a, b)
  { kernel := fun k => a.getKernel k * b.getKernel k * Fintype.card G }

/-- `_restore_kernel`: src/pyoperators/fft.py:338-347. -/
noncomputable def RealConv.restore (h : G → Bool) (c : RealConv G) : G → ℝ := c2r h c.getKernel

/-- The diagonal of `_rule_complex_forward`: src/pyoperators/fft.py:332-336. -/
noncomputable def RealConv.forwardDiagonal (h : G → Bool) (c : RealConv G) : G → ℂ := dft fun j => (c.restore h j : ℂ)

/-- The diagonal of `_rule_complex_backward`: src/pyoperators/fft.py:325-330.  `other.H` is the product by the number of elements of the
forward transform (490). -/
noncomputable def RealConv.backwardDiagonal (h : G → Bool) (c : RealConv G) (k : G) : ℂ :=
  Fintype.card G * dft (fun j => (c.restore h j : ℂ)) k / Fintype.card G

/-- The rule 'H' of the forward transform: src/pyoperators/fft.py:446-450. -/
noncomputable def forwardH (y : G → ℂ) (j : G) : ℂ := 1 / Fintype.card G * idft y j

/-- The rule 'H' of the backward transform: src/pyoperators/fft.py:490. -/
noncomputable def backwardH (x : G → ℂ) (k : G) : ℂ := Fintype.card G * dft x k

/-- The convolution by a complex kernel (already centred): src/pyoperators/fft.py:107-118. -/
noncomputable def complexConv (a x : G → ℂ) (j : G) : ℂ :=
  Fintype.card G * forwardH (fun k => dft a k / Fintype.card G * dft x k) j

/-- The adjoint of the convolution by a complex kernel: the composition of the adjoints, in reverse order
(src/pyoperators/core.py:2310-2330).  The adjoint of the adjoint of the forward transform is the forward transform. -/
noncomputable def complexConvH (a x : G → ℂ) (j : G) : ℂ :=
  forwardH (fun k => (starRingEnd ℂ) (dft a k / Fintype.card G) * dft (fun j => Fintype.card G * x j) k) j

/-! ### Lemmas -/

theorem transpose_product (a b : ℂ) : (⟨a.re * b.re + a.im * b.im, -a.re * b.im + a.im * b.re⟩ : ℂ) = a * (starRingEnd ℂ) b := by
  apply Complex.ext <;> simp <;> ring

theorem direct_eq (h : G → Bool) (c : RealConv G) (x : G → ℝ) : c.direct h x = c2r h fun k => r2c x k * c.getKernel k := by
  rw [RealConv.direct]
  cases hc : c.transposed with
  | true => simp only [if_true, transpose_product, RealConv.getKernel, hc]
  | false => simp [RealConv.getKernel, hc]

/-- The operator applies the convolution by a. -/
def Represents (h : G → Bool) (c : RealConv G) (a : G → ℝ) : Prop := ∀ k, h k = true → c.getKernel k = r2c a k / Fintype.card G

theorem represents_direct {h : G → Bool} (hh : Covers h) {c : RealConv G} {a : G → ℝ} (hc : Represents h c a) (x : G → ℝ) :
    c.direct h x = conv a x := by
  rw [direct_eq]
  funext j
  exact c2r_conv hh a x (fun k hk => by rw [hc k hk]) j

theorem represents_make (h : G → Bool) (a : G → ℝ) : Represents h (RealConv.make a) a := fun _ _ => rfl

/-- The correlation is the convolution by the reversed kernel. -/
theorem r2c_neg (a : G → ℝ) (k : G) : r2c (fun j => a (-j)) k = (starRingEnd ℂ) (r2c a k) := by
  rw [conj_r2c, r2c, r2c, dft, dft]
  exact Fintype.sum_equiv (Equiv.neg G) _ _ fun j => by
    simp only [Equiv.neg_apply, neg_neg]
    rw [e_neg_right]

theorem represents_T {h : G → Bool} {c : RealConv G} {a : G → ℝ} (hc : Represents h c a) (ht : c.transposed = false) :
    Represents h c.ruleT fun j => a (-j) := by
  intro k hk
  have := hc k hk
  rw [RealConv.getKernel, if_neg (by simp [ht])] at this
  simp only [RealConv.getKernel, RealConv.ruleT, if_true]
  rw [this, r2c_neg, map_div₀, map_natCast]

theorem r2c_add (a b : G → ℝ) (k : G) : r2c (fun j => a j + b j) k = r2c a k + r2c b k := by
  simp only [r2c, dft, Complex.ofReal_add, add_mul, Finset.sum_add_distrib]

theorem r2c_smul (s : ℝ) (a : G → ℝ) (k : G) : r2c (fun j => s * a j) k = s * r2c a k := by
  simp only [r2c, dft, Complex.ofReal_mul, mul_assoc, Finset.mul_sum]

omit [DecidableEq G] [Grid G] in
theorem card_ne : (Fintype.card G : ℂ) ≠ 0 := Nat.cast_ne_zero.2 Fintype.card_ne_zero

theorem represents_add {h : G → Bool} {c c' : RealConv G} {a a' : G → ℝ} (hc : Represents h c a) (hc' : Represents h c' a') :
    Represents h (c.ruleAdd c') fun j => a j + a' j := by
  intro k hk
  rw [r2c_add, add_div, ← hc k hk, ← hc' k hk]
  simp only [RealConv.ruleAdd]
  cases ht : c'.transposed <;> simp [RealConv.getKernel, ht, add_comm]

theorem represents_compose {h : G → Bool} {c c' : RealConv G} {a a' : G → ℝ} (hc : Represents h c a) (hc' : Represents h c' a') :
    Represents h (c.ruleCompose c') (conv a a') := by
  intro k hk
  rw [r2c_conv]
  have e : r2c a k * r2c a' k / Fintype.card G = c.getKernel k * c'.getKernel k * Fintype.card G := by
    rw [hc k hk, hc' k hk]
    have := card_ne (G := G)
    field_simp
  rw [e]
  simp only [RealConv.ruleCompose]
  cases ht : c'.transposed <;> simp [RealConv.getKernel, ht, mul_comm]

theorem represents_homothety {h : G → Bool} {c : RealConv G} {a : G → ℝ} (hc : Represents h c a) (s : ℝ) :
    Represents h (c.ruleHomothety s) fun j => s * a j := by
  intro k hk
  rw [r2c_smul]
  have e : (s : ℂ) * r2c a k / Fintype.card G = c.getKernel k * s := by rw [hc k hk]; ring
  rw [e]
  simp [RealConv.ruleHomothety, RealConv.getKernel]

theorem conv_assoc (a b x : G → ℝ) (j : G) : conv (conv a b) x j = conv a (conv b x) j := by
  simp only [conv, Finset.sum_mul, Finset.mul_sum]
  rw [Finset.sum_comm]
  apply Finset.sum_congr rfl
  intro t _
  refine Fintype.sum_equiv (Equiv.subRight t) _ _ fun u => ?_
  simp only [Equiv.subRight_apply, mul_assoc]
  congr 3
  abel_nf

theorem conv_adjoint (a x y : G → ℝ) : ∑ j, conv a x j * y j = ∑ j, x j * conv (fun j => a (-j)) y j := by
  simp only [conv, Finset.sum_mul, Finset.mul_sum]
  have e1 : ∑ j, ∑ t, a t * x (j - t) * y j = ∑ t, ∑ j, a t * x j * y (j + t) := by
    rw [Finset.sum_comm]
    apply Finset.sum_congr rfl
    intro t _
    exact Fintype.sum_equiv (Equiv.subRight t) _ _ fun j => by simp
  have e2 : ∑ j, ∑ t, x j * (a (-t) * y (j - t)) = ∑ j, ∑ t, a t * x j * y (j + t) := by
    apply Finset.sum_congr rfl
    intro j _
    refine Fintype.sum_equiv (Equiv.neg G) _ _ fun t => ?_
    simp only [Equiv.neg_apply]
    rw [sub_eq_add_neg]
    ring
  rw [e1, e2, Finset.sum_comm]

/-! ### Properties -/

section

variable {d : ℕ} (n : Fin d → ℕ) [∀ i, NeZero (n i)]

theorem conv_centred {R : Type} [CommSemiring R] (m : Fin d → ℕ) (hm : ∀ i, m i ≤ n i) (ker : (Fin d → ℕ) → R)
    (x : ((i : Fin d) → ZMod (n i)) → R) (j : (i : Fin d) → ZMod (n i)) :
    conv (centred n m ker) x j = ∑ t ∈ Fintype.piFinset fun i => Finset.range (m i),
      ker t * x fun i => j i - (t i : ℕ) + ((m i - 1) / 2 : ℕ) := by
  simp only [conv, centred_eq]
  have e1 : ∑ t, padded n m ker (fun i => t i + (origin m i : ℕ)) * x (j - t) =
      ∑ v, padded n m ker v * x fun i => j i - v i + ((m i - 1) / 2 : ℕ) := by
    refine Fintype.sum_equiv (Equiv.addRight fun i => ((origin m i : ℕ) : ZMod (n i))) _ _ fun t => ?_
    simp only [Equiv.coe_addRight]
    congr 2
    funext i
    simp only [Pi.sub_apply, Pi.add_apply, origin]
    abel
  rw [e1]
  have e2 : ∀ v, padded n m ker v * (x fun i => j i - v i + ((m i - 1) / 2 : ℕ)) =
      if (∀ i, (v i).val < m i) then (ker fun i => (v i).val) * x fun i => j i - v i + ((m i - 1) / 2 : ℕ) else 0 := by
    intro v
    rw [padded]
    split <;> simp
  simp only [e2]
  rw [← Finset.sum_filter]
  apply Finset.sum_nbij' (fun (v : (i : Fin d) → ZMod (n i)) i => (v i).val) (fun t i => (t i : ZMod (n i)))
  · intro v hv
    rw [Finset.mem_filter] at hv
    rw [Fintype.mem_piFinset]
    intro i
    exact Finset.mem_range.2 (hv.2 i)
  · intro t ht
    rw [Fintype.mem_piFinset] at ht
    rw [Finset.mem_filter]
    refine ⟨Finset.mem_univ _, fun i => ?_⟩
    rw [ZMod.val_cast_of_lt (by have := Finset.mem_range.1 (ht i); have := hm i; omega)]
    exact Finset.mem_range.1 (ht i)
  · intro v _
    funext i
    simp
  · intro t ht
    rw [Fintype.mem_piFinset] at ht
    funext i
    exact ZMod.val_cast_of_lt (by have := Finset.mem_range.1 (ht i); have := hm i; omega)
  · intro v _
    congr 2
    funext i
    simp

/-- **C48.** The real convolution operator is the circular convolution by the kernel whose origin is the element (size - 1) // 2 along
each axis. -/
theorem C48_real (a : Fin d) (m : Fin d → ℕ) (hm : ∀ i, m i ≤ n i) (ker : (Fin d → ℕ) → ℝ) (x : ((i : Fin d) → ZMod (n i)) → ℝ)
    (j : (i : Fin d) → ZMod (n i)) :
    (RealConv.make (centred n m ker)).direct (halfAlong n a) x j =
      ∑ t ∈ Fintype.piFinset fun i => Finset.range (m i), ker t * x fun i => j i - (t i : ℕ) + ((m i - 1) / 2 : ℕ) := by
  rw [represents_direct (halfAlong_covers n a) (represents_make _ _), conv_centred n m hm]

theorem idft_mul_dft {G : Type} [AddCommGroup G] [Fintype G] [DecidableEq G] [Grid G] (a x : G → ℂ) (j : G) :
    idft (fun k => dft a k * dft x k) j = Fintype.card G * conv a x j := by
  rw [← idft_dft]
  congr 1
  funext k
  rw [dft_conv]

theorem complexConv_eq {G : Type} [AddCommGroup G] [Fintype G] [DecidableEq G] [Grid G] (a x : G → ℂ) (j : G) :
    complexConv a x j = conv a x j := by
  have e : idft (fun k => dft a k / Fintype.card G * dft x k) j = (Fintype.card G : ℂ)⁻¹ * idft (fun k => dft a k * dft x k) j := by
    simp only [idft, Finset.mul_sum]
    apply Finset.sum_congr rfl
    intro k _
    ring
  rw [complexConv, forwardH, e, idft_mul_dft]
  have := card_ne (G := G)
  field_simp

/-- **C48.** The complex convolution operator is the circular convolution by the kernel whose origin is the element (size - 1) // 2 along
each axis. -/
theorem C48_complex (m : Fin d → ℕ) (hm : ∀ i, m i ≤ n i) (ker : (Fin d → ℕ) → ℂ) (x : ((i : Fin d) → ZMod (n i)) → ℂ)
    (j : (i : Fin d) → ZMod (n i)) :
    complexConv (centred n m ker) x j =
      ∑ t ∈ Fintype.piFinset fun i => Finset.range (m i), ker t * x fun i => j i - (t i : ℕ) + ((m i - 1) / 2 : ℕ) := by
  rw [complexConv_eq, conv_centred n m hm]

end

/-- **C48.** The transpose of the real convolution operator is its adjoint, and it is the convolution by the reversed kernel. -/
theorem C48_transpose {h : G → Bool} (hh : Covers h) (a x y : G → ℝ) :
    ∑ j, (RealConv.make a).direct h x j * y j = ∑ j, x j * (RealConv.make a).ruleT.direct h y j := by
  rw [represents_direct hh (represents_make h a), represents_direct hh (represents_T (represents_make h a) rfl), conv_adjoint]

theorem C48_correlation {h : G → Bool} (hh : Covers h) (a y : G → ℝ) (j : G) :
    (RealConv.make a).ruleT.direct h y j = ∑ t, a t * y (j + t) := by
  rw [represents_direct hh (represents_T (represents_make h a) rfl), conv]
  exact Fintype.sum_equiv (Equiv.neg G) _ _ fun t => by rw [sub_eq_add_neg]; rfl

theorem conj_dft (a : G → ℂ) (k : G) : (starRingEnd ℂ) (dft a k) = dft (fun j => (starRingEnd ℂ) (a (-j))) k := by
  simp only [dft, map_sum, map_mul, Grid.conj, neg_neg]
  exact Fintype.sum_equiv (Equiv.neg G) _ _ fun j => by simp

/-- **C48.** The adjoint of the complex convolution operator is its adjoint. -/
theorem C48_adjoint (a x y : G → ℂ) :
    ∑ j, complexConv a x j * (starRingEnd ℂ) (y j) = ∑ j, x j * (starRingEnd ℂ) (complexConvH a y j) := by
  have e : ∀ j, complexConvH a y j = conv (fun j => (starRingEnd ℂ) (a (-j))) y j := by
    intro j
    rw [← complexConv_eq, complexConv, complexConvH, forwardH, forwardH]
    have e1 : ∀ k, dft (fun j => (Fintype.card G : ℂ) * y j) k = Fintype.card G * dft y k := by
      intro k
      simp only [dft, Finset.mul_sum, mul_assoc]
    have e2 : idft (fun k => (starRingEnd ℂ) (dft a k / Fintype.card G) * dft (fun j => Fintype.card G * y j) k) j =
        Fintype.card G * idft (fun k => dft (fun j => (starRingEnd ℂ) (a (-j))) k / Fintype.card G * dft y k) j := by
      simp only [idft, Finset.mul_sum]
      apply Finset.sum_congr rfl
      intro k _
      rw [e1, map_div₀, map_natCast, conj_dft]
      ring
    rw [e2]
    ring
  simp only [e, complexConv_eq, conv, map_sum, map_mul, Complex.conj_conj, Finset.sum_mul, Finset.mul_sum]
  have e1 : ∑ j, ∑ t, a t * x (j - t) * (starRingEnd ℂ) (y j) = ∑ t, ∑ j, a t * x j * (starRingEnd ℂ) (y (j + t)) := by
    rw [Finset.sum_comm]
    apply Finset.sum_congr rfl
    intro t _
    exact Fintype.sum_equiv (Equiv.subRight t) _ _ fun j => by simp
  have e2 : ∑ j, ∑ t, x j * (a (-t) * (starRingEnd ℂ) (y (j - t))) = ∑ j, ∑ t, a t * x j * (starRingEnd ℂ) (y (j + t)) := by
    apply Finset.sum_congr rfl
    intro j _
    refine Fintype.sum_equiv (Equiv.neg G) _ _ fun t => ?_
    simp only [Equiv.neg_apply]
    rw [sub_eq_add_neg]
    ring
  rw [e1, e2, Finset.sum_comm]

/-! ### Rules -/

/-- The real convolution operators that can be obtained by the constructor and by the rules. -/
inductive Made : RealConv G → Prop
  | make (a : G → ℝ) : Made (RealConv.make a)
  | transpose {c : RealConv G} : Made c → c.transposed = false → Made c.ruleT
  | add {c c' : RealConv G} : Made c → Made c' → Made (c.ruleAdd c')
  | compose {c c' : RealConv G} : Made c → Made c' → Made (c.ruleCompose c')
  | homothety {c : RealConv G} (s : ℝ) : Made c → Made (c.ruleHomothety s)

theorem made_represents {c : RealConv G} (hc : Made c) : ∃ a, ∀ h, Represents h c a := by
  induction hc with
  | make a => exact ⟨a, fun h => represents_make h a⟩
  | transpose _ ht ih => obtain ⟨a, ha⟩ := ih; exact ⟨_, fun h => represents_T (ha h) ht⟩
  | add _ _ ih1 ih2 => obtain ⟨a, ha⟩ := ih1; obtain ⟨b, hb⟩ := ih2; exact ⟨_, fun h => represents_add (ha h) (hb h)⟩
  | compose _ _ ih1 ih2 => obtain ⟨a, ha⟩ := ih1; obtain ⟨b, hb⟩ := ih2; exact ⟨_, fun h => represents_compose (ha h) (hb h)⟩
  | homothety s _ ih => obtain ⟨a, ha⟩ := ih; exact ⟨_, fun h => represents_homothety (ha h) s⟩

/-- **C48.** The transpose of any real convolution operator that is not itself a transpose is its adjoint. -/
theorem C48_made_transpose {h : G → Bool} (hh : Covers h) {c : RealConv G} (hc : Made c) (ht : c.transposed = false) (x y : G → ℝ) :
    ∑ j, c.direct h x j * y j = ∑ j, x j * c.ruleT.direct h y j := by
  obtain ⟨a, ha⟩ := made_represents hc
  rw [represents_direct hh (ha h), represents_direct hh (represents_T (ha h) ht), conv_adjoint]

/-- **C48.** The simplification of the sum of two real convolution operators is their sum. -/
theorem C48_add {h : G → Bool} (hh : Covers h) {c c' : RealConv G} (hc : Made c) (hc' : Made c') (x : G → ℝ) (j : G) :
    (c.ruleAdd c').direct h x j = c.direct h x j + c'.direct h x j := by
  obtain ⟨a, ha⟩ := made_represents hc
  obtain ⟨b, hb⟩ := made_represents hc'
  rw [represents_direct hh (represents_add (ha h) (hb h)), represents_direct hh (ha h), represents_direct hh (hb h)]
  simp only [conv, add_mul, Finset.sum_add_distrib]

/-- **C48.** The simplification of the composition of two real convolution operators is their composition. -/
theorem C48_compose {h : G → Bool} (hh : Covers h) {c c' : RealConv G} (hc : Made c) (hc' : Made c') (x : G → ℝ) (j : G) :
    (c.ruleCompose c').direct h x j = c.direct h (c'.direct h x) j := by
  obtain ⟨a, ha⟩ := made_represents hc
  obtain ⟨b, hb⟩ := made_represents hc'
  rw [represents_direct hh (represents_compose (ha h) (hb h)), represents_direct hh (ha h), represents_direct hh (hb h), conv_assoc]

/-- **C48.** The simplification of the composition of a real convolution operator and of a homothety is their composition, if the scalar
is real.  Missing: complex scalars, see C48_homothety_fails. -/
theorem C48_homothety_partial {h : G → Bool} (hh : Covers h) {c : RealConv G} (hc : Made c) (s : ℝ) (x : G → ℝ) (j : G) :
    (c.ruleHomothety s).direct h x j = c.direct h (fun j => s * x j) j := by
  obtain ⟨a, ha⟩ := made_represents hc
  rw [represents_direct hh (represents_homothety (ha h) s), represents_direct hh (ha h)]
  simp only [conv]
  apply Finset.sum_congr rfl
  intro t _
  ring

theorem restore_eq {h : G → Bool} (hh : Covers h) {c : RealConv G} {a : G → ℝ} (ha : Represents h c a) : c.restore h = a := by
  funext j
  rw [RealConv.restore, c2r_eq hh (z := fun k => r2c a k / Fintype.card G) ?_ ha]
  · have : idft (fun k => r2c a k / Fintype.card G) j = (a j : ℂ) := by
      have h1 := idft_dft (fun j => (a j : ℂ)) j
      have h2 : idft (fun k => r2c a k / Fintype.card G) j = (Fintype.card G : ℂ)⁻¹ * idft (dft fun j => (a j : ℂ)) j := by
        simp only [idft, Finset.mul_sum, r2c]
        apply Finset.sum_congr rfl
        intro k _
        ring
      rw [h2, h1, ← mul_assoc, inv_mul_cancel₀ card_ne, one_mul]
    rw [this, Complex.ofReal_re]
  · intro k
    rw [map_div₀, conj_r2c, map_natCast]

/-- **C48.** The forward transform of the result of a real convolution operator is the product by a diagonal of the forward transform. -/
theorem C48_forward {h : G → Bool} (hh : Covers h) {c : RealConv G} (hc : Made c) (x : G → ℝ) (k : G) :
    dft (fun j => (c.direct h x j : ℂ)) k = c.forwardDiagonal h k * dft (fun j => (x j : ℂ)) k := by
  obtain ⟨a, ha⟩ := made_represents hc
  rw [RealConv.forwardDiagonal, restore_eq hh (ha h), represents_direct hh (ha h), conv_ofReal, dft_conv]

/-- **C48.** The real convolution operator applied to a backward transform is the backward transform of the product by a diagonal. -/
theorem C48_backward {h : G → Bool} (hh : Covers h) {c : RealConv G} (hc : Made c) (y : G → ℂ) (x : G → ℝ)
    (hx : ∀ j, idft y j = (x j : ℂ)) (j : G) : idft (fun k => c.backwardDiagonal h k * y k) j = (c.direct h x j : ℂ) := by
  obtain ⟨a, ha⟩ := made_represents hc
  have hy : ∀ k, y k = dft (fun j => (x j : ℂ)) k / Fintype.card G := by
    intro k
    have := dft_idft y k
    rw [funext hx] at this
    rw [this, mul_div_cancel_left₀ _ card_ne]
  have e : (fun k => c.backwardDiagonal h k * y k) = fun k =>
      (Fintype.card G : ℂ)⁻¹ * (dft (fun j => (a j : ℂ)) k * dft (fun j => (x j : ℂ)) k) := by
    funext k
    rw [RealConv.backwardDiagonal, restore_eq hh (ha h), hy k, mul_div_cancel_left₀ _ card_ne]
    ring
  have e2 : ∀ f : G → ℂ, idft (fun k => (Fintype.card G : ℂ)⁻¹ * f k) j = (Fintype.card G : ℂ)⁻¹ * idft f j := by
    intro f
    simp only [idft, Finset.mul_sum, mul_assoc]
  rw [e, e2, idft_mul_dft, ← mul_assoc, inv_mul_cancel₀ card_ne, one_mul, represents_direct hh (ha h), ← conv_ofReal]

/-- **C48 does not hold** for complex scalars: the real convolution operator that is returned cannot multiply by i. -/
theorem C48_homothety_fails : ∃ (c : RealConv (ZMod 2)) (x : ZMod 2 → ℝ) (j : ZMod 2), Made c ∧
    ((c.ruleHomothety I).direct (half 2) x j : ℂ) ≠ I * (c.direct (half 2) x j : ℂ) := by
  refine ⟨RealConv.make fun j => if j = 0 then 1 else 0, fun _ => 1, 0, .make _, ?_⟩
  intro h
  have h1 := congrArg Complex.im h
  rw [represents_direct (half_covers 2) (represents_make _ _), Complex.ofReal_im] at h1
  simp [conv] at h1

theorem conv_delta (a : G → ℝ) (k t : G) : conv a (fun j => if j = k then 1 else 0) t = a (t - k) := by
  rw [conv, Finset.sum_eq_single (t - k)]
  · simp
  · intro u _ hu
    rw [if_neg (by intro e; apply hu; rw [← e]; abel), mul_zero]
  · simp

/-- **C48 does not hold** for copies of a transpose, which are returned for instance when the transpose is multiplied by the identity: the
copy is not linked any more to the operator whose transpose it is, and the rule that gives the transpose of a transpose
returns the same operator. -/
theorem C48_copy_fails : ∃ (c : RealConv (ZMod 3)) (x y : ZMod 3 → ℝ), Made c ∧ c.transposed = true ∧
    ∑ j, c.direct (half 3) x j * y j ≠ ∑ j, x j * c.ruleT.direct (half 3) y j := by
  refine ⟨(RealConv.make fun j => if j = 1 then 1 else 0).ruleT, fun j => if j = 0 then 1 else 0, fun j => if j = 1 then 1 else 0,
    .transpose (.make _) rfl, rfl, ?_⟩
  have e : ((RealConv.make fun j : ZMod 3 => if j = 1 then (1 : ℝ) else 0).ruleT.ruleT) =
      (RealConv.make fun j => if j = 1 then 1 else 0).ruleT := rfl
  rw [e, represents_direct (half_covers 3) (represents_T (represents_make _ _) rfl),
    represents_direct (half_covers 3) (represents_T (represents_make _ _) rfl)]
  simp only [conv_delta]
  intro h
  have e3 : ∀ f : ZMod 3 → ℝ, ∑ j, f j = f 0 + f 1 + f 2 := fun f => Fin.sum_univ_three f
  rw [e3, e3] at h
  have a1 : (-(1 - 0) : ZMod 3) ≠ 1 := by decide
  have a2 : (-(0 - 1) : ZMod 3) = 1 := by decide
  have a3 : (0 : ZMod 3) ≠ 1 := by decide
  have a4 : (2 : ZMod 3) ≠ 1 := by decide
  have a5 : (1 : ZMod 3) ≠ 0 := by decide
  have a6 : (2 : ZMod 3) ≠ 0 := by decide
  rw [if_neg a1, if_neg a3, if_pos rfl, if_neg a4, if_pos rfl, if_pos a2, if_neg a5, if_neg a6] at h
  norm_num at h

/-- Meeting the hypotheses of C48_real: the kernel (1, 2, 3) centred in 4 elements. -/
example : (fun j : Fin 1 → ZMod 4 => centred (fun _ => 4) (fun _ => 3) (fun t => t 0 + 1) j) (fun _ => 0) = 2 ∧
    centred (fun _ => 4) (fun _ => 3) (fun t : Fin 1 → ℕ => t 0 + 1) (fun _ => (1 : ZMod 4)) = 3 ∧
    centred (fun _ => 4) (fun _ => 3) (fun t : Fin 1 → ℕ => t 0 + 1) (fun _ => (2 : ZMod 4)) = 0 ∧
    centred (fun _ => 4) (fun _ => 3) (fun t : Fin 1 → ℕ => t 0 + 1) (fun _ => (3 : ZMod 4)) = 1 := by decide

/-- Meeting the hypotheses of C48_made_transpose, C48_add, C48_compose, C48_homothety_partial and C48_forward: A + 2 B Aᵀ. -/
example (a b : G → ℝ) : Made ((RealConv.make a).ruleAdd (((RealConv.make b).ruleCompose (RealConv.make a).ruleT).ruleHomothety (2 : ℝ))) :=
  .add (.make a) (.homothety 2 (.compose (.make b) (.transpose (.make a) rfl)))

/-- Meeting the hypotheses of C48_backward. -/
example (x : G → ℝ) : ∀ j, idft (fun k => dft (fun j => (x j : ℂ)) k / Fintype.card G) j = (x j : ℂ) := by
  intro j
  have h2 : idft (fun k => dft (fun j => (x j : ℂ)) k / Fintype.card G) j = (Fintype.card G : ℂ)⁻¹ * idft (dft fun j => (x j : ℂ)) j := by
    simp only [idft, Finset.mul_sum]
    apply Finset.sum_congr rfl
    intro k _
    ring
  rw [h2, idft_dft, ← mul_assoc, inv_mul_cancel₀ card_ne, one_mul]

/-! ### Fourier operators -/

/-- **C68.** The operator H of the Fourier operator is its inverse, and the compositions of the forward and backward transforms simplify
to the product by the number of elements. -/
theorem C68_inverse (x y : G → ℂ) (j : G) : forwardH (dft x) j = x j ∧ dft (forwardH y) j = y j ∧
    idft (dft x) j = Fintype.card G * x j ∧ dft (idft y) j = Fintype.card G * y j := by
  refine ⟨?_, ?_, idft_dft x j, dft_idft y j⟩
  · rw [forwardH, idft_dft, one_div, ← mul_assoc, inv_mul_cancel₀ card_ne, one_mul]
  · have : dft (forwardH y) j = (Fintype.card G : ℂ)⁻¹ * dft (idft y) j := by
      simp only [dft, forwardH, one_div, Finset.mul_sum, mul_assoc]
    rw [this, dft_idft, ← mul_assoc, inv_mul_cancel₀ card_ne, one_mul]

/-- **C68**, up to the number of elements: the operator H of the Fourier operator is its adjoint divided by the number of elements, and
the one of the backward transform is its adjoint multiplied by it.  Missing: the equality, see C68_adjoint_fails. -/
theorem C68_adjoint_partial (x y : G → ℂ) :
    ∑ k, dft x k * (starRingEnd ℂ) (y k) = Fintype.card G * ∑ j, x j * (starRingEnd ℂ) (forwardH y j) ∧
    Fintype.card G * ∑ k, idft x k * (starRingEnd ℂ) (y k) = ∑ j, x j * (starRingEnd ℂ) (backwardH y j) := by
  constructor
  · simp only [forwardH, idft, dft, map_mul, map_sum, map_div₀, map_one, map_natCast, Finset.sum_mul, Finset.mul_sum, Grid.conj]
    rw [Finset.sum_comm]
    apply Finset.sum_congr rfl
    intro j _
    apply Finset.sum_congr rfl
    intro k _
    have := card_ne (G := G)
    field_simp
  · simp only [backwardH, idft, dft, map_mul, map_sum, map_natCast, Finset.sum_mul, Finset.mul_sum, Grid.conj, neg_neg]
    rw [Finset.sum_comm]
    apply Finset.sum_congr rfl
    intro j _
    apply Finset.sum_congr rfl
    intro k _
    rw [Grid.comm k j]
    ring

/-- **C68 does not hold**: the operator H of the Fourier operator over two elements is not its adjoint. -/
theorem C68_adjoint_fails : ∃ x y : ZMod 2 → ℂ,
    ∑ k, dft x k * (starRingEnd ℂ) (y k) ≠ ∑ j, x j * (starRingEnd ℂ) (forwardH y j) := by
  refine ⟨fun j => if j = 0 then 1 else 0, fun j => if j = 0 then 1 else 0, ?_⟩
  intro h
  rw [(C68_adjoint_partial _ _).1] at h
  have e : ∑ j : ZMod 2, (if j = 0 then (1 : ℂ) else 0) * (starRingEnd ℂ) (forwardH (fun j => if j = 0 then 1 else 0) j) = 1 / 2 := by
    simp [forwardH, idft, e_zero]
    exact Complex.conj_ofNat 2
  rw [e, ZMod.card] at h
  norm_num at h

/-- The forward transform along some of the axes, the indices along the other axes being of type B. -/
noncomputable def dftAxes {B : Type} (x : G × B → ℂ) (k : G × B) : ℂ := dft (fun j => x (j, k.2)) k.1

/-- The rule 'H' of the forward transform along some of the axes: src/pyoperators/fft.py:446-450.  The number of elements is still the one
of the whole array. -/
noncomputable def forwardHAxes {B : Type} [Fintype B] (y : G × B → ℂ) (j : G × B) : ℂ :=
  1 / Fintype.card (G × B) * idft (fun k => y (k, j.2)) j.1

/-- **C68**, for transforms along some of the axes: the operator H, which is also used as the inverse, is the inverse divided by the number
of elements along the other axes. -/
theorem C68_axes_partial {B : Type} [Fintype B] (x : G × B → ℂ) (j : G × B) :
    forwardHAxes (dftAxes x) j = x j / Fintype.card B := by
  have hb : (Fintype.card B : ℂ) ≠ 0 := by
    have : Nonempty B := ⟨j.2⟩
    exact Nat.cast_ne_zero.2 Fintype.card_ne_zero
  have := card_ne (G := G)
  rw [forwardHAxes]
  simp only [dftAxes]
  rw [idft_dft, Fintype.card_prod]
  push_cast
  field_simp

/-- **C68 does not hold** for transforms along some of the axes: the inverse of the transform along an axis of an array of shape (2, 2)
divides the result by 2. -/
theorem C68_axes_fails : ∃ (x : ZMod 2 × Fin 2 → ℂ) (j : ZMod 2 × Fin 2), forwardHAxes (dftAxes x) j ≠ x j := by
  refine ⟨fun _ => 1, (0, 0), ?_⟩
  rw [C68_axes_partial]
  norm_num

/-- The transforms are not trivial: the transform of (1, 2) is (3, -1). -/
example : dft (fun j : ZMod 2 => if j = 0 then 1 else 2) 0 = 3 ∧ dft (fun j : ZMod 2 => if j = 0 then 1 else 2) 1 = -1 := by
  have h0 : (Grid.e (0 : ZMod 2) (0 : ZMod 2) : ℂ) = 1 := e_zero _
  have h1 : (Grid.e (-0 : ZMod 2) (1 : ZMod 2) : ℂ) = 1 := by rw [neg_zero]; exact e_zero _
  have h2 : (Grid.e (-1 : ZMod 2) (0 : ZMod 2) : ℂ) = 1 := by rw [Grid.comm]; exact e_zero _
  have h3 : (Grid.e (-1 : ZMod 2) (1 : ZMod 2) : ℂ) = -1 := by
    have := e_formula 2 (-1) 1
    simp only [Int.cast_neg, Int.cast_one] at this
    rw [this]
    have e : 2 * (Real.pi : ℂ) * I * ((-1 * 1 : ℤ) : ℂ) / (2 : ℕ) = -(Real.pi * I) := by push_cast; ring
    rw [e, Complex.exp_neg, Complex.exp_pi_mul_I]
    norm_num
  have es : ∀ f : ZMod 2 → ℂ, ∑ j, f j = f 0 + f 1 := fun f => Fin.sum_univ_two f
  have a : (1 : ZMod 2) ≠ 0 := by decide
  constructor
  · rw [dft, es, if_pos rfl, if_neg a, neg_zero, h0, h2]; norm_num
  · rw [dft, es, if_pos rfl, if_neg a, h1, h3]; norm_num

end Verif.Fourier.Convolution
