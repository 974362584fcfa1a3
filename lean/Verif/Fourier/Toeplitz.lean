import Verif.Fourier.Dft
import Mathlib.Data.List.GetD

/-
Model of `SymmetricBandToeplitzOperator`: src/pyoperators/linear.py:1709-1823, in exact arithmetic.  The Fourier transforms of FFTW are
those of Verif.Fourier.Dft.
-/

namespace Verif.Fourier.Toeplitz

open Complex Finset Verif.Fourier

/-! ### Model -/

/-- The loop `while fftsize < t: fftsize *= 2`: src/pyoperators/linear.py:1755-1756. -/
def grow (s t : Nat) : Nat := if h : 0 < s ∧ s < t then grow (2 * s) t else s
termination_by t - s
decreasing_by omega

/-- The size of the transforms: src/pyoperators/linear.py:1754-1756. -/
def fftsize (nsamples ncorr : Nat) : Nat := grow 2 (nsamples + ncorr)

/-- `buf[lo:hi] = v`, where v can have a single element.  `none` is the ValueError of incompatible sizes. -/
def setSlice {R : Type} [Zero R] (buf : List R) (lo hi : Nat) (v : List R) : Option (List R) :=
  if v.length = min hi buf.length - lo ∨ v.length = 1 then
    some (buf.mapIdx fun i a => if lo ≤ i ∧ i < hi then v.getD (if v.length = 1 then 0 else i - lo) 0 else a)
  else none

/-- The buffer that is transformed into the kernel: src/pyoperators/linear.py:1818-1820.  `buf` is the buffer given by the pool. -/
def kernelBuffer {R : Type} [Zero R] (f buf : List R) : Option (List R) := do
  let ncorr := f.length - 1
  let b ← setSlice buf 0 (ncorr + 1) f
  let b ← setSlice b (ncorr + 1) (buf.length - ncorr) [0]
  setSlice b (buf.length - ncorr) buf.length f.tail.reverse

/-- The array of size n that a buffer contains. -/
def contents (n : Nat) (b : List ℝ) (j : ZMod n) : ℝ := b.getD j.val 0

/-- `_get_kernel`, for one row: src/pyoperators/linear.py:1814-1823. -/
noncomputable def kernel (n : Nat) [NeZero n] (f buf : List ℝ) : Option (ZMod n → ℝ) :=
  (kernelBuffer f buf).map fun b k => (r2c (contents n b) k).re / n

/-- The padded input: src/pyoperators/linear.py:1805-1807. -/
def inputBuffer (lpad : Nat) (x buf : List ℝ) : Option (List ℝ) := do
  let b ← setSlice buf 0 lpad [0]
  let b ← setSlice b lpad (lpad + x.length) x
  setSlice b (lpad + x.length) buf.length [0]

/-- One iteration of the loop of `direct`: src/pyoperators/linear.py:1804-1811. -/
noncomputable def applyKernel (n : Nat) [NeZero n] (lpad : Nat) (kernel : ZMod n → ℝ) (x buf : List ℝ) : Option (List ℝ) :=
  (inputBuffer lpad x buf).map fun b =>
    (List.range x.length).map fun (i : Nat) => c2r (half n) (fun k => r2c (contents n b) k * (kernel k : ℂ)) ((lpad + i : Nat) : ZMod n)

theorem grow_ge : ∀ (t s : Nat), 0 < s → t ≤ grow s t ∧ s ≤ grow s t := by
  intro t s
  induction h : t - s using Nat.strong_induction_on generalizing s with
  | _ m ih =>
    intro hs
    rw [grow]
    by_cases h1 : s < t
    · rw [dif_pos ⟨hs, h1⟩]
      have := ih (t - 2 * s) (by omega) (2 * s) rfl (by omega)
      omega
    · rw [dif_neg (by omega)]; omega

instance (a b : Nat) : NeZero (fftsize a b) := ⟨by have := (grow_ge (a + b) 2 (by omega)).2; rw [fftsize]; omega⟩

/-- The operator applied to one row, with the first row f of the matrix: src/pyoperators/linear.py:1729-1811.  If f has one element, the
operator is the multiplication by it (1746-1751).  `junk1` and `junk2` are the contents of the buffers given by the pool. -/
noncomputable def row (f x : List ℝ) (junk1 junk2 : Nat → ℝ) : Option (List ℝ) :=
  if f.length = 1 then some (x.map (f.getD 0 0 * ·))
  else
    let n := fftsize x.length (f.length - 1)
    (kernel n f ((List.range n).map junk1)).bind fun k =>
      applyKernel n ((2 * f.length - 1 - 1) / 2) k x ((List.range n).map junk2)

/-- The number of elements of an argument of `zip_broadcast`: src/pyoperators/utils/misc.py:1219-1224. -/
def repeated {A : Type} (l : List A) (n : Nat) : Nat := if l.length = 1 then n else l.length

/-- The element i of an argument of `zip_broadcast`. -/
def select {A : Type} (l : List A) (i : Nat) : Nat := if l.length = 1 then 0 else i

/-- The loop of `direct`: src/pyoperators/linear.py:1803-1811, over the rows of the input, of the output and of the first rows of the
matrices (`zip` stops at the end of the shortest argument, src/pyoperators/utils/misc.py:1211-1228). -/
noncomputable def rows (fs xs out : List (List ℝ)) (junk1 junk2 : Nat → ℝ) : Option (List (List ℝ)) :=
  let n := max fs.length (max xs.length out.length)
  let m := min (repeated fs n) (min (repeated xs n) (repeated out n))
  (List.range m).foldlM (fun out i =>
    (row (fs.getD (select fs i) []) (xs.getD (select xs i) []) junk1 junk2).map fun y => out.set (select out i) y) out

/-! ### Lemmas -/

theorem sum_zmod {M : Type} [AddCommMonoid M] (n : Nat) [NeZero n] (g : ZMod n → M) : ∑ j, g j = ∑ i ∈ range n, g (i : ZMod n) := by
  apply Finset.sum_nbij' (fun j : ZMod n => j.val) (fun i : ℕ => (i : ZMod n))
  · intro j _; exact Finset.mem_range.2 (ZMod.val_lt j)
  · intro i _; exact Finset.mem_univ _
  · intro j _; simp
  · intro i hi; exact ZMod.val_cast_of_lt (Finset.mem_range.1 hi)
  · intro j _; simp

theorem setSlice_get {R : Type} [Zero R] {buf v : List R} {lo hi : Nat} (h : v.length = min hi buf.length - lo ∨ v.length = 1) :
    ∃ b, setSlice buf lo hi v = some b ∧ b.length = buf.length ∧ ∀ i < buf.length, b.getD i 0 =
      if lo ≤ i ∧ i < hi then v.getD (if v.length = 1 then 0 else i - lo) 0 else buf.getD i 0 := by
  refine ⟨_, by rw [setSlice, if_pos h], by simp, ?_⟩
  intro i hi
  simp only [List.getD_eq_getElem?_getD, List.getElem?_mapIdx, List.getElem?_eq_getElem hi]
  split <;> simp [*]

theorem kernelBuffer_get {R : Type} [Zero R] {f buf : List R} (hf : 2 ≤ f.length) (hb : f.length ≤ buf.length) :
    ∃ b, kernelBuffer f buf = some b ∧ b.length = buf.length ∧ ∀ i < buf.length, b.getD i 0 =
      if buf.length - (f.length - 1) ≤ i then f.getD (buf.length - i) 0 else f.getD i 0 := by
  obtain ⟨b1, h1, l1, v1⟩ := setSlice_get (buf := buf) (v := f) (lo := 0) (hi := f.length - 1 + 1) (by omega)
  obtain ⟨b2, h2, l2, v2⟩ := setSlice_get (buf := b1) (v := [0]) (lo := f.length - 1 + 1) (hi := buf.length - (f.length - 1)) (by simp)
  obtain ⟨b3, h3, l3, v3⟩ := setSlice_get (buf := b2) (v := f.tail.reverse) (lo := buf.length - (f.length - 1)) (hi := buf.length) (by
    simp; omega)
  refine ⟨b3, by simp only [kernelBuffer, Option.bind_eq_bind, h1, Option.bind_some, h2, h3], by omega, ?_⟩
  intro i hi
  rw [v3 i (by omega), v2 i (by omega), v1 i hi]
  by_cases h : buf.length - (f.length - 1) ≤ i
  · rw [if_pos ⟨h, hi⟩, if_pos h]
    have hl : f.tail.reverse.length = f.length - 1 := by simp
    have e : (if f.tail.reverse.length = 1 then 0 else i - (buf.length - (f.length - 1))) = i - (buf.length - (f.length - 1)) := by
      split <;> omega
    rw [e, List.getD_eq_getElem?_getD, List.getElem?_reverse (by simp; omega), List.getElem?_tail, List.getD_eq_getElem?_getD]
    congr 2
    simp only [List.length_tail]
    omega
  · rw [if_neg (by tauto), if_neg h]
    by_cases h2 : f.length - 1 + 1 ≤ i
    · rw [if_pos ⟨h2, by omega⟩]
      rw [List.getD_eq_default f _ (by omega)]
      simp
    · rw [if_neg (by omega), if_pos (by omega), if_neg (by omega), Nat.sub_zero]

theorem inputBuffer_get {lpad : Nat} {x buf : List ℝ} (h : lpad + x.length ≤ buf.length) :
    ∃ b, inputBuffer lpad x buf = some b ∧ b.length = buf.length ∧ ∀ i < buf.length, b.getD i 0 =
      if lpad ≤ i ∧ i < lpad + x.length then x.getD (i - lpad) 0 else 0 := by
  obtain ⟨b1, h1, l1, v1⟩ := setSlice_get (buf := buf) (v := [(0 : ℝ)]) (lo := 0) (hi := lpad) (by simp)
  obtain ⟨b2, h2, l2, v2⟩ := setSlice_get (buf := b1) (v := x) (lo := lpad) (hi := lpad + x.length) (by omega)
  obtain ⟨b3, h3, l3, v3⟩ := setSlice_get (buf := b2) (v := [(0 : ℝ)]) (lo := lpad + x.length) (hi := buf.length) (by simp)
  refine ⟨b3, by simp only [inputBuffer, Option.bind_eq_bind, h1, Option.bind_some, h2, h3], by omega, ?_⟩
  intro i hi
  rw [v3 i (by omega), v2 i (by omega), v1 i hi]
  by_cases ha : lpad ≤ i ∧ i < lpad + x.length
  · rw [if_neg (by omega), if_pos ha, if_pos ha]
    congr 1
    split <;> omega
  · rw [if_neg ha, if_neg ha]
    by_cases hc : lpad + x.length ≤ i
    · rw [if_pos ⟨hc, hi⟩]; simp
    · rw [if_neg (by omega), if_pos (by omega)]; simp

/-- The real part of the transform of a real array is the transform of its even part. -/
theorem re_r2c {G : Type} [AddCommGroup G] [Fintype G] [DecidableEq G] [Grid G] (c : G → ℝ) (k : G) :
    ((r2c c k).re : ℂ) = r2c (fun j => (c j + c (-j)) / 2) k := by
  have h1 : r2c (fun j => c (-j)) k = (starRingEnd ℂ) (r2c c k) := by
    rw [conj_r2c, r2c, r2c, dft, dft]
    exact Fintype.sum_equiv (Equiv.neg G) _ _ fun j => by
      simp only [Equiv.neg_apply, neg_neg]
      rw [e_neg_right]
  have h2 : r2c (fun j => (c j + c (-j)) / 2) k = (r2c c k + r2c (fun j => c (-j)) k) / 2 := by
    simp only [r2c, dft]
    rw [← Finset.sum_add_distrib, Finset.sum_div]
    apply Finset.sum_congr rfl
    intro j _
    push_cast
    ring
  rw [h2, h1, Complex.add_conj]
  push_cast
  ring

theorem conv_comm' {G : Type} [AddCommGroup G] [Fintype G] [DecidableEq G] (a x : G → ℝ) (j : G) :
    conv a x j = ∑ t, a (j - t) * x t := by
  rw [conv]
  exact Fintype.sum_equiv (Equiv.subLeft j) _ _ fun t => by simp

theorem row_fft (n : Nat) [NeZero n] (f x : List ℝ) (hf : 2 ≤ f.length) (hx0 : 0 < x.length) (hge : x.length + (f.length - 1) ≤ n)
    (junk1 junk2 : Nat → ℝ) : ∃ y, ((kernel n f ((List.range n).map junk1)).bind fun k =>
        applyKernel n ((2 * f.length - 1 - 1) / 2) k x ((List.range n).map junk2)) = some y ∧ y.length = x.length ∧
      ∀ r < x.length, y.getD r 0 = ∑ c ∈ range x.length, f.getD (max r c - min r c) 0 * x.getD c 0 := by
  obtain ⟨kb, k1, k2, k3⟩ := kernelBuffer_get (f := f) (buf := (List.range n).map junk1) (by omega) (by simp; omega)
  obtain ⟨xb, x1, x2, x3⟩ := inputBuffer_get (lpad := (2 * f.length - 1 - 1) / 2) (x := x) (buf := (List.range n).map junk2) (by
    simp; omega)
  simp only [List.length_map, List.length_range] at k3 x3
  refine ⟨(List.range x.length).map fun (i : Nat) => c2r (half n) (fun k => r2c (contents n xb) k * (((r2c (contents n kb) k).re / n : ℝ) : ℂ))
      (((2 * f.length - 1 - 1) / 2 + i : Nat) : ZMod n), by simp only [kernel, k1, applyKernel, x1, Option.map_some, Option.bind_some],
    by simp, ?_⟩
  intro r hr
  have hl : (2 * f.length - 1 - 1) / 2 = f.length - 1 := by omega
  rw [hl] at x3 ⊢
  rw [List.getD_eq_getElem?_getD, List.getElem?_map, List.getElem?_range hr, Option.map_some, Option.getD_some,
    c2r_conv (half_covers n) (fun j => (contents n kb j + contents n kb (-j)) / 2) (contents n xb) (by
      intro k _
      rw [← re_r2c, ZMod.card]
      push_cast
      rfl), conv_comm', sum_zmod]
  have hsplit : n = (f.length - 1) + (x.length + (n - (f.length - 1) - x.length)) := by omega
  have hxv : ∀ i < n, contents n xb (i : ZMod n) =
      if f.length - 1 ≤ i ∧ i < f.length - 1 + x.length then x.getD (i - (f.length - 1)) 0 else 0 := by
    intro i hi
    rw [contents, ZMod.val_cast_of_lt hi, x3 i hi]
  have hkv : ∀ i < n, contents n kb (i : ZMod n) = if n - (f.length - 1) ≤ i then f.getD (n - i) 0 else f.getD i 0 := by
    intro i hi
    rw [contents, ZMod.val_cast_of_lt hi, k3 i hi]
  have key : ∀ d < x.length, contents n kb (d : ZMod n) = f.getD d 0 ∧ contents n kb (-(d : ZMod n)) = f.getD d 0 := by
    intro d hd
    refine ⟨by rw [hkv d (by omega), if_neg (by omega)], ?_⟩
    by_cases hd0 : d = 0
    · subst hd0
      rw [Nat.cast_zero, neg_zero]
      have := hkv 0 (by omega)
      rw [Nat.cast_zero] at this
      rw [this, if_neg (by omega)]
    · have e : (-(d : ZMod n)) = ((n - d : Nat) : ZMod n) := by
        rw [Nat.cast_sub (by omega), ZMod.natCast_self, zero_sub]
      rw [e, hkv _ (by omega)]
      by_cases h : n - (f.length - 1) ≤ n - d
      · rw [if_pos h, show n - (n - d) = d by omega]
      · rw [if_neg h, List.getD_eq_default f _ (by omega), List.getD_eq_default f _ (by omega)]
  have hterm : ∀ i ∈ range n, (contents n kb (((f.length - 1 + r : Nat) : ZMod n) - (i : ZMod n)) +
        contents n kb (-(((f.length - 1 + r : Nat) : ZMod n) - (i : ZMod n)))) / 2 * contents n xb (i : ZMod n) =
      if f.length - 1 ≤ i ∧ i < f.length - 1 + x.length then
        f.getD (max r (i - (f.length - 1)) - min r (i - (f.length - 1))) 0 * x.getD (i - (f.length - 1)) 0 else 0 := by
    intro i hi
    rw [hxv i (Finset.mem_range.1 hi)]
    by_cases hi' : f.length - 1 ≤ i ∧ i < f.length - 1 + x.length
    · rw [if_pos hi', if_pos hi']
      congr 1
      obtain ⟨c, rfl⟩ := Nat.exists_eq_add_of_le hi'.1
      have hc : c < x.length := by omega
      rw [Nat.add_sub_cancel_left]
      by_cases hrc : c ≤ r
      · have e : ((f.length - 1 + r : Nat) : ZMod n) - ((f.length - 1 + c : Nat) : ZMod n) = ((r - c : Nat) : ZMod n) := by
          rw [Nat.cast_sub hrc]; push_cast; ring
        rw [e, (key (r - c) (by omega)).1, (key (r - c) (by omega)).2, show max r c - min r c = r - c by omega]
        ring
      · have e : ((f.length - 1 + r : Nat) : ZMod n) - ((f.length - 1 + c : Nat) : ZMod n) = -((c - r : Nat) : ZMod n) := by
          rw [Nat.cast_sub (by omega)]; push_cast; ring
        rw [e, neg_neg, (key (c - r) (by omega)).1, (key (c - r) (by omega)).2, show max r c - min r c = c - r by omega]
        ring
    · rw [if_neg hi', if_neg hi', mul_zero]
  rw [Finset.sum_congr rfl hterm]
  conv_lhs => rw [hsplit]
  rw [Finset.sum_range_add, Finset.sum_range_add, Finset.sum_eq_zero, zero_add, add_comm, Finset.sum_eq_zero, zero_add]
  · apply Finset.sum_congr rfl
    intro c hc
    rw [if_pos ⟨by omega, by have := Finset.mem_range.1 hc; omega⟩, Nat.add_sub_cancel_left]
  · intro i _
    rw [if_neg (by omega)]
  · intro i hi
    rw [if_neg (by have := Finset.mem_range.1 hi; omega)]

/-! ### Properties -/

/-- **C36.** For all numbers of samples (at least 1), all first rows and all inputs, whatever the buffers contained, the operator returns
the product of the input by the symmetric Toeplitz matrix. -/
theorem C36_toeplitz (f x : List ℝ) (hf : f ≠ []) (hx : x ≠ []) (junk1 junk2 : Nat → ℝ) :
    ∃ y, row f x junk1 junk2 = some y ∧ y.length = x.length ∧
      ∀ r < x.length, y.getD r 0 = ∑ c ∈ range x.length, f.getD (max r c - min r c) 0 * x.getD c 0 := by
  have hf0 : 0 < f.length := List.length_pos_of_ne_nil hf
  have hx0 : 0 < x.length := List.length_pos_of_ne_nil hx
  rw [row]
  by_cases h1 : f.length = 1
  · rw [if_pos h1]
    refine ⟨_, rfl, by simp, ?_⟩
    intro r hr
    rw [Finset.sum_eq_single r]
    · simp [hr]
    · intro c _ hc
      rw [List.getD_eq_default f _ (by omega), zero_mul]
    · intro h; exact absurd (Finset.mem_range.2 hr) h
  · rw [if_neg h1]
    exact row_fft (fftsize x.length (f.length - 1)) f x (by omega) hx0 (grow_ge _ 2 (by omega)).1 junk1 junk2

/-- The product by the symmetric Toeplitz matrix of first row f, completed by zeros. -/
def IsProduct (f x y : List ℝ) : Prop :=
  y.length = x.length ∧ ∀ r < x.length, y.getD r 0 = ∑ c ∈ range x.length, f.getD (max r c - min r c) 0 * x.getD c 0

theorem fold_set {A : Type} (g : Nat → Option A) (y : Nat → A) (out : List A) (m : Nat) (hg : ∀ i < m, g i = some (y i))
    (hm : m ≤ out.length) : (List.range m).foldlM (fun o i => (g i).map fun v => o.set (select o i) v) out =
      some ((List.range m).map y ++ out.drop m) := by
  induction m with
  | zero => rfl
  | succ m ih =>
    rw [List.range_succ, List.foldlM_append, ih (fun i hi => hg i (by omega)) (by omega), List.map_append]
    simp only [Option.bind_eq_bind, Option.bind_some, List.foldlM_cons, List.foldlM_nil, hg m (by omega), Option.map_some]
    have e : select ((List.range m).map y ++ out.drop m) m = m := by
      rw [select]; split
      · rename_i h; simp at h; omega
      · rfl
    have e' : (out.drop m).set 0 (y m) = y m :: out.drop (m + 1) := by
      rw [List.drop_eq_getElem_cons (show m < out.length by omega)]; rfl
    rw [e, List.set_append_right _ _ (by simp)]
    simp [e']

/-- **C36.** The rows of the input are multiplied by the matrix if there is only one, or each by its own matrix.  Missing: inputs with more
rows than there are matrices, see C36_rows_fails. -/
theorem C36_rows_partial (fs xs out : List (List ℝ)) (hf : ∀ f ∈ fs, f ≠ []) (hx : ∀ x ∈ xs, x ≠ [])
    (hn : fs.length = xs.length ∨ (fs.length = 1 ∧ xs ≠ [])) (ho : out.length = xs.length) (junk1 junk2 : Nat → ℝ) :
    ∃ ys, rows fs xs out junk1 junk2 = some ys ∧ ys.length = xs.length ∧
      ∀ i < xs.length, IsProduct (if fs.length = 1 then fs.getD 0 [] else fs.getD i []) (xs.getD i []) (ys.getD i []) := by
  have hlen : ∀ l : List (List ℝ), l.length = 1 ∧ xs ≠ [] ∨ l.length = xs.length →
      repeated l (max fs.length (max xs.length out.length)) = xs.length := by
    intro l hl
    have hpos : xs ≠ [] → 0 < xs.length := List.length_pos_of_ne_nil
    rw [repeated]
    split
    · rcases hl with ⟨h1, h2⟩ | h1 <;> rcases hn with h3 | ⟨h3, h4⟩ <;> first | (have := hpos h2; omega) | (have := hpos h4; omega) | omega
    · rcases hl with ⟨h1, h2⟩ | h1 <;> omega
  have hex : ∀ i < xs.length, ∃ y, row (fs.getD (select fs i) []) (xs.getD (select xs i) []) junk1 junk2 = some y ∧
      IsProduct (if fs.length = 1 then fs.getD 0 [] else fs.getD i []) (xs.getD i []) y := by
    intro i hi
    have e1 : select xs i = i := by rw [select]; split <;> omega
    have e2 : fs.getD (select fs i) [] = if fs.length = 1 then fs.getD 0 [] else fs.getD i [] := by
      rw [select]; split <;> rfl
    have hfi : select fs i < fs.length := by
      rw [select]; split <;> omega
    rw [e1, ← e2]
    obtain ⟨y, h1, h2, h3⟩ := C36_toeplitz (fs.getD (select fs i) []) (xs.getD i [])
      (hf _ (by rw [List.getD_eq_getElem?_getD, List.getElem?_eq_getElem hfi]; exact List.getElem_mem _))
      (hx _ (by rw [List.getD_eq_getElem?_getD, List.getElem?_eq_getElem hi]; exact List.getElem_mem _)) junk1 junk2
    exact ⟨y, h1, h2, h3⟩
  choose! y hy using hex
  refine ⟨(List.range xs.length).map y ++ out.drop xs.length, ?_, ?_, ?_⟩
  · rw [rows]
    rw [hlen fs (by tauto), hlen xs (Or.inr rfl), hlen out (Or.inr ho), Nat.min_self, Nat.min_self]
    exact fold_set _ y out xs.length (fun i hi => (hy i hi).1) (by omega)
  · simp [ho]
  · intro i hi
    have : ((List.range xs.length).map y ++ out.drop xs.length).getD i [] = y i := by
      rw [List.getD_eq_getElem?_getD, List.getElem?_append_left (by simpa using hi)]
      simp [hi]
    rw [this]
    exact (hy i hi).2

/-- **C36 does not hold** for inputs with more rows than matrices (an input of shape (2, 2, 1) and two first rows, for instance): the
last rows of the output are not written. -/
theorem C36_rows_fails : ∃ fs xs : List (List ℝ), fs.length = 2 ∧ xs.length = 4 ∧ (∀ f ∈ fs, f.length = 2) ∧ (∀ x ∈ xs, x.length = 1) ∧
    ∀ (o1 o2 o3 o4 : List ℝ) (junk1 junk2 : Nat → ℝ), ∃ y1 y2, rows fs xs [o1, o2, o3, o4] junk1 junk2 = some [y1, y2, o3, o4] := by
  refine ⟨[[1, 0], [1, 0]], [[1], [1], [1], [1]], rfl, rfl, by simp, by simp, ?_⟩
  intro o1 o2 o3 o4 junk1 junk2
  obtain ⟨y, hy, -⟩ := C36_toeplitz [1, 0] [1] (by simp) (by simp) junk1 junk2
  refine ⟨y, y, ?_⟩
  have := fold_set (fun i => row (([[1, 0], [1, 0]] : List (List ℝ)).getD (select ([[1, 0], [1, 0]] : List (List ℝ)) i) [])
    (([[1], [1], [1], [1]] : List (List ℝ)).getD (select ([[1], [1], [1], [1]] : List (List ℝ)) i) []) junk1 junk2)
    (fun _ => y) [o1, o2, o3, o4] 2 (by
      intro i hi
      have : i = 0 ∨ i = 1 := by omega
      rcases this with rfl | rfl <;> exact hy) (by simp)
  exact this

/-- **C36 does not hold** without samples: the construction of the operator raises for some first rows. -/
theorem C36_empty_fails : ∀ junk1 junk2 : Nat → ℝ, row [1, 2, 3] [] junk1 junk2 = none := by
  intro junk1 junk2
  have h : ∀ n, n = 2 → (kernelBuffer [(1 : ℝ), 2, 3] ((List.range n).map junk1)) = none := by
    intro n hn
    subst hn
    simp [kernelBuffer, setSlice]
  have hs : fftsize ([] : List ℝ).length (([1, 2, 3] : List ℝ).length - 1) = 2 := by
    rw [fftsize, grow]; rfl
  rw [row, if_neg (by simp)]
  simp only [kernel]
  rw [h _ hs]
  rfl

/-- Meeting the hypotheses of C36_toeplitz: the size of the transforms for 5 samples and 4 elements in the first row, and the buffer of
the kernel. -/
example : fftsize 5 3 = 8 ∧ fftsize 2 3 = 8 ∧ kernelBuffer [3, 2, 1, 7] (List.replicate 8 9) = some [3, 2, 1, 7, 0, 7, 1, 2] := by
  refine ⟨?_, ?_, by decide⟩
  · repeat' (first | rfl | unfold fftsize | unfold grow)
  · repeat' (first | rfl | unfold fftsize | unfold grow)

/-- The buffer of the kernel if the two parts overlap: 1 sample and 4 elements in the first row. -/
example : fftsize 1 3 = 4 ∧ kernelBuffer [3, 2, 1, 7] (List.replicate 4 9) = some [3, 7, 1, 2] := by
  refine ⟨?_, by decide⟩
  repeat' (first | rfl | unfold fftsize | unfold grow)

/-- The product is not trivial. -/
example : IsProduct [3, 2] [1, 10, 100] [23, 232, 320] := by
  refine ⟨rfl, ?_⟩
  intro r hr
  have : r = 0 ∨ r = 1 ∨ r = 2 := by simp at hr; omega
  rcases this with rfl | rfl | rfl <;> norm_num [Finset.sum_range_succ]

end Verif.Fourier.Toeplitz
