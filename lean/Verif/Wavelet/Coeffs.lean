import Mathlib.Algebra.BigOperators.Group.List.Basic
import Mathlib.Data.List.GetD

/-
Model of the conversions between the coefficients of a wavelet transform and a vector: src/pyoperators/operators_pywt.py:62-91
(`WaveletOperator`) and 131-181 (`Wavelet2dOperator`).
-/

namespace Verif.Wavelet

variable {R : Type}

/-- The Python slice `v[a:b]`. -/
def slice (v : List R) (a b : Nat) : List R := (v.drop a).take (b - a)

/-- `np.cumsum`: the partial sums. -/
def cumsum : Nat → List Nat → List Nat
  | _, [] => []
  | a, n :: l => (a + n) :: cumsum (a + n) l

/-- `sizes`: src/pyoperators/operators_pywt.py:66.  The sizes are the ones of the coefficients of the null array of the same shape. -/
def sizes (coeffs : List (List R)) : List Nat := coeffs.map List.length

/-- `cumsizes`: src/pyoperators/operators_pywt.py:67. -/
def cumsizes (sizes : List Nat) : List Nat := cumsum 0 (0 :: sizes)

/-- `_coeffs2vect`: src/pyoperators/operators_pywt.py:83-84. -/
def coeffs2vect (coeffs : List (List R)) : List R := coeffs.flatten

/-- `_vect2coeffs`: src/pyoperators/operators_pywt.py:86-90. -/
def vect2coeffs (sizes : List Nat) (v : List R) : List (List R) :=
  (List.range sizes.length).map fun i => slice v ((cumsizes sizes).getD i 0) ((cumsizes sizes).getD (i + 1) 0)

/-- An array: its shape and its elements in C order. -/
structure Array2 (R : Type) where
  shape : List Nat
  flat : List R

/-- The number of elements is the product of the dimensions. -/
def Array2.Valid (a : Array2 R) : Prop := a.flat.length = a.shape.prod

/-- The coefficients of a 2-dimensional transform: the approximation and, for each level, three arrays of details. -/
structure Coeffs2 (R : Type) where
  approx : Array2 R
  details : List (List (Array2 R))

/-- The loops `for d in details for i in range(3)`: src/pyoperators/operators_pywt.py:139 and 166. -/
def Coeffs2.arrays (c : Coeffs2 R) : List (Array2 R) :=
  c.approx :: c.details.flatMap fun d => (List.range 3).map fun i => d.getD i ⟨[], []⟩

/-- `shapes`: src/pyoperators/operators_pywt.py:138-139. -/
def shapes2 (c : Coeffs2 R) : List (List Nat) := c.arrays.map Array2.shape

/-- `sizes`: src/pyoperators/operators_pywt.py:140. -/
def sizes2 (shapes : List (List Nat)) : List Nat := shapes.map List.prod

/-- `cumsizes`: src/pyoperators/operators_pywt.py:141-142. -/
def cumsizes2 (sizes : List Nat) : List Nat := 0 :: cumsum 0 sizes

/-- `_coeffs2vect`: src/pyoperators/operators_pywt.py:160-168. -/
def coeffs2vect2 (c : Coeffs2 R) : List R := (c.arrays.map Array2.flat).flatten

/-- `range(1, n, 3)`. -/
def range3 (n : Nat) : List Nat := (List.range ((n - 1 + 2) / 3)).map fun k => 1 + 3 * k

/-- `v.reshape(shape)`: a ValueError if the number of elements is not the product of the dimensions. -/
def reshape (v : List R) (shape : List Nat) : Option (Array2 R) := if v.length = shape.prod then some ⟨shape, v⟩ else none

/-- `_vect2coeffs`: src/pyoperators/operators_pywt.py:170-181. -/
def vect2coeffs2 (shapes : List (List Nat)) (v : List R) : Option (Coeffs2 R) := do
  let sizes := sizes2 shapes
  let cs := cumsizes2 sizes
  let approx ← reshape (slice v 0 (sizes.getD 0 0)) (shapes.getD 0 [])
  let details ← (range3 sizes.length).mapM fun i => (List.range 3).mapM fun j =>
    reshape (slice v (cs.getD (i + j) 0) (cs.getD (i + j + 1) 0)) (shapes.getD (i + j) [])
  return ⟨approx, details⟩

/-! ### Properties -/

theorem cumsum_get : ∀ (l : List Nat) (a i : Nat), i < l.length → (cumsum a l).getD i 0 = a + (l.take (i + 1)).sum
  | n :: l, a, 0, _ => by simp [cumsum]
  | n :: l, a, i + 1, h => by
    rw [cumsum, List.getD_cons_succ, cumsum_get l (a + n) i (by simpa using h)]
    simp [Nat.add_assoc]

theorem cumsizes_get (l : List Nat) (i : Nat) (h : i ≤ l.length) : (cumsizes l).getD i 0 = (l.take i).sum := by
  rw [cumsizes, cumsum_get _ _ _ (by simp; omega)]
  simp

theorem cumsizes2_get (l : List Nat) (i : Nat) (h : i ≤ l.length) : (cumsizes2 l).getD i 0 = (l.take i).sum := by
  cases i with
  | zero => simp [cumsizes2]
  | succ i => rw [cumsizes2, List.getD_cons_succ, cumsum_get _ _ _ (by omega)]; simp

/-- The part of a concatenation that corresponds to one of the lists. -/
theorem slice_flatten (l : List (List R)) (i : Nat) (h : i < l.length) :
    slice l.flatten (((l.map List.length).take i).sum) (((l.map List.length).take (i + 1)).sum) = l.getD i [] := by
  induction l generalizing i with
  | nil => simp at h
  | cons a l ih =>
    cases i with
    | zero => simp [slice]
    | succ i =>
      have := ih i (by simpa using h)
      simp only [slice, List.map_cons, List.take_succ_cons, List.sum_cons, List.flatten_cons, List.getD_cons_succ] at this ⊢
      rw [← this, Nat.add_sub_add_left]
      congr 1
      rw [← List.drop_drop, List.drop_left]

/-- **C49.** Unpacking the vector of the coefficients of a 1-dimensional transform gives them back. -/
theorem C49_coeffs (c : List (List R)) : vect2coeffs (sizes c) (coeffs2vect c) = c := by
  apply List.ext_getElem
  · simp [vect2coeffs, sizes]
  · intro i h1 h2
    have hl : (sizes c).length = c.length := by simp [sizes]
    simp only [vect2coeffs, List.getElem_map, List.getElem_range]
    rw [cumsizes_get _ _ (by omega), cumsizes_get _ _ (by omega), coeffs2vect]
    have := slice_flatten c i h2
    rw [sizes, this]
    simp [h2]

theorem flatten_slices (l : List Nat) (v : List R) (n : Nat) (hn : n ≤ l.length) :
    ((List.range n).map fun i => slice v ((l.take i).sum) ((l.take (i + 1)).sum)).flatten = v.take (l.take n).sum := by
  induction n with
  | zero => simp
  | succ n ih =>
    rw [List.range_succ, List.map_append, List.flatten_append, ih (by omega)]
    have : l.take (n + 1) = l.take n ++ [l[n]'(by omega)] := by simp
    rw [this, List.sum_append]
    simp only [List.map_cons, List.map_nil, List.flatten_cons, List.flatten_nil, List.append_nil, slice, List.sum_cons, List.sum_nil,
      Nat.add_zero]
    rw [this]
    simp only [List.sum_append, List.sum_cons, List.sum_nil, Nat.add_zero, Nat.add_sub_cancel_left]
    rw [List.take_add]

/-- **C49.** Packing the coefficients unpacked from a vector gives it back. -/
theorem C49_vect (sizes : List Nat) (v : List R) (h : v.length = sizes.sum) : coeffs2vect (vect2coeffs sizes v) = v := by
  have : vect2coeffs sizes v = (List.range sizes.length).map fun i => slice v ((sizes.take i).sum) ((sizes.take (i + 1)).sum) := by
    rw [vect2coeffs]
    apply List.map_congr_left
    intro i hi
    rw [List.mem_range] at hi
    rw [cumsizes_get _ _ (by omega), cumsizes_get _ _ (by omega)]
  rw [coeffs2vect, this, flatten_slices _ _ _ (Nat.le_refl _), List.take_length, ← h, List.take_length]

theorem mapM_some {α β : Type} (l : List α) (f : α → Option β) (g : α → β) (h : ∀ a ∈ l, f a = some (g a)) :
    l.mapM f = some (l.map g) := by
  induction l with
  | nil => simp
  | cons a l ih =>
    rw [List.mapM_cons, h a (by simp), ih fun b hb => h b (by simp [hb])]
    rfl

theorem triples (c : Coeffs2 R) (k j : Nat) (hk : k < c.details.length) (hj : j < 3) :
    c.arrays.getD (1 + 3 * k + j) ⟨[], []⟩ = (c.details.getD k []).getD j ⟨[], []⟩ := by
  rw [Coeffs2.arrays, show 1 + 3 * k + j = (3 * k + j) + 1 by omega, List.getD_cons_succ]
  generalize c.details = l at hk
  induction l generalizing k with
  | nil => simp at hk
  | cons d l ih =>
    rw [List.flatMap_cons]
    cases k with
    | zero =>
      rw [List.getD_append _ _ _ _ (by simp; omega)]
      match j with
      | 0 => rfl
      | 1 => rfl
      | 2 => rfl
    | succ k =>
      rw [List.getD_append_right _ _ _ _ (by simp; omega), List.getD_cons_succ, ← ih k (by simpa using hk)]
      congr 1
      simp
      omega

theorem arrays_length (c : Coeffs2 R) : c.arrays.length = 1 + 3 * c.details.length := by
  rw [Coeffs2.arrays, List.length_cons, List.length_flatMap]
  simp [Nat.mul_comm, Nat.add_comm]

/-- **C49.** Unpacking the vector of the coefficients of a 2-dimensional transform gives them back, with their shapes. -/
theorem C49_coeffs2d (c : Coeffs2 R) (ha : c.approx.Valid) (hd : ∀ d ∈ c.details, d.length = 3 ∧ ∀ a ∈ d, a.Valid) :
    vect2coeffs2 (shapes2 c) (coeffs2vect2 c) = some c := by
  have hv : ∀ a ∈ c.arrays, a.Valid := by
    intro a hm
    rw [Coeffs2.arrays, List.mem_cons, List.mem_flatMap] at hm
    rcases hm with rfl | ⟨d, h1, h2⟩
    · exact ha
    · rw [List.mem_map] at h2
      obtain ⟨i, hi, rfl⟩ := h2
      rw [List.mem_range] at hi
      have := hd d h1
      rw [List.getD_eq_getElem?_getD, List.getElem?_eq_getElem (by omega), Option.getD_some]
      exact this.2 _ (List.getElem_mem _)
  have hs : sizes2 (shapes2 c) = (c.arrays.map Array2.flat).map List.length := by
    rw [sizes2, shapes2, List.map_map, List.map_map]
    apply List.map_congr_left
    intro a hm
    exact (hv a hm).symm
  have hl : (sizes2 (shapes2 c)).length = 1 + 3 * c.details.length := by
    rw [hs]; simp [arrays_length]
  have part : ∀ i < c.arrays.length, reshape (slice (coeffs2vect2 c) ((cumsizes2 (sizes2 (shapes2 c))).getD i 0)
      ((cumsizes2 (sizes2 (shapes2 c))).getD (i + 1) 0)) ((shapes2 c).getD i []) = some (c.arrays.getD i ⟨[], []⟩) := by
    intro i hi
    have h1 := arrays_length c
    rw [cumsizes2_get _ _ (by omega), cumsizes2_get _ _ (by omega), hs, coeffs2vect2, slice_flatten _ _ (by simpa using hi)]
    have h2 : (c.arrays.map Array2.flat).getD i [] = (c.arrays.getD i ⟨[], []⟩).flat := by
      simp [List.getD_eq_getElem?_getD, hi]
    have h3 : (shapes2 c).getD i [] = (c.arrays.getD i ⟨[], []⟩).shape := by
      simp [List.getD_eq_getElem?_getD, hi, shapes2]
    have h4 : (c.arrays.getD i ⟨[], []⟩).Valid := by
      rw [List.getD_eq_getElem?_getD, List.getElem?_eq_getElem hi, Option.getD_some]
      exact hv _ (List.getElem_mem _)
    rw [h2, h3, reshape, if_pos (show _ = _ from h4)]
  have happrox : reshape (slice (coeffs2vect2 c) 0 ((sizes2 (shapes2 c)).getD 0 0)) ((shapes2 c).getD 0 []) = some c.approx := by
    have h := part 0 (by rw [arrays_length]; omega)
    have h5 : (cumsizes2 (sizes2 (shapes2 c))).getD (0 + 1) 0 = (sizes2 (shapes2 c)).getD 0 0 := by
      rw [cumsizes2_get _ _ (by omega)]
      generalize sizes2 (shapes2 c) = l
      cases l <;> simp
    rw [h5] at h
    exact h
  have hdetails : (range3 (sizes2 (shapes2 c)).length).mapM (fun i => (List.range 3).mapM fun j =>
      reshape (slice (coeffs2vect2 c) ((cumsizes2 (sizes2 (shapes2 c))).getD (i + j) 0)
        ((cumsizes2 (sizes2 (shapes2 c))).getD (i + j + 1) 0)) ((shapes2 c).getD (i + j) [])) = some c.details := by
    have hr : range3 (sizes2 (shapes2 c)).length = (List.range c.details.length).map fun k => 1 + 3 * k := by
      rw [range3, hl]
      congr 2
      omega
    rw [hr, mapM_some _ _ (fun i => (List.range 3).map fun j => c.arrays.getD (i + j) ⟨[], []⟩)]
    · rw [Option.some.injEq, List.map_map]
      apply List.ext_getElem
      · simp
      · intro k h1 h2
        rw [List.getElem_map, List.getElem_range]
        simp only [Function.comp]
        have h3 := hd _ (List.getElem_mem h2)
        apply List.ext_getElem
        · simp [h3.1]
        · intro j h4 h5
          rw [List.getElem_map, List.getElem_range, triples c k j h2 (by simpa using h4)]
          simp [h2, h5]
    · intro i hi
      rw [List.mem_map] at hi
      obtain ⟨k, hk, rfl⟩ := hi
      rw [List.mem_range] at hk
      apply mapM_some
      intro j hj
      rw [List.mem_range] at hj
      exact part _ (by rw [arrays_length]; omega)
  simp only [vect2coeffs2]
  rw [happrox, hdetails]
  rfl

/-- The hypotheses of the theorems are met: one level of a 2-dimensional transform, of different shapes. -/
example : ∃ c : Coeffs2 Nat, c.approx.Valid ∧ (∀ d ∈ c.details, d.length = 3 ∧ ∀ a ∈ d, a.Valid) ∧
    coeffs2vect2 c = [1, 2, 3, 4, 5, 6, 7, 8] ∧ shapes2 c = [[1, 2], [2, 1], [1, 1], [1, 3]] := by
  refine ⟨⟨⟨[1, 2], [1, 2]⟩, [[⟨[2, 1], [3, 4]⟩, ⟨[1, 1], [5]⟩, ⟨[1, 3], [6, 7, 8]⟩]]⟩, rfl, ?_, rfl, rfl⟩
  simp [Array2.Valid]

example : vect2coeffs [2, 3, 1] [1, 2, 3, 4, 5, 6] = [[1, 2], [3, 4, 5], [6]] := by decide

end Verif.Wavelet
