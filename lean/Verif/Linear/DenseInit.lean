import Verif.Shape.Model
import Mathlib.Tactic.Common
import Mathlib.Algebra.BigOperators.Group.List.Basic

/-
Property C119: the axes and the data type of the dense operators, as set by their constructors: src/pyoperators/linear.py:96-178 and
472-490.
-/

namespace Verif.Linear.DenseInit

open Verif.Shape

/-- The first or last index of a Python slice of a sequence of n elements. -/
def sliceBound (n : Nat) (a : Int) : Nat := if a < 0 then (n + a).toNat else a.toNat

/-- `s[a:b]`. -/
def pySlice (s : Shape) (a b : Int) : Shape := (s.take (sliceBound s.length b)).drop (sliceBound s.length a)

/-- The arguments of the constructor: the shape of the data, after `np.atleast_2d`, the keywords and the type of the elements. -/
structure Args (D : Type) where
  shape : Shape
  naxes : Option Int
  naxesin : Option Int
  naxesout : Option Int
  dtype : Option D

/-- The attributes of the operator; `dense` tells whether its class is `DenseOperator`, otherwise it is
`DenseBlockDiagonalOperator`. -/
structure Attrs (D : Type) where
  dense : Bool
  naxesin : Int
  naxesout : Int
  naxesextra : Int
  sl : Shape
  sm : Shape
  sn : Shape
  dtype : D
deriving DecidableEq

variable {D : Type}

/-- The numbers of input and output axes: src/pyoperators/linear.py:113-134.  `none` is the ValueError. -/
def axes (a : Args D) (extra : Option Int) : Option (Int × Int) :=
  let ndim : Int := a.shape.length
  if a.naxes.any (fun n => n < 1 || 2 * n > ndim) then none
  else
    match a.naxesin, a.naxesout with
    | none, none => let n := a.naxes.getD 1; some (n, n)
    | none, some o =>
      if o < 1 || o ≥ ndim then none
      else extra.map (fun e => (ndim - e - o, o))
    | some i, none =>
      if i < 1 || i ≥ ndim then none
      else extra.map (fun e => (i, ndim - e - i))
    | some i, some o => some (i, o)

/-- The attributes and the reshape of the data, which raises ValueError if the number of elements is not the same:
src/pyoperators/linear.py:160-178.  `auto` is `float_or_complex_dtype(data.dtype)`. -/
def finish (auto : D) (dense : Bool) (a : Args D) (i o e : Int) : Option (Attrs D) :=
  if i + o + e ≠ a.shape.length then none
  else
    let sl := pySlice a.shape 0 e
    let sm := pySlice a.shape (-i - o) (-i)
    let sn := pySlice a.shape (-i) a.shape.length
    if sl.prod * (sm.prod * sn.prod) = a.shape.prod then some ⟨dense, i, o, e, sl, sm, sn, a.dtype.getD auto⟩ else none

/-- `DenseOperator(data, ...)`: src/pyoperators/linear.py:472-490, then 96-178 with `naxesextra=0`. -/
def denseOperator (auto : D) (a : Args D) : Option (Attrs D) :=
  match axes a (some 0) with
  | none => none
  | some (i, o) => finish auto true a i o 0

/-- `DenseBlockDiagonalOperator(data, ...)`: src/pyoperators/linear.py:96-178.  Without extra dimension, the class of the instance is
changed and the constructor of `DenseOperator` is called, with the keywords naxesin and dtype=None (140-144). -/
def blockDiagonal (auto : D) (a : Args D) : Option (Attrs D) :=
  match axes a none with
  | none => none
  | some (i, o) =>
    let e := a.shape.length - i - o
    if e = 0 then denseOperator auto { a with naxes := none, naxesin := some i, naxesout := none, dtype := none }
    else if e < 0 then none
    else finish auto false a i o e

/-! ### Axes -/

theorem finish_some {auto : D} {dense : Bool} {a : Args D} {i o e : Int} {r : Attrs D} (h : finish auto dense a i o e = some r) :
    i + o + e = a.shape.length ∧ r.dense = dense ∧ r.naxesin = i ∧ r.naxesout = o ∧ r.naxesextra = e ∧
      r.sl = pySlice a.shape 0 e ∧ r.sm = pySlice a.shape (-i - o) (-i) ∧ r.sn = pySlice a.shape (-i) a.shape.length ∧
      r.dtype = a.dtype.getD auto := by
  unfold finish at h
  split at h
  · cases h
  · rename_i hs
    simp only at h
    split at h
    · cases h
      exact ⟨by simpa using hs, rfl, rfl, rfl, rfl, rfl, rfl, rfl, rfl⟩
    · cases h

theorem slices {s : Shape} {i o e : Int} (hi : 1 ≤ i) (ho : 1 ≤ o) (he : 0 ≤ e) (hs : i + o + e = s.length) :
    pySlice s 0 e = s.take e.toNat ∧ pySlice s (-i - o) (-i) = (s.drop e.toNat).take o.toNat ∧
      pySlice s (-i) s.length = s.drop (e.toNat + o.toNat) := by
  have h0 : sliceBound s.length 0 = 0 := rfl
  have h1 : sliceBound s.length e = e.toNat := by unfold sliceBound; rw [if_neg (by omega)]
  have h2 : sliceBound s.length (-i - o) = e.toNat := by unfold sliceBound; rw [if_pos (by omega)]; omega
  have h3 : sliceBound s.length (-i) = e.toNat + o.toNat := by unfold sliceBound; rw [if_pos (by omega)]; omega
  have h4 : sliceBound s.length s.length = s.length := by unfold sliceBound; rw [if_neg (by omega)]; omega
  unfold pySlice
  rw [h0, h1, h2, h3, h4]
  refine ⟨rfl, ?_, by rw [List.take_length]⟩
  rw [List.drop_take, Nat.add_sub_cancel_left]

/-- The numbers of axes given by the user are those of the operator, and the dimensions of the data are the extra ones, those of the
output and those of the input, in this order. -/
structure Consistent (shape : Shape) (r : Attrs D) : Prop where
  dims : shape = r.sl ++ (r.sm ++ r.sn)
  extra : (r.sl.length : Int) = r.naxesextra
  out : (r.sm.length : Int) = r.naxesout
  inp : (r.sn.length : Int) = r.naxesin
  posout : 1 ≤ r.naxesout
  posin : 1 ≤ r.naxesin

theorem finish_consistent {auto : D} {dense : Bool} {a : Args D} {i o e : Int} {r : Attrs D}
    (h : finish auto dense a i o e = some r) (hi : 1 ≤ i) (ho : 1 ≤ o) (he : 0 ≤ e) : Consistent a.shape r := by
  obtain ⟨hs, _, h1, h2, h3, h4, h5, h6, _⟩ := finish_some h
  obtain ⟨s1, s2, s3⟩ := slices hi ho he hs
  rw [s1] at h4
  rw [s2] at h5
  rw [s3] at h6
  refine ⟨?_, ?_, ?_, ?_, by rw [h2]; exact ho, by rw [h1]; exact hi⟩
  · rw [h4, h5, h6, ← List.drop_drop, List.take_append_drop, List.take_append_drop]
  · rw [h4, h3, List.length_take]; omega
  · rw [h5, h2, List.length_take, List.length_drop]; omega
  · rw [h6, h1, List.length_drop]; omega

/-- The keywords naxesin and naxesout, if both are given, are positive. -/
def Positive (a : Args D) : Prop := ∀ i o, a.naxesin = some i → a.naxesout = some o → 1 ≤ i ∧ 1 ≤ o

theorem axes_some {a : Args D} {extra : Option Int} {i o : Int} (h : axes a extra = some (i, o)) (hp : Positive a) :
    (∀ n, a.naxesin = some n → i = n) ∧ (∀ n, a.naxesout = some n → o = n) ∧ (a.naxesin = none → a.naxesout = none → i = a.naxes.getD 1 ∧ o = i) ∧
      ((1 ≤ i ∧ 1 ≤ o) ∨ ∃ e, extra = some e ∧ i + o = a.shape.length - e ∧ (1 ≤ i ∨ 1 ≤ o) ∧
        (i < a.shape.length ∨ o < a.shape.length) ∧ ((∃ n, a.naxesin = some n ∧ 1 ≤ i ∧ i < a.shape.length) ∨
          (∃ n, a.naxesout = some n ∧ 1 ≤ o ∧ o < a.shape.length))) := by
  unfold axes at h
  simp only at h
  split at h
  · cases h
  · rename_i hn
    split at h
    · rename_i h1 h2
      cases h
      refine ⟨by simp [h1], by simp [h2], fun _ _ => ⟨rfl, rfl⟩, Or.inl ?_⟩
      cases hx : a.naxes with
      | none => simp
      | some n =>
        rw [hx] at hn
        simp at hn
        simp; omega
    · rename_i o' h1 h2
      split at h
      · cases h
      · rename_i hc
        cases extra with
        | none => cases h
        | some e =>
          cases h
          simp at hc
          exact ⟨by simp [h1], by simp [h2], by simp [h2], Or.inr ⟨e, rfl, by omega, by omega, by omega, Or.inr ⟨_, h2, by omega, by omega⟩⟩⟩
    · rename_i i' h1 h2
      split at h
      · cases h
      · rename_i hc
        cases extra with
        | none => cases h
        | some e =>
          cases h
          simp at hc
          exact ⟨by simp [h1], by simp [h2], by simp [h1], Or.inr ⟨e, rfl, by omega, by omega, by omega, Or.inl ⟨_, h1, by omega, by omega⟩⟩⟩
    · rename_i i' o' h1 h2
      cases h
      exact ⟨by simp [h1], by simp [h2], by simp [h1], Or.inl (hp _ _ h1 h2)⟩

theorem dense_consistent {auto : D} {a : Args D} {r : Attrs D} (h : denseOperator auto a = some r) (hp : Positive a) :
    Consistent a.shape r ∧ r.dense = true ∧ r.naxesextra = 0 ∧ r.dtype = a.dtype.getD auto ∧
      (∀ n, a.naxesin = some n → r.naxesin = n) ∧ (∀ n, a.naxesout = some n → r.naxesout = n) ∧
      (a.naxesin = none → a.naxesout = none → r.naxesin = a.naxes.getD 1 ∧ r.naxesout = a.naxes.getD 1) := by
  unfold denseOperator at h
  split at h
  · cases h
  · rename_i i o ha
    obtain ⟨h1, h2, h3, h4⟩ := axes_some ha hp
    obtain ⟨hs, e1, e2, e3, e4, _, _, _, e5⟩ := finish_some h
    have hpos : 1 ≤ i ∧ 1 ≤ o := by
      rcases h4 with h4 | ⟨e, he, hio, _, _, h5⟩
      · exact h4
      · cases he
        rcases h5 with ⟨n, _, q1, q2⟩ | ⟨n, _, q1, q2⟩ <;> omega
    refine ⟨finish_consistent h hpos.1 hpos.2 (by omega), e1, e4, e5, fun n hn => by rw [e2]; exact h1 n hn,
      fun n hn => by rw [e3]; exact h2 n hn, fun q1 q2 => ?_⟩
    obtain ⟨q3, q4⟩ := h3 q1 q2
    exact ⟨by rw [e2, q3], by rw [e3, q4, q3]⟩

/-- **C119, partial.** The axes of an operator that is instantiated are those that have been asked for, or one (or naxes) input and output
axes by default, and the dimensions of the data are split accordingly; an operator of the class `DenseBlockDiagonalOperator` has extra
dimensions, otherwise its class is `DenseOperator`.
Missing from the full property: keywords naxesin and naxesout that are not positive (`C119_axes_fails`). -/
theorem C119_axes_partial (auto : D) (a : Args D) (hp : Positive a) (r : Attrs D)
    (h : denseOperator auto a = some r ∨ blockDiagonal auto a = some r) :
    Consistent a.shape r ∧ (r.dense = true ↔ r.naxesextra = 0) ∧
      (∀ n, a.naxesin = some n → r.naxesin = n) ∧ (∀ n, a.naxesout = some n → r.naxesout = n) ∧
      (a.naxesin = none → a.naxesout = none → r.naxesin = a.naxes.getD 1 ∧ r.naxesout = a.naxes.getD 1) := by
  rcases h with h | h
  · obtain ⟨c1, c2, c3, _, c4⟩ := dense_consistent h hp
    exact ⟨c1, by simp [c2, c3], c4⟩
  · unfold blockDiagonal at h
    split at h
    · cases h
    · rename_i i o ha
      obtain ⟨h1, h2, h3, h4⟩ := axes_some ha hp
      have hpos : 1 ≤ i ∧ 1 ≤ o := by
        rcases h4 with h4 | ⟨e, he, _⟩
        · exact h4
        · cases he
      simp only at h
      split at h
      · rename_i he
        obtain ⟨c1, c2, c3, _, c4, _⟩ := dense_consistent h (by intro i o _ q; cases q)
        have ci := c4 i rfl
        have hlen := congrArg List.length c1.dims
        simp only [List.length_append] at hlen
        have co : r.naxesout = o := by
          have := c1.extra; have := c1.out; have := c1.inp
          omega
        refine ⟨c1, by simp [c2, c3], fun n hn => by rw [ci]; exact h1 n hn, fun n hn => by rw [co]; exact h2 n hn, fun q1 q2 => ?_⟩
        obtain ⟨q3, q4⟩ := h3 q1 q2
        exact ⟨by rw [ci, q3], by rw [co, q4, q3]⟩
      · split at h
        · cases h
        · rename_i he1 he2
          obtain ⟨hs, e1, e2, e3, e4, _⟩ := finish_some h
          refine ⟨finish_consistent h hpos.1 hpos.2 (by omega), ?_, fun n hn => by rw [e2]; exact h1 n hn,
            fun n hn => by rw [e3]; exact h2 n hn, fun q1 q2 => ?_⟩
          · rw [e1, e4]
            simp [he1]
          · obtain ⟨q3, q4⟩ := h3 q1 q2
            exact ⟨by rw [e2, q3], by rw [e3, q4, q3]⟩

/-- **C119, partial.** The type of the elements is the one that is given, or the one of the data converted to a real or complex type.
Missing from the full property: the operators without extra dimension that are instantiated as block diagonal ones
(`C119_dtype_fails`). -/
theorem C119_dtype_partial (auto : D) (a : Args D) (r : Attrs D)
    (h : denseOperator auto a = some r ∨ (blockDiagonal auto a = some r ∧ (r.naxesextra ≠ 0 ∨ a.dtype = none))) :
    r.dtype = a.dtype.getD auto := by
  have hd : ∀ (a : Args D), denseOperator auto a = some r → r.dtype = a.dtype.getD auto ∧ r.naxesextra = 0 := by
    intro a h
    unfold denseOperator at h
    split at h
    · cases h
    · obtain ⟨_, _, _, _, e4, _, _, _, e5⟩ := finish_some h
      exact ⟨e5, e4⟩
  rcases h with h | ⟨h, hne⟩
  · exact (hd a h).1
  · unfold blockDiagonal at h
    split at h
    · cases h
    · simp only at h
      split at h
      · obtain ⟨q1, q2⟩ := hd _ h
        rcases hne with hne | hne
        · exact absurd q2 hne
        · rw [q1, hne]
      · split at h
        · cases h
        · exact (finish_some h).2.2.2.2.2.2.2.2

/-- **C119.** The arguments that are accepted: at least one input, one output axis and no more axes than dimensions. -/
theorem C119_accepted (auto : D) (shape : Shape) (i o : Nat) (dtype : Option D) (hi : 1 ≤ i) (ho : 1 ≤ o) :
    (blockDiagonal auto ⟨shape, none, some i, some o, dtype⟩).isSome = true ↔ i + o ≤ shape.length := by
  have hfin : ∀ (a : Args D) (dense : Bool) (e : Int), a.shape = shape → 0 ≤ e → (i : Int) + o + e = shape.length →
      (finish auto dense a i o e).isSome = true := by
    intro a dense e ha he hs
    obtain ⟨s1, s2, s3⟩ := slices (s := shape) (by omega) (by omega) he hs
    unfold finish
    rw [ha, if_neg (by simpa using hs)]
    simp only [s1, s2, s3]
    rw [if_pos]
    · rfl
    · rw [← List.prod_append, ← List.prod_append, ← List.drop_drop, List.take_append_drop, List.take_append_drop]
  unfold blockDiagonal axes
  simp only [Option.any_none, Bool.false_eq_true, if_false]
  constructor
  · intro h
    by_contra hc
    rw [if_neg (by omega), if_pos (by omega)] at h
    cases h
  · intro h
    by_cases he : (shape.length : Int) - i - o = 0
    · rw [if_pos he]
      unfold denseOperator axes
      have : ¬ ((decide ((i : Int) < 1) || decide ((i : Int) ≥ (shape.length : Int))) = true) := by
        simp; omega
      simp only [Option.any_none, Bool.false_eq_true, if_false, this, Option.map_some]
      have e1 : (shape.length : Int) - 0 - i = o := by omega
      rw [e1]
      exact hfin _ _ _ rfl (by omega) (by omega)
    · rw [if_neg he, if_neg (by omega)]
      exact hfin _ _ _ rfl (by omega) (by omega)

/-- **C119 does not hold** for keywords naxesin that are zero: the operator is instantiated and the dimensions of the data are
attributed both to the extra axes and to the input axes. -/
theorem C119_axes_fails : ∃ (a : Args String) (r : Attrs String), blockDiagonal "float64" a = some r ∧ a.shape = [1, 2, 3] ∧
    r.naxesin = 0 ∧ r.sl = [1] ∧ r.sm = [] ∧ r.sn = [1, 2, 3] :=
  ⟨⟨[1, 2, 3], none, some 0, some 2, none⟩, _, rfl, rfl, rfl, rfl, rfl, rfl⟩

/-- **C119 does not hold** for block diagonal operators without extra dimension: the type of the elements that is given is ignored. -/
theorem C119_dtype_fails : ∃ (a : Args String) (r : Attrs String), a.dtype = some "complex128" ∧
    blockDiagonal "float64" a = some r ∧ r.dtype = "float64" :=
  ⟨⟨[2, 2], none, none, none, some "complex128"⟩, _, rfl, rfl, rfl⟩

/-- Meeting the hypotheses. -/
example : let a : Args String := ⟨[4, 2, 3, 5], none, some 2, some 1, some "complex128"⟩
    Positive a ∧ blockDiagonal "float64" a = some ⟨false, 2, 1, 1, [4], [2], [3, 5], "complex128"⟩ :=
  ⟨fun i o h1 h2 => by cases h1; cases h2; decide, by decide⟩

example : let a : Args String := ⟨[4, 2, 3, 5], some 2, none, none, some "complex128"⟩
    denseOperator "float64" a = some ⟨true, 2, 2, 0, [], [4, 2], [3, 5], "complex128"⟩ ∧
      blockDiagonal "float64" a = some ⟨true, 2, 2, 0, [], [4, 2], [3, 5], "float64"⟩ :=
  ⟨by decide, by decide⟩

end Verif.Linear.DenseInit
