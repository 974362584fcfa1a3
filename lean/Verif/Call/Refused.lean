import Mathlib.Data.Rat.Defs
import Verif.Memory.Typed

/-!
# C128: the calls that are refused

`Operator.__call__` and `Operator._validate_arguments` with the data types and the shapes of the arguments, and what they have written in the arrays
when they raise an exception.
-/

namespace Verif.Call.Refused

open Verif.Memory.Typed (Dtype)

/-- An array. -/
structure Arr where
  id : Nat
  shape : List Nat
  dtype : Dtype
  contiguous : Bool
  aligned : Bool
deriving DecidableEq

def Arr.nbytes (a : Arr) : Nat := a.shape.prod * a.dtype.itemsize

/-- What is used of an operator: its data type (the common data type of the operator and the input is that of
`_find_common_type`), the flags inplace, aligned_input, contiguous_input, aligned_output, contiguous_output and update_output,
`_validate_shapes` (`none` for an exception), and whether `direct` is None.  `unknown` tells that the output shape cannot be
inferred (src/pyoperators/core.py:1381-1388). -/
structure Op where
  common : Dtype → Dtype
  inplace : Bool
  alignedIn : Bool
  contiguousIn : Bool
  alignedOut : Bool
  contiguousOut : Bool
  updates : Bool
  implemented : Bool
  shapes : List Nat → Option (List Nat) → Option (List Nat × Option (List Nat))
  unknown : Bool
  direct : List Rat → List Rat

/-- `iscompatible(array, shape, dtype, aligned, contiguous)`: src/pyoperators/memory.py:102-121. -/
def iscompatible (a : Arr) (shape : List Nat) (dtype : Dtype) (aligned contiguous : Bool) : Bool :=
  if aligned && !a.aligned then false
  else if !a.contiguous then !contiguous && (a.shape == shape && a.dtype.itemsize == dtype.itemsize)
  else if shape.prod * dtype.itemsize = 0 then false
  else decide (shape.prod * dtype.itemsize ≤ a.nbytes)

/-- The contents of the arrays, as words of 8 bytes. -/
abbrev Mem := Nat → List Rat

/-- Writing the first words of an array. -/
def write (m : Mem) (id : Nat) (v : List Rat) : Mem := fun j => if j = id then v ++ (m id).drop v.length else m j

inductive Err
  | valueError | notImplemented
deriving DecidableEq

/-- Whether the input is copied: src/pyoperators/core.py:1313-1319. -/
def converts (op : Op) (x : Arr) : Bool :=
  decide (x.dtype ≠ op.common x.dtype) || !iscompatible x x.shape (op.common x.dtype) op.alignedIn op.contiguousIn

/-- Whether it is copied in the output: src/pyoperators/core.py:1320-1330. -/
def intoOutput (op : Op) (x : Arr) : Option Arr → Bool
  | none => false
  | some o => op.inplace && iscompatible o x.shape (op.common x.dtype) op.alignedIn op.contiguousIn

/-- `_validate_arguments(x, out)`: src/pyoperators/core.py:1301-1395.  The numbers of the arrays for `direct`, and the memory.  `buf` and `buf'` are the
numbers of the buffers that the pool provides for the input and the output (or of the new output). -/
def validateArguments (op : Op) (x : Arr) (out : Option Arr) (buf buf' : Nat) (m : Mem) : Except Err (Nat × Nat) × Mem :=
  let dtype := op.common x.dtype
  let input := if converts op x then (if intoOutput op x out then (out.map Arr.id).getD buf else buf) else x.id
  let m := if converts op x then write m input (m x.id) else m
  match out with
  | some o =>
    if o.dtype ≠ dtype then (.error .valueError, m)
    else
      let output := if !iscompatible o o.shape dtype op.alignedOut op.contiguousOut || (input == o.id && !op.inplace) then buf' else o.id
      match op.shapes x.shape (some o.shape) with
      | none => (.error .valueError, m)
      | some _ => (.ok (input, output), m)
  | none =>
    match op.shapes x.shape none with
    | none => (.error .valueError, m)
    | some _ => if op.unknown then (.error .valueError, m) else (.ok (input, buf'), m)

/-- `op(x, out, operation)`: src/pyoperators/core.py:431-478, for operators whose `direct` raises no exception; the update of the output is not
modelled (`update` tells that an operation other than the assignment is requested). -/
def call (op : Op) (x : Arr) (out : Option Arr) (update : Bool) (buf buf' : Nat) (m : Mem) : Except Err Nat × Mem :=
  if !op.implemented then (.error .notImplemented, m)
  else if update && (!op.updates || out.isNone) then (.error .valueError, m)
  else
    match validateArguments op x out buf buf' m with
    | (.error e, m) => (.error e, m)
    | (.ok (i, o), m) =>
      let m := write m o (op.direct (m i))
      match out with
      | none => (.ok o, m)
      | some u => (.ok u.id, if u.id = o then m else write m u.id (m o))

/-! ### The arrays of the user -/

theorem write_other {m : Mem} {id j : Nat} {v : List Rat} (h : j ≠ id) : write m id v j = m j := by
  simp [write, h]

/-- **C128, partial.** A call that is refused leaves all the arrays as they are, but for the buffers of the pool, if the operator does not work in
place, or if the input has the data type and meets the requirements of the operator, or if no output is given.  Missing from the full property: the other
calls (`C128_dtype_fails`, `C128_shape_fails`). -/
theorem C128_refused_partial {op : Op} {x : Arr} {out : Option Arr}
    (h : op.inplace = false ∨ out = none ∨
      (x.dtype = op.common x.dtype ∧ iscompatible x x.shape (op.common x.dtype) op.alignedIn op.contiguousIn = true))
    {update : Bool} {buf buf' : Nat} {m : Mem} {e : Err} (he : (call op x out update buf buf' m).1 = .error e) {j : Nat} (hj : j ≠ buf) :
    (call op x out update buf buf' m).2 j = m j := by
  have key : (validateArguments op x out buf buf' m).2 j = m j := by
    have hw : (if converts op x then write m (if converts op x then (if intoOutput op x out then (out.map Arr.id).getD buf else buf) else x.id) (m x.id)
        else m) j = m j := by
      cases hc : converts op x with
      | false => simp
      | true =>
        simp only [if_true]
        have hi : (if intoOutput op x out then (out.map Arr.id).getD buf else buf) = buf := by
          rcases h with h | h | ⟨h1, h2⟩
          · cases out <;> simp [intoOutput, h]
          · subst h
            simp [intoOutput]
          · simp [converts, ← h1] at hc
            rw [← h1, hc] at h2
            cases h2
        rw [hi, write_other hj]
    unfold validateArguments
    cases out with
    | none =>
      simp only
      cases op.shapes x.shape none with
      | none => exact hw
      | some _ => cases op.unknown <;> exact hw
    | some o =>
      simp only
      split
      · exact hw
      · cases op.shapes x.shape (some o.shape) <;> exact hw
  revert he
  unfold call
  split
  · intro _; rfl
  · split
    · intro _; rfl
    · rcases hv : validateArguments op x out buf buf' m with ⟨r, m'⟩
      rw [hv] at key
      cases r with
      | error e' => intro _; exact key
      | ok r =>
        intro he
        cases out <;> cases he

/-- **C128, partial.** The calls that are refused are those of an operator without `direct`, those that update the output of an operator that cannot
or without output, those whose output has not the data type, those whose shapes are refused and those whose output shape is unknown. -/
theorem C128_accepted (op : Op) (x : Arr) (out : Option Arr) (update : Bool) (buf buf' : Nat) (m : Mem) :
    (∃ o, (call op x out update buf buf' m).1 = .ok o) ↔ op.implemented = true ∧ (update = true → op.updates = true ∧ out ≠ none) ∧
      (∀ o, out = some o → o.dtype = op.common x.dtype) ∧ op.shapes x.shape (out.map Arr.shape) ≠ none ∧ (out = none → op.unknown = false) := by
  unfold call validateArguments
  cases op.implemented <;> cases update <;> cases op.updates <;> cases out with
  | none => cases hs : op.shapes x.shape none <;> cases op.unknown <;> simp [hs]
  | some o =>
    by_cases hd : o.dtype = op.common x.dtype <;> cases hs : op.shapes x.shape (some o.shape) <;> simp [hd, hs]

/-- Twice the input, for 64-bit floating point numbers. -/
def twice : Op where
  common := fun d => if d = .int64 then .float64 else d
  inplace := true
  alignedIn := false
  contiguousIn := false
  alignedOut := false
  contiguousOut := false
  updates := false
  implemented := true
  shapes := fun s o => if o.all (· == s) then some (s, some s) else none
  unknown := false
  direct := fun l => l.map (2 * ·)

/-- **C128 does not hold** for outputs of another data type: an output of two complex numbers is refused for an input of two integers, and its first
number has been overwritten by the input. -/
theorem C128_dtype_fails : ∃ (x o : Arr) (m : Mem), m 1 = [7, 7, 7, 7] ∧ o.id = 1 ∧ o.shape = x.shape ∧
    (call twice x (some o) false 2 3 m).1 = .error .valueError ∧ (call twice x (some o) false 2 3 m).2 1 = [1, 2, 7, 7] :=
  ⟨⟨0, [2], .int64, true, true⟩, ⟨1, [2], .other 0 16, true, true⟩, fun j => if j = 0 then [1, 2] else [7, 7, 7, 7], rfl, rfl, rfl,
    by decide +kernel, by decide +kernel⟩

/-- **C128 does not hold** for outputs of another shape: an output of three numbers is refused for an input of two integers, and it has been
overwritten. -/
theorem C128_shape_fails : ∃ (x o : Arr) (m : Mem), m 1 = [7, 7, 7] ∧ o.id = 1 ∧ o.dtype = .float64 ∧
    (call twice x (some o) false 2 3 m).1 = .error .valueError ∧ (call twice x (some o) false 2 3 m).2 1 = [1, 2, 7] :=
  ⟨⟨0, [2], .int64, true, true⟩, ⟨1, [3], .float64, true, true⟩, fun j => if j = 0 then [1, 2] else [7, 7, 7], rfl, rfl, rfl,
    by decide +kernel, by decide +kernel⟩

/-- The same output, refused for an input of two floating point numbers: it is left as it is. -/
example : twice.inplace = true ∧ Dtype.float64 = twice.common .float64 ∧
    iscompatible ⟨0, [2], .float64, true, true⟩ [2] .float64 false false = true ∧
    (call twice ⟨0, [2], .float64, true, true⟩ (some ⟨1, [3], .float64, true, true⟩) false 2 3 (fun _ => [7, 7, 7])).1 = .error .valueError := by
  decide +kernel

end Verif.Call.Refused
