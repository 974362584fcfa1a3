import Mathlib.Algebra.Order.Floor.Ring
import Mathlib.Data.Rat.Floor
import Mathlib.Tactic.Linarith

/-!
# C127: the data type of the buffers of the memory pool

The functions of the pool as in Verif/Memory/Model.lean, with the data types of the arrays, and the call of a sum of operators, which takes its
temporary arrays from the pool.
-/

namespace Verif.Memory.Typed

/-- A data type: 64-bit integers and floating point numbers, bytes, and all the others (single precision, complex...), which are told apart by a
number and have any item size. -/
inductive Dtype
  | int8 | int64 | float64
  | other (name size : Nat)
deriving DecidableEq, Repr

def Dtype.itemsize : Dtype → Nat
  | .int8 => 1
  | .int64 | .float64 => 8
  | .other _ n => n

/-- An array: its address, its shape, its data type and its flag contiguous. -/
structure Arr where
  addr : Nat
  shape : List Nat
  dtype : Dtype
  contiguous : Bool
deriving DecidableEq, Repr

def Arr.nbytes (a : Arr) : Nat := a.shape.prod * a.dtype.itemsize

/-- MEMORY_ALIGNMENT and MEMORY_TOLERANCE (a ratio): src/pyoperators/config.py. -/
structure Config where
  alignment : Nat
  num : Nat
  den : Nat

/-- `iscompatible(array, shape, dtype, aligned, contiguous, tolerance)`: src/pyoperators/memory.py:102-121, with the tolerance of `extract`. -/
def iscompatible (cfg : Config) (a : Arr) (shape : List Nat) (dtype : Dtype) (aligned contiguous : Bool) : Bool :=
  if aligned && a.addr % cfg.alignment != 0 then false
  else if !a.contiguous then
    if contiguous then false else a.shape == shape && a.dtype.itemsize == dtype.itemsize
  else
    let nbytes := shape.prod * dtype.itemsize
    if nbytes = 0 then false else decide (nbytes ≤ a.nbytes) && decide (a.nbytes * cfg.den ≤ cfg.num * nbytes)

/-- `MemoryPool.add`: src/pyoperators/memory.py:132-148.  A contiguous array is entered as bytes; `none` is ValueError. -/
def add (pool : List Arr) (v : Arr) : Option (List Arr) :=
  let v := if v.contiguous then { v with shape := [v.nbytes], dtype := .int8 } else v
  if pool.any (fun a => a.addr == v.addr) then none
  else some (pool.takeWhile (fun x => decide (x.nbytes < v.nbytes)) ++ [v] ++ pool.dropWhile (fun x => decide (x.nbytes < v.nbytes)))

/-- `MemoryPool.extract`: src/pyoperators/memory.py:180-208.  `fresh` is the address of the memory that `empty` would allocate. -/
def extract (cfg : Config) (pool : List Arr) (shape : List Nat) (dtype : Dtype) (aligned contiguous : Bool) (fresh : Nat) : Arr × List Arr :=
  match pool.findIdx? (fun a => iscompatible cfg a shape dtype aligned contiguous) with
  | some i => (pool[i]?.getD ⟨fresh, shape, dtype, true⟩, pool.eraseIdx i)
  | none => (⟨fresh, shape, dtype, true⟩, pool)

/-- `MemoryPool.view`: src/pyoperators/memory.py:280-294; `none` is ValueError. -/
def view (a : Arr) (shape : List Nat) (dtype : Dtype) : Option Arr :=
  if a.contiguous then
    if dtype.itemsize * shape.prod ≤ a.nbytes then some ⟨a.addr, shape, dtype, true⟩ else none
  else if a.shape == shape && a.dtype.itemsize == dtype.itemsize then some a
  else none

/-- The array that `MemoryPool.get` yields and the pool meanwhile: src/pyoperators/memory.py:210-229. -/
def get (cfg : Config) (pool : List Arr) (shape : List Nat) (dtype : Dtype) (aligned contiguous : Bool) (fresh : Nat) :
    Option Arr × List Arr :=
  let r := extract cfg pool shape dtype aligned contiguous fresh
  (view r.1 shape dtype, r.2)

/-! ### A sum of operators -/

/-- The value that an element of an array of a data type has after `a[...] = x`: integers are truncated (the roundings of the other data types are
not modelled). -/
def store : Dtype → Rat → Rat
  | .int64, x => if 0 ≤ x then ⌊x⌋ else ⌈x⌉
  | _, x => x

/-- `AdditionOperator.direct(input, output)`: src/pyoperators/core.py:1839-1866, for at least two operands that do not update their output.  `tmp` is the data type of the temporary
array and `dtype` that of the output. -/
def sumDirect (tmp dtype : Dtype) (ops : List (List Rat → List Rat)) (x : List Rat) : List Rat :=
  match ops with
  | [] => []
  | f :: ops => ops.foldl (fun out g => (List.zipWith (· + ·) out ((g x).map (store tmp))).map (store dtype)) ((f x).map (store dtype))

/-- `op(x, preserve_input=preserve)` for a sum of square operators of a data type, without requirements of alignment and contiguity:
src/pyoperators/core.py:431-474, 1301-1395 and 1839-1866.  `none` is an exception.  The input is converted to the data type in an array of the pool; if it is
not preserved, it is in the pool while the sum is computed. -/
def callSum (cfg : Config) (pool : List Arr) (dtype : Dtype) (ops : List (List Rat → List Rat)) (x : Arr) (values : List Rat) (preserve : Bool)
    (fresh fresh' : Nat) : Option (List Rat) :=
  let same := decide (x.dtype = dtype)
  let i := if same then (some x, pool) else get cfg pool x.shape dtype false false fresh
  match i.1 with
  | none => none
  | some input =>
    let pool := if same || preserve then some i.2 else add i.2 x
    match pool with
    | none => none
    | some pool =>
      match (get cfg pool x.shape dtype false false fresh').1 with
      | none => none
      | some tmp => some (sumDirect tmp.dtype dtype ops (if same then values else values.map (store input.dtype)))

/-! ### The arrays that are handed out -/

theorem extract_mem {cfg : Config} {pool : List Arr} {shape : List Nat} {dtype : Dtype} {al ct : Bool} {fresh : Nat} :
    (extract cfg pool shape dtype al ct fresh = (⟨fresh, shape, dtype, true⟩, pool)) ∨
      ∃ a ∈ pool, iscompatible cfg a shape dtype al ct = true ∧ (extract cfg pool shape dtype al ct fresh).1 = a ∧
        ∀ b ∈ (extract cfg pool shape dtype al ct fresh).2, b ∈ pool := by
  unfold extract
  cases h : pool.findIdx? (fun a => iscompatible cfg a shape dtype al ct) with
  | none => exact .inl rfl
  | some i =>
    obtain ⟨hi, hp, _⟩ := List.findIdx?_eq_some_iff_getElem.1 h
    right
    refine ⟨pool[i], List.getElem_mem hi, hp, ?_, ?_⟩
    · simp [hi]
    · intro b hb
      exact List.mem_of_mem_eraseIdx hb

/-- **C127.** The pool always hands out an array of the requested shape and item size, and it starts where the array taken from the pool does. -/
theorem C127_shape_partial (cfg : Config) (pool : List Arr) (shape : List Nat) (dtype : Dtype) (al ct : Bool) (fresh : Nat) :
    ∃ v, (get cfg pool shape dtype al ct fresh).1 = some v ∧ v.shape = shape ∧ v.dtype.itemsize = dtype.itemsize ∧
      (v.addr = fresh ∨ ∃ a ∈ pool, v.addr = a.addr) := by
  unfold get
  rcases extract_mem (cfg := cfg) (pool := pool) (shape := shape) (dtype := dtype) (al := al) (ct := ct) (fresh := fresh) with h | ⟨a, ha, hc, h, _⟩
  · rw [h]
    refine ⟨⟨fresh, shape, dtype, true⟩, ?_, rfl, rfl, .inl rfl⟩
    simp [view, Arr.nbytes, Nat.mul_comm]
  · simp only [h]
    unfold iscompatible at hc
    unfold view
    split at hc
    · cases hc
    · split at hc
      · split at hc
        · cases hc
        · rename_i hk _
          have hk : a.contiguous = false := by simpa using hk
          rw [hk]
          simp only [Bool.false_eq_true, if_false]
          rw [if_pos hc]
          simp only [Bool.and_eq_true, beq_iff_eq] at hc
          exact ⟨a, rfl, hc.1, hc.2, .inr ⟨a, ha, rfl⟩⟩
      · rename_i hk
        have hk : a.contiguous = true := by simpa using hk
        simp only at hc
        split at hc
        · cases hc
        · simp only [Bool.and_eq_true, decide_eq_true_eq] at hc
          rw [hk, if_pos rfl, if_pos (by rw [Nat.mul_comm]; exact hc.1)]
          exact ⟨_, rfl, rfl, rfl, .inr ⟨a, ha, rfl⟩⟩

/-- The strided arrays of the pool that have the shape and the item size have the data type. -/
def Sound (pool : List Arr) (shape : List Nat) (dtype : Dtype) : Prop :=
  ∀ a ∈ pool, a.contiguous = false → a.shape = shape → a.dtype.itemsize = dtype.itemsize → a.dtype = dtype

/-- **C127, partial.** The array has the requested data type, if it is requested to be contiguous, or if the strided arrays in the pool that have
its shape and item size have this data type.  Missing from the full property: the other strided arrays (`C127_dtype_fails`). -/
theorem C127_dtype_partial (cfg : Config) {pool : List Arr} {shape : List Nat} {dtype : Dtype} {al ct : Bool} (fresh : Nat)
    (h : ct = true ∨ Sound pool shape dtype) :
    ∃ v, (get cfg pool shape dtype al ct fresh).1 = some v ∧ v.shape = shape ∧ v.dtype = dtype ∧ (ct = true → v.contiguous = true) := by
  obtain ⟨v, hv, hs, hi, _⟩ := C127_shape_partial cfg pool shape dtype al ct fresh
  refine ⟨v, hv, hs, ?_⟩
  unfold get at hv
  rcases extract_mem (cfg := cfg) (pool := pool) (shape := shape) (dtype := dtype) (al := al) (ct := ct) (fresh := fresh) with h' | ⟨a, ha, hc, h', _⟩
  · rw [h'] at hv
    simp only [view, if_true] at hv
    split at hv
    · cases hv
      exact ⟨rfl, fun _ => rfl⟩
    · cases hv
  · simp only [h'] at hv
    unfold view at hv
    split at hv
    · split at hv
      · cases hv
        exact ⟨rfl, fun _ => rfl⟩
      · cases hv
    · rename_i hk
      have hk : a.contiguous = false := by simpa using hk
      split at hv
      · cases hv
        rcases h with h | h
        · subst h
          unfold iscompatible at hc
          simp [hk] at hc
        · refine ⟨h _ ha hk hs hi, fun h1 => ?_⟩
          subst h1
          unfold iscompatible at hc
          simp [hk] at hc
      · cases hv

/-- The pools that are reached by adding contiguous arrays to the empty pool and by taking arrays. -/
inductive Reached (cfg : Config) : List Arr → Prop
  | nil : Reached cfg []
  | add {pool pool' : List Arr} {v : Arr} : Reached cfg pool → v.contiguous = true → Typed.add pool v = some pool' → Reached cfg pool'
  | get {pool : List Arr} (shape : List Nat) (dtype : Dtype) (al ct : Bool) (fresh : Nat) : Reached cfg pool →
    Reached cfg (Typed.get cfg pool shape dtype al ct fresh).2

theorem add_mem {pool pool' : List Arr} {v : Arr} (h : Typed.add pool v = some pool') : ∀ a ∈ pool', a ∈ pool ∨
    (a.contiguous = v.contiguous ∧ a.addr = v.addr ∧ (v.contiguous = false → a = v)) := by
  unfold Typed.add at h
  intro a ha
  generalize hv : (if v.contiguous = true then ({ v with shape := [v.nbytes], dtype := .int8 } : Arr) else v) = w at h
  have hw : w.contiguous = v.contiguous ∧ w.addr = v.addr ∧ (v.contiguous = false → w = v) := by
    rw [← hv]
    cases hc : v.contiguous <;> simp [hc]
  simp only at h
  split at h
  · cases h
  · cases h
    rw [List.append_assoc, List.mem_append, List.mem_append] at ha
    rcases ha with ha | ha | ha
    · exact .inl (List.takeWhile_subset _ ha)
    · simp only [List.mem_cons, List.not_mem_nil, or_false] at ha
      subst ha
      exact .inr hw
    · exact .inl (List.dropWhile_subset _ ha)

/-- **C127, partial.** Whatever the requests, the arrays of a pool that has only been given contiguous arrays have the requested data types. -/
theorem C127_contiguous_partial {cfg : Config} {pool : List Arr} (h : Reached cfg pool) (shape : List Nat) (dtype : Dtype) (al ct : Bool)
    (fresh : Nat) : ∃ v, (get cfg pool shape dtype al ct fresh).1 = some v ∧ v.shape = shape ∧ v.dtype = dtype := by
  have hp : ∀ a ∈ pool, a.contiguous = true := by
    induction h with
    | nil => simp
    | add _ hv ha ih =>
      intro a h
      rcases add_mem ha a h with h | h
      · exact ih a h
      · rw [h.1, hv]
    | get shape dtype al ct fresh _ ih =>
      intro a h
      rename_i pool _
      unfold Typed.get at h
      rcases extract_mem (cfg := cfg) (pool := pool) (shape := shape) (dtype := dtype) (al := al) (ct := ct) (fresh := fresh) with h' | ⟨_, _, _, _, h'⟩
      · rw [h'] at h
        exact ih a h
      · exact ih a (h' a h)
  obtain ⟨v, h1, h2, h3, _⟩ := C127_dtype_partial cfg (al := al) (ct := ct) fresh (pool := pool) (shape := shape) (dtype := dtype)
    (.inr fun a ha hc => by rw [hp a ha] at hc; cases hc)
  exact ⟨v, h1, h2, h3⟩

/-- **C127 does not hold** for all the pools: a pool with a strided array of integers hands it out for floating point numbers. -/
theorem C127_dtype_fails : ∃ (cfg : Config) (x : Arr) (pool : List Arr), add [] x = some pool ∧
    (get cfg pool x.shape .float64 false false 4096).1 = some x ∧ x.dtype = .int64 :=
  ⟨⟨32, 6, 5⟩, ⟨64, [3], .int64, false⟩, [⟨64, [3], .int64, false⟩], by decide, by decide, rfl⟩

/-! ### The values of a sum -/

theorem fold_sum (ops : List (List Rat → List Rat)) (x : List Rat) (n : Nat) (hn : ∀ f ∈ ops, (f x).length = n) : ∀ out : List Rat, out.length = n →
    (ops.foldl (fun out g => List.zipWith (· + ·) out (g x)) out).length = n ∧
      ∀ k < n, (ops.foldl (fun out g => List.zipWith (· + ·) out (g x)) out).getD k 0 = out.getD k 0 + (ops.map fun f => (f x).getD k 0).sum := by
  induction ops with
  | nil => intro out h; exact ⟨h, fun k _ => by simp⟩
  | cons f ops ih =>
    intro out h
    have hf := hn f (by simp)
    have hz : (List.zipWith (· + ·) out (f x)).length = n := by simp [h, hf]
    obtain ⟨h1, h2⟩ := ih (fun g hg => hn g (by simp [hg])) _ hz
    refine ⟨h1, fun k hk => ?_⟩
    rw [List.foldl_cons, h2 k hk, List.map_cons, List.sum_cons, ← add_assoc]
    congr 1
    simp [List.getD_eq_getElem?_getD, h, hf, hk]

theorem sumDirect_exact {tmp dtype : Dtype} (ht : tmp ≠ .int64) (hd : dtype ≠ .int64) {ops : List (List Rat → List Rat)} (h0 : ops ≠ [])
    {x : List Rat} {n : Nat} (hn : ∀ f ∈ ops, (f x).length = n) :
    (sumDirect tmp dtype ops x).length = n ∧ ∀ k < n, (sumDirect tmp dtype ops x).getD k 0 = (ops.map fun f => (f x).getD k 0).sum := by
  have e1 : store tmp = id := by funext x; cases tmp <;> first | rfl | exact absurd rfl ht
  have e2 : store dtype = id := by funext x; cases dtype <;> first | rfl | exact absurd rfl hd
  match ops, h0 with
  | f :: ops, _ =>
    unfold sumDirect
    simp only [e1, e2, List.map_id]
    obtain ⟨h1, h2⟩ := fold_sum ops x n (fun g hg => hn g (by simp [hg])) (f x) (hn f (by simp))
    exact ⟨h1, fun k hk => by rw [h2 k hk]; simp⟩

/-- **C127, partial.** A sum of operators of double precision returns the sum of what they return, if the strided arrays of the pool are of double
precision (or have another shape or item size), and if the input is preserved, or contiguous, or has not to be converted, or has another item
size.  (An array is not added twice to the pool: hypothesis `ha`.)  Missing from the full property: the other inputs (`C127_sum_fails`). -/
theorem C127_sum_partial (cfg : Config) {pool : List Arr} {x : Arr} (hp : Sound pool x.shape .float64) {preserve : Bool}
    (h : preserve = true ∨ x.contiguous = true ∨ x.dtype.itemsize ≠ 8 ∨ x.dtype = .float64)
    {ops : List (List Rat → List Rat)} (h0 : ops ≠ []) {values : List Rat} (hn : ∀ f ∈ ops, (f values).length = values.length)
    (ha : ∀ a ∈ pool, a.addr ≠ x.addr) (fresh fresh' : Nat) :
    ∃ out, callSum cfg pool .float64 ops x values preserve fresh fresh' = some out ∧
      out.length = values.length ∧ ∀ k < values.length, out.getD k 0 = (ops.map fun f => (f values).getD k 0).sum := by
  unfold callSum
  simp only
  by_cases hs : x.dtype = .float64
  · simp only [hs, decide_true, if_true, Bool.true_or]
    obtain ⟨v, hv, _, hd, _⟩ := C127_dtype_partial cfg (al := false) (ct := false) fresh' (.inr hp)
    rw [hv]
    refine ⟨_, rfl, ?_⟩
    rw [hd]
    exact sumDirect_exact (by decide) (by decide) h0 hn
  · simp only [hs, decide_false, Bool.false_eq_true, if_false, Bool.false_or]
    obtain ⟨v, hv, _, hd, _⟩ := C127_dtype_partial cfg (al := false) (ct := false) fresh (.inr hp)
    rw [hv]
    have hsub : ∀ a ∈ (get cfg pool x.shape .float64 false false fresh).2, a ∈ pool := by
      intro a ha
      unfold get at ha
      rcases extract_mem (cfg := cfg) (pool := pool) (shape := x.shape) (dtype := .float64) (al := false) (ct := false) (fresh := fresh) with
        h' | ⟨_, _, _, _, h'⟩
      · rw [h'] at ha
        exact ha
      · exact h' a ha
    have hp' : Sound (get cfg pool x.shape .float64 false false fresh).2 x.shape .float64 := fun a ha => hp a (hsub a ha)
    have e : values.map (store v.dtype) = values := by
      rw [hd]
      exact List.map_id _
    simp only [e]
    have hadd : ∃ q, (if preserve = true then some (get cfg pool x.shape .float64 false false fresh).2
        else add (get cfg pool x.shape .float64 false false fresh).2 x) = some q := by
      split
      · exact ⟨_, rfl⟩
      · unfold add
        have : ((get cfg pool x.shape .float64 false false fresh).2.any fun a => a.addr == x.addr) = false := by
          rw [List.any_eq_false]
          intro a h'
          simpa using ha a (hsub a h')
        cases hk : x.contiguous <;> simp [this]
    obtain ⟨q, hq⟩ := hadd
    rw [hq]
    have hq' : Sound q x.shape .float64 := by
      split at hq
      · cases hq
        exact hp'
      · rename_i hpres
        intro a ha hk h1 h2
        rcases add_mem hq a ha with ha | ⟨hc1, _, hc2⟩
        · exact hp' a ha hk h1 h2
        · rw [hk] at hc1
          have := hc2 hc1.symm
          subst this
          rcases h with h | h | h | h
          · exact absurd h hpres
          · rw [hk] at h; cases h
          · exact absurd h2 h
          · exact h
    obtain ⟨w, hw, _, hd', _⟩ := C127_dtype_partial cfg (al := false) (ct := false) fresh' (.inr hq')
    simp only [hw]
    refine ⟨_, rfl, ?_⟩
    rw [hd']
    exact sumDirect_exact (by decide) (by decide) h0 hn

/-- **C127 does not hold** for the values of a sum: half of a strided array of integers, added to itself, is not the array, if the input is not
preserved; the temporary array is the input, and the second half is truncated. -/
theorem C127_sum_fails : ∃ (cfg : Config) (x : Arr) (f : List Rat → List Rat), x.dtype = .int64 ∧ f [1, 3] = [1 / 2, 3 / 2] ∧
    callSum cfg [] .float64 [f, f] x [1, 3] false 4096 8192 = some [1 / 2, 5 / 2] ∧
    callSum cfg [] .float64 [f, f] x [1, 3] true 4096 8192 = some [1, 3] :=
  ⟨⟨32, 6, 5⟩, ⟨64, [2], .int64, false⟩, fun l => l.map (· / 2), rfl, by decide +kernel, by decide +kernel, by decide +kernel⟩

/-- The same input, preserved: the hypotheses of `C127_sum_partial`. -/
example : Sound [⟨128, [2], .float64, false⟩, ⟨256, [40], .int8, true⟩] [2] .float64 ∧
    (∀ f ∈ [fun l : List Rat => l.map (· / 2)], (f [1, 3]).length = 2) := by
  constructor
  · intro a ha
    simp only [List.mem_cons, List.not_mem_nil, or_false] at ha
    rcases ha with rfl | rfl <;> decide
  · simp

example : Reached ⟨32, 6, 5⟩ [⟨64, [16], .int8, true⟩] :=
  .add (v := ⟨64, [2], .int64, true⟩) .nil rfl (by decide)

end Verif.Memory.Typed
