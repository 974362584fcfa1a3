import Verif.Linear.Axis
import Mathlib.Data.List.Basic
import Mathlib.Data.List.GetD

/-
Model of the reductions along an axis: src/pyoperators/core.py:4569-4655 (`ReductionOperator`), src/pyoperators/nonlinear.py:380-412
(`ProductOperator`), 414-486 (`MaxOperator`, `MinOperator`).
-/

namespace Verif.Linear.Reduction

open Verif.Shape Verif.Block Verif.Broadcast Verif.Linear.Axis

variable {V : Type}

/-! ### Model -/

/-- The argument `func` of the constructor. -/
inductive Func (V : Type) where
  /-- an instance of np.ufunc, with the numbers of its inputs and outputs, its function and its identity -/
  | ufunc (nin nout : Nat) (op : V → V → V) (identity : Option V)
  /-- an instance of types.FunctionType: whether it has the parameters axis, out and skipna, and what it returns for the elements along
  an axis (`none` for an exception); the argument is the value of skipna, or its default value -/
  | function (axis out skipna : Bool) (default : Bool) (f : Bool → List V → Option V)
  /-- any other callable: an instance of functools.partial or of a class, a built-in function; and, since NumPy 1.25, all the
  functions of NumPy that are dispatched to the class of their arguments (`np.sum`, `np.nansum`, `np.max`) -/
  | callable (f : List V → Option V)

/-- The operator. -/
structure Reduction (V : Type) where
  func : Func V
  axis : Option Int
  skipna : Bool
  /-- the keyword shapein, if it is specified -/
  shapein : Option Shape

/-- A slice bound of a Python tuple of length n. -/
def bound (n : Nat) (a : Int) : Nat := if 0 ≤ a then min a.toNat n else (n + a).toNat

/-- `shape[:a]` -/
def sliceTo (s : Shape) (a : Int) : Shape := s.take (bound s.length a)

/-- `shape[a:]` -/
def sliceFrom (s : Shape) (a : Int) : Shape := s.drop (bound s.length a)

/-- `ReductionOperator.reshapein`: src/pyoperators/core.py:4636-4639.  With no axis, `None + 1` raises TypeError. -/
def reshapein (axis : Option Int) (s : Shape) : Option Shape :=
  match axis with
  | none => none
  | some a => if a = -1 then some (sliceTo s (-1)) else some (sliceTo s a ++ sliceFrom s (a + 1))

/-- `ReductionOperator.validatein`: src/pyoperators/core.py:4641-4649; false if an exception is raised. -/
def validatein (axis : Option Int) (s : Shape) : Bool :=
  if s.length = 0 then false
  else match axis with
    | none => true
    | some a => !decide ((s.length : Int) < if 0 ≤ a then a + 1 else |a|)

/-- The loop of a ufunc along an axis of n elements: the first element, then the operation with the others in order. -/
def loop (op : V → V → V) (acc : V) (g : Nat → V) : Nat → V
  | 0 => acc
  | n + 1 => op (loop op acc g n) (g n)

/-- The reduction of n elements by a ufunc: ValueError if there is none and the ufunc has no identity. -/
def reduceUfunc (op : V → V → V) (identity : Option V) (n : Nat) (g : Nat → V) : Option V :=
  match n with
  | 0 => identity
  | m + 1 => some (loop op (g 0) (fun i => g (i + 1)) m)

/-- `func.reduce(x.flat, 0, dtype, out)` and `func.reduce(x, axis, dtype, out)`, or `func(x, axis=axis, …)`: all elements in C order, or, for
all the other indices, the elements along the axis. -/
def along (red : (n : Nat) → (Nat → V) → Option V) (axis : Option Int) (x : Data V) : Option (Data (Option V)) :=
  match axis with
  | none =>
    let l := enum x.shape
    some ⟨[], fun _ => red l.length fun i => x.get (l.getD i [])⟩
  | some a => (position x.shape.length a).map fun p =>
      ⟨x.shape.eraseIdx p, fun k => red (x.shape.getD p 0) fun i => x.get (k.insertIdx p i)⟩

/-- A function of the elements. -/
def reduceList (f : List V → Option V) (n : Nat) (g : Nat → V) : Option V := f ((List.range n).map g)

/-- The function `direct` that the constructor selects: src/pyoperators/core.py:4597-4632.  The outer `none` is an exception raised by the
constructor; the inner one by the call.  `numpy2` is the negation of `np.__version__ < '2'`: the method reduce of the ufuncs has no parameter skipna.
The types of the numbers are not modelled. -/
def direct (numpy2 : Bool) (r : Reduction V) : Option (Data V → Option (Data (Option V))) :=
  match r.func with
  | .ufunc nin nout op identity =>
    if nin ≠ 2 then none
    else if nout ≠ 1 then none
    else if numpy2 then some fun _ => none
    else some (along (reduceUfunc op identity) r.axis)
  | .function axis _out skipna default f =>
    if axis = false then none
    else some (along (reduceList (f (if skipna then r.skipna else default))) r.axis)
  | .callable _ => none

/-- The initialisation of the shapes: src/pyoperators/core.py:1187-1205 for the shapes that a reduction can have.  The result is the explicit
output shape, if any. -/
def init (r : Reduction V) : Option (Option Shape) :=
  match r.shapein with
  | none => some (if r.axis = none then some [] else none)
  | some s =>
    match reshapein r.axis s with
    | none => none
    | some t => if validatein r.axis s then some (some t) else none

/-- The validation of the input shape by the initialised operator: src/pyoperators/core.py:1247-1249. -/
def accepts (r : Reduction V) (s : Shape) : Bool :=
  match r.shapein with
  | some t => t == s
  | none => validatein r.axis s

/-- The shape of the output: src/pyoperators/core.py:1436-1442. -/
def outShape (r : Reduction V) (explicit : Option Shape) (s : Shape) : Option Shape :=
  match explicit with
  | some t => some t
  | none => reshapein r.axis s

/-- `ReductionOperator(func, axis, skipna=skipna, shapein=shapein)(x)`; `none` for an exception, in the constructor or in the call.  The
output has the shape of the operator, or the one returned by reshapein, and NumPy checks that it is the shape of the result. -/
def call (numpy2 : Bool) (r : Reduction V) (x : Data V) : Option (Data (Option V)) := do
  let f ← direct numpy2 r
  let explicit ← init r
  if accepts r x.shape = false then none
  else
    let s ← outShape r explicit x.shape
    let y ← f x
    if y.shape = s ∧ ∀ k ∈ enum s, (y.get k).isSome then some y else none

/-! ### Specification -/

/-- The axis a is the axis p of an array with n dimensions: NumPy's convention. -/
def IsAxis (n : Nat) (a : Int) (p : Nat) : Prop := p < n ∧ (a = p ∨ a = (p : Int) - n)

/-- v is the reduction of the elements, in order, by a binary function: ((x0 op x1) op x2) op ... -/
inductive Reduces (op : V → V → V) (identity : Option V) : List V → V → Prop where
  | empty (v : V) : identity = some v → Reduces op identity [] v
  | single (v : V) : Reduces op identity [v] v
  | snoc (l : List V) (v x : V) : l ≠ [] → Reduces op identity l v → Reduces op identity (l ++ [x]) (op v x)

/-- The elements along the axis p at the index k of the output. -/
def IsLine (x : Data V) (p : Nat) (k : MIndex) (l : List V) : Prop :=
  l.length = x.shape.getD p 0 ∧ ∀ i, i < x.shape.getD p 0 → l[i]? = some (x.get (k.take p ++ i :: k.drop p))

/-! ### Proofs -/

theorem axis_of (n : Nat) (a : Int) (h : -(n : Int) ≤ a ∧ a < n) : ∃ p, IsAxis n a p ∧ position n a = some p := by
  refine ⟨pyIndex n a, ?_, by rw [position, if_pos h]⟩
  unfold IsAxis pyIndex
  split <;> omega

theorem position_of {n : Nat} {a : Int} {p : Nat} (h : IsAxis n a p) : position n a = some p := by
  obtain ⟨h1, h2⟩ := h
  have h' : -(n : Int) ≤ a ∧ a < n := by omega
  rw [position, if_pos h']
  congr 1
  unfold pyIndex
  split <;> omega

/-- **C93 (axes).** A shape is accepted if and only if the axis is one of its axes (or if it is not a scalar, for reductions of all elements). -/
theorem C93_axes (axis : Option Int) (s : Shape) : validatein axis s = true ↔ s ≠ [] ∧ ∀ a, axis = some a → ∃ p, IsAxis s.length a p := by
  unfold validatein
  by_cases hs : s.length = 0
  · have : s = [] := List.length_eq_zero_iff.1 hs
    simp [this]
  · have hs' : s ≠ [] := fun h => hs (by simp [h])
    rw [if_neg hs]
    cases axis with
    | none => simp [hs']
    | some a =>
      simp only [Bool.not_eq_true', decide_eq_false_iff_not, Int.not_lt]
      constructor
      · intro h
        refine ⟨hs', ?_⟩
        intro b hb
        injection hb with hb
        subst hb
        have : -(s.length : Int) ≤ a ∧ a < s.length := by
          split at h
          · omega
          · rw [abs_of_neg (by omega)] at h; omega
        obtain ⟨p, hp, _⟩ := axis_of _ a this
        exact ⟨p, hp⟩
      · rintro ⟨_, h⟩
        obtain ⟨p, hp, hpa⟩ := h a rfl
        split
        · omega
        · rw [abs_of_neg (by omega)]; omega

example : validatein (some (-2)) [3, 4] = true ∧ validatein (some (-3)) [3, 4] = false ∧ validatein (some 2) [3, 4] = false ∧
    validatein none [] = false := by decide

/-- **C93 (shapes).** The output shape is the input shape without the axis, for all shapes and all axes, positive or negative. -/
theorem C93_shape (s : Shape) (a : Int) (p : Nat) (h : IsAxis s.length a p) : reshapein (some a) s = some (s.take p ++ s.drop (p + 1)) := by
  obtain ⟨h1, h2⟩ := h
  unfold reshapein
  simp only
  by_cases ha : a = -1
  · subst ha
    have hp : p + 1 = s.length := by omega
    rw [if_pos rfl, sliceTo, bound, if_neg (by omega), List.drop_eq_nil_of_le (by omega), List.append_nil]
    congr 2
    omega
  · rw [if_neg ha, sliceTo, sliceFrom]
    have e1 : bound s.length a = p := by unfold bound; split <;> omega
    have e2 : bound s.length (a + 1) = p + 1 := by unfold bound; split <;> omega
    rw [e1, e2]

example : IsAxis 3 (-2) 1 ∧ reshapein (some (-2)) [4, 5, 6] = some [4, 6] ∧ reshapein (some (-3)) [4, 5, 6] = some [5, 6] := by
  unfold IsAxis; decide

theorem loop_reduces (op : V → V → V) (identity : Option V) (g : Nat → V) : ∀ m,
    Reduces op identity ((List.range (m + 1)).map g) (loop op (g 0) (fun i => g (i + 1)) m)
  | 0 => Reduces.single (g 0)
  | m + 1 => by
    rw [List.range_succ, List.map_append]
    exact Reduces.snoc _ _ _ (by simp) (loop_reduces op identity g m)

theorem reduceUfunc_reduces (op : V → V → V) (identity : Option V) (n : Nat) (g : Nat → V) (v : V) (h : reduceUfunc op identity n g = some v) :
    Reduces op identity ((List.range n).map g) v := by
  cases n with
  | zero => exact Reduces.empty v h
  | succ m =>
    simp only [reduceUfunc, Option.some.injEq] at h
    rw [← h]
    exact loop_reduces op identity g m

theorem reduces_unique (op : V → V → V) (identity : Option V) (l : List V) (v w : V) (hv : Reduces op identity l v) (hw : Reduces op identity l w) :
    v = w := by
  induction hv generalizing w with
  | empty v h =>
    generalize hl : ([] : List V) = l at hw
    cases hw with
    | empty _ h' => rw [h] at h'; injection h'
    | single _ => cases hl
    | snoc l _ x _ _ => simp at hl
  | single v =>
    generalize hl : [v] = l at hw
    cases hw with
    | empty _ h' => cases hl
    | single _ => injection hl
    | snoc l' _ x hne _ =>
      have : l'.length = 0 := by
        have := congrArg List.length hl
        simp at this
        simp [this]
      exact absurd (List.length_eq_zero_iff.1 this) hne
  | snoc l v x hne _ ih =>
    generalize hl : l ++ [x] = l' at hw
    cases hw with
    | empty _ h' => simp at hl
    | single u =>
      have : l.length = 0 := by
        have := congrArg List.length hl
        simp at this
        simp [this]
      exact absurd (List.length_eq_zero_iff.1 this) hne
    | snoc l2 v2 x2 _ h2 =>
      have := List.append_inj' hl rfl
      obtain ⟨e1, e2⟩ := this
      subst e1
      injection e2 with e2
      rw [ih v2 h2, e2]

theorem insertIdx_take_drop (k : MIndex) (p i : Nat) (h : p ≤ k.length) : k.insertIdx p i = k.take p ++ i :: k.drop p := by
  have e := insertIdx_middle (k.take p) (k.drop p) i
  rw [List.take_append_drop, List.length_take, Nat.min_eq_left h] at e
  exact e

theorem line_spec (x : Data V) (p : Nat) (k : MIndex) (h : p ≤ k.length) :
    IsLine x p k ((List.range (x.shape.getD p 0)).map fun i => x.get (k.insertIdx p i)) := by
  refine ⟨by simp, fun i hi => ?_⟩
  rw [List.getElem?_map, List.getElem?_range hi, Option.map_some, insertIdx_take_drop k p i h]

theorem enum_line (x : Data V) : (List.range (enum x.shape).length).map (fun i => x.get ((enum x.shape).getD i [])) = x.flat := by
  unfold Data.flat
  apply List.ext_getElem
  · simp
  · intro i h1 h2
    simp only [List.length_map, List.length_range] at h1
    rw [List.getElem_map, List.getElem_range, List.getElem_map, List.getD_eq_getElem _ _ h1]

/-- The reduction returned by a function, for the value of skipna. -/
def wanted (r : Reduction V) (l : List V) (v : V) : Prop :=
  match r.func with
  | .ufunc _ _ op identity => Reduces op identity l v
  | .function _ _ skipna default f => f (if skipna then r.skipna else default) l = some v
  | .callable f => f l = some v

theorem reduced (r : Reduction V) (g : Data V → Option (Data (Option V))) (hg : direct false r = some g) :
    ∃ red, g = along red r.axis ∧ ∀ n h v, red n h = some v → wanted r ((List.range n).map h) v := by
  unfold direct at hg
  cases hf : r.func with
  | ufunc nin nout op identity =>
    rw [hf] at hg
    simp only [Bool.false_eq_true, if_false] at hg
    split at hg
    · cases hg
    split at hg
    · cases hg
    injection hg with hg
    refine ⟨_, hg.symm, fun n h v e => ?_⟩
    unfold wanted
    rw [hf]
    exact reduceUfunc_reduces op identity n h v e
  | function axis out skipna default f =>
    rw [hf] at hg
    simp only at hg
    split at hg
    · cases hg
    injection hg with hg
    refine ⟨_, hg.symm, fun n h v e => ?_⟩
    unfold wanted
    rw [hf]
    exact e
  | callable f => rw [hf] at hg; cases hg

/-- **C93 (values).** With NumPy 1, if the call returns an array, it has the shape of the input without the axis (no axis if none is
specified), and its elements are the reductions of the elements along the axis, in order (of all the elements in C order).
Missing: see the negations for the cases in which an exception is raised, or skipna is ignored. -/
theorem C93_values_partial (r : Reduction V) (x : Data V) (y : Data (Option V)) (h : call false r x = some y) :
    (∀ a p, r.axis = some a → IsAxis x.shape.length a p → y.shape = x.shape.take p ++ x.shape.drop (p + 1) ∧
      ∀ k, inShape y.shape k = true → ∃ l v, y.get k = some v ∧ IsLine x p k l ∧ wanted r l v) ∧
      (r.axis = none → y.shape = [] ∧ ∃ v, y.get [] = some v ∧ wanted r x.flat v) := by
  simp only [call, Option.bind_eq_bind, Option.bind_eq_some_iff] at h
  obtain ⟨g, hg, so, hi, h⟩ := h
  split at h
  · cases h
  simp only [Option.bind_eq_some_iff] at h
  obtain ⟨s, hs, y', hy, h⟩ := h
  split at h
  swap
  · cases h
  rename_i hc
  injection h with h
  subst h
  obtain ⟨hsh, hsome⟩ := hc
  obtain ⟨red, rfl, hred⟩ := reduced r g hg
  constructor
  · intro a p ha hp
    rw [ha, along] at hy
    simp only [position_of hp, Option.map_some, Option.some.injEq] at hy
    subst hy
    simp only at hsh
    have e : x.shape.eraseIdx p = x.shape.take p ++ x.shape.drop (p + 1) := List.eraseIdx_eq_take_drop_succ _ _
    refine ⟨e, fun k hk => ?_⟩
    simp only at hk
    have hk' : k ∈ enum s := by rw [← hsh]; exact (mem_enum).2 hk
    have hs := hsome k hk'
    obtain ⟨v, hv⟩ := Option.isSome_iff_exists.1 hs
    have hlen : k.length = (x.shape.eraseIdx p).length := by
      exact Verif.Pack.enum_length (mem_enum.2 hk)
    have hle : p ≤ k.length := by
      rw [hlen, List.length_eraseIdx_of_lt hp.1]
      have := hp.1
      omega
    exact ⟨_, v, hv, line_spec x p k hle, hred _ _ v hv⟩
  · intro ha
    rw [ha, along] at hy
    simp only [Option.some.injEq] at hy
    subst hy
    simp only at hsh
    refine ⟨rfl, ?_⟩
    have hs := hsome [] (by rw [← hsh]; simp [enum])
    obtain ⟨v, hv⟩ := Option.isSome_iff_exists.1 hs
    refine ⟨v, hv, ?_⟩
    have := hred _ _ v hv
    rwa [enum_line] at this

/-- The reductions of n elements do not raise: the function is a ufunc with two inputs and one output that has an identity if n is zero, or a Python
function with an argument axis that returns a value. -/
def Supported (r : Reduction V) (n : Nat) : Prop :=
  match r.func with
  | .ufunc nin nout _ identity => nin = 2 ∧ nout = 1 ∧ (n = 0 → identity ≠ none)
  | .function axis _ skipna default f => axis = true ∧ ∀ l : List V, l.length = n → (f (if skipna then r.skipna else default) l).isSome
  | .callable _ => False

theorem supported (r : Reduction V) (n : Nat) (h : Supported r n) :
    ∃ red, direct false r = some (along red r.axis) ∧ ∀ g, (red n g).isSome = true := by
  unfold Supported at h
  unfold direct
  cases hf : r.func with
  | ufunc nin nout op identity =>
    rw [hf] at h
    obtain ⟨rfl, rfl, h⟩ := h
    refine ⟨reduceUfunc op identity, by simp, fun g => ?_⟩
    cases n with
    | zero => exact Option.isSome_iff_ne_none.2 (h rfl)
    | succ m => rfl
  | function axis out skipna default f =>
    rw [hf] at h
    obtain ⟨rfl, h⟩ := h
    exact ⟨reduceList (f (if skipna then r.skipna else default)), by simp, fun g => h _ (by simp)⟩
  | callable f => rw [hf] at h; exact h.elim

/-- **C93 (success).** With NumPy 1, a reduction along an axis by a ufunc with two inputs and one output, or by a Python function with an argument
axis, returns an array for all the inputs that have the axis, whether the input shape is explicit or not; and a reduction of all the elements too, if
the input shape is not explicit.  Missing: the other callables, NumPy 2, and the reduction of all the elements with an explicit shape. -/
theorem C93_success_partial (r : Reduction V) (x : Data V) :
    (∀ a p, r.axis = some a → IsAxis x.shape.length a p → Supported r (x.shape.getD p 0) → (r.shapein = none ∨ r.shapein = some x.shape) →
      ∃ y, call false r x = some y) ∧
      (r.axis = none → x.shape ≠ [] → Supported r (enum x.shape).length → r.shapein = none → ∃ y, call false r x = some y) := by
  constructor
  · intro a p ha hp hsup hsh
    obtain ⟨red, hd, hred⟩ := supported r _ hsup
    have hne : x.shape ≠ [] := fun h => by
      have := hp.1
      rw [h] at this
      simp at this
    have hv : validatein (some a) x.shape = true := by
      refine (C93_axes _ _).2 ⟨hne, fun b hb => ?_⟩
      injection hb with hb
      subst hb
      exact ⟨p, hp⟩
    have e : x.shape.eraseIdx p = x.shape.take p ++ x.shape.drop (p + 1) := List.eraseIdx_eq_take_drop_succ _ _
    have ho : ∃ o, init r = some o ∧ outShape r o x.shape = some (x.shape.eraseIdx p) ∧ accepts r x.shape = true := by
      rcases hsh with hsh | hsh
      · refine ⟨none, by simp [init, hsh, ha], ?_, by simp [accepts, hsh, ha, hv]⟩
        simp [outShape, ha, C93_shape _ _ _ hp, e]
      · refine ⟨some (x.shape.eraseIdx p), ?_, rfl, by simp [accepts, hsh]⟩
        simp [init, hsh, ha, C93_shape _ _ _ hp, hv, e]
    obtain ⟨o, o1, o2, o3⟩ := ho
    refine ⟨⟨x.shape.eraseIdx p, fun k => red (x.shape.getD p 0) fun i => x.get (k.insertIdx p i)⟩, ?_⟩
    have hal : along red r.axis x = some ⟨x.shape.eraseIdx p, fun k => red (x.shape.getD p 0) fun i => x.get (k.insertIdx p i)⟩ := by
      rw [ha, along]
      simp only [position_of hp, Option.map_some]
    unfold call
    simp only [hd, o1, o2, o3, hal, Option.bind_eq_bind, Option.bind_some, Bool.true_eq_false, if_false]
    rw [if_pos ⟨trivial, fun k _ => hred _⟩]
  · intro ha hne hsup hsh
    obtain ⟨red, hd, hred⟩ := supported r _ hsup
    have hv : validatein none x.shape = true := (C93_axes _ _).2 ⟨hne, fun b hb => by cases hb⟩
    refine ⟨⟨[], fun _ => red (enum x.shape).length fun i => x.get ((enum x.shape).getD i [])⟩, ?_⟩
    have o1 : init r = some (some []) := by simp [init, hsh, ha]
    have o3 : accepts r x.shape = true := by simp [accepts, hsh, ha, hv]
    have hal : along red r.axis x = some ⟨[], fun _ => red (enum x.shape).length fun i => x.get ((enum x.shape).getD i [])⟩ := by
      rw [ha, along]
    unfold call
    simp only [hd, o1, outShape, o3, hal, Option.bind_eq_bind, Option.bind_some, Bool.true_eq_false, if_false]
    rw [if_pos ⟨trivial, fun k _ => hred _⟩]

/-- `ReductionOperator(np.subtract, axis=-2)` for an array of shape (2, 2). -/
example : ((call false ⟨.ufunc 2 1 (fun a b : Int => a - b) none, some (-2), false, none⟩
    ⟨[2, 2], fun k => 10 * k.getD 0 0 + k.getD 1 0⟩).map fun y => (y.shape, y.get [0], y.get [1])) = some ([2], some (-10), some (-10)) := by decide

example : IsAxis 2 (-2) 0 ∧ Supported ⟨.ufunc 2 1 (fun a b : Int => a - b) none, some (-2), false, none⟩ 2 := by
  refine ⟨by unfold IsAxis; decide, rfl, rfl, by decide⟩

/-- `ReductionOperator(np.subtract)` for the same array. -/
example : ((call false ⟨.ufunc 2 1 (fun a b : Int => a - b) none, none, false, none⟩
    ⟨[2, 2], fun k => 10 * k.getD 0 0 + k.getD 1 0⟩).map fun y => (y.shape, y.get [])) = some ([], some (-22)) := by decide

/-- Floating point numbers with NaN, and their product. -/
def times (a b : Option Int) : Option Int := a.bind fun x => b.map fun y => x * y

/-- **C93 (NaN, negation).** `ProductOperator()` has skipna=True by default, "the reduction is done as if any NA elements were not counted", but its
function is a ufunc, for which skipna is ignored: the product of [2, NaN, 3] is NaN instead of 6. -/
theorem C93_nan_fails : ∃ (x : Data (Option Int)), x.flat.filterMap id = [2, 3] ∧
    ((call false ⟨.ufunc 2 1 times (some (some 1)), none, true, none⟩ x).map fun y => y.get []) = some (some none) :=
  ⟨⟨[3], fun k => [some 2, none, some 3].getD (k.getD 0 0) none⟩, by decide⟩

/-- **C93 (NumPy 2, negation).** With NumPy 2, the argument skipna is passed to the method reduce, which has none: all calls of all the reductions by a
ufunc raise TypeError. -/
theorem C93_numpy2_fails : ∀ (nin nout : Nat) (op : V → V → V) (identity : Option V) (axis : Option Int) (skipna : Bool) (shapein : Option Shape) (x : Data V),
    call true ⟨.ufunc nin nout op identity, axis, skipna, shapein⟩ x = none := by
  intro nin nout op identity axis skipna shapein x
  unfold call direct
  by_cases h1 : nin ≠ 2
  · simp [h1]
  · by_cases h2 : nout ≠ 1
    · simp [h1, h2]
    · simp only [h1, h2, if_false, if_true, Option.bind_eq_bind, Option.bind_some]
      cases init ⟨.ufunc nin nout op identity, axis, skipna, shapein⟩ with
      | none => rfl
      | some o =>
        simp only [Option.bind_some]
        split
        · rfl
        · cases outShape ⟨.ufunc nin nout op identity, axis, skipna, shapein⟩ o x.shape <;> rfl

/-- **C93 (callables, negation).** A callable that is neither a ufunc nor a Python function is not handled: `direct` is not assigned, and the constructor
raises UnboundLocalError.  Since NumPy 1.25 this is the case of `np.nansum`, the example of the documentation, and of `SumOperator()`. -/
theorem C93_callable_fails : ∀ (numpy2 : Bool) (f : List V → Option V) (axis : Option Int) (skipna : Bool) (shapein : Option Shape) (x : Data V),
    call numpy2 ⟨.callable f, axis, skipna, shapein⟩ x = none := by
  intros; rfl

/-- **C93 (explicit shape, negation).** The reduction of all the elements with an explicit input shape, `ReductionOperator(np.add, shapein=(2, 3))`,
raises TypeError, although all the conditions are met. -/
theorem C93_explicit_fails : ∃ (r : Reduction Int) (x : Data Int), r.axis = none ∧ r.shapein = some x.shape ∧ x.shape ≠ [] ∧
    Supported r (enum x.shape).length ∧ call false r x = none :=
  ⟨⟨.ufunc 2 1 (· + ·) (some 0), none, false, some [2, 3]⟩, ⟨[2, 3], fun _ => 1⟩, rfl, rfl, by decide, ⟨rfl, rfl, by decide⟩, by decide⟩

end Verif.Linear.Reduction
