import Verif.Block.Model
import Mathlib.Algebra.Ring.Defs

/-
Model of the operators that broadcast their data across their input: src/pyoperators/core.py:3951-4152 (`BroadcastingBase`), 4157-4206
(`DiagonalBase`), 4209-4346 (`DiagonalOperator`), 4349-4427 (`HomothetyOperator`, `IdentityOperator`), 4430-4566
(`ConstantOperator`, `ZeroOperator`), and src/pyoperators/linear.py:785-835 (`MaskOperator`).

The numbers are the elements of a commutative ring: the arithmetic is exact, and the only promotion is that of the booleans.
-/

namespace Verif.Broadcast

open Verif.Shape Verif.Block

/-- The values of the keyword broadcast: src/pyoperators/core.py:3979. -/
inductive Kind where
  | leftward
  | rightward
  | disabled
  | scalar
deriving DecidableEq, Repr

/-- A NumPy array: its shape, and its values at the multi-indices in its shape. -/
structure Data (α : Type) where
  shape : Shape
  get : MIndex → α

variable {α β γ R : Type}

/-- `x.T`. -/
def Data.T (a : Data α) : Data α := ⟨a.shape.reverse, fun k => a.get k.reverse⟩

/-- NumPy's broadcasting of two shapes, given from the last dimension to the first. -/
def bshape : Shape → Shape → Option Shape
  | [], t => some t
  | s, [] => some s
  | a :: s, b :: t =>
    if a = b then (bshape s t).map (a :: ·)
    else if a = 1 then (bshape s t).map (b :: ·)
    else if b = 1 then (bshape s t).map (a :: ·)
    else none

/-- The element of an array of shape s that NumPy's broadcasting uses for the element k, both from the last dimension to the first. -/
def bindex : Shape → MIndex → MIndex
  | d :: s, i :: k => (if d = 1 then 0 else i) :: bindex s k
  | _, _ => []

/-- A NumPy universal function with two arguments. -/
def ufunc (f : α → β → γ) (a : Data α) (b : Data β) : Option (Data γ) :=
  (bshape a.shape.reverse b.shape.reverse).map fun s =>
    ⟨s.reverse, fun k => f (a.get (bindex a.shape.reverse k.reverse).reverse) (b.get (bindex b.shape.reverse k.reverse).reverse)⟩

/-- `f(a.T, b.T).T` if the test holds, and `f(a, b)` otherwise: src/pyoperators/core.py:4031-4034 and 4199-4202. -/
def oriented (rightward : Bool) (f : α → β → γ) (a : Data α) (b : Data β) : Option (Data γ) :=
  if rightward then (ufunc f a.T b.T).map Data.T else ufunc f a b

/-- The multi-indices of a shape, in C order (`x.ravel()`). -/
def enum : Shape → List MIndex
  | [] => [[]]
  | d :: s => (List.range d).flatMap fun i => (enum s).map (i :: ·)

/-- `x.ravel()` -/
def Data.flat (a : Data α) : List α := (enum a.shape).map a.get

/-- The data of an operator: an array of booleans, or an array of numbers. -/
inductive Values (R : Type) where
  | bools (a : Data Bool)
  | nums (a : Data R)

def Values.shape : Values R → Shape
  | .bools a => a.shape
  | .nums a => a.shape

section Inspect

variable [Ring R] [DecidableEq R]

/-- The number a boolean is promoted to. -/
def ofBool (b : Bool) : R := if b then 1 else 0

/-- The promotion of an array of booleans. -/
def Values.toNums : Values R → Data R
  | .bools a => ⟨a.shape, fun k => ofBool (a.get k)⟩
  | .nums a => a

/-- `np.add` (true) and `np.multiply` (false): they are the logical or, and the logical and, if both arguments are booleans. -/
def combine (add : Bool) (rightward : Bool) : Values R → Values R → Option (Values R)
  | .bools a, .bools b => (oriented rightward (fun x y => if add then x || y else x && y) a b).map .bools
  | v, w => (oriented rightward (fun x y => if add then x + y else x * y) v.toNums w.toNums).map .nums

/-- What `inspect_special_values` returns: the numbers of -1, 0 and 1, and whether there is another value and whether the values are
all the same. -/
structure Special where
  nmones : Nat
  nzeros : Nat
  nones : Nat
  other : Bool
  same : Bool
deriving DecidableEq, Repr

/-- The loop over the values: src/pyoperators/utils/cythonutils.pyx:58-75 (int64, float64 and complex128 are alike; uint64, 22-45,
has no -1). -/
def inspectLoop (v0 : R) : List R → Special → Special
  | [], s => if s.other then ⟨0, 0, 0, true, true⟩ else { s with other := false }
  | v :: vs, s =>
    let s :=
      if v = 0 then { s with nzeros := s.nzeros + 1 }
      else if v = 1 then { s with nones := s.nones + 1 }
      else if v = -1 then { s with nmones := s.nmones + 1 }
      else { s with other := true }
    let s := if s.same && v ≠ v0 then { s with same := false } else s
    if !s.same && s.other then ⟨0, 0, 0, true, false⟩ else inspectLoop v0 vs s

/-- `inspect_special_values_bool8`: src/pyoperators/utils/cythonutils.pyx:11-19. -/
def inspectBools (l : List Bool) : Special :=
  let n := l.length
  let nzeros := l.count false
  ⟨0, nzeros, n - nzeros, false, nzeros = 0 || nzeros = n⟩

/-- `inspect_special_values`: src/pyoperators/utils/misc.py:524-559.  `cast` is the conversion to the type of the loop, which is
exact but for the extended precision floating-point numbers. -/
def inspect (cast : R → R) : Values R → Special
  | .bools a => if a.flat = [] then ⟨0, 0, 0, false, false⟩ else inspectBools a.flat
  | .nums a =>
    match a.flat.map cast with
    | [] => ⟨0, 0, 0, false, false⟩
    | v :: vs => inspectLoop v (v :: vs) ⟨0, 0, 0, false, true⟩

end Inspect

/-- The classes of the operators that are obtained from a diagonal, with their data. -/
inductive Class (R : Type) where
  | zero
  | identity
  | homothety (c : R)
  | mask (data : Data Bool) (b : Kind)
  | diagonal (data : Data R) (b : Kind)

/-- An operator: its class and its attribute shapein. -/
structure Op (R : Type) where
  cls : Class R
  shapein : Option Shape

/-- The keyword broadcast, if it is not given: src/pyoperators/core.py:4245-4246 and linear.py:809-810.  The data of rank zero are
not broadcast (core.py:3985-3986). -/
def defaultKind (s : Shape) : Option Kind → Kind
  | none => if s = [] then .scalar else .disabled
  | some b => if s = [] && (b == .leftward || b == .rightward) then .scalar else b

/-- The shape of an operator without broadcasting: src/pyoperators/core.py:4247-4249. -/
def shapeOf (s : Shape) (b : Kind) : Option Shape := if b = .disabled then some s else none

section Build

variable [Ring R] [DecidableEq R]

/-- `MaskOperator(data, broadcast)`: src/pyoperators/linear.py:807-826. -/
def maskOperator (data : Data Bool) (broadcast : Option Kind) : Op R :=
  let b := defaultKind data.shape broadcast
  let s := shapeOf data.shape b
  let n := data.flat.length
  let i := inspect (R := R) id (.bools data)
  if i.nzeros = n then ⟨.identity, s⟩ else if i.nones = n then ⟨.zero, s⟩ else ⟨.mask data b, s⟩

/-- `DiagonalOperator(data, broadcast)`: src/pyoperators/core.py:4243-4279. -/
def diagonalOperator (cast : R → R) (data : Values R) (broadcast : Option Kind) : Op R :=
  let b := defaultKind data.shape broadcast
  let s := shapeOf data.shape b
  let n := data.toNums.flat.length
  let i := inspect cast data
  if i.nzeros = n then ⟨.zero, s⟩
  else if i.nones = n then ⟨.identity, s⟩
  else if i.same then ⟨.homothety (data.toNums.flat.headD 0), s⟩
  else if i.nones + i.nzeros = n then maskOperator ⟨data.shape, fun k => data.toNums.get k = 0⟩ (some b)
  else ⟨.diagonal data.toNums b, s⟩

/-- `validatein`: src/pyoperators/core.py:4310-4321. -/
def validatein (data : Shape) (b : Kind) (s : Shape) : Bool :=
  let n := data.length
  if s.length < n then false
  else
    let it := if b = .rightward then (s.take n).zip (data.take n) else (s.drop (s.length - n)).zip data
    it.all fun (si, sd) => sd = 1 || sd = si

/-- `ufunc(input, data, output)`, or the same with transposed arrays, where the output has the shape of the input:
src/pyoperators/core.py:4281-4285, and src/pyoperators/linear.py:828-832. -/
def apply (f : R → α → R) (b : Kind) (x : Data R) (data : Data α) : Option (Data R) :=
  (oriented (b == .rightward) f x data).bind fun y => if y.shape = x.shape then some y else none

/-- The result of an operator for an input: the input is checked (shapein and `validatein`) and the method direct is called. -/
def Op.call (o : Op R) (x : Data R) : Option (Data R) :=
  if o.shapein.any (· != x.shape) then none
  else
    match o.cls with
    | .zero => some ⟨x.shape, fun _ => 0⟩
    | .identity => some x
    | .homothety c => apply (· * ·) .scalar x ⟨[], fun _ => c⟩
    | .mask data b => apply (fun v m => if m then 0 else v) b x data
    | .diagonal data b => if validatein data.shape b x.shape then apply (· * ·) b x data else none

/-- The attribute broadcast and `get_data()` of the operators of the class DiagonalBase: src/pyoperators/linear.py:834-835 and
src/pyoperators/core.py:4015-4016.  The zero operator is not one of them. -/
def Op.data (o : Op R) : Option (Values R × Kind) :=
  match o.cls with
  | .zero => none
  | .identity => some (.nums ⟨[], fun _ => 1⟩, .scalar)
  | .homothety c => some (.nums ⟨[], fun _ => c⟩, .scalar)
  | .mask data b => some (.bools ⟨data.shape, fun k => !data.get k⟩, b)
  | .diagonal data b => some (.nums data, b)

/-- The broadcast of a combination, None if one is leftward and the other rightward: src/pyoperators/core.py:4020-4030. -/
def mergeKinds (b1 b2 : Kind) : Option Kind :=
  let has (b : Kind) : Bool := b1 == b || b2 == b
  if has .leftward && has .rightward then none
  else if has .disabled then some .disabled
  else if has .leftward then some .leftward
  else if has .rightward then some .rightward
  else some .scalar

/-- What a rule yields. -/
inductive Outcome (β : Type) where
  | refused
  | error
  | result (o : β)

/-- `_rule_broadcast(b1, b2, DiagonalOperator, np.add or np.multiply)`: src/pyoperators/core.py:4019-4036, for the addition and the
composition of operators of the class DiagonalBase (4165-4184). -/
def ruleBroadcast (cast : R → R) (add : Bool) (o1 o2 : Op R) : Outcome (Op R) :=
  match o1.data, o2.data with
  | some (v1, b1), some (v2, b2) =>
    match mergeKinds b1 b2 with
    | none => .refused
    | some b =>
      match combine add (b1 == .rightward || b2 == .rightward) v1 v2 with
      | none => .error
      | some data => .result (diagonalOperator cast data (some b))
  | _, _ => .refused

/-- A constant operator: its data and its broadcast. -/
structure Const (R : Type) where
  data : Data R
  kind : Kind

/-- `ConstantOperator(data, broadcast)`: src/pyoperators/core.py:4436-4452.  The zero operator is represented by the data 0, and the
attribute shapeout, which is set from the shape of the data, is not represented.  Empty data, which raise an error, give 0. -/
def constantOperator (data : Data R) (broadcast : Option Kind) : Const R :=
  let b := defaultKind data.shape broadcast
  if data.shape ≠ [] && data.flat.all (· = data.flat.headD 0) then ⟨⟨[], fun _ => data.flat.headD 0⟩, .scalar⟩ else ⟨data, b⟩

/-- The values a constant operator gives to an output of shape s: src/pyoperators/core.py:4473-4477.  The assignment broadcasts the
data to the shape of the output. -/
def Const.fill (c : Const R) (s : Shape) : Option (Data R) := apply (fun _ v => v) c.kind ⟨s, fun _ => 0⟩ c.data

/-- `_rule_multiply(b1, b2)`: src/pyoperators/core.py:4186-4205.  The operator is the product of the constant returned and of the
square.  When it is tested for 'rightward', b is the string of the broadcast of the result. -/
def ruleMultiply (o1 o2 : Op R) : Outcome (Const R) :=
  match o1.data, o2.data with
  | some (v1, b1), some (v2, b2) =>
    match mergeKinds b1 b2 with
    | none => .refused
    | some b =>
      match combine false (b == .rightward) v1 v2 with
      | none => .error
      | some data => .result (constantOperator data.toNums (some b))
  | _, _ => .refused

/-- The product of a constant operator and of the square: src/pyoperators/core.py:2037-2064 for its evaluation. -/
def timesSquare (c : Const R) (x : Data R) : Option (Data R) :=
  (c.fill x.shape).map fun y => ⟨x.shape, fun k => y.get k * (x.get k * x.get k)⟩

end Build

end Verif.Broadcast
