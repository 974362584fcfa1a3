import Verif.Shape.Model

/-
Model of the slices of the block operators and of their evaluation: src/pyoperators/core.py:3333-3348 (`_get_slices`),
3695-3722 (`BlockDiagonalOperator.direct`), 3783-3801 (`BlockColumnOperator.direct`) and 3868-3898 (`BlockRowOperator.direct`).

An array is a function of its multi-indices; only the values at the multi-indices in its shape are meaningful.
-/

namespace Verif.Block

open Verif.Shape

/-- A multi-index. -/
abbrev MIndex := List Nat

/-- The contents of an array. -/
abbrev Arr (R : Type) := MIndex → R

/-- The items of a NumPy basic index: `:`, `...`, `a:b` and an integer. -/
inductive Index where
  | all
  | ellipsis
  | range (a b : Nat)
  | at (k : Nat)
deriving DecidableEq, Repr

/-- The keywords axisin or new_axisin (axisout or new_axisout), which are exclusive: src/pyoperators/core.py:2958-2961. -/
inductive Axis where
  | axis (a : Int)
  | newAxis (a : Int)
deriving DecidableEq, Repr

/-- `axis = new_axis` if it is not None: src/pyoperators/core.py:3336-3337. -/
def Axis.pos : Axis → Int
  | .axis a => a
  | .newAxis a => a

/-- Python's index of a sequence of length n. -/
def pyIndex (n : Nat) (a : Int) : Nat := if 0 ≤ a then a.toNat else (n + a).toNat

/-- The initial value of `s`: src/pyoperators/core.py:3338-3341. -/
def template (a : Int) : List Index :=
  if 0 ≤ a then List.replicate (a.toNat + 1) .all ++ [.ellipsis] else .ellipsis :: List.replicate (-a).toNat .all

/-- `s[new_axis] = dest` or `s[axis] = slice(dest, dest + n)`: src/pyoperators/core.py:3344-3347. -/
def Axis.item (ax : Axis) (dest n : Nat) : Index :=
  match ax with
  | .axis _ => .range dest (dest + n)
  | .newAxis _ => .at dest

/-- The loop of `_get_slices`: src/pyoperators/core.py:3343-3349. -/
def slicesFrom (ax : Axis) (s : List Index) (dest : Nat) : List Nat → List (List Index)
  | [] => []
  | n :: partition =>
    let s' := s.set (pyIndex s.length ax.pos) (ax.item dest n)
    s' :: slicesFrom ax s' (dest + n) partition

/-- `BlockOperator._get_slices`: src/pyoperators/core.py:3333-3349. -/
def getSlices (partition : List Nat) (ax : Axis) : List (List Index) := slicesFrom ax (template ax.pos) 0 partition

/-! ### NumPy's basic indexing -/

/-- The items an item stands for, if q axes are not indexed. -/
def expandItem (q : Nat) : Index → List Index
  | .ellipsis => List.replicate q .all
  | i => [i]

/-- The ellipsis stands for the axes that are not indexed. -/
def expand (n : Nat) (idx : List Index) : List Index := idx.flatMap (expandItem (n - (idx.length - 1)))

/-- The shape of `x[idx]`, for an index without ellipsis. -/
def viewShape : List Index → Shape → Shape
  | .all :: idx, d :: s => d :: viewShape idx s
  | .range a b :: idx, d :: s => (min b d - min a d) :: viewShape idx s
  | .at _ :: idx, _ :: s => viewShape idx s
  | _, s => s

/-- The element of `x` that is the element l of `x[idx]`. -/
def place : List Index → MIndex → MIndex
  | .all :: idx, i :: l => i :: place idx l
  | .range a _ :: idx, i :: l => (a + i) :: place idx l
  | .at k :: idx, l => k :: place idx l
  | _, l => l

/-- The element of `x[idx]` that is the element k of `x`, if any. -/
def unplace : List Index → MIndex → Option MIndex
  | .all :: idx, i :: k => (unplace idx k).map (i :: ·)
  | .range a b :: idx, i :: k => if a ≤ i && i < b then (unplace idx k).map ((i - a) :: ·) else none
  | .at a :: idx, i :: k => if i == a then unplace idx k else none
  | _, k => some k

/-- The multi-index is in the shape. -/
def inShape : Shape → MIndex → Bool
  | [], [] => true
  | d :: s, i :: k => decide (i < d) && inShape s k
  | _, _ => false

variable {R : Type}

/-- The values of an array, at the multi-indices of its shape. -/
def clip [Zero R] (s : Shape) (x : Arr R) : Arr R := fun k => if inShape s k then x k else 0

/-- `x[idx]`, where x has the shape s. -/
def view [Zero R] (s : Shape) (idx : List Index) (x : Arr R) : Arr R :=
  clip (viewShape (expand s.length idx) s) (fun l => x (place (expand s.length idx) l))

/-- `x[idx] = v`, where x has the shape s. -/
def write (s : Shape) (idx : List Index) (v : Arr R) (x : Arr R) : Arr R := fun k =>
  match unplace (expand s.length idx) k with
  | some l => v l
  | none => x k

/-! ### Evaluation -/

/-- A block: the function it applies to an array of a given shape, its method reshapein, its requirements (alignment or contiguity) on
its input and output, and its ability to update its output.  The blocks of a block operator that is called in place all work
in place: when its input and output are the same memory, it writes the same values (src/pyoperators/core.py:3729). -/
structure Operand (R : Type) where
  fn : Shape → Arr R → Arr R
  reshapein : Shape → Shape := id
  needIn : Bool := false
  needOut : Bool := false
  update : Bool := false

/-- The memory: the contents of the arrays. -/
abbrev Mem (R : Type) := Nat → Arr R

/-- Assignment of an array. -/
def Mem.set (m : Mem R) (i : Nat) (x : Arr R) : Mem R := fun j => if j = i then x else m j

/-- One iteration of the loop of `BlockDiagonalOperator.direct`: src/pyoperators/core.py:3713-3722.  The input is the array x of
shape sx, the output is the array y of shape sy, which can be the same.  `ok` says whether the slice of the input meets the
requirements; if it does not, `_pool.copy_if` (src/pyoperators/memory.py:158-178) gives a copy of it to the operand and
copies it back afterwards.  The copy of the slice of the output does not change the values that are written. -/
def diagStep [Zero R] (sx sy : Shape) (x y : Nat) (op : Operand R) (sin sout : List Index) (ok : Bool) (m : Mem R) : Mem R :=
  let i := view sx sin (m x)
  let si := viewShape (expand sx.length sin) sx
  let m1 := m.set y (write sy sout (op.fn si i) (m y))
  if op.needIn && !ok then m1.set x (write sx sin i (m1 x)) else m1

/-- The loop of `BlockDiagonalOperator.direct`: src/pyoperators/core.py:3710-3722. -/
def diagLoop [Zero R] (sx sy : Shape) (x y : Nat) :
    List (Operand R) → List (List Index) → List (List Index) → List Bool → Mem R → Mem R
  | op :: ops, sin :: sins, sout :: souts, ok :: oks, m =>
    diagLoop sx sy x y ops sins souts oks (diagStep sx sy x y op sin sout ok m)
  | _, _, _, _, m => m

/-- The loop of `BlockColumnOperator.direct`: src/pyoperators/core.py:3796-3801. -/
def colLoop (sx sy : Shape) (x y : Nat) : List (Operand R) → List (List Index) → Mem R → Mem R
  | op :: ops, sout :: souts, m => colLoop sx sy x y ops souts (m.set y (write sy sout (op.fn sx (m x)) (m y)))
  | _, _, m => m

/-- The input given to an operand of a block row, and the memory after the context `_pool.copy_if`:
src/pyoperators/core.py:3884-3886 and 3891-3894. -/
def rowBack [Zero R] (sx : Shape) (x : Nat) (op : Operand R) (sin : List Index) (ok : Bool) (m : Mem R) (i : Arr R) : Mem R :=
  if op.needIn && !ok then m.set x (write sx sin i (m x)) else m

/-- The loop of `BlockRowOperator.direct`: src/pyoperators/core.py:3891-3898.  `buf` is the temporary buffer, if there is one; an
operand unable to update its output that is called without buffer fails. -/
def rowLoop [Zero R] (operation : R → R → R) (sx : Shape) (x y : Nat) (buf : Option Nat) :
    List (Operand R) → List (List Index) → List Bool → Mem R → Option (Mem R)
  | op :: ops, sin :: sins, ok :: oks, m =>
    let i := view sx sin (m x)
    let r := op.fn (viewShape (expand sx.length sin) sx) i
    if op.update then
      let m1 := m.set y (fun k => operation (m y k) (r k))
      rowLoop operation sx x y buf ops sins oks (rowBack sx x op sin ok m1 i)
    else
      match buf with
      | none => none
      | some b =>
        let m1 := m.set b r
        let m2 := m1.set y (fun k => operation (m1 y k) (m1 b k))
        rowLoop operation sx x y buf ops sins oks (rowBack sx x op sin ok m2 i)
  | _, _, _, m => some m

/-- `BlockRowOperator.direct`: src/pyoperators/core.py:3868-3898, the partition being known.  `tmp` is the buffer that the pool
would provide, and `_need_temporary` is set at 3867. -/
def rowDirect [Zero R] (operation : R → R → R) (sx : Shape) (x y tmp : Nat) (ops : List (Operand R)) (sins : List (List Index))
    (oks : List Bool) (m : Mem R) : Option (Mem R) :=
  match ops, sins, oks with
  | op :: ops, sin :: sins, ok :: oks =>
    let i := view sx sin (m x)
    let m1 := m.set y (op.fn (viewShape (expand sx.length sin) sx) i)
    let m2 := rowBack sx x op sin ok m1 i
    let buf := if ops.any (fun o => !o.update) then some tmp else none
    rowLoop operation sx x y buf ops sins oks m2
  | _, _, _ => none

/-- A block operator whose partitions are known.  It is a block row if it has no output axis, and a block column if it has no input
axis: src/pyoperators/core.py:2919-2941.  The partitions along axes that do not exist are not used. -/
structure BlockOp (R : Type) where
  operands : List (Operand R)
  partitionin : List Nat
  partitionout : List Nat
  axisin : Option Axis
  axisout : Option Axis

/-- The methods direct of the three classes. -/
def BlockOp.direct [Zero R] (b : BlockOp R) (operation : R → R → R) (sx sy : Shape) (x y tmp : Nat) (oks : List Bool) (m : Mem R) :
    Option (Mem R) :=
  match b.axisin, b.axisout with
  | some ai, some ao =>
    some (diagLoop sx sy x y b.operands (getSlices b.partitionin ai) (getSlices b.partitionout ao) oks m)
  | none, some ao => some (colLoop sx sy x y b.operands (getSlices b.partitionout ao) m)
  | some ai, none => rowDirect operation sx x y tmp b.operands (getSlices b.partitionin ai) oks m
  | none, none => none

/-- The rule 'T': src/pyoperators/core.py:3022-3033.  The operands of the transpose are the transposes of the operands. -/
def BlockOp.transpose (b : BlockOp R) (transposed : List (Operand R)) : BlockOp R :=
  { operands := transposed
    partitionin := b.partitionout
    partitionout := b.partitionin
    axisin := b.axisout
    axisout := b.axisin }

end Verif.Block
