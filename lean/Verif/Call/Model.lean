import Verif.Compose.Model

/-
Model of the call of an operator: `Operator.__call__` and `Operator._validate_arguments`
(src/pyoperators/core.py:431-500 and 1301-1395).  The memory, the pool and the operators are those of the model of
compositions (Verif/Compose/Model.lean).  The validation of the shapes and the classes and attributes of the arrays are
left out; the conversion of the values to the dtype of the output is left out too (the contents is copied).
-/

namespace Verif.Call

open Verif.Compose

variable {V : Type}

/-- `iscompatible(output, input.shape, dtype, aligned, contiguous)`: src/pyoperators/memory.py:102-121. -/
def canHold (b : Arr) (sh : Sh) (aligned contiguous : Bool) : Bool :=
  if aligned && !b.aligned then false
  else if !b.contiguous then !contiguous && decide (b.sh = sh)
  else if sh.nbytes = 0 then false
  else decide (sh.nbytes ≤ b.sh.nbytes)

/-- The input and output are compatible with the requirements: `iscompatible(array, array.shape, dtype, aligned, contiguous)`
(src/pyoperators/memory.py:102-121), for an array of the right dtype. -/
def meets (b : Arr) (aligned contiguous : Bool) : Bool := canHold b b.sh aligned contiguous

/-- Copy of the contents of an array. -/
def copyTo (s : St V) (src dst : Nat) : St V := { s with mem := fun b => if b = dst then s.mem src else s.mem b }

/-- The output, if the input can be copied in it: src/pyoperators/core.py:1321-1332. -/
def intoOutput (op : Opd V) (need : Sh) : Option Arr → Option Arr
  | some o => if op.inplace && canHold o need op.alignedIn op.contiguousIn then some o else none
  | none => none

/-- The input: src/pyoperators/core.py:1306-1343.  `sameType` tells whether the dtype of the input is the one required;
`need` is the size of the input in the dtype required. -/
def validateInput (tol : Nat → Nat → Bool) (op : Opd V) (x : Arr) (sameType : Bool) (need : Sh) (out : Option Arr)
    (s : St V) : Except Err (Arr × Option Arr × St V) :=
  if sameType && meets x op.alignedIn op.contiguousIn then .ok (x, none, s)
  else
    match intoOutput op need out with
    | some o => do
      let i ← view o need
      .ok (i, none, copyTo s x.id i.id)
    | none => do
      let e := extract tol s need.nbytes op.alignedIn op.contiguousIn
      let i ← view e.1 need
      .ok (i, some e.1, copyTo e.2 x.id i.id)

/-- The output: src/pyoperators/core.py:1345-1394.  An output that is not given is allocated, with the shape `shout`. -/
def validateOutput (tol : Nat → Nat → Bool) (op : Opd V) (i : Arr) (shout : Sh) (out : Option Arr) (s : St V) :
    Except Err (Arr × Option Arr × St V) :=
  match out with
  | none => .ok (⟨s.next, shout, true, true⟩, none, { s with next := s.next + 1 })
  | some o =>
    if !meets o op.alignedOut op.contiguousOut || (i.id == o.id && !op.inplace) then do
      let e := extract tol s o.sh.nbytes op.alignedOut op.contiguousOut
      let v ← view e.1 o.sh
      .ok (v, some e.1, e.2)
    else .ok (o, none, s)

/-- `with _pool.set_if(condition, v)`: src/pyoperators/memory.py:256-278, around an action. -/
def setIf (cond : Bool) (v : Arr) (act : St V → Except Err (St V)) (s : St V) : Except Err (St V) :=
  if cond then do
    let s ← add s v
    let s ← act s
    remove s v
  else act s

/-- Adding back a temporary buffer. -/
def addBack (s : St V) : Option Arr → Except Err (St V)
  | none => .ok s
  | some b => add s b

/-- `out[...] = o; _pool.add(o_)` if the output given is not the output of `direct`: src/pyoperators/core.py:470-474. -/
def finish (out : Option Arr) (o : Arr) (oBuf : Option Arr) (s : St V) : Except Err (Arr × St V) :=
  match out with
  | none => .ok (o, s)
  | some u =>
    if u.id = o.id then .ok (u, s)
    else (addBack (copyTo s o.id u.id) oBuf).map (fun s => (u, s))

/-- `__call__`: src/pyoperators/core.py:431-500, for an array x.  The flags of the operator are those of `op`; `update` is its flag
update_output.  Returns the output and the state. -/
def call (tol : Nat → Nat → Bool) (op : Opd V) (update : Bool) (operation : Option (V → V → V)) (preserve : Bool)
    (x : Arr) (sameType : Bool) (need shout : Sh) (out : Option Arr) (s : St V) : Except Err (Arr × St V) :=
  if operation.isSome && !update then .error .value
  else if operation.isSome && out.isNone then .error .value
  else do
    let a ← validateInput tol op x sameType need out s
    let b ← validateOutput tol op a.1 shout out a.2.2
    let reuseX := x.id != a.1.id && !preserve
    let u := out.getD b.1
    let reuseOut := out.isSome && u.id != a.1.id && u.id != b.1.id
    let s ← setIf reuseX x (setIf reuseOut u (exec op operation a.1 b.1)) b.2.2
    let s ← addBack s a.2.1
    finish out b.1 b.2.1 s

end Verif.Call
