import Verif.Memory.Model

/-
Model of the evaluation of a composition: `CompositionOperator.direct`, `_get_info`, `_get_requirements` and
`_get_bufsizes` (src/pyoperators/core.py:2328-2396 and 2492-2641).

The arrays are references to zones of memory, numbered; two arrays share their memory if and only if they have the same
number (the criterion `isalias` of the code, src/pyoperators/utils/misc.py:581-589).  The contents of a zone is an element
of a type `V`, whatever the shape of the array that gives access to it.  What an operand computes is a function of `V`
to `V`.
-/

namespace Verif.Compose

open Verif.Memory (product)

/-- Shape and item size of an array. -/
structure Sh where
  shape : List Nat
  itemsize : Nat
deriving DecidableEq, Repr

/-- `product(shape) * dtype.itemsize`. -/
def Sh.nbytes (s : Sh) : Nat := product s.shape * s.itemsize

/-- An array. -/
structure Arr where
  id : Nat
  sh : Sh
  aligned : Bool
  contiguous : Bool
deriving DecidableEq, Repr

/-- An operand.  `f` is what it computes.  `inplace`, `alignedIn`.. are its flags.  `usesPool` tells whether its method
`direct` takes temporary buffers from the memory pool; `scribble` is what it then does to them.  `junk` is the result
when the operand is not able to work in place and is nevertheless called with an output that is its input. -/
structure Opd (V : Type) where
  f : V → V
  inplace : Bool
  alignedIn : Bool := false
  alignedOut : Bool := false
  contiguousIn : Bool := false
  contiguousOut : Bool := false
  usesPool : Bool := false
  junk : V → V
  scribble : V → V

/-- The errors: a failed `assert`, a ValueError (a buffer too small, a buffer that is already in the pool or that is not in
the pool), an index out of range.  `requirement` is not an exception of the code: it stands for the call of an operand
with an array that does not have the alignment or contiguity required by the flags of the operand, against the comment
of src/pyoperators/core.py:410-413. -/
inductive Err where
  | assertion
  | value
  | index
  | requirement
deriving DecidableEq, Repr

/-- Contents of the memory, pool of buffers, number of the next zone that will be allocated. -/
structure St (V : Type) where
  mem : Nat → V
  pool : List Arr
  next : Nat

variable {V : Type}

/-- `MemoryPool.view`: src/pyoperators/memory.py:280-294. -/
def view (b : Arr) (sh : Sh) : Except Err Arr :=
  if b.contiguous then
    if sh.nbytes ≤ b.sh.nbytes then .ok { b with sh := sh } else .error .value
  else if b.sh = sh then .ok b
  else .error .value

/-- `iscompatible(array, size, np.int8, aligned, contiguous, tolerance)`: src/pyoperators/memory.py:102-121.
Simplification: a non-contiguous array is never compatible (in the code it would be if it had the shape (size,) and
items of one byte). -/
def iscompatible (tol : Nat → Nat → Bool) (b : Arr) (size : Nat) (aligned _contiguous : Bool) : Bool :=
  if aligned && !b.aligned then false
  else if !b.contiguous then false
  else if size = 0 then false
  else decide (size ≤ b.sh.nbytes) && tol b.sh.nbytes size

/-- The tolerance of a call without argument: infinity. -/
def noTol : Nat → Nat → Bool := fun _ _ => true

/-- Insertion by increasing sizes: src/pyoperators/memory.py:144-148. -/
def insertSorted (v : Arr) : List Arr → List Arr
  | [] => [v]
  | x :: xs => if v.sh.nbytes ≤ x.sh.nbytes then v :: x :: xs else x :: insertSorted v xs

/-- `MemoryPool.add`: src/pyoperators/memory.py:132-148. -/
def add (s : St V) (v : Arr) : Except Err (St V) :=
  if s.pool.any (fun x => x.id == v.id) then .error .value
  else .ok { s with pool := insertSorted v s.pool }

/-- Removal of the first buffer that satisfies a condition. -/
def popFirst (p : Arr → Bool) : List Arr → Option (Arr × List Arr)
  | [] => none
  | x :: xs => if p x then some (x, xs) else (popFirst p xs).map (fun r => (r.1, x :: r.2))

/-- `MemoryPool.remove`: src/pyoperators/memory.py:244-254. -/
def remove (s : St V) (v : Arr) : Except Err (St V) :=
  match popFirst (fun x => x.id == v.id) s.pool with
  | some r => .ok { s with pool := r.2 }
  | none => .error .value

/-- `MemoryPool.extract(size, np.int8, aligned, contiguous)`: src/pyoperators/memory.py:180-208. -/
def extract (tol : Nat → Nat → Bool) (s : St V) (size : Nat) (aligned contiguous : Bool) : Arr × St V :=
  match popFirst (fun x => iscompatible tol x size aligned contiguous) s.pool with
  | some r => (r.1, { s with pool := r.2 })
  | none => (⟨s.next, ⟨[size], 1⟩, true, true⟩, { s with next := s.next + 1 })

/-- The zone `b` is in the pool. -/
def St.inPool (s : St V) (b : Nat) : Bool := s.pool.any (fun x => x.id == b)

/-- `op.direct(i, o, operation=..)`.  An operand that uses the pool overwrites the buffers that are there, before it
reads its input, and those it shares with its output after it has written it (the worst case); it leaves the same
buffers in the pool. -/
def exec (op : Opd V) (operation : Option (V → V → V)) (i o : Arr) (s : St V) : Except Err (St V) :=
  if (op.alignedIn && !i.aligned) || (op.alignedOut && !o.aligned) || (op.contiguousIn && !i.contiguous) ||
      (op.contiguousOut && !o.contiguous) then .error .requirement
  else
    let mem : Nat → V := fun b => if op.usesPool && s.inPool b then op.scribble (s.mem b) else s.mem b
    let r := if i.id = o.id ∧ op.inplace = false then op.junk (mem i.id) else op.f (mem i.id)
    let r := match operation with
      | none => r
      | some g => g (mem o.id) r
    let r := if op.usesPool && s.inPool o.id then op.scribble r else r
    .ok { s with mem := fun b => if b = o.id then r else mem b }

/-- A group of operands that work on the same buffer: `ninplaces`, `aligneds`, `contiguouss`. -/
structure Group where
  n : Nat
  aligned : Bool
  contiguous : Bool
deriving DecidableEq, Repr

/-- The loop of `_get_requirements`: src/pyoperators/core.py:2605-2641.  The operands are given from the innermost to the
outermost one, `g` holds the variables ninplace, aligned, contiguity; the groups are obtained from the innermost to the
outermost one. -/
def reqLoop : List (Opd V) → Group → List Group
  | [], _ => []
  | op :: rest, g =>
    if op.inplace then
      let g : Group := ⟨g.n + 1, g.aligned || op.alignedIn, g.contiguous || op.contiguousIn⟩
      match rest with
      | [] => [g]
      | _ :: _ => reqLoop rest g
    else
      let g : Group := ⟨g.n, g.aligned || op.alignedIn, g.contiguous || op.contiguousIn⟩
      let next : Group := ⟨0, op.alignedOut, op.contiguousOut⟩
      match rest with
      | [] => [g, next]
      | _ :: _ => g :: reqLoop rest next

/-- `_get_requirements`: src/pyoperators/core.py:2605-2641.  The groups from the outermost to the innermost one. -/
def requirements (ops : List (Opd V)) : List Group := (reqLoop ops.reverse ⟨0, false, false⟩).reverse

/-- Whether the last operand has to be made out of place: src/pyoperators/core.py:2554-2561. -/
def lastOut (preserve : Bool) (input : Arr) (lastInplace : Bool) (g : Group) : Bool :=
  (preserve && lastInplace) || (!input.aligned && g.aligned) || (!input.contiguous && g.contiguous)

/-- Making the last operand out of place: src/pyoperators/core.py:2562-2566. -/
def splitLast (input : Arr) (groups : List Group) : Except Err (List Group) :=
  match groups.getLast? with
  | none => .error .index
  | some g =>
    if g.n = 0 then .error .assertion
    else .ok (groups.dropLast ++ [{ g with n := g.n - 1 }, ⟨0, input.aligned, input.contiguous⟩])

/-- Whether the first operand has to be made out of place: src/pyoperators/core.py:2569-2575. -/
def firstOut (output : Arr) (sizes : List Nat) (g : Group) : Bool :=
  (match sizes with
    | [] => false
    | s0 :: _ => decide (s0 < (sizes.take (g.n + 1)).foldl max 0)) ||
  (!output.aligned && g.aligned) || (!output.contiguous && g.contiguous)

/-- Making the first operand out of place: src/pyoperators/core.py:2576-2580. -/
def splitFirst (output : Arr) : List Group → Except Err (List Group)
  | [] => .error .index
  | g :: gs =>
    if g.n = 0 then .error .assertion
    else .ok (⟨0, output.aligned, output.contiguous⟩ :: { g with n := g.n - 1 } :: gs)

/-- The loop of `_get_bufsizes`: src/pyoperators/core.py:2590-2594. -/
def bufLoop : List Nat → List Group → List Nat
  | _, [] => []
  | _, [_] => []
  | sizes, g :: gs => (sizes.take (g.n + 1)).foldl max 0 :: bufLoop (sizes.drop (g.n + 1)) gs

/-- `_get_bufsizes`: src/pyoperators/core.py:2589-2596.  There is at least one operand. -/
def bufsizes (sizes : List Nat) (groups : List Group) : List Nat := bufLoop sizes groups ++ [sizes.getLastD 0]

/-- src/pyoperators/core.py:2553-2566. -/
def makeLast (preserve : Bool) (input : Arr) (op : Opd V) (g : Group) (groups : List Group) :
    Except Err (List Group) :=
  if lastOut preserve input op.inplace g then splitLast input groups else .ok groups

/-- src/pyoperators/core.py:2568-2580. -/
def makeFirst (output : Arr) (sizes : List Nat) (groups : List Group) : Except Err (List Group) :=
  match groups with
  | [] => .error .index
  | g :: _ => if firstOut output sizes g then splitFirst output groups else .ok groups

/-- `_get_info`: src/pyoperators/core.py:2492-2587, without the cache.  `shs` are the shapes and item sizes of the outputs
of the operands. -/
def getInfo (ops : List (Opd V)) (shs : List Sh) (input output : Arr) (preserve : Bool) :
    Except Err (List (Group × Nat)) :=
  let groups := requirements ops
  let sizes := shs.map Sh.nbytes
  match ops.getLast?, groups.getLast? with
  | some op, some g => do
    let groups ← makeLast preserve input op g groups
    let groups ← makeFirst output sizes groups
    .ok (groups.zip (bufsizes sizes groups))
  | _, _ => .error .index

/-- The variables of the loop of `direct`: `rem` is iop + 1, the number of operands that have not been applied. -/
structure Loop (V : Type) where
  rem : Nat
  i : Arr
  iu : Arr
  ou : Arr
  s : St V

/-- What does not change during the loop of `direct`. -/
structure Ctx (V : Type) where
  ops : List (Opd V)
  shs : List Sh
  output : Arr
  preserve : Bool
  operation : Option (V → V → V)
  ngroups : Nat
  tol : Nat → Nat → Bool

/-- The operand number iop and the shape of its output. -/
def Ctx.get (c : Ctx V) (rem : Nat) : Except Err (Opd V × Sh) :=
  match rem with
  | 0 => .error .index
  | iop + 1 =>
    match c.ops[iop]?, c.shs[iop]? with
    | some op, some sh => .ok (op, sh)
    | _, _ => .error .index

/-- The loop over the in-place operations: src/pyoperators/core.py:2383-2389. -/
def inplaceLoop (c : Ctx V) : Nat → Loop V → Except Err (Loop V)
  | 0, l => .ok l
  | n + 1, l => do
    let p ← c.get l.rem
    let o ← view l.ou p.2
    let s ← exec p.1 none l.i o l.s
    inplaceLoop c n { l with rem := l.rem - 1, i := o, s := s }

/-- The condition to use the output as the buffer of a group: src/pyoperators/core.py:2353-2359. -/
def reuseOutput (c : Ctx V) (igroup : Nat) (g : Group) (bufsize : Nat) (i : Arr) : Bool :=
  (c.operation.isNone && igroup % 2 == 0 && iscompatible noTol c.output bufsize g.aligned g.contiguous &&
    c.output.id != i.id) || igroup == 0

/-- The buffer of the group: src/pyoperators/core.py:2360-2364. -/
def getBuffer (c : Ctx V) (reuse : Bool) (g : Group) (bufsize : Nat) (s : St V) : Except Err (Arr × St V) :=
  if reuse then .ok (c.output, s)
  else
    let e := extract c.tol s bufsize g.aligned g.contiguous
    (add e.2 c.output).map (fun s => (e.1, s))

/-- Setting the buffer of the input back in the pool: src/pyoperators/core.py:2376-2380. -/
def giveBack (c : Ctx V) (igroup : Nat) (iu : Arr) (s : St V) : Except Err (St V) :=
  if (decide (igroup + 2 < c.ngroups) || !c.preserve) && iu.id != c.output.id then add s iu else .ok s

/-- Getting the output out of the pool: src/pyoperators/core.py:2391-2393. -/
def takeOutput (c : Ctx V) (reuse : Bool) (l : Loop V) : Except Err (Loop V) :=
  if reuse then .ok l else (remove l.s c.output).map (fun s => { l with s := s })

/-- A group that is not the innermost one: src/pyoperators/core.py:2351-2393. -/
def groupStep (c : Ctx V) (igroup : Nat) (g : Group) (bufsize : Nat) (l : Loop V) : Except Err (Loop V) := do
  let reuse := reuseOutput c igroup g bufsize l.i
  let b ← getBuffer c reuse g bufsize l.s
  let p ← c.get l.rem
  let o ← view b.1 p.2
  let s ← exec p.1 (if l.rem = 1 then c.operation else none) l.i o b.2
  let s ← giveBack c igroup l.iu s
  let l ← inplaceLoop c g.n { rem := l.rem - 1, i := o, iu := b.1, ou := b.1, s := s }
  takeOutput c reuse l

/-- The loop over the groups, from the innermost one (the last of the list) to the outermost one:
src/pyoperators/core.py:2347-2393. -/
def groupsLoop (c : Ctx V) : Nat → List (Group × Nat) → Loop V → Except Err (Loop V)
  | _, [], l => .ok l
  | _, [g], l => inplaceLoop c g.1.n l
  | igroup, g :: gs, l => do
    let l ← groupsLoop c (igroup + 1) gs l
    groupStep c igroup g.1 g.2 l

/-- `direct`: src/pyoperators/core.py:2328-2396.  `preserveInput` is the keyword; no call in the library gives it. -/
def direct (tol : Nat → Nat → Bool) (ops : List (Opd V)) (shs : List Sh) (input output : Arr)
    (operation : Option (V → V → V)) (preserveInput : Bool) (s : St V) : Except Err (St V) := do
  let preserve := preserveInput && input.id != output.id
  let info ← getInfo ops shs input output preserve
  let ou := if input.id = output.id then
      if input.sh.nbytes < output.sh.nbytes then output else input
    else output
  let c : Ctx V := ⟨ops, shs, output, preserve, operation, info.length, tol⟩
  let l ← groupsLoop c 0 info ⟨ops.length, input, input, ou, s⟩
  if decide (2 ≤ info.length) && !preserve && input.id != output.id then remove l.s input else .ok l.s

end Verif.Compose
