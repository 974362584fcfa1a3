import Verif.Sum.Props

/-
Model of the evaluation of nested expressions, in which the operands of compositions are sums or products, whose operands are compositions, and so on:
`CompositionOperator.direct` (src/pyoperators/core.py:2328-2396) and `CommutativeCompositeOperator.direct` (1839-1862), which call each other and share the
pool of buffers. The memory, the pool, the groups of operands and the operands that are not nested are those of Verif/Compose/Model.lean.
-/

namespace Verif.Nested

open Verif.Compose

variable {V : Type}

/-- An operator in an expression. `op` has its flags and what it computes, `update` is the flag update_output, `sh` the shape and item size of its output,
`run` its method `direct`. -/
structure Node (V : Type) where
  op : Opd V
  update : Bool
  sh : Sh
  run : Option (V → V → V) → Arr → Arr → St V → Except Err (St V)

/-- `op.direct(i, o, operation=..)`. As for `Verif.Compose.exec`, `requirement` is the call of an operator with an array that does not have the
alignment or contiguity that its flags require. The keyword operation is a TypeError, here `value`, for an operator without the flag update_output. -/
def Node.call (n : Node V) (operation : Option (V → V → V)) (i o : Arr) (s : St V) : Except Err (St V) :=
  if (n.op.alignedIn && !i.aligned) || (n.op.alignedOut && !o.aligned) || (n.op.contiguousIn && !i.contiguous) ||
      (n.op.contiguousOut && !o.contiguous) then .error .requirement
  else if operation.isSome && !n.update then .error .value
  else n.run operation i o s

/-- An operator that is not made of operators. -/
def leaf (op : Opd V) (update : Bool) (sh : Sh) : Node V := ⟨op, update, sh, exec op⟩

/-! ### Compositions -/

/-- What does not change during the loop of `direct`. -/
structure Ctx (V : Type) where
  ns : List (Node V)
  output : Arr
  preserve : Bool
  operation : Option (V → V → V)
  ngroups : Nat
  tol : Nat → Nat → Bool

/-- The operand number iop. -/
def Ctx.get (c : Ctx V) (rem : Nat) : Except Err (Node V) :=
  match rem with
  | 0 => .error .index
  | iop + 1 =>
    match c.ns[iop]? with
    | some n => .ok n
    | none => .error .index

/-- The loop over the in-place operations: src/pyoperators/core.py:2383-2389. -/
def inplaceLoop (c : Ctx V) : Nat → Loop V → Except Err (Loop V)
  | 0, l => .ok l
  | n + 1, l => do
    let p ← c.get l.rem
    let o ← view l.ou p.sh
    let s ← p.call none l.i o l.s
    inplaceLoop c n { l with rem := l.rem - 1, i := o, s := s }

/-- The condition to use the output as the buffer of a group: src/pyoperators/core.py:2353-2359. -/
def reuseOutput (c : Ctx V) (igroup : Nat) (g : Group) (bufsize : Nat) (i : Arr) : Bool :=
  (c.operation.isNone && igroup % 2 == 0 && iscompatible noTol c.output bufsize g.aligned g.contiguous &&
    c.output.id != i.id) || igroup == 0

/-- The buffer of the group: src/pyoperators/core.py:2360-2364. -/
def getBuffer (c : Ctx V) (reuse : Bool) (g : Group) (bufsize : Nat) (s : St V) : Except Err (Arr × St V) :=
  if reuse then .ok (c.output, s)
  else
    let e := extract c.tol s bufsize g.aligned g.contiguous
    (add e.2 c.output).map (fun s => (e.1, s))

/-- Setting the buffer of the input back in the pool: src/pyoperators/core.py:2376-2380. -/
def giveBack (c : Ctx V) (igroup : Nat) (iu : Arr) (s : St V) : Except Err (St V) :=
  if (decide (igroup + 2 < c.ngroups) || !c.preserve) && iu.id != c.output.id then add s iu else .ok s

/-- Getting the output out of the pool: src/pyoperators/core.py:2391-2393. -/
def takeOutput (c : Ctx V) (reuse : Bool) (l : Loop V) : Except Err (Loop V) :=
  if reuse then .ok l else (remove l.s c.output).map (fun s => { l with s := s })

/-- A group that is not the innermost one: src/pyoperators/core.py:2351-2393. -/
def groupStep (c : Ctx V) (igroup : Nat) (g : Group) (bufsize : Nat) (l : Loop V) : Except Err (Loop V) := do
  let reuse := reuseOutput c igroup g bufsize l.i
  let b ← getBuffer c reuse g bufsize l.s
  let p ← c.get l.rem
  let o ← view b.1 p.sh
  let s ← p.call (if l.rem = 1 then c.operation else none) l.i o b.2
  let s ← giveBack c igroup l.iu s
  let l ← inplaceLoop c g.n { rem := l.rem - 1, i := o, iu := b.1, ou := b.1, s := s }
  takeOutput c reuse l

/-- The loop over the groups, from the innermost one (the last of the list) to the outermost one: src/pyoperators/core.py:2347-2393. -/
def groupsLoop (c : Ctx V) : Nat → List (Group × Nat) → Loop V → Except Err (Loop V)
  | _, [], l => .ok l
  | _, [g], l => inplaceLoop c g.1.n l
  | igroup, g :: gs, l => do
    let l ← groupsLoop c (igroup + 1) gs l
    groupStep c igroup g.1 g.2 l

/-- `CompositionOperator.direct`: src/pyoperators/core.py:2328-2396. -/
def compDirect (tol : Nat → Nat → Bool) (ns : List (Node V)) (operation : Option (V → V → V)) (input output : Arr) (s : St V) :
    Except Err (St V) := do
  let preserve := input.id != output.id
  let info ← getInfo (ns.map Node.op) (ns.map Node.sh) input output preserve
  let ou := if input.id = output.id then
      if input.sh.nbytes < output.sh.nbytes then output else input
    else output
  let c : Ctx V := ⟨ns, output, preserve, operation, info.length, tol⟩
  let l ← groupsLoop c 0 info ⟨ns.length, input, input, ou, s⟩
  if decide (2 ≤ info.length) && !preserve && input.id != output.id then remove l.s input else .ok l.s

/-- A composition. The flags are those of src/pyoperators/core.py:2738-2756, but the flag inplace: a composition is not an operand of a composition, and the
calls of the library with an output that is the input are not considered here (C17 is about them). -/
def comp (tol : Nat → Nat → Bool) (ns : List (Node V)) : Node V where
  op := { f := fun v => ns.foldr (fun n x => n.op.f x) v
          inplace := false
          alignedIn := (ns.getLast?.map fun n => n.op.alignedIn).getD false
          alignedOut := (ns.head?.map fun n => n.op.alignedOut).getD false
          contiguousIn := (ns.getLast?.map fun n => n.op.contiguousIn).getD false
          contiguousOut := (ns.head?.map fun n => n.op.contiguousOut).getD false
          usesPool := true
          junk := id
          scribble := id }
  update := (ns.head?.map Node.update).getD false
  sh := (ns.head?.map Node.sh).getD ⟨[], 1⟩
  run := compDirect tol ns

/-! ### Sums -/

/-- `ir.index(False)`: the index of the first operand that is not able to update its output. -/
def firstFalse : List (Node V) → Option Nat
  | [] => none
  | t :: ts => if t.update then (firstFalse ts).map (· + 1) else some 0

/-- `operands[0], operands[index] = operands[index], operands[0]`. -/
def swapFirst (ts : List (Node V)) (index : Nat) : List (Node V) :=
  match ts[0]?, ts[index]? with
  | some a, some b => (ts.set 0 b).set index a
  | _, _ => ts

/-- `ir.count(False)`. -/
def countFalse (ts : List (Node V)) : Nat := (ts.filter (fun t => !t.update)).length

/-- src/pyoperators/core.py:1845-1851: the operands, in the order in which they are applied, and whether a temporary buffer is needed. -/
def schedule (ts : List (Node V)) : List (Node V) × Bool :=
  match firstFalse ts with
  | some index => (swapFirst ts index, decide (1 < countFalse ts))
  | none => (ts, false)

/-- The loop over the operands but the first one: src/pyoperators/core.py:1856-1861. `g` is the operation (iadd or imul). `buf` is None if no temporary
buffer is needed. -/
def sumLoop (g : V → V → V) (x out : Arr) (buf : Option Arr) : List (Node V) → St V → Except Err (St V)
  | [], s => .ok s
  | t :: ts, s => do
    let s ←
      match t.update, buf with
      | true, _ => t.call (some g) x out s
      | false, some b =>
        (t.call none x b s).map
          (fun s => { s with mem := fun z => if z = out.id then g (s.mem out.id) (s.mem b.id) else s.mem z })
      | false, none => .error .value
    sumLoop g x out buf ts s

/-- `CommutativeCompositeOperator.direct`: src/pyoperators/core.py:1839-1862, with `_pool.get_if` of src/pyoperators/memory.py:210-242. -/
def sumDirect (tol : Nat → Nat → Bool) (g : V → V → V) (ts : List (Node V)) (x out : Arr) (s : St V) : Except Err (St V) :=
  if ts.length ≤ 1 then .error .assertion
  else
    match schedule ts with
    | ([], _) => .error .index
    | (t :: rest, need) => do
      let s ← t.call none x out s
      if need then
        let e := extract tol s out.sh.nbytes false false
        let b ← view e.1 out.sh
        let s ← sumLoop g x out (some b) rest e.2
        add s e.1
      else sumLoop g x out none rest s

/-- A sum, or an element-wise product: `g` is the operation. The flags are those of src/pyoperators/core.py:1961-1969. It takes a buffer from the pool if
a temporary buffer is needed or if an operand does. -/
def sum (tol : Nat → Nat → Bool) (g : V → V → V) (ns : List (Node V)) : Node V where
  op := { f := fun v => match ns with
            | [] => v
            | n :: rest => (rest.map fun m => m.op.f v).foldl g (n.op.f v)
          inplace := false
          alignedIn := ns.any fun n => n.op.alignedIn
          alignedOut := ns.any fun n => n.op.alignedOut
          contiguousIn := ns.any fun n => n.op.contiguousIn
          contiguousOut := ns.any fun n => n.op.contiguousOut
          usesPool := (schedule ns).2 || ns.any fun n => n.op.usesPool
          junk := id
          scribble := id }
  update := false
  sh := (ns.head?.map Node.sh).getD ⟨[], 1⟩
  run := fun _ => sumDirect tol g ns

end Verif.Nested
