import Verif.Compose.Model

/-
Model of the evaluation of a sum or of an element-wise product of operators:
`CommutativeCompositeOperator.direct` (src/pyoperators/core.py:1839-1862).  The memory, the pool and the operands are
those of the model of compositions (Verif/Compose/Model.lean).
-/

namespace Verif.Sum

open Verif.Compose

variable {V : Type}

/-- An operand of a sum: `update` is the flag update_output. -/
structure Term (V : Type) where
  op : Opd V
  update : Bool

/-- `ir.index(False)`: the index of the first operand that is not able to update its output. -/
def firstFalse : List (Term V) → Option Nat
  | [] => none
  | t :: ts => if t.update then (firstFalse ts).map (· + 1) else some 0

/-- `operands[0], operands[index] = operands[index], operands[0]`. -/
def swapFirst (ts : List (Term V)) (index : Nat) : List (Term V) :=
  match ts[0]?, ts[index]? with
  | some a, some b => (ts.set 0 b).set index a
  | _, _ => ts

/-- `ir.count(False)`. -/
def countFalse (ts : List (Term V)) : Nat := (ts.filter (fun t => !t.update)).length

/-- src/pyoperators/core.py:1845-1851: the operands, in the order in which they are applied, and whether a temporary buffer
is needed. -/
def schedule (ts : List (Term V)) : List (Term V) × Bool :=
  match firstFalse ts with
  | some index => (swapFirst ts index, decide (1 < countFalse ts))
  | none => (ts, false)

/-- The loop over the operands but the first one: src/pyoperators/core.py:1856-1861.  `g` is the operation (iadd or imul).
`buf` is None if no temporary buffer is needed. -/
def loop (g : V → V → V) (x out : Arr) (buf : Option Arr) : List (Term V) → St V → Except Err (St V)
  | [], s => .ok s
  | t :: ts, s => do
    let s ←
      match t.update, buf with
      | true, _ => exec t.op (some g) x out s
      | false, some b =>
        (exec t.op none x b s).map
          (fun s => { s with mem := fun z => if z = out.id then g (s.mem out.id) (s.mem b.id) else s.mem z })
      | false, none => .error .value
    loop g x out buf ts s

/-- `direct`: src/pyoperators/core.py:1839-1862, with `_pool.get_if` of src/pyoperators/memory.py:210-242. -/
def direct (tol : Nat → Nat → Bool) (g : V → V → V) (ts : List (Term V)) (x out : Arr) (s : St V) :
    Except Err (St V) :=
  if ts.length ≤ 1 then .error .assertion
  else
    match schedule ts with
    | ([], _) => .error .index
    | (t :: rest, need) => do
      let s ← exec t.op none x out s
      if need then
        let e := extract tol s out.sh.nbytes false false
        let b ← view e.1 out.sh
        let s ← loop g x out (some b) rest e.2
        add s e.1
      else loop g x out none rest s

end Verif.Sum
