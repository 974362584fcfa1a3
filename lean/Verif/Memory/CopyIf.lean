import Verif.Memory.Model

/-
Model of `MemoryPool.copy_if` and of the way in which the block operators use it. Here the contents of the arrays matter:
the memory maps the start address of an array to its contents. Two arrays are taken to share their memory if and only
if they have the same start address, which is the criterion `isalias` of the code (src/pyoperators/utils/misc.py:581);
partial overlaps are not modelled.
-/

namespace Verif.Memory

/-- Contents of the arrays and pool. -/
structure St (V : Type) where
  mem : Nat → V
  pool : Pool

/-- `dst[...] = src`. -/
def assign {V : Type} (mem : Nat → V) (dst src : Nat) : Nat → V := fun a => if a = dst then mem src else mem a

/-- The body of a `with` statement that receives an array. -/
abbrev CBody (V : Type) := Buf → St V → Option Err × St V

/-- The test of `copy_if`: src/pyoperators/memory.py:167-172. -/
def needsCopy (cfg : Config) (v : Buf) (aligned contiguous : Bool) : Bool :=
  let alignment := if aligned then cfg.alignment else 1
  v.addr % alignment != 0 || (contiguous && !v.contiguous)

/-- `with pool.copy_if(v, aligned, contiguous) as b: body(b)`: src/pyoperators/memory.py:158-178. The requirements are
not passed on to `get` (line 173), which is inlined here (src/pyoperators/memory.py:225-229). -/
def copyIf {V : Type} (cfg : Config) (v : Buf) (aligned contiguous : Bool) (address : Nat) (body : CBody V)
    (s : St V) : Option Err × St V :=
  if needsCopy cfg v aligned contiguous then
    let res := extract cfg s.pool ⟨v.shape, v.itemsize, false, false⟩ address
    match view res.1 v.shape v.itemsize with
    | .error e => (some e, { s with pool := res.2 })
    | .ok buf =>
      match body buf { mem := assign s.mem buf.addr v.addr, pool := res.2 } with
      | (some e, s2) => (some e, s2)
      | (none, s2) =>
        match add s2.pool res.1 with
        | .ok p3 => (none, { mem := assign s2.mem v.addr buf.addr, pool := p3 })
        | .error e => (some e, { mem := assign s2.mem v.addr buf.addr, pool := s2.pool })
  else body v s

/-- One iteration of the loops of `BlockSliceOperator.direct` (src/pyoperators/core.py:2138-2147) and
`BlockDiagonalOperator.direct` (src/pyoperators/core.py:3714-3722): the operand acts on a part `i` of the input and on a
part `o` of the output. `a1`, `a2` are the addresses given by the allocator, if it is called. -/
def blockStep {V : Type} (cfg : Config) (i o : Buf) (alignedIn contiguousIn alignedOut contiguousOut : Bool)
    (a1 a2 : Nat) (direct : Buf → CBody V) (s : St V) : Option Err × St V :=
  copyIf cfg i alignedIn contiguousIn a1
    (fun i' => copyIf cfg o alignedOut contiguousOut a2 (fun o' => direct i' o')) s

end Verif.Memory
