/-
Model of the memory module: aligned allocation, pool of buffers, garbage collection counter.

A buffer (a NumPy array) is described by the address of its first item, its shape, its item size and its C-contiguity
flag; the values are only modelled where a property needs them (`copy_if`). The number of bytes is
`product(shape) * itemsize`, as in NumPy. `config.MEMORY_ALIGNMENT` and `config.MEMORY_TOLERANCE` are parameters, the
latter as a fraction. Messages (`verbose`, `description`) are not modelled.
-/

namespace Verif.Memory

/-- The exceptions raised by the modelled functions. -/
inductive Err
  | valueError
  | bodyError
deriving DecidableEq, Repr

/-- `config.MEMORY_ALIGNMENT` and `config.MEMORY_TOLERANCE` (= `tolNum / tolDen`): src/pyoperators/config.py. -/
structure Config where
  alignment : Nat
  tolNum : Nat
  tolDen : Nat

/-- The part of an ndarray on which the pool depends. -/
structure Buf where
  addr : Nat
  shape : List Nat
  itemsize : Nat
  contiguous : Bool
deriving DecidableEq, Repr

/-- `product`: src/pyoperators/utils/misc.py:786-793. -/
def product (shape : List Nat) : Nat := shape.foldl (fun r x => r * x) 1

/-- `ndarray.nbytes`. -/
def Buf.nbytes (b : Buf) : Nat := product b.shape * b.itemsize

/-- A request for a buffer: arguments shape, dtype (item size), aligned, contiguous of `extract` and `get`. -/
structure Req where
  shape : List Nat
  itemsize : Nat
  aligned : Bool
  contiguous : Bool
deriving DecidableEq, Repr

def Req.nbytes (r : Req) : Nat := product r.shape * r.itemsize

/-- `empty`: src/pyoperators/memory.py:63-77, address part. `address` is the one of the `requested + alignment` bytes
obtained from `np.empty`; the result is the address of the first byte of the returned array. -/
def emptyAddr (alignment address : Nat) : Nat := address + (alignment - address % alignment)

/-- Size of the allocation made by `empty`: src/pyoperators/memory.py:65. -/
def emptyAlloc (alignment requested : Nat) : Nat := requested + alignment

/-- `empty(shape, dtype)`: src/pyoperators/memory.py:25-77. `address` is given by the allocator. For an empty request
(line 37-38) the address is not adjusted. -/
def empty (cfg : Config) (shape : List Nat) (itemsize address : Nat) : Buf :=
  { addr := if product shape * itemsize = 0 then address else emptyAddr cfg.alignment address
    shape := shape
    itemsize := itemsize
    contiguous := true }

/-- `iscompatible(array, shape, dtype, aligned, contiguous, tolerance)`: src/pyoperators/memory.py:102-121. -/
def iscompatible (cfg : Config) (a : Buf) (r : Req) : Bool :=
  if r.aligned && a.addr % cfg.alignment != 0 then false
  else if !a.contiguous then
    if r.contiguous then false
    else a.shape == r.shape && a.itemsize == r.itemsize
  else if r.nbytes = 0 then false
  else decide (a.nbytes ≥ r.nbytes) && decide (a.nbytes * cfg.tolDen ≤ cfg.tolNum * r.nbytes)

abbrev Pool := List Buf

/-- `v.ravel().view(np.int8)` for a contiguous array, the array itself otherwise: src/pyoperators/memory.py:136-137. -/
def flat (v : Buf) : Buf :=
  if v.contiguous then { addr := v.addr, shape := [v.nbytes], itemsize := 1, contiguous := true } else v

/-- Insertion before the first entry that is at least as large: src/pyoperators/memory.py:144-148. -/
def insertSorted (v : Buf) : Pool → Pool
  | [] => [v]
  | x :: xs => if x.nbytes ≥ v.nbytes then v :: x :: xs else x :: insertSorted v xs

/-- `MemoryPool.add`: src/pyoperators/memory.py:132-148 (the argument is an ndarray). -/
def add (p : Pool) (v : Buf) : Except Err Pool :=
  let v := flat v
  if p.any (fun x => x.addr == v.addr) then .error .valueError
  else .ok (insertSorted v p)

/-- First entry satisfying a predicate and the remaining ones: `ifirst` (src/pyoperators/utils/misc.py:418-445)
followed by `pop`. `none` when `ifirst` raises `ValueError`. -/
def popFirst (f : Buf → Bool) : Pool → Option (Buf × Pool)
  | [] => none
  | x :: xs => if f x then some (x, xs) else (popFirst f xs).map fun r => (r.1, x :: r.2)

/-- `MemoryPool.extract`: src/pyoperators/memory.py:180-208. `address` is what the allocator would return if a new
array had to be created. -/
def extract (cfg : Config) (p : Pool) (r : Req) (address : Nat) : Buf × Pool :=
  match popFirst (fun x => iscompatible cfg x r) p with
  | some res => res
  | none => (empty cfg r.shape r.itemsize address, p)

/-- `MemoryPool.remove`: src/pyoperators/memory.py:244-254. -/
def remove (p : Pool) (v : Buf) : Except Err Pool :=
  match popFirst (fun x => x.addr == v.addr) p with
  | some res => .ok res.2
  | none => .error .valueError

/-- `MemoryPool.clear`: src/pyoperators/memory.py:150-156. -/
def clear (_ : Pool) : Pool := []

/-- `v in pool`: src/pyoperators/memory.py:296-307. -/
def contains (p : Pool) (v : Buf) : Bool := p.any (fun x => x.addr == v.addr)

/-- `MemoryPool.view`: src/pyoperators/memory.py:280-294; the slice `buf[:required]` followed by
`view(dtype).reshape(shape)` raises `ValueError` when fewer than `required` bytes are available. -/
def view (buf : Buf) (shape : List Nat) (itemsize : Nat) : Except Err Buf :=
  if buf.contiguous then
    if itemsize * product shape ≤ buf.nbytes then
      .ok { addr := buf.addr, shape := shape, itemsize := itemsize, contiguous := true }
    else .error .valueError
  else if buf.shape == shape && buf.itemsize == itemsize then .ok buf
  else .error .valueError

/-! ### Context managers

A generator-based context manager without `try … finally` runs the code after `yield` only if the body of the `with`
statement returns normally. The body is a function of the pool that either returns normally (`none`) or raises, and in
both cases leaves the pool in a new state. -/

/-- The body of a `with` statement: outcome and pool. -/
abbrev Body := Pool → Option Err × Pool

/-- `with pool.set(v): body`: src/pyoperators/memory.py:256-265. -/
def withSet (v : Buf) (body : Body) : Body := fun p =>
  match add p v with
  | .error e => (some e, p)
  | .ok p1 =>
    match body p1 with
    | (some e, p2) => (some e, p2)
    | (none, p2) =>
      match remove p2 v with
      | .ok p3 => (none, p3)
      | .error e => (some e, p2)

/-- `with pool.set_if(condition, v): body`: src/pyoperators/memory.py:267-278. -/
def withSetIf (condition : Bool) (v : Buf) (body : Body) : Body :=
  if condition then withSet v body else body

/-- `with pool.get(...) as v: body(v)`: src/pyoperators/memory.py:210-229; the body receives the view. -/
def withGet (cfg : Config) (r : Req) (address : Nat) (body : Buf → Body) : Body := fun p =>
  let res := extract cfg p r address
  match view res.1 r.shape r.itemsize with
  | .error e => (some e, res.2)
  | .ok v =>
    match body v res.2 with
    | (some e, p2) => (some e, p2)
    | (none, p2) =>
      match add p2 res.1 with
      | .ok p3 => (none, p3)
      | .error e => (some e, p2)

/-- The part of `Operator.__call__` that gives the user's arrays to the pool during the computation:
src/pyoperators/core.py:462-467. `reuseX` and `reuseOut` are the conditions of lines 453-460. -/
def callSets (reuseX : Bool) (x : Buf) (reuseOut : Bool) (out : Buf) (direct : Body) : Body :=
  withSetIf reuseX x (withSetIf reuseOut out direct)

/-! ### Garbage collection counter -/

/-- State of the module variable `_gc_nbytes_counter` and number of calls to `gc.collect()`. -/
structure Gc where
  counter : Nat
  collections : Nat
deriving DecidableEq, Repr

/-- `garbage_collect(nbytes)`: src/pyoperators/memory.py:347-354; `none` for the default argument. -/
def garbageCollect (threshold : Nat) (s : Gc) (nbytes : Option Nat) : Gc :=
  let nbytes := match nbytes with
    | none => threshold
    | some n => n
  let counter := s.counter + nbytes
  if counter ≥ threshold then ⟨0, s.collections + 1⟩ else ⟨counter, s.collections⟩

end Verif.Memory
