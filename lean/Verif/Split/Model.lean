/-
Model of `split` and of the helpers that distribute work among MPI processes.

A slice is a pair (start, stop) of naturals: the step is always None in the modelled code.
Numbers of items, of processes and ranks are naturals (the Python functions are only meaningful for them).
Division by zero is made explicit with `Option`.
-/

namespace Verif.Split

/-- A Python `slice(start, stop)`. -/
structure Slice where
  start : Nat
  stop : Nat
deriving DecidableEq, Repr

/-- `n // m + ((n % m) > rank)`: src/pyoperators/utils/misc.py:891 and :899 (also utils/mpi.py:127 and :161).
`m ≠ 0` is checked by the callers below. -/
def work (n m rank : Nat) : Nat := n / m + (if n % m > rank then 1 else 0)

/-- `split(n, m, rank)`: src/pyoperators/utils/misc.py:890-893. `none` stands for `ZeroDivisionError`. -/
def splitRank (n m rank : Nat) : Option Slice :=
  if m = 0 then none
  else
    let start := n / m * rank + min rank (n % m)
    some ⟨start, start + work n m rank⟩

/-- Body of the generator of `split(n, m)`: src/pyoperators/utils/misc.py:895-902; `rank` and `start` are the local
variables of the generator. With `m = 0` the loop body is never executed. -/
def gen (n m rank start : Nat) : List Slice :=
  if rank < m then
    ⟨start, start + work n m rank⟩ :: gen n m (rank + 1) (start + work n m rank)
  else []
termination_by m - rank

/-- `split(n, m)`: src/pyoperators/utils/misc.py:895-904, as the list of the yielded slices. -/
def split (n m : Nat) : List Slice := gen n m 0 0

/-- `distribute_slice(nglobal, rank, size)`: src/pyoperators/utils/mpi.py:149-164 (rank and size given). -/
def distributeSlice (nglobal rank size : Nat) : Option Slice :=
  if size = 0 then none
  else
    let nlocal := work nglobal size rank
    let start := nglobal / size * rank + min rank (nglobal % size)
    some ⟨start, start + nlocal⟩

/-- `distribute_shape(shape, rank, size)`: src/pyoperators/utils/mpi.py:106-128 (rank and size given, the shape is
already a tuple of ints). `none` stands for the exceptions `ValueError` (scalar shared by several processes) and
`ZeroDivisionError` (no process). -/
def distributeShape (shape : List Nat) (rank size : Nat) : Option (List Nat) :=
  match shape with
  | [] => if size > 1 then none else some []
  | nglobal :: rest => if size = 0 then none else some (work nglobal size rank :: rest)

/-- `distribute_shapes(shape, comm)`: src/pyoperators/utils/mpi.py:131-145. `none` stands for `IndexError` (empty
shape) and `ZeroDivisionError`. -/
def distributeShapes (shape : List Nat) (size : Nat) : Option (List (List Nat)) :=
  match shape with
  | [] => none
  | nglobal :: rest =>
    if size = 0 then none
    else
      let nfirst := nglobal % size
      some (List.replicate nfirst ((nglobal / size + 1) :: rest)
        ++ List.replicate (size - nfirst) ((nglobal / size) :: rest))

/-- `combine_shape(shape, comm)`: src/pyoperators/utils/mpi.py:91-103. The argument is the result of
`comm.allgather(shape)`, i.e. the list of the local shapes in rank order. `none` stands for `ValueError` (the shapes
are incompatible) and `IndexError` (scalar local arrays, or no process). -/
def combineShape (shapes : List (List Nat)) : Option (List Nat) :=
  match shapes with
  | [] => none
  | s0 :: _ =>
    if shapes.any (fun s => s.length != s0.length || s.tail != s0.tail) then none
    else match s0 with
      | [] => none
      | _ :: rest => some ((shapes.map (fun s => s.headD 0)).sum :: rest)

end Verif.Split
