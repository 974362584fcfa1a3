import Verif.Split.Model
/-
Model of the MPI operator that distributes a global array among the processes.

Arrays are stored flattened in C order: an array of shape (n, s1, ..., sk) is a list of n * (s1*...*sk) items.
Counts and offsets are in items and not in bytes: the code multiplies both by the same item size.
The state of all the processes is given by the list of the local arrays in rank order; `Allgatherv` is the
collective that writes, on every process, the array of rank k at the k-th offset of the receive buffer.
-/

namespace Verif.Split

/-- Counts and offsets: src/pyoperators/operators_mpi.py:56-62; `row` is `np.product(shapein[1:])`.
Returns the counts, and the offsets (the last offset is dropped by `offsets.pop()`). -/
def countsOffsets (row : Nat) : List Slice → Nat → List Nat × List Nat
  | [], _ => ([], [])
  | s :: ss, off =>
    let n := (s.stop - s.start) * row
    let r := countsOffsets row ss (off + n)
    (n :: r.1, off :: r.2)

/-- `direct`: src/pyoperators/operators_mpi.py:75-76 (the slice is the one of :54). `none`: no process. -/
def distDirect {α : Type} (nrow row size rank : Nat) (x : List α) : Option (List α) :=
  (splitRank nrow size rank).map fun s => (x.drop (s.start * row)).take ((s.stop - s.start) * row)

/-- Write the items `chunk` in the buffer `out` from the position `off`; `none` if it does not fit. -/
def writeAt {α : Type} (out : List α) (off : Nat) (chunk : List α) : Option (List α) :=
  if off + chunk.length ≤ out.length then some (out.take off ++ chunk ++ out.drop (off + chunk.length)) else none

/-- `comm.Allgatherv(input, [output, (counts, offsets)])` seen from one process: the k-th local array, which must have
the k-th count of items, is written at the k-th offset. -/
def allgatherv {α : Type} : List (List α) → List Nat → List Nat → List α → Option (List α)
  | [], [], [], out => some out
  | y :: ys, c :: cs, o :: os, out =>
    if y.length = c then (writeAt out o y).bind (allgatherv ys cs os) else none
  | _, _, _, _ => none

/-- `transpose`: src/pyoperators/operators_mpi.py:78-92, with the counts and offsets of :56-62. `out` is the initial
content of the output array and `locals` the list of the inputs of all processes. -/
def distTranspose {α : Type} (nrow row size : Nat) (locals : List (List α)) (out : List α) : Option (List α) :=
  let co := countsOffsets row (split nrow size) 0
  allgatherv locals co.1 co.2 out

/-- `MPIDistributionIdentityOperator.transpose`: src/pyoperators/operators_mpi.py:161-165, an in-place `Allreduce`
with the operation SUM, seen from one process. All the local arrays have the same length. -/
def identTranspose {α : Type} [Add α] : List (List α) → Option (List α)
  | [] => none
  | [y] => some y
  | y :: ys => (identTranspose ys).map fun z => List.zipWith (· + ·) y z

end Verif.Split
