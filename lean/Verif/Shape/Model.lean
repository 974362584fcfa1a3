import Mathlib.Data.List.Basic

/-
Model of the functions on shapes of src/pyoperators/utils/misc.py: `broadcast_shapes` (182-215) and `merge_none` (685-708).
-/

namespace Verif.Shape

/-- The shape of an array. -/
abbrev Shape := List Nat

/-- The results of a function that can fail, for all the elements of a list. -/
def mapOpt {α β : Type} (f : α → Option β) : List α → Option (List β)
  | [] => some []
  | a :: as =>
    match f a, mapOpt f as with
    | some b, some bs => some (b :: bs)
    | _, _ => none

/-- `ndim = max(len(s) for s in shapes)`: src/pyoperators/utils/misc.py:199. -/
def ndim (shapes : List Shape) : Nat := (shapes.map List.length).foldl max 0

/-- `(ndim - len(s)) * [1] + list(s)`: src/pyoperators/utils/misc.py:200. -/
def pad (n : Nat) (s : Shape) : Shape := List.replicate (n - s.length) 1 ++ s

/-- The dimension of the output: src/pyoperators/utils/misc.py:203-214.  `none` is the ValueError. -/
def common (dims : List Nat) : Option Nat :=
  match dims.filter (fun d => d ≠ 1) with
  | [] => some 1
  | d :: ds => if (d :: ds).any (fun e => e ≠ d) then none else some d

/-- `broadcast_shapes`: src/pyoperators/utils/misc.py:182-215.  `none` is the ValueError, also raised by `max` for an empty list of
shapes.  The padded shapes have the same length, so that `zip(*shapes_)` is the list of their columns. -/
def broadcastShapes (shapes : List Shape) : Option Shape :=
  if shapes = [] then none
  else
    let n := ndim shapes
    let padded := shapes.map (pad n)
    mapOpt (fun i => common (padded.map (fun s => s.getD i 1))) (List.range n)

/-- `merge_none` on two tuples: src/pyoperators/utils/misc.py:685-708.  `none` is the ValueError. -/
def mergeNone {α : Type} [DecidableEq α] (a b : List (Option α)) : Option (List (Option α)) :=
  if a.length ≠ b.length then none
  else if (a.zip b).any (fun p => p.1 ≠ none && p.2 ≠ none && p.1 ≠ p.2) then none
  else some ((a.zip b).map (fun p => if p.1 ≠ none then p.1 else p.2))

end Verif.Shape
