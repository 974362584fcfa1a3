/-
Model of the control flow of the iterative algorithms: src/pyoperators/iterative/core.py:172-287 (`cont`, `finalize`, `initialize`, `next`,
`restart`, `run`, `_check_stop_conditions`) and src/pyoperators/iterative/stopconditions.py:10-81.
-/

namespace Verif.Iter

/-- How the methods `initialize` and `iteration` of an algorithm end: normally, by raising StopIteration or by raising
AbnormalStopIteration. -/
inductive Signal where
  | go
  | stop
  | abnormal
deriving DecidableEq, Repr

/-- An algorithm.  Its attributes other than niterations are a state s in S. -/
structure Algo (S : Type) where
  /-- The order of the recursion. -/
  order : Nat
  /-- Whether `reuse_initial_state` is set. -/
  reuse : Bool
  /-- `initialize`, after the check of core.py:202-207 and the reset of niterations. -/
  setup : S → S × Signal
  /-- `iteration` -/
  iteration : S → S × Signal
  /-- `_update_variables` -/
  update : S → S
  /-- The normal and abnormal stop conditions, which read niterations and the state. -/
  normal : Nat → S → Bool
  abnormal : Nat → S → Bool

/-- An instance of an algorithm. -/
structure Inst (S : Type) where
  niterations : Nat
  state : S
deriving DecidableEq, Repr

/-- How a call ends: it returns the current solution, or raises StopIteration, AbnormalStopIteration or RuntimeError. -/
inductive End where
  | returned
  | stopIteration
  | abnormalStop
  | runtimeError
deriving DecidableEq, Repr

variable {S : Type}

/-- `_check_stop_conditions`: src/pyoperators/iterative/core.py:277-287. -/
def Algo.check (A : Algo S) (i : Inst S) : Signal :=
  if A.normal i.niterations i.state then .stop
  else if A.abnormal i.niterations i.state then .abnormal
  else .go

/-- The body of the loop of `next`: src/pyoperators/iterative/core.py:228-240.  The callback does not change the algorithm. -/
def Algo.step (A : Algo S) (i : Inst S) : Inst S × Signal :=
  match A.check i with
  | .stop => (i, .stop)
  | .abnormal => (i, .abnormal)
  | .go =>
    match A.iteration i.state with
    | (s, .go) => (⟨i.niterations + 1, A.update s⟩, .go)
    | (s, .stop) => (⟨i.niterations + 1, A.update s⟩, .stop)
    | (s, .abnormal) => (⟨i.niterations + 1, s⟩, .abnormal)

/-- The loop of `next`: src/pyoperators/iterative/core.py:227-240. -/
def Algo.loop (A : Algo S) : Nat → Inst S → Inst S × Signal
  | 0, i => (i, .go)
  | n + 1, i =>
    match A.step i with
    | (j, .go) => A.loop n j
    | r => r

/-- `initialize`: src/pyoperators/iterative/core.py:197-221. -/
def Algo.init (A : Algo S) (i : Inst S) : Option (Inst S × Signal) :=
  if i.niterations > A.order - 1 && A.reuse then none
  else some (⟨A.order - 1, (A.setup i.state).1⟩, (A.setup i.state).2)

/-- How an exception goes through `next`. -/
def Signal.raised : Signal → End
  | .go => .returned
  | .stop => .stopIteration
  | .abnormal => .abnormalStop

/-- `next`: src/pyoperators/iterative/core.py:223-241.  -/
def Algo.next (A : Algo S) (n : Nat) (i : Inst S) : Inst S × End :=
  if i.niterations = A.order - 1 then
    match A.init i with
    | none => (i, .runtimeError)
    | some (j, .go) => ((A.loop n j).1, (A.loop n j).2.raised)
    | some (j, g) => (j, g.raised)
  else ((A.loop n i).1, (A.loop n i).2.raised)

/-- `except StopIteration: pass`: src/pyoperators/iterative/core.py:180-184 and 270-275. -/
def catchStop : Inst S × End → Inst S × End
  | (i, .stopIteration) => (i, .returned)
  | r => r

/-- `np.iinfo(int).max` -/
def maxInt : Nat := 2 ^ 63 - 1

/-- `cont`: src/pyoperators/iterative/core.py:172-184. -/
def Algo.cont (A : Algo S) (i : Inst S) : Inst S × End :=
  if i.niterations = 0 then (i, .runtimeError) else catchStop (A.next maxInt i)

/-- `n or np.iinfo(int).max`: src/pyoperators/iterative/core.py:268. -/
def orMax : Option Nat → Nat
  | none => maxInt
  | some 0 => maxInt
  | some n => n

/-- `run`: src/pyoperators/iterative/core.py:261-275. -/
def Algo.run (A : Algo S) (n : Option Nat) (i : Inst S) : Inst S × End :=
  if i.niterations > A.order - 1 then (i, .runtimeError) else catchStop (A.next (orMax n) i)

/-- `restart`: src/pyoperators/iterative/core.py:256-259. -/
def Algo.restart (A : Algo S) (n : Option Nat) (i : Inst S) : Inst S × End :=
  match A.init i with
  | none => (i, .runtimeError)
  | some (j, .go) => A.run n j
  | some (j, g) => (j, g.raised)

/-! ### Stop conditions -/

/-- The stop conditions: src/pyoperators/iterative/stopconditions.py:10-81.  MaxErrorStopCondition is a condition on the state. -/
inductive Cond (S : Type) where
  | none
  | cond (p : S → Bool)
  | maxIteration (n : Nat)
  | or (c c' : Cond S)

/-- `__call__`: whether it raises StopIteration: src/pyoperators/iterative/stopconditions.py:22-24, 37-39 and 70-76. -/
def Cond.holds : Cond S → Nat → S → Bool
  | .none, _, _ => false
  | .cond p, _, s => p s
  | .maxIteration m, n, _ => n == m
  | .or c c', n, s => c.holds n s || c'.holds n s

/-- `c | c'`: src/pyoperators/iterative/stopconditions.py:26-27 and 49-50. -/
def Cond.union : Cond S → Cond S → Cond S
  | .none, c => c
  | c, c' => .or c c'

end Verif.Iter
