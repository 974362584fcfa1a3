/-
Model of the rule manager: the global dictionary of triggers, the managers and the contexts they provide, and the
parsing of the user file 'rules.txt'.

Python dictionaries are mutable objects: the model has a heap of dictionaries, the global variable `_triggers` and the
attribute `_old_triggers` of a manager are references into that heap. Trigger values are abstract.
-/

namespace Verif.Rules

/-- A dictionary: list of items with distinct keys, in insertion order. -/
abbrev Dict (K V : Type) := List (K × V)

variable {K V : Type} [DecidableEq K]

/-- `d.get(k)`. -/
def dget (d : Dict K V) (k : K) : Option V :=
  match d with
  | [] => none
  | (k', v) :: d => if k' = k then some v else dget d k

/-- `d[k] = v`. -/
def dset (d : Dict K V) (k : K) (v : V) : Dict K V :=
  match d with
  | [] => [(k, v)]
  | (k', v') :: d => if k' = k then (k, v) :: d else (k', v') :: dset d k v

/-- `d.update(items)`. -/
def dupdate (d : Dict K V) (items : Dict K V) : Dict K V := items.foldl (fun d kv => dset d kv.1 kv.2) d

/-- `d.pop(k)` for a key that is present. -/
def dpop (d : Dict K V) (k : K) : Dict K V := d.filter (fun kv => kv.1 ≠ k)

/-- A `RuleManager` instance: attributes `_deferred_triggers` and `_old_triggers` (a reference, absent before the first
`__enter__`): src/pyoperators/rules.py:297-316. -/
structure Mgr (K V : Type) where
  deferred : Dict K V
  old : Option Nat

/-- The state of the module: heap of dictionaries, global variable `_triggers` (a reference), instances. -/
structure RState (K V : Type) where
  heap : List (Dict K V)
  cur : Nat
  mgrs : List (Mgr K V)

/-- The dictionary to which the global variable refers. -/
def RState.triggers (s : RState K V) : Dict K V :=
  match s.heap[s.cur]? with
  | some d => d
  | none => []

/-- In-place modification of the global dictionary. -/
def RState.modify (s : RState K V) (f : Dict K V → Dict K V) : RState K V :=
  { s with heap := s.heap.modify s.cur f }

/-- The defaults: `_default_triggers` and then the content of the user file, src/pyoperators/rules.py:297-301. -/
abbrev Defaults (K V : Type) := Dict K V

/-- `RuleManager()`: src/pyoperators/rules.py:297-301. -/
def construct (defaults : Defaults K V) (s : RState K V) : RState K V :=
  let s1 := if s.triggers.isEmpty then s.modify (fun d => dupdate d defaults) else s
  { s1 with mgrs := s1.mgrs ++ [⟨[], none⟩] }

/-- `manager(**keywords)`: src/pyoperators/rules.py:303-308. `none` for the `KeyError`. -/
def call (s : RState K V) (m : Nat) (keywords : Dict K V) : Option (RState K V) :=
  if keywords.all (fun kv => (dget s.triggers kv.1).isSome) then
    some { s with mgrs := s.mgrs.modify m (fun x => { x with deferred := keywords }) }
  else none

/-- `manager.__enter__()`: src/pyoperators/rules.py:310-313; the new manager has the index `s.mgrs.length`. -/
def enter (defaults : Defaults K V) (s : RState K V) (m : Nat) : RState K V :=
  match s.mgrs[m]? with
  | none => s
  | some x =>
    let s1 : RState K V :=
      { s with
        heap := s.heap ++ [s.triggers]
        mgrs := s.mgrs.modify m (fun x => { x with old := some s.heap.length }) }
    let s2 := s1.modify (fun d => dupdate d x.deferred)
    construct defaults s2

/-- `manager.__exit__(...)`: src/pyoperators/rules.py:315-318. -/
def exit (s : RState K V) (m : Nat) : RState K V :=
  match s.mgrs[m]? with
  | some x =>
    match x.old with
    | some r => { s with cur := r }
    | none => s
  | none => s

/-- Programs using the rule manager. `withM m kw body` is `with m(**kw) as n: body(n)`; `withBare m body` is
`with m as n: body(n)`; a number that is not the one of a manager is an undefined name. An exception ends the sequence it occurs in unless it is caught. -/
inductive Prog (K V : Type)
  | skip
  | raise
  | seq (p q : Prog K V)
  | tryCatch (p q : Prog K V)
  | setItem (k : K) (v : V)
  | register (k : K) (v : V)
  | update (items : Dict K V)
  | pop (k : K)
  | clear
  | withM (m : Nat) (kw : Dict K V) (body : Nat → Prog K V)
  | withBare (m : Nat) (body : Nat → Prog K V)

/-- Execution: the Boolean tells whether an exception is raised. `__setitem__` (src/pyoperators/rules.py:323-326) and
`pop` (line 365-367) raise `KeyError` for an unknown key; `register` (373-382), `update` (384-386), `clear` (345-347)
modify the global dictionary. The `with` statement calls `__exit__` in all cases, and `__exit__` returns `False`: the
exception propagates. -/
def exec (defaults : Defaults K V) : Prog K V → RState K V → Bool × RState K V
  | .skip, s => (false, s)
  | .raise, s => (true, s)
  | .seq p q, s =>
    match exec defaults p s with
    | (true, s1) => (true, s1)
    | (false, s1) => exec defaults q s1
  | .tryCatch p q, s =>
    match exec defaults p s with
    | (true, s1) => exec defaults q s1
    | (false, s1) => (false, s1)
  | .setItem k v, s =>
    if (dget s.triggers k).isSome then (false, s.modify (fun d => dset d k v)) else (true, s)
  | .register k v, s => (false, s.modify (fun d => dset d k v))
  | .update items, s => (false, s.modify (fun d => dupdate d items))
  | .pop k, s => if (dget s.triggers k).isSome then (false, s.modify (fun d => dpop d k)) else (true, s)
  | .clear, s => (false, s.modify (fun _ => []))
  | .withM m kw body, s =>
    if m < s.mgrs.length then
      match call s m kw with
      | none => (true, s)
      | some s1 =>
        let r := exec defaults (body s1.mgrs.length) (enter defaults s1 m)
        (r.1, exit r.2 m)
    else (true, s)
  | .withBare m body, s =>
    if m < s.mgrs.length then
      let r := exec defaults (body s.mgrs.length) (enter defaults s m)
      (r.1, exit r.2 m)
    else (true, s)

/-- The state after the import of the module: one manager, `rule_manager`, with index 0: rules.py:14 and 437. -/
def initState (defaults : Defaults K V) : RState K V := construct defaults ⟨[[]], 0, []⟩

/-! ### The user file -/

/-- Whitespace removed by `str.strip()` (ASCII part). -/
def isWs (c : Char) : Bool := c = ' ' || c = '\t' || c = '\n' || c = '\r' || c = '\x0b' || c = '\x0c'

/-- `str.lstrip()`. -/
def lstrip (s : List Char) : List Char := s.dropWhile isWs

/-- `str.rstrip()`. -/
def rstrip (s : List Char) : List Char := (s.reverse.dropWhile isWs).reverse

/-- `str.strip()`. -/
def strip (s : List Char) : List Char := rstrip (lstrip s)

/-- `index = s.index(c)` followed by `s[:index]` and `s[index + 1:]`; `none` for the `ValueError`. -/
def splitFirst (c : Char) : List Char → Option (List Char × List Char)
  | [] => none
  | x :: xs => if x = c then some ([], xs) else (splitFirst c xs).map fun r => (x :: r.1, r.2)

/-- The outcome of the processing of one line. -/
inductive Line (V : Type)
  | blank
  | warnNoRule
  | warnEval
  | assign (key : List Char) (value : V)

/-- Removal of the comment: src/pyoperators/rules.py:407-412. -/
def stripComment (line : List Char) : List Char :=
  match splitFirst '#' line with
  | none => line
  | some r => rstrip r.1

/-- Processing of one line: src/pyoperators/rules.py:405-434. `ev` is `eval(value, {})`, `none` if it raises; `lower` is
`str.lower`. -/
def parseLine (lower : List Char → List Char) (ev : List Char → Option V) (line0 : List Char) : Line V :=
  let line := stripComment (strip line0)
  match splitFirst '=' line with
  | none => if line.isEmpty then .blank else .warnNoRule
  | some r =>
    let key := lower (rstrip r.1)
    match ev (lstrip r.2) with
    | none => .warnEval
    | some v => .assign key v

/-- Reading of the file: src/pyoperators/rules.py:395-435. -/
def readFile (lower : List Char → List Char) (ev : List Char → Option V) (lines : List (List Char))
    (d : Dict (List Char) V) : Dict (List Char) V :=
  lines.foldl (fun d line =>
    match parseLine lower ev line with
    | .assign k v => dset d k v
    | _ => d) d

end Verif.Rules
