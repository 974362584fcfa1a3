/-
Model of `Operator.set_rule` and `Operator.del_rule`.

`K` is the type of the operator classes, with `issub` for `issubclass`; `O` is the type of the operations; `P` is the
type of the predicates. The validation of the subjects and predicate made by `Rule.__init__` is not modelled: the
subjects are valid by construction. A call with a list of classes is the sequence of the calls for each class, in
reverse order (src/pyoperators/core.py:599-607).
-/

namespace Verif.Rules

/-- A subject: '.', one of the symbols C, T, H, I, IC, IT, IH, or a class: src/pyoperators/rules.py:88-105. -/
inductive Subj (K : Type)
  | self
  | sym (s : Fin 7)
  | cls (k : K)
deriving DecidableEq

/-- The operation to which a rule applies: `None`, a `CommutativeCompositeOperator` subclass, another one. -/
inductive Operation (O : Type)
  | unary
  | commutative (o : O)
  | other (o : O)
deriving DecidableEq

/-- A rule list: `rules[None]`, `rules[operation]`, `rules[operation]['left']`, `rules[operation]['right']`. -/
inductive Slot (O : Type)
  | unary
  | commutative (o : O)
  | left (o : O)
  | right (o : O)
deriving DecidableEq

/-- A rule: one or two subjects and a predicate. -/
structure Rule (K P : Type) where
  subjects : List (Subj K)
  predicate : P

/-- `rule.other`: src/pyoperators/rules.py:224-225. Absent from unary rules. For the rules of a commutative operation it
is the same before and after the exchange of the subjects. -/
def other {K : Type} : List (Subj K) → Option (Subj K)
  | [a, .self] => some a
  | [_, b] => some b
  | _ => none

/-- Choice of the rule list and normalization of the subjects: src/pyoperators/core.py:611-632 for `set_rule` and
688-705 for `del_rule`. `none` for the `ValueError`. -/
def locate {K O : Type} : Operation O → List (Subj K) → Option (Slot O × List (Subj K))
  | .unary, [a] => some (.unary, [a])
  | .unary, _ => none
  | .commutative o, [a, .self] => some (.commutative o, [.self, a])
  | .commutative o, [a, b] => some (.commutative o, [a, b])
  | .commutative _, _ => none
  | .other o, [a, .self] => some (.right o, [a, .self])
  | .other o, [a, b] => some (.left o, [a, b])
  | .other _, _ => none

section
variable {K P : Type} [DecidableEq K]

/-- The class of a rule that matches by class. -/
def clsOf (r : Rule K P) : Option K :=
  match other r.subjects with
  | some (.cls k) => some k
  | _ => none

/-- `rules[index] = rule` where `index` is the one of the first rule with the same subjects; `none` if there is no such
rule: src/pyoperators/core.py:633-641. -/
def override (rules : List (Rule K P)) (r : Rule K P) : Option (List (Rule K P)) :=
  match rules with
  | [] => none
  | x :: xs => if x.subjects = r.subjects then some (r :: xs) else (override xs r).map (fun ys => x :: ys)

/-- `l.index(True)` for `l = [f(x) for x in xs]`; `none` for the `ValueError`. -/
def indexOf {α : Type} (f : α → Bool) : List α → Option Nat
  | [] => none
  | x :: xs => if f x then some 0 else (indexOf f xs).map (· + 1)

/-- `len(l) - l[::-1].index(True)`: one more than the index of the last true item. -/
def afterLast {α : Type} (f : α → Bool) : List α → Option Nat
  | [] => none
  | x :: xs =>
    match afterLast f xs with
    | some n => some (n + 1)
    | none => if f x then some 1 else none

/-- `rules.insert(i, rule)`. -/
def insertAt {α : Type} (l : List α) (i : Nat) (x : α) : List α := l.take i ++ x :: l.drop i

/-- The classes `[r.other for r in rules[index:]]`; `none` if one of them is not a class, in which case `issubclass`
raises `TypeError`. -/
def classes : List (Rule K P) → Option (List K)
  | [] => some []
  | r :: rs =>
    match clsOf r, classes rs with
    | some k, some ks => some (k :: ks)
    | _, _ => none

/-- The list part of `set_rule`: src/pyoperators/core.py:633-671. -/
def setRule (issub : K → K → Bool) (rules : List (Rule K P)) (r : Rule K P) : Option (List (Rule K P)) :=
  match override rules r with
  | some rules' => some rules'
  | none =>
    match clsOf r with
    | none => some (r :: rules)
    | some cls =>
      match indexOf (fun x => (clsOf x).isSome) rules with
      | none => some (rules ++ [r])
      | some index =>
        match classes (rules.drop index) with
        | none => none
        | some ks =>
          let index2 := match indexOf (fun c => issub cls c) ks with
            | some i => i
            | none =>
              match afterLast (fun c => issub c cls) ks with
              | some i => i
              | none => 0
          some (insertAt rules (index + index2) r)

/-- The list part of `del_rule`: src/pyoperators/core.py:706-708; `none` for the `ValueError`. -/
def delRule (rules : List (Rule K P)) (subjects : List (Subj K)) : Option (List (Rule K P)) :=
  match rules with
  | [] => none
  | x :: xs => if x.subjects = subjects then some xs else (delRule xs subjects).map (fun ys => x :: ys)

end

/-- The rule lists of an operator. -/
abbrev Table (K O P : Type) := Slot O → List (Rule K P)

/-- A call to `set_rule` or `del_rule`. -/
inductive RuleOp (K O P : Type)
  | set (operation : Operation O) (subjects : List (Subj K)) (predicate : P)
  | del (operation : Operation O) (subjects : List (Subj K))

variable {K O P : Type} [DecidableEq K] [DecidableEq O]

/-- Replacement of one of the lists. -/
def Table.put (t : Table K O P) (s : Slot O) (l : List (Rule K P)) : Table K O P := fun s' => if s' = s then l else t s'

/-- One call: the new table; `none` if an exception is raised (the table is then unchanged: the lists are only modified
by the last statement of the functions). -/
def ruleStep (issub : K → K → Bool) (t : Table K O P) : RuleOp K O P → Option (Table K O P)
  | .set op subjects pred =>
    match locate op subjects with
    | none => none
    | some (slot, subj) =>
      match setRule issub (t slot) ⟨subj, pred⟩ with
      | none => none
      | some l => some (t.put slot l)
  | .del op subjects =>
    match locate op subjects with
    | none => none
    | some (slot, subj) =>
      match delRule (t slot) subj with
      | none => none
      | some l => some (t.put slot l)

/-- A history of calls, those that raise being caught. -/
def ruleRun (issub : K → K → Bool) (t : Table K O P) (ops : List (RuleOp K O P)) : Table K O P :=
  ops.foldl (fun t op => match ruleStep issub t op with
    | some t' => t'
    | none => t) t

end Verif.Rules
