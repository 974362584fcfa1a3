import Mathlib.Tactic.Cases

/-
Model of the construction of rules and of their application to operators: src/pyoperators/rules.py:31-63 (`Rule.__init__`), 78-106 (`_symbol2operator`, `_split_subject`), 156-174 (`UnaryRule`), 220-260 (`BinaryRule`);
and property C100.
-/

namespace Verif.Rules.Apply

/-! ### Model -/

inductive Sym where
  | C | T | H | I | IC | IT | IH
deriving DecidableEq

/-- What can be given as a subject: the text '.', the name of an associated operator, another text, a class of operators, or another object. -/
inductive Subject (Cls : Type) where
  | dot
  | sym (s : Sym)
  | text
  | cls (c : Cls)
  | object
deriving DecidableEq

/-- What the function of a predicate returns: None, an operator, a sequence of operators or something else. -/
inductive Ret (Id : Type) where
  | nothing
  | op (o : Id)
  | seq (l : List Id)
  | bad

/-- What can be given as a predicate: the texts '.', '1' and those of associated operators, another text without or with a brace, a function, or another object. -/
inductive Predicate (Id : Type) where
  | dot
  | one
  | sym (s : Sym)
  | text (brace : Bool)
  | unary (f : Id → Ret Id)
  | binary (f : Id → Id → Ret Id)
  | object

variable {Id Cls : Type}

/-- `_split_subject`: src/pyoperators/rules.py:91-106: the valid subjects. -/
def Subject.valid : Subject Cls → Bool
  | .dot => true
  | .sym _ => true
  | .text => false
  | .cls _ => true
  | .object => false

structure Rule (Id Cls : Type) where
  subjects : List (Subject Cls)
  predicate : Predicate Id
  reference : Nat
  other : Subject Cls

/-- `Rule(subjects, predicate)`: src/pyoperators/rules.py:31-63, 156-164 and 220-225; `none` is TypeError or ValueError. -/
def mk (subjects : List (Subject Cls)) (predicate : Predicate Id) : Option (Rule Id Cls) :=
  if subjects.any (fun s => !s.valid) then none
  else
    match predicate with
    | .object => none
    | .text true => none
    | p =>
      match subjects with
      | [.dot] => none
      | [s] =>
        match p with
        | .dot => some ⟨[s], p, 0, s⟩
        | .one => some ⟨[s], p, 0, s⟩
        | .unary _ => some ⟨[s], p, 0, s⟩
        | .binary _ => some ⟨[s], p, 0, s⟩
        | _ => none
      | [a, .dot] => some ⟨[a, .dot], p, 1, a⟩
      | [a, b] => some ⟨[a, b], p, 0, b⟩
      | _ => none

/-- The operators: their equality (src/pyoperators/core.py:1547-1562), the attributes `_C`, `_T`, `_H` and `_I`, which are None before the associated operators are generated (src/pyoperators/core.py:711-740), and their classes. -/
structure World (Id Cls : Type) where
  same : Id → Id → Bool
  attr : Sym → Id → Option Id
  inst : Id → Cls → Bool
  identity : Id
  homothety : Cls
  zero : Cls

inductive Result (Id : Type) where
  | error
  | nothing
  | ops (l : List Id)
deriving DecidableEq

/-- `_symbol2operator` for the name of an associated operator: src/pyoperators/rules.py:86-89; `none` is ValueError. -/
def World.symbol (w : World Id Cls) (o : Id) : Sym → Option (Option Id)
  | .C => some (w.attr .C o)
  | .T => some (w.attr .T o)
  | .H => some (w.attr .H o)
  | .I => some (w.attr .I o)
  | _ => none

/-- The operator is subject to the rule: src/pyoperators/rules.py:229-236; `none` is ValueError.  An operator is not equal to None. -/
def World.isSubject [DecidableEq Cls] (w : World Id Cls) (reference other : Id) : Subject Cls → Option Bool
  | .dot => some (w.same other reference)
  | .sym s =>
    match w.symbol reference s with
    | none => none
    | some none => some false
    | some (some x) => some (w.same other x)
  | .cls c => some (if c = w.homothety then w.inst other w.homothety || w.inst other w.zero else w.inst other c)
  | _ => none

def Ret.result : Ret Id → Result Id
  | .nothing => .nothing
  | .op o => .ops [o]
  | .seq l => .ops l
  | .bad => .error

/-- `BinaryRule.__call__`: src/pyoperators/rules.py:227-260. -/
def apply [DecidableEq Cls] (w : World Id Cls) (r : Rule Id Cls) (o1 o2 : Id) : Result Id :=
  let reference := if r.reference = 0 then o1 else o2
  let other := if r.reference = 0 then o2 else o1
  match w.isSubject reference other r.other with
  | none => .error
  | some false => .nothing
  | some true =>
    match r.predicate with
    | .dot => .ops [reference]
    | .one => .ops [w.identity]
    | .sym s =>
      match w.symbol reference s with
      | none => .error
      | some none => .nothing
      | some (some x) => .ops [x]
    | .binary f => (f o1 o2).result
    | _ => .error

/-- `UnaryRule.__call__`: src/pyoperators/rules.py:166-174; a function that returns None is an error. -/
def applyUnary (w : World Id Cls) (r : Rule Id Cls) (o : Id) : Option Id :=
  match r.predicate with
  | .dot => some o
  | .one => some w.identity
  | .unary f => match f o with | .op o => some o | _ => none
  | _ => none

/-- What `set_rule` makes of a rule for sums and products: src/pyoperators/core.py:624-627. -/
def commutative (r : Rule Id Cls) : Rule Id Cls :=
  match r.subjects with
  | [a, .dot] => { r with subjects := [.dot, a], reference := 0 }
  | _ => r

/-! ### Specification -/

/-- The operator is in the relation with the reference that the subject describes, given the associated operators. -/
def Described (w : World Id Cls) (assoc : Sym → Id → Id) (reference other : Id) : Subject Cls → Prop
  | .dot => w.same other reference = true
  | .sym s => w.same other (assoc s reference) = true
  | .cls c => w.inst other c = true ∨ (c = w.homothety ∧ w.inst other w.zero = true)
  | _ => False

/-- What the rule stands for. -/
def meaning (w : World Id Cls) (reference o1 o2 : Id) : Predicate Id → Result Id
  | .dot => .ops [reference]
  | .one => .ops [w.identity]
  | .binary f => match f o1 o2 with | .nothing => .nothing | .op o => .ops [o] | .seq l => .ops l | .bad => .error
  | _ => .error

/-- The predicates that are documented. -/
def Documented : Predicate Id → Prop
  | .dot => True
  | .one => True
  | .binary _ => True
  | _ => False

/-- The attributes are the associated operators, or None. -/
def Faithful (w : World Id Cls) (assoc : Sym → Id → Id) : Prop := ∀ s o x, w.attr s o = some x → x = assoc s o

/-! ### Property C100 -/

/-- The subjects, with '.' for the reference on the left or on the right. -/
def sides (right : Bool) (s : Subject Cls) : List (Subject Cls) := if right then [s, .dot] else [.dot, s]

theorem mk_sides (right : Bool) (s : Subject Cls) (p : Predicate Id) (hs : s.valid = true) (hp : Documented p) :
    ∃ r, mk (sides right s) p = some r ∧ r.predicate = p ∧
      ((r.reference = 0 ∧ r.other = s ∧ (right = false ∨ s = .dot)) ∨ (r.reference = 1 ∧ r.other = s ∧ (right = true ∨ s = .dot))) := by
  cases right <;> cases s <;> simp [Subject.valid] at hs <;> cases p <;> simp [Documented] at hp <;> simp [mk, sides, Subject.valid]

theorem isSubject_described [DecidableEq Cls] (w : World Id Cls) (assoc : Sym → Id → Id) (hf : Faithful w assoc) (reference other : Id) (s : Subject Cls) (hs : s.valid = true)
    (hsym : ∀ x, s = .sym x → x ∈ [Sym.C, .T, .H, .I]) :
    ∃ b, w.isSubject reference other s = some b ∧ (b = true → Described w assoc reference other s) ∧
      ((∀ x, s = .sym x → w.attr x reference ≠ none) → Described w assoc reference other s → b = true) := by
  cases s with
  | dot => exact ⟨_, rfl, fun h => h, fun _ h => h⟩
  | text => cases hs
  | object => cases hs
  | cls c =>
    refine ⟨_, rfl, fun h => ?_, fun _ h => ?_⟩
    · by_cases hc : c = w.homothety
      · rw [if_pos hc] at h
        rcases Bool.or_eq_true _ _ ▸ h with h | h
        · exact .inl (hc ▸ h)
        · exact .inr ⟨hc, h⟩
      · rw [if_neg hc] at h
        exact .inl h
    · by_cases hc : c = w.homothety
      · rw [if_pos hc, Bool.or_eq_true]
        rcases h with h | h
        · exact .inl (hc ▸ h)
        · exact .inr h.2
      · rw [if_neg hc]
        rcases h with h | h
        · exact h
        · exact absurd h.1 hc
  | sym x =>
    have hx := hsym x rfl
    have e : w.symbol reference x = some (w.attr x reference) := by
      revert hx
      cases x <;> simp [World.symbol]
    simp only [World.isSubject, e]
    cases ha : w.attr x reference with
    | none => exact ⟨false, rfl, fun h => Bool.noConfusion h, fun h => absurd ha (h x rfl)⟩
    | some y =>
      have := hf x reference y ha
      subst this
      exact ⟨_, rfl, fun h => h, fun _ h => h⟩

theorem meaning_apply [DecidableEq Cls] (w : World Id Cls) (r : Rule Id Cls) (o1 o2 : Id) (hp : Documented r.predicate) :
    apply w r o1 o2 = match w.isSubject (if r.reference = 0 then o1 else o2) (if r.reference = 0 then o2 else o1) r.other with
      | none => .error | some false => .nothing | some true => meaning w (if r.reference = 0 then o1 else o2) o1 o2 r.predicate := by
  simp only [apply]
  cases w.isSubject (if r.reference = 0 then o1 else o2) (if r.reference = 0 then o2 else o1) r.other with
  | none => rfl
  | some b =>
    cases b with
    | false => rfl
    | true =>
      cases hq : r.predicate <;> rw [hq] at hp <;> simp only [Documented] at hp <;> simp only [meaning]
      rename_i f
      cases f o1 o2 <;> rfl

/-- For all operators and documented rules about an operator and its conjugate, transpose, adjoint or inverse, or about a class, the rule is accepted; it is applied to two operators only if they are in the relation that it describes, and then it returns its predicate;
and it is applied to them if the associated operators of the reference have been generated. -/
theorem C100_partial [DecidableEq Cls] (w : World Id Cls) (assoc : Sym → Id → Id) (hf : Faithful w assoc) (right : Bool) (s : Subject Cls) (p : Predicate Id) (hs : s ≠ .text ∧ s ≠ .object) (hdot : s ≠ .dot) (hp : Documented p)
    (hsym : ∀ x, s = .sym x → x ∈ [Sym.C, .T, .H, .I]) : ∃ r, mk (sides right s) p = some r ∧ ∀ o1 o2 : Id,
      let reference := if right then o2 else o1
      let other := if right then o1 else o2
      (¬ Described w assoc reference other s → apply w r o1 o2 = .nothing) ∧
      (apply w r o1 o2 = .nothing ∨ apply w r o1 o2 = meaning w reference o1 o2 p) ∧
      ((∀ x, s = .sym x → w.attr x reference ≠ none) → Described w assoc reference other s → apply w r o1 o2 = meaning w reference o1 o2 p) := by
  have hs : s.valid = true := by
    cases s with
    | text => exact absurd rfl hs.1
    | object => exact absurd rfl hs.2
    | _ => rfl
  obtain ⟨r, hr, hpred, href⟩ := mk_sides right s p hs hp
  refine ⟨r, hr, fun o1 o2 => ?_⟩
  have hsides : (if r.reference = 0 then o1 else o2) = (if right then o2 else o1) ∧ (if r.reference = 0 then o2 else o1) = (if right then o1 else o2) ∧ r.other = s := by
    rcases href with ⟨h0, h1, h2⟩ | ⟨h0, h1, h2⟩
    · rcases h2 with h2 | h2
      · simp [h0, h1, h2]
      · exact absurd h2 hdot
    · rcases h2 with h2 | h2
      · simp [h0, h1, h2]
      · exact absurd h2 hdot
  have ha := meaning_apply w r o1 o2 (hpred ▸ hp)
  rw [hsides.1, hsides.2.1, hsides.2.2, hpred] at ha
  obtain ⟨b, hb, h1, h2⟩ := isSubject_described w assoc hf (if right then o2 else o1) (if right then o1 else o2) s hs hsym
  rw [hb] at ha
  refine ⟨fun h => ?_, ?_, fun h h' => ?_⟩
  · cases b with
    | false => exact ha
    | true => exact absurd (h1 rfl) h
  · cases b with
    | false => exact .inl ha
    | true => exact .inr ha
  · rw [h2 h h'] at ha
    exact ha

/-- In sums and products, in which the reference is the first operator, the rules given with '.' on the left or on the right are applied alike. -/
theorem C100_commutative_partial [DecidableEq Cls] (w : World Id Cls) (assoc : Sym → Id → Id) (hf : Faithful w assoc) (right : Bool) (s : Subject Cls) (p : Predicate Id) (hs : s ≠ .text ∧ s ≠ .object) (hdot : s ≠ .dot) (hp : Documented p)
    (hsym : ∀ x, s = .sym x → x ∈ [Sym.C, .T, .H, .I]) : ∃ r, mk (sides right s) p = some r ∧ ∀ reference other : Id,
      (¬ Described w assoc reference other s → apply w (commutative r) reference other = .nothing) ∧
      (apply w (commutative r) reference other = .nothing ∨ apply w (commutative r) reference other = meaning w reference reference other p) ∧
      ((∀ x, s = .sym x → w.attr x reference ≠ none) → Described w assoc reference other s → apply w (commutative r) reference other = meaning w reference reference other p) := by
  obtain ⟨r', hr', h⟩ := C100_partial w assoc hf false s p hs hdot hp hsym
  have key : ∃ r, mk (sides right s) p = some r ∧ commutative r = r' := by
    revert hr' hp hs hdot
    cases right <;> cases s <;> cases p <;> simp [Documented, mk, sides, Subject.valid] <;> rintro rfl <;> rfl
  obtain ⟨r, hr, e⟩ := key
  exact ⟨r, hr, fun reference other => by rw [e]; exact h reference other⟩

/-- The rule `'.,.'`, of idempotent and involutary operators, is applied to all pairs of equal operators. -/
theorem C100_same [DecidableEq Cls] (w : World Id Cls) (p : Predicate Id) (hp : Documented p) :
    ∃ r, mk [Subject.dot (Cls := Cls), .dot] p = some r ∧ ∀ o1 o2 : Id, apply w r o1 o2 = if w.same o1 o2 then meaning w o2 o1 o2 p else .nothing := by
  have e : mk [Subject.dot (Cls := Cls), .dot] p = some ⟨[.dot, .dot], p, 1, .dot⟩ := by
    revert hp
    cases p <;> simp [Documented, mk, Subject.valid]
  refine ⟨_, e, fun o1 o2 => ?_⟩
  rw [meaning_apply _ _ _ _ (by exact hp)]
  simp only [World.isSubject]
  rw [if_neg (by decide), if_neg (by decide)]
  cases w.same o1 o2 <;> rfl

/-- For all unary rules that are documented: they are accepted for all the associated operators, and return the operator, the identity or the result of the function. -/
theorem C100_unary (w : World Id Cls) (s : Sym) (o : Id) :
    (∃ r, mk [Subject.sym (Cls := Cls) s] (.dot : Predicate Id) = some r ∧ applyUnary w r o = some o) ∧
    (∃ r, mk [Subject.sym (Cls := Cls) s] (.one : Predicate Id) = some r ∧ applyUnary w r o = some w.identity) ∧
    ∀ f : Id → Id, ∃ r, mk [Subject.sym (Cls := Cls) s] (.unary fun o => .op (f o)) = some r ∧ applyUnary w r o = some (f o) :=
  ⟨⟨_, rfl, rfl⟩, ⟨_, rfl, rfl⟩, fun _ => ⟨_, rfl, rfl⟩⟩

/-- Rules are rejected if a subject is neither '.', nor the name of an associated operator, nor a class, if the predicate is not a text or a function, if there are no subjects or more than two, and if the only subject is '.'. -/
theorem C100_rejected (l : List (Subject Cls)) (p : Predicate Id) (h : (.text ∈ l ∨ .object ∈ l) ∨ p = .object ∨ l = [] ∨ 2 < l.length ∨ l = [.dot]) : mk l p = none := by
  rcases h with h | h | h | h | h
  · have : l.any (fun s => !s.valid) = true := List.any_eq_true.2 (by rcases h with h | h <;> exact ⟨_, h, rfl⟩)
    rw [mk.eq_def, if_pos this]
  · subst h
    rw [mk.eq_def]
    split <;> rfl
  · subst h
    cases p with
    | text b => cases b <;> rfl
    | _ => rfl
  · match l, h with
    | a :: b :: c :: l, _ =>
      rw [mk.eq_def]
      split
      · rfl
      · cases p with
        | text brace => cases brace <;> cases a <;> cases b <;> rfl
        | _ => cases a <;> cases b <;> rfl
  · subst h
    cases p with
    | text b => cases b <;> rfl
    | _ => rfl

/-! ### Examples and counterexamples -/

example : mk [Subject.dot (Cls := Nat), .text] (.dot : Predicate Nat) = none ∧ mk [Subject.dot (Cls := Nat), .cls 0, .dot] (.one : Predicate Nat) = none ∧ (mk [Subject.dot (Cls := Nat), .cls 0] (.one : Predicate Nat)).isSome = true :=
  ⟨C100_rejected _ _ (.inl (.inl (by simp))), C100_rejected _ _ (.inr (.inr (.inr (.inl (by simp))))), rfl⟩

/-- Two equal orthogonal operators, 0 and 1, whose transposes are 2 and 3; 4 is the identity. -/
def orthogonal (generated : Bool) : World Nat Nat where
  same := fun a b => a == b || (a == 0 && b == 1) || (a == 1 && b == 0) || (a == 2 && b == 3) || (a == 3 && b == 2)
  attr := fun s o =>
    if s = .T then
      match o with
      | 0 => some 2
      | 2 => some 0
      | 1 => if generated then some 3 else none
      | 3 => if generated then some 1 else none
      | _ => none
    else none
  inst := fun o c => o == 4 && c == 0
  identity := 4
  homothety := 0
  zero := 1

def transposes : Sym → Nat → Nat
  | .T, 0 => 2
  | .T, 1 => 3
  | .T, 2 => 0
  | .T, 3 => 1
  | _, o => o

theorem orthogonal_faithful (g : Bool) : Faithful (orthogonal g) transposes := by
  intro s o x h
  by_cases hs : s = .T
  · subst hs
    match o with
    | 0 => injection h with h; exact h.symm
    | 2 => injection h with h; exact h.symm
    | 1 =>
      cases g with
      | false => cases h
      | true => injection h with h; exact h.symm
    | 3 =>
      cases g with
      | false => cases h
      | true => injection h with h; exact h.symm
    | o + 4 => cases h
  · simp [orthogonal, hs] at h

example : ∃ r, mk (sides true (.sym .T)) .one = some r ∧ apply (orthogonal false) r 2 0 = .ops [4] := by
  obtain ⟨r, hr, h⟩ := C100_partial (orthogonal false) transposes (orthogonal_faithful false) true (.sym .T) .one (by simp) (by simp) trivial (by intro x hx; cases hx; simp)
  exact ⟨r, hr, (h 2 0).2.2 (by intro x hx; cases hx; decide) (by simp only [Described]; decide)⟩

example : ∃ r, mk (sides true (.sym .T)) .one = some r ∧ apply (orthogonal false) (commutative r) 0 2 = .ops [4] := by
  obtain ⟨r, hr, h⟩ := C100_commutative_partial (orthogonal false) transposes (orthogonal_faithful false) true (.sym .T) .one (by simp) (by simp) trivial (by intro x hx; cases hx; simp)
  exact ⟨r, hr, (h 0 2).2.2 (by intro x hx; cases hx; decide) (by simp only [Described]; decide)⟩

example : ∃ r, mk [Subject.dot (Cls := Nat), .dot] .dot = some r ∧ apply (orthogonal false) r 0 1 = .ops [1] := by
  obtain ⟨r, hr, h⟩ := C100_same (orthogonal false) .dot trivial
  exact ⟨r, hr, by rw [h]; decide⟩

/-- The rules about the associated operators are not applied as long as those of the reference have not been generated: for equal orthogonal operators A and B, A.T * B is simplified into the identity only if the attribute B.T has been accessed before. -/
theorem C100_generated_fails : ∃ r, mk (sides true (.sym .T)) .one = some r ∧ Described (orthogonal false) transposes 1 2 (.sym .T) ∧ apply (orthogonal false) r 2 1 = .nothing ∧ apply (orthogonal true) r 2 1 = .ops [4] :=
  ⟨_, rfl, rfl, by decide, by decide⟩

/-- The subjects IC, IT and IH of binary rules are accepted, but all their applications raise ValueError. -/
theorem C100_inverse_fails [DecidableEq Cls] (s : Sym) (hs : s ∈ [Sym.IC, .IT, .IH]) (right : Bool) (p : Predicate Id) (hp : Documented p) :
    ∃ r, mk (sides right (Subject.sym (Cls := Cls) s)) p = some r ∧ ∀ (w : World Id Cls) (o1 o2 : Id), apply w r o1 o2 = .error := by
  obtain ⟨r, hr, -, href⟩ := mk_sides right (Subject.sym (Cls := Cls) s) p rfl hp
  refine ⟨r, hr, fun w o1 o2 => ?_⟩
  have ho : r.other = .sym s := by rcases href with h | h <;> exact h.2.1
  simp only [apply, ho, World.isSubject]
  have : ∀ o, w.symbol o s = none := by
    intro o
    revert hs
    cases s <;> simp [World.symbol]
  rw [this]

/-- A rule without '.' is accepted, although one of the subjects has to be '.', and its first subject is ignored: the rule 'C,T' is applied like '.,T'. Any text is accepted as the predicate of a binary rule, and the error is raised when it is applied. -/
theorem C100_unchecked_fails [DecidableEq Cls] :
    (∀ (p : Predicate Id), Documented p → ∃ r r', mk [Subject.sym (Cls := Cls) .C, .sym .T] p = some r ∧ mk [Subject.dot (Cls := Cls), .sym .T] p = some r' ∧ ∀ w o1 o2, apply w r o1 o2 = apply w r' o1 o2) ∧
    ∃ r, mk [Subject.dot (Cls := Cls), .dot] (.text false : Predicate Id) = some r ∧ ∀ w o1 o2, w.same o1 o2 = true → apply w r o1 o2 = .error := by
  constructor
  · intro p hp
    cases p <;> simp only [Documented] at hp <;> exact ⟨_, _, rfl, rfl, fun w o1 o2 => rfl⟩
  · refine ⟨_, rfl, fun w o1 o2 h => ?_⟩
    simp only [apply, World.isSubject]
    rw [if_neg (by decide), if_neg (by decide), h]

/-- The function of a rule for a class and '.' receives the other operator and the reference, in this order, in a composition, but the reference and the other operator in a sum or a product. -/
theorem C100_swapped_fails [DecidableEq Cls] (c : Cls) (f : Id → Id → Ret Id) :
    ∃ r, mk [.cls c, .dot] (.binary f) = some r ∧ ∀ (w : World Id Cls) (other reference : Id), w.inst other c = true →
      apply w r other reference = (f other reference).result ∧ apply w (commutative r) reference other = (f reference other).result := by
  refine ⟨_, rfl, fun w other reference h => ?_⟩
  have hi : (if c = w.homothety then w.inst other w.homothety || w.inst other w.zero else w.inst other c) = true := by
    by_cases hc : c = w.homothety
    · rw [if_pos hc, ← hc, h, Bool.true_or]
    · rw [if_neg hc, h]
  simp [apply, commutative, World.isSubject, hi]

end Verif.Rules.Apply
