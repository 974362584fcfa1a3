import Mathlib.Data.List.Basic
import Mathlib.Tactic.Cases

/-
Model of the MPI communicators of the operands of a composition: src/pyoperators/core.py:370-384 (`Operator.propagate_commin` and `propagate_commout`), 1717-1724
(`CompositeOperator.__init__`), 2403-2427 (`CompositionOperator.propagate_commin` and `propagate_commout`), 2689-2690 (the communicators of the composition) and
2779-2785 (`_validate_comm`), and of the operands of sums and blocks: 1737-1768, 1942-1943 and 3168-3169.
The operands are not composite, and no rule applies to them.
-/

namespace Verif.Comm

/-! ### Model -/

/-- A communicator. -/
abbrev Com := Nat

/-- An operand.  The operators that adapt to the communicator override `propagate_commin` and `propagate_commout`: they return an operator that has this communicator on
both sides (like `OpGetComm` in tests/test_mpi_comms.py:66-68, which overrides the first one); for the others the method returns the operator unchanged. -/
structure Op where
  commin : Option Com
  commout : Option Com
  adapts : Bool
deriving DecidableEq

/-- `op.propagate_commin(comm)` and `op.propagate_commout(comm)`; the argument can be None. -/
def Op.propagate (o : Op) (c : Option Com) : Op := if o.adapts then ⟨c, c, false⟩ else o

/-- `commout or commin`: a communicator is true. -/
def orElse (a b : Option Com) : Option Com := if a.isSome then a else b

/-- The loop of `CompositionOperator.propagate_commin`: src/pyoperators/core.py:2403-2414, over the operands from the innermost one; the list is in this order. -/
def loopIn (c : Option Com) : List Op → List Op
  | [] => []
  | o :: ops =>
    if o.commin.isSome then o :: loopIn o.commout ops
    else
      let o' := o.propagate c
      o' :: loopIn (orElse o'.commout c) ops

/-- The loop of `CompositionOperator.propagate_commout`: src/pyoperators/core.py:2416-2427, from the outermost operand. -/
def loopOut (c : Option Com) : List Op → List Op
  | [] => []
  | o :: ops =>
    if o.commout.isSome then o :: loopOut o.commin ops
    else
      let o' := o.propagate c
      o' :: loopOut (orElse o'.commin c) ops

/-- `first_is_not(comms, None)` -/
def firstSome : List (Option Com) → Option Com
  | [] => none
  | some c :: _ => some c
  | none :: cs => firstSome cs

/-- `CompositionOperator._validate_comm`: src/pyoperators/core.py:2779-2785; the operands from the outermost one. -/
def validate : List Op → Bool
  | o1 :: o2 :: ops =>
    (match o1.commin, o2.commout with
      | some a, some b => a == b
      | _, _ => true) && validate (o2 :: ops)
  | _ => true

/-- The composition: its communicators and its operands, from the outermost one; `none` stands for ValueError. -/
def compose (ops : List Op) : Option (Option Com × Option Com × List Op) :=
  if validate ops then
    let commin := firstSome (ops.reverse.map (·.commin))
    let commout := firstSome (ops.map (·.commout))
    let ops := if commin.isSome then (loopIn commin ops.reverse).reverse else ops
    let ops := if commout.isSome then loopOut commout ops else ops
    some (commin, commout, ops)
  else none

/-- `len({id(c) for c in comms}) > 1` is False: src/pyoperators/core.py:1761-1768 -/
def agree (cs : List (Option Com)) : Bool :=
  match firstSome cs with
  | none => true
  | some c => cs.all (fun c' => c' == none || c' == some c)

/-- A sum, a product or a block operator (`CompositeOperator.__init__`, `_validate_comm`, `propagate_commin` and `propagate_commout`): src/pyoperators/core.py:1717-1724,
1737-1751, 1761-1768, 1942-1943 and 3168-3169.  The result is the same as in `compose`. -/
def combine (ops : List Op) : Option (Option Com × Option Com × List Op) :=
  if agree (ops.map (·.commin)) && agree (ops.map (·.commout)) then
    let commin := firstSome (ops.map (·.commin))
    let commout := firstSome (ops.map (·.commout))
    let ops := if commin.isSome then ops.map (·.propagate commin) else ops
    let ops := if commout.isSome then ops.map (·.propagate commout) else ops
    some (commin, commout, ops)
  else none

/-! ### Specification -/

/-- The vectors between the operands are distributed over the communicators `cs` (there is one more than the operands, from the output of the outermost operand to the input
of the innermost one): the operands that specify communicators have these ones, those that specify none leave the communicator unchanged. -/
inductive Consistent : List Op → List Com → Prop where
  | nil (c : Com) : Consistent [] [c]
  | fixed (a b : Com) (x : Bool) (ops : List Op) (cs : List Com) : Consistent ops (b :: cs) → Consistent (⟨some b, some a, x⟩ :: ops) (a :: b :: cs)
  | free (b : Com) (x : Bool) (ops : List Op) (cs : List Com) : Consistent ops (b :: cs) → Consistent (⟨none, none, x⟩ :: ops) (b :: b :: cs)

/-- The operand after the propagation, between the communicators a (output) and b (input): the operators that specify none and adapt have received the communicator. -/
def settled (o : Op) (b : Com) : Op := if o.commin = none ∧ o.adapts then ⟨some b, some b, false⟩ else o

/-- The operands after the propagation. -/
def settledAll : List Op → List Com → List Op
  | o :: ops, _ :: b :: cs => settled o b :: settledAll ops (b :: cs)
  | _, _ => []

/-! ### Proofs -/

/-- The communicator after the loop over the operands, from the innermost one. -/
def after (c : Option Com) : List Op → Option Com
  | [] => c
  | o :: ops => if o.commin.isSome then after o.commout ops else after (orElse (o.propagate c).commout c) ops

theorem loopIn_snoc (l : List Op) (o : Op) : ∀ c, loopIn c (l ++ [o]) = loopIn c l ++ loopIn (after c l) [o] := by
  induction l with
  | nil => intro c; rfl
  | cons o' l ih =>
    intro c
    rw [List.cons_append, loopIn, loopIn, after]
    split
    · rw [ih, List.cons_append]
    · simp only [ih, List.cons_append]

theorem after_snoc (l : List Op) (o : Op) : ∀ c, after c (l ++ [o]) = after (after c l) [o] := by
  induction l with
  | nil => intro c; rfl
  | cons o' l ih =>
    intro c
    simp only [List.cons_append, after]
    split
    · rw [ih]; simp [after]
    · rw [ih]; simp [after]

theorem consistent_last {ops : List Op} {cs : List Com} (h : Consistent ops cs) : ∃ c, cs.getLast? = some c := by
  induction h with
  | nil c => exact ⟨c, rfl⟩
  | fixed a b x ops cs h ih => simpa using ih
  | free b x ops cs h ih => simpa using ih

theorem propagated_in {ops : List Op} {cs : List Com} (h : Consistent ops cs) (c : Com) (hc : cs.getLast? = some c) :
    after (some c) ops.reverse = cs.head? ∧ loopIn (some c) ops.reverse = (settledAll ops cs).reverse := by
  induction h with
  | nil c' =>
    simp at hc
    subst hc
    exact ⟨rfl, rfl⟩
  | fixed a b x ops cs h ih =>
    have ih := ih (by simpa using hc)
    rw [List.reverse_cons, after_snoc, loopIn_snoc, ih.1, ih.2]
    refine ⟨rfl, ?_⟩
    simp [settledAll, settled, loopIn]
  | free b x ops cs h ih =>
    have ih := ih (by simpa using hc)
    rw [List.reverse_cons, after_snoc, loopIn_snoc, ih.1, ih.2]
    cases x
    · exact ⟨rfl, by simp [settledAll, settled, loopIn, Op.propagate]⟩
    · exact ⟨rfl, by simp [settledAll, settled, loopIn, Op.propagate]⟩

theorem settled_consistent {ops : List Op} {cs : List Com} (h : Consistent ops cs) : Consistent (settledAll ops cs) cs := by
  induction h with
  | nil c => exact Consistent.nil c
  | fixed a b x ops cs h ih => exact Consistent.fixed a b x _ cs ih
  | free b x ops cs h ih =>
    cases x
    · exact Consistent.free b false _ cs ih
    · exact Consistent.fixed b b false _ cs ih

theorem out_settled {ops : List Op} {cs : List Com} (h : Consistent ops cs) (hs : ∀ o ∈ ops, o.commin = none → o.adapts = false) (c : Option Com) :
    loopOut c ops = ops := by
  induction h generalizing c with
  | nil c' => rfl
  | fixed a b x ops cs h ih =>
    simp only [loopOut, Option.isSome_some, if_true]
    rw [ih (fun o ho => hs o (by simp [ho]))]
  | free b x ops cs h ih =>
    have hx : x = false := hs ⟨none, none, x⟩ (by simp) rfl
    subst hx
    simp only [loopOut, Option.isSome_none, Bool.false_eq_true, if_false, Op.propagate]
    rw [ih (fun o ho => hs o (by simp [ho]))]

theorem settled_adapts : ∀ (ops : List Op) (cs : List Com), ∀ o ∈ settledAll ops cs, o.commin = none → o.adapts = false
  | [], _, o, h, _ => by simp [settledAll] at h
  | _ :: _, [], o, h, _ => by simp [settledAll] at h
  | _ :: _, [_], o, h, _ => by simp [settledAll] at h
  | o' :: ops, _ :: b :: cs, o, h, hn => by
    simp only [settledAll, List.mem_cons] at h
    rcases h with rfl | h
    · unfold settled at *
      split at hn
      · cases hn
      · rename_i hc
        rw [if_neg hc]
        by_contra ha
        exact hc ⟨hn, by simpa using ha⟩
    · exact settled_adapts ops (b :: cs) o h hn

theorem validate_consistent {ops : List Op} {cs : List Com} (h : Consistent ops cs) : validate ops = true := by
  induction h with
  | nil c => rfl
  | fixed a b x ops cs h ih =>
    cases h with
    | nil _ => rfl
    | fixed _ b' y ops cs h => simp only [validate, beq_self_eq_true, Bool.true_and]; exact ih
    | free _ y ops cs h => simp only [validate, Bool.true_and]; exact ih
  | free b x ops cs h ih =>
    cases h with
    | nil _ => rfl
    | fixed _ b' y ops cs h => simp only [validate, Bool.true_and]; exact ih
    | free _ y ops cs h => simp only [validate, Bool.true_and]; exact ih

theorem firstSome_append (l1 l2 : List (Option Com)) : firstSome (l1 ++ l2) = if (firstSome l1).isSome then firstSome l1 else firstSome l2 := by
  induction l1 with
  | nil => rfl
  | cons c l1 ih =>
    cases c with
    | none => exact ih
    | some c => rfl

theorem first_in {ops : List Op} {cs : List Com} (h : Consistent ops cs) (c : Com) (hc : cs.getLast? = some c) :
    (firstSome (ops.reverse.map (·.commin)) = none ∧ (∀ o ∈ ops, o.commin = none ∧ o.commout = none) ∧ cs.head? = some c) ∨
      firstSome (ops.reverse.map (·.commin)) = some c := by
  induction h with
  | nil c' =>
    simp at hc
    subst hc
    exact Or.inl ⟨rfl, by simp, rfl⟩
  | fixed a b x ops cs h ih =>
    have ih := ih (by simpa using hc)
    rw [List.reverse_cons, List.map_append, firstSome_append]
    rcases ih with ⟨h1, h2, h3⟩ | h1
    · right
      simp at h3
      rw [h1]
      simp [firstSome, h3]
    · right
      rw [h1]
      rfl
  | free b x ops cs h ih =>
    have ih := ih (by simpa using hc)
    rw [List.reverse_cons, List.map_append, firstSome_append]
    rcases ih with ⟨h1, h2, h3⟩ | h1
    · left
      refine ⟨by rw [h1]; rfl, ?_, by simpa using h3⟩
      intro o ho
      rcases List.mem_cons.1 ho with rfl | ho
      · exact ⟨rfl, rfl⟩
      · exact h2 o ho
    · right
      rw [h1]
      rfl

theorem first_out {ops : List Op} {cs : List Com} (h : Consistent ops cs) (hne : firstSome (ops.map (·.commout)) ≠ none) :
    firstSome (ops.map (·.commout)) = cs.head? := by
  induction h with
  | nil c' => exact absurd rfl hne
  | fixed a b x ops cs h ih => rfl
  | free b x ops cs h ih => exact ih hne

theorem firstSome_none (l : List (Option Com)) : firstSome l = none ↔ ∀ c ∈ l, c = none := by
  induction l with
  | nil => simp [firstSome]
  | cons c l ih =>
    cases c with
    | none => simp [firstSome, ih]
    | some c => simp [firstSome]

/-- **C95.** If the communicators of the operands are consistent (with the operands that specify none leaving the communicator unchanged) and one operand specifies them, then the composition has
the communicators of its ends, the operands that specify communicators are unchanged, and those that adapt receive the communicator of the vector they are applied to. -/
theorem C95_partial (ops : List Op) (cs : List Com) (h : Consistent ops cs) (hs : ∃ o ∈ ops, o.commin ≠ none) :
    compose ops = some (cs.getLast?, cs.head?, settledAll ops cs) ∧ Consistent (settledAll ops cs) cs := by
  refine ⟨?_, settled_consistent h⟩
  obtain ⟨c, hc⟩ := consistent_last h
  have hin : firstSome (ops.reverse.map (·.commin)) = some c := by
    rcases first_in h c hc with ⟨h1, h2, _⟩ | h1
    · obtain ⟨o, ho, hn⟩ := hs
      exact absurd (h2 o ho).1 hn
    · exact h1
  have hout : firstSome (ops.map (·.commout)) = cs.head? := by
    apply first_out h
    rw [Ne, firstSome_none]
    intro hall
    obtain ⟨o, ho, hn⟩ := hs
    have key : ∀ {ops : List Op} {cs : List Com}, Consistent ops cs → ∀ o ∈ ops, o.commout = none → o.commin = none := by
      intro ops cs h
      induction h with
      | nil c => simp
      | fixed a b x ops cs h ih =>
        intro o ho h'
        rcases List.mem_cons.1 ho with rfl | ho
        · cases h'
        · exact ih o ho h'
      | free b x ops cs h ih =>
        intro o ho h'
        rcases List.mem_cons.1 ho with rfl | ho
        · rfl
        · exact ih o ho h'
    exact hn (key h o ho (hall _ (List.mem_map.2 ⟨o, ho, rfl⟩)))
  have hp := propagated_in h c hc
  unfold compose
  rw [if_pos (validate_consistent h), hin, hout]
  simp only [Option.isSome_some, if_true, hp.2, List.reverse_reverse, hc]
  split
  · rw [out_settled (settled_consistent h) (settled_adapts ops cs)]
  · rfl

/-- The transpose of the distribution from the communicator 0 to 1, an operator that adapts, one that does not, and the distribution. -/
example : Consistent [⟨some 1, some 0, false⟩, ⟨none, none, true⟩, ⟨none, none, false⟩, ⟨some 0, some 1, false⟩] [0, 1, 1, 1, 0] ∧
    compose [⟨some 1, some 0, false⟩, ⟨none, none, true⟩, ⟨none, none, false⟩, ⟨some 0, some 1, false⟩] =
      some (some 0, some 0, [⟨some 1, some 0, false⟩, ⟨some 1, some 1, false⟩, ⟨none, none, false⟩, ⟨some 0, some 1, false⟩]) := by
  refine ⟨?_, by decide⟩
  exact .fixed _ _ _ _ _ (.free _ _ _ _ (.free _ _ _ _ (.fixed _ _ _ _ _ (.nil _))))

/-- **C95 (rejection).** The compositions of operands that all specify their communicators are accepted if and only if these are consistent.  Missing: operands that specify none
(see `C95_incompatible_fails`). -/
theorem C95_reject_partial (ops : List Op) (hall : ∀ o ∈ ops, o.commin ≠ none ∧ o.commout ≠ none) (hne : ops ≠ []) :
    (∃ r, compose ops = some r) ↔ ∃ cs, Consistent ops cs := by
  constructor
  · rintro ⟨r, hr⟩
    have hv : validate ops = true := by
      unfold compose at hr
      split at hr
      · assumption
      · cases hr
    have key : ∀ (ops : List Op), ops ≠ [] → (∀ o ∈ ops, o.commin ≠ none ∧ o.commout ≠ none) → validate ops = true →
        ∃ o ops', ops = o :: ops' ∧ ∃ a cs, o.commout = some a ∧ Consistent ops (a :: cs) := by
      intro ops
      induction ops with
      | nil => intro h; exact absurd rfl h
      | cons o ops ih =>
        intro _ hall hv
        obtain ⟨cin, cout, x⟩ := o
        obtain ⟨h1, h2⟩ := hall _ (List.mem_cons_self ..)
        obtain ⟨b, hb⟩ := Option.ne_none_iff_exists'.1 h1
        obtain ⟨a, ha⟩ := Option.ne_none_iff_exists'.1 h2
        simp only at ha hb
        subst ha hb
        refine ⟨_, ops, rfl, a, ?_⟩
        cases ops with
        | nil => exact ⟨[b], rfl, .fixed a b x [] [] (.nil b)⟩
        | cons o2 ops =>
          obtain ⟨o2', ops', e, a2, cs, h3, h4⟩ := ih (by simp) (fun o ho => hall o (by simp [ho])) (by
            simp only [validate, Bool.and_eq_true] at hv
            exact hv.2)
          injection e with e1 e2
          subst e1
          simp only [validate, h3, Bool.and_eq_true, beq_iff_eq] at hv
          rw [hv.1]
          exact ⟨a2 :: cs, rfl, .fixed a a2 x _ cs h4⟩
    obtain ⟨_, _, _, a, cs, _, h⟩ := key ops hne hall hv
    exact ⟨_, h⟩
  · rintro ⟨cs, h⟩
    unfold compose
    rw [if_pos (validate_consistent h)]
    exact ⟨_, rfl⟩

example : compose [⟨some 1, some 0, false⟩, ⟨some 0, some 2, false⟩] = none ∧ (compose [⟨some 2, some 0, false⟩, ⟨some 0, some 2, false⟩]).isSome := by decide

/-- **C95 (negation).** The communicators of the operands on both sides of an operand that specifies none are not compared: an operand that adapts receives the communicator of its input and its output goes to an operand with
another communicator. -/
theorem C95_incompatible_fails : ∃ (ops : List Op) (r : Option Com × Option Com × List Op), (∀ cs, ¬ Consistent ops cs) ∧ compose ops = some r ∧
    r.2.2 = [⟨some 1, some 1, false⟩, ⟨some 0, some 0, false⟩, ⟨some 0, some 0, false⟩] ∧ validate r.2.2 = false := by
  refine ⟨[⟨some 1, some 1, false⟩, ⟨none, none, true⟩, ⟨some 0, some 0, false⟩], (some 0, some 1, [⟨some 1, some 1, false⟩, ⟨some 0, some 0, false⟩, ⟨some 0, some 0, false⟩]),
    ?_, by decide, by decide, by decide⟩
  intro cs h
  cases h with
  | fixed a b x ops cs h =>
    cases h with
    | free b x ops cs h => cases h

theorem firstSome_out (l : List Op) (h : ∀ o ∈ l, o.commout = none) (cs : List (Option Com)) : firstSome (l.map (·.commout) ++ cs) = firstSome cs := by
  induction l with
  | nil => rfl
  | cons o l ih =>
    rw [List.map_cons, List.cons_append, h o (by simp)]
    exact ih fun o ho => h o (by simp [ho])

theorem loopOut_free (c : Option Com) (l rest : List Op) (h : ∀ o ∈ l, o.commin = none ∧ o.commout = none) :
    loopOut c (l ++ rest) = l.map (·.propagate c) ++ loopOut c rest := by
  induction l with
  | nil => rfl
  | cons o l ih =>
    obtain ⟨h1, h2⟩ := h o (by simp)
    have hc : orElse (o.propagate c).commin c = c := by
      unfold Op.propagate
      split
      · cases c <;> rfl
      · rw [h1]; rfl
    simp only [List.cons_append, loopOut, h2, Option.isSome_none, Bool.false_eq_true, if_false, hc, List.map_cons]
    rw [ih fun o ho => h o (by simp [ho])]

theorem validate_free (l : List Op) (h : ∀ o ∈ l, o.commin = none) : validate l = true := by
  induction l with
  | nil => rfl
  | cons o l ih =>
    cases l with
    | nil => rfl
    | cons o' l =>
      rw [validate, h o (by simp), ih fun o ho => h o (by simp [ho])]
      rfl

/-- **C95 (partial).** If a single operand specifies a communicator, that of its output, the composition has it and the operands that are applied after it and adapt receive
it; nothing is known about those that are applied before.  Missing: the other operands that specify only one communicator. -/
theorem C95_out_partial (outer inner : List Op) (a : Com) (x : Bool) (ho : ∀ o ∈ outer, o.commin = none ∧ o.commout = none) (hi : ∀ o ∈ inner, o.commin = none ∧ o.commout = none) :
    ∃ outer' inner', compose (outer ++ ⟨none, some a, x⟩ :: inner) = some (none, some a, outer' ++ ⟨none, some a, x⟩ :: inner') ∧
      outer'.length = outer.length ∧ inner'.length = inner.length ∧
      (∀ (i : Nat) (o : Op), outer[i]? = some o → outer'[i]? = some (if o.adapts then ⟨some a, some a, false⟩ else o)) ∧ ∀ o ∈ inner', o.commin = none ∧ o.commout = none := by
  have hfree : ∀ o ∈ outer ++ ⟨none, some a, x⟩ :: inner, o.commin = none := by
    intro o h
    rcases List.mem_append.mp h with h | h
    · exact (ho o h).1
    · rcases List.mem_cons.mp h with rfl | h
      · rfl
      · exact (hi o h).1
  have h1 : firstSome ((outer ++ ⟨none, some a, x⟩ :: inner).reverse.map (·.commin)) = none := by
    generalize hl : (outer ++ ⟨none, some a, x⟩ :: inner).reverse = l
    have : ∀ o ∈ l, o.commin = none := fun o h => hfree o (by rw [← List.mem_reverse, hl]; exact h)
    clear hl
    induction l with
    | nil => rfl
    | cons o l ih => rw [List.map_cons, this o (by simp)]; exact ih fun o ho => this o (by simp [ho])
  have h2 : firstSome ((outer ++ ⟨none, some a, x⟩ :: inner).map (·.commout)) = some a := by
    rw [List.map_append, firstSome_out outer fun o h => (ho o h).2]
    rfl
  have hin : loopOut none inner = inner.map (·.propagate none) := by
    have := loopOut_free none inner [] hi
    rwa [List.append_nil, loopOut, List.append_nil] at this
  refine ⟨outer.map (·.propagate (some a)), inner.map (·.propagate none), ?_, by simp, by simp, ?_, ?_⟩
  · rw [compose, validate_free _ hfree, if_pos rfl]
    simp only [h1, h2, Option.isSome_none, Option.isSome_some, Bool.false_eq_true, if_false, if_true]
    rw [loopOut_free _ _ _ ho, loopOut, Option.isSome_some, if_pos rfl, hin]
  · intro i o h
    rw [List.getElem?_map, h]
    rfl
  · intro o h
    obtain ⟨o', h', rfl⟩ := List.mem_map.mp h
    unfold Op.propagate
    split
    · exact ⟨rfl, rfl⟩
    · exact hi o' h'

example : compose [⟨none, none, true⟩, ⟨none, some 3, false⟩, ⟨none, none, true⟩, ⟨none, none, false⟩] =
    some (none, some 3, [⟨some 3, some 3, false⟩, ⟨none, some 3, false⟩, ⟨none, none, false⟩, ⟨none, none, false⟩]) := by decide

theorem agree_iff (cs : List (Option Com)) : agree cs = true ↔ ∀ a b, some a ∈ cs → some b ∈ cs → a = b := by
  have key : ∀ (l : List (Option Com)) c, firstSome l = some c → some c ∈ l := by
    intro l
    induction l with
    | nil => intro c h; cases h
    | cons x l ih =>
      intro c h
      cases x with
      | none => exact List.mem_cons_of_mem _ (ih c h)
      | some x => injection h with h; rw [h]; exact List.mem_cons_self ..
  unfold agree
  cases h : firstSome cs with
  | none =>
    rw [firstSome_none] at h
    refine ⟨fun _ a b ha _ => ?_, fun _ => rfl⟩
    have := h _ ha
    cases this
  | some c =>
    simp only [List.all_eq_true, Bool.or_eq_true, beq_iff_eq]
    constructor
    · intro hall a b ha hb
      rcases hall _ ha with e | e
      · cases e
      · rcases hall _ hb with e' | e'
        · cases e'
        · injection e with e; injection e' with e'; rw [e, e']
    · intro hall x hx
      cases x with
      | none => exact Or.inl rfl
      | some x => exact Or.inr (by rw [hall x c hx (key cs c h)])

/-- **C95 (sums and blocks, rejection).** A sum (product, block operator) is accepted if and only if all the input communicators that are specified are the same, and all the output ones too. -/
theorem C95_sum_reject (ops : List Op) : (∃ r, combine ops = some r) ↔
    (∀ o ∈ ops, ∀ o' ∈ ops, ∀ a b, o.commin = some a → o'.commin = some b → a = b) ∧
    (∀ o ∈ ops, ∀ o' ∈ ops, ∀ a b, o.commout = some a → o'.commout = some b → a = b) := by
  have e : (∃ r, combine ops = some r) ↔ (agree (ops.map (·.commin)) = true ∧ agree (ops.map (·.commout)) = true) := by
    unfold combine
    rw [← Bool.and_eq_true]
    split
    · simp_all
    · simp_all
  rw [e, agree_iff, agree_iff]
  simp only [List.mem_map]
  constructor
  · rintro ⟨h1, h2⟩
    exact ⟨fun o ho o' ho' a b ha hb => h1 a b ⟨o, ho, ha⟩ ⟨o', ho', hb⟩, fun o ho o' ho' a b ha hb => h2 a b ⟨o, ho, ha⟩ ⟨o', ho', hb⟩⟩
  · rintro ⟨h1, h2⟩
    constructor
    · rintro a b ⟨o, ho, ha⟩ ⟨o', ho', hb⟩
      exact h1 o ho o' ho' a b ha hb
    · rintro a b ⟨o, ho, ha⟩ ⟨o', ho', hb⟩
      exact h2 o ho o' ho' a b ha hb

example : combine [⟨some 0, some 1, false⟩, ⟨none, none, false⟩, ⟨some 0, some 2, false⟩] = none ∧ (combine [⟨some 0, some 1, false⟩, ⟨none, some 1, false⟩]).isSome := by decide

/-- **C95 (sums and blocks).** If the operands of a sum (product, block operator) all have the input and output communicator c, or specify none, and one specifies it, then the sum has the communicator c
and those of its operands that adapt receive it.  Missing: input and output communicators that are different (see `C95_sum_fails`). -/
theorem C95_sum_partial (ops : List Op) (c : Com) (h : ∀ o ∈ ops, (o.commin = some c ∧ o.commout = some c ∧ o.adapts = false) ∨ (o.commin = none ∧ o.commout = none))
    (hs : ∃ o ∈ ops, o.commin = some c) :
    ∃ ops', combine ops = some (some c, some c, ops') ∧ ops'.length = ops.length ∧
      ∀ (i : Nat) (o : Op), ops[i]? = some o → ops'[i]? = some (if o.adapts then ⟨some c, some c, false⟩ else o) := by
  have hv : ∃ r, combine ops = some r := by
    rw [C95_sum_reject]
    constructor
    · intro o ho o' ho' a b ha hb
      rcases h o ho with h1 | h1 <;> rcases h o' ho' with h2 | h2 <;> simp_all
    · intro o ho o' ho' a b ha hb
      rcases h o ho with h1 | h1 <;> rcases h o' ho' with h2 | h2 <;> simp_all
  have key : ∀ (l : List (Option Com)), (∀ x ∈ l, x = none ∨ x = some c) → some c ∈ l → firstSome l = some c := by
    intro l
    induction l with
    | nil => intro _ hm; cases hm
    | cons x l ih =>
      intro hall hm
      rcases hall x (by simp) with rfl | rfl
      · refine ih (fun y hy => hall y (by simp [hy])) ?_
        rcases List.mem_cons.1 hm with e | e
        · cases e
        · exact e
      · rfl
  obtain ⟨o0, ho0, hc0⟩ := hs
  have hin : firstSome (ops.map (·.commin)) = some c := by
    refine key _ ?_ (List.mem_map.2 ⟨o0, ho0, hc0⟩)
    intro x hx
    obtain ⟨o, ho, rfl⟩ := List.mem_map.1 hx
    rcases h o ho with h1 | h1
    · exact Or.inr h1.1
    · exact Or.inl h1.1
  have hout : firstSome (ops.map (·.commout)) = some c := by
    refine key _ ?_ (List.mem_map.2 ⟨o0, ho0, ?_⟩)
    · intro x hx
      obtain ⟨o, ho, rfl⟩ := List.mem_map.1 hx
      rcases h o ho with h1 | h1
      · exact Or.inr h1.2.1
      · exact Or.inl h1.2
    · rcases h o0 ho0 with h1 | h1
      · exact h1.2.1
      · rw [h1.1] at hc0; cases hc0
  obtain ⟨r, hr⟩ := hv
  unfold combine at hr ⊢
  split at hr
  · rename_i hif
    rw [if_pos hif, hin, hout]
    refine ⟨_, rfl, by simp, ?_⟩
    intro i o ho
    simp only [Option.isSome_some, if_true, List.map_map, List.getElem?_map, ho, Option.map_some, Function.comp, Op.propagate]
    cases hx : o.adapts <;> simp [hx]
  · cases hr

example : combine [⟨none, none, true⟩, ⟨some 3, some 3, false⟩, ⟨none, none, false⟩] = some (some 3, some 3, [⟨some 3, some 3, false⟩, ⟨some 3, some 3, false⟩, ⟨none, none, false⟩]) := by decide

/-- **C95 (sums and blocks, negation).** The validation precedes the propagation: in a sum with an operand whose input and output communicators are different, the operand that adapts receives the input communicator on
both sides, and the sum is accepted although the output communicators of its operands are different. -/
theorem C95_sum_fails : ∃ (ops : List Op) (r : Option Com × Option Com × List Op), combine ops = some r ∧
    ∃ o ∈ r.2.2, ∃ o' ∈ r.2.2, ∃ a b, o.commout = some a ∧ o'.commout = some b ∧ a ≠ b :=
  ⟨[⟨some 0, some 1, false⟩, ⟨none, none, true⟩], (some 0, some 1, [⟨some 0, some 1, false⟩, ⟨some 0, some 0, false⟩]), by decide,
    ⟨some 0, some 1, false⟩, by simp, ⟨some 0, some 0, false⟩, by simp, 1, 0, rfl, rfl, by decide⟩

end Verif.Comm
