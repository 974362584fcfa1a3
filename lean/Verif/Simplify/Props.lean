import Verif.Simplify.Model
import Mathlib.Algebra.BigOperators.Group.List.Basic
import Mathlib.Tactic.Ring
import Mathlib.Tactic.Linarith

/-
Property C14: the simplification of a composition preserves its effect, ends, and leaves no applicable rule.
-/

namespace Verif.Simplify

variable {Op M : Type} [Monoid M]

/-- The effect of a composition of operands, in a monoid of effects. -/
def effect (val : Op → M) (ops : List Op) : M := (ops.map val).prod

/-- Whatever rule of the table is applied, it preserves the effect of the two operands. -/
structure Sound (val : Op → M) (t : Table Op) : Prop where
  act : ∀ o1 o2, ∀ r ∈ t.left o1 ++ t.right o2, ∀ out, r.act o1 o2 = some out →
    match out with
    | .one a => val (t.merge a o1 o2) = val o1 * val o2
    | .two a b => val a * val b = val o1 * val o2
    | .many _ => True

theorem first_mem (t : Table Op) (o1 o2 : Op) (out : Outcome Op) (h : t.first o1 o2 = some out) :
    ∃ r ∈ t.left o1 ++ t.right o2, r.act o1 o2 = some out := by
  obtain ⟨r, hr, ha⟩ := List.exists_of_findSome?_eq_some h
  exact ⟨r, (List.mem_mergeSort).1 hr, ha⟩

theorem split_at {α : Type} (l : List α) (i : Nat) (a b : α) (ha : l[i]? = some a) (hb : l[i + 1]? = some b) :
    ∃ p q, l = p ++ a :: b :: q ∧ p.length = i := by
  obtain ⟨h1, e1⟩ := List.getElem?_eq_some_iff.1 ha
  obtain ⟨h2, e2⟩ := List.getElem?_eq_some_iff.1 hb
  refine ⟨l.take i, l.drop (i + 2), ?_, ?_⟩
  · conv_lhs => rw [← List.take_append_drop i l, List.drop_eq_getElem_cons h1, List.drop_eq_getElem_cons h2, e1, e2]
  · rw [List.length_take]; omega

theorem merge_list {α : Type} (p q : List α) (a b c : α) :
    (((p ++ a :: b :: q).eraseIdx (p.length + 1)).set p.length c) = p ++ c :: q := by
  rw [List.eraseIdx_append_of_length_le (by omega)]
  simp

theorem double_list {α : Type} (p q : List α) (a b c d : α) :
    (((p ++ a :: b :: q).set p.length c).set (p.length + 1) d) = p ++ c :: d :: q := by
  rw [List.set_append_right _ _ (by omega)]
  simp only [Nat.sub_self, List.set_cons_zero]
  rw [List.set_append_right _ _ (by omega)]
  simp

/-- No rule applies to the two operands. -/
def Irreducible (t : Table Op) (o1 o2 : Op) : Prop := ∀ r ∈ t.left o1 ++ t.right o2, r.act o1 o2 = none

theorem first_none (t : Table Op) (o1 o2 : Op) (h : t.first o1 o2 = none) : Irreducible t o1 o2 := by
  intro r hr
  exact List.findSome?_eq_none_iff.1 h r (List.mem_mergeSort.2 hr)

/-- The pairs of consecutive operands from the index `pos` on are irreducible. -/
def Checked (t : Table Op) (s : State Op) : Prop :=
  ∀ j a b, s.pos ≤ j → s.ops[j]? = some a → s.ops[j + 1]? = some b → Irreducible t a b

/-- The outcome of one iteration, in terms of lists. -/
theorem step_cases (t : Table Op) (ops : List Op) (i : Nat) (s : State Op) (h : t.step ops i = .ok s) :
    ∃ p q o1 o2, ops = p ++ o1 :: o2 :: q ∧ p.length = i ∧
      ((t.first o1 o2 = none ∧ s = ⟨ops, i⟩) ∨
       (∃ a b, t.first o1 o2 = some (.two a b) ∧ s.ops = p ++ a :: b :: q ∧
          s.pos = if q = [] then i + 1 else i + 2) ∨
       (∃ a, t.first o1 o2 = some (.one a) ∧ s.ops = p ++ t.merge a o1 o2 :: q ∧
          s.pos = if q = [] then i else i + 1)) := by
  unfold Table.step at h
  split at h
  · rename_i o1 o2 h1 h2
    obtain ⟨p, q, e, hp⟩ := split_at ops i o1 o2 h1 h2
    refine ⟨p, q, o1, o2, e, hp, ?_⟩
    subst hp
    split at h
    · rename_i hf
      cases h
      exact Or.inl ⟨hf, rfl⟩
    · cases h
    · rename_i a b hf
      rw [e] at h
      rw [double_list] at h
      refine Or.inr (Or.inl ⟨a, b, hf, ?_⟩)
      dsimp only at h
      split at h
      · rename_i hlt
        cases h
        refine ⟨rfl, ?_⟩
        cases q with
        | nil => simp at hlt
        | cons => simp
      · rename_i hlt
        cases h
        refine ⟨rfl, ?_⟩
        cases q with
        | nil => simp
        | cons => simp at hlt; omega
    · rename_i a hf
      rw [e] at h
      rw [merge_list] at h
      refine Or.inr (Or.inr ⟨a, hf, ?_⟩)
      dsimp only at h
      split at h
      · rename_i hlt
        cases h
        refine ⟨rfl, ?_⟩
        cases q with
        | nil => simp at hlt
        | cons => simp
      · rename_i hlt
        cases h
        refine ⟨rfl, ?_⟩
        cases q with
        | nil => simp
        | cons => simp at hlt
  · cases h

theorem step_effect (val : Op → M) (t : Table Op) (hs : Sound val t) (ops : List Op) (i : Nat) (s : State Op)
    (h : t.step ops i = .ok s) : effect val s.ops = effect val ops := by
  obtain ⟨p, q, o1, o2, e, _, hc⟩ := step_cases t ops i s h
  rcases hc with ⟨_, rfl⟩ | ⟨a, b, hf, es, _⟩ | ⟨a, hf, es, _⟩
  · rfl
  · obtain ⟨r, hr, ha⟩ := first_mem t o1 o2 _ hf
    have := hs.act o1 o2 r hr _ ha
    dsimp only at this
    rw [es, e]
    simp only [effect, List.map_append, List.map_cons, List.prod_append, List.prod_cons]
    rw [← mul_assoc (val a), ← mul_assoc (val o1), this]
  · obtain ⟨r, hr, ha⟩ := first_mem t o1 o2 _ hf
    have := hs.act o1 o2 r hr _ ha
    dsimp only at this
    rw [es, e]
    simp only [effect, List.map_append, List.map_cons, List.prod_append, List.prod_cons]
    rw [← mul_assoc (val o1), this]

/-- The state of the loop is well formed: the pair to be examined exists. -/
def Valid (s : State Op) : Prop := s.pos + 1 ≤ s.ops.length

theorem step_valid (t : Table Op) (ops : List Op) (i : Nat) (s : State Op)
    (h : t.step ops i = .ok s) : Valid s := by
  obtain ⟨p, q, o1, o2, e, hp, hc⟩ := step_cases t ops i s h
  unfold Valid
  rcases hc with ⟨_, rfl⟩ | ⟨a, b, hf, es, ep⟩ | ⟨a, hf, es, ep⟩
  · simp [e, hp]
  · rw [es, ep]
    cases q <;> simp <;> omega
  · rw [es, ep]
    cases q <;> simp <;> omega

/-- No IndexError. -/
theorem step_no_index (t : Table Op) (ops : List Op) (i : Nat) (h : i + 2 ≤ ops.length) :
    t.step ops i ≠ .error .indexError := by
  unfold Table.step
  split
  · split
    · simp
    · simp
    · dsimp only; split <;> simp
    · dsimp only; split <;> simp
  · rename_i hn
    exact absurd (List.getElem?_eq_getElem (by omega : i + 1 < ops.length))
      (hn _ _ (List.getElem?_eq_getElem (by omega : i < ops.length)))

theorem get_tail {α : Type} (p q : List α) (a : α) (j : Nat) (h : p.length + 1 ≤ j) :
    (p ++ a :: q)[j]? = q[j - p.length - 1]? := by
  rw [List.getElem?_append_right (by omega)]
  obtain ⟨k, hk⟩ : ∃ k, j - p.length = k + 1 := ⟨j - p.length - 1, by omega⟩
  rw [hk, List.getElem?_cons_succ]
  simp

theorem step_checked (t : Table Op) (ops : List Op) (i : Nat) (s : State Op) (h : t.step ops i = .ok s)
    (hc : Checked t ⟨ops, i + 1⟩) : Checked t s := by
  obtain ⟨p, q, o1, o2, e, hp, hcase⟩ := step_cases t ops i s h
  rcases hcase with ⟨hf, rfl⟩ | ⟨a, b, hf, es, ep⟩ | ⟨a, hf, es, ep⟩
  · intro j x y hj hx hy
    change i ≤ j at hj
    rcases Nat.eq_or_lt_of_le hj with rfl | hlt
    · change ops[i]? = some x at hx
      change ops[i + 1]? = some y at hy
      rw [e, ← hp] at hx hy
      simp at hx hy
      subst hx hy
      exact first_none t _ _ hf
    · exact hc j x y hlt hx hy
  · intro j x y hj hx hy
    rw [es] at hx hy
    rw [ep] at hj
    cases q with
    | nil =>
      -- the last pair is examined again
      simp only [if_true] at hj
      exfalso
      have := (List.getElem?_eq_some_iff.1 hy).1
      simp at this
      omega
    | cons z q =>
      simp only [reduceCtorEq, if_false] at hj
      rw [get_tail p _ a j (by omega)] at hx
      rw [get_tail p _ a (j + 1) (by omega)] at hy
      refine hc j x y (by change i + 1 ≤ j; omega) ?_ ?_
      · change ops[j]? = some x
        rw [e, get_tail p _ o1 j (by omega)]
        obtain ⟨k, hk⟩ : ∃ k, j - p.length - 1 = k + 1 := ⟨j - p.length - 2, by omega⟩
        rw [hk] at hx ⊢
        simpa using hx
      · change ops[j + 1]? = some y
        rw [e, get_tail p _ o1 (j + 1) (by omega)]
        obtain ⟨k, hk⟩ : ∃ k, j + 1 - p.length - 1 = k + 1 := ⟨j + 1 - p.length - 2, by omega⟩
        rw [hk] at hy ⊢
        simpa using hy
  · intro j x y hj hx hy
    rw [es] at hx hy
    rw [ep] at hj
    cases q with
    | nil =>
      simp only [if_true] at hj
      exfalso
      have := (List.getElem?_eq_some_iff.1 hy).1
      simp at this
      omega
    | cons z q =>
      simp only [reduceCtorEq, if_false] at hj
      rw [get_tail p _ _ j (by omega)] at hx
      rw [get_tail p _ _ (j + 1) (by omega)] at hy
      refine hc (j + 1) x y (by change i + 1 ≤ j + 1; omega) ?_ ?_
      · change ops[j + 1]? = some x
        rw [e, get_tail p _ o1 (j + 1) (by omega)]
        have : j + 1 - p.length - 1 = (j - p.length - 1) + 1 := by omega
        rw [this]
        simpa using hx
      · change ops[j + 1 + 1]? = some y
        rw [e, get_tail p _ o1 (j + 1 + 1) (by omega)]
        have : j + 1 + 1 - p.length - 1 = (j + 1 - p.length - 1) + 1 := by omega
        rw [this]
        simpa using hy

theorem loop_spec (val : Op → M) (t : Table Op) (hs : Sound val t) (fuel : Nat) (s : State Op) (hv : Valid s)
    (hc : Checked t s) (res : Except Err (List Op)) (h : t.loop fuel s = some res) :
    match res with
    | .ok ops => effect val ops = effect val s.ops ∧ Checked t ⟨ops, 0⟩
    | .error e => e = .notImplemented := by
  induction fuel generalizing s with
  | zero =>
    unfold Table.loop at h
    split at h
    · rename_i hp
      cases h
      refine ⟨rfl, ?_⟩
      intro j x y hj hx hy
      exact hc j x y (by omega) hx hy
    · cases h
  | succ fuel ih =>
    unfold Table.loop at h
    split at h
    · rename_i hp
      cases h
      refine ⟨rfl, ?_⟩
      intro j x y hj hx hy
      exact hc j x y (by omega) hx hy
    · rename_i i hp
      split at h
      · rename_i e he
        cases h
        cases e with
        | notImplemented => rfl
        | indexError =>
          refine absurd he (step_no_index t s.ops i ?_)
          unfold Valid at hv
          omega
      · rename_i s' he
        have h1 := ih s' (step_valid t _ _ _ he) (step_checked t _ _ _ he (by have e : i + 1 = s.pos := hp.symm; rw [e]; exact hc)) h
        have h2 := step_effect val t hs _ _ _ he
        cases res with
        | ok ops => exact ⟨h1.1.trans h2, h1.2⟩
        | error e => exact h1

/-- C14: when every rule in force preserves the effect of the pair of operands it replaces, the operands obtained by
the simplification have the same effect as the operands that were written; no rule applies any more to two consecutive
operands; and the only possible failure is the documented one, a rule returning more than two operands. -/
theorem C14_simplification_effect (val : Op → M) (t : Table Op) (hs : Sound val t) (disabled : Bool) (fuel : Nat)
    (ops : List Op) (res : Except Err (List Op)) (h : t.applyRules disabled fuel ops = some res) :
    match res with
    | .ok ops' => effect val ops' = effect val ops ∧
        (disabled = false → ∀ p q a b, ops' = p ++ a :: b :: q → Irreducible t a b)
    | .error e => e = .notImplemented ∧ disabled = false := by
  unfold Table.applyRules at h
  split at h
  · rename_i hd
    cases h
    exact ⟨rfl, fun h => by rw [h] at hd; cases hd⟩
  · rename_i hd
    split at h
    · rename_i hl
      cases h
      refine ⟨rfl, fun _ p q a b e => ?_⟩
      rw [e] at hl
      simp at hl
      omega
    · rename_i hl
      have h1 := loop_spec val t hs fuel ⟨ops, ops.length - 1⟩ (by unfold Valid; dsimp only; omega)
        (by
          intro j x y hj hx hy
          have := (List.getElem?_eq_some_iff.1 hy).1
          dsimp only at hj this
          omega) res h
      cases res with
      | ok ops' =>
        refine ⟨h1.1, fun _ p q a b e => ?_⟩
        refine h1.2 p.length a b (Nat.zero_le _) ?_ ?_
        · change ops'[p.length]? = some a
          rw [e]; simp
        · change ops'[p.length + 1]? = some b
          rw [e]; simp
      | error e => exact ⟨h1, by simpa using hd⟩

/-- All the rules merge two operands into one. -/
def Merging (t : Table Op) : Prop :=
  ∀ o1 o2, ∀ r ∈ t.left o1 ++ t.right o2, ∀ out, r.act o1 o2 = some out → ∃ a, out = .one a

theorem loop_terminates (t : Table Op) (hm : Merging t) (fuel : Nat) (s : State Op) (hv : Valid s)
    (hf : s.ops.length + s.pos ≤ fuel + 1) : ∃ ops, t.loop fuel s = some (.ok ops) := by
  induction fuel generalizing s with
  | zero =>
    unfold Valid at hv
    unfold Table.loop
    rw [if_pos (by omega)]
    exact ⟨_, rfl⟩
  | succ fuel ih =>
    unfold Table.loop
    split
    · exact ⟨_, rfl⟩
    · rename_i i hp
      unfold Valid at hv
      split
      · rename_i e he
        exfalso
        cases e with
        | indexError => exact step_no_index t s.ops i (by omega) he
        | notImplemented =>
          unfold Table.step at he
          split at he
          · split at he
            · cases he
            · rename_i os hf
              obtain ⟨r, hr, ha⟩ := first_mem t _ _ _ hf
              obtain ⟨a, e⟩ := hm _ _ r hr _ ha
              cases e
            · dsimp only at he; split at he <;> cases he
            · dsimp only at he; split at he <;> cases he
          · cases he
      · rename_i s' he
        obtain ⟨p, q, o1, o2, e, hpl, hcase⟩ := step_cases t _ _ _ he
        refine ih s' (step_valid t _ _ _ he) ?_
        rcases hcase with ⟨_, rfl⟩ | ⟨a, b, hf, es, ep⟩ | ⟨a, hf, es, ep⟩
        · dsimp only; omega
        · obtain ⟨r, hr, ha⟩ := first_mem t _ _ _ hf
          obtain ⟨a, e⟩ := hm _ _ r hr _ ha
          cases e
        · rw [es, ep]
          have hlen : s.ops.length = (p ++ o1 :: o2 :: q).length := by rw [e]
          simp only [List.length_append, List.length_cons] at hlen ⊢
          split <;> omega

/-- C14: when each rule reduces the number of operands, the simplification ends, after at most twice as many
iterations as there are operands. -/
theorem C14_terminates (t : Table Op) (hm : Merging t) (disabled : Bool) (ops : List Op) :
    ∃ ops', t.applyRules disabled (2 * ops.length) ops = some (.ok ops') := by
  unfold Table.applyRules
  split
  · exact ⟨_, rfl⟩
  split
  · exact ⟨_, rfl⟩
  · exact loop_terminates t hm _ _ (by unfold Valid; dsimp only; omega) (by dsimp only; omega)

/-- Non-trivial instance: integers as operands with their product, and the rule that merges two operands when their
product is positive. -/
def intTable : Table Int where
  left _ := [⟨fun _ _ => 0, fun a b => if 0 < a * b then some (.one (a * b)) else none⟩]
  right _ := []
  merge a _ _ := a

theorem intTable_sound : Sound (fun z : Int => z) intTable where
  act := by
    intro o1 o2 r hr out h
    simp only [intTable, List.append_nil, List.mem_singleton] at hr
    subst hr
    dsimp only at h
    split at h
    · cases h
      rfl
    · cases h

theorem intTable_merging : Merging intTable := by
  intro o1 o2 r hr out h
  simp only [intTable, List.append_nil, List.mem_singleton] at hr
  subst hr
  dsimp only at h
  split at h
  · cases h
    exact ⟨_, rfl⟩
  · cases h

example : ∃ ops', intTable.applyRules false 8 [2, -3, -4, 5] = some (.ok ops') ∧
    effect (fun z : Int => z) ops' = effect (fun z : Int => z) [2, -3, -4, 5] := by
  obtain ⟨ops', h⟩ := C14_terminates intTable intTable_merging false [2, -3, -4, 5]
  exact ⟨ops', h, (C14_simplification_effect _ _ intTable_sound _ _ _ _ h).1⟩

/-- C14: a rule that replaces two operands by two operands can make the simplification loop for ever (which the
property does not exclude): no number of iterations is enough. -/
theorem C14_swap_rule_diverges :
    ∃ t : Table Int, Sound (fun z : Int => z) t ∧ ∀ fuel, t.applyRules false fuel [2, 3] = none := by
  let t : Table Int := ⟨fun _ => [⟨fun _ _ => 0, fun a b => some (.two b a)⟩], fun _ => [], fun a _ _ => a⟩
  refine ⟨t, ⟨?_⟩, ?_⟩
  · intro o1 o2 r hr out h
    simp only [t, List.append_nil, List.mem_singleton] at hr
    subst hr
    cases h
    exact mul_comm _ _
  · intro fuel
    have key : ∀ fuel (a b : Int), t.loop fuel ⟨[a, b], 1⟩ = none := by
      intro fuel
      induction fuel with
      | zero => intro a b; rfl
      | succ fuel ih =>
        intro a b
        have hstep : t.step [a, b] 0 = .ok ⟨[b, a], 1⟩ := by
          simp [Table.step, Table.first, Table.rules, t]
        unfold Table.loop
        simp only [hstep]
        exact ih b a
    exact key fuel 2 3

end Verif.Simplify
