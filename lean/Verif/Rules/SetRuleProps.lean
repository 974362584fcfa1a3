import Verif.Rules.SetRule
import Mathlib.Data.List.Pairwise
import Mathlib.Data.List.Perm.Basic

/-
Property C42.
-/

namespace Verif.Rules

set_option linter.unusedSectionVars false

/-- A class hierarchy: `issubclass` is an order. -/
structure Hierarchy {K : Type} (issub : K → K → Bool) : Prop where
  refl : ∀ a, issub a a = true
  trans : ∀ a b c, issub a b = true → issub b c = true → issub a c = true
  antisymm : ∀ a b, issub a b = true → issub b a = true → a = b

section
variable {K P : Type} [DecidableEq K]

/-- `x` may come before `y`: a rule by class does not precede another kind of rule, and the rule of a class does not
precede the one of a proper subclass. -/
def MayPrecede (issub : K → K → Bool) (x y : Rule K P) : Prop :=
  ∀ kx, clsOf x = some kx → ∃ ky, clsOf y = some ky ∧ (issub ky kx = true → ky = kx)

/-- The invariant of a rule list. -/
structure ListInv (issub : K → K → Bool) (l : List (Rule K P)) : Prop where
  nodup : (l.map Rule.subjects).Nodup
  order : l.Pairwise (MayPrecede issub)

/-- The predicate of the rule with given subjects. -/
def lookup (l : List (Rule K P)) (s : List (Subj K)) : Option P :=
  (l.find? (fun r => r.subjects = s)).map Rule.predicate

theorem override_some {rules rules' : List (Rule K P)} {r : Rule K P} (h : override rules r = some rules') :
    ∃ a x b, rules = a ++ x :: b ∧ rules' = a ++ r :: b ∧ x.subjects = r.subjects ∧ ∀ y ∈ a, y.subjects ≠ r.subjects := by
  induction rules generalizing rules' with
  | nil => simp [override] at h
  | cons x xs ih =>
    unfold override at h
    split at h <;> rename_i hx
    · obtain rfl := Option.some.inj h
      exact ⟨[], x, xs, rfl, rfl, hx, by simp⟩
    · obtain ⟨ys, hy, rfl⟩ := Option.map_eq_some_iff.mp h
      obtain ⟨a, y, b, rfl, rfl, h3, h4⟩ := ih hy
      refine ⟨x :: a, y, b, rfl, rfl, h3, ?_⟩
      intro z hz
      rcases List.mem_cons.mp hz with rfl | hz
      · exact hx
      · exact h4 z hz

theorem override_none {rules : List (Rule K P)} {r : Rule K P} (h : override rules r = none) :
    ∀ y ∈ rules, y.subjects ≠ r.subjects := by
  induction rules with
  | nil => simp
  | cons x xs ih =>
    unfold override at h
    split at h <;> rename_i hx
    · simp at h
    · intro y hy
      rcases List.mem_cons.mp hy with rfl | hy
      · exact hx
      · exact ih (by simpa using h) y hy

theorem delRule_some {rules rules' : List (Rule K P)} {s : List (Subj K)} (h : delRule rules s = some rules') :
    ∃ a x b, rules = a ++ x :: b ∧ rules' = a ++ b ∧ x.subjects = s ∧ ∀ y ∈ a, y.subjects ≠ s := by
  induction rules generalizing rules' with
  | nil => simp [delRule] at h
  | cons x xs ih =>
    unfold delRule at h
    split at h <;> rename_i hx
    · obtain rfl := Option.some.inj h
      exact ⟨[], x, xs, rfl, rfl, hx, by simp⟩
    · obtain ⟨ys, hy, rfl⟩ := Option.map_eq_some_iff.mp h
      obtain ⟨a, y, b, rfl, rfl, h3, h4⟩ := ih hy
      refine ⟨x :: a, y, b, rfl, rfl, h3, ?_⟩
      intro z hz
      rcases List.mem_cons.mp hz with rfl | hz
      · exact hx
      · exact h4 z hz

theorem delRule_none {rules : List (Rule K P)} {s : List (Subj K)} (h : delRule rules s = none) :
    ∀ y ∈ rules, y.subjects ≠ s := by
  induction rules with
  | nil => simp
  | cons x xs ih =>
    unfold delRule at h
    split at h <;> rename_i hx
    · simp at h
    · intro y hy
      rcases List.mem_cons.mp hy with rfl | hy
      · exact hx
      · exact ih (by simpa using h) y hy

theorem indexOf_some {α : Type} {f : α → Bool} {l : List α} {i : Nat} (h : indexOf f l = some i) :
    ∃ a x b, l = a ++ x :: b ∧ a.length = i ∧ f x = true ∧ ∀ y ∈ a, f y = false := by
  induction l generalizing i with
  | nil => simp [indexOf] at h
  | cons x xs ih =>
    unfold indexOf at h
    split at h <;> rename_i hx
    · obtain rfl := Option.some.inj h
      exact ⟨[], x, xs, rfl, rfl, hx, by simp⟩
    · obtain ⟨j, hj, rfl⟩ := Option.map_eq_some_iff.mp h
      obtain ⟨a, y, b, rfl, h2, h3, h4⟩ := ih hj
      refine ⟨x :: a, y, b, rfl, by simp [h2], h3, ?_⟩
      intro z hz
      rcases List.mem_cons.mp hz with rfl | hz
      · simpa using hx
      · exact h4 z hz

theorem indexOf_none {α : Type} {f : α → Bool} {l : List α} (h : indexOf f l = none) : ∀ y ∈ l, f y = false := by
  induction l with
  | nil => simp
  | cons x xs ih =>
    unfold indexOf at h
    split at h <;> rename_i hx
    · simp at h
    · intro y hy
      rcases List.mem_cons.mp hy with rfl | hy
      · simpa using hx
      · exact ih (by simpa using h) y hy

theorem afterLast_none {α : Type} {f : α → Bool} {l : List α} (h : afterLast f l = none) : ∀ y ∈ l, f y = false := by
  induction l with
  | nil => simp
  | cons x xs ih =>
    unfold afterLast at h
    split at h
    · simp at h
    · rename_i hn
      split at h <;> rename_i hx
      · simp at h
      · intro y hy
        rcases List.mem_cons.mp hy with rfl | hy
        · simpa using hx
        · exact ih hn y hy

theorem afterLast_some {α : Type} {f : α → Bool} {l : List α} {i : Nat} (h : afterLast f l = some i) :
    i ≤ l.length ∧ ∀ y ∈ l.drop i, f y = false := by
  induction l generalizing i with
  | nil => simp [afterLast] at h
  | cons x xs ih =>
    unfold afterLast at h
    split at h
    · rename_i n hn
      obtain rfl := Option.some.inj h
      have := ih hn
      exact ⟨by simp [this.1], by simpa using this.2⟩
    · rename_i hn
      split at h
      · obtain rfl := Option.some.inj h
        exact ⟨by simp, by simpa using afterLast_none hn⟩
      · simp at h

theorem classes_some {l : List (Rule K P)} {ks : List K} (h : classes l = some ks) :
    l.map clsOf = ks.map some := by
  induction l generalizing ks with
  | nil => simp only [classes, Option.some.injEq] at h; subst h; rfl
  | cons r rs ih =>
    unfold classes at h
    split at h
    · rename_i k ks' hk hks
      obtain rfl := Option.some.inj h
      simp [hk, ih hks]
    · simp at h

theorem classes_isSome {l : List (Rule K P)} (h : ∀ r ∈ l, ∃ k, clsOf r = some k) : ∃ ks, classes l = some ks := by
  induction l with
  | nil => exact ⟨[], rfl⟩
  | cons r rs ih =>
    obtain ⟨k, hk⟩ := h r (by simp)
    obtain ⟨ks, hks⟩ := ih (fun r hr => h r (by simp [hr]))
    exact ⟨k :: ks, by simp [classes, hk, hks]⟩

/-- Insertion of a rule in an ordered list. -/
theorem insert_order {issub : K → K → Bool} {a b : List (Rule K P)} {r : Rule K P}
    (h : (a ++ b).Pairwise (MayPrecede issub)) (ha : ∀ x ∈ a, MayPrecede issub x r)
    (hb : ∀ y ∈ b, MayPrecede issub r y) : (a ++ r :: b).Pairwise (MayPrecede issub) := by
  rw [List.pairwise_append] at h ⊢
  refine ⟨h.1, List.pairwise_cons.mpr ⟨hb, h.2.1⟩, ?_⟩
  intro x hx y hy
  rcases List.mem_cons.mp hy with rfl | hy
  · exact ha x hx
  · exact h.2.2 x hx y hy

/-- Outcome of `setRule` on a list that satisfies the invariant: it never raises; either the rule with the same subjects
is replaced, or the rule is inserted somewhere. The invariant is preserved. -/
theorem setRule_spec {issub : K → K → Bool} (hh : Hierarchy issub) {l : List (Rule K P)} (hl : ListInv issub l)
    (r : Rule K P) :
    ∃ l', setRule issub l r = some l' ∧ ListInv issub l' ∧
      ((∃ a x b, l = a ++ x :: b ∧ l' = a ++ r :: b ∧ x.subjects = r.subjects) ∨
       ((∀ y ∈ l, y.subjects ≠ r.subjects) ∧ ∃ a b, l = a ++ b ∧ l' = a ++ r :: b)) := by
  have nodup_insert : ∀ a b : List (Rule K P), l = a ++ b → (∀ y ∈ l, y.subjects ≠ r.subjects) →
      ((a ++ r :: b).map Rule.subjects).Nodup := by
    intro a b hab hne
    have hp : (a ++ r :: b).Perm (r :: (a ++ b)) := List.perm_middle
    rw [(hp.map Rule.subjects).nodup_iff, ← hab]
    simp only [List.map_cons, List.nodup_cons, List.mem_map, not_exists, not_and]
    exact ⟨fun y hy => hne y hy, hl.nodup⟩
  unfold setRule
  cases ho : override l r with
  | some l' =>
    obtain ⟨a, x, b, rfl, rfl, hs, _⟩ := override_some ho
    refine ⟨a ++ r :: b, rfl, ⟨?_, ?_⟩, Or.inl ⟨a, x, b, rfl, rfl, hs⟩⟩
    · have := hl.nodup
      simp only [List.map_append, List.map_cons, hs] at this
      simpa using this
    · have hcls : clsOf r = clsOf x := by unfold clsOf; rw [hs]
      have hord := hl.order
      rw [List.pairwise_append, List.pairwise_cons] at hord
      refine insert_order ?_ ?_ ?_
      · rw [List.pairwise_append]
        exact ⟨hord.1, hord.2.1.2, fun y hy z hz => hord.2.2 y hy z (by simp [hz])⟩
      · intro y hy
        have := hord.2.2 y hy x (by simp)
        unfold MayPrecede at this ⊢
        rw [hcls]; exact this
      · intro y hy
        have := hord.2.1.1 y hy
        unfold MayPrecede at this ⊢
        rw [hcls]; exact this
  | none =>
    have hne := override_none ho
    simp only
    cases hc : clsOf r with
    | none =>
      refine ⟨r :: l, rfl, ⟨?_, ?_⟩, Or.inr ⟨hne, [], l, rfl, rfl⟩⟩
      · exact nodup_insert [] l rfl hne
      · refine List.pairwise_cons.mpr ⟨?_, hl.order⟩
        intro y _ kx hkx
        rw [hc] at hkx; simp at hkx
    | some cls =>
      simp only
      cases hi : indexOf (fun x => (clsOf x).isSome) l with
      | none =>
        have hall := indexOf_none hi
        refine ⟨l ++ [r], rfl, ⟨nodup_insert l [] (by simp) hne, ?_⟩, Or.inr ⟨hne, l, [], by simp, rfl⟩⟩
        refine insert_order (by simpa using hl.order) ?_ (by simp)
        intro x hx kx hkx
        have := hall x hx
        rw [hkx] at this; simp at this
      | some index =>
        obtain ⟨a, x, b, hl0, rfl, hx, ha⟩ := indexOf_some hi
        simp only
        have hdrop : l.drop a.length = x :: b := by rw [hl0]; simp
        have hord := hl.order
        rw [hl0, List.pairwise_append] at hord
        obtain ⟨kx, hkx⟩ := Option.isSome_iff_exists.mp hx
        have hallcls : ∀ y ∈ x :: b, ∃ k, clsOf y = some k := by
          intro y hy
          rcases List.mem_cons.mp hy with rfl | hy
          · exact ⟨kx, hkx⟩
          · obtain ⟨k, hk, _⟩ := List.rel_of_pairwise_cons hord.2.1 hy kx hkx
            exact ⟨k, hk⟩
        obtain ⟨ks, hks⟩ := classes_isSome hallcls
        have hmap := classes_some hks
        rw [hdrop, hks]
        simp only
        -- whatever the second index, the rule is inserted inside the part of the rules by class
        have finish : ∀ i2, i2 ≤ (x :: b).length →
            (∀ y ∈ (x :: b).take i2, ∀ k, clsOf y = some k → issub cls k = true → cls = k) →
            (∀ y ∈ (x :: b).drop i2, ∀ k, clsOf y = some k → issub k cls = true → k = cls) →
            ∃ l', some (insertAt l (a.length + i2) r) = some l' ∧ ListInv issub l' ∧
              ((∃ a x b, l = a ++ x :: b ∧ l' = a ++ r :: b ∧ x.subjects = r.subjects) ∨
               ((∀ y ∈ l, y.subjects ≠ r.subjects) ∧ ∃ a b, l = a ++ b ∧ l' = a ++ r :: b)) := by
          intro i2 _ hbefore hafter
          have htake : l.take (a.length + i2) = a ++ (x :: b).take i2 := by rw [hl0, List.take_length_add_append]
          have hdr : l.drop (a.length + i2) = (x :: b).drop i2 := by rw [hl0, List.drop_length_add_append]
          have hsplit : l = (a ++ (x :: b).take i2) ++ (x :: b).drop i2 := by
            rw [List.append_assoc, List.take_append_drop, hl0]
          refine ⟨_, rfl, ⟨?_, ?_⟩, Or.inr ⟨hne, _, _, (List.take_append_drop (a.length + i2) l).symm, rfl⟩⟩
          · exact nodup_insert _ _ (List.take_append_drop _ l).symm hne
          · unfold insertAt
            refine insert_order (by rw [List.take_append_drop]; exact hl.order) ?_ ?_
            · rw [htake]
              intro y hy k hk
              rcases List.mem_append.mp hy with hy | hy
              · have := ha y hy; rw [hk] at this; simp at this
              · exact ⟨cls, hc, fun hs => hbefore y hy k hk hs⟩
            · rw [hdr]
              intro y hy k hk
              rw [hc] at hk
              obtain rfl := Option.some.inj hk
              obtain ⟨ky, hky⟩ := hallcls y (List.mem_of_mem_drop hy)
              exact ⟨ky, hky, fun hs => hafter y hy ky hky hs⟩
        -- membership in the list of classes
        have memk : ∀ (i : Nat) (y : Rule K P) (k : K), y ∈ (x :: b).take i → clsOf y = some k → k ∈ ks.take i := by
          intro i y k hy hk
          have h1 : some k ∈ ((x :: b).take i).map clsOf := List.mem_map.mpr ⟨y, hy, hk⟩
          rw [List.map_take, hmap, ← List.map_take] at h1
          obtain ⟨k', hk', e⟩ := List.mem_map.mp h1
          exact (Option.some.inj e) ▸ hk'
        have memk' : ∀ (i : Nat) (y : Rule K P) (k : K), y ∈ (x :: b).drop i → clsOf y = some k → k ∈ ks.drop i := by
          intro i y k hy hk
          have h1 : some k ∈ ((x :: b).drop i).map clsOf := List.mem_map.mpr ⟨y, hy, hk⟩
          rw [List.map_drop, hmap, ← List.map_drop] at h1
          obtain ⟨k', hk', e⟩ := List.mem_map.mp h1
          exact (Option.some.inj e) ▸ hk'
        have hlen : (x :: b).length = ks.length := by
          have := congrArg List.length hmap
          simpa using this
        have hkord : ks.Pairwise (fun k1 k2 => issub k2 k1 = true → k2 = k1) := by
          have h1 : ((x :: b).map clsOf).Pairwise
              (fun o1 o2 => ∀ k1, o1 = some k1 → ∃ k2, o2 = some k2 ∧ (issub k2 k1 = true → k2 = k1)) := by
            rw [List.pairwise_map]
            exact hord.2.1
          rw [hmap, List.pairwise_map] at h1
          refine h1.imp ?_
          intro k1 k2 h
          obtain ⟨k, hk, h2⟩ := h k1 rfl
          obtain rfl := Option.some.inj hk
          exact h2
        cases h1 : indexOf (fun c => issub cls c) ks with
        | some i =>
          obtain ⟨ka, k, kb, hk0, hkl, hk1, hk2⟩ := indexOf_some h1
          refine finish i ?_ ?_ ?_
          · rw [hlen, hk0, ← hkl]; simp
          · intro y hy k' hk' hs
            have hm := memk i y k' hy hk'
            rw [hk0, ← hkl, List.take_left] at hm
            rw [hk2 k' hm] at hs; simp at hs
          · intro y hy k' hk' hs
            have hm := memk' i y k' hy hk'
            rw [hk0, ← hkl, List.drop_left] at hm
            rcases List.mem_cons.mp hm with rfl | hm
            · exact hh.antisymm _ _ hs hk1
            · have hp := hkord
              rw [hk0, List.pairwise_append] at hp
              have h3 := List.rel_of_pairwise_cons hp.2.1 hm (hh.trans _ _ _ hs hk1)
              rw [h3] at hs
              rw [h3]
              exact hh.antisymm _ _ hs hk1
        | none =>
          have hno := indexOf_none h1
          simp only
          cases h2 : afterLast (fun c => issub c cls) ks with
          | some i =>
            obtain ⟨hi1, hi2⟩ := afterLast_some h2
            refine finish i (by rw [hlen]; exact hi1) ?_ ?_
            · intro y hy k' hk' hs
              have hm := List.mem_of_mem_take (memk i y k' hy hk')
              rw [hno k' hm] at hs; simp at hs
            · intro y hy k' hk' hs
              rw [hi2 k' (memk' i y k' hy hk')] at hs; simp at hs
          | none =>
            have hno2 := afterLast_none h2
            refine finish 0 (by simp) (by simp) ?_
            intro y hy k' hk' hs
            have hm := List.mem_of_mem_drop (memk' 0 y k' hy hk')
            rw [hno2 k' hm] at hs; simp at hs

theorem lookup_append {a b : List (Rule K P)} {s : List (Subj K)} (ha : ∀ y ∈ a, y.subjects ≠ s) :
    lookup (a ++ b) s = lookup b s := by
  unfold lookup
  rw [List.find?_append, List.find?_eq_none.mpr (by simpa using ha)]
  simp

theorem lookup_cons (x : Rule K P) (l : List (Rule K P)) (s : List (Subj K)) :
    lookup (x :: l) s = if x.subjects = s then some x.predicate else lookup l s := by
  unfold lookup
  by_cases h : x.subjects = s <;> simp [h]

theorem lookup_none {l : List (Rule K P)} {s : List (Subj K)} (h : ∀ y ∈ l, y.subjects ≠ s) : lookup l s = none := by
  have := lookup_append (b := []) h
  simpa [lookup] using this

theorem lookup_insert (a b : List (Rule K P)) (r : Rule K P) (hne : ∀ y ∈ a, y.subjects ≠ r.subjects)
    (s : List (Subj K)) : lookup (a ++ r :: b) s = if r.subjects = s then some r.predicate else lookup (a ++ b) s := by
  induction a with
  | nil => exact lookup_cons r b s
  | cons x a ih =>
    rw [List.cons_append, lookup_cons, List.cons_append, lookup_cons, ih (fun y hy => hne y (by simp [hy]))]
    by_cases hx : x.subjects = s
    · have : r.subjects ≠ s := fun e => hne x (by simp) (hx.trans e.symm)
      simp [hx, this]
    · simp [hx]

end

variable {K O P : Type} [DecidableEq K] [DecidableEq O]

/-- Specification of the history: the predicate that was last given to the subjects in the slot and not deleted since.
The history is given most recent first. -/
def lastGiven (slot : Slot O) (s : List (Subj K)) : List (RuleOp K O P) → Option P
  | [] => none
  | .set op subjects pred :: older =>
    if locate op subjects = some (slot, s) then some pred else lastGiven slot s older
  | .del op subjects :: older => if locate op subjects = some (slot, s) then none else lastGiven slot s older

/-- The state of all the lists of the operator. -/
def TableInv (issub : K → K → Bool) (t : Table K O P) : Prop := ∀ slot, ListInv issub (t slot)

theorem ruleStep_spec {issub : K → K → Bool} (hh : Hierarchy issub) (t : Table K O P) (ht : TableInv issub t)
    (op : RuleOp K O P) :
    let t' := match ruleStep issub t op with
      | some t' => t'
      | none => t
    TableInv issub t' ∧ ∀ slot s, lookup (t' slot) s =
      match op with
      | .set o subjects pred => if locate o subjects = some (slot, s) then some pred else lookup (t slot) s
      | .del o subjects => if locate o subjects = some (slot, s) then none else lookup (t slot) s := by
  cases op with
  | set o subjects pred =>
    simp only [ruleStep]
    cases hloc : locate o subjects with
    | none => exact ⟨ht, fun slot s => by simp⟩
    | some ss =>
      obtain ⟨slot0, subj⟩ := ss
      simp only
      obtain ⟨l', hl', hinv, hcase⟩ := setRule_spec hh (ht slot0) (⟨subj, pred⟩ : Rule K P)
      simp only [hl']
      refine ⟨?_, ?_⟩
      · intro slot
        change ListInv issub (if slot = slot0 then l' else t slot)
        split
        · exact hinv
        · exact ht slot
      · intro slot s
        unfold Table.put
        by_cases hs : slot = slot0
        · subst hs
          simp only [if_true, Option.some.injEq, Prod.mk.injEq, true_and]
          rcases hcase with ⟨a, x, b, h1, h2, h3⟩ | ⟨hne, a, b, h1, h2⟩
          · have hnd := (ht slot).nodup
            rw [h1] at hnd ⊢
            rw [h2]
            have hax : ∀ y ∈ a, y.subjects ≠ subj := by
              intro y hy he
              rw [List.map_append, List.nodup_append] at hnd
              exact hnd.2.2 y.subjects (List.mem_map_of_mem hy) x.subjects (by simp) (by rw [h3]; exact he)
            have h4 := lookup_insert a b ⟨subj, pred⟩ hax s
            refine h4.trans ?_
            by_cases hsub : subj = s
            · simp [hsub]
            · simp only [hsub, if_false]
              rw [lookup_insert a b x (by rw [h3]; exact hax) s, h3]
              simp [hsub]
          · rw [h2, h1]
            exact lookup_insert a b ⟨subj, pred⟩ (fun y hy => hne y (by rw [h1]; simp [hy])) s
        · simp [hs, Ne.symm hs]
  | del o subjects =>
    simp only [ruleStep]
    cases hloc : locate o subjects with
    | none => exact ⟨ht, fun slot s => by simp⟩
    | some ss =>
      obtain ⟨slot0, subj⟩ := ss
      simp only
      cases hd : delRule (t slot0) subj with
      | none =>
        refine ⟨ht, ?_⟩
        intro slot s
        simp only [Option.some.injEq, Prod.mk.injEq]
        split
        · rename_i h
          obtain ⟨rfl, rfl⟩ := h
          exact lookup_none (delRule_none hd)
        · rfl
      | some l' =>
        obtain ⟨a, x, b, h1, h2, h3, h4⟩ := delRule_some hd
        have hinv : ListInv issub l' := by
          have hsub : l'.Sublist (t slot0) := by
            rw [h1, h2]
            exact List.Sublist.append (List.Sublist.refl a) (List.sublist_cons_self x b)
          exact ⟨(ht slot0).nodup.sublist (hsub.map _), (ht slot0).order.sublist hsub⟩
        simp only
        refine ⟨?_, ?_⟩
        · intro slot
          change ListInv issub (if slot = slot0 then l' else t slot)
          split
          · exact hinv
          · exact ht slot
        · intro slot s
          unfold Table.put
          by_cases hs : slot = slot0
          · subst hs
            simp only [if_true, Option.some.injEq, Prod.mk.injEq, true_and]
            rw [h2, h1]
            have h5 := lookup_insert a b x (by rw [h3]; exact h4) s
            rw [h5, h3]
            by_cases hsub : subj = s
            · simp only [hsub, if_true]
              refine lookup_none ?_
              have hnd := (ht slot).nodup
              rw [h1, (List.perm_middle.map Rule.subjects).nodup_iff] at hnd
              simp only [List.map_cons, List.nodup_cons, List.mem_map, not_exists, not_and] at hnd
              intro y hy he
              exact hnd.1 y hy (by rw [h3, he, hsub])
            · simp [hsub]
          · simp [hs, Ne.symm hs]

/-- The rule matches by class. -/
def ClassRule (r : Rule K P) (k : K) : Prop := r.subjects = [.cls k, .self] ∨ ∃ a, r.subjects = [a, .cls k]

theorem clsOf_iff (r : Rule K P) (k : K) : clsOf r = some k ↔ ClassRule r k := by
  unfold clsOf ClassRule
  obtain ⟨s, p⟩ := r
  match s with
  | [] => simp [other]
  | [a] => simp [other]
  | [a, b] => cases a <;> cases b <;> simp [other]
  | a :: b :: c :: s => simp [other]

theorem rule_lists {issub : K → K → Bool} (hh : Hierarchy issub) (ops : List (RuleOp K O P)) :
    TableInv issub (ruleRun issub (fun _ => []) ops) ∧
    ∀ slot s, lookup (ruleRun issub (fun _ => []) ops slot) s = lastGiven slot s ops.reverse := by
  unfold ruleRun
  rw [← List.foldr_reverse]
  generalize ops.reverse = l
  induction l with
  | nil => exact ⟨fun _ => ⟨List.nodup_nil, List.Pairwise.nil⟩, fun _ _ => rfl⟩
  | cons op l ih =>
    rw [List.foldr_cons]
    have h := ruleStep_spec hh _ ih.1 op
    refine ⟨h.1, ?_⟩
    intro slot s
    refine (h.2 slot s).trans ?_
    cases op <;> simp only [lastGiven] <;> split <;> simp_all

/-- C42: after any history of calls to `set_rule` and `del_rule` (those that raise being caught) each rule list has at
most one rule per subjects, no rule by class precedes a rule of another kind, and no rule for a class precedes a rule
for a proper subclass; and the rule found for given subjects is the one that was last defined and not deleted since. -/
theorem C42_rule_lists {issub : K → K → Bool} (hh : Hierarchy issub) (ops : List (RuleOp K O P)) :
    (∀ slot, ((ruleRun issub (fun _ => []) ops slot).map Rule.subjects).Nodup ∧
      (ruleRun issub (fun _ => []) ops slot).Pairwise fun x y =>
        ∀ kx, ClassRule x kx → ∃ ky, ClassRule y ky ∧ (issub ky kx = true → ky = kx)) ∧
    ∀ slot s, lookup (ruleRun issub (fun _ => []) ops slot) s = lastGiven slot s ops.reverse := by
  obtain ⟨h1, h2⟩ := rule_lists hh ops
  refine ⟨fun slot => ⟨(h1 slot).nodup, (h1 slot).order.imp ?_⟩, h2⟩
  intro x y h kx hx
  obtain ⟨ky, hy, h⟩ := h kx ((clsOf_iff x kx).mpr hx)
  exact ⟨ky, (clsOf_iff y ky).mp hy, h⟩

/-- C42: a well-formed call to `set_rule` never raises, whatever the history. -/
theorem C42_set_rule_succeeds {issub : K → K → Bool} (hh : Hierarchy issub) (ops : List (RuleOp K O P))
    (op : Operation O) (subjects : List (Subj K)) (pred : P) (h : (locate op subjects).isSome) :
    (ruleStep issub (ruleRun issub (fun _ => []) ops) (.set op subjects pred)).isSome := by
  obtain ⟨⟨slot, subj⟩, hloc⟩ := Option.isSome_iff_exists.mp h
  obtain ⟨l', hl', _, _⟩ := setRule_spec hh ((rule_lists hh ops).1 slot) (⟨subj, pred⟩ : Rule K P)
  simp [ruleStep, hloc, hl']

/-- C42: the order of the subjects does not matter for a commutative operation: the definitions and deletions with
(X, '.') act on the rule with ('.', X). -/
theorem C42_commutative_subjects (issub : K → K → Bool) (t : Table K O P) (o : O) (a : Subj K) (pred : P) :
    ruleStep issub t (.set (.commutative o) [a, .self] pred) = ruleStep issub t (.set (.commutative o) [.self, a] pred) ∧
    ruleStep issub t (.del (.commutative o) [a, .self]) = ruleStep issub t (.del (.commutative o) [.self, a]) := by
  cases a <;> exact ⟨rfl, rfl⟩

/-- C42: for another operation the two orders are independent: a call for one of them does not change the rules found for
the other one. -/
theorem C42_sides {issub : K → K → Bool} (hh : Hierarchy issub) (ops : List (RuleOp K O P)) (o : O) (b : Subj K)
    (hb : b ≠ .self) (s : List (Subj K)) :
    (∀ op : RuleOp K O P, (op = .del (.other o) [.self, b] ∨ ∃ p, op = .set (.other o) [.self, b] p) →
      lookup (ruleRun issub (fun _ => []) (ops ++ [op]) (.right o)) s =
        lookup (ruleRun issub (fun _ => []) ops (.right o)) s) ∧
    (∀ op : RuleOp K O P, (op = .del (.other o) [b, .self] ∨ ∃ p, op = .set (.other o) [b, .self] p) →
      lookup (ruleRun issub (fun _ => []) (ops ++ [op]) (.left o)) s =
        lookup (ruleRun issub (fun _ => []) ops (.left o)) s) := by
  have hl : locate (.other o) [Subj.self, b] = some (Slot.left o, [Subj.self, b]) := by
    cases b with
    | self => exact absurd rfl hb
    | sym s => rfl
    | cls k => rfl
  have hr : locate (.other o) [b, Subj.self] = some (Slot.right o, [b, Subj.self]) := by
    cases b <;> rfl
  refine ⟨?_, ?_⟩ <;> intro op hop <;>
    rw [(C42_rule_lists hh (ops ++ [op])).2, (C42_rule_lists hh ops).2] <;>
    rw [List.reverse_append, List.reverse_singleton, List.singleton_append] <;>
    rcases hop with rfl | ⟨p, rfl⟩ <;> simp [lastGiven, hl, hr]

example : (Subj.cls 3 : Subj Nat) ≠ .self := by simp

/-- The divisibility order as a class hierarchy: 12 is a subclass of 6, 4, 3, 2 and 1. -/
def divHierarchy : Nat → Nat → Bool := fun a b => decide (b ∣ a)

example : Hierarchy divHierarchy where
  refl := by simp [divHierarchy]
  trans := by
    intro a b c h1 h2
    simp only [divHierarchy, decide_eq_true_eq] at *
    exact Nat.dvd_trans h2 h1
  antisymm := by
    intro a b h1 h2
    simp only [divHierarchy, decide_eq_true_eq] at *
    exact Nat.dvd_antisymm h2 h1

/-- The rules for 2, 3, 12 and 6, then one by symbol: the symbol comes first, 12 before 6 before 3 and 2. -/
example : (ruleRun (O := Nat) (P := Nat) divHierarchy (fun _ => [])
      [.set (.other 0) [.self, .cls 2] 0, .set (.other 0) [.self, .cls 3] 1, .set (.other 0) [.self, .cls 12] 2,
       .set (.other 0) [.self, .cls 6] 3, .set (.other 0) [.self, .sym 0] 4, .set (.other 0) [.self, .cls 3] 5,
       .del (.other 0) [.self, .cls 2]]
      (.left 0)).map (fun r => (r.subjects, r.predicate)) =
    [([.self, .sym 0], 4), ([.self, .cls 12], 2), ([.self, .cls 6], 3), ([.self, .cls 3], 5)] := by decide

end Verif.Rules
