import Verif.Rules.Manager
import Mathlib.Data.List.Basic

/-
Properties C09 and C44.
-/

namespace Verif.Rules

variable {K V : Type} [DecidableEq K]

set_option linter.unusedSectionVars false

/-! ### C09 -/

/-- What must hold of the managers whose context is active: each has its own saved dictionary, which is neither the
current one nor the one of another active manager. -/
structure Saved (s : RState K V) (A : List Nat) (ref : Nat → Nat) : Prop where
  cur : s.cur < s.heap.length
  old : ∀ a ∈ A, ∃ x, s.mgrs[a]? = some x ∧ x.old = some (ref a)
  lt : ∀ a ∈ A, ref a < s.heap.length
  ne : ∀ a ∈ A, ref a ≠ s.cur
  inj : ∀ a ∈ A, ∀ b ∈ A, ref a = ref b → a = b

/-- A program that, while the contexts of the managers in `A` are active, never enters them again. New managers are
never in `A`. -/
inductive NoReentry : List Nat → Prog K V → Prop
  | skip {A} : NoReentry A .skip
  | raise {A} : NoReentry A .raise
  | seq {A p q} : NoReentry A p → NoReentry A q → NoReentry A (.seq p q)
  | tryCatch {A p q} : NoReentry A p → NoReentry A q → NoReentry A (.tryCatch p q)
  | setItem {A k v} : NoReentry A (.setItem k v)
  | register {A k v} : NoReentry A (.register k v)
  | update {A items} : NoReentry A (.update items)
  | pop {A k} : NoReentry A (.pop k)
  | clear {A} : NoReentry A .clear
  | withM {A m kw body} : m ∉ A → (∀ n, n ∉ m :: A → NoReentry (m :: A) (body n)) → NoReentry A (.withM m kw body)
  | withBare {A m body} : m ∉ A → (∀ n, n ∉ m :: A → NoReentry (m :: A) (body n)) → NoReentry A (.withBare m body)

/-- Effect of a program on what is saved. -/
structure Keeps (s t : RState K V) (A : List Nat) (ref : Nat → Nat) : Prop where
  saved : Saved t A ref
  heapLen : s.heap.length ≤ t.heap.length
  mgrsLen : s.mgrs.length ≤ t.mgrs.length
  dict : ∀ a ∈ A, t.heap[ref a]? = s.heap[ref a]?

theorem Keeps.refl {s : RState K V} {A : List Nat} {ref : Nat → Nat} (h : Saved s A ref) : Keeps s s A ref :=
  ⟨h, Nat.le_refl _, Nat.le_refl _, fun _ _ => rfl⟩

theorem Keeps.trans {s t u : RState K V} {A : List Nat} {ref : Nat → Nat} (h1 : Keeps s t A ref)
    (h2 : Keeps t u A ref) : Keeps s u A ref :=
  ⟨h2.saved, Nat.le_trans h1.heapLen h2.heapLen, Nat.le_trans h1.mgrsLen h2.mgrsLen,
    fun a ha => (h2.dict a ha).trans (h1.dict a ha)⟩

theorem Keeps.modify {s : RState K V} {A : List Nat} {ref : Nat → Nat} (h : Saved s A ref) (f : Dict K V → Dict K V) :
    Keeps s (s.modify f) A ref := by
  refine ⟨⟨?_, ?_, ?_, ?_, h.inj⟩, ?_, ?_, ?_⟩
  · simpa [RState.modify] using h.cur
  · exact h.old
  · simpa [RState.modify] using h.lt
  · exact h.ne
  · simp [RState.modify]
  · simp [RState.modify]
  · intro a ha
    simp [RState.modify, List.getElem?_modify, (h.ne a ha).symm]

theorem Keeps.construct {s : RState K V} {A : List Nat} {ref : Nat → Nat} (h : Saved s A ref)
    (defaults : Defaults K V) : Keeps s (construct defaults s) A ref := by
  have app : ∀ s : RState K V, Saved s A ref → Keeps s { s with mgrs := s.mgrs ++ [⟨[], none⟩] } A ref := by
    intro s h
    refine ⟨⟨h.cur, ?_, h.lt, h.ne, h.inj⟩, Nat.le_refl _, by simp, fun _ _ => rfl⟩
    intro a ha
    obtain ⟨x, hx, ho⟩ := h.old a ha
    refine ⟨x, ?_, ho⟩
    simp only
    rw [List.getElem?_append_left]
    · exact hx
    · exact (List.getElem?_eq_some_iff.mp hx).1
  unfold Rules.construct
  simp only
  split
  · exact (Keeps.modify h _).trans (app _ (Keeps.modify h _).saved)
  · exact app s h

theorem cur_modify (s : RState K V) (f : Dict K V → Dict K V) : (s.modify f).cur = s.cur := rfl

/-- Entering a manager that is not active. -/
theorem enter_saved {s : RState K V} {A : List Nat} {ref : Nat → Nat} (h : Saved s A ref) (m : Nat) (hm : m ∉ A)
    (hlt : m < s.mgrs.length) (defaults : Defaults K V) :
    ∃ ref', ref' m = s.heap.length ∧ (∀ a ∈ A, ref' a = ref a) ∧ Saved (enter defaults s m) (m :: A) ref' ∧
      (enter defaults s m).heap[s.heap.length]? = some s.triggers ∧
      (∀ a ∈ A, (enter defaults s m).heap[ref a]? = s.heap[ref a]?) ∧
      s.heap.length < (enter defaults s m).heap.length ∧ s.mgrs.length ≤ (enter defaults s m).mgrs.length := by
  obtain ⟨x, hx⟩ : ∃ x, s.mgrs[m]? = some x := ⟨s.mgrs[m], List.getElem?_eq_getElem hlt⟩
  let ref' : Nat → Nat := fun a => if a = m then s.heap.length else ref a
  have hr' : ∀ a ∈ A, ref' a = ref a := by
    intro a ha
    have : a ≠ m := fun e => hm (e ▸ ha)
    simp [ref', this]
  let s1 : RState K V :=
    { s with heap := s.heap ++ [s.triggers]
             mgrs := s.mgrs.modify m (fun x => { x with old := some s.heap.length }) }
  have h1 : Saved s1 (m :: A) ref' := by
    refine ⟨?_, ?_, ?_, ?_, ?_⟩
    · simp only [s1, List.length_append, List.length_singleton]; have := h.cur; omega
    · intro a ha
      rcases List.mem_cons.mp ha with rfl | ha
      · refine ⟨{ x with old := some s.heap.length }, ?_, by simp [ref']⟩
        simp [s1, List.getElem?_modify, hx]
      · obtain ⟨y, hy, ho⟩ := h.old a ha
        have hne : m ≠ a := fun e => hm (e ▸ ha)
        refine ⟨y, ?_, by rw [hr' a ha]; exact ho⟩
        simp [s1, List.getElem?_modify, hne, hy]
    · intro a ha
      simp only [s1, List.length_append, List.length_singleton]
      rcases List.mem_cons.mp ha with rfl | ha
      · simp [ref']
      · rw [hr' a ha]; have := h.lt a ha; omega
    · intro a ha
      rcases List.mem_cons.mp ha with rfl | ha
      · have := h.cur; simp only [ref', s1, if_true]; omega
      · rw [hr' a ha]; exact h.ne a ha
    · intro a ha b hb hab
      have hmm : ref' m = s.heap.length := by simp [ref']
      rcases List.mem_cons.mp ha with ea | ha1 <;> rcases List.mem_cons.mp hb with eb | hb1
      · rw [ea, eb]
      · rw [hr' b hb1, ea, hmm] at hab; have := h.lt b hb1; omega
      · rw [hr' a ha1, eb, hmm] at hab; have := h.lt a ha1; omega
      · rw [hr' a ha1, hr' b hb1] at hab; exact h.inj a ha1 b hb1 hab
  have hk2 := Keeps.modify h1 (fun d => dupdate d x.deferred)
  have hk3 := hk2.trans (Keeps.construct hk2.saved defaults)
  have heq : enter defaults s m = construct defaults (s1.modify (fun d => dupdate d x.deferred)) := by
    unfold enter
    rw [hx]
  rw [heq]
  refine ⟨ref', by simp [ref'], hr', hk3.saved, ?_, ?_, ?_, ?_⟩
  · have := hk3.dict m (by simp)
    have e : ref' m = s.heap.length := by simp [ref']
    rw [e] at this
    rw [this]
    simp [s1]
  · intro a ha
    have := hk3.dict a (List.mem_cons_of_mem _ ha)
    rw [hr' a ha] at this
    rw [this]
    simp only [s1]
    rw [List.getElem?_append_left (h.lt a ha)]
  · refine Nat.lt_of_lt_of_le ?_ hk3.heapLen
    simp [s1]
  · refine Nat.le_trans ?_ hk3.mgrsLen
    simp [s1]

/-- Leaving the context of a manager that is not in `A`. -/
theorem exit_saved {s : RState K V} {A : List Nat} {ref : Nat → Nat} {m : Nat} (hm : m ∉ A)
    (h : Saved s (m :: A) ref) :
    Saved (exit s m) A ref ∧ (exit s m).cur = ref m ∧ (exit s m).heap = s.heap ∧ (exit s m).mgrs = s.mgrs := by
  obtain ⟨x, hx, ho⟩ := h.old m (by simp)
  have he : exit s m = { s with cur := ref m } := by
    unfold exit; simp [hx, ho]
  rw [he]
  refine ⟨⟨h.lt m (by simp), fun a ha => h.old a (List.mem_cons_of_mem _ ha),
    fun a ha => h.lt a (List.mem_cons_of_mem _ ha), ?_, fun a ha b hb => h.inj a (List.mem_cons_of_mem _ ha) b
    (List.mem_cons_of_mem _ hb)⟩, rfl, rfl, rfl⟩
  intro a ha heq
  have := h.inj a (List.mem_cons_of_mem _ ha) m (by simp) heq
  exact hm (this ▸ ha)

/-- The whole `with` statement of a manager that is not active: what is saved is kept, and the dictionary in force
afterwards is equal to the one before. -/
theorem with_keeps {s : RState K V} {A : List Nat} {ref : Nat → Nat} (h : Saved s A ref) (m : Nat) (hm : m ∉ A)
    (hlt : m < s.mgrs.length) (defaults : Defaults K V) (t : RState K V)
    (hb : ∀ ref', Saved (enter defaults s m) (m :: A) ref' → Keeps (enter defaults s m) t (m :: A) ref') :
    Keeps s (exit t m) A ref ∧ (exit t m).triggers = s.triggers := by
  obtain ⟨ref', hrm, hr, hsv, hsaved, hd, hl, hml⟩ := enter_saved h m hm hlt defaults
  have hb := hb ref' hsv
  obtain ⟨e1, e2, e3, e4⟩ := exit_saved hm hb.saved
  refine ⟨⟨⟨e1.cur, fun a ha => by rw [← hr a ha]; exact e1.old a ha,
    fun a ha => by rw [← hr a ha]; exact e1.lt a ha, fun a ha => by rw [← hr a ha]; exact e1.ne a ha, h.inj⟩,
    ?_, ?_, ?_⟩, ?_⟩
  · rw [e3]; exact Nat.le_trans (Nat.le_of_lt hl) hb.heapLen
  · rw [e4]; exact Nat.le_trans hml hb.mgrsLen
  · intro a ha
    rw [e3, ← hd a ha]
    have := hb.dict a (List.mem_cons_of_mem _ ha)
    rw [hr a ha] at this
    exact this
  · have := hb.dict m (by simp)
    rw [hrm, hsaved] at this
    unfold RState.triggers
    rw [e2, e3, hrm, this]
    rfl

theorem call_saved {s s1 : RState K V} {A : List Nat} {ref : Nat → Nat} (h : Saved s A ref) (m : Nat) (hm : m ∉ A)
    (kw : Dict K V) (hc : call s m kw = some s1) :
    Keeps s s1 A ref ∧ s1.triggers = s.triggers ∧ s1.mgrs.length = s.mgrs.length := by
  unfold call at hc
  split at hc
  · have hs1 := (Option.some.inj hc).symm
    have h1 : Saved s1 A ref := by
      refine ⟨by rw [hs1]; exact h.cur, ?_, by rw [hs1]; exact h.lt, by rw [hs1]; exact h.ne, h.inj⟩
      intro a ha
      obtain ⟨x, hx, ho⟩ := h.old a ha
      have hne : m ≠ a := fun e => hm (e ▸ ha)
      exact ⟨x, by rw [hs1]; simp [List.getElem?_modify, hne, hx], ho⟩
    exact ⟨⟨h1, Nat.le_of_eq (by rw [hs1]), by rw [hs1]; simp, fun a _ => by rw [hs1]⟩, by rw [hs1]; rfl, by rw [hs1]; simp⟩
  · simp at hc

theorem fresh_manager {s : RState K V} {A : List Nat} {ref : Nat → Nat} (h : Saved s A ref) (m : Nat)
    (hlt : m < s.mgrs.length) : s.mgrs.length ∉ m :: A := by
  intro hin
  rcases List.mem_cons.mp hin with e | hin
  · omega
  · obtain ⟨x, hx, _⟩ := h.old _ hin
    have := (List.getElem?_eq_some_iff.mp hx).1
    omega

theorem exec_keeps (defaults : Defaults K V) (A : List Nat) (p : Prog K V) (hp : NoReentry A p) :
    ∀ (s : RState K V) (ref : Nat → Nat), Saved s A ref →
      Keeps s (exec defaults p s).2 A ref := by
  induction hp with
  | skip => intro s ref h; exact .refl h
  | raise => intro s ref h; exact .refl h
  | seq _ _ ih1 ih2 =>
    intro s ref h
    have h1 := ih1 s ref h
    unfold exec
    split <;> rename_i s1 e <;> rw [e] at h1
    · exact h1
    · exact h1.trans (ih2 s1 ref h1.saved)
  | tryCatch _ _ ih1 ih2 =>
    intro s ref h
    have h1 := ih1 s ref h
    unfold exec
    split <;> rename_i s1 e <;> rw [e] at h1
    · exact h1.trans (ih2 s1 ref h1.saved)
    · exact h1
  | setItem => intro s ref h; unfold exec; split; exacts [.modify h _, .refl h]
  | register => intro s ref h; exact .modify h _
  | update => intro s ref h; exact .modify h _
  | pop => intro s ref h; unfold exec; split; exacts [.modify h _, .refl h]
  | clear => intro s ref h; exact .modify h _
  | @withM A m kw body hm _ ih =>
    intro s ref h
    unfold exec
    split
    · split
      · exact .refl h
      · rename_i hlt _ s1 hc
        obtain ⟨hk, _, hml⟩ := call_saved h m hm kw hc
        have hlt1 : m < s1.mgrs.length := by rw [hml]; exact hlt
        exact hk.trans (with_keeps hk.saved m hm hlt1 defaults _
          (fun ref' hs => ih _ (fresh_manager hk.saved m hlt1) _ ref' hs)).1
    · exact .refl h
  | @withBare A m body hm _ ih =>
    intro s ref h
    unfold exec
    split
    · rename_i hlt
      exact (with_keeps h m hm hlt defaults _ (fun ref' hs => ih _ (fresh_manager h m hlt) _ ref' hs)).1
    · exact .refl h

/-- The state after the execution of `with m(**kw) as n: body(n)`. -/
theorem with_restores (defaults : Defaults K V) (A : List Nat) (ref : Nat → Nat) (s : RState K V) (m : Nat)
    (kw : Dict K V) (body : Nat → Prog K V) (h : Saved s A ref) (hp : NoReentry A (.withM m kw body)) :
    (exec defaults (.withM m kw body) s).2.triggers = s.triggers := by
  cases hp with
  | withM hm hbody =>
    unfold exec
    split
    · split
      · rfl
      · rename_i hlt _ s1 hc
        obtain ⟨hk, ht, hml⟩ := call_saved h m hm kw hc
        have hlt1 : m < s1.mgrs.length := by rw [hml]; exact hlt
        rw [← ht]
        exact (with_keeps hk.saved m hm hlt1 defaults _
          (fun ref' hs => exec_keeps defaults _ _ (hbody _ (fresh_manager hk.saved m hlt1)) _ ref' hs)).2
    · rfl

/-- Sequences of programs. -/
def seqs : List (Prog K V) → Prog K V
  | [] => .skip
  | p :: ps => .seq p (seqs ps)

/-- Being inside contexts: `Inside defaults s A` holds of the states reached from the initial state by executing
programs and entering the contexts of the managers `A` (innermost first), which are still active. -/
inductive Inside (defaults : Defaults K V) : RState K V → List Nat → Prop
  | init : Inside defaults (initState defaults) []
  | exec {s A p} : Inside defaults s A → NoReentry A p → Inside defaults (exec defaults p s).2 A
  | enterWith {s A m kw s1} : Inside defaults s A → m ∉ A → m < s.mgrs.length → call s m kw = some s1 →
      Inside defaults (enter defaults s1 m) (m :: A)
  | enterBare {s A m} : Inside defaults s A → m ∉ A → m < s.mgrs.length →
      Inside defaults (enter defaults s m) (m :: A)

theorem inside_saved (defaults : Defaults K V) (s : RState K V) (A : List Nat) (h : Inside defaults s A) :
    ∃ ref, Saved s A ref := by
  induction h with
  | init =>
    refine ⟨fun _ => 0, ?_⟩
    have h0 : Saved (⟨[[]], 0, []⟩ : RState K V) [] (fun _ => 0) :=
      ⟨by simp, by simp, by simp, by simp, by simp⟩
    exact (Keeps.construct h0 defaults).saved
  | exec _ hp ih =>
    obtain ⟨ref, hs⟩ := ih
    exact ⟨ref, (exec_keeps defaults _ _ hp _ ref hs).saved⟩
  | enterWith _ hm hlt hc ih =>
    obtain ⟨ref, hs⟩ := ih
    obtain ⟨hk, _, hml⟩ := call_saved hs _ hm _ hc
    obtain ⟨ref', _, _, h2, _⟩ := enter_saved hk.saved _ hm (by rw [hml]; exact hlt) defaults
    exact ⟨ref', h2⟩
  | enterBare _ hm hlt ih =>
    obtain ⟨ref, hs⟩ := ih
    obtain ⟨ref', _, _, h2, _⟩ := enter_saved hs _ hm hlt defaults
    exact ⟨ref', h2⟩

/-- C09, partial: wherever the statement `with m(**kw) as n: body(n)` occurs in an execution, possibly inside other
contexts, whatever the body does (assignments, registrations, removals, nested contexts, exceptions), the triggers
after the statement are those before it, as long as no manager is entered while its own context is active.
Missing from the full property: the re-entry of an active manager, for which the claim is false
(`C09_reentry_fails`). -/
theorem C09_triggers_restored_partial (defaults : Defaults K V) (s : RState K V) (A : List Nat)
    (h : Inside defaults s A) (m : Nat) (kw : Dict K V) (body : Nat → Prog K V)
    (hp : NoReentry A (.withM m kw body)) :
    (exec defaults (.withM m kw body) s).2.triggers = s.triggers := by
  obtain ⟨ref, hs⟩ := inside_saved defaults s A h
  exact with_restores defaults A ref s m kw body hs hp

theorem dget_dset (d : Dict K V) (k k' : K) (v : V) : dget (dset d k v) k' = if k = k' then some v else dget d k' := by
  induction d with
  | nil => simp [dset, dget]
  | cons x d ih =>
    obtain ⟨a, b⟩ := x
    unfold dset
    by_cases h : a = k
    · subst h
      by_cases h2 : a = k'
      · simp [dget, h2]
      · simp [dget, h2]
    · simp only [if_neg h, dget, ih]
      by_cases h2 : a = k'
      · subst h2
        simp [Ne.symm h]
      · simp [h2]

/-- Example of the documentation of the class: nested contexts, then an exception. -/
example : let p : Prog String Bool := .withM 0 [("none", true)] (fun n =>
      .seq (.withM n [("none", false)] (fun _ => .setItem "inplace" true)) .raise)
    let r := exec [("inplace", false), ("none", false)] p (initState [("inplace", false), ("none", false)])
    r.1 = true ∧ r.2.triggers = [("inplace", false), ("none", false)] := by decide

example : NoReentry (K := String) (V := Bool) [] (.withM 0 [("none", true)] (fun n =>
      .seq (.withM n [("none", false)] (fun _ => .setItem "inplace" true)) .raise)) :=
  .withM (by simp) (fun n hn => .seq (.withM (by simpa using hn) (fun _ _ => .setItem)) .raise)

/-- C09 is violated by the code: entering the manager `rule_manager` again while its context is active makes the exit of
the outer context leave the values of the outer context in force. -/
theorem C09_reentry_fails :
    ∃ (defaults : Dict String Bool) (p : Prog String Bool),
      p = .withM 0 [("none", true)] (fun _ => .withM 0 [("none", false)] (fun _ => .skip)) ∧
      dget (initState defaults).triggers "none" = some false ∧
      (exec defaults p (initState defaults)).1 = false ∧
      dget (exec defaults p (initState defaults)).2.triggers "none" = some true :=
  ⟨[("inplace", false), ("none", false)], _, rfl, by decide, by decide, by decide⟩

/-! ### C44 -/

/-- Specification of a line that assigns a value: the part before the first `#` has an equal sign, the key is what
precedes the first one, in lower case and without the surrounding whitespace, and what follows, without the surrounding
whitespace, evaluates to the value. -/
def Assigns (lower : List Char → List Char) (ev : List Char → Option V) (line key : List Char) (v : V) : Prop :=
  ∃ a b rest, (line = a ++ '=' :: b ∧ rest = [] ∨ line = a ++ '=' :: (b ++ '#' :: rest)) ∧
    '=' ∉ a ∧ '#' ∉ a ∧ '#' ∉ b ∧ key = lower (strip a) ∧ ev (strip b) = some v

theorem splitFirst_some {c : Char} : ∀ {s a b : List Char}, splitFirst c s = some (a, b) ↔ s = a ++ c :: b ∧ c ∉ a
  | [], a, b => by simp [splitFirst]
  | x :: xs, a, b => by
    unfold splitFirst
    by_cases hx : x = c
    · subst hx
      simp only [if_true, Option.some.injEq, Prod.mk.injEq]
      constructor
      · rintro ⟨rfl, rfl⟩; simp
      · rintro ⟨h1, h2⟩
        cases a with
        | nil => simpa using h1
        | cons y ys =>
          simp only [List.cons_append, List.cons.injEq] at h1
          exact absurd (by rw [h1.1]; simp) h2
    · simp only [if_neg hx, Option.map_eq_some_iff, Prod.mk.injEq, Prod.exists]
      constructor
      · rintro ⟨a', b', h, rfl, rfl⟩
        obtain ⟨rfl, h2⟩ := splitFirst_some.mp h
        exact ⟨rfl, by simp [h2, Ne.symm hx]⟩
      · rintro ⟨h1, h2⟩
        cases a with
        | nil => simp only [List.nil_append, List.cons.injEq] at h1; exact absurd h1.1 hx
        | cons y ys =>
          simp only [List.cons_append, List.cons.injEq] at h1
          obtain ⟨rfl, rfl⟩ := h1
          exact ⟨ys, b, splitFirst_some.mpr ⟨rfl, fun h => h2 (by simp [h])⟩, rfl, rfl⟩

theorem splitFirst_none {c : Char} : ∀ {s : List Char}, splitFirst c s = none ↔ c ∉ s
  | [] => by simp [splitFirst]
  | x :: xs => by
    unfold splitFirst
    by_cases hx : x = c
    · subst hx; simp
    · simp [hx, splitFirst_none, Ne.symm hx]

theorem lstrip_append_ws (w s : List Char) (h : ∀ c ∈ w, isWs c = true) : lstrip (w ++ s) = lstrip s := by
  induction w with
  | nil => rfl
  | cons c w ih =>
    have hc : isWs c = true := h c (by simp)
    simp only [lstrip, List.cons_append, List.dropWhile_cons, hc, if_true]
    exact ih (fun c hc => h c (by simp [hc]))

theorem lstrip_append (a b : List Char) (c : Char) (hc : isWs c = false) :
    lstrip (a ++ c :: b) = lstrip a ++ c :: b := by
  induction a with
  | nil => simp [lstrip, hc]
  | cons x a ih =>
    cases hx : isWs x with
    | true => simpa [lstrip, hx] using ih
    | false => simp [lstrip, hx]

theorem rstrip_append (a b : List Char) (c : Char) (hc : isWs c = false) :
    rstrip (a ++ c :: b) = a ++ c :: rstrip b := by
  unfold rstrip
  have h := lstrip_append b.reverse a.reverse c hc
  unfold lstrip at h
  have e : (a ++ c :: b).reverse = b.reverse ++ c :: a.reverse := by simp
  rw [e, h]
  simp

theorem strip_append (a b : List Char) (c : Char) (hc : isWs c = false) :
    strip (a ++ c :: b) = lstrip a ++ c :: rstrip b := by
  unfold strip
  rw [lstrip_append a b c hc, rstrip_append _ b c hc]

theorem mem_lstrip {c : Char} {s : List Char} (h : c ∈ lstrip s) : c ∈ s :=
  (List.dropWhile_sublist isWs).subset h

theorem mem_rstrip {c : Char} {s : List Char} (h : c ∈ rstrip s) : c ∈ s := by
  unfold rstrip at h
  have := (List.dropWhile_sublist isWs).subset (List.mem_reverse.mp h)
  exact List.mem_reverse.mp this

theorem mem_strip {c : Char} {s : List Char} (h : c ∈ strip s) : c ∈ s := mem_lstrip (mem_rstrip h)

theorem lstrip_decomp (s : List Char) : ∃ w, (∀ c ∈ w, isWs c = true) ∧ s = w ++ lstrip s ∧
    (lstrip s = [] ∨ ∃ x t, lstrip s = x :: t ∧ isWs x = false) := by
  induction s with
  | nil => exact ⟨[], by simp, rfl, Or.inl rfl⟩
  | cons c s ih =>
    cases hc : isWs c with
    | true =>
      obtain ⟨w, h1, h2, h3⟩ := ih
      have e : lstrip (c :: s) = lstrip s := by simp [lstrip, hc]
      rw [e]
      exact ⟨c :: w, by simpa [hc] using h1, by rw [List.cons_append, ← h2], h3⟩
    | false =>
      have e : lstrip (c :: s) = c :: s := by simp [lstrip, hc]
      rw [e]
      exact ⟨[], by simp, rfl, Or.inr ⟨c, s, rfl, hc⟩⟩

theorem lstrip_all_ws (w : List Char) (h : ∀ c ∈ w, isWs c = true) : lstrip w = [] := by
  have := lstrip_append_ws w [] h
  simpa [lstrip] using this

theorem lstrip_rstrip (s : List Char) : lstrip (rstrip s) = strip s := by
  obtain ⟨w, hw, hs, h | ⟨x, t, hl, hx⟩⟩ := lstrip_decomp s
  · unfold strip
    rw [h]
    rw [h, List.append_nil] at hs
    have hr : rstrip s = [] := by
      unfold rstrip
      have := lstrip_all_ws s.reverse (fun c hc => hw c (by rw [← hs]; exact List.mem_reverse.mp hc))
      unfold lstrip at this
      rw [this]; rfl
    rw [hr]
    rfl
  · unfold strip
    rw [hl]
    have h1 : rstrip s = w ++ x :: rstrip t := by
      conv => lhs; rw [hs, hl]
      exact rstrip_append w t x hx
    rw [h1, lstrip_append_ws w _ hw]
    have h2 := rstrip_append [] t x hx
    simp only [List.nil_append] at h2
    rw [h2]
    simp [lstrip, hx]

theorem strip_no_sign {c : Char} {s : List Char} (h : c ∉ s) : c ∉ strip s := fun hm => h (mem_strip hm)

/-- The part of the line to which the code looks for the equal sign. -/
theorem parse_body (line : List Char) :
    ∃ p, (line = p ∨ ∃ q, line = p ++ '#' :: q) ∧ '#' ∉ p ∧
      stripComment (strip line) = strip p := by
  unfold stripComment
  by_cases h : '#' ∈ line
  · obtain ⟨p, q, hpq, hp⟩ := List.eq_append_cons_of_mem h
    refine ⟨p, Or.inr ⟨q, hpq⟩, hp, ?_⟩
    have h1 : strip line = lstrip p ++ '#' :: rstrip q := by rw [hpq]; exact strip_append p q '#' (by decide)
    have h2 : splitFirst '#' (strip line) = some (lstrip p, rstrip q) :=
      splitFirst_some.mpr ⟨h1, fun hm => hp (mem_lstrip hm)⟩
    rw [h2]
    rfl
  · exact ⟨line, Or.inl rfl, h, by rw [splitFirst_none.mpr (strip_no_sign h)]⟩

/-- The code assigns exactly what the specification says. -/
theorem parseLine_assign (lower : List Char → List Char) (ev : List Char → Option V) (line key : List Char) (v : V) :
    parseLine lower ev line = .assign key v ↔ Assigns lower ev line key v := by
  obtain ⟨p, hline, hp, hbody⟩ := parse_body line
  have hpl : parseLine lower ev line =
      match splitFirst '=' (strip p) with
      | none => if (strip p).isEmpty then .blank else .warnNoRule
      | some r => match ev (lstrip r.2) with
        | none => .warnEval
        | some v => .assign (lower (rstrip r.1)) v := by
    unfold parseLine
    simp only [hbody]
    cases splitFirst '=' (strip p) with
    | none => rfl
    | some r => cases ev (lstrip r.2) <;> rfl
  -- the text before the comment is unique
  have huniq : ∀ a b rest, (line = a ++ '=' :: b ∧ rest = [] ∨ line = a ++ '=' :: (b ++ '#' :: rest)) →
      '#' ∉ a → '#' ∉ b → p = a ++ '=' :: b := by
    intro a b rest hl ha hb
    have hnab : '#' ∉ a ++ '=' :: b := by simp [ha, hb]
    rcases hline with e | ⟨q, e⟩ <;> rcases hl with ⟨e2, _⟩ | e2
    · rw [← e, e2]
    · exfalso; apply hp; rw [← e, e2]; simp
    · exfalso; apply hnab; rw [← e2, e]; simp
    · have h1 : splitFirst '#' line = some (p, q) := splitFirst_some.mpr ⟨e, hp⟩
      have h2 : splitFirst '#' line = some (a ++ '=' :: b, rest) :=
        splitFirst_some.mpr ⟨by rw [e2]; simp, hnab⟩
      rw [h1] at h2
      simp only [Option.some.injEq, Prod.mk.injEq] at h2
      exact h2.1
  by_cases h : '=' ∈ p
  · obtain ⟨a, b, hab, ha⟩ := List.eq_append_cons_of_mem h
    have hsp : splitFirst '=' (strip p) = some (lstrip a, rstrip b) := by
      refine splitFirst_some.mpr ⟨?_, fun hm => ha (mem_lstrip hm)⟩
      rw [hab]; exact strip_append a b '=' (by decide)
    rw [hpl, hsp]
    simp only [lstrip_rstrip]
    have hra : rstrip (lstrip a) = strip a := rfl
    rw [hra]
    have hA : '#' ∉ a := fun hm => hp (by rw [hab]; simp [hm])
    have hB : '#' ∉ b := fun hm => hp (by rw [hab]; simp [hm])
    constructor
    · intro he
      cases hv : ev (strip b) with
      | none => rw [hv] at he; simp at he
      | some v' =>
        rw [hv] at he
        simp only [Line.assign.injEq] at he
        obtain ⟨rfl, rfl⟩ := he
        rcases hline with e | ⟨q, e⟩
        · exact ⟨a, b, [], Or.inl ⟨e.trans hab, rfl⟩, ha, hA, hB, rfl, hv⟩
        · exact ⟨a, b, q, Or.inr (by rw [e, hab]; simp), ha, hA, hB, rfl, hv⟩
    · rintro ⟨a', b', rest, hl, ha', hA', hB', rfl, hv⟩
      have := huniq a' b' rest hl hA' hB'
      have h1 : splitFirst '=' p = some (a, b) := splitFirst_some.mpr ⟨hab, ha⟩
      have h2 : splitFirst '=' p = some (a', b') := splitFirst_some.mpr ⟨this, ha'⟩
      rw [h1] at h2
      simp only [Option.some.injEq, Prod.mk.injEq] at h2
      obtain ⟨rfl, rfl⟩ := h2
      rw [hv]
  · have hsp : splitFirst '=' (strip p) = none := splitFirst_none.mpr (strip_no_sign h)
    rw [hpl, hsp]
    constructor
    · intro he
      simp only at he
      split at he <;> simp at he
    · rintro ⟨a', b', rest, hl, ha', hA', hB', rfl, hv⟩
      have := huniq a' b' rest hl hA' hB'
      exact absurd (by rw [this]; simp) h

/-- Specification of the value of a trigger after the file has been read: `v` is the last value assigned to `key`. -/
def LastAssigned (lower : List Char → List Char) (ev : List Char → Option V) (lines : List (List Char))
    (key : List Char) (v : V) : Prop :=
  ∃ before line after, lines = before ++ line :: after ∧ Assigns lower ev line key v ∧
    ∀ l ∈ after, ∀ w, ¬ Assigns lower ev l key w

theorem readFile_append (lower : List Char → List Char) (ev : List Char → Option V) (l1 l2 : List (List Char))
    (d : Dict (List Char) V) : readFile lower ev (l1 ++ l2) d = readFile lower ev l2 (readFile lower ev l1 d) := by
  simp [readFile]

theorem readFile_none (lower : List Char → List Char) (ev : List Char → Option V) (key : List Char) :
    ∀ (lines : List (List Char)) (d : Dict (List Char) V), (∀ l ∈ lines, ∀ w, ¬ Assigns lower ev l key w) →
      dget (readFile lower ev lines d) key = dget d key
  | [], _, _ => rfl
  | l :: ls, d, h => by
    have ih := readFile_none lower ev key ls
    unfold readFile at ih ⊢
    rw [List.foldl_cons, ih _ (fun l hl => h l (List.mem_cons_of_mem _ hl))]
    split
    · rename_i k v hk
      rw [dget_dset]
      have hne : k ≠ key := by
        rintro rfl
        exact h l (by simp) v ((parseLine_assign lower ev l k v).mp hk)
      simp [hne]
    · rfl

/-- C44, partial: after reading the file, a trigger has the last value assigned to it by a line of the file, and a
trigger that no line assigns keeps its value: malformed lines, lines that cannot be evaluated, comments and lines for
other names have no effect on it. Missing from the full property: unknown names, that are not ignored but added to the
triggers (`C44_unknown_name_fails`). -/
theorem C44_last_value_partial (lower : List Char → List Char) (ev : List Char → Option V)
    (lines : List (List Char)) (d : Dict (List Char) V) (key : List Char) :
    (∀ v, LastAssigned lower ev lines key v → dget (readFile lower ev lines d) key = some v) ∧
    ((∀ l ∈ lines, ∀ v, ¬ Assigns lower ev l key v) → dget (readFile lower ev lines d) key = dget d key) := by
  constructor
  · rintro v ⟨before, line, after, rfl, hl, hafter⟩
    rw [readFile_append]
    have : readFile lower ev (line :: after) (readFile lower ev before d) =
        readFile lower ev after (dset (readFile lower ev before d) key v) := by
      unfold readFile
      rw [List.foldl_cons]
      simp only [(parseLine_assign lower ev line key v).mpr hl]
    rw [this, readFile_none lower ev key after _ hafter, dget_dset]
    simp
  · exact readFile_none lower ev key lines d

example : dget (readFile id (fun s => if s = "True".toList then some true else if s = "False".toList then some false
      else none) ["# comment = True".toList, " none = True # x".toList, "none = oops".toList, "inplace".toList]
      [("inplace".toList, false), ("none".toList, false)]) "none".toList = some true := by decide

/-- C44 is violated by the code: a name that is not a trigger is added to the triggers by the file. -/
theorem C44_unknown_name_fails :
    ∃ (ev : List Char → Option Bool) (lines : List (List Char)) (d : Dict (List Char) Bool) (key : List Char),
      dget d key = none ∧ dget (readFile id ev lines d) key = some true :=
  ⟨fun s => if s = "True".toList then some true else none, ["nonne = True".toList],
    [("inplace".toList, false), ("none".toList, false)], "nonne".toList, by decide, by decide⟩

end Verif.Rules
