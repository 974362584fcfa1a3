import Verif.Rules.ContextProps

/-
Property C117: the rule manager is a finite map with lexically scoped contexts. The reference semantics below knows
neither the heap of dictionaries, nor the saved references, nor the deferred keywords of the managers.
-/

namespace Verif.Rules

variable {K V : Type} [DecidableEq K]

set_option linter.unusedSectionVars false

/-- What is observed of the triggers: the value of each name, if it is known. -/
abbrev Env (K V : Type) := K → Option V

/-- The map with one more assignment. -/
def Env.put (e : Env K V) (k : K) (v : V) : Env K V := fun k' => if k = k' then some v else e k'

/-- The map with several assignments, the last ones win. -/
def Env.puts (e : Env K V) (items : List (K × V)) : Env K V := items.foldl (fun e kv => e.put kv.1 kv.2) e

/-- The map without a name. -/
def Env.drop (e : Env K V) (k : K) : Env K V := fun k' => if k = k' then none else e k'

open Classical in
/-- The reference semantics of a program, in which `count` managers exist: whether an exception is raised, the number of
managers and the triggers afterwards. The body of a context is executed with the keywords assigned on top of the
triggers, with the default triggers if there is no trigger at all, and the triggers before the context are the ones
after it. -/
noncomputable def scopedExec (defaults : List (K × V)) : Prog K V → Nat → Env K V → Bool × Nat × Env K V
  | .skip, c, e => (false, c, e)
  | .raise, c, e => (true, c, e)
  | .seq p q, c, e =>
    let r := scopedExec defaults p c e
    if r.1 = true then r else scopedExec defaults q r.2.1 r.2.2
  | .tryCatch p q, c, e =>
    let r := scopedExec defaults p c e
    if r.1 = true then scopedExec defaults q r.2.1 r.2.2 else r
  | .setItem k v, c, e => if e k = none then (true, c, e) else (false, c, e.put k v)
  | .register k v, c, e => (false, c, e.put k v)
  | .update items, c, e => (false, c, e.puts items)
  | .pop k, c, e => if e k = none then (true, c, e) else (false, c, e.drop k)
  | .clear, c, _ => (false, c, fun _ => none)
  | .withM m kw body, c, e =>
    if c ≤ m ∨ ∃ kv ∈ kw, e kv.1 = none then (true, c, e)
    else
      let e1 := e.puts kw
      let r := scopedExec defaults (body c) (c + 1) (if ∀ k, e1 k = none then e1.puts defaults else e1)
      (r.1, r.2.1, e)
  | .withBare m body, c, e =>
    if c ≤ m then (true, c, e)
    else
      let r := scopedExec defaults (body c) (c + 1) (if ∀ k, e k = none then e.puts defaults else e)
      (r.1, r.2.1, e)

/-- The programs in which all the contexts are given their keywords. -/
inductive WithKeywords : Prog K V → Prop
  | skip : WithKeywords .skip
  | raise : WithKeywords .raise
  | seq {p q} : WithKeywords p → WithKeywords q → WithKeywords (.seq p q)
  | tryCatch {p q} : WithKeywords p → WithKeywords q → WithKeywords (.tryCatch p q)
  | setItem {k v} : WithKeywords (.setItem k v)
  | register {k v} : WithKeywords (.register k v)
  | update {items} : WithKeywords (.update items)
  | pop {k} : WithKeywords (.pop k)
  | clear : WithKeywords .clear
  | withM {m kw body} : (∀ n, WithKeywords (body n)) → WithKeywords (.withM m kw body)

/-- What is observed in a state. -/
def view (s : RState K V) : Nat × Env K V := (s.mgrs.length, dget s.triggers)

theorem dget_dset_put (d : Dict K V) (k : K) (v : V) : dget (dset d k v) = Env.put (dget d) k v := by
  funext k'
  rw [dget_dset]
  rfl

theorem dget_dupdate_puts (d items : Dict K V) : dget (dupdate d items) = Env.puts (dget d) items := by
  induction items generalizing d with
  | nil => rfl
  | cons x items ih =>
    have h1 : dupdate d (x :: items) = dupdate (dset d x.1 x.2) items := rfl
    rw [h1, ih, dget_dset_put]
    rfl

theorem dget_dpop (d : Dict K V) (k : K) : dget (dpop d k) = Env.drop (dget d) k := by
  funext k'
  induction d with
  | nil => simp [dpop, dget, Env.drop]
  | cons x d ih =>
    obtain ⟨a, v⟩ := x
    unfold dpop at ih ⊢
    unfold Env.drop at ih ⊢
    by_cases h : a = k
    · subst h
      rw [List.filter_cons_of_neg (by simp), ih]
      by_cases h2 : a = k'
      · simp [h2]
      · simp [h2, dget]
    · rw [List.filter_cons_of_pos (by simpa using h)]
      by_cases h2 : a = k'
      · subst h2
        simp [dget, Ne.symm h]
      · simp only [dget, if_neg h2]
        exact ih

theorem isEmpty_iff (d : Dict K V) : d.isEmpty = true ↔ ∀ k, dget d k = none := by
  cases d with
  | nil => simp [dget]
  | cons x d =>
    obtain ⟨a, v⟩ := x
    simp only [List.isEmpty_cons, Bool.false_eq_true, false_iff, not_forall]
    exact ⟨a, by simp [dget]⟩

open Classical in
theorem view_construct (defaults : Defaults K V) (s : RState K V) (h : s.cur < s.heap.length) :
    view (construct defaults s) = (s.mgrs.length + 1,
      if ∀ k, dget s.triggers k = none then Env.puts (dget s.triggers) defaults else dget s.triggers) := by
  unfold construct view
  by_cases he : s.triggers.isEmpty = true
  · rw [if_pos ((isEmpty_iff _).1 he)]
    simp only [he, if_true]
    refine Prod.ext ?_ ?_
    · simp [RState.modify]
    · have := triggers_modify s (fun d => dupdate d defaults) h
      show dget (s.modify (fun d => dupdate d defaults)).triggers = _
      rw [this, dget_dupdate_puts]
  · rw [if_neg (fun h => he ((isEmpty_iff _).2 h))]
    simp only [he, if_false]
    refine Prod.ext ?_ rfl
    simp

open Classical in
theorem view_enter (defaults : Defaults K V) (s : RState K V) (m : Nat) (x : Mgr K V) (hx : s.mgrs[m]? = some x)
    (hcur : s.cur < s.heap.length) :
    view (enter defaults s m) = (s.mgrs.length + 1,
      if ∀ k, Env.puts (dget s.triggers) x.deferred k = none then
        Env.puts (Env.puts (dget s.triggers) x.deferred) defaults
      else Env.puts (dget s.triggers) x.deferred) := by
  unfold enter
  rw [hx]
  dsimp only
  have ht : (({ s with
        heap := s.heap ++ [s.triggers]
        mgrs := s.mgrs.modify m (fun x => { x with old := some s.heap.length }) } : RState K V)).triggers = s.triggers := by
    unfold RState.triggers
    simp only
    rw [List.getElem?_append_left hcur]
  rw [view_construct]
  · rw [triggers_modify _ _ (by simp only [List.length_append, List.length_singleton]; omega), ht, dget_dupdate_puts]
    simp [RState.modify]
  · simp only [RState.modify, List.length_modify, List.length_append, List.length_singleton]; omega

theorem view_modify (s : RState K V) (f : Dict K V → Dict K V) (h : s.cur < s.heap.length) :
    view (s.modify f) = (s.mgrs.length, dget (f s.triggers)) := by
  unfold view
  rw [triggers_modify _ _ h]
  rfl

/-- The simulation. -/
theorem exec_scoped (defaults : Defaults K V) (A : List Nat) (p : Prog K V) (hp : NoReentry A p)
    (hk : WithKeywords p) : ∀ (s : RState K V) (ref : Nat → Nat), Saved s A ref →
      ((exec defaults p s).1, view (exec defaults p s).2) = scopedExec defaults p (view s).1 (view s).2 := by
  induction hp with
  | skip => intro s ref h; rfl
  | raise => intro s ref h; rfl
  | seq hp1 hp2 ih1 ih2 =>
    intro s ref h
    cases hk with
    | seq k1 k2 =>
      have h1 := ih1 k1 s ref h
      have hs := exec_keeps defaults _ _ hp1 s ref h
      conv_rhs => unfold scopedExec
      conv_lhs => unfold exec
      generalize hr : exec defaults _ s = r at h1 hs
      obtain ⟨b, s1⟩ := r
      simp only [← h1]
      cases b
      · simpa using ih2 k2 s1 ref hs.saved
      · simp
  | tryCatch hp1 hp2 ih1 ih2 =>
    intro s ref h
    cases hk with
    | tryCatch k1 k2 =>
      have h1 := ih1 k1 s ref h
      have hs := exec_keeps defaults _ _ hp1 s ref h
      conv_rhs => unfold scopedExec
      conv_lhs => unfold exec
      generalize hr : exec defaults _ s = r at h1 hs
      obtain ⟨b, s1⟩ := r
      simp only [← h1]
      cases b
      · simp
      · simpa using ih2 k2 s1 ref hs.saved
  | @setItem A k v =>
    intro s ref h
    unfold exec scopedExec
    by_cases hn : dget s.triggers k = none
    · simp [hn, view]
    · have : (dget s.triggers k).isSome = true := Option.isSome_iff_ne_none.2 hn
      simp only [this, if_true]
      rw [if_neg (show ¬ (view s).2 k = none from hn), view_modify _ _ h.cur, dget_dset_put]
      rfl
  | @register A k v =>
    intro s ref h
    unfold exec scopedExec
    simp only
    rw [view_modify _ _ h.cur, dget_dset_put]
    rfl
  | @update A items =>
    intro s ref h
    unfold exec scopedExec
    simp only
    rw [view_modify _ _ h.cur, dget_dupdate_puts]
    rfl
  | @pop A k =>
    intro s ref h
    unfold exec scopedExec
    by_cases hn : dget s.triggers k = none
    · simp [hn, view]
    · have : (dget s.triggers k).isSome = true := Option.isSome_iff_ne_none.2 hn
      simp only [this, if_true]
      rw [if_neg (show ¬ (view s).2 k = none from hn), view_modify _ _ h.cur, dget_dpop]
      rfl
  | clear =>
    intro s ref h
    unfold exec scopedExec
    simp only
    rw [view_modify _ _ h.cur]
    rfl
  | @withM A m kw body hm hb ih =>
    intro s ref h
    have hr : (exec defaults (.withM m kw body) s).2.triggers = s.triggers :=
      with_restores defaults A ref s m kw body h (.withM hm hb)
    cases hk with
    | withM kb =>
      unfold scopedExec
      by_cases hlt : m < s.mgrs.length
      · by_cases hall : kw.all (fun kv => (dget s.triggers kv.1).isSome) = true
        · have hc : call s m kw = some { s with mgrs := s.mgrs.modify m (fun x => { x with deferred := kw }) } := by
            unfold call
            rw [if_pos hall]
          obtain ⟨hkp, ht, hml⟩ := call_saved h m hm kw hc
          have hx : ({ s with mgrs := s.mgrs.modify m (fun x => { x with deferred := kw }) } : RState K V).mgrs[m]? =
              some { s.mgrs[m] with deferred := kw } := by
            simp [List.getElem?_eq_getElem hlt]
          have hlt1 : m < ({ s with mgrs := s.mgrs.modify m (fun x => { x with deferred := kw }) } : RState K V).mgrs.length := by
            rw [hml]; exact hlt
          obtain ⟨ref', _, _, hsv, _⟩ := enter_saved hkp.saved m hm hlt1 defaults
          have hi := ih _ (fresh_manager hkp.saved m hlt1) (kb _) _ ref' hsv
          rw [view_enter defaults _ m _ hx hkp.saved.cur] at hi
          rw [hml, ht] at hi
          have hneg : ¬ ((view s).1 ≤ m ∨ ∃ kv ∈ kw, (view s).2 kv.1 = none) := by
            rintro (h1 | ⟨kv, h1, h2⟩)
            · have : s.mgrs.length ≤ m := h1
              omega
            · have := List.all_eq_true.1 hall kv h1
              rw [show dget s.triggers kv.1 = none from h2] at this
              cases this
          rw [if_neg hneg]
          unfold exec at hr ⊢
          rw [if_pos hlt] at hr ⊢
          rw [hc] at hr ⊢
          simp only at hr ⊢
          rw [hml] at hr ⊢
          simp only at hi
          show _ = ((scopedExec defaults (body s.mgrs.length) (s.mgrs.length + 1) _).1,
            (scopedExec defaults (body s.mgrs.length) (s.mgrs.length + 1) _).2.1, (view s).2)
          rw [show (view s).2 = dget s.triggers from rfl, ← hi]
          refine Prod.ext rfl (Prod.ext ?_ ?_)
          · show (exit _ m).mgrs.length = List.length _
            have hks := exec_keeps defaults _ _ (hb _ (fresh_manager hkp.saved m hlt1)) _ ref' hsv
            rw [hml] at hks
            exact congrArg _ (exit_saved hm hks.saved).2.2.2
          · exact congrArg dget hr
        · have hc : call s m kw = none := by
            unfold call
            rw [if_neg hall]
          have hpos : ((view s).1 ≤ m ∨ ∃ kv ∈ kw, (view s).2 kv.1 = none) := by
            right
            simp only [List.all_eq_true, not_forall] at hall
            obtain ⟨kv, h1, h2⟩ := hall
            exact ⟨kv, h1, by simpa [view] using h2⟩
          rw [if_pos hpos]
          unfold exec
          rw [if_pos hlt, hc]
      · rw [if_pos (Or.inl (by show s.mgrs.length ≤ m; omega))]
        unfold exec
        rw [if_neg hlt]
  | withBare => intro s ref h; cases hk

/-- C117, partial: wherever a program is executed, possibly inside contexts that are active, it raises an exception if
and only if it does with lexically scoped triggers, and the triggers afterwards are the same.
Missing from the full property: the contexts entered without keywords (`C117_bare_context_fails`), the re-entry of an
active manager (`C09_reentry_fails`) and the names that are not in lower case (`C117_upper_case_fails`). -/
theorem C117_scoped_partial (defaults : Defaults K V) (s : RState K V) (A : List Nat) (h : Inside defaults s A)
    (p : Prog K V) (hp : NoReentry A p) (hk : WithKeywords p) :
    (exec defaults p s).1 = (scopedExec defaults p s.mgrs.length (dget s.triggers)).1 ∧
      dget (exec defaults p s).2.triggers = (scopedExec defaults p s.mgrs.length (dget s.triggers)).2.2 := by
  obtain ⟨ref, hs⟩ := inside_saved defaults s A h
  have := exec_scoped defaults A p hp hk s ref hs
  exact ⟨congrArg Prod.fst this, congrArg (fun r => r.2.2) this⟩

/-- The nested contexts of the documentation of the class, a removal and an exception that is caught. -/
def sample : Prog String Bool :=
  .seq (.tryCatch (.withM 0 [("none", true)] (fun n =>
      .seq (.pop "inplace") (.seq (.withM n [("none", false)] (fun _ => .skip)) (.setItem "inplace" true)))) .skip)
    (.setItem "inplace" true)

example : let d : Dict String Bool := [("inplace", false), ("none", false)]
    Inside d (initState d) [] ∧ NoReentry [] sample ∧ WithKeywords sample ∧
      (exec d sample (initState d)).1 = false ∧
      (exec d sample (initState d)).2.triggers = [("inplace", true), ("none", false)] :=
  ⟨.init,
    .seq (.tryCatch (.withM (by simp) (fun n hn =>
      .seq .pop (.seq (.withM (by simpa using hn) (fun _ _ => .skip)) .setItem))) .skip) .setItem,
    .seq (.tryCatch (.withM (fun _ => .seq .pop (.seq (.withM (fun _ => .skip)) .setItem))) .skip) .setItem,
    by decide, by decide⟩

/-- C117 is violated by the code: a context without keywords assigns again the keywords of the previous context of the
same manager, so that the trigger `a`, removed in between, is known in the second context. -/
theorem C117_bare_context_fails :
    ∃ (defaults : Dict String Bool) (p : Prog String Bool),
      p = .seq (.withM 0 [("a", true)] (fun _ => .skip)) (.seq (.pop "a") (.withBare 0 (fun _ => .pop "a"))) ∧
      (exec defaults p (initState defaults)).1 = false ∧
      (scopedExec defaults p 1 (dget (initState defaults).triggers)).1 = true := by
  refine ⟨[("a", false), ("b", false)], _, rfl, by decide, ?_⟩
  have hv : dget (initState [("a", false), ("b", false)]).triggers =
      Env.puts (fun _ => none) [("a", false), ("b", false)] := dget_dupdate_puts _ _
  rw [hv]
  generalize hE : (Env.puts (fun _ => none) [("a", false), ("b", false)] : Env String Bool) = E
  have ha : E "a" ≠ none := by rw [← hE]; decide
  have hb : E "b" ≠ none := by rw [← hE]; decide
  have e1 : scopedExec [("a", false), ("b", false)] (.withM 0 [("a", true)] (fun _ => .skip)) 1 E = (false, 2, E) := by
    unfold scopedExec
    rw [if_neg]
    · simp [scopedExec]
    · rintro (h | ⟨kv, hm, h⟩)
      · omega
      · rw [List.mem_singleton.1 hm] at h
        exact ha h
  have e2 : scopedExec [("a", false), ("b", false)] (.pop "a") 2 E = (false, 2, E.drop "a") := by
    unfold scopedExec
    rw [if_neg ha]
  have e3 : (scopedExec [("a", false), ("b", false)] (.withBare 0 (fun _ => .pop "a")) 2 (E.drop "a")).1 = true := by
    unfold scopedExec
    have hne : ¬ ∀ k, E.drop "a" k = none := fun h => hb (by simpa [Env.drop] using h "b")
    rw [if_neg (by omega), if_neg hne]
    simp [scopedExec, Env.drop]
  conv_lhs => unfold scopedExec
  rw [e1]
  simp only [Bool.false_eq_true, if_false]
  conv_lhs => unfold scopedExec
  rw [e2]
  simp only [Bool.false_eq_true, if_false]
  exact e3

/-- `rule_manager.register(rule, default, description)`: src/pyoperators/rules.py:373-382, the name is put in lower case;
the description is not modelled. -/
def registerName (defaults : Defaults String V) (rule : String) (default : V) (s : RState String V) : RState String V :=
  (exec defaults (.register rule.toLower default) s).2

/-- C117: a rule registered under a name in lower case is known under that name, with its default value, and the
others are unchanged. -/
theorem C117_registered_partial (defaults : Defaults String V) (s : RState String V) (A : List Nat)
    (h : Inside defaults s A) (rule : String) (hl : rule.toLower = rule) (v : V) (k : String) :
    dget (registerName defaults rule v s).triggers k = if rule = k then some v else dget s.triggers k := by
  unfold registerName
  rw [hl, (C117_scoped_partial defaults s A h _ .register .register).2]
  rfl

example : ("myrule" : String).toLower = "myrule" := by decide +kernel

/-- C117 is violated by the code: a rule registered under a name that is not in lower case is unknown under that name. -/
theorem C117_upper_case_fails :
    ∃ (defaults : Dict String Bool) (rule : String),
      dget (registerName defaults rule true (initState defaults)).triggers rule = none ∧
      (exec defaults (.setItem rule false) (registerName defaults rule true (initState defaults))).1 = true ∧
      dget (registerName defaults rule true (initState defaults)).triggers "myrule" = some true :=
  ⟨[("inplace", false)], "MyRule", by decide +kernel, by decide +kernel, by decide +kernel⟩

end Verif.Rules
