import Verif.Rules.ManagerProps

/-
Property C56: what the triggers are inside the context of a rule manager.
-/

namespace Verif.Rules

variable {K V : Type} [DecidableEq K]

/-- The value given to a name by keyword arguments. -/
def given (kw : List (K × V)) (k : K) : Option V := (kw.find? (fun kv => decide (kv.1 = k))).map Prod.snd

theorem dget_dupdate (d kw : Dict K V) (hn : (kw.map Prod.fst).Nodup) (k : K) :
    dget (dupdate d kw) k = match given kw k with
      | some v => some v
      | none => dget d k := by
  induction kw generalizing d with
  | nil => rfl
  | cons x kw ih =>
    obtain ⟨a, v⟩ := x
    simp only [List.map_cons, List.nodup_cons] at hn
    have h1 : dupdate d ((a, v) :: kw) = dupdate (dset d a v) kw := rfl
    rw [h1, ih _ hn.2, dget_dset]
    unfold given
    by_cases h : a = k
    · subst h
      have : kw.find? (fun kv => decide (kv.1 = a)) = none := by
        rw [List.find?_eq_none]
        intro y hy
        simp only [decide_eq_true_eq]
        intro e
        exact hn.1 (List.mem_map.2 ⟨y, hy, e⟩)
      simp [this]
    · simp [h]

theorem triggers_modify (s : RState K V) (f : Dict K V → Dict K V) (h : s.cur < s.heap.length) :
    (s.modify f).triggers = f s.triggers := by
  unfold RState.triggers RState.modify
  simp [List.getElem?_eq_getElem h]

theorem dset_ne_nil (d : Dict K V) (k : K) (v : V) : dset d k v ≠ [] := by
  cases d with
  | nil => simp [dset]
  | cons x d => unfold dset; split <;> simp

theorem dupdate_ne_nil (d kw : Dict K V) (h : d ≠ []) : dupdate d kw ≠ [] := by
  induction kw generalizing d with
  | nil => exact h
  | cons x kw ih => exact ih _ (dset_ne_nil _ _ _)

theorem construct_triggers (defaults : Defaults K V) (s : RState K V) (h : s.triggers ≠ []) :
    (construct defaults s).triggers = s.triggers := by
  unfold construct
  have : s.triggers.isEmpty = false := by simpa using h
  rw [this]
  rfl

theorem enter_triggers (defaults : Defaults K V) (s : RState K V) (m : Nat) (x : Mgr K V) (hx : s.mgrs[m]? = some x)
    (hcur : s.cur < s.heap.length) (hne : s.triggers ≠ []) :
    (enter defaults s m).triggers = dupdate s.triggers x.deferred := by
  unfold enter
  rw [hx]
  dsimp only
  have ht : (({ s with
        heap := s.heap ++ [s.triggers]
        mgrs := s.mgrs.modify m (fun x => { x with old := some s.heap.length }) } : RState K V)).triggers = s.triggers := by
    unfold RState.triggers
    simp only
    rw [List.getElem?_append_left hcur]
  have h2 : (({ s with
        heap := s.heap ++ [s.triggers]
        mgrs := s.mgrs.modify m (fun x => { x with old := some s.heap.length }) } : RState K V).modify
          (fun d => dupdate d x.deferred)).triggers = dupdate s.triggers x.deferred := by
    rw [triggers_modify _ _ (by simp only [List.length_append, List.length_singleton]; omega), ht]
  rw [construct_triggers _ _ (by rw [h2]; exact dupdate_ne_nil _ _ hne), h2]

/-- C56, partial: in the context `with m(**kw) as n:`, reached by any execution, the names given as keywords have the given values and all
the others the values they had before; the body is executed in a state with these triggers.
Missing from the full property: the contexts entered without keywords (`C56_bare_context_fails`). -/
theorem C56_context_values_partial (defaults : Defaults K V) (s : RState K V) (A : List Nat) (h : Inside defaults s A)
    (m : Nat) (hlt : m < s.mgrs.length) (hne : s.triggers ≠ []) (kw : Dict K V) (hn : (kw.map Prod.fst).Nodup)
    (hkw : ∀ kv ∈ kw, (dget s.triggers kv.1).isSome) :
    ∃ s1 : RState K V,
      (∀ k, dget s1.triggers k = match given kw k with
        | some v => some v
        | none => dget s.triggers k) ∧
      ∀ body : Nat → Prog K V, (exec defaults (.withM m kw body) s).1 = (exec defaults (body s.mgrs.length) s1).1 := by
  obtain ⟨ref, hs⟩ := inside_saved defaults s A h
  have hc : call s m kw = some { s with mgrs := s.mgrs.modify m (fun x => { x with deferred := kw }) } := by
    unfold call
    rw [if_pos (by simpa using hkw)]
  have hx : ({ s with mgrs := s.mgrs.modify m (fun x => { x with deferred := kw }) } : RState K V).mgrs[m]? =
      some { s.mgrs[m] with deferred := kw } := by
    simp [List.getElem?_eq_getElem hlt]
  refine ⟨enter defaults { s with mgrs := s.mgrs.modify m (fun x => { x with deferred := kw }) } m, ?_, ?_⟩
  · intro k
    rw [enter_triggers defaults _ m _ hx hs.cur hne]
    exact dget_dupdate s.triggers kw hn k
  · intro body
    conv_lhs => unfold exec
    rw [if_pos hlt, hc]
    simp

/-- C56: an unknown name raises KeyError and nothing is changed, the body is not executed. -/
theorem C56_unknown_name (defaults : Defaults K V) (s : RState K V) (m : Nat) (kw : Dict K V) (kv : K × V) (hkv : kv ∈ kw)
    (hd : dget s.triggers kv.1 = none) (body : Nat → Prog K V) : exec defaults (.withM m kw body) s = (true, s) := by
  unfold exec
  split
  · have : call s m kw = none := by
      unfold call
      rw [if_neg]
      intro hall
      have := List.all_eq_true.1 hall kv hkv
      rw [hd] at this
      cases this
    rw [this]
  · rfl

/-- C56 is violated by the code: a context entered without keywords applies again the values of the last call of the
manager. -/
theorem C56_bare_context_fails :
    ∃ (defaults : Dict String Bool) (p q : Prog String Bool),
      p = .withM 0 [("none", true)] (fun _ => .skip) ∧ q = .withBare 0 (fun _ => .skip) ∧
      dget (exec defaults p (initState defaults)).2.triggers "none" = some false ∧
      dget (enter defaults (exec defaults p (initState defaults)).2 0).triggers "none" = some true :=
  ⟨[("inplace", false), ("none", false)], _, _, rfl, rfl, by decide, by decide⟩

/-- The initial state and a nested one meet the hypotheses. -/
example : let d : Dict String Bool := [("inplace", false), ("none", false)]
    Inside d (initState d) [] ∧ 0 < (initState d).mgrs.length ∧ (initState d).triggers ≠ [] ∧
      ([("none", true)].map Prod.fst : List String).Nodup ∧
      ∀ kv ∈ [("none", true)], (dget (initState d).triggers kv.1).isSome :=
  ⟨.init, by decide, by decide, by decide, by decide⟩

example : let d : Dict String Bool := [("inplace", false), ("none", false)]
    dget (initState d).triggers ("unknown", true).1 = none := by decide

end Verif.Rules
