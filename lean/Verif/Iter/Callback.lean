import Verif.Iter.Control

/-!
Model of the callbacks of the iterative algorithms: src/pyoperators/iterative/core.py:160-170 (`callback`), 223-241 (`next`) and 329-335
(`_set_callback`), and property C111. The control flow is that of Verif/Iter/Control.lean, in which callbacks are left out; here, the callback is a
function of the number of iterations and of the attributes, which changes a store of the user (`T`) and may raise an exception.
-/

namespace Verif.Iter.Callback

open Verif.Iter

variable {S T : Type}

/-- A callback: the store after the call, and whether it raises an exception. -/
abbrev Callback (S T : Type) := Nat → S → T → T × Bool

/-- How a call ends: as in Verif/Iter/Control.lean, or by an exception of the callback. -/
inductive Outcome where
  | ended (e : End)
  | callbackError
  deriving DecidableEq, Repr

/-- How the body of the loop ends. -/
inductive Step where
  | signal (g : Signal)
  | callbackError
  deriving DecidableEq, Repr

/-- The body of the loop of `next`: src/pyoperators/iterative/core.py:228-240. The exception of the callback leaves the loop before
`_update_variables`. -/
def step (A : Algo S) (cb : Callback S T) (i : Inst S) (t : T) : Inst S × T × Step :=
  match A.check i with
  | .stop => (i, t, .signal .stop)
  | .abnormal => (i, t, .signal .abnormal)
  | .go =>
    let n := i.niterations + 1
    match A.iteration i.state with
    | (s, .stop) =>
      match cb n s t with
      | (t', true) => (⟨n, s⟩, t', .callbackError)
      | (t', false) => (⟨n, A.update s⟩, t', .signal .stop)
    | (s, .abnormal) => (⟨n, s⟩, t, .signal .abnormal)
    | (s, .go) =>
      match cb n s t with
      | (t', true) => (⟨n, s⟩, t', .callbackError)
      | (t', false) => (⟨n, A.update s⟩, t', .signal .go)

/-- The loop of `next`: src/pyoperators/iterative/core.py:227-240. -/
def loop (A : Algo S) (cb : Callback S T) : Nat → Inst S → T → Inst S × T × Step
  | 0, i, t => (i, t, .signal .go)
  | n + 1, i, t =>
    match step A cb i t with
    | (j, t', .signal .go) => loop A cb n j t'
    | r => r

/-- How the end of the loop leaves `next`. -/
def Step.outcome : Step → Outcome
  | .signal g => .ended g.raised
  | .callbackError => .callbackError

/-- `next`: src/pyoperators/iterative/core.py:223-241. -/
def next (A : Algo S) (cb : Callback S T) (n : Nat) (i : Inst S) (t : T) : Inst S × T × Outcome :=
  if i.niterations = A.order - 1 then
    match A.init i with
    | none => (i, t, .ended .runtimeError)
    | some (j, .go) =>
      let r := loop A cb n j t
      (r.1, r.2.1, r.2.2.outcome)
    | some (j, g) => (j, t, .ended g.raised)
  else
    let r := loop A cb n i t
    (r.1, r.2.1, r.2.2.outcome)

/-- `except StopIteration: pass`: src/pyoperators/iterative/core.py:180-184 and 270-275. -/
def catchStop : Inst S × T × Outcome → Inst S × T × Outcome
  | (i, t, .ended .stopIteration) => (i, t, .ended .returned)
  | r => r

/-- `cont`: src/pyoperators/iterative/core.py:172-184. -/
def cont (A : Algo S) (cb : Callback S T) (i : Inst S) (t : T) : Inst S × T × Outcome :=
  if i.niterations = 0 then (i, t, .ended .runtimeError) else catchStop (next A cb maxInt i t)

/-- `run`: src/pyoperators/iterative/core.py:261-275. -/
def run (A : Algo S) (cb : Callback S T) (n : Option Nat) (i : Inst S) (t : T) : Inst S × T × Outcome :=
  if i.niterations > A.order - 1 then (i, t, .ended .runtimeError) else catchStop (next A cb (orMax n) i t)

/-- `restart`: src/pyoperators/iterative/core.py:256-259. -/
def restart (A : Algo S) (cb : Callback S T) (n : Option Nat) (i : Inst S) (t : T) : Inst S × T × Outcome :=
  match A.init i with
  | none => (i, t, .ended .runtimeError)
  | some (j, .go) => run A cb n j t
  | some (j, g) => (j, t, .ended g.raised)

/-- The default callback: src/pyoperators/iterative/core.py:160-170, and 145 for the processes other than the first one, on which nothing is
displayed. Without display nothing is done; an in-place recursion displays the solution, a recursion of one variable displays it; with several
variables, `current` has no value and its use raises UnboundLocalError. The text that is displayed is not modelled: the store counts the lines. -/
def display (disp inplace : Bool) (rank nvariables : Nat) : Callback S Nat := fun _ _ lines =>
  let disp := if rank > 0 then false else disp
  if !disp then (lines, false)
  else if inplace then (lines + 1, false)
  else if nvariables = 1 then (lines + 1, false)
  else (lines, true)

/-- A callback that saves the number of iterations and the attributes. -/
def saving : Callback S (List (Nat × S)) := fun n s saved => (saved ++ [(n, s)], false)

/-! ### The property -/

/-- The methods that the user calls. -/
inductive Command where
  | next (n : Nat)
  | run (n : Option Nat)
  | cont
  | restart (n : Option Nat)

/-- A method of an algorithm with a callback. -/
def exec (A : Algo S) (cb : Callback S T) : Command → Inst S → T → Inst S × T × Outcome
  | .next n => next A cb n
  | .run n => run A cb n
  | .cont => cont A cb
  | .restart n => restart A cb n

/-- The same method if there were no callback. -/
def bare (A : Algo S) : Command → Inst S → Inst S × End
  | .next n => A.next n
  | .run n => A.run n
  | .cont => A.cont
  | .restart n => A.restart n

/-- A callback that never raises an exception. -/
def Quiet (cb : Callback S T) : Prop := ∀ n s t, (cb n s t).2 = false

/-- The states that the iterations produce one after the other, before `_update_variables`. -/
def after (A : Algo S) (s : S) : Nat → S
  | 0 => (A.iteration s).1
  | k + 1 => (A.iteration (A.update (after A s k))).1

theorem step_quiet (A : Algo S) (cb : Callback S T) (h : Quiet cb) (i : Inst S) (t : T) :
    ∃ t', step A cb i t = ((A.step i).1, t', .signal (A.step i).2) := by
  unfold step Algo.step
  cases A.check i with
  | stop => exact ⟨_, rfl⟩
  | abnormal => exact ⟨_, rfl⟩
  | go =>
    dsimp only
    rcases A.iteration i.state with ⟨s, g⟩
    have hq := h (i.niterations + 1) s t
    rcases hc : cb (i.niterations + 1) s t with ⟨t', b⟩
    rw [hc] at hq
    simp only at hq
    subst hq
    cases g <;> dsimp only <;> first | exact ⟨_, rfl⟩ | (rw [hc]; exact ⟨_, rfl⟩)

theorem loop_quiet (A : Algo S) (cb : Callback S T) (h : Quiet cb) (n : Nat) (i : Inst S) (t : T) :
    ∃ t', loop A cb n i t = ((A.loop n i).1, t', .signal (A.loop n i).2) := by
  induction n generalizing i t with
  | zero => exact ⟨t, rfl⟩
  | succ n ih =>
    obtain ⟨t', ht⟩ := step_quiet A cb h i t
    rcases hs : A.step i with ⟨j, g⟩
    rw [hs] at ht
    cases g
    · obtain ⟨u, hu⟩ := ih j t'
      exact ⟨u, by simp only [loop, ht, Algo.loop, hs, hu]⟩
    · exact ⟨t', by simp only [loop, ht, Algo.loop, hs]⟩
    · exact ⟨t', by simp only [loop, ht, Algo.loop, hs]⟩

theorem next_quiet (A : Algo S) (cb : Callback S T) (h : Quiet cb) (n : Nat) (i : Inst S) (t : T) :
    ∃ t', next A cb n i t = ((A.next n i).1, t', .ended (A.next n i).2) := by
  unfold next Algo.next
  split
  · rcases A.init i with _ | ⟨j, g⟩
    · exact ⟨_, rfl⟩
    · cases g
      · obtain ⟨t', ht⟩ := loop_quiet A cb h n j t
        exact ⟨t', by simp only [ht, Step.outcome]⟩
      · exact ⟨_, rfl⟩
      · exact ⟨_, rfl⟩
  · obtain ⟨t', ht⟩ := loop_quiet A cb h n i t
    exact ⟨t', by simp only [ht, Step.outcome]⟩

theorem catchStop_quiet (r : Inst S × End) (t : T) :
    catchStop (r.1, t, Outcome.ended r.2) = ((Verif.Iter.catchStop r).1, t, .ended (Verif.Iter.catchStop r).2) := by
  rcases r with ⟨i, e⟩
  cases e <;> rfl

theorem run_quiet (A : Algo S) (cb : Callback S T) (h : Quiet cb) (n : Option Nat) (i : Inst S) (t : T) :
    ∃ t', run A cb n i t = ((A.run n i).1, t', .ended (A.run n i).2) := by
  unfold run Algo.run
  split
  · exact ⟨_, rfl⟩
  · obtain ⟨t', ht⟩ := next_quiet A cb h (orMax n) i t
    exact ⟨t', by rw [ht, catchStop_quiet]⟩

/-- C111: a callback that raises no exception does not change what a method of the algorithm does: the state, the number of iterations and
the way in which it ends are the same as without callback. -/
theorem C111_quiet (A : Algo S) (cb : Callback S T) (h : Quiet cb) (c : Command) (i : Inst S) (t : T) :
    (exec A cb c i t).1 = (bare A c i).1 ∧ (exec A cb c i t).2.2 = .ended (bare A c i).2 := by
  have key : ∃ t', exec A cb c i t = ((bare A c i).1, t', .ended (bare A c i).2) := by
    cases c with
    | next n => exact next_quiet A cb h n i t
    | run n => exact run_quiet A cb h n i t
    | cont =>
      unfold exec bare cont Algo.cont
      dsimp only
      split
      · exact ⟨_, rfl⟩
      · obtain ⟨t', ht⟩ := next_quiet A cb h maxInt i t
        exact ⟨t', by rw [ht, catchStop_quiet]⟩
    | restart n =>
      unfold exec bare restart Algo.restart
      dsimp only
      rcases A.init i with _ | ⟨j, g⟩
      · exact ⟨_, rfl⟩
      · cases g
        · exact run_quiet A cb h n j t
        · exact ⟨_, rfl⟩
        · exact ⟨_, rfl⟩
  obtain ⟨t', ht⟩ := key
  rw [ht]
  exact ⟨rfl, rfl⟩

/-- A callback that raises an exception for the iterations and the states `r`, and that remembers it. -/
def recording (r : Nat → S → Bool) : Callback S Bool := fun n s t => (t || r n s, r n s)

theorem step_raised (A : Algo S) (r : Nat → S → Bool) (i : Inst S) :
    (step A (recording r) i false).2.1 = true ↔ (step A (recording r) i false).2.2 = .callbackError := by
  unfold step
  cases A.check i with
  | stop => simp
  | abnormal => simp
  | go =>
    dsimp only
    rcases A.iteration i.state with ⟨s, g⟩
    cases g <;> cases h : r (i.niterations + 1) s <;> simp [recording, h]

theorem loop_raised (A : Algo S) (r : Nat → S → Bool) (n : Nat) (i : Inst S) :
    (loop A (recording r) n i false).2.1 = true ↔ (loop A (recording r) n i false).2.2 = .callbackError := by
  induction n generalizing i with
  | zero => simp [loop]
  | succ n ih =>
    have hs := step_raised A r i
    unfold loop
    rcases h : step A (recording r) i false with ⟨j, t, g⟩
    rw [h] at hs
    match g with
    | .signal .go =>
      have ht : t = false := by simpa using hs
      subst ht
      exact ih j
    | .signal .stop => exact hs
    | .signal .abnormal => exact hs
    | .callbackError => exact hs

theorem next_raised (A : Algo S) (r : Nat → S → Bool) (n : Nat) (i : Inst S) :
    (next A (recording r) n i false).2.1 = true ↔ (next A (recording r) n i false).2.2 = .callbackError := by
  have ho : ∀ g : Step, g.outcome = .callbackError ↔ g = .callbackError := by
    intro g
    cases g <;> simp [Step.outcome]
  unfold next
  split
  · rcases A.init i with _ | ⟨j, g⟩
    · simp
    · cases g
      · simp only [ho]
        exact loop_raised A r n j
      · simp
      · simp
  · simp only [ho]
    exact loop_raised A r n i

theorem catchStop_raised (x : Inst S × Bool × Outcome) (h : x.2.1 = true ↔ x.2.2 = .callbackError) :
    (catchStop x).2.1 = true ↔ (catchStop x).2.2 = .callbackError := by
  unfold catchStop
  split
  · simpa using h
  · exact h

theorem run_raised (A : Algo S) (r : Nat → S → Bool) (n : Option Nat) (i : Inst S) :
    (run A (recording r) n i false).2.1 = true ↔ (run A (recording r) n i false).2.2 = .callbackError := by
  unfold run
  split
  · simp
  · exact catchStop_raised _ (next_raised A r _ i)

/-- C111: an exception of the callback, in whichever iteration it is raised, is the end of the method that the user has called, which ends by such an exception in
no other case. -/
theorem C111_raised (A : Algo S) (r : Nat → S → Bool) (c : Command) (i : Inst S) :
    (exec A (recording r) c i false).2.1 = true ↔ (exec A (recording r) c i false).2.2 = .callbackError := by
  cases c with
  | next n => exact next_raised A r n i
  | run n => exact run_raised A r n i
  | cont =>
    unfold exec cont
    dsimp only
    split
    · simp
    · exact catchStop_raised _ (next_raised A r _ i)
  | restart n =>
    unfold exec restart
    dsimp only
    rcases A.init i with _ | ⟨j, g⟩
    · simp
    · cases g
      · exact run_raised A r n j
      · simp
      · simp

/-- C111, partial: the display of the default callback does not change what an algorithm does, if there is one variable, if the recursion is in-place, or on
the processes other than the first one. Missing: several variables on the first process (`C111_display_fails`). -/
theorem C111_display_partial (A : Algo S) (disp inplace : Bool) (rank nvariables : Nat) (hv : nvariables = 1 ∨ inplace = true ∨ disp = false ∨ rank > 0)
    (c : Command) (i : Inst S) (lines : Nat) :
    (exec A (display disp inplace rank nvariables) c i lines).1 = (bare A c i).1 ∧
    (exec A (display disp inplace rank nvariables) c i lines).2.2 = .ended (bare A c i).2 := by
  apply C111_quiet
  intro n s t
  unfold display
  by_cases hr : rank > 0
  · simp [hr]
  · rcases hv with h | h | h | h <;> cases disp <;> cases inplace <;> simp_all

/-- The calls of `saving` in a loop. -/
theorem loop_saving (A : Algo S) (n : Nat) (i : Inst S) (saved : List (Nat × S)) :
    ∃ m, m ≤ n ∧ (loop A saving n i saved).2.1 = saved ++ (List.range m).map (fun k => (i.niterations + k + 1, after A i.state k)) ∧
      ((loop A saving n i saved).2.2 = .signal .abnormal ∧
          ((loop A saving n i saved).1.niterations = i.niterations + m ∨ (loop A saving n i saved).1.niterations = i.niterations + m + 1) ∨
        (loop A saving n i saved).2.2 ≠ .signal .abnormal ∧ (loop A saving n i saved).1.niterations = i.niterations + m) := by
  induction n generalizing i saved with
  | zero => exact ⟨0, Nat.le_refl _, by simp [loop], .inr ⟨by simp [loop], rfl⟩⟩
  | succ n ih =>
    cases hc : A.check i with
    | stop => exact ⟨0, by omega, by simp [loop, step, hc], .inr ⟨by simp [loop, step, hc], by simp [loop, step, hc]⟩⟩
    | abnormal => exact ⟨0, by omega, by simp [loop, step, hc], .inl ⟨by simp [loop, step, hc], .inl (by simp [loop, step, hc])⟩⟩
    | go =>
      rcases hit : A.iteration i.state with ⟨s, g⟩
      cases g with
      | stop =>
        refine ⟨1, by omega, ?_, .inr ⟨?_, ?_⟩⟩
        · simp [loop, step, hc, hit, saving, after]
        · simp [loop, step, hc, hit, saving]
        · simp [loop, step, hc, hit, saving]
      | abnormal =>
        refine ⟨0, by omega, ?_, .inl ⟨?_, .inr ?_⟩⟩
        · simp [loop, step, hc, hit]
        · simp [loop, step, hc, hit]
        · simp [loop, step, hc, hit]
      | go =>
        have hl : loop A saving (n + 1) i saved = loop A saving n ⟨i.niterations + 1, A.update s⟩ (saved ++ [(i.niterations + 1, s)]) := by
          simp [loop, step, hc, hit, saving]
        obtain ⟨m, hm, h1, h2⟩ := ih ⟨i.niterations + 1, A.update s⟩ (saved ++ [(i.niterations + 1, s)])
        have hafter : ∀ k, after A (A.update s) k = after A i.state (k + 1) := by
          intro k
          induction k with
          | zero => simp [after, hit]
          | succ k ihk => rw [after, ihk]; rfl
        refine ⟨m + 1, by omega, ?_, ?_⟩
        · rw [hl, h1, List.range_succ_eq_map, List.map_cons, List.map_map, List.append_assoc]
          congr 1
          simp only [List.singleton_append, List.cons.injEq, Prod.mk.injEq]
          refine ⟨⟨by simp, by simp [after, hit]⟩, ?_⟩
          apply List.map_congr_left
          intro k _
          simp only [hafter, Function.comp, Nat.succ_eq_add_one]
          rw [show i.niterations + 1 + k + 1 = i.niterations + (k + 1) + 1 by omega]
        · rw [hl]
          dsimp only at h2
          rcases h2 with ⟨a, b⟩ | ⟨a, b⟩
          · exact .inl ⟨a, by omega⟩
          · exact .inr ⟨a, by omega⟩

/-- C111: `next` calls the callback once after each iteration that ends normally or by StopIteration, in order, with the number of this iteration and the
attributes that it has produced; at the end, niterations is the number of the last call, except that an iteration that raises AbnormalStopIteration is
counted without a call. Before the first iteration, the attributes are those of `initialize` and the first number is the order of the recursion. -/
theorem C111_called (A : Algo S) (n : Nat) (i j : Inst S) (saved : List (Nat × S))
    (hj : if i.niterations = A.order - 1 then A.init i = some (j, .go) else j = i) :
    ∃ m, m ≤ n ∧ (next A saving n i saved).2.1 = saved ++ (List.range m).map (fun k => (j.niterations + k + 1, after A j.state k)) ∧
      ((next A saving n i saved).2.2 = .ended .abnormalStop ∧
          ((next A saving n i saved).1.niterations = j.niterations + m ∨ (next A saving n i saved).1.niterations = j.niterations + m + 1) ∨
        (next A saving n i saved).2.2 ≠ .ended .abnormalStop ∧ (next A saving n i saved).1.niterations = j.niterations + m) ∧
      (i.niterations = A.order - 1 → j.niterations = A.order - 1) := by
  have e : next A saving n i saved = ((loop A saving n j saved).1, (loop A saving n j saved).2.1, (loop A saving n j saved).2.2.outcome) := by
    unfold next
    split at hj
    · rename_i h
      rw [if_pos h, hj]
    · rename_i h
      rw [if_neg h, hj]
  obtain ⟨m, hm, h1, h2⟩ := loop_saving A n j saved
  refine ⟨m, hm, by rw [e]; exact h1, ?_, ?_⟩
  · rw [e]
    dsimp only
    rcases h2 with ⟨a, b⟩ | ⟨a, b⟩
    · exact .inl ⟨by rw [a]; rfl, b⟩
    · refine .inr ⟨?_, b⟩
      intro h
      apply a
      generalize (loop A saving n j saved).2.2 = r at h
      rcases r with ⟨g⟩ | _
      · cases g <;> first | rfl | cases h
      · cases h
  · intro h
    rw [if_pos h] at hj
    unfold Algo.init at hj
    split at hj
    · cases hj
    · injection hj with hj
      rw [← (Prod.mk.inj hj).1]

/-! ### Where the code differs -/

/-- C111 fails: the display of an algorithm with several variables raises an exception in the first iteration: the variables are not updated, although the
iteration is counted. -/
theorem C111_display_fails (A : Algo S) (nvariables : Nat) (hv : nvariables ≠ 1) (n : Option Nat) (i j : Inst S)
    (h0 : i.niterations = A.order - 1) (hj : A.init i = some (j, .go)) (hc : A.check j = .go) (hg : (A.iteration j.state).2 = .go) (lines : Nat) :
    run A (display true false 0 nvariables) n i lines = (⟨j.niterations + 1, (A.iteration j.state).1⟩, lines, .callbackError) := by
  have hm : ∃ m, orMax n = m + 1 := by
    rcases n with _ | _ | n
    · exact ⟨2 ^ 63 - 2, rfl⟩
    · exact ⟨2 ^ 63 - 2, rfl⟩
    · exact ⟨n, rfl⟩
  obtain ⟨m, hm⟩ := hm
  rcases hit : A.iteration j.state with ⟨s, g⟩
  rw [hit] at hg
  simp only at hg
  subst hg
  unfold run next
  rw [if_neg (by omega), if_pos h0, hj, hm]
  simp [loop, step, hc, hit, display, hv, Step.outcome, catchStop]

/-- The recursion x ← x + 1 from 0, whose new value becomes the current one in `_update_variables`; the state is (x, x_new). -/
def counter : Algo (Nat × Nat) where
  order := 1
  reuse := false
  setup := fun _ => ((0, 0), .go)
  iteration := fun s => ((s.1, s.1 + 1), .go)
  update := fun s => (s.2, s.1)
  normal := fun _ _ => false
  abnormal := fun _ _ => false

/-- A callback that raises an exception in the second iteration, for instance because a file cannot be saved. -/
def raising : Callback (Nat × Nat) Nat := fun n _ t => (t, n == 2)

/-- C111 fails: if the callback raises an exception, the algorithm cannot be continued: the iteration is counted, but its result is lost. Three
iterations of x ← x + 1 from 0 return 2. -/
theorem C111_exception_fails : ∃ i j : Inst (Nat × Nat),
    next counter raising 2 ⟨0, (0, 0)⟩ 0 = (i, 0, .callbackError) ∧ next counter raising 1 i 0 = (j, 0, .ended .returned) ∧
    j.niterations = 3 ∧ j.state.1 = 2 := ⟨⟨2, (1, 2)⟩, ⟨3, (2, 1)⟩, by decide, by decide, rfl, rfl⟩

/-! ### Examples -/

/-- The callback raises an exception in the second iteration. -/
example : (exec counter (recording fun n _ => n == 2) (.next 3) ⟨0, (0, 0)⟩ false).2 = (true, .callbackError) := by decide

example : (next counter saving 3 ⟨0, (0, 0)⟩ []).2.1 = [(1, (0, 1)), (2, (1, 2)), (3, (2, 3))] := by decide

/-- The same recursion, stopped by AbnormalStopIteration in the third iteration, which is counted without a call. -/
example : next { counter with iteration := fun s => ((s.1, s.1 + 1), if s.1 = 2 then .abnormal else .go) } saving 5 ⟨0, (0, 0)⟩ [] =
    (⟨3, (2, 3)⟩, [(1, (0, 1)), (2, (1, 2))], .ended .abnormalStop) := by decide

/-- Stopped by StopIteration in the second iteration: the callback is called. -/
example : run { counter with iteration := fun s => ((s.1, s.1 + 1), if s.1 = 1 then .stop else .go) } saving (some 5) ⟨0, (0, 0)⟩ [] =
    (⟨2, (2, 1)⟩, [(1, (0, 1)), (2, (1, 2))], .ended .returned) := by decide

example : run counter (display true false 0 2) (some 5) ⟨0, (0, 0)⟩ 0 = (⟨1, (0, 1)⟩, 0, .callbackError) ∧
    run counter (display true false 0 1) (some 5) ⟨0, (0, 0)⟩ 0 = (⟨5, (5, 4)⟩, 5, .ended .returned) := by decide

example : Quiet (saving (S := Nat)) := fun _ _ _ => rfl

example : counter.init ⟨0, (7, 7)⟩ = some (⟨0, (0, 0)⟩, .go) ∧ counter.check ⟨0, (0, 0)⟩ = .go ∧ (counter.iteration (0, 0)).2 = .go := by decide

end Verif.Iter.Callback
