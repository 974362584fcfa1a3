import Mathlib.Tactic.Basic

/-
Model of the blocks that Ctrl-C may or may not interrupt: src/pyoperators/utils/misc.py:562-568 (`interruptible`) and
1154-1187 (`uninterruptible`, `uninterruptible_if`), and of their use by the iterative algorithms: src/pyoperators/iterative/core.py:223-241.
-/

namespace Verif.Interrupt

/-! ### Model -/

/-- The handler of the signal SIGINT: the one of Python that raises KeyboardInterrupt, one of the user that does not raise an exception, or
the function `signal_handler` of a block `uninterruptible`, which is identified by a number. -/
inductive Handler where
  | keyboard
  | user
  | recorder (n : Nat)
deriving DecidableEq, Repr

/-- The exceptions. -/
inductive Exn where
  | keyboardInterrupt
  | other (n : Nat)
deriving DecidableEq, Repr

/-- The programs: what is executed, with the points at which Ctrl-C is pressed.  `attempt` is `try: body except BaseException: pass`. -/
inductive Prog where
  | done
  | work (n : Nat) (rest : Prog)
  | press (rest : Prog)
  | fail (n : Nat)
  | interruptible (body rest : Prog)
  | uninterruptible (body rest : Prog)
  | attempt (body rest : Prog)

/-- The state: the handler, the number of the next block, the blocks whose variable `ctrlc_is_pressed` is true, what has been done, and the
number of calls to the handler of the user. -/
structure State where
  handler : Handler
  next : Nat := 0
  pressed : List Nat := []
  log : List Nat := []
  calls : Nat := 0
deriving DecidableEq, Repr

/-- The execution of a program: the exception that is raised, if any, and the final state.
`interruptible`: src/pyoperators/utils/misc.py:562-568.  There is no `finally`.
`uninterruptible`: src/pyoperators/utils/misc.py:1154-1176. -/
def run : Prog → State → Option Exn × State
  | .done, s => (none, s)
  | .work n rest, s => run rest { s with log := s.log ++ [n] }
  | .press rest, s =>
    match s.handler with
    | .keyboard => (some .keyboardInterrupt, s)
    | .user => run rest { s with calls := s.calls + 1 }
    | .recorder i => run rest { s with pressed := i :: s.pressed }
  | .fail n, s => (some (.other n), s)
  | .interruptible body rest, s =>
    match run body { s with handler := .keyboard } with
    | (some e, s') => (some e, s')
    | (none, s') => run rest { s' with handler := s.handler }
  | .uninterruptible body rest, s =>
    match run body { s with handler := .recorder s.next, next := s.next + 1 } with
    | (some e, s') => (some e, { s' with handler := s.handler })
    | (none, s') =>
      if s.next ∈ s'.pressed then (some .keyboardInterrupt, { s' with handler := s.handler })
      else run rest { s' with handler := s.handler }
  | .attempt body rest, s => run rest (run body s).2

/-- What a step of an iteration does: a piece of work, during which Ctrl-C is or is not pressed, or the exception StopIteration. -/
inductive Step where
  | work (n : Nat)
  | press
  | stop
deriving DecidableEq, Repr

/-- The sequence of the steps of an iteration. -/
def steps : List Step → Prog → Prog
  | [], rest => rest
  | .work n :: l, rest => .work n (steps l rest)
  | .press :: l, rest => .press (steps l rest)
  | .stop :: _, _ => .fail 0

/-- The loop of `next`: src/pyoperators/iterative/core.py:227-240, with `uninterruptible_if(clean)`: src/pyoperators/utils/misc.py:1179-1187.  The steps of an iteration include the tests of the stop conditions, the
callback and the update of the variables. -/
def iterations (clean : Bool) : List (List Step) → Prog
  | [] => .done
  | l :: ls => if clean then .uninterruptible (steps l .done) (iterations clean ls) else steps l (iterations clean ls)

/-! ### Specification -/

/-- The program has no block that changes the handler. -/
def Plain : Prog → Prop
  | .done | .fail _ => True
  | .work _ rest | .press rest => Plain rest
  | .interruptible _ _ | .uninterruptible _ _ => False
  | .attempt body rest => Plain body ∧ Plain rest

/-- The program has no block `interruptible`. -/
def NoInterruptible : Prog → Prop
  | .done | .fail _ => True
  | .work _ rest | .press rest => NoInterruptible rest
  | .interruptible _ _ => False
  | .uninterruptible body rest | .attempt body rest => NoInterruptible body ∧ NoInterruptible rest

/-- The program does not catch exceptions. -/
def NoAttempt : Prog → Prop
  | .done | .fail _ => True
  | .work _ rest | .press rest => NoAttempt rest
  | .interruptible body rest | .uninterruptible body rest => NoAttempt body ∧ NoAttempt rest
  | .attempt _ _ => False

/-- The work of the steps. -/
def workOf : List Step → List Nat
  | [] => []
  | .work n :: l => n :: workOf l
  | .press :: l => workOf l
  | .stop :: _ => []

/-! ### Proofs -/

/-- C84: the handler is restored by any program without blocks `interruptible`, even if an exception is raised. -/
theorem C84_restored {p : Prog} (hp : NoInterruptible p) (s : State) : (run p s).2.handler = s.handler := by
  induction p generalizing s with
  | done => rfl
  | work n rest ih => exact ih hp _
  | press rest ih =>
    rw [run]
    cases h : s.handler with
    | keyboard => exact h
    | user => exact ih hp _
    | recorder i => exact ih hp _
  | fail n => rfl
  | interruptible body rest _ _ => exact hp.elim
  | uninterruptible body rest _ ih =>
    rw [run]
    split
    · rfl
    · split
      · rfl
      · exact ih hp.2 _
  | attempt body rest ihb ih => rw [run, ih hp.2, ihb hp.1]

/-- C84 (partial): the handler is restored by the programs with blocks `interruptible`, if no exception is raised. -/
theorem C84_normal_partial {p : Prog} (hp : NoAttempt p) (s : State) (h : (run p s).1 = none) : (run p s).2.handler = s.handler := by
  induction p generalizing s with
  | done => rfl
  | work n rest ih => exact ih hp _ h
  | press rest ih =>
    rw [run] at h ⊢
    cases hh : s.handler with
    | keyboard => exact hh
    | user => rw [hh] at h; exact ih hp _ h
    | recorder i => rw [hh] at h; exact ih hp _ h
  | fail n => rfl
  | interruptible body rest _ ih =>
    rw [run] at h ⊢
    split at h
    · cases h
    · exact ih hp.2 _ h
  | uninterruptible body rest _ ih =>
    rw [run] at h ⊢
    split at h
    · cases h
    · split at h
      · cases h
      · next hn => rw [if_neg hn]; exact ih hp.2 _ h
  | attempt body rest _ _ => exact hp.elim

/-- In a plain program, the handlers that do not raise an exception do not change what is executed. -/
theorem run_recorder {p : Prog} (hp : Plain p) {s t : State} {i : Nat} (hs : s.handler = .recorder i) (ht : t.handler = .user)
    (hl : s.log = t.log) (hc : i ∉ s.pressed) {c : Nat} (htc : t.calls = c) :
    (run p s).1 = (run p t).1 ∧ (run p s).2.log = (run p t).2.log ∧ (run p s).2.calls = s.calls ∧ (run p s).2.handler = s.handler ∧
      (run p s).2.next = s.next ∧ (∀ j ≠ i, j ∈ (run p s).2.pressed ↔ j ∈ s.pressed) ∧
      (i ∈ (run p s).2.pressed ↔ c < (run p t).2.calls) := by
  have key : ∀ {p : Prog}, Plain p → ∀ {s t : State}, s.handler = .recorder i → t.handler = .user → s.log = t.log →
      (i ∈ s.pressed ↔ c < t.calls) → c ≤ t.calls →
      (run p s).1 = (run p t).1 ∧ (run p s).2.log = (run p t).2.log ∧ (run p s).2.calls = s.calls ∧
        (run p s).2.handler = s.handler ∧ (run p s).2.next = s.next ∧ (∀ j ≠ i, j ∈ (run p s).2.pressed ↔ j ∈ s.pressed) ∧
        (i ∈ (run p s).2.pressed ↔ c < (run p t).2.calls) ∧ (run p t).2.handler = .user ∧ c ≤ (run p t).2.calls := by
    intro p hp
    induction p with
    | done => intro s t hs ht hl hc hle; exact ⟨rfl, hl, rfl, rfl, rfl, fun _ _ => Iff.rfl, hc, ht, hle⟩
    | work n rest ih =>
      intro s t hs ht hl hc hle
      simp only [run]
      exact ih hp (s := { s with log := s.log ++ [n] }) (t := { t with log := t.log ++ [n] }) hs ht (by simp [hl]) hc hle
    | press rest ih =>
      intro s t hs ht hl hc hle
      simp only [run, hs, ht]
      obtain ⟨h1, h2, h3, h4, h5, h6, h7⟩ := ih hp (s := { s with handler := .recorder i, pressed := i :: s.pressed })
        (t := { t with handler := .user, calls := t.calls + 1 }) rfl rfl hl (by simp only [List.mem_cons, true_or, true_iff]; omega) (by simp only; omega)
      refine ⟨h1, h2, h3, h4, h5, fun j hj => (h6 j hj).trans (by simp [hj]), h7⟩
    | fail n => intro s t hs ht hl hc hle; exact ⟨rfl, hl, rfl, rfl, rfl, fun _ _ => Iff.rfl, hc, ht, hle⟩
    | interruptible body rest _ _ => exact hp.elim
    | uninterruptible body rest _ _ => exact hp.elim
    | attempt body rest ihb ih =>
      intro s t hs ht hl hc hle
      simp only [run]
      obtain ⟨_, b2, b3, b4, b5, b6, b7, b8, b9⟩ := ihb hp.1 hs ht hl hc hle
      obtain ⟨h1, h2, h3, h4, h5, h6, h7⟩ := ih hp.2 (b4.trans hs) b8 b2 b7 b9
      exact ⟨h1, h2, h3.trans b3, h4.trans b4, h5.trans b5, fun j hj => (h6 j hj).trans (b6 j hj), h7⟩
  obtain ⟨h1, h2, h3, h4, h5, h6, h7, _, _⟩ := key hp hs ht hl (by simp [hc, htc]) (by omega)
  exact ⟨h1, h2, h3, h4, h5, h6, h7⟩

/-- C84: the body of a block `uninterruptible` is executed as if Ctrl-C were not pressed, that is to say as with a handler that does not raise
an exception.  If it ends normally and Ctrl-C has been pressed, KeyboardInterrupt is raised after the block. -/
theorem C84_deferred {body : Prog} (hp : Plain body) (rest : Prog) (s : State) (hs : s.next ∉ s.pressed) {e : Option Exn} {t : State}
    (hb : run body { s with handler := .user } = (e, t)) :
    (e = none → s.calls < t.calls → (run (.uninterruptible body rest) s).1 = some .keyboardInterrupt ∧
      (run (.uninterruptible body rest) s).2.log = t.log) ∧
    (e = none → t.calls = s.calls → ∃ s', s'.log = t.log ∧ s'.handler = s.handler ∧
      run (.uninterruptible body rest) s = run rest s') ∧
    (∀ x, e = some x → (run (.uninterruptible body rest) s).1 = some x ∧ (run (.uninterruptible body rest) s).2.log = t.log) := by
  obtain ⟨h1, h2, h3, h4, h5, h6, h7⟩ := run_recorder hp (s := { s with handler := .recorder s.next, next := s.next + 1 })
    (t := { s with handler := .user }) (i := s.next) (c := s.calls) rfl rfl rfl hs rfl
  rw [hb] at h1 h2 h7
  simp only [run]
  generalize run body { s with handler := .recorder s.next, next := s.next + 1 } = r at *
  obtain ⟨e', s'⟩ := r
  simp only at h1 h2 h7
  subst h1
  refine ⟨?_, ?_, ?_⟩
  · rintro rfl hc
    simp only [if_pos (h7.2 hc), h2, and_self]
  · rintro rfl hc
    have : s.next ∉ s'.pressed := fun h => by have := h7.1 h; omega
    simp only [if_neg this]
    exact ⟨{ s' with handler := s.handler }, h2, rfl, rfl⟩
  · rintro x rfl
    exact ⟨rfl, h2⟩

/-- C84: outside of a block, with the handler of Python, Ctrl-C interrupts the program at once. -/
theorem C84_immediate {l : List Step} (hl : .press ∉ l) (hs : .stop ∉ l) (rest : Prog) (s : State) (h : s.handler = .keyboard) :
    run (steps l (.press rest)) s = (some .keyboardInterrupt, { s with log := s.log ++ workOf l }) := by
  induction l generalizing s with
  | nil => obtain ⟨hd, _, _, _, _⟩ := s; simp only at h; subst h; simp [steps, run, workOf]
  | cons x l ih =>
    cases x with
    | work n =>
      simp only [steps, run]
      rw [ih (fun h => hl (List.mem_cons_of_mem _ h)) (fun h => hs (List.mem_cons_of_mem _ h)) { s with log := s.log ++ [n] } h]
      simp [workOf]
    | press => exact absurd List.mem_cons_self hl
    | stop => exact absurd List.mem_cons_self hs

theorem plain_steps (l : List Step) : Plain (steps l .done) := by
  induction l with
  | nil => trivial
  | cons x l ih => cases x <;> simp [steps, Plain, ih]

theorem run_steps_user {l : List Step} (hs : .stop ∉ l) (s : State) (h : s.handler = .user) : ∃ t, run (steps l .done) s = (none, t) ∧
    t.log = s.log ++ workOf l ∧ s.calls ≤ t.calls ∧ (s.calls < t.calls ↔ .press ∈ l) := by
  induction l generalizing s with
  | nil => exact ⟨s, rfl, by simp [workOf], Nat.le_refl _, by simp⟩
  | cons x l ih =>
    have hs' : .stop ∉ l := fun h => hs (List.mem_cons_of_mem _ h)
    cases x with
    | work n =>
      obtain ⟨t, h1, h2, h3, h4⟩ := ih hs' { s with log := s.log ++ [n] } h
      exact ⟨t, by simpa [steps, run] using h1, by simp [h2, workOf], h3, by simpa using h4⟩
    | press =>
      obtain ⟨t, h1, h2, h3, h4⟩ := ih hs' { s with handler := .user, calls := s.calls + 1 } rfl
      exact ⟨t, by simpa [steps, run, h] using h1, by simpa [workOf] using h2, by simp at h3; omega, by simp at h3 ⊢; omega⟩
    | stop => exact absurd List.mem_cons_self hs

/-- The numbers of the blocks that have been interrupted are those of previous blocks. -/
theorem pressed_lt {l : List Step} {s : State} {i : Nat} (hs : s.handler = .recorder i) (h : ∀ j ∈ s.pressed, j < s.next) (hi : i < s.next) :
    ∀ j ∈ (run (steps l .done) s).2.pressed, j < (run (steps l .done) s).2.next := by
  induction l generalizing s with
  | nil => exact h
  | cons x l ih =>
    cases x with
    | work n => exact ih (s := { s with log := s.log ++ [n] }) hs h hi
    | press =>
      simp only [steps, run, hs]
      refine ih (s := { s with handler := .recorder i, pressed := i :: s.pressed }) rfl ?_ hi
      intro j hj
      rcases List.mem_cons.1 hj with rfl | hj
      · exact hi
      · exact h j hj
    | stop => exact h

/-- C84 (partial): with `clean_interrupt`, an iterative algorithm in which Ctrl-C is pressed for the first time during an iteration performs the
whole of this iteration and of the previous ones, and nothing else, if the algorithm does not stop during this iteration; then
KeyboardInterrupt is raised. -/
theorem C84_iterations_partial {before : List (List Step)} {l : List Step} (after : List (List Step))
    (hb : ∀ m ∈ before, .press ∉ m ∧ .stop ∉ m) (hl : .press ∈ l) (hs : .stop ∉ l) (s : State) (hn : ∀ j ∈ s.pressed, j < s.next) :
    (run (iterations true (before ++ l :: after)) s).1 = some .keyboardInterrupt ∧
      (run (iterations true (before ++ l :: after)) s).2.log = s.log ++ (before ++ [l]).flatMap workOf ∧
      (run (iterations true (before ++ l :: after)) s).2.handler = s.handler := by
  induction before generalizing s with
  | nil =>
    simp only [List.nil_append, iterations, if_true]
    obtain ⟨t, h1, h2, h3, h4⟩ := run_steps_user hs { s with handler := .user } rfl
    have hd := C84_deferred (plain_steps l) (iterations true after) s (fun h => by have := hn _ h; omega) h1
    obtain ⟨e1, e2⟩ := hd.1 rfl (h4.2 hl)
    refine ⟨e1, by rw [e2, h2]; simp, C84_restored ?_ s⟩
    have : ∀ ls, NoInterruptible (iterations true ls) := by
      have hst : ∀ m, NoInterruptible (steps m .done) := by
        intro m; induction m with
        | nil => trivial
        | cons x m ih => cases x <;> simp [steps, NoInterruptible, ih]
      intro ls; induction ls with
      | nil => trivial
      | cons m ls ih => simp [iterations, NoInterruptible, ih, hst]
    exact this (l :: after)
  | cons m ms ih =>
    obtain ⟨hm1, hm2⟩ := hb m List.mem_cons_self
    simp only [List.cons_append, iterations, if_true]
    obtain ⟨t, h1, h2, h3, h4⟩ := run_steps_user hm2 { s with handler := .user } rfl
    have hnext : s.next ∉ s.pressed := fun h => by have := hn _ h; omega
    obtain ⟨r1, r2, r3, r4, r5, r6, r7⟩ := run_recorder (plain_steps m) (s := { s with handler := .recorder s.next, next := s.next + 1 })
      (t := { s with handler := .user }) (i := s.next) (c := s.calls) rfl rfl rfl hnext rfl
    have hlt := pressed_lt (l := m) (s := { s with handler := .recorder s.next, next := s.next + 1 }) (i := s.next) rfl
      (fun j hj => by have := hn j hj; simp only; omega) (by simp only; omega)
    rw [h1] at r1 r2 r7
    rw [run]
    generalize run (steps m .done) { s with handler := .recorder s.next, next := s.next + 1 } = r at *
    obtain ⟨e', s'⟩ := r
    simp only at r1 r2 r7 hlt
    subst r1
    have hnp : s.next ∉ s'.pressed := fun h => hm1 (h4.1 (r7.1 h))
    simp only [if_neg hnp]
    obtain ⟨i1, i2, i3⟩ := ih (fun m' hm' => hb m' (List.mem_cons_of_mem _ hm')) { s' with handler := s.handler } hlt
    refine ⟨i1, ?_, i3⟩
    rw [i2]
    simp only [r2, h2, List.flatMap_cons, List.append_assoc]

/-- C84: a block `interruptible` in which an exception is raised does not restore the handler: the one of the user is not called any more. -/
theorem C84_exception_fails : (run (.attempt (.interruptible (.fail 0) .done) (.press (.work 1 .done))) { handler := .user }) =
    (some .keyboardInterrupt, { handler := .keyboard }) := by decide

/-- C84: Ctrl-C is lost if the block raises an exception, which may be caught: KeyboardInterrupt is never raised. -/
theorem C84_lost_fails : run (.attempt (.uninterruptible (.press (.fail 0)) .done) (.work 1 .done)) { handler := .keyboard } =
    (none, { handler := .keyboard, next := 1, pressed := [0], log := [1] }) := by decide

/-- C84: for this reason, if Ctrl-C is pressed during the last iteration of an algorithm, that ends with the exception StopIteration, which
`run` catches, the program goes on. -/
theorem C84_last_fails : run (.attempt (iterations true [[.work 1], [.work 2, .press, .work 3, .stop]]) (.work 4 .done)) { handler := .keyboard } =
    (none, { handler := .keyboard, next := 2, pressed := [1], log := [1, 2, 3, 4] }) := by decide

/-- C84: a block `uninterruptible` that contains another one is interrupted at the end of the inner one. -/
theorem C84_nested_fails : run (.uninterruptible (.uninterruptible (.press .done) (.work 1 .done)) .done) { handler := .keyboard } =
    (some .keyboardInterrupt, { handler := .keyboard, next := 2, pressed := [1] }) := by decide

/-- Without `clean_interrupt`, the iteration is not completed. -/
example : run (iterations false [[.work 1, .work 2], [.work 3, .press, .work 4], [.work 5]]) { handler := .keyboard } =
    (some .keyboardInterrupt, { handler := .keyboard, log := [1, 2, 3] }) := by decide

/-- With `clean_interrupt`, the iteration is completed. -/
example : run (iterations true [[.work 1, .work 2], [.work 3, .press, .work 4], [.work 5]]) { handler := .keyboard } =
    (some .keyboardInterrupt, { handler := .keyboard, next := 2, pressed := [1], log := [1, 2, 3, 4] }) := by decide

/-- The hypotheses of `C84_iterations_partial`. -/
example : (∀ m ∈ [[Step.work 1, .work 2]], .press ∉ m ∧ .stop ∉ m) ∧ Step.press ∈ [Step.work 3, .press, .work 4] ∧
    Step.stop ∉ [Step.work 3, .press, .work 4] := by decide

/-- A block with Ctrl-C pressed twice, with an exception that is caught in between. -/
example : Plain (.press (.attempt (.work 1 (.fail 3)) (.press (.work 2 .done)))) ∧
    run (.uninterruptible (.press (.attempt (.work 1 (.fail 3)) (.press (.work 2 .done)))) (.work 3 .done)) { handler := .user } =
      (some .keyboardInterrupt, { handler := .user, next := 1, pressed := [0, 0], log := [1, 2] }) :=
  ⟨⟨trivial, trivial⟩, by decide⟩

/-- A program with both kinds of blocks that ends normally. -/
example : NoAttempt (.interruptible (.work 1 .done) (.uninterruptible (.work 2 .done) .done)) ∧
    (run (.interruptible (.work 1 .done) (.uninterruptible (.work 2 .done) .done)) { handler := .user }).1 = none :=
  ⟨by simp [NoAttempt], by decide⟩

/-- A program without blocks `interruptible` that raises an exception. -/
example : NoInterruptible (.uninterruptible (.work 1 (.fail 2)) .done) := by simp [NoInterruptible]

end Verif.Interrupt
