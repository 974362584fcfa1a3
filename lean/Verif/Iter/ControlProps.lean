import Verif.Iter.Control
import Mathlib.Logic.Function.Iterate

/- Properties C39 (runs in several steps) and C40 (stop conditions). -/

namespace Verif.Iter

variable {S : Type}

/-! ### Specification -/

/-- One completed iteration. -/
def Algo.full (A : Algo S) (i : Inst S) : Inst S := ⟨i.niterations + 1, A.update (A.iteration i.state).1⟩

/-- The instance after k completed iterations. -/
def Algo.after (A : Algo S) (i : Inst S) (k : Nat) : Inst S := A.full^[k] i

theorem after_succ (A : Algo S) (i : Inst S) (k : Nat) : A.after i (k + 1) = A.after (A.full i) k := rfl

theorem after_add (A : Algo S) (i : Inst S) (k l : Nat) : A.after i (k + l) = A.after (A.after i k) l := by
  simp only [Algo.after]
  rw [Nat.add_comm, Function.iterate_add_apply]

theorem after_niterations (A : Algo S) (i : Inst S) (k : Nat) : (A.after i k).niterations = i.niterations + k := by
  induction k generalizing i with
  | zero => rfl
  | succ k ih => rw [after_succ, ih]; simp only [Algo.full]; omega

/-- No stop condition holds and the iteration does not raise an exception. -/
def Algo.Goes (A : Algo S) (i : Inst S) : Prop :=
  A.normal i.niterations i.state = false ∧ A.abnormal i.niterations i.state = false ∧ (A.iteration i.state).2 = .go

theorem check_go {A : Algo S} {i : Inst S} :
    A.check i = .go ↔ A.normal i.niterations i.state = false ∧ A.abnormal i.niterations i.state = false := by
  simp only [Algo.check]
  cases A.normal i.niterations i.state <;> cases A.abnormal i.niterations i.state <;> simp

theorem step_go {A : Algo S} {i : Inst S} (h : A.Goes i) : A.step i = (A.full i, .go) := by
  obtain ⟨h1, h2, h3⟩ := h
  simp only [Algo.step, check_go.2 ⟨h1, h2⟩]
  generalize hr : A.iteration i.state = r at h3
  obtain ⟨s, g⟩ := r
  simp only at h3
  subst h3
  simp [Algo.full, hr]

theorem step_goes {A : Algo S} {i j : Inst S} (h : A.step i = (j, .go)) : A.Goes i ∧ j = A.full i := by
  have hc : A.check i = .go := by
    simp only [Algo.step] at h
    split at h <;> simp_all
  simp only [Algo.step, hc] at h
  generalize hr : A.iteration i.state = r at h
  obtain ⟨s, g⟩ := r
  cases g <;> simp only [Prod.mk.injEq, reduceCtorEq, and_false, and_true] at h
  exact ⟨⟨(check_go.1 hc).1, (check_go.1 hc).2, by rw [hr]⟩, by rw [← h]; simp [Algo.full, hr]⟩

theorem loop_add {A : Algo S} {i : Inst S} {k n : Nat} (h : ∀ j < k, A.Goes (A.after i j)) :
    A.loop (k + n) i = A.loop n (A.after i k) := by
  induction k generalizing i with
  | zero => simp [Algo.after]
  | succ k ih =>
    have e : k + 1 + n = (k + n) + 1 := by omega
    have h0 : A.Goes i := h 0 (by omega)
    rw [e, Algo.loop, step_go h0, after_succ]
    exact ih (fun j hj => h (j + 1) (by omega))

/-- What the loop does. -/
theorem loop_cases (A : Algo S) (n : Nat) (i : Inst S) : ∃ k ≤ n, (∀ j < k, A.Goes (A.after i j)) ∧
    ((k = n ∧ A.loop n i = (A.after i k, .go)) ∨
     (k < n ∧ A.loop n i = A.step (A.after i k) ∧ (A.step (A.after i k)).2 ≠ .go)) := by
  induction n generalizing i with
  | zero => exact ⟨0, by omega, by omega, Or.inl ⟨rfl, rfl⟩⟩
  | succ n ih =>
    by_cases h : (A.step i).2 = .go
    · have hs : A.step i = ((A.step i).1, .go) := by rw [← h]
      obtain ⟨hg, hj⟩ := step_goes hs
      obtain ⟨k, hk, h1, h2⟩ := ih (A.full i)
      refine ⟨k + 1, by omega, ?_, ?_⟩
      · intro j hj
        cases j with
        | zero => exact hg
        | succ j => exact h1 j (by omega)
      · have hl : A.loop (n + 1) i = A.loop n (A.full i) := by rw [Algo.loop, step_go hg]
        rw [hl, after_succ]
        rcases h2 with ⟨h3, h4⟩ | ⟨h3, h4⟩
        · exact Or.inl ⟨by omega, h4⟩
        · exact Or.inr ⟨by omega, h4⟩
    · refine ⟨0, by omega, by omega, Or.inr ⟨by omega, ?_, h⟩⟩
      rw [Algo.loop]
      split
      · next j e => rw [e] at h; exact absurd rfl h
      · rfl

theorem raised_returned {g : Signal} : g.raised = .returned ↔ g = .go := by cases g <;> simp [Signal.raised]

/-- The instance from which the iterations start. -/
def Algo.Starts (A : Algo S) (i j : Inst S) : Prop :=
  (i.niterations = A.order - 1 ∧ j = ⟨A.order - 1, (A.setup i.state).1⟩ ∧ (A.setup i.state).2 = .go) ∨
    (i.niterations ≠ A.order - 1 ∧ j = i)

theorem next_starts {A : Algo S} {i j : Inst S} (h : A.Starts i j) (n : Nat) :
    A.next n i = ((A.loop n j).1, (A.loop n j).2.raised) := by
  rcases h with ⟨h1, h2, h3⟩ | ⟨h1, rfl⟩
  · simp only [Algo.next, if_pos h1]
    have hi : A.init i = some (j, .go) := by
      simp only [Algo.init, h1]
      rw [if_neg (by simp), h2, h3]
    rw [hi]
  · simp only [Algo.next, if_neg h1]

/-! ### C39 -/

/-- C39: if `next(n)` returns, n iterations have been completed and the counter has been incremented n times. -/
theorem C39_next (A : Algo S) (i j : Inst S) (n : Nat) (h : A.next n i = (j, .returned)) :
    ∃ i0, A.Starts i i0 ∧ j = A.after i0 n ∧ j.niterations = i.niterations + n := by
  by_cases h1 : i.niterations = A.order - 1
  · have hs : (A.setup i.state).2 = .go := by
      simp only [Algo.next, if_pos h1, Algo.init] at h
      rw [if_neg (by simp [h1])] at h
      generalize (A.setup i.state).2 = g at h ⊢
      cases g <;> simp [Signal.raised] at h ⊢
    have hst : A.Starts i ⟨A.order - 1, (A.setup i.state).1⟩ := Or.inl ⟨h1, rfl, hs⟩
    refine ⟨_, hst, ?_⟩
    rw [next_starts hst] at h
    simp only [Prod.mk.injEq, raised_returned] at h
    obtain ⟨k, hk, h2, h3 | h3⟩ := loop_cases A n ⟨A.order - 1, (A.setup i.state).1⟩
    · rw [h3.2] at h
      rw [← h.1, h3.1, after_niterations]
      exact ⟨rfl, by simp only [h1]⟩
    · rw [h3.2.1] at h
      exact absurd h.2 h3.2.2
  · have hst : A.Starts i i := Or.inr ⟨h1, rfl⟩
    refine ⟨_, hst, ?_⟩
    rw [next_starts hst] at h
    simp only [Prod.mk.injEq, raised_returned] at h
    obtain ⟨k, hk, h2, h3 | h3⟩ := loop_cases A n i
    · rw [h3.2] at h
      rw [← h.1, h3.1, after_niterations]
      exact ⟨rfl, rfl⟩
    · rw [h3.2.1] at h
      exact absurd h.2 h3.2.2

theorem after_goes {A : Algo S} {i j : Inst S} {n : Nat} (h : A.loop n i = (j, .go)) :
    j = A.after i n ∧ ∀ k < n, A.Goes (A.after i k) := by
  obtain ⟨k, hk, h2, h3 | h3⟩ := loop_cases A n i
  · rw [h3.2] at h
    simp only [Prod.mk.injEq, and_true] at h
    obtain ⟨rfl, -⟩ := h3
    exact ⟨h.symm, h2⟩
  · rw [h3.2.1] at h
    rw [h] at h3
    exact absurd rfl h3.2.2

/-- C39: n iterations followed by m iterations are n + m iterations: same attributes, same exception. -/
theorem C39_steps (A : Algo S) (i j : Inst S) (n m : Nat) (hi : A.order - 1 ≤ i.niterations)
    (hn : 0 < n ∨ A.order - 1 < i.niterations) (h : A.next n i = (j, .returned)) : A.next m j = A.next (n + m) i := by
  obtain ⟨i0, hs, hj, hc⟩ := C39_next A i j n h
  have hj' : A.Starts j j := Or.inr ⟨by omega, rfl⟩
  rw [next_starts hs] at h
  simp only [Prod.mk.injEq, raised_returned] at h
  have hl : A.loop n i0 = (j, .go) := by rw [← h.1, ← h.2]
  rw [next_starts hj', next_starts hs, loop_add (after_goes hl).2, (after_goes hl).1]

/-- C39: once an iteration has been completed, `run` is refused and leaves the algorithm as it is, and `cont` ends as if all the iterations had
been asked for at once. -/
theorem C39_started (A : Algo S) (i j : Inst S) (n : Nat) (m : Option Nat) (hi : A.order - 1 ≤ i.niterations) (hn : 0 < n)
    (h : A.next n i = (j, .returned)) : A.run m j = (j, .runtimeError) ∧ A.cont j = catchStop (A.next (n + maxInt) i) := by
  obtain ⟨i0, -, -, hc⟩ := C39_next A i j n h
  refine ⟨?_, ?_⟩
  · rw [Algo.run, if_pos (by omega)]
  · rw [Algo.cont, if_neg (by omega), C39_steps A i j n maxInt hi (Or.inl hn) h]

/-- P holds for the states that can be reached, the algorithm cannot tell the states related by R apart when an iteration begins, and
the states that are related by Q look the same. -/
structure Equivalent (A : Algo S) (P : S → Prop) (R Q : S → S → Prop) : Prop where
  inv : ∀ s, P s → P (A.setup s).1
  setup : ∀ s s', P s → P s' → R (A.setup s).1 (A.setup s').1 ∧ (A.setup s).2 = (A.setup s').2
  iteration : ∀ s s', R s s' → (A.iteration s).2 = (A.iteration s').2 ∧ R (A.update (A.iteration s).1) (A.update (A.iteration s').1) ∧
    Q (A.iteration s).1 (A.iteration s').1
  stop : ∀ n s s', R s s' → A.normal n s = A.normal n s' ∧ A.abnormal n s = A.abnormal n s'
  same : ∀ s s', R s s' → Q s s'

/-- Same counter and states that cannot be told apart. -/
def Like (R : S → S → Prop) (i j : Inst S) : Prop := i.niterations = j.niterations ∧ R i.state j.state

theorem step_like {A : Algo S} {P : S → Prop} {R Q : S → S → Prop} (h : Equivalent A P R Q) {i j : Inst S} (hij : Like R i j) :
    Like Q (A.step i).1 (A.step j).1 ∧ (A.step i).2 = (A.step j).2 ∧ ((A.step i).2 = .go → Like R (A.step i).1 (A.step j).1) := by
  have hc : A.check i = A.check j := by
    simp only [Algo.check, hij.1, (h.stop j.niterations _ _ hij.2).1, (h.stop j.niterations _ _ hij.2).2]
  have hi := h.iteration _ _ hij.2
  have hq : Like Q i j := ⟨hij.1, h.same _ _ hij.2⟩
  simp only [Algo.step, hc]
  split
  · exact ⟨hq, rfl, fun _ => hij⟩
  · exact ⟨hq, rfl, fun _ => hij⟩
  · generalize A.iteration i.state = r at hi ⊢
    generalize A.iteration j.state = q at hi ⊢
    obtain ⟨s, g⟩ := r
    obtain ⟨s', g'⟩ := q
    obtain ⟨h1, h2, h3⟩ := hi
    simp only at h1 h2 h3
    subst h1
    cases g
    · exact ⟨⟨by simp [hij.1], h.same _ _ h2⟩, rfl, fun _ => ⟨by simp [hij.1], h2⟩⟩
    · exact ⟨⟨by simp [hij.1], h.same _ _ h2⟩, rfl, fun _ => ⟨by simp [hij.1], h2⟩⟩
    · exact ⟨⟨by simp [hij.1], h3⟩, rfl, fun e => by cases e⟩

theorem loop_like {A : Algo S} {P : S → Prop} {R Q : S → S → Prop} (h : Equivalent A P R Q) (n : Nat) {i j : Inst S} (hij : Like R i j) :
    Like Q (A.loop n i).1 (A.loop n j).1 ∧ (A.loop n i).2 = (A.loop n j).2 := by
  induction n generalizing i j with
  | zero => exact ⟨⟨hij.1, h.same _ _ hij.2⟩, rfl⟩
  | succ n ih =>
    obtain ⟨h1, h2, h3⟩ := step_like h hij
    simp only [Algo.loop]
    generalize A.step i = r at h1 h2 h3 ⊢
    generalize A.step j = q at h1 h2 h3 ⊢
    obtain ⟨s, g⟩ := r
    obtain ⟨s', g'⟩ := q
    simp only at h2
    subst h2
    cases g
    · exact ih (h3 rfl)
    · exact ⟨h1, rfl⟩
    · exact ⟨h1, rfl⟩

/-- Two results that look the same. -/
def LikeResult (Q : S → S → Prop) (r q : Inst S × End) : Prop := Like Q r.1 q.1 ∧ r.2 = q.2

theorem next_like {A : Algo S} {P : S → Prop} {R Q : S → S → Prop} (h : Equivalent A P R Q) (n : Nat) {i j : Inst S}
    (hi : i.niterations = A.order - 1) (hj : j.niterations = A.order - 1) (pi : P i.state) (pj : P j.state) :
    LikeResult Q (A.next n i) (A.next n j) := by
  obtain ⟨h1, h2⟩ := h.setup _ _ pi pj
  simp only [Algo.next, if_pos hi, if_pos hj, Algo.init]
  rw [if_neg (by simp [hi]), if_neg (by simp [hj])]
  rw [h2]
  generalize (A.setup j.state).2 = g
  cases g
  · have := loop_like h n (i := ⟨A.order - 1, (A.setup i.state).1⟩) (j := ⟨A.order - 1, (A.setup j.state).1⟩) ⟨rfl, h1⟩
    exact ⟨this.1, by simp only [this.2]⟩
  · exact ⟨⟨rfl, h.same _ _ h1⟩, rfl⟩
  · exact ⟨⟨rfl, h.same _ _ h1⟩, rfl⟩

theorem catch_like {R : S → S → Prop} {r q : Inst S × End} (h : LikeResult R r q) : LikeResult R (catchStop r) (catchStop q) := by
  obtain ⟨i, e⟩ := r
  obtain ⟨j, e'⟩ := q
  obtain ⟨h1, h2⟩ := h
  simp only at h2
  subst h2
  cases e <;> exact ⟨h1, rfl⟩

/-- C39: restarting an algorithm, whatever has been done with it, is like running it for the first time, unless the initialization
raises StopIteration.  P holds for all the instances that can be reached: see C38_restart for the buffers of the variables. -/
theorem C39_restart_partial {A : Algo S} {P : S → Prop} {R Q : S → S → Prop} (h : Equivalent A P R Q) (hr : A.reuse = false) (i i0 : Inst S)
    (pi : P i.state) (p0 : P i0.state) (h0 : i0.niterations = A.order - 1) (hs : (A.setup i.state).2 ≠ .stop) (n : Option Nat) :
    LikeResult Q (A.restart n i) (A.run n i0) := by
  have hrun : ∀ j : Inst S, j.niterations = A.order - 1 → A.run n j = catchStop (A.next (orMax n) j) := by
    intro j hj
    simp only [Algo.run]
    rw [if_neg (by omega)]
  rw [hrun i0 h0]
  simp only [Algo.restart, Algo.init, hr, Bool.and_false, Bool.false_eq_true, if_false]
  have hp := h.inv _ pi
  obtain ⟨h1, h2⟩ := h.setup _ _ pi p0
  generalize (A.setup i.state).2 = g at hs h2 ⊢
  cases g
  · show LikeResult Q (A.run n ⟨A.order - 1, (A.setup i.state).1⟩) _
    rw [hrun _ rfl]
    exact catch_like (next_like h _ rfl h0 hp p0)
  · exact absurd rfl hs
  · simp only [Algo.next, if_pos h0, Algo.init]
    rw [if_neg (by simp [hr]), ← h2]
    exact ⟨⟨rfl, h.same _ _ h1⟩, rfl⟩

/-- C39: with `next(0)` too. -/
theorem C39_steps_like {A : Algo S} {P : S → Prop} {R Q : S → S → Prop} (h : Equivalent A P R Q) (hrefl : ∀ s, Q s s) (i j : Inst S)
    (pi : P i.state) (n m : Nat) (hi : A.order - 1 ≤ i.niterations) (hn : A.next n i = (j, .returned)) :
    LikeResult Q (A.next m j) (A.next (n + m) i) := by
  by_cases hc : 0 < n ∨ A.order - 1 < i.niterations
  · rw [C39_steps A i j n m hi hc hn]
    exact ⟨⟨rfl, hrefl _⟩, rfl⟩
  · have h0 : n = 0 := by omega
    have h1 : i.niterations = A.order - 1 := by omega
    subst h0
    obtain ⟨i0, hs, hj, hcc⟩ := C39_next A i j 0 hn
    rw [Nat.zero_add]
    refine next_like h m (by omega) h1 ?_ pi
    rcases hs with ⟨_, h2, _⟩ | ⟨h2, _⟩
    · rw [hj]
      simp only [Algo.after, Function.iterate_zero, id, h2]
      exact h.inv _ pi
    · exact absurd h1 h2

/-! ### C40 -/

/-- C40: the k first iterations being completed without a stop condition being met, the call stops at the k-th one
if the normal stop condition holds. -/
theorem C40_normal (A : Algo S) (i i0 : Inst S) (n k : Nat) (hs : A.Starts i i0) (hk : k < n) (hg : ∀ j < k, A.Goes (A.after i0 j))
    (h : A.normal (A.after i0 k).niterations (A.after i0 k).state = true) :
    A.next n i = (A.after i0 k, .stopIteration) := by
  obtain ⟨m, rfl⟩ : ∃ m, n = k + (m + 1) := ⟨n - k - 1, by omega⟩
  rw [next_starts hs, loop_add hg, Algo.loop]
  have : A.step (A.after i0 k) = (A.after i0 k, .stop) := by simp [Algo.step, Algo.check, h]
  rw [this]
  rfl

/-- C40: it raises AbnormalStopIteration if the abnormal stop condition holds and the normal one does not. -/
theorem C40_abnormal (A : Algo S) (i i0 : Inst S) (n k : Nat) (hs : A.Starts i i0) (hk : k < n) (hg : ∀ j < k, A.Goes (A.after i0 j))
    (h : A.normal (A.after i0 k).niterations (A.after i0 k).state = false)
    (h' : A.abnormal (A.after i0 k).niterations (A.after i0 k).state = true) :
    A.next n i = (A.after i0 k, .abnormalStop) := by
  obtain ⟨m, rfl⟩ : ∃ m, n = k + (m + 1) := ⟨n - k - 1, by omega⟩
  rw [next_starts hs, loop_add hg, Algo.loop]
  have : A.step (A.after i0 k) = (A.after i0 k, .abnormal) := by simp [Algo.step, Algo.check, h, h']
  rw [this]
  rfl

/-- C40: it raises StopIteration after the iteration that raises StopIteration, which is completed. -/
theorem C40_iteration (A : Algo S) (i i0 : Inst S) (n k : Nat) (hs : A.Starts i i0) (hk : k < n) (hg : ∀ j < k, A.Goes (A.after i0 j))
    (h : A.normal (A.after i0 k).niterations (A.after i0 k).state = false)
    (h' : A.abnormal (A.after i0 k).niterations (A.after i0 k).state = false) (h3 : (A.iteration (A.after i0 k).state).2 = .stop) :
    A.next n i = (A.after i0 (k + 1), .stopIteration) := by
  obtain ⟨m, rfl⟩ : ∃ m, n = k + (m + 1) := ⟨n - k - 1, by omega⟩
  rw [next_starts hs, loop_add hg, Algo.loop]
  have : A.step (A.after i0 k) = (A.after i0 (k + 1), .stop) := by
    rw [after_add]
    simp only [Algo.step, check_go.2 ⟨h, h'⟩]
    have e : A.after (A.after i0 k) 1 = A.full (A.after i0 k) := rfl
    rw [e, Algo.full]
    generalize A.iteration (A.after i0 k).state = r at h3 ⊢
    obtain ⟨s, g⟩ := r
    simp only at h3
    subst h3
    rfl
  rw [this]
  rfl

/-- C40: otherwise it performs the n iterations. -/
theorem C40_all (A : Algo S) (i i0 : Inst S) (n : Nat) (hs : A.Starts i i0) (hg : ∀ j < n, A.Goes (A.after i0 j)) :
    A.next n i = (A.after i0 n, .returned) := by
  rw [next_starts hs]
  have := loop_add (n := 0) hg
  rw [Nat.add_zero] at this
  rw [this]
  rfl

/-- C40: conversely, whenever the call raises or returns, it does so for the first such reason. -/
theorem C40_only (A : Algo S) (i i0 : Inst S) (n : Nat) (hs : A.Starts i i0) : ∃ k ≤ n, (∀ j < k, A.Goes (A.after i0 j)) ∧
    (A.next n i = (A.after i0 n, .returned) ∧ k = n ∨
     A.next n i = (A.after i0 k, .stopIteration) ∧ A.normal (A.after i0 k).niterations (A.after i0 k).state = true ∨
     A.next n i = (A.after i0 k, .abnormalStop) ∧ A.normal (A.after i0 k).niterations (A.after i0 k).state = false ∧
       A.abnormal (A.after i0 k).niterations (A.after i0 k).state = true ∨
     A.next n i = (A.after i0 (k + 1), .stopIteration) ∧ (A.iteration (A.after i0 k).state).2 = .stop ∨
     (A.next n i).2 = .abnormalStop ∧ (A.iteration (A.after i0 k).state).2 = .abnormal) := by
  obtain ⟨k, hk, hg, h⟩ := loop_cases A n i0
  refine ⟨k, hk, hg, ?_⟩
  rcases h with ⟨rfl, h⟩ | ⟨hlt, hl, hne⟩
  · exact Or.inl ⟨C40_all A i i0 k hs hg, rfl⟩
  · right
    cases hn : A.normal (A.after i0 k).niterations (A.after i0 k).state with
    | true => exact Or.inl ⟨C40_normal A i i0 n k hs hlt hg hn, rfl⟩
    | false =>
      right
      cases ha : A.abnormal (A.after i0 k).niterations (A.after i0 k).state with
      | true => exact Or.inl ⟨C40_abnormal A i i0 n k hs hlt hg hn ha, rfl, rfl⟩
      | false =>
        right
        cases hi : (A.iteration (A.after i0 k).state).2 with
        | go => exact absurd (by rw [step_go ⟨hn, ha, hi⟩]) hne
        | stop => exact Or.inl ⟨C40_iteration A i i0 n k hs hlt hg hn ha hi, rfl⟩
        | abnormal =>
          right
          rw [next_starts hs, hl]
          refine ⟨?_, rfl⟩
          simp only [Algo.step, check_go.2 ⟨hn, ha⟩]
          generalize A.iteration (A.after i0 k).state = r at hi ⊢
          obtain ⟨s, g⟩ := r
          simp only at hi
          subst hi
          rfl

/-- C40: `run` returns in the cases where `next` returns or raises StopIteration. -/
theorem C40_run (A : Algo S) (i : Inst S) (n : Nat) (hn : 0 < n) (hi : i.niterations = A.order - 1) :
    A.run (some n) i = ((A.next n i).1, if (A.next n i).2 = .stopIteration then .returned else (A.next n i).2) := by
  simp only [Algo.run]
  rw [if_neg (by omega)]
  obtain ⟨m, rfl⟩ : ∃ m, n = m + 1 := ⟨n - 1, by omega⟩
  simp only [orMax]
  generalize A.next (m + 1) i = r
  obtain ⟨j, e⟩ := r
  cases e <;> simp [catchStop]

/-- The condition is met when the counter is m. -/
def Cond.Bounds (c : Cond S) (m : Nat) : Prop := ∀ s, c.holds m s = true

/-- C40: a stop condition built with `|` holds if one of its operands does. -/
theorem C40_union (c c' : Cond S) (n : Nat) (s : S) : (c.union c').holds n s = (c.holds n s || c'.holds n s) := by
  cases c <;> simp [Cond.union, Cond.holds]

theorem C40_bounds (c : Cond S) (m : Nat) : ((Cond.maxIteration m : Cond S).union c).Bounds m ∧ (c.union (.maxIteration m)).Bounds m := by
  constructor <;> intro s <;> simp [C40_union, Cond.holds]

theorem step_max {A : Algo S} {m : Nat} (hm : ∀ s, A.normal m s = true ∨ A.abnormal m s = true) {i : Inst S} (hi : i.niterations ≤ m) :
    (A.step i).1.niterations ≤ m := by
  simp only [Algo.step]
  split
  · exact hi
  · exact hi
  · next hc =>
    have : i.niterations ≠ m := by
      intro e
      have := check_go.1 hc
      rw [e] at this
      rcases hm i.state with h | h <;> simp_all
    split <;> simp only <;> omega

theorem loop_max {A : Algo S} {m : Nat} (hm : ∀ s, A.normal m s = true ∨ A.abnormal m s = true) (n : Nat) {i : Inst S}
    (hi : i.niterations ≤ m) : (A.loop n i).1.niterations ≤ m := by
  induction n generalizing i with
  | zero => exact hi
  | succ n ih =>
    have := step_max hm hi
    simp only [Algo.loop]
    split
    · next j e => rw [e] at this; exact ih this
    · exact this

theorem next_max {A : Algo S} {m : Nat} (hm : ∀ s, A.normal m s = true ∨ A.abnormal m s = true) (n : Nat) {i : Inst S}
    (hi : i.niterations ≤ m) : (A.next n i).1.niterations ≤ m := by
  simp only [Algo.next]
  split
  · next h =>
    have : (A.init i) = some (⟨A.order - 1, (A.setup i.state).1⟩, (A.setup i.state).2) := by
      simp only [Algo.init]
      rw [if_neg (by simp [h])]
    rw [this]
    cases (A.setup i.state).2
    · exact loop_max hm n (by simp only; omega)
    · simp only; omega
    · simp only; omega
  · exact loop_max hm n hi

theorem catch_fst (r : Inst S × End) : (catchStop r).1 = r.1 := by
  obtain ⟨i, e⟩ := r
  cases e <;> rfl

/-- The calls a user can make. -/
inductive Call where
  | next (n : Nat)
  | run (n : Option Nat)
  | cont
  | restart (n : Option Nat)
deriving DecidableEq, Repr

def Algo.call (A : Algo S) (i : Inst S) : Call → Inst S × End
  | .next n => A.next n i
  | .run n => A.run n i
  | .cont => A.cont i
  | .restart n => A.restart n i

/-- C40: whatever the calls, the counter never exceeds the maximum number of iterations of a normal or abnormal stop condition, if that
is not less than the order of the recursion minus one. -/
theorem C40_max_partial (A : Algo S) (m : Nat) (c c' : Cond S) (hc : A.normal = c.holds) (hc' : A.abnormal = c'.holds)
    (hb : c.Bounds m ∨ c'.Bounds m) (ho : A.order - 1 ≤ m) (s : S) (calls : List Call) :
    (calls.foldl (fun i q => (A.call i q).1) ⟨A.order - 1, s⟩).niterations ≤ m := by
  have hm : ∀ s, A.normal m s = true ∨ A.abnormal m s = true := by
    intro s
    rw [hc, hc']
    rcases hb with h | h
    · exact Or.inl (h s)
    · exact Or.inr (h s)
  have hcall : ∀ (i : Inst S) (q : Call), i.niterations ≤ m → (A.call i q).1.niterations ≤ m := by
    intro i q hi
    have hrun : ∀ (n : Option Nat) (j : Inst S), j.niterations ≤ m → (A.run n j).1.niterations ≤ m := by
      intro n j hj
      simp only [Algo.run]
      split
      · exact hj
      · rw [catch_fst]; exact next_max hm _ hj
    cases q with
    | next n => exact next_max hm n hi
    | run n => exact hrun n i hi
    | cont =>
      simp only [Algo.call, Algo.cont]
      split
      · exact hi
      · rw [catch_fst]; exact next_max hm _ hi
    | restart n =>
      simp only [Algo.call, Algo.restart, Algo.init]
      split
      · exact hi
      · next j e =>
        split at e
        · cases e
        · simp only [Option.some.injEq, Prod.mk.injEq] at e
          rw [← e.1]
          exact hrun n _ ho
      · next j g _ e =>
        split at e
        · cases e
        · simp only [Option.some.injEq, Prod.mk.injEq] at e
          rw [← e.1]
          exact ho
  have hall : ∀ (calls : List Call) (i : Inst S), i.niterations ≤ m →
      (calls.foldl (fun i q => (A.call i q).1) i).niterations ≤ m := by
    intro calls
    induction calls with
    | nil => intro i hi; exact hi
    | cons q calls ih => intro i hi; exact ih _ (hcall i q hi)
  exact hall calls _ ho

/-! ### Violations -/

/-- A recurrence of order three, such as x_new = x + x_old + x_old2, stopped after one iteration. -/
def fibonacci3 (m : Nat) : Algo (Int × Int × Int) :=
  { order := 3, reuse := false, setup := fun _ => ((1, 1, 1), .go), iteration := fun s => ((s.1 + s.2.1 + s.2.2, s.1, s.2.1), .go),
    update := id, normal := (Cond.maxIteration m).holds, abnormal := Cond.none.holds }

/-- C40 fails: the maximum number of iterations is not enforced if it is less than the order minus one: any number of iterations
is performed. -/
theorem C40_max_fails (n : Nat) : ((fibonacci3 1).run (some (n + 1)) ⟨2, (1, 1, 1)⟩).1.niterations = 2 + (n + 1) ∧
    ((fibonacci3 1).run (some (n + 1)) ⟨2, (1, 1, 1)⟩).2 = .returned := by
  have hg : ∀ j, (fibonacci3 1).Goes ((fibonacci3 1).after ⟨2, (1, 1, 1)⟩ j) := by
    intro j
    refine ⟨?_, rfl, rfl⟩
    rw [after_niterations]
    simp only [fibonacci3, Cond.holds]
    simp
    omega
  have hn := C40_all (fibonacci3 1) ⟨2, (1, 1, 1)⟩ ⟨2, (1, 1, 1)⟩ (n + 1) (Or.inl ⟨rfl, rfl, rfl⟩) (fun j _ => hg j)
  rw [C40_run _ _ _ (by omega) rfl, hn]
  exact ⟨after_niterations _ _ _, rfl⟩

/-- An algorithm of order one that counts, and whose initialization raises StopIteration if the state is the solution, 3. -/
def counting (order : Nat) : Algo Int :=
  { order := order, reuse := false, setup := fun s => if s = 3 then (3, .stop) else (0, .go),
    iteration := fun s => (s + 1, if s = 5 then .abnormal else .go), update := id, normal := fun _ s => s == 9, abnormal := fun _ _ => false }

/-- C39 fails: `run` returns if the initialization raises StopIteration; `restart` raises it. -/
theorem C39_restart_fails : ((counting 1).run none ⟨0, 3⟩).2 = .returned ∧ ((counting 1).restart none ⟨0, 3⟩).2 = .stopIteration :=
  ⟨rfl, rfl⟩

/-- C39 fails: the counter also counts the iteration that raises AbnormalStopIteration, which is not completed. -/
theorem C39_counter_fails : ((counting 1).next 5 ⟨0, 1⟩) = (⟨5, 5⟩, .returned) ∧ ((counting 1).next 6 ⟨0, 1⟩) = (⟨6, 6⟩, .abnormalStop) :=
  ⟨rfl, rfl⟩

/-- C39 fails: `run(0)` does not perform zero iterations: it runs until a stop condition is met. -/
theorem C39_run_zero_fails : (counting 1).run (some 0) ⟨0, 1⟩ = (⟨6, 6⟩, .abnormalStop) ∧
    (counting 1).run (some 1) ⟨0, 1⟩ = (⟨1, 1⟩, .returned) := ⟨rfl, rfl⟩

/-- C39 fails: `cont` raises an error if the algorithm is not started and its order is one, but starts it if its order is two. -/
theorem C39_cont_fails : ((counting 1).cont ⟨0, 1⟩).2 = .runtimeError ∧ ((counting 2).cont ⟨1, 3⟩).2 = .returned := ⟨rfl, rfl⟩

/-! ### Examples -/

example : (fibonacci3 4).next 1 ⟨2, (1, 1, 1)⟩ = (⟨3, (3, 1, 1)⟩, .returned) ∧
    (fibonacci3 4).run none ⟨3, (3, 1, 1)⟩ = (⟨3, (3, 1, 1)⟩, .runtimeError) := ⟨rfl, rfl⟩

example : (fibonacci3 4).next 2 ⟨2, (1, 1, 1)⟩ = (⟨4, (5, 3, 1)⟩, .returned) := rfl
example : (fibonacci3 4).next 3 ⟨2, (1, 1, 1)⟩ = (⟨4, (5, 3, 1)⟩, .stopIteration) := rfl
example : (fibonacci3 4).run (some 3) ⟨2, (1, 1, 1)⟩ = (⟨4, (5, 3, 1)⟩, .returned) := rfl
example : (fibonacci3 10).next 2 ((fibonacci3 10).next 3 ⟨2, (7, 7, 7)⟩).1 = (fibonacci3 10).next 5 ⟨2, (7, 7, 7)⟩ :=
  C39_steps _ _ _ 3 2 (by decide) (by decide) rfl
example : (fibonacci3 4).Starts ⟨2, (7, 7, 7)⟩ ⟨2, (1, 1, 1)⟩ := Or.inl ⟨rfl, rfl, rfl⟩
example : (fibonacci3 4).Goes ((fibonacci3 4).after ⟨2, (1, 1, 1)⟩ 1) := ⟨rfl, rfl, rfl⟩
example : (fibonacci3 4).normal ((fibonacci3 4).after ⟨2, (1, 1, 1)⟩ 2).niterations ((fibonacci3 4).after ⟨2, (1, 1, 1)⟩ 2).state = true := rfl
example : ((Cond.cond fun s : Int => s == 3).union (.maxIteration 7)).Bounds 7 := (C40_bounds _ 7).2
example : Equivalent (fibonacci3 4) (fun _ => True) (· = ·) (· = ·) := by constructor <;> intros <;> simp_all [fibonacci3]
example : LikeResult (· = ·) ((fibonacci3 4).restart (some 3) ⟨5, (8, 8, 8)⟩) ((fibonacci3 4).run (some 3) ⟨2, (1, 1, 1)⟩) :=
  C39_restart_partial (P := fun _ => True) (R := (· = ·)) (by constructor <;> intros <;> simp_all [fibonacci3]) rfl _ _ trivial trivial rfl (by decide) _

end Verif.Iter
