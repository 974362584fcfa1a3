import Mathlib.Algebra.Order.Ring.Rat
import Mathlib.Tactic.Ring
import Mathlib.Tactic.NormNum

/-
Model of the timing context manager: src/pyoperators/utils/misc.py:1068-1141 (`Timer`), and of the programs that use one timer.
-/

namespace Verif.Utils.Timer

/-- The attributes of a timer: src/pyoperators/utils/misc.py:1112-1116.  `start` is set by the first `__enter__`. -/
structure Timer where
  cumulative : Bool
  elapsed : Rat := 0
  level : Int := 0
  start : Rat := 0

/-- `__enter__` at a given time: src/pyoperators/utils/misc.py:1118-1124. -/
def Timer.enter (t : Timer) (now : Rat) : Timer :=
  if t.level + 1 = 1 then
    { t with level := t.level + 1, elapsed := if t.cumulative then t.elapsed else 0, start := now }
  else { t with level := t.level + 1 }

/-- `__exit__` at a given time: src/pyoperators/utils/misc.py:1126-1132.  Printing is not modelled; the exception, if any, is not
swallowed. -/
def Timer.exit (t : Timer) (now : Rat) : Timer :=
  if t.level - 1 > 0 then { t with level := t.level - 1 }
  else { t with level := t.level - 1, elapsed := t.elapsed + (now - t.start) }

/-- The property `elapsed`: src/pyoperators/utils/misc.py:1134-1138. -/
def Timer.read (t : Timer) (now : Rat) : Rat := if t.level = 0 then t.elapsed else t.elapsed + now - t.start

/-- `reset`: src/pyoperators/utils/misc.py:1140-1141. -/
def Timer.reset (t : Timer) : Timer := { t with elapsed := 0 }

/-- Programs that use a timer: work that takes some time, sequences, `with timer:` blocks, `timer.reset()`, the raise of an exception and
`try: ... except: pass`. -/
inductive Prog where
  | work (d : Rat)
  | seq (p q : Prog)
  | within (p : Prog)
  | reset
  | raise
  | attempt (p : Prog)

/-- The execution of a program: the timer, the time and whether an exception propagates.  A `with` statement calls `__exit__` whether or
not its body raises. -/
def Prog.run : Prog → Timer × Rat → Timer × Rat × Bool
  | .work d, (t, now) => (t, now + d, false)
  | .seq p q, s =>
    match p.run s with
    | (t, now, true) => (t, now, true)
    | (t, now, false) => q.run (t, now)
  | .within p, (t, now) =>
    match p.run (t.enter now, now) with
    | (t', now', e) => (t'.exit now', now', e)
  | .reset, (t, now) => (t.reset, now, false)
  | .raise, (t, now) => (t, now, true)
  | .attempt p, s => ((p.run s).1, (p.run s).2.1, false)

/-! What is expected, without any timer. -/

/-- Whether a program raises. -/
def Prog.raises : Prog → Bool
  | .work _ => false
  | .seq p q => p.raises || q.raises
  | .within p => p.raises
  | .reset => false
  | .raise => true
  | .attempt _ => false

/-- The time that a program takes. -/
def Prog.duration : Prog → Rat
  | .work d => d
  | .seq p q => p.duration + if p.raises then 0 else q.duration
  | .within p => p.duration
  | .reset => 0
  | .raise => 0
  | .attempt p => p.duration

/-- The durations of the outermost `with` blocks that a program executes, in order. -/
def Prog.outermost : Prog → List Rat
  | .work _ => []
  | .seq p q => p.outermost ++ if p.raises then [] else q.outermost
  | .within p => [p.duration]
  | .reset => []
  | .raise => []
  | .attempt p => p.outermost

/-- A program that does not reset the timer. -/
def Prog.Plain : Prog → Prop
  | .work _ => True
  | .seq p q => p.Plain ∧ q.Plain
  | .within p => p.Plain
  | .reset => False
  | .raise => True
  | .attempt p => p.Plain

/-- What a timer of elapsed time `e` shows after outermost blocks of given durations. -/
def shown (cumulative : Bool) (e : Rat) (l : List Rat) : Rat := if cumulative then e + l.sum else l.getLastD e

theorem shown_append (c : Bool) (e : Rat) (l l' : List Rat) : shown c e (l ++ l') = shown c (shown c e l) l' := by
  cases c
  · simp only [shown, Bool.false_eq_true, if_false]
    rcases List.eq_nil_or_concat l' with rfl | ⟨l', a, rfl⟩
    · simp
    · rw [List.concat_eq_append, ← List.append_assoc]; simp [List.getLastD_eq_getLast?]
  · simp [shown, add_assoc]

/-- The time and the exceptions do not depend on the timer. -/
theorem run_time : ∀ (p : Prog) (t : Timer) (now : Rat), (p.run (t, now)).2 = (now + p.duration, p.raises) := by
  intro p
  induction p with
  | work d => intro t now; rfl
  | seq p q hp hq =>
    intro t now
    have h := hp t now
    generalize hr : p.run (t, now) = r at h
    obtain ⟨t', now', e⟩ := r
    obtain ⟨rfl, rfl⟩ := Prod.mk.inj h
    rw [Prog.run, hr]
    cases he : p.raises
    · simp only [he, hq, Prog.duration, Prog.raises, Bool.false_or, Bool.false_eq_true, if_false, add_assoc]
    · simp [he, Prog.duration, Prog.raises]
  | within p hp =>
    intro t now
    rw [Prog.run]
    exact hp _ now
  | reset => intro t now; simp [Prog.run, Prog.duration, Prog.raises]
  | raise => intro t now; simp [Prog.run, Prog.duration, Prog.raises]
  | attempt p hp =>
    intro t now
    simp [Prog.run, hp t now, Prog.duration, Prog.raises]

/-- Inside a block, a program without reset leaves the timer as it is. -/
theorem run_inside : ∀ (p : Prog), p.Plain → ∀ (t : Timer) (now : Rat), 0 < t.level → (p.run (t, now)).1 = t := by
  intro p
  induction p with
  | work d => intro _ t now _; rfl
  | seq p q hp hq =>
    intro h t now ht
    have h1 := hp h.1 t now ht
    generalize hr : p.run (t, now) = r at h1
    obtain ⟨t', now', e⟩ := r
    simp only at h1
    subst h1
    rw [Prog.run, hr]
    cases e
    · exact hq h.2 _ _ ht
    · rfl
  | within p hp =>
    intro h t now ht
    have he : t.enter now = { t with level := t.level + 1 } := by
      rw [Timer.enter, if_neg (by omega)]
    have h1 := hp h (t.enter now) now (by rw [he]; simp only; omega)
    generalize hr : p.run (t.enter now, now) = r at h1
    obtain ⟨t', now', e⟩ := r
    simp only at h1
    rw [Prog.run, hr]
    simp only
    rw [h1, he, Timer.exit]
    simp only [add_sub_cancel_right]
    rw [if_pos ht]
  | reset => intro h; exact absurd h (by simp [Prog.Plain])
  | raise => intro _ t now _; rfl
  | attempt p hp => intro h t now ht; exact hp h t now ht

/-- **C45.** A timer that is not running shows, after any program without reset, the total duration of the outermost blocks (the duration
of the last one for a timer that is not cumulative), and it is not running any more, even if an exception went through the blocks. -/
theorem C45_outermost (p : Prog) (hp : p.Plain) (t : Timer) (h0 : t.level = 0) (now : Rat) :
    (p.run (t, now)).1.level = 0 ∧
    (p.run (t, now)).1.read (p.run (t, now)).2.1 = shown t.cumulative t.elapsed p.outermost := by
  suffices h : (p.run (t, now)).1.level = 0 ∧ (p.run (t, now)).1.elapsed = shown t.cumulative t.elapsed p.outermost ∧
      (p.run (t, now)).1.cumulative = t.cumulative by
    exact ⟨h.1, by rw [Timer.read, if_pos h.1]; exact h.2.1⟩
  induction p generalizing t now with
  | work d => exact ⟨h0, by simp [Prog.run, shown, Prog.outermost], rfl⟩
  | seq p q ihp ihq =>
    obtain ⟨h1, h2, h3⟩ := ihp hp.1 t h0 now
    have ht := run_time p t now
    generalize hr : p.run (t, now) = r at h1 h2 h3 ht
    obtain ⟨t', now', e⟩ := r
    obtain ⟨rfl, rfl⟩ := Prod.mk.inj ht
    simp only at h1 h2 h3
    rw [Prog.run, hr]
    cases he : p.raises
    · obtain ⟨h4, h5, h6⟩ := ihq hp.2 t' h1 (now + p.duration)
      simp only
      refine ⟨h4, ?_, h6.trans h3⟩
      rw [h5, Prog.outermost, he, shown_append, h3, h2]
      rfl
    · simp only
      exact ⟨h1, by rw [h2, Prog.outermost, he]; simp, h3⟩
  | within p ih =>
    have he : t.enter now = { t with level := 1, elapsed := if t.cumulative then t.elapsed else 0, start := now } := by
      rw [Timer.enter, if_pos (by omega), h0]; rfl
    have h1 := run_inside p hp (t.enter now) now (by rw [he]; simp)
    have h2 := run_time p (t.enter now) now
    generalize hr : p.run (t.enter now, now) = r at h1 h2
    obtain ⟨t', now', e⟩ := r
    simp only at h1
    obtain ⟨rfl, rfl⟩ := Prod.mk.inj h2
    rw [Prog.run, hr]
    simp only [h1, he]
    rw [Timer.exit]
    simp only [sub_self, gt_iff_lt, lt_irrefl, if_false, true_and]
    refine ⟨?_, trivial⟩
    simp only [shown, Prog.outermost]
    cases t.cumulative <;> simp
  | reset => exact absurd hp (by simp [Prog.Plain])
  | raise => exact ⟨h0, by simp [Prog.run, shown, Prog.outermost], rfl⟩
  | attempt p ih => exact ih hp t h0 now

/-- **C45.** In the course of an outermost block, the timer shows the time since the block was entered, in addition to that of the
previous blocks if it is cumulative. -/
theorem C45_running (p : Prog) (hp : p.Plain) (t : Timer) (h0 : t.level = 0) (now : Rat) :
    (p.run (t.enter now, now)).1.read (p.run (t.enter now, now)).2.1 =
      (if t.cumulative then t.elapsed else 0) + p.duration := by
  have he : t.enter now = { t with level := 1, elapsed := if t.cumulative then t.elapsed else 0, start := now } := by
    rw [Timer.enter, if_pos (by omega), h0]; rfl
  rw [run_inside p hp (t.enter now) now (by rw [he]; simp), run_time, he]
  simp only [Timer.read]
  rw [if_neg (by decide)]
  ring

/-- **C45.** A reset between the blocks starts the measure again. -/
theorem C45_reset (p q : Prog) (hp : p.Plain) (hq : q.Plain) (h : p.raises = false) (t : Timer) (h0 : t.level = 0) (now : Rat) :
    let r := (Prog.seq p (.seq .reset q)).run (t, now)
    r.1.level = 0 ∧ r.1.read r.2.1 = shown t.cumulative 0 q.outermost := by
  have hc : ∀ (p : Prog) (t : Timer) (now : Rat), (p.run (t, now)).1.cumulative = t.cumulative := by
    intro p
    induction p with
    | work d => intro t now; rfl
    | seq p q ihp ihq =>
      intro t now
      have h1 := ihp t now
      generalize hr : p.run (t, now) = r at h1
      obtain ⟨t', now', e⟩ := r
      rw [Prog.run, hr]
      cases e
      · simpa using (ihq t' now').trans h1
      · exact h1
    | within p ih =>
      intro t now
      rw [Prog.run]
      have : ∀ (t : Timer) (n : Rat), (t.exit n).cumulative = t.cumulative := by
        intro t n; rw [Timer.exit]; split <;> rfl
      simp only [this, ih]
      rw [Timer.enter]; split <;> rfl
    | reset => intro t now; rfl
    | raise => intro t now; rfl
    | attempt p ih => intro t now; exact ih t now
  obtain ⟨h1, -⟩ := C45_outermost p hp t h0 now
  have ht := run_time p t now
  have h3 := hc p t now
  generalize hr : p.run (t, now) = r at h1 ht h3
  obtain ⟨t', now', e⟩ := r
  obtain ⟨rfl, rfl⟩ := Prod.mk.inj ht
  have h2 := C45_outermost q hq t'.reset h1 (now + p.duration)
  simp only at h3
  intro r
  have : r = q.run (t'.reset, now + p.duration) := by
    simp only [r, Prog.run, hr, h]
  rw [this]
  refine ⟨h2.1, ?_⟩
  rw [h2.2, ← h3]
  rfl

/-- The hypotheses of the theorems are met: two blocks, of which the first one contains another block and is left by an exception. -/
example : ∃ p : Prog, p.Plain ∧ p.outermost = [3, 5] ∧ p.duration = 10 ∧
    (p.run ({ cumulative := true }, 7)).1.read 20 = 8 ∧ (p.run ({ cumulative := false }, 7)).1.read 20 = 5 := by
  refine ⟨.seq (.attempt (.within (.seq (.work 1) (.seq (.within (.seq (.work 2) .raise)) (.work 100)))))
    (.seq (.work 2) (.within (.work 5))), ?_, ?_, ?_, ?_, ?_⟩
  · simp [Prog.Plain]
  · simp [Prog.outermost, Prog.raises, Prog.duration]
    norm_num
  · simp [Prog.raises, Prog.duration]; norm_num
  · simp [Prog.run, Timer.enter, Timer.exit, Timer.read]; norm_num
  · simp [Prog.run, Timer.enter, Timer.exit, Timer.read]

/-- **C45 does not hold** for a reset in the course of a block: the time spent in the block before the reset is still counted. -/
theorem C45_reset_inside_fails : ∃ (p : Prog) (t : Timer), t = { cumulative := true } ∧
    p = .within (.seq (.work 3) (.seq .reset (.work 2))) ∧ (p.run (t, 0)).1.read 5 = 5 := by
  refine ⟨_, _, rfl, rfl, ?_⟩
  simp [Prog.run, Timer.enter, Timer.exit, Timer.read, Timer.reset]
  norm_num

end Verif.Utils.Timer
