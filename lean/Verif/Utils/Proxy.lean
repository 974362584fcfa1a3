import Mathlib.Data.List.Destutter
import Mathlib.Tactic.SplitIfs

/-
Model of the groups of proxy operators: src/pyoperators/proxy.py (`ProxyBase`, its subclasses and `proxy_group`), and of
`Operator.delete`: src/pyoperators/core.py:250-276.
-/

namespace Verif.Utils.Proxy

/-- An operator in memory: the number that was given to the callback to make it, and whether it has been deleted.  A deleted operator
cannot be applied. -/
structure Obj where
  made : Nat
  alive : Bool
deriving DecidableEq, Repr

/-- The state shared by the proxies of a group (`common`), the operators that the callback has made (each one is a new one) and the
arguments of the calls to the callback, in order. -/
structure Group where
  number : Nat
  handle : Nat
  heap : List Obj
  calls : List Nat
deriving DecidableEq, Repr

/-- The associated operators: the operator itself, C, T, H, I, I.C, I.T and I.H. -/
inductive Attr where
  | self | c | t | h | i | ic | it | ih
deriving DecidableEq, Repr

/-- `proxy_group`: src/pyoperators/proxy.py:258-281.  The callback is called for the proxy 0. -/
def group : Group := { number := 0, handle := 0, heap := [⟨0, true⟩], calls := [0] }

/-- `Operator.delete`: src/pyoperators/core.py:250-276.  The associated operators are deleted too. -/
def delete (heap : List Obj) (h : Nat) : List Obj := heap.modify h fun o => { o with alive := false }

/-- `ProxyBase.get_operator`: src/pyoperators/proxy.py:18-22.  `fails k n` says whether the call number k to the callback, with the
argument n, raises an exception, in which case the assignment is not done. -/
def getOperator (fails : Nat → Nat → Bool) (n : Nat) (g : Group) : Option Nat × Group :=
  if g.number ≠ n then
    let heap := delete g.heap g.handle
    let calls := g.calls ++ [n]
    if fails g.calls.length n then (none, { g with heap := heap, calls := calls })
    else (some g.heap.length, { number := n, handle := g.heap.length, heap := heap ++ [⟨n, true⟩], calls := calls })
  else (some g.handle, g)

/-- The state after a sequence of accesses. -/
def accesses (fails : Nat → Nat → Bool) (l : List Nat) : Group := l.foldl (fun g n => (getOperator fails n g).2) group

/-- The method `get_operator` of the proxies of the associated operators: src/pyoperators/proxy.py:177-211. -/
def getAssociated (fails : Nat → Nat → Bool) (n : Nat) (a : Attr) (g : Group) : Option (Nat × Attr) × Group :=
  ((getOperator fails n g).1.map fun h => (h, a), (getOperator fails n g).2)

/-- What can be asked from an operator about shapes. -/
structure Shapes (S : Type) where
  reshapein : S → S
  reshapeout : S → S

/-- The shapes of the associated operators of an operator: the transpose, the adjoint and the inverse exchange the input and the output. -/
def Shapes.of {S : Type} (o : Shapes S) : Attr → Shapes S
  | .self | .c => o
  | .t | .h | .i => ⟨o.reshapeout, o.reshapein⟩
  | .ic => ((o.of .i).of .c)
  | .it => ((o.of .i).of .t)
  | .ih => ((o.of .i).of .h)
termination_by a => match a with
  | .self | .c | .t | .h | .i => 0
  | _ => 1

/-- Whether the class of the proxy of an associated operator inherits from `ProxyReverseBase`: src/pyoperators/proxy.py:177-211. -/
def reversed : Attr → Bool
  | .self => false
  | .c => false
  | .t => true
  | .h => true
  | .i => true
  | .ic => true
  | .it => false
  | .ih => false

/-- The methods reshapein and reshapeout of the proxies, which ask the current operator of the group:
src/pyoperators/proxy.py:31-47 and 70-87. -/
def proxyShapes {S : Type} (current : Shapes S) (a : Attr) : Shapes S :=
  if reversed a then ⟨current.reshapeout, current.reshapein⟩ else ⟨current.reshapein, current.reshapeout⟩

/-! ### Invariants -/

/-- The only operator that can be alive is the current one, which has been made for the current number. -/
structure Inv (g : Group) : Prop where
  made : ∃ o, g.heap[g.handle]? = some o ∧ o.made = g.number
  single : ∀ (h : Nat) (o : Obj), g.heap[h]? = some o → o.alive = true → h = g.handle

theorem delete_get (heap : List Obj) (h k : Nat) : (delete heap h)[k]? =
    heap[k]?.map fun o => if k = h then { o with alive := false } else o := by
  rw [delete, List.getElem?_modify]
  by_cases hk : h = k
  · subst hk; simp
  · simp [hk, show ¬ k = h from fun e => hk e.symm]

theorem delete_dead {heap : List Obj} {h k : Nat} {o : Obj} (hs : ∀ (k : Nat) (o : Obj), heap[k]? = some o → o.alive = true → k = h)
    (ho : (delete heap h)[k]? = some o) : o.alive = false := by
  rw [delete_get, Option.map_eq_some_iff] at ho
  obtain ⟨o', h1, rfl⟩ := ho
  by_cases hk : k = h
  · simp [hk]
  · rw [if_neg hk]
    by_contra hc
    exact hk (hs k o' h1 (by simpa using hc))

theorem inv_step (fails : Nat → Nat → Bool) (n : Nat) {g : Group} (hg : Inv g) : Inv (getOperator fails n g).2 := by
  rw [getOperator]
  split_ifs with h1 h2
  · refine ⟨?_, ?_⟩
    · obtain ⟨o, ho, hm⟩ := hg.made
      refine ⟨_, by simp only; rw [delete_get, ho]; rfl, ?_⟩
      simpa using hm
    · intro k o ho ha
      have := delete_dead hg.single ho
      simp [ha] at this
  · have hlen : (delete g.heap g.handle).length = g.heap.length := by simp [delete]
    refine ⟨⟨⟨n, true⟩, ?_, rfl⟩, ?_⟩
    · simp only
      rw [List.getElem?_append_right (by omega), hlen]
      simp
    · intro k o ho ha
      simp only at ho ⊢
      by_cases hk : k < g.heap.length
      · rw [List.getElem?_append_left (by omega)] at ho
        have := delete_dead hg.single ho
        simp [ha] at this
      · have := (List.getElem?_eq_some_iff.1 ho).1
        simp [hlen] at this
        omega
  · exact hg

theorem foldl_inv (fails : Nat → Nat → Bool) (l : List Nat) {g : Group} (hg : Inv g) :
    Inv (l.foldl (fun g n => (getOperator fails n g).2) g) := by
  induction l generalizing g with
  | nil => exact hg
  | cons n l ih => exact ih (inv_step fails n hg)

theorem inv (fails : Nat → Nat → Bool) (l : List Nat) : Inv (accesses fails l) := by
  apply foldl_inv
  refine ⟨⟨_, rfl, rfl⟩, ?_⟩
  intro h o ho _
  have := (List.getElem?_eq_some_iff.1 ho).1
  simp [group] at this
  simp [group, this]

/-! ### Properties -/

/-- **C37.** After any sequence of accesses, some of which may have raised an exception, at most one of the operators made by the
callback is alive. -/
theorem C37_single (fails : Nat → Nat → Bool) (l : List Nat) (h h' : Nat) (o o' : Obj)
    (h1 : (accesses fails l).heap[h]? = some o) (h2 : (accesses fails l).heap[h']? = some o') (ha : o.alive = true)
    (ha' : o'.alive = true) : h = h' := by
  rw [(inv fails l).single h o h1 ha, (inv fails l).single h' o' h2 ha']

/-- **C37.** An access that does not raise gives the associated operator that was asked for, of the operator that the callback made for
the number of the proxy, after any sequence of accesses. -/
theorem C37_right_operator (fails : Nat → Nat → Bool) (l : List Nat) (n : Nat) (a : Attr) (h : Nat) (b : Attr) (g : Group)
    (hg : getAssociated fails n a (accesses fails l) = (some (h, b), g)) :
    b = a ∧ ∃ o, g.heap[h]? = some o ∧ o.made = n := by
  have hi := inv_step fails n (inv fails l)
  simp only [getAssociated, Prod.mk.injEq, Option.map_eq_some_iff] at hg
  obtain ⟨⟨h', h1, rfl, rfl⟩, rfl⟩ := hg
  refine ⟨rfl, ?_⟩
  generalize accesses fails l = g at h1 hi
  rw [getOperator] at h1 hi ⊢
  split_ifs at h1 hi ⊢ with h2 h3
  · have := hi.made
    simp only [Option.some.injEq] at h1
    rw [← h1]; exact this
  · have := hi.made
    simp only [Option.some.injEq] at h1
    rw [← h1]
    push Not at h2
    rw [← h2]
    exact this

theorem alive_step (fails : Nat → Nat → Bool) (n : Nat) {g : Group} (hok : fails g.calls.length n = false)
    (ha : ∃ o, g.heap[g.handle]? = some o ∧ o.alive = true) :
    (getOperator fails n g).1 = some (getOperator fails n g).2.handle ∧
    ∃ o, (getOperator fails n g).2.heap[(getOperator fails n g).2.handle]? = some o ∧ o.alive = true := by
  rw [getOperator]
  split_ifs with h1 h2
  · simp [hok] at h2
  · refine ⟨rfl, ⟨n, true⟩, ?_, rfl⟩
    simp only
    rw [List.getElem?_append_right (by simp [delete])]
    simp [delete]
  · exact ⟨rfl, ha⟩

theorem alive (l : List Nat) : ∃ o, (accesses (fun _ _ => false) l).heap[(accesses (fun _ _ => false) l).handle]? = some o ∧
    o.alive = true := by
  suffices h : ∀ g : Group, (∃ o, g.heap[g.handle]? = some o ∧ o.alive = true) →
      ∃ o, (l.foldl (fun g n => (getOperator (fun _ _ => false) n g).2) g).heap[
        (l.foldl (fun g n => (getOperator (fun _ _ => false) n g).2) g).handle]? = some o ∧ o.alive = true from
    h group ⟨_, rfl, rfl⟩
  induction l with
  | nil => intro g hg; exact hg
  | cons n l ih => intro g hg; exact ih _ (alive_step _ n rfl hg).2

/-- **C37**, if no call to the callback raises: an access succeeds and gives an operator that is alive.  In presence of exceptions, see
C37_exception_fails. -/
theorem C37_alive_partial (l : List Nat) (n : Nat) (a : Attr) : ∃ h g, getAssociated (fun _ _ => false) n a
    (accesses (fun _ _ => false) l) = (some (h, a), g) ∧ ∃ o, g.heap[h]? = some o ∧ o.alive = true ∧ o.made = n := by
  obtain ⟨h1, o, h2, h3⟩ := alive_step (fun _ _ => false) n rfl (alive l)
  refine ⟨_, _, by rw [getAssociated, h1]; rfl, o, h2, h3, ?_⟩
  obtain ⟨-, o', h4, h5⟩ := C37_right_operator (fun _ _ => false) l n a (getOperator (fun _ _ => false) n
    (accesses (fun _ _ => false) l)).2.handle a _ (by rw [getAssociated, h1]; rfl)
  rw [h2] at h4
  cases h4
  exact h5

/-- **C37**, in presence of exceptions: a proxy whose number is not the one that the group last used is given an operator that is alive,
as soon as the callback does not raise.  The proxy that was last used successfully is excluded, see C37_exception_fails. -/
theorem C37_recovers_partial (fails : Nat → Nat → Bool) (l : List Nat) (n : Nat) (a : Attr)
    (hn : (accesses fails l).number ≠ n) (hok : fails (accesses fails l).calls.length n = false) :
    ∃ h g, getAssociated fails n a (accesses fails l) = (some (h, a), g) ∧
      ∃ o, g.heap[h]? = some o ∧ o.alive = true ∧ o.made = n := by
  have e : getOperator fails n (accesses fails l) = (some (accesses fails l).heap.length,
      ⟨n, (accesses fails l).heap.length, delete (accesses fails l).heap (accesses fails l).handle ++ [⟨n, true⟩],
        (accesses fails l).calls ++ [n]⟩) := by
    rw [getOperator, if_pos hn, hok]; rfl
  refine ⟨_, _, by rw [getAssociated, e]; rfl, ⟨n, true⟩, ?_, rfl, rfl⟩
  simp only
  rw [List.getElem?_append_right (by simp [delete])]
  simp [delete]

theorem destutter_head (l : List Nat) (a : Nat) : l.destutter' (· ≠ ·) a = a :: (l.destutter' (· ≠ ·) a).tail := by
  induction l with
  | nil => simp
  | cons b l ih =>
    by_cases h : a = b
    · rw [List.destutter'_cons_neg _ (by simpa using h)]; exact ih
    · rw [List.destutter'_cons_pos _ (by simpa using h)]; rfl

/-- **C37.** If no call raises, the callback is called only when the proxy is not the one that was accessed just before: its arguments
are the numbers of the proxies (starting from 0, for which it is called when the group is made) without the immediate
repetitions. -/
theorem C37_calls (l : List Nat) : (accesses (fun _ _ => false) l).calls = (0 :: l).destutter (· ≠ ·) := by
  have key : ∀ (l : List Nat) (g : Group), (l.foldl (fun g n => (getOperator (fun _ _ => false) n g).2) g).calls =
      g.calls ++ (l.destutter' (· ≠ ·) g.number).tail := by
    intro l
    induction l with
    | nil => intro g; simp
    | cons n l ih =>
      intro g
      rw [List.foldl_cons, ih]
      by_cases h : g.number = n
      · have : getOperator (fun _ _ => false) n g = (some g.handle, g) := by rw [getOperator, if_neg (by simpa using h)]
        rw [this, List.destutter'_cons_neg _ (by simpa using h)]
      · rw [List.destutter'_cons_pos _ (by simpa using h), getOperator, if_pos h]
        simp only [Bool.false_eq_true, if_false, List.tail_cons, List.append_assoc, List.singleton_append]
        congr 1
        exact (destutter_head l n).symm
  rw [accesses, key, List.destutter_cons', destutter_head l 0]
  rfl

/-- **C37.** After an access that did not raise, the same proxy (or another associated operator of it) is given the same operator,
without calling the callback. -/
theorem C37_cached (fails : Nat → Nat → Bool) (l : List Nat) (n : Nat) (a b : Attr) (h : Nat) (g : Group)
    (hg : getAssociated fails n a (accesses fails l) = (some (h, a), g)) : getAssociated fails n b g = (some (h, b), g) := by
  simp only [getAssociated, Prod.mk.injEq, Option.map_eq_some_iff] at hg
  obtain ⟨⟨h', h1, rfl, -⟩, rfl⟩ := hg
  generalize accesses fails l = g at h1
  have : getOperator fails n (getOperator fails n g).2 = (some h', (getOperator fails n g).2) := by
    by_cases hn : g.number = n
    · have e : getOperator fails n g = (some g.handle, g) := by rw [getOperator, if_neg (by simpa using hn)]
      rw [e] at h1
      simp only [Option.some.injEq] at h1
      rw [e]; simp only
      rw [e, h1]
    · rw [getOperator, if_pos hn] at h1
      have e : getOperator fails n g = (some g.heap.length,
          ⟨n, g.heap.length, delete g.heap g.handle ++ [⟨n, true⟩], g.calls ++ [n]⟩) := by
        rw [getOperator, if_pos hn]
        split_ifs at h1 ⊢
        rfl
      split_ifs at h1
      simp only [Option.some.injEq] at h1
      rw [e, getOperator, if_neg (by simp), ← h1]
  rw [getAssociated, this]
  rfl

/-- **C37.** The shapes of the proxies of the associated operators are the ones of the associated operators of the current operator of
the group (all the operators of a group are assumed to have the same shapes). -/
theorem C37_shapes {S : Type} (o : Shapes S) (a : Attr) : proxyShapes o a = o.of a := by
  cases a <;> simp [proxyShapes, reversed, Shapes.of]

/-- The hypotheses of the theorems are met: three proxies, of which the first two are accessed several times. -/
example : (accesses (fun _ _ => false) [0, 0, 1, 1, 2, 1]).calls = [0, 1, 2, 1] ∧
    (accesses (fun _ _ => false) [0, 0, 1, 1, 2, 1]).heap = [⟨0, false⟩, ⟨1, false⟩, ⟨2, false⟩, ⟨1, true⟩] ∧
    getAssociated (fun _ _ => false) 1 .t (accesses (fun _ _ => false) [0, 0, 1, 1, 2, 1]) =
      (some (3, .t), accesses (fun _ _ => false) [0, 0, 1, 1, 2, 1]) := by decide

/-- The hypotheses of C37_recovers_partial are met: the callback raises the first time that it is called for the proxy 1. -/
example : let fails := fun k n => decide (k = 1 ∧ n = 1)
    (accesses fails [0, 1]).number ≠ 1 ∧ fails (accesses fails [0, 1]).calls.length 1 = false ∧
    (getOperator fails 1 (accesses fails [0])).1 = none := by decide

/-- **C37 does not hold** after an exception: if the callback raises for the proxy 1, the proxy 0, which was used before, is given an
operator that has been deleted, and the callback is not called. -/
theorem C37_exception_fails : ∃ (fails : Nat → Nat → Bool) (h : Nat) (g : Group),
    (getOperator fails 0 (accesses fails [])).1 = some 0 ∧ (getOperator fails 1 (accesses fails [0])).1 = none ∧
    getOperator fails 0 (accesses fails [0, 1]) = (some h, g) ∧ g.calls = (accesses fails [0, 1]).calls ∧
    g.heap[h]? = some ⟨0, false⟩ :=
  ⟨fun k n => decide (k = 1 ∧ n = 1), 0, _, by decide, by decide, rfl, by decide, by decide⟩

end Verif.Utils.Proxy
