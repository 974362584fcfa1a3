import Mathlib.Data.List.Perm.Basic
import Mathlib.Logic.Function.Basic

/-!
Model of the decorators of the classes of operators, src/pyoperators/flags.py:59-268, with `_set_flags`
(src/pyoperators/core.py:1289-1299), and property C115. The flags of a class are an attribute, which is looked up along its method resolution order.
-/

namespace Verif.Decorators

/-- The flags: src/pyoperators/flags.py:11-36. The two flags about shapes, which the decorators do not set, are left out. -/
inductive Flag where
  | linear | square | real | symmetric | hermitian | idempotent | involutary | orthogonal | unitary | separable
  | alignedInput | alignedOutput | contiguousInput | contiguousOutput | inplace | outplace | updateOutput | destroyInput
  deriving DecidableEq, Repr

/-- The values of the flags. -/
abbrev Flags := Flag → Bool

/-- `Flags()`: src/pyoperators/flags.py:39-41. -/
def default : Flags := fun f => f == .outplace

/-- The decorators. -/
inductive Decorator where
  | linear | square | real | symmetric | hermitian | idempotent | involutary | orthogonal | unitary | aligned | alignedInput | alignedOutput
  | contiguous | contiguousInput | contiguousOutput | destroyInput | inplace | inplaceOnly | separable | updateOutput
  deriving DecidableEq, Repr

/-- The arguments that a decorator gives to `flags`: src/pyoperators/flags.py:69-268. -/
def Decorator.arguments : Decorator → List (Flag × Bool)
  | .linear => [(.linear, true)]
  | .square => [(.square, true)]
  | .real => [(.real, true)]
  | .symmetric => [(.symmetric, true)]
  | .hermitian => [(.hermitian, true)]
  | .idempotent => [(.idempotent, true)]
  | .involutary => [(.involutary, true)]
  | .orthogonal => [(.orthogonal, true)]
  | .unitary => [(.unitary, true)]
  | .aligned => [(.alignedInput, true), (.alignedOutput, true)]
  | .alignedInput => [(.alignedInput, true)]
  | .alignedOutput => [(.alignedOutput, true)]
  | .contiguous => [(.contiguousInput, true), (.contiguousOutput, true)]
  | .contiguousInput => [(.contiguousInput, true)]
  | .contiguousOutput => [(.contiguousOutput, true)]
  | .destroyInput => [(.destroyInput, true)]
  | .inplace => [(.inplace, true)]
  | .inplaceOnly => [(.inplace, true), (.outplace, false)]
  | .separable => [(.separable, true)]
  | .updateOutput => [(.updateOutput, true)]

/-- `_set_flags`: src/pyoperators/core.py:1289-1299, for valid names of flags. -/
def setFlags (old : Flags) (new : List (Flag × Bool)) : Flags :=
  let new := if [Flag.hermitian, .orthogonal, .symmetric, .unitary].any (fun f => new.lookup f == some true) then (.linear, true) :: new else new
  fun f => (new.lookup f).getD (old f)

/-- The classes that have been defined: the method resolution order of each class, from itself to the last class before `object`, and the attribute `flags`
of its own, if any. The class 0 is `Operator`, which has one: src/pyoperators/core.py:233. -/
structure Classes where
  mro : Nat → List Nat
  own : Nat → Option Flags

/-- `cls.flags`: the attribute of the first class of the method resolution order that has one. -/
def Classes.flags (s : Classes) (c : Nat) : Option Flags := (s.mro c).findSome? s.own

/-- `flags(cls, ...)`: src/pyoperators/flags.py:59-66. `base.__dict__['_set_flags']` is that of `Operator`; the exceptions KeyError, if the last class before
`object` is another one, and AttributeError are `none`. -/
def Classes.decorate (s : Classes) (c : Nat) (d : Decorator) : Option Classes :=
  if (s.mro c).getLast? = some 0 then
    (s.flags c).map fun old => { s with own := Function.update s.own c (some (setFlags old d.arguments)) }
  else none

/-- Several decorators of a class, the first one being the closest to the class. -/
def Classes.decorateAll (s : Classes) (c : Nat) : List Decorator → Option Classes
  | [] => some s
  | d :: ds => (s.decorate c d).bind fun s => s.decorateAll c ds

/-! ### The property -/

/-- What the documentation of a decorator tells about the flags of the class. -/
def Decorator.documented : Decorator → Flag → Option Bool
  | .linear, .linear => some true
  | .square, .square => some true
  | .real, .real => some true
  | .symmetric, .symmetric | .symmetric, .linear => some true
  | .hermitian, .hermitian | .hermitian, .linear => some true
  | .idempotent, .idempotent => some true
  | .involutary, .involutary => some true
  | .orthogonal, .orthogonal | .orthogonal, .linear | .orthogonal, .real => some true
  | .unitary, .unitary | .unitary, .linear => some true
  | .aligned, .alignedInput | .aligned, .alignedOutput => some true
  | .alignedInput, .alignedInput => some true
  | .alignedOutput, .alignedOutput => some true
  | .contiguous, .contiguousInput | .contiguous, .contiguousOutput => some true
  | .contiguousInput, .contiguousInput => some true
  | .contiguousOutput, .contiguousOutput => some true
  | .destroyInput, .destroyInput => some true
  | .inplace, .inplace => some true
  | .inplaceOnly, .inplace => some true
  | .inplaceOnly, .outplace => some false
  | .separable, .separable => some true
  | .updateOutput, .updateOutput => some true
  | _, _ => none

/-- The hierarchy is that of Python: a class is the first one of its method resolution order. -/
def Classes.Proper (s : Classes) : Prop := ∀ c, (s.mro c).head? = some c

theorem flags_own {s : Classes} (hs : s.Proper) (c : Nat) (v : Flags) : ({ s with own := Function.update s.own c (some v) } : Classes).flags c = some v := by
  have h := hs c
  unfold Classes.flags
  dsimp only
  cases hm : s.mro c with
  | nil => rw [hm] at h; cases h
  | cons a l =>
    rw [hm] at h
    simp only [List.head?_cons, Option.some.injEq] at h
    subst h
    simp [List.findSome?_cons]

theorem decorate_spec {s t : Classes} (hs : s.Proper) {c : Nat} {d : Decorator} (h : s.decorate c d = some t) :
    ∃ old, s.flags c = some old ∧ t.flags c = some (setFlags old d.arguments) ∧ t.mro = s.mro ∧
      t.own = Function.update s.own c (some (setFlags old d.arguments)) := by
  unfold Classes.decorate at h
  split at h
  · cases ho : s.flags c with
    | none => rw [ho] at h; cases h
    | some old =>
      rw [ho] at h
      simp only [Option.map_some, Option.some.injEq] at h
      subst h
      exact ⟨old, rfl, flags_own hs c _, rfl, rfl⟩
  · cases h

/-- C115, partial: a decorator sets the flags that its documentation tells, and leaves the others. Missing: `orthogonal`, which does not set
the flag real (`C115_orthogonal_fails`). -/
theorem C115_documented_partial (s t : Classes) (hs : s.Proper) (c : Nat) (d : Decorator) (hd : d ≠ .orthogonal) (h : s.decorate c d = some t) :
    ∃ old new, s.flags c = some old ∧ t.flags c = some new ∧ ∀ f, new f = (d.documented f).getD (old f) := by
  obtain ⟨old, h1, h2, _⟩ := decorate_spec hs h
  refine ⟨old, _, h1, h2, fun f => ?_⟩
  cases d <;> first | exact absurd rfl hd | (cases f <;> rfl)

/-- C115: a decorator changes no class but the decorated one and those that inherit from it. -/
theorem C115_others (s t : Classes) (hs : s.Proper) (c c' : Nat) (d : Decorator) (h : s.decorate c d = some t) (hc : c ∉ s.mro c') :
    t.flags c' = s.flags c' := by
  obtain ⟨old, _, _, hm, ho⟩ := decorate_spec hs h
  unfold Classes.flags
  rw [hm, ho]
  generalize s.mro c' = l at hc
  induction l with
  | nil => rfl
  | cons a l ih =>
    have ha : a ≠ c := fun e => hc (by simp [e])
    rw [List.findSome?_cons, List.findSome?_cons, Function.update_of_ne ha, ih fun hm => hc (List.mem_cons_of_mem _ hm)]

/-- C115: a class that inherits from the decorated one has its flags, unless a class before it in the method resolution order has flags of its own. -/
theorem C115_inherited (s t : Classes) (hs : s.Proper) (c c' : Nat) (d : Decorator) (h : s.decorate c d = some t) (before after : List Nat)
    (hc : s.mro c' = before ++ c :: after) (hb : ∀ b ∈ before, s.own b = none ∧ b ≠ c) : t.flags c' = t.flags c := by
  obtain ⟨old, _, h2, hm, ho⟩ := decorate_spec hs h
  rw [h2]
  unfold Classes.flags
  rw [hm, ho, hc]
  clear hc
  induction before with
  | nil => simp [List.findSome?_cons]
  | cons b l ih =>
    have := hb b (by simp)
    rw [List.cons_append, List.findSome?_cons, Function.update_of_ne this.2, this.1]
    exact ih fun b hb' => hb b (by simp [hb'])

/-- What a decorator does to a flag. -/
def effect (d : Decorator) (f : Flag) : Option Bool := if d = .orthogonal ∧ f = .real then none else d.documented f

theorem setFlags_effect (old : Flags) (d : Decorator) (f : Flag) : setFlags old d.arguments f = (effect d f).getD (old f) := by
  cases d <;> cases f <;> rfl

theorem effect_value (d : Decorator) (f : Flag) (b : Bool) (h : effect d f = some b) : b = (f != .outplace) := by
  have key : effect d f = none ∨ effect d f = some (f != .outplace) := by
    cases d <;> cases f <;> first | exact Or.inl rfl | exact Or.inr rfl
  rcases key with k | k <;> rw [k] at h
  · cases h
  · exact (Option.some.inj h).symm

theorem effect_outplace (d : Decorator) : effect d .outplace = if d = .inplaceOnly then some false else none := by
  cases d <;> rfl

theorem setFlags_comm (old : Flags) (d e : Decorator) :
    setFlags (setFlags old d.arguments) e.arguments = setFlags (setFlags old e.arguments) d.arguments := by
  funext f
  rw [setFlags_effect, setFlags_effect, setFlags_effect, setFlags_effect]
  cases hd : effect d f <;> cases he : effect e f <;> simp only [Option.getD_some, Option.getD_none]
  rw [effect_value d f _ hd, effect_value e f _ he]

theorem decorate_comm (s : Classes) (hs : s.Proper) (c : Nat) (d e : Decorator) :
    (s.decorate c d).bind (fun t => t.decorate c e) = (s.decorate c e).bind fun t => t.decorate c d := by
  by_cases hl : (s.mro c).getLast? = some 0
  · cases ho : s.flags c with
    | none => simp [Classes.decorate, ho]
    | some old =>
      have key : ∀ d e : Decorator, (s.decorate c d).bind (fun t => t.decorate c e) =
          some { s with own := Function.update s.own c (some (setFlags (setFlags old d.arguments) e.arguments)) } := by
        intro d e
        rw [show s.decorate c d = some { s with own := Function.update s.own c (some (setFlags old d.arguments)) } by
          simp [Classes.decorate, hl, ho]]
        rw [Option.bind_some, Classes.decorate, flags_own hs]
        simp [hl, Function.update_idem]
      rw [key d e, key e d, setFlags_comm]
  · simp [Classes.decorate, hl]

theorem decorate_proper {s t : Classes} (hs : s.Proper) {c : Nat} {d : Decorator} (h : s.decorate c d = some t) : t.Proper := by
  obtain ⟨_, _, _, hm, _⟩ := decorate_spec hs h
  intro k
  rw [hm]
  exact hs k

/-- C115: the order of the decorators of a class does not matter. -/
theorem C115_order (s : Classes) (hs : s.Proper) (c : Nat) (ds es : List Decorator) (h : ds.Perm es) : s.decorateAll c ds = s.decorateAll c es := by
  induction h generalizing s with
  | nil => rfl
  | cons d _ ih =>
    simp only [Classes.decorateAll]
    cases hd : s.decorate c d with
    | none => rfl
    | some t => exact ih t (decorate_proper hs hd)
  | swap d e l =>
    simp only [Classes.decorateAll]
    have := decorate_comm s hs c d e
    rw [← Option.bind_assoc, ← Option.bind_assoc, this]
  | trans _ _ ih1 ih2 => rw [ih1 s hs, ih2 s hs]

/-- C115: a class with several decorators has the flags that it inherits and those that one of the decorators sets; the flag outplace is the only one
that a decorator, inplace_only, removes. -/
theorem C115_several (s t : Classes) (hs : s.Proper) (c : Nat) (ds : List Decorator) (h : s.decorateAll c ds = some t) (old new : Flags)
    (ho : s.flags c = some old) (hn : t.flags c = some new) :
    (new .outplace = true ↔ old .outplace = true ∧ .inplaceOnly ∉ ds) ∧ ∀ f, f ≠ .outplace →
      (new f = true ↔ old f = true ∨ ∃ d ∈ ds, d.documented f = some true ∧ ¬ (d = .orthogonal ∧ f = .real)) := by
  induction ds generalizing s old with
  | nil =>
    simp only [Classes.decorateAll, Option.some.injEq] at h
    subst h
    rw [ho] at hn
    cases hn
    simp
  | cons d ds ih =>
    simp only [Classes.decorateAll, Option.bind_eq_some_iff] at h
    obtain ⟨u, hu, ht⟩ := h
    obtain ⟨old', h1, h2, _⟩ := decorate_spec hs hu
    rw [ho] at h1
    cases h1
    obtain ⟨i1, i2⟩ := ih u (decorate_proper hs hu) ht _ h2
    constructor
    · rw [i1, setFlags_effect, effect_outplace]
      by_cases hd : d = .inplaceOnly
      · simp [hd]
      · simp [hd, Ne.symm hd]
    · intro f hf
      rw [i2 f hf, setFlags_effect]
      have e : (effect d f).getD (old f) = true ↔ old f = true ∨ (d.documented f = some true ∧ ¬ (d = .orthogonal ∧ f = .real)) := by
        cases he : effect d f with
        | none =>
          unfold effect at he
          split at he
          · next hc => simp [hc]
          · simp [he]
        | some b =>
          have hb := effect_value d f b he
          have hb' : b = true := by rw [hb]; simpa using hf
          subst hb'
          unfold effect at he
          split at he
          · cases he
          · next hc => simp [he]; right; intro h; exact fun h2 => hc ⟨h, h2⟩
      rw [e]
      simp only [List.mem_cons, exists_eq_or_imp]
      rw [or_assoc]

/-! ### Where the code differs -/

/-- `Operator` (0), a class of operators (1), a class that is not one (2), and classes that inherit from `Operator` and from it, in both orders (3, 4). -/
def sample : Classes where
  mro := fun c => match c with
    | 0 => [0]
    | 1 => [1, 0]
    | 3 => [3, 0, 2]
    | 4 => [4, 2, 0]
    | c => [c]
  own := fun c => if c = 0 then some default else none

/-- C115 fails: the decorator `orthogonal` does not set the flag real, which its documentation announces. -/
theorem C115_orthogonal_fails : ∃ t new, sample.decorate 1 .orthogonal = some t ∧ t.flags 1 = some new ∧ Decorator.orthogonal.documented .real = some true ∧
    new .real = false ∧ new .linear = true := ⟨_, _, rfl, rfl, rfl, rfl, rfl⟩

/-- C115 fails: the decorators raise KeyError for a class whose last parent is not a class of operators; the other order of the parents works. -/
theorem C115_mixin_fails : (∀ d, sample.decorate 3 d = none) ∧ ∀ d, (sample.decorate 4 d).isSome = true :=
  ⟨fun _ => rfl, fun _ => rfl⟩

/-! ### Examples -/

example : sample.Proper := by
  intro c
  unfold sample
  dsimp only
  split <;> rfl

example : ∃ t new, sample.decorateAll 1 [.symmetric, .inplaceOnly, .square] = some t ∧ t.flags 1 = some new ∧
    new .linear = true ∧ new .symmetric = true ∧ new .outplace = false ∧ new .real = false ∧ t.flags 0 = some default :=
  ⟨_, _, rfl, rfl, rfl, rfl, rfl, rfl, rfl⟩

end Verif.Decorators
