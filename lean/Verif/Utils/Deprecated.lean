/-
Model of the decorator `deprecated` (src/pyoperators/utils/misc.py:79-132), of the attributes of the classes that it returns and of their
initialisation by Python, and property C122.
-/

namespace Verif.Utils.Deprecated

/-- The exceptions: that of `super()` for an object that is not an instance of the class, and those of the methods. -/
inductive Err where
  | typeError
  | other (n : Nat)
deriving DecidableEq, Repr

/-- What a method `__init__` does to an object, given its arguments: A are the arguments, S the states of an object together with the warnings that have
been issued. -/
abbrev Action (A S : Type) := A → List String × S → Except Err (List String × S)

/-- A class of the `__mro__`: its identity, the attributes of its body but `__init__` and `__doc__`, its `__init__` if the body has one, which may call `super().__init__`,
that is its first argument. -/
structure Layer (A S V : Type) where
  id : Nat
  name : String
  own : List (String × V)
  init : Option (Action A S → Action A S)

variable {A S V : Type}

/-- A class: its `__mro__` but the class `object`. When two classes have the same `__bases__`, the tails of their `__mro__` are the same. -/
structure Class (A S V : Type) where
  body : Layer A S V
  bases : List (Layer A S V)

/-- `cls.__mro__` -/
def Class.mro (c : Class A S V) : List (Layer A S V) := c.body :: c.bases

/-- `isinstance(obj, cls)` for an object of class c, when the class cls has the identity i. -/
def Class.isA (c : Class A S V) (i : Nat) : Bool := c.mro.any (fun l => l.id == i)

/-- `getattr(cls, name)`: the first class of the `__mro__` whose body has the attribute; `none` for AttributeError. -/
def Class.getattr (c : Class A S V) (name : String) : Option V := c.mro.findSome? (fun l => l.own.lookup name)

/-- The method `__init__` that is found in the classes of a `__mro__`. In the body of a class, `super()` raises TypeError if the object is not an instance of this class; it looks in
the classes that follow it otherwise. `present` tells the classes of which the object is an instance. Simplification: the arguments given by a method `__init__` to that of the
next class are the ones that it has received, or are computed by it from them. -/
def initOf (present : Nat → Bool) : List (Layer A S V) → Action A S
  | [] => fun _ s => .ok s
  | l :: rest =>
    match l.init with
    | none => initOf present rest
    | some f => f (fun a s => if present l.id then initOf present rest a s else .error .typeError)

/-- `cls(*args)`: the state of a new object. -/
def Class.instantiate (c : Class A S V) : Action A S := initOf c.isA c.mro

/-- `warn(f'Class {x.__name__!r} is deprecated: {msg}')`: src/pyoperators/utils/misc.py:103-106. The filters of the module warnings are not
represented. -/
def classWarning (name msg : String) : String := "Class '" ++ name ++ "' is deprecated: " ++ msg

/-- `deprecated(msg)(x)` for a class x: src/pyoperators/utils/misc.py:99-117. The class that is returned has the identity i. `x.__init__` is looked for in the `__mro__` of x, for an object which
is an instance of the class that is returned. -/
def deprecatedClass (i : Nat) (msg : String) (x : Class A S V) : Class A S V where
  body :=
    { id := i
      name := x.body.name
      own := []
      init := some (fun _ a s =>
        initOf (fun j => i == j || x.bases.any (fun l => l.id == j)) x.mro a (s.1 ++ [classWarning x.body.name msg], s.2)) }
  bases := x.bases

/-- `deprecated(x)` for a class x: src/pyoperators/utils/misc.py:128-132; the first base stands for `x.__base__`. -/
def deprecatedDefault (i : Nat) (x : Class A S V) : Class A S V :=
  deprecatedClass i ("Use '" ++ ((x.bases.head?.map Layer.name).getD "object") ++ "' instead.") x

/-- `deprecated(msg)(x)` for a function x: src/pyoperators/utils/misc.py:119-127. A call returns the warnings and the value or the exception of x. -/
def deprecatedFunction (name msg : String) (x : A → Except Err V) : A → List String → List String × Except Err V :=
  fun a w => (w ++ ["Function '" ++ name ++ "' is deprecated: " ++ msg], x a)

/-- Successive calls of a function. -/
def calls (f : A → List String → List String × Except Err V) : List A → List String → List String × List (Except Err V)
  | [], w => (w, [])
  | a :: as, w =>
    let r := f a w
    let rs := calls f as r.1
    (rs.1, r.2 :: rs.2)

/-! ### Property C122 -/

/-- C122: the calls of a deprecated function have the outcomes of those of the function, and each of them issues a warning. -/
theorem C122_function (name msg : String) (x : A → Except Err V) (as : List A) (w : List String) :
    (calls (deprecatedFunction name msg x) as w).2 = as.map x ∧
    ∃ v, (calls (deprecatedFunction name msg x) as w).1 = w ++ v ∧ v.length = as.length := by
  induction as generalizing w with
  | nil => exact ⟨rfl, [], by simp [calls], rfl⟩
  | cons a as ih =>
    obtain ⟨h1, v, h2, h3⟩ := ih (w ++ ["Function '" ++ name ++ "' is deprecated: " ++ msg])
    refine ⟨?_, ("Function '" ++ name ++ "' is deprecated: " ++ msg) :: v, ?_, by simp [h3]⟩
    · simp only [calls, List.map_cons, deprecatedFunction] at h1 ⊢
      rw [h1]
    · simp only [calls, deprecatedFunction] at h2 ⊢
      rw [h2]; simp

theorem initOf_congr (p q : Nat → Bool) (ls : List (Layer A S V)) (h : ∀ l ∈ ls, p l.id = q l.id) : initOf p ls = initOf q ls := by
  induction ls with
  | nil => rfl
  | cons l ls ih =>
    have ih' := ih (fun m hm => h m (List.mem_cons_of_mem _ hm))
    unfold initOf
    rw [ih', h l List.mem_cons_self]

theorem bases_present (i : Nat) (x : Class A S V) :
    ∀ l ∈ x.bases, (i == l.id || x.bases.any (fun m => m.id == l.id)) = x.isA l.id := by
  intro l hl
  have h : x.bases.any (fun m => m.id == l.id) = true := List.any_eq_true.2 ⟨l, hl, by simp⟩
  simp [Class.isA, Class.mro, h]

/-- C122: an attribute that is not in the body of a deprecated class is the same. -/
theorem C122_inherited_partial (i : Nat) (msg : String) (x : Class A S V) (name : String) (h : x.body.own.lookup name = none) :
    (deprecatedClass i msg x).getattr name = x.getattr name := by
  simp [Class.getattr, Class.mro, deprecatedClass, h, List.findSome?_cons, List.lookup]

/-- C122: an object of a deprecated class is initialised as an object of the class, after one warning, if the body of the class has no `__init__`, or one that does not
call `super`. -/
theorem C122_init_partial (i : Nat) (msg : String) (x : Class A S V) (h : ∀ f, x.body.init = some f → ∀ g g', f g = f g') (a : A) (s : List String × S) :
    (deprecatedClass i msg x).instantiate a s = x.instantiate a (s.1 ++ [classWarning x.body.name msg], s.2) := by
  have e : initOf (fun j => i == j || x.bases.any (fun l => l.id == j)) x.bases = initOf x.isA x.bases := initOf_congr _ _ _ (bases_present i x)
  have e2 : initOf (fun j => i == j || x.bases.any (fun l => l.id == j)) x.mro = initOf x.isA x.mro := by
    unfold Class.mro initOf
    cases hf : x.body.init with
    | none => exact e
    | some f => exact h f hf _ _
  show initOf (fun j => i == j || x.bases.any (fun l => l.id == j)) x.mro a _ = _
  rw [e2]
  rfl

/-- C122: an object of a deprecated class is an instance of the same classes but the deprecated one. -/
theorem C122_instance_partial (i : Nat) (msg : String) (x : Class A S V) (j : Nat) (hi : j ≠ i) (hx : j ≠ x.body.id) :
    (deprecatedClass i msg x).isA j = x.isA j := by
  have h1 : (i == j) = false := by simpa using fun h : i = j => hi h.symm
  have h2 : (x.body.id == j) = false := by simpa using fun h : x.body.id = j => hx h.symm
  simp [Class.isA, Class.mro, deprecatedClass, h1, h2]

/-- C122 for the documented use, a class with an empty body that derives from the class to be used instead. -/
theorem C122_alias_partial (i : Nat) (x : Class A S V) (h : x.body.own = []) (hi : x.body.init = none) (a : A) (s : List String × S) :
    (∀ name, (deprecatedDefault i x).getattr name = x.getattr name) ∧
    ∃ w, (deprecatedDefault i x).instantiate a s = x.instantiate a (s.1 ++ [w], s.2) := by
  refine ⟨fun name => C122_inherited_partial i _ x name (by simp [h]), _, C122_init_partial i _ x (by simp [hi]) a s⟩

/-- C122: the attributes of the body of a class are lost when it is deprecated: those of the bases are found instead, if there are any. -/
theorem C122_body_fails (i : Nat) (msg : String) (x : Class A S V) (name : String) (v : V) (h : x.body.own.lookup name = some v) :
    x.getattr name = some v ∧ (deprecatedClass i msg x).getattr name = x.bases.findSome? (fun l => l.own.lookup name) := by
  simp [Class.getattr, Class.mro, deprecatedClass, h, List.findSome?_cons, List.lookup]

/-- C122: a deprecated class whose `__init__` calls `super().__init__` cannot be instantiated. -/
theorem C122_super_fails (i : Nat) (msg : String) (x : Class A S V) (hi : x.body.id ≠ i) (hb : ∀ l ∈ x.bases, l.id ≠ x.body.id)
    (pre : A → A) (post : Action A S) (h : x.body.init = some (fun g a s => (g (pre a) s).bind (post a))) (a : A) (s : List String × S) :
    (deprecatedClass i msg x).instantiate a s = .error .typeError := by
  have h1 : (i == x.body.id) = false := by simpa using fun h : i = x.body.id => hi h.symm
  have h2 : x.bases.any (fun l => l.id == x.body.id) = false := by
    rw [List.any_eq_false]
    intro l hl
    simpa using hb l hl
  show initOf (fun j => i == j || x.bases.any (fun l => l.id == j)) x.mro a _ = _
  unfold Class.mro initOf
  rw [h]
  simp only [h1, h2, Bool.or_self, Bool.false_eq_true, if_false]
  rfl

/-! ### Examples -/

/-- A base class with a method and an `__init__` that stores its argument. -/
def base : Layer Int Int String := ⟨0, "New", [("direct", "new direct"), ("nbytes", "new nbytes")], some (fun _ a s => .ok (s.1, s.2 + a))⟩

/-- `class Old(New): pass` -/
def old : Class Int Int String := ⟨⟨1, "Old", [], none⟩, [base]⟩

/-- A class that overrides a method and whose `__init__` calls `super().__init__(2 * a)`. -/
def oldSuper : Class Int Int String :=
  ⟨⟨1, "Old", [("direct", "old direct"), ("extra", "old extra")], some (fun g a s => (g (2 * a) s).bind (fun s => .ok (s.1, s.2 + 1)))⟩, [base]⟩

example : (deprecatedDefault 2 old).instantiate 3 ([], 4) = .ok (["Class 'Old' is deprecated: Use 'New' instead."], 7) := rfl
example : (deprecatedDefault 2 old).getattr "direct" = some "new direct" := by decide +kernel
example : oldSuper.instantiate 3 ([], 4) = .ok ([], 11) := rfl
example : (deprecatedClass 2 "" oldSuper).instantiate 3 ([], 4) = .error .typeError :=
  C122_super_fails 2 "" oldSuper (by decide) (by decide) (fun a => 2 * a) (fun _ s => .ok (s.1, s.2 + 1)) rfl 3 _
example : oldSuper.getattr "direct" = some "old direct" ∧ (deprecatedClass 2 "" oldSuper).getattr "direct" = some "new direct" :=
  ⟨by decide +kernel, by decide +kernel⟩
example : oldSuper.getattr "extra" = some "old extra" ∧ (deprecatedClass 2 "" oldSuper).getattr "extra" = none :=
  ⟨by decide +kernel, by decide +kernel⟩
example : (deprecatedClass 2 "" oldSuper).isA 0 = oldSuper.isA 0 := C122_instance_partial 2 "" oldSuper 0 (by decide) (by decide)
example : calls (deprecatedFunction "f" "g" (fun a : Int => if a = 0 then .error (.other 1) else .ok (a + 1))) [1, 0, 5] [] =
    (["Function 'f' is deprecated: g", "Function 'f' is deprecated: g", "Function 'f' is deprecated: g"], [.ok 2, .error (.other 1), .ok 6]) := rfl

end Verif.Utils.Deprecated
