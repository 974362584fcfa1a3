import Mathlib.Order.Basic
import Mathlib.Algebra.Order.Ring.Rat

/-!
Model of the objects that wrap the minimisation functions of SciPy: src/pyoperators/iterative/optimize.py, of their use in the double loop
algorithm (src/pyoperators/iterative/dli.py:277-283), and property C109.

The functions of SciPy are not part of the repository: they are represented by an arbitrary function (`Minimiser`) of the arguments that they
receive. `X` is the type of the arrays, `zeros` the array `np.zeros(criterion.shapein)`, `R` the type of the values of the criterion and `V` the type
of the extra arguments and of the options.
-/

namespace Verif.Minimisers

variable {X R V : Type}

/-- The classes of the module: src/pyoperators/iterative/optimize.py:7-16. -/
inductive Method where
  | bfgs | cg | cobyla | lbfgsb | ncg | powell | slsqp | tnc
  deriving DecidableEq, Repr

/-- A criterion and the attributes that the wrappers look for: src/pyoperators/iterative/optimize.py:41-45. The criterions of
src/pyoperators/iterative/criterions.py:346-357 have the derivative `diff` only, that of the double loop algorithm has `gradient` and `hessian_p`
(src/pyoperators/iterative/dli.py:118-125). -/
structure Criterion (X R V : Type) where
  value : X → List V → R
  diff : Option (X → X) := none
  gradient : Option (X → X) := none
  hessianP : Option (X → X → X) := none

/-- What a function of SciPy receives: the function, the first guess, the derivatives (`none`: the derivative is estimated by differences), the
constraints, the extra arguments of the function and the options. -/
structure Request (X R V : Type) where
  function : X → List V → R
  start : X
  fprime : Option (X → X)
  fhessP : Option (X → X → X)
  cons : List V
  args : List V
  options : List (String × V)

/-- What a function of SciPy returns: an array, or a tuple whose first element is the array, which depends on the options. -/
inductive Output (X V : Type) where
  | array (x : X)
  | tuple (x : X) (rest : List V)

/-- The solution in what a function of SciPy returns. -/
def Output.solution : Output X V → X
  | .array x => x
  | .tuple x _ => x

/-- The functions of SciPy: `opt.fmin_bfgs` and the others. -/
abbrev Minimiser (X R V : Type) := Method → Request X R V → Output X V

/-- The exceptions. -/
inductive Error where
  | typeError | valueError
  deriving DecidableEq, Repr

/-- The attributes of the objects: src/pyoperators/iterative/optimize.py:40-51; `output` is `optimizer_output`. -/
structure Wrapper (X R V : Type) where
  method : Method
  criterion : Criterion X R V
  gradient : Option (X → X)
  hessianP : Option (X → X → X)
  cons : List V
  args : List V
  kwargs : List (String × V)
  current : Option X
  output : Option (Output X V)

/-- `first_guess`: src/pyoperators/iterative/optimize.py:53-60. -/
def firstGuess (zeros : X) (w : Wrapper X R V) (x0 : Option X) : Wrapper X R V :=
  match x0 with
  | none => { w with current := some zeros }
  | some x => { w with current := some x }

/-- `FminWrapper.__init__`: src/pyoperators/iterative/optimize.py:40-51. -/
def baseInit (zeros : X) (m : Method) (c : Criterion X R V) (cons : List V) (x0 : Option X) (args : List V) (kwargs : List (String × V)) :
    Wrapper X R V :=
  let w : Wrapper X R V :=
    { method := m, criterion := c, gradient := c.gradient, hessianP := c.hessianP, cons := cons, args := args, kwargs := kwargs,
      current := none, output := none }
  { firstGuess zeros w x0 with current := none, output := none }

/-- The constructors: src/pyoperators/iterative/optimize.py:40-51 for most of the classes, 66-68 for FminCOBYLA and 146-149 for FminNCG. These two
call `FminWrapper.__init__(criterion, x0=x0, *args, **kwargs)`, in which the extra positional arguments come before the keyword x0: the first
one is a second value of x0, and Python raises TypeError. -/
def construct (zeros : X) (m : Method) (c : Criterion X R V) (cons : List V) (x0 : Option X) (args : List V) (kwargs : List (String × V)) :
    Except Error (Wrapper X R V) :=
  match m with
  | .cobyla => if args.isEmpty then .ok (baseInit zeros m c cons x0 args kwargs) else .error .typeError
  | .ncg =>
    if args.isEmpty then
      let w := baseInit zeros m c [] x0 args kwargs
      if w.hessianP.isNone then .error .valueError else .ok w
    else .error .typeError
  | _ => .ok (baseInit zeros m c [] x0 args kwargs)

/-- The keywords that the methods `__call__` give explicitly: src/pyoperators/iterative/optimize.py:72-78, 92-94, 108-114, 128-134, 153-160, 174-180,
194-200 and 215-221. -/
def explicit : Method → List String
  | .cobyla | .powell => ["args"]
  | .ncg => ["fprime", "fhess_p", "args"]
  | _ => ["fprime", "args"]

/-- `__call__`: src/pyoperators/iterative/optimize.py:70-84, 90-100, 106-120, 126-140, 151-166, 172-186, 192-207 and 213-227. The value is that of the
call (`none` for None) and the object afterwards. A keyword of the constructor that is also given explicitly raises TypeError. FminCOBYLA stores the
result in `current_solution` instead of `optimizer_output`, which stays None. -/
def call (zeros : X) (sp : Minimiser X R V) (w : Wrapper X R V) : Except Error (Option X × Wrapper X R V) :=
  let w := firstGuess zeros w none
  if w.kwargs.any fun k => (explicit w.method).contains k.1 then .error .typeError
  else
    let start := w.current.getD zeros
    let request : Request X R V :=
      { function := w.criterion.value
        start := start
        fprime := if w.method = .cobyla ∨ w.method = .powell then none else w.gradient
        fhessP := if w.method = .ncg then w.hessianP else none
        cons := if w.method = .cobyla then w.cons else []
        args := w.args
        options := w.kwargs }
    let out := sp w.method request
    let w := if w.method = .cobyla then { w with current := some out.solution } else { w with output := some out }
    let solution := match w.output with
      | some (.tuple x _) => some x
      | some (.array x) => some x
      | none => none
    .ok (solution, { w with current := solution })

/-- Several calls of the same object, and the values that they return. -/
def calls (zeros : X) (sp : Minimiser X R V) : Nat → Wrapper X R V → Except Error (List (Option X))
  | 0, _ => .ok []
  | n + 1, w => do
    let r ← call zeros sp w
    let rest ← calls zeros sp n r.2
    return r.1 :: rest

/-- `DoubleLoopAlgorithm.update_current_solution`: src/pyoperators/iterative/dli.py:277-283, with the optimizer `m`. -/
def inner (zeros : X) (sp : Minimiser X R V) (m : Method) (c : Criterion X R V) (fminArgs : List (String × V)) (last : X) :
    Except Error (Option X) := do
  let w ← construct zeros m c [] (some last) [] fminArgs
  let r ← call zeros sp w
  return r.1

/-! ### The property -/

/-- The derivative of the criterion, whatever its name. -/
def Criterion.derivative (c : Criterion X R V) : Option (X → X) := c.gradient.or c.diff

/-- What the documentation promises: the function of SciPy with the same name minimises the criterion, from x0 if it is given, with the derivatives
of the criterion if the method can use them. -/
def documented (zeros : X) (m : Method) (c : Criterion X R V) (cons : List V) (x0 : Option X) (args : List V) (options : List (String × V)) :
    Request X R V where
  function := c.value
  start := match x0 with
    | some x => x
    | none => zeros
  fprime := match m with
    | .cobyla | .powell => none
    | _ => c.derivative
  fhessP := match m with
    | .ncg => c.hessianP
    | _ => none
  cons := match m with
    | .cobyla => cons
    | _ => []
  args := args
  options := options

/-- The methods of SciPy that never return a worse point than the first guess. -/
def Descends [LE R] (sp : Minimiser X R V) : Prop :=
  ∀ (m : Method) (r : Request X R V), r.function (sp m r).solution r.args ≤ r.function r.start r.args

/-- The options do not repeat a keyword that the object gives itself. -/
def Free (m : Method) (options : List (String × V)) : Prop :=
  match m with
  | .cobyla | .powell => ∀ o ∈ options, o.1 ≠ "args"
  | .ncg => ∀ o ∈ options, o.1 ≠ "args" ∧ o.1 ≠ "fprime" ∧ o.1 ≠ "fhess_p"
  | _ => ∀ o ∈ options, o.1 ≠ "args" ∧ o.1 ≠ "fprime"

theorem not_any (m : Method) (options : List (String × V)) (h : Free m options) :
    (options.any fun k => (explicit m).contains k.1) = false := by
  rw [List.any_eq_false]
  intro o ho
  cases m <;> simp only [Free] at h <;> have := h o ho <;> simp [explicit, this]

/-- What SciPy receives from an object that is not one of COBYLA (used in the proofs only). -/
def sent (zeros : X) (w : Wrapper X R V) : Request X R V :=
  ⟨w.criterion.value, zeros, if w.method = .powell then none else w.gradient, if w.method = .ncg then w.hessianP else none, [], w.args, w.kwargs⟩

/-- The object and the values of its calls: for the methods other than COBYLA, a call returns the solution found by SciPy from the first guess zero,
and the object keeps it. -/
theorem call_eq (zeros : X) (sp : Minimiser X R V) (w : Wrapper X R V) (hm : w.method ≠ .cobyla) (hf : Free w.method w.kwargs) :
    ∃ w', call zeros sp w = .ok (some (sp w.method (sent zeros w)).solution, w') ∧
      w'.method = w.method ∧ w'.criterion = w.criterion ∧ w'.gradient = w.gradient ∧ w'.hessianP = w.hessianP ∧ w'.args = w.args ∧
      w'.kwargs = w.kwargs ∧ w'.current = some (sp w.method (sent zeros w)).solution := by
  obtain ⟨m, c, g, h, cons, args, kwargs, current, output⟩ := w
  have ha := not_any m kwargs hf
  have hany : ∀ {α : Type} (x y : α), (if (kwargs.any fun k => (explicit m).contains k.1) = true then x else y) = y := by
    intro α x y
    rw [ha]
    rfl
  unfold call firstGuess
  dsimp only
  rw [hany]
  cases m
  case cobyla => exact absurd rfl hm
  all_goals
    dsimp only [sent]
    simp only [reduceCtorEq, if_true, if_false, or_self, or_true, Option.getD_some]
    generalize sp _ _ = out
    refine ⟨⟨_, c, g, h, cons, args, kwargs, some out.solution, some out⟩, ?_, rfl, rfl, rfl, rfl, rfl, rfl, rfl⟩
    cases out <;> rfl

/-- C109, partial: the objects other than those of COBYLA return what the documented call of SciPy returns, if x0 is not given or is zero, and the
criterion has no derivative under the name `diff` only. Missing: other first guesses (`C109_x0_fails`), COBYLA (`C109_cobyla_fails`), the criterions
of the package (`C109_gradient_fails`), and the extra arguments (`C109_arguments_fails`, `C109_args_fails`). -/
theorem C109_partial (zeros : X) (sp : Minimiser X R V) (m : Method) (c : Criterion X R V) (cons : List V) (x0 : Option X) (args : List V)
    (options : List (String × V)) (w : Wrapper X R V) (hw : construct zeros m c cons x0 args options = .ok w) (hm : m ≠ .cobyla)
    (hx : x0 = none ∨ x0 = some zeros) (hd : c.gradient = none → c.diff = none) (hf : Free m options) :
    ∃ w', call zeros sp w = .ok (some (sp m (documented zeros m c cons x0 args options)).solution, w') := by
  have hderiv : c.derivative = c.gradient := by
    unfold Criterion.derivative
    cases hg : c.gradient with
    | none => simp [hd hg]
    | some g => rfl
  have hw' : w = baseInit zeros m c [] x0 args options := by
    cases m <;> simp only [construct] at hw
    case cobyla => exact absurd rfl hm
    case ncg =>
      split at hw
      · split at hw
        · cases hw
        · exact (Except.ok.inj hw).symm
      · cases hw
    all_goals exact (Except.ok.inj hw).symm
  have hb : w.method = m ∧ w.criterion = c ∧ w.gradient = c.gradient ∧ w.hessianP = c.hessianP ∧ w.args = args ∧ w.kwargs = options := by
    rw [hw']
    cases x0 <;> exact ⟨rfl, rfl, rfl, rfl, rfl, rfl⟩
  obtain ⟨h1, h2, h3, h4, h5, h6⟩ := hb
  obtain ⟨w', h, _⟩ := call_eq zeros sp w (by rw [h1]; exact hm) (by rw [h1, h6]; exact hf)
  refine ⟨w', ?_⟩
  rw [h]
  unfold sent documented
  rw [h1, h2, h3, h4, h5, h6]
  rw [hderiv]
  rcases hx with rfl | rfl <;> cases m <;> first | exact absurd rfl hm | rfl

/-- C109: calling the same object several times returns the same solution each time. -/
theorem C109_repeated (zeros : X) (sp : Minimiser X R V) (n : Nat) (w w' : Wrapper X R V) (x : Option X)
    (h : call zeros sp w = .ok (x, w')) (hm : w.method ≠ .cobyla) (hf : Free w.method w.kwargs) :
    calls zeros sp n w = .ok (List.replicate n x) := by
  induction n generalizing w w' with
  | zero => rfl
  | succ n ih =>
    obtain ⟨v, hv, h1, h2, h3, h4, h5, h6, _⟩ := call_eq zeros sp w hm hf
    obtain ⟨u, hu, _⟩ := call_eq zeros sp v (by rw [h1]; exact hm) (by rw [h1, h6]; exact hf)
    rw [h] at hv
    obtain ⟨rfl, rfl⟩ := Prod.mk.inj (Except.ok.inj hv)
    have hu' : call zeros sp w' = .ok (some (sp w.method (sent zeros w)).solution, u) := by
      rw [hu]
      unfold sent
      rw [h1, h2, h3, h4, h5, h6]
    have := ih w' u hu' (by rw [h1]; exact hm) (by rw [h1, h6]; exact hf)
    simp only [calls, h, this, bind, Except.bind, pure, Except.pure, List.replicate_succ]

/-- C109, partial: if SciPy never returns a worse point than the first guess that it is given, the solution is not worse than zero. Missing: it may be
worse than the first guess x0 that is given (`C109_x0_fails`). -/
theorem C109_descent_partial [LE R] (zeros : X) (sp : Minimiser X R V) (hsp : Descends sp) (w w' : Wrapper X R V) (x : Option X)
    (h : call zeros sp w = .ok (x, w')) (hm : w.method ≠ .cobyla) (hf : Free w.method w.kwargs) :
    ∃ y, x = some y ∧ w'.current = some y ∧ w.criterion.value y w.args ≤ w.criterion.value zeros w.args := by
  obtain ⟨v, hv, _, _, _, _, _, _, hc⟩ := call_eq zeros sp w hm hf
  rw [h] at hv
  obtain ⟨rfl, rfl⟩ := Prod.mk.inj (Except.ok.inj hv)
  exact ⟨_, rfl, hc, hsp w.method (sent zeros w)⟩

/-- C109, partial: an inner loop of the double loop algorithm with the method of Newton and a criterion that has a second derivative returns a point
which is not worse than zero, and that does not depend on the last solution. Missing: it may be worse than the last solution (`C109_inner_fails`). -/
theorem C109_inner_partial [LE R] (zeros : X) (sp : Minimiser X R V) (hsp : Descends sp) (c : Criterion X R V) (hh : c.hessianP.isSome)
    (fminArgs : List (String × V)) (hf : Free .ncg fminArgs) :
    ∃ y, (∀ last, inner zeros sp .ncg c fminArgs last = .ok (some y)) ∧ c.value y [] ≤ c.value zeros [] := by
  have hn : c.hessianP.isNone = false := by cases h : c.hessianP <;> simp_all
  have key : ∀ last, ∃ w, construct zeros .ncg c [] (some last) [] fminArgs = .ok w ∧ w.method = .ncg ∧ w.criterion = c ∧
      w.gradient = c.gradient ∧ w.hessianP = c.hessianP ∧ w.args = [] ∧ w.kwargs = fminArgs := by
    intro last
    refine ⟨baseInit zeros .ncg c [] (some last) [] fminArgs, ?_, rfl, rfl, rfl, rfl, rfl, rfl⟩
    simp [construct, baseInit, firstGuess, hn]
  refine ⟨(sp .ncg ⟨c.value, zeros, c.gradient, c.hessianP, [], [], fminArgs⟩).solution, ?_, hsp .ncg ⟨c.value, zeros, c.gradient, c.hessianP, [], [], fminArgs⟩⟩
  intro last
  obtain ⟨w, h, h1, h2, h3, h4, h5, h6⟩ := key last
  obtain ⟨w', hc, _⟩ := call_eq zeros sp w (by rw [h1]; decide) (by rw [h1, h6]; exact hf)
  unfold inner
  simp only [h, bind, Except.bind, hc, pure, Except.pure, sent]
  rw [h1, h2, h3, h4, h5, h6]
  rfl

/-! ### Where the code differs -/

/-- A criterion of one unknown: (x - 3)². -/
def parabola : Criterion Rat Rat Rat where
  value x _ := (x - 3) ^ 2
  gradient := some fun x => 2 * (x - 3)
  hessianP := some fun _ p => 2 * p

/-- SciPy with the option maxiter=0: the first guess is returned. -/
def lazyMinimiser : Minimiser Rat Rat Rat := fun _ r => .array r.start

theorem lazyMinimiser_descends : Descends lazyMinimiser := fun _ _ => le_refl _

/-- C109 fails: the first guess x0 is ignored; the solution is worse than the first guess, although SciPy never returns a worse point than the first
guess that it is given. -/
theorem C109_x0_fails : ∃ (sp : Minimiser Rat Rat Rat) (c : Criterion Rat Rat Rat) (w w' : Wrapper Rat Rat Rat) (x0 y : Rat), Descends sp ∧
    construct 0 .bfgs c [] (some x0) [] [("maxiter", 0)] = .ok w ∧ call 0 sp w = .ok (some y, w') ∧ c.value x0 [] < c.value y [] := by
  refine ⟨lazyMinimiser, parabola, _, _, 3, 0, lazyMinimiser_descends, rfl, rfl, ?_⟩
  decide +kernel

/-- C109 fails in the double loop algorithm: an inner loop can return a solution that is worse than the last one. -/
theorem C109_inner_fails : ∃ (sp : Minimiser Rat Rat Rat) (c : Criterion Rat Rat Rat) (last y : Rat), Descends sp ∧
    inner 0 sp .ncg c [("maxiter", 0)] last = .ok (some y) ∧ c.value last [] < c.value y [] := by
  refine ⟨lazyMinimiser, parabola, 3, 0, lazyMinimiser_descends, rfl, ?_⟩
  decide +kernel

/-- C109 fails for COBYLA: whatever SciPy returns, the call returns None. -/
theorem C109_cobyla_fails (zeros : X) (sp : Minimiser X R V) (c : Criterion X R V) (cons : List V) (x0 : Option X) (options : List (String × V))
    (hf : Free .cobyla options) :
    ∃ w w', construct zeros .cobyla c cons x0 [] options = .ok w ∧ call zeros sp w = .ok (none, w') ∧ w'.current = none := by
  have ha := not_any .cobyla options hf
  refine ⟨baseInit zeros .cobyla c cons x0 [] options, ?_⟩
  have hany : ∀ {α : Type} (x y : α), (if (options.any fun k => (explicit .cobyla).contains k.1) = true then x else y) = y := by
    intro α x y
    rw [ha]
    rfl
  unfold call
  cases x0 <;> (dsimp only [construct, baseInit, firstGuess]; rw [hany]; exact ⟨_, rfl, rfl, rfl⟩)

/-- C109 fails for the criterions of the package, whose derivative is called `diff`: it is not given to SciPy, and the method of Newton refuses
them. -/
theorem C109_gradient_fails (zeros : X) (sp : Minimiser X R V) (f : X → List V → R) (g : X → X) :
    (∃ w w', construct zeros .cg { value := f, diff := some g } [] none [] [] = .ok w ∧
      call zeros sp w = .ok (some (sp .cg ⟨f, zeros, none, none, [], [], []⟩).solution, w') ∧
      (documented zeros .cg { value := f, diff := some g } [] none [] []).fprime = some g) ∧
    construct zeros .ncg { value := f, diff := some g } [] none [] [] = .error .valueError := by
  refine ⟨?_, rfl⟩
  obtain ⟨w', h, _⟩ := call_eq zeros sp (baseInit zeros .cg { value := f, diff := some g } [] none [] [])
    (by intro h; cases h)
    (by intro o ho; cases ho)
  exact ⟨_, w', rfl, h, rfl⟩

/-- C109 fails: FminNCG and FminCOBYLA raise TypeError if extra positional arguments are given. -/
theorem C109_arguments_fails (zeros : X) (c : Criterion X R V) (cons : List V) (x0 : Option X) (a : V) (args : List V)
    (options : List (String × V)) :
    construct zeros .ncg c cons x0 (a :: args) options = .error .typeError ∧
    construct zeros .cobyla c cons x0 (a :: args) options = .error .typeError := ⟨rfl, rfl⟩

/-- C109 fails: the extra arguments cannot be given by the keyword `args` of the documentation; every call then raises TypeError. -/
theorem C109_args_fails (zeros : X) (sp : Minimiser X R V) (m : Method) (c : Criterion X R V) (cons : List V) (x0 : Option X)
    (options : List (String × V)) (a : V) (ha : ("args", a) ∈ options) (w : Wrapper X R V)
    (hw : construct zeros m c cons x0 [] options = .ok w) : call zeros sp w = .error .typeError := by
  have hb : w.method = m ∧ w.kwargs = options := by
    cases m <;> simp only [construct, List.isEmpty_nil, if_true] at hw
    case ncg =>
      split at hw
      · cases hw
      · rw [← Except.ok.inj hw]
        cases x0 <;> exact ⟨rfl, rfl⟩
    all_goals
      rw [← Except.ok.inj hw]
      cases x0 <;> exact ⟨rfl, rfl⟩
  have hany : (w.kwargs.any fun k => (explicit w.method).contains k.1) = true := by
    rw [hb.1, hb.2, List.any_eq_true]
    exact ⟨_, ha, by cases m <;> rfl⟩
  unfold call
  simp only [firstGuess, hany, if_true]

/-! ### Examples -/

/-- `FminBFGS(criterion)()` of the parabola with a SciPy that finds the minimum and returns a tuple. -/
example : ∃ w w', construct 0 .bfgs parabola [] none [] [("full_output", 1)] = .ok w ∧
    call 0 (fun _ _ => .tuple 3 [0]) w = .ok (some 3, w') ∧ Free .bfgs [("full_output", (1 : Rat))] := by
  refine ⟨_, _, rfl, rfl, ?_⟩
  simp [Free]

example : ∃ w, construct 0 .tnc parabola [] (some 0) [7] [] = .ok w ∧ w.method ≠ .cobyla := ⟨_, rfl, by decide⟩

example : parabola.hessianP.isSome ∧ Free .ncg [("maxiter", (0 : Rat))] := by
  refine ⟨rfl, ?_⟩
  simp [Free]

example : ∃ w, construct 0 .cg parabola [] none [] [("args", 7)] = .ok w := ⟨_, rfl⟩

/-- Three calls of the same object. -/
example : ∃ w, construct 0 .cg parabola [] (some 5) [] [] = .ok w ∧
    calls 0 (fun _ r => .array r.start) 3 w = .ok [some 0, some 0, some 0] := ⟨_, rfl, by rfl⟩

end Verif.Minimisers
