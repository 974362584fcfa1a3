import Verif.Iter.Criterions

/-
Model of the sums and multiples of criterions, and of the functions that return criterions: src/pyoperators/iterative/criterions.py:303-336,
343-387 and 394-424, and property C104.

The elements are objects whose caches change when they are called, and which are shared by the criterions of which they are elements.  The
list of the elements of a criterion never changes.  The inputs have n elements; the attribute shapein is a label that is compared.
-/

namespace Verif.CriterionAlgebra

open Matrix Verif.Criterions

variable {m n : Nat}

/-! ### Model -/

/-- A `CriterionElement` in memory: its attribute shapein, the element and its cache.  src/pyoperators/iterative/criterions.py:242-260. -/
structure Cell (n : Nat) where
  shapein : Option (List Nat)
  live : Live n

/-- What the user holds: a reference to an element, or a criterion, with its attributes shapein and elements.  The elements of a criterion
are elements, or criterions.  src/pyoperators/iterative/criterions.py:345-351. -/
inductive Obj where
  | elem (i : Nat)
  | crit (shapein : Option (List Nat)) (elements : List Obj)

/-- The attribute shapein: src/pyoperators/iterative/criterions.py:251 and 351. -/
def shapeOf (h : List (Cell n)) : Obj → Option (Option (List Nat))
  | .elem i => h[i]?.map (·.shapein)
  | .crit s _ => some s

/-- `Criterion(elements)`: src/pyoperators/iterative/criterions.py:347-351.  `none` is an error. -/
def mkCrit (h : List (Cell n)) (es : List Obj) : Option Obj :=
  match es with
  | [] => none
  | e :: _ =>
    match shapeOf h e with
    | none => none
    | some s => if es.any fun e => shapeOf h e != some s then none else some (.crit s es)

/-- `a + b`: src/pyoperators/iterative/criterions.py:314-327 and 369-379. -/
def add (h : List (Cell n)) (a b : Obj) : Option Obj :=
  match a, b with
  | .elem _, .elem _ => if shapeOf h a != shapeOf h b then none else mkCrit h [a, b]
  | .elem _, .crit _ es => if shapeOf h a != shapeOf h b then none else mkCrit h (a :: es)
  | .crit _ es, .crit _ es' => mkCrit h (es ++ es')
  | .crit _ es, .elem _ => mkCrit h (es ++ [b])

open Classical in
/-- `a + s` and `s + a`, for a scalar s: src/pyoperators/iterative/criterions.py:328-336 and 380-390. -/
noncomputable def addScalar (h : List (Cell n)) (a : Obj) (s : ℝ) : Option Obj := if s = 0 then mkCrit h [a] else none

mutual
/-- `s * a`: src/pyoperators/iterative/criterions.py:303-312 and 359-364.  The multiples of the elements are new elements. -/
def scale (h : List (Cell n)) (s : ℝ) : Obj → Option (List (Cell n) × Obj)
  | .elem i => h[i]?.map fun c => (h ++ [⟨c.shapein, ⟨c.live.element.mul s, none⟩⟩], .elem h.length)
  | .crit _ es => (scaleAll h s es).bind fun (h', es') => (mkCrit h' es').map fun a => (h', a)

def scaleAll (h : List (Cell n)) (s : ℝ) : List Obj → Option (List (Cell n) × List Obj)
  | [] => some (h, [])
  | e :: es => (scale h s e).bind fun (h', e') => (scaleAll h' s es).map fun (h'', es') => (h'', e' :: es')
end

mutual
/-- `a(x)`: src/pyoperators/iterative/criterions.py:297-298 and 353-354.  The list of the cells, whose caches change, and the value. -/
noncomputable def call (h : List (Cell n)) (x : Fin n → ℝ) : Obj → List (Cell n) × Option ℝ
  | .elem i =>
    match h[i]? with
    | none => (h, none)
    | some c => (h.set i ⟨c.shapein, ⟨c.live.element, (c.live.element.call c.live.cache x).1⟩⟩, (c.live.element.call c.live.cache x).2)
  | .crit _ es => callAll h x 0 es

/-- `sum(el(x) for el in elements)`, from a partial sum. -/
noncomputable def callAll (h : List (Cell n)) (x : Fin n → ℝ) (acc : ℝ) : List Obj → List (Cell n) × Option ℝ
  | [] => (h, some acc)
  | e :: es =>
    match call h x e with
    | (h', none) => (h', none)
    | (h', some v) => callAll h' x (acc + v) es
end

mutual
/-- `a.diff(x)`: src/pyoperators/iterative/criterions.py:300-301 and 356-357. -/
noncomputable def diff (h : List (Cell n)) (x : Fin n → ℝ) : Obj → List (Cell n) × Option (Fin n → ℝ)
  | .elem i =>
    match h[i]? with
    | none => (h, none)
    | some c => (h.set i ⟨c.shapein, ⟨c.live.element, (c.live.element.diff c.live.cache x).1⟩⟩, (c.live.element.diff c.live.cache x).2)
  | .crit _ es => diffAll h x 0 es

/-- `sum(el.diff(x) for el in elements)`, from a partial sum. -/
noncomputable def diffAll (h : List (Cell n)) (x : Fin n → ℝ) (acc : Fin n → ℝ) : List Obj → List (Cell n) × Option (Fin n → ℝ)
  | [] => (h, some acc)
  | e :: es =>
    match diff h x e with
    | (h', none) => (h', none)
    | (h', some v) => diffAll h' x (acc + v) es
end

/-- The sum of the priors multiplied by their parameters, from a partial sum, which is 0 at first: src/pyoperators/iterative/criterions.py:403, 412
and 421. -/
noncomputable def sumPriors (h : List (Cell n)) (acc : Option Obj) : List (ℝ × Obj) → Option (List (Cell n) × Option Obj)
  | [] => some (h, acc)
  | (s, a) :: r =>
    (scale h s a).bind fun (h', b) =>
      (match acc with
        | none => addScalar h' b 0
        | some p => add h' p b).bind fun c => sumPriors h' (some c) r

/-- `huber_criterion(model, data, hypers, priors, deltas)` and `normp_criterion(model, data, hypers, priors, ps)`:
src/pyoperators/iterative/criterions.py:408-423.  The norms are those of the deltas or of the ps, in their order.  The priors and the model
have their attributes shapein.  The data are accepted. -/
noncomputable def generate (norms : List (∀ m, Criterions.Norm m)) (shapein : Option (List Nat)) (model : Matrix (Fin m) (Fin n) ℝ) (data : Fin m → ℝ)
    (hypers : List ℝ) (priors : List (Option (List Nat) × Prior n)) : Option (List (Cell n) × Obj) :=
  match norms with
  | [] => none
  | N :: Ns =>
    let likelihood : Cell n := ⟨shapein, ⟨⟨m, N m, model, some data⟩, none⟩⟩
    let elements := (Ns.zip priors).map fun (N, s, p) => (⟨s, ⟨⟨p.m, N p.m, p.op, none⟩, none⟩⟩ : Cell n)
    (sumPriors (likelihood :: elements) none (hypers.zip ((List.range elements.length).map fun i => .elem (i + 1)))).bind fun (h, prior) =>
      (match prior with
        | none => addScalar h (.elem 0) 0
        | some p => add h (.elem 0) p).map fun a => (h, a)

/-- A statement of the user.  The operands are numbered in the order of their creation. -/
inductive Stmt (n : Nat) where
  | element (shapein : Option (List Nat)) (e : Element n)
  | add (i j : Nat)
  | addScalar (i : Nat) (s : ℝ)
  | scale (s : ℝ) (i : Nat)
  | call (i : Nat) (x : Fin n → ℝ)
  | diff (i : Nat) (x : Fin n → ℝ)

/-- What the user sees. -/
inductive Seen (n : Nat) where
  | object
  | value (v : ℝ)
  | gradient (g : Fin n → ℝ)
  | error

/-- The memory, and the objects held by the user. -/
structure State (n : Nat) where
  cells : List (Cell n)
  objects : List Obj

def State.push (st : State n) : Option (List (Cell n) × Obj) → State n × Seen n
  | none => (st, .error)
  | some (h, a) => (⟨h, st.objects ++ [a]⟩, .object)

/-- The execution of a statement.  An error creates no object. -/
noncomputable def step (st : State n) : Stmt n → State n × Seen n
  | .element s e => st.push (some (st.cells ++ [⟨s, ⟨e, none⟩⟩], .elem st.cells.length))
  | .add i j => st.push (st.objects[i]?.bind fun a => st.objects[j]?.bind fun b => (add st.cells a b).map fun c => (st.cells, c))
  | .addScalar i s => st.push (st.objects[i]?.bind fun a => (addScalar st.cells a s).map fun c => (st.cells, c))
  | .scale s i => st.push (st.objects[i]?.bind fun a => scale st.cells s a)
  | .call i x =>
    match st.objects[i]? with
    | none => (st, .error)
    | some a =>
      match call st.cells x a with
      | (h, none) => (⟨h, st.objects⟩, .error)
      | (h, some v) => (⟨h, st.objects⟩, .value v)
  | .diff i x =>
    match st.objects[i]? with
    | none => (st, .error)
    | some a =>
      match diff st.cells x a with
      | (h, none) => (⟨h, st.objects⟩, .error)
      | (h, some v) => (⟨h, st.objects⟩, .gradient v)

noncomputable def run (st : State n) : List (Stmt n) → List (Seen n)
  | [] => []
  | s :: ss => (step st s).2 :: run (step st s).1 ss

/-! ### Specification: functions, without memory -/

/-- A function, its gradient and the shape of its argument. -/
structure Fun (n : Nat) where
  shapein : Option (List Nat)
  f : (Fin n → ℝ) → ℝ
  g : (Fin n → ℝ) → (Fin n → ℝ)

open Classical in
/-- The statements on functions. -/
noncomputable def specStep (fs : List (Fun n)) : Stmt n → List (Fun n) × Seen n
  | .element s e => (fs ++ [⟨s, fun x => e.norm.call (e.minusData (e.op *ᵥ x)), fun x => e.opᵀ *ᵥ e.norm.diff (e.minusData (e.op *ᵥ x))⟩], .object)
  | .add i j =>
    match fs[i]?, fs[j]? with
    | some a, some b => if a.shapein = b.shapein then (fs ++ [⟨a.shapein, fun x => a.f x + b.f x, fun x => a.g x + b.g x⟩], .object) else (fs, .error)
    | _, _ => (fs, .error)
  | .addScalar i s =>
    match fs[i]? with
    | some a => if s = 0 then (fs ++ [a], .object) else (fs, .error)
    | none => (fs, .error)
  | .scale s i =>
    match fs[i]? with
    | some a => (fs ++ [⟨a.shapein, fun x => s * a.f x, fun x => s • a.g x⟩], .object)
    | none => (fs, .error)
  | .call i x =>
    match fs[i]? with
    | some a => (fs, .value (a.f x))
    | none => (fs, .error)
  | .diff i x =>
    match fs[i]? with
    | some a => (fs, .gradient (a.g x))
    | none => (fs, .error)

noncomputable def specRun (fs : List (Fun n)) : List (Stmt n) → List (Seen n)
  | [] => []
  | s :: ss => (specStep fs s).2 :: specRun (specStep fs s).1 ss

/-! ### Proof -/

mutual
/-- The values of an object, from the elements. -/
noncomputable def val (h : List (Cell n)) (x : Fin n → ℝ) : Obj → ℝ
  | .elem i => (h[i]?.map fun c => c.live.element.value x).getD 0
  | .crit _ es => valAll h x es

noncomputable def valAll (h : List (Cell n)) (x : Fin n → ℝ) : List Obj → ℝ
  | [] => 0
  | e :: es => val h x e + valAll h x es
end

mutual
noncomputable def grad (h : List (Cell n)) (x : Fin n → ℝ) : Obj → Fin n → ℝ
  | .elem i => (h[i]?.map fun c => c.live.element.gradient x).getD 0
  | .crit _ es => gradAll h x es

noncomputable def gradAll (h : List (Cell n)) (x : Fin n → ℝ) : List Obj → Fin n → ℝ
  | [] => 0
  | e :: es => grad h x e + gradAll h x es
end

mutual
/-- The references exist, and the shapes agree. -/
def Ok (h : List (Cell n)) (s : Option (List Nat)) : Obj → Prop
  | .elem i => ∃ c, h[i]? = some c ∧ c.shapein = s
  | .crit s' es => s' = s ∧ es ≠ [] ∧ OkAll h s es

def OkAll (h : List (Cell n)) (s : Option (List Nat)) : List Obj → Prop
  | [] => True
  | e :: es => Ok h s e ∧ OkAll h s es
end

/-- The elements have not changed. -/
def Ext (h h' : List (Cell n)) : Prop :=
  ∀ (i : Nat) (c : Cell n), h[i]? = some c → ∃ c' : Cell n, h'[i]? = some c' ∧ c'.shapein = c.shapein ∧ c'.live.element = c.live.element

theorem Ext.refl (h : List (Cell n)) : Ext h h := fun _ c hc => ⟨c, hc, rfl, rfl⟩

theorem Ext.trans {h h' h'' : List (Cell n)} (a : Ext h h') (b : Ext h' h'') : Ext h h'' := by
  intro i c hc
  obtain ⟨c', h1, h2, h3⟩ := a i c hc
  obtain ⟨c'', h4, h5, h6⟩ := b i c' h1
  exact ⟨c'', h4, h5.trans h2, h6.trans h3⟩

theorem Ext.append (h : List (Cell n)) (c : Cell n) : Ext h (h ++ [c]) := by
  intro i c' hc
  refine ⟨c', ?_, rfl, rfl⟩
  rw [List.getElem?_append_left (List.getElem?_eq_some_iff.1 hc).1]
  exact hc

theorem Ext.set {h : List (Cell n)} {i : Nat} {c c' : Cell n} (hc : h[i]? = some c) (h1 : c'.shapein = c.shapein)
    (h2 : c'.live.element = c.live.element) : Ext h (h.set i c') := by
  intro j d hd
  by_cases hij : i = j
  · subst hij
    have : d = c := by rw [hc] at hd; exact (Option.some.inj hd).symm
    subst this
    exact ⟨c', by simp [(List.getElem?_eq_some_iff.1 hc).1], h1, h2⟩
  · exact ⟨d, by simp [hij, hd], rfl, rfl⟩

mutual
theorem ok_ext {h h' : List (Cell n)} (he : Ext h h') {s} : ∀ (a : Obj), Ok h s a → Ok h' s a
  | .elem i, ha => by
    obtain ⟨c, h1, h2⟩ := ha
    obtain ⟨c', h3, h4, -⟩ := he i c h1
    exact ⟨c', h3, h4.trans h2⟩
  | .crit s' es, ha => ⟨ha.1, ha.2.1, okAll_ext he es ha.2.2⟩

theorem okAll_ext {h h' : List (Cell n)} (he : Ext h h') {s} : ∀ (es : List Obj), OkAll h s es → OkAll h' s es
  | [], _ => trivial
  | e :: es, ha => ⟨ok_ext he e ha.1, okAll_ext he es ha.2⟩
end

mutual
theorem val_ext {h h' : List (Cell n)} (he : Ext h h') {s} (x : Fin n → ℝ) : ∀ (a : Obj), Ok h s a →
    val h' x a = val h x a ∧ grad h' x a = grad h x a
  | .elem i, ha => by
    obtain ⟨c, h1, -⟩ := ha
    obtain ⟨c', h3, -, h5⟩ := he i c h1
    simp only [val, grad, h1, h3, Option.map_some, Option.getD_some, h5, and_self]
  | .crit s' es, ha => by
    simp only [val, grad]
    exact valAll_ext he x es ha.2.2

theorem valAll_ext {h h' : List (Cell n)} (he : Ext h h') {s} (x : Fin n → ℝ) : ∀ (es : List Obj), OkAll h s es →
    valAll h' x es = valAll h x es ∧ gradAll h' x es = gradAll h x es
  | [], _ => ⟨rfl, rfl⟩
  | e :: es, ha => by
    obtain ⟨h1, h2⟩ := val_ext he x e ha.1
    obtain ⟨h3, h4⟩ := valAll_ext he x es ha.2
    simp only [valAll, gradAll, h1, h2, h3, h4, and_self]
end

theorem valAll_append (h : List (Cell n)) (x : Fin n → ℝ) (es es' : List Obj) :
    valAll h x (es ++ es') = valAll h x es + valAll h x es' ∧ gradAll h x (es ++ es') = gradAll h x es + gradAll h x es' := by
  induction es with
  | nil => simp [valAll, gradAll]
  | cons e es ih => simp only [List.cons_append, valAll, gradAll, ih.1, ih.2, add_assoc, and_self]

theorem okAll_append {h : List (Cell n)} {s} {es es' : List Obj} : OkAll h s (es ++ es') ↔ OkAll h s es ∧ OkAll h s es' := by
  induction es with
  | nil => simp [OkAll]
  | cons e es ih => simp only [List.cons_append, OkAll, ih, and_assoc]

theorem shapeOf_ok {h : List (Cell n)} {s} {a : Obj} (ha : Ok h s a) : shapeOf h a = some s := by
  cases a with
  | elem i => obtain ⟨c, h1, h2⟩ := ha; simp [shapeOf, h1, h2]
  | crit s' es => simp [shapeOf, ha.1]

theorem okAll_iff {h : List (Cell n)} {s} {es : List Obj} : OkAll h s es ↔ ∀ e ∈ es, Ok h s e := by
  induction es with
  | nil => simp [OkAll]
  | cons e es ih => simp [OkAll, ih]

theorem mkCrit_ok {h : List (Cell n)} {s} {es : List Obj} (h0 : es ≠ []) (hs : OkAll h s es) : mkCrit h es = some (.crit s es) := by
  cases es with
  | nil => exact absurd rfl h0
  | cons e es =>
    have h1 : shapeOf h e = some s := shapeOf_ok hs.1
    have h2 : ((e :: es).any fun e => shapeOf h e != some s) = false := by
      rw [List.any_eq_false]
      intro e' he'
      simp [shapeOf_ok (okAll_iff.1 hs e' he')]
    simp only [mkCrit, h1, h2, Bool.false_eq_true, if_false]

theorem mkCrit_bad {h : List (Cell n)} {s s'} {es : List Obj} {a : Obj} (ha : Ok h s' a) (hm : a ∈ es) (h0 : ∃ e es', es = e :: es' ∧ Ok h s e)
    (hs : s ≠ s') : mkCrit h es = none := by
  obtain ⟨e, es', rfl, he⟩ := h0
  have h1 : shapeOf h e = some s := shapeOf_ok he
  have h2 : ((e :: es').any fun e => shapeOf h e != some s) = true := by
    rw [List.any_eq_true]
    exact ⟨a, hm, by simp [shapeOf_ok ha, Ne.symm hs]⟩
  simp only [mkCrit, h1, h2, if_true]

theorem add_ok {h : List (Cell n)} {s} {a b : Obj} (ha : Ok h s a) (hb : Ok h s b) :
    ∃ c, add h a b = some c ∧ Ok h s c ∧ ∀ x, val h x c = val h x a + val h x b ∧ grad h x c = grad h x a + grad h x b := by
  cases a with
  | elem i =>
    cases b with
    | elem j =>
      have hl : OkAll h s [.elem i, .elem j] := ⟨ha, hb, trivial⟩
      refine ⟨.crit s [.elem i, .elem j], ?_, ⟨rfl, by simp, hl⟩, fun x => by simp [val, grad, valAll, gradAll]⟩
      simp [add, shapeOf_ok ha, shapeOf_ok hb, mkCrit_ok (by simp) hl]
    | crit s' es =>
      have hl : OkAll h s (.elem i :: es) := ⟨ha, hb.2.2⟩
      refine ⟨.crit s (.elem i :: es), ?_, ⟨rfl, by simp, hl⟩, fun x => by simp [val, grad, valAll, gradAll]⟩
      simp [add, shapeOf_ok ha, shapeOf_ok hb, mkCrit_ok (by simp) hl]
  | crit s' es =>
    cases b with
    | elem j =>
      have hl : OkAll h s (es ++ [.elem j]) := okAll_append.2 ⟨ha.2.2, hb, trivial⟩
      refine ⟨.crit s (es ++ [.elem j]), ?_, ⟨rfl, by simp, hl⟩, fun x => ?_⟩
      · simp [add, mkCrit_ok (by simp) hl]
      · simp [val, grad, valAll_append, valAll, gradAll]
    | crit s'' es' =>
      have hl : OkAll h s (es ++ es') := okAll_append.2 ⟨ha.2.2, hb.2.2⟩
      refine ⟨.crit s (es ++ es'), ?_, ⟨rfl, by simp [ha.2.1], hl⟩, fun x => ?_⟩
      · simp [add, mkCrit_ok (by simp [ha.2.1] : es ++ es' ≠ []) hl]
      · simp [val, grad, valAll_append]

theorem ok_head {h : List (Cell n)} {s} {es : List Obj} (h0 : es ≠ []) (hs : OkAll h s es) : ∃ e es', es = e :: es' ∧ Ok h s e := by
  cases es with
  | nil => exact absurd rfl h0
  | cons e es => exact ⟨e, es, rfl, hs.1⟩

theorem add_bad {h : List (Cell n)} {s s'} {a b : Obj} (ha : Ok h s a) (hb : Ok h s' b) (hs : s ≠ s') : add h a b = none := by
  cases a with
  | elem i => cases b <;> simp [add, shapeOf_ok ha, shapeOf_ok hb, hs]
  | crit t es =>
    obtain ⟨e, es', he, ho⟩ := ok_head ha.2.1 ha.2.2
    cases b with
    | elem j => exact mkCrit_bad (a := .elem j) hb (by simp) ⟨e, _, by rw [he]; rfl, ho⟩ hs
    | crit t' fs =>
      obtain ⟨f, fs', hf, ho'⟩ := ok_head hb.2.1 hb.2.2
      exact mkCrit_bad (a := f) ho' (by rw [hf]; simp) ⟨e, _, by rw [he]; rfl, ho⟩ hs

theorem mul_value (e : Element n) (s : ℝ) (x : Fin n → ℝ) :
    (e.mul s).value x = s * e.value x ∧ (e.mul s).gradient x = s • e.gradient x := by
  obtain ⟨m, norm, op, data⟩ := e
  cases data <;> exact ⟨rfl, mulVec_smul _ _ _⟩

mutual
theorem scale_ok (s : ℝ) : ∀ (a : Obj) (h : List (Cell n)) {t}, (∀ c ∈ h, c.live.Good) → Ok h t a → ∃ h' b, scale h s a = some (h', b) ∧
    Ext h h' ∧ (∀ c ∈ h', c.live.Good) ∧ Ok h' t b ∧ ∀ x, val h' x b = s * val h x a ∧ grad h' x b = s • grad h x a
  | .elem i, h, t, hg, ha => by
    obtain ⟨c, h1, h2⟩ := ha
    refine ⟨h ++ [⟨c.shapein, ⟨c.live.element.mul s, none⟩⟩], .elem h.length, by simp [scale, h1], Ext.append _ _, ?_, ⟨⟨c.shapein, ⟨c.live.element.mul s, none⟩⟩, by simp, h2⟩, fun x => ?_⟩
    · intro d hd
      rcases List.mem_append.1 hd with hd | hd
      · exact hg d hd
      · rw [List.mem_singleton] at hd
        subst hd
        intro x ox hx
        cases hx
    · simp only [val, grad, h1, List.getElem?_append_right (le_refl _), Nat.sub_self, List.getElem?_cons_zero, Option.map_some, Option.getD_some]
      exact mul_value _ s x
  | .crit t' es, h, t, hg, ha => by
    obtain ⟨h', es', h1, h2, h3, h4, h5, h6⟩ := scaleAll_ok s es h hg ha.2.2
    have h0 : es' ≠ [] := by
      intro h7; rw [h7] at h5
      exact ha.2.1 (List.length_eq_zero_iff.1 h5)
    refine ⟨h', .crit t es', ?_, h2, h3, ⟨rfl, h0, h4⟩, fun x => ?_⟩
    · simp [scale, h1, mkCrit_ok h0 h4]
    · simp only [val, grad]; exact h6 x

theorem scaleAll_ok (s : ℝ) : ∀ (es : List Obj) (h : List (Cell n)) {t}, (∀ c ∈ h, c.live.Good) → OkAll h t es → ∃ h' es',
    scaleAll h s es = some (h', es') ∧ Ext h h' ∧ (∀ c ∈ h', c.live.Good) ∧ OkAll h' t es' ∧ es.length = es'.length ∧
      ∀ x, valAll h' x es' = s * valAll h x es ∧ gradAll h' x es' = s • gradAll h x es
  | [], h, t, hg, _ => ⟨h, [], by simp [scaleAll], Ext.refl h, hg, trivial, rfl, by simp [valAll, gradAll]⟩
  | e :: es, h, t, hg, ha => by
    obtain ⟨h', b, h1, h2, h3, h4, h5⟩ := scale_ok s e h hg ha.1
    obtain ⟨h'', es', h6, h7, h8, h9, h10, h11⟩ := scaleAll_ok s es h' h3 (okAll_ext h2 es ha.2)
    refine ⟨h'', b :: es', by simp [scaleAll, h1, h6], h2.trans h7, h8, ⟨ok_ext h7 b h4, h9⟩, by simp [h10], fun x => ?_⟩
    obtain ⟨e1, e2⟩ := val_ext h7 x b h4
    obtain ⟨e3, e4⟩ := valAll_ext h2 x es ha.2
    simp only [valAll, gradAll, e1, e2, (h5 x).1, (h5 x).2, (h11 x).1, (h11 x).2, e3, e4, mul_add, smul_add, and_self]
end

mutual
theorem call_ok (hn : 0 < n) (x : Fin n → ℝ) : ∀ (a : Obj) (h : List (Cell n)) {t}, (∀ c ∈ h, c.live.Good) → Ok h t a →
    (call h x a).2 = some (val h x a) ∧ Ext h (call h x a).1 ∧ ∀ c ∈ (call h x a).1, c.live.Good
  | .elem i, h, t, hg, ha => by
    obtain ⟨c, h1, -⟩ := ha
    obtain ⟨h4, h5⟩ := load_good hn (hg c (List.mem_of_getElem? h1)) x
    simp only [call, h1, val, Option.map_some, Option.getD_some]
    refine ⟨by simp [Element.call, h4, Element.value], Ext.set h1 rfl rfl, ?_⟩
    intro d hd
    rcases List.mem_or_eq_of_mem_set hd with hd | hd
    · exact hg d hd
    · subst hd; exact h5
  | .crit t' es, h, t, hg, ha => by
    simp only [call, val]
    have := callAll_ok hn x es h 0 hg ha.2.2
    rwa [zero_add] at this

theorem callAll_ok (hn : 0 < n) (x : Fin n → ℝ) : ∀ (es : List Obj) (h : List (Cell n)) (acc : ℝ) {t}, (∀ c ∈ h, c.live.Good) → OkAll h t es →
    (callAll h x acc es).2 = some (acc + valAll h x es) ∧ Ext h (callAll h x acc es).1 ∧ ∀ c ∈ (callAll h x acc es).1, c.live.Good
  | [], h, acc, t, hg, _ => ⟨by simp [callAll, valAll], Ext.refl h, hg⟩
  | e :: es, h, acc, t, hg, ha => by
    obtain ⟨h1, h2, h3⟩ := call_ok hn x e h hg ha.1
    obtain ⟨h4, h5, h6⟩ := callAll_ok hn x es (call h x e).1 (acc + val h x e) h3 (okAll_ext h2 es ha.2)
    have : callAll h x acc (e :: es) = callAll (call h x e).1 x (acc + val h x e) es := by
      rw [callAll]
      have : call h x e = ((call h x e).1, some (val h x e)) := Prod.ext rfl h1
      rw [this]
    rw [this]
    refine ⟨?_, h2.trans h5, h6⟩
    rw [h4, (valAll_ext h2 x es ha.2).1, valAll, add_assoc]
end

mutual
theorem diff_ok (hn : 0 < n) (x : Fin n → ℝ) : ∀ (a : Obj) (h : List (Cell n)) {t}, (∀ c ∈ h, c.live.Good) → Ok h t a →
    (diff h x a).2 = some (grad h x a) ∧ Ext h (diff h x a).1 ∧ ∀ c ∈ (diff h x a).1, c.live.Good
  | .elem i, h, t, hg, ha => by
    obtain ⟨c, h1, -⟩ := ha
    obtain ⟨h4, h5⟩ := load_good hn (hg c (List.mem_of_getElem? h1)) x
    simp only [diff, h1, grad, Option.map_some, Option.getD_some]
    refine ⟨by simp [Element.diff, h4, Element.gradient], Ext.set h1 rfl rfl, ?_⟩
    intro d hd
    rcases List.mem_or_eq_of_mem_set hd with hd | hd
    · exact hg d hd
    · subst hd; exact h5
  | .crit t' es, h, t, hg, ha => by
    simp only [diff, grad]
    have := diffAll_ok hn x es h 0 hg ha.2.2
    rwa [zero_add] at this

theorem diffAll_ok (hn : 0 < n) (x : Fin n → ℝ) : ∀ (es : List Obj) (h : List (Cell n)) (acc : Fin n → ℝ) {t}, (∀ c ∈ h, c.live.Good) →
    OkAll h t es → (diffAll h x acc es).2 = some (acc + gradAll h x es) ∧ Ext h (diffAll h x acc es).1 ∧
      ∀ c ∈ (diffAll h x acc es).1, c.live.Good
  | [], h, acc, t, hg, _ => ⟨by simp [diffAll, gradAll], Ext.refl h, hg⟩
  | e :: es, h, acc, t, hg, ha => by
    obtain ⟨h1, h2, h3⟩ := diff_ok hn x e h hg ha.1
    obtain ⟨h4, h5, h6⟩ := diffAll_ok hn x es (diff h x e).1 (acc + grad h x e) h3 (okAll_ext h2 es ha.2)
    have : diffAll h x acc (e :: es) = diffAll (diff h x e).1 x (acc + grad h x e) es := by
      rw [diffAll]
      have : diff h x e = ((diff h x e).1, some (grad h x e)) := Prod.ext rfl h1
      rw [this]
    rw [this]
    refine ⟨?_, h2.trans h5, h6⟩
    rw [h4, (valAll_ext h2 x es ha.2).2, gradAll, add_assoc]
end

/-- The simulation. -/
structure Sim (st : State n) (fs : List (Fun n)) : Prop where
  good : ∀ c ∈ st.cells, c.live.Good
  length : st.objects.length = fs.length
  objects : ∀ (i : Nat) (a : Obj) (f : Fun n), st.objects[i]? = some a → fs[i]? = some f →
    Ok st.cells f.shapein a ∧ ∀ x, val st.cells x a = f.f x ∧ grad st.cells x a = f.g x

theorem Sim.grow {st : State n} {fs : List (Fun n)} (h : Sim st fs) {h' : List (Cell n)} (he : Ext st.cells h') (hg : ∀ c ∈ h', c.live.Good) :
    Sim ⟨h', st.objects⟩ fs :=
  ⟨hg, h.length, fun i a f ha hf => by
    obtain ⟨h1, h2⟩ := h.objects i a f ha hf
    refine ⟨ok_ext he a h1, fun x => ?_⟩
    obtain ⟨h3, h4⟩ := val_ext he x a h1
    rw [h3, h4]
    exact h2 x⟩

theorem Sim.push {st : State n} {fs : List (Fun n)} (h : Sim st fs) {h' : List (Cell n)} (he : Ext st.cells h') (hg : ∀ c ∈ h', c.live.Good)
    {a : Obj} {f : Fun n} (h1 : Ok h' f.shapein a) (h2 : ∀ x, val h' x a = f.f x ∧ grad h' x a = f.g x) :
    Sim ⟨h', st.objects ++ [a]⟩ (fs ++ [f]) := by
  have hg' := h.grow he hg
  refine ⟨hg, by simp [h.length], fun i b k hb hk => ?_⟩
  simp only at hb
  by_cases hi : i < st.objects.length
  · rw [List.getElem?_append_left hi] at hb
    rw [List.getElem?_append_left (h.length ▸ hi)] at hk
    exact hg'.objects i b k hb hk
  · have hlt := (List.getElem?_eq_some_iff.1 hb).1
    have hi' : i = st.objects.length := by simp at hlt; omega
    subst hi'
    simp at hb
    rw [h.length] at hk
    simp at hk
    subst hb; subst hk
    exact ⟨h1, h2⟩

theorem step_sim (hn : 0 < n) {st : State n} {fs : List (Fun n)} (h : Sim st fs) (s : Stmt n) :
    (step st s).2 = (specStep fs s).2 ∧ Sim (step st s).1 (specStep fs s).1 := by
  have hnone : ∀ i : Nat, st.objects[i]? = none → fs[i]? = none := by
    intro i hi
    rw [List.getElem?_eq_none_iff] at hi ⊢
    rw [← h.length]; exact hi
  have hsome : ∀ (i : Nat) (a : Obj), st.objects[i]? = some a → ∃ f, fs[i]? = some f := by
    intro i a hi
    have := (List.getElem?_eq_some_iff.1 hi).1
    rw [h.length] at this
    exact ⟨fs[i], List.getElem?_eq_getElem this⟩
  cases s with
  | element s e =>
    refine ⟨rfl, h.push (Ext.append _ _) ?_ (f := ⟨s, _, _⟩) ⟨⟨s, ⟨e, none⟩⟩, by simp, rfl⟩ fun x => ?_⟩
    · intro c hc
      rcases List.mem_append.1 hc with hc | hc
      · exact h.good c hc
      · rw [List.mem_singleton] at hc
        subst hc
        intro x ox hx
        cases hx
    · simp [val, grad, Element.value, Element.gradient]
  | add i j =>
    simp only [step, specStep]
    cases hi : st.objects[i]? with
    | none => simp [hnone i hi, State.push, h]
    | some a =>
      obtain ⟨f, hf⟩ := hsome i a hi
      cases hj : st.objects[j]? with
      | none => simp [hf, hnone j hj, State.push, h]
      | some b =>
        obtain ⟨k, hk⟩ := hsome j b hj
        obtain ⟨h1, h2⟩ := h.objects i a f hi hf
        obtain ⟨h3, h4⟩ := h.objects j b k hj hk
        by_cases hs : f.shapein = k.shapein
        · obtain ⟨c, h5, h6, h7⟩ := add_ok h1 (hs ▸ h3)
          simp only [Option.bind_some, h5, Option.map_some, hf, hk, hs, if_true, State.push, true_and]
          refine h.push (Ext.refl _) h.good (hs ▸ h6) fun x => ?_
          rw [(h7 x).1, (h7 x).2, (h2 x).1, (h2 x).2, (h4 x).1, (h4 x).2]
          exact ⟨rfl, rfl⟩
        · simp only [Option.bind_some, add_bad h1 h3 hs, Option.map_none, hf, hk, hs, if_false, State.push, true_and]
          exact h
  | addScalar i s =>
    simp only [step, specStep]
    cases hi : st.objects[i]? with
    | none => simp [hnone i hi, State.push, h]
    | some a =>
      obtain ⟨f, hf⟩ := hsome i a hi
      obtain ⟨h1, h2⟩ := h.objects i a f hi hf
      by_cases hs : s = 0
      · have hl : OkAll st.cells f.shapein [a] := ⟨h1, trivial⟩
        simp only [Option.bind_some, addScalar, hs, if_true, mkCrit_ok (by simp) hl, Option.map_some, hf, State.push, true_and]
        refine h.push (Ext.refl _) h.good ⟨rfl, by simp, hl⟩ fun x => ?_
        simp [val, grad, valAll, gradAll, h2 x]
      · simp only [Option.bind_some, addScalar, hs, if_false, Option.map_none, hf, State.push, true_and]
        exact h
  | scale s i =>
    simp only [step, specStep]
    cases hi : st.objects[i]? with
    | none => simp [hnone i hi, State.push, h]
    | some a =>
      obtain ⟨f, hf⟩ := hsome i a hi
      obtain ⟨h1, h2⟩ := h.objects i a f hi hf
      obtain ⟨h', b, h3, h4, h5, h6, h7⟩ := scale_ok s a st.cells h.good h1
      simp only [Option.bind_some, h3, hf, State.push, true_and]
      refine h.push h4 h5 h6 fun x => ?_
      rw [(h7 x).1, (h7 x).2, (h2 x).1, (h2 x).2]
      exact ⟨rfl, rfl⟩
  | call i x =>
    simp only [step, specStep]
    cases hi : st.objects[i]? with
    | none => simp [hnone i hi, h]
    | some a =>
      obtain ⟨f, hf⟩ := hsome i a hi
      obtain ⟨h1, h2⟩ := h.objects i a f hi hf
      obtain ⟨h3, h4, h5⟩ := call_ok hn x a st.cells h.good h1
      have : call st.cells x a = ((call st.cells x a).1, some (f.f x)) := Prod.ext rfl (h3.trans (congrArg some (h2 x).1))
      dsimp only
      rw [this]
      simp only [hf, true_and]
      exact h.grow h4 h5
  | diff i x =>
    simp only [step, specStep]
    cases hi : st.objects[i]? with
    | none => simp [hnone i hi, h]
    | some a =>
      obtain ⟨f, hf⟩ := hsome i a hi
      obtain ⟨h1, h2⟩ := h.objects i a f hi hf
      obtain ⟨h3, h4, h5⟩ := diff_ok hn x a st.cells h.good h1
      have : diff st.cells x a = ((diff st.cells x a).1, some (f.g x)) := Prod.ext rfl (h3.trans (congrArg some (h2 x).2))
      dsimp only
      rw [this]
      simp only [hf, true_and]
      exact h.grow h4 h5

/-- **C104** The criterions behave as functions: whatever the statements of a program that creates elements, adds them and their sums, multiplies
them by scalars and calls them, in any order and with shared elements, the values and the gradients that it sees are those of the sums and
multiples of the functions, and it is an error to add criterions whose inputs have not the same shape or a number that is not zero. -/
theorem C104_functions (hn : 0 < n) (program : List (Stmt n)) : run ⟨[], []⟩ program = specRun [] program := by
  have : ∀ (program : List (Stmt n)) (st : State n) (fs : List (Fun n)), Sim st fs → run st program = specRun fs program := by
    intro program
    induction program with
    | nil => intro st fs _; rfl
    | cons s ss ih =>
      intro st fs h
      obtain ⟨h1, h2⟩ := step_sim hn h s
      simp only [run, specRun, h1, ih _ _ h2]
  exact this program _ _ ⟨by simp, rfl, by simp⟩

theorem run_append (st : State n) (a b : List (Stmt n)) :
    ∃ st', run st (a ++ b) = run st a ++ run st' b ∧ st' = a.foldl (fun st s => (step st s).1) st := by
  induction a generalizing st with
  | nil => exact ⟨st, rfl, rfl⟩
  | cons s a ih =>
    obtain ⟨st', h1, h2⟩ := ih (step st s).1
    exact ⟨st', by simp [run, h1], h2⟩

theorem specRun_append (fs : List (Fun n)) (a b : List (Stmt n)) :
    specRun fs (a ++ b) = specRun fs a ++ specRun (a.foldl (fun fs s => (specStep fs s).1) fs) b := by
  induction a generalizing fs with
  | nil => rfl
  | cons s a ih => simp [specRun, ih]

theorem spec_gradient (x : Fin n → ℝ) (program : List (Stmt n)) (hr : ∀ s e, Stmt.element s e ∈ program → e.norm.Right (e.minusData (e.op *ᵥ x)))
    (fs : List (Fun n)) (hf : ∀ f ∈ fs, IsGradient f.f x (f.g x)) :
    ∀ f ∈ program.foldl (fun fs s => (specStep fs s).1) fs, IsGradient f.f x (f.g x) := by
  induction program generalizing fs with
  | nil => exact hf
  | cons s ss ih =>
    refine ih (fun s e h => hr s e (List.mem_cons_of_mem _ h)) _ ?_
    have push : ∀ f, IsGradient f.f x (f.g x) → ∀ g ∈ fs ++ [f], IsGradient g.f x (g.g x) := by
      intro f h g hg
      rcases List.mem_append.1 hg with hg | hg
      · exact hf g hg
      · rw [List.mem_singleton] at hg; subst hg; exact h
    cases s with
    | element s e => exact push _ (element_gradient e x (hr s e List.mem_cons_self))
    | add i j =>
      cases hi : fs[i]? with
      | none => simp only [specStep, hi]; exact hf
      | some a =>
        cases hj : fs[j]? with
        | none => simp only [specStep, hi, hj]; exact hf
        | some b =>
          by_cases hs : a.shapein = b.shapein
          · simp only [specStep, hi, hj, hs, if_true]
            refine push _ fun d => ?_
            have h1 := hf a (List.mem_of_getElem? hi) d
            have h2 := hf b (List.mem_of_getElem? hj) d
            simp only [add_dotProduct]
            exact h1.fun_add h2
          · simp only [specStep, hi, hj, hs, if_false]; exact hf
    | addScalar i s =>
      cases hi : fs[i]? with
      | none => simp only [specStep, hi]; exact hf
      | some a =>
        by_cases hs : s = 0
        · simp only [specStep, hi, hs, if_true]
          exact push a (hf a (List.mem_of_getElem? hi))
        · simp only [specStep, hi, hs, if_false]; exact hf
    | scale s i =>
      cases hi : fs[i]? with
      | none => simp only [specStep, hi]; exact hf
      | some a =>
        simp only [specStep, hi]
        refine push _ fun d => ?_
        have := (hf a (List.mem_of_getElem? hi) d).const_mul s
        simpa [smul_dotProduct] using this
    | call i y => cases hi : fs[i]? <;> simp only [specStep, hi] <;> exact hf
    | diff i y => cases hi : fs[i]? <;> simp only [specStep, hi] <;> exact hf

/-- **C104** In the programs, `diff` returns the gradient of the function that is computed by the calls, if the derivatives of the norms of the
elements are right. -/
theorem C104_gradient (hn : 0 < n) (program : List (Stmt n)) (x : Fin n → ℝ) (i : Nat)
    (hr : ∀ s e, Stmt.element s e ∈ program → e.norm.Right (e.minusData (e.op *ᵥ x)))
    (hi : (run ⟨[], []⟩ (program ++ [.call i x])).getLast? ≠ some .error) :
    ∃ (F : (Fin n → ℝ) → ℝ) (g : Fin n → ℝ), (∀ y, (run ⟨[], []⟩ (program ++ [.call i y])).getLast? = some (.value (F y))) ∧
      (run ⟨[], []⟩ (program ++ [.diff i x])).getLast? = some (.gradient g) ∧ IsGradient F x g := by
  simp only [C104_functions hn, specRun_append] at hi ⊢
  have hg := spec_gradient x program hr [] (by simp)
  generalize program.foldl (fun fs s => (specStep fs s).1) [] = fs at hi hg ⊢
  cases hf : fs[i]? with
  | none => simp [specRun, specStep, hf] at hi
  | some f => exact ⟨f.f, f.g x, fun y => by simp [specRun, specStep, hf], by simp [specRun, specStep, hf], hg f (List.mem_of_getElem? hf)⟩

theorem sumPriors_ok {s : Option (List Nat)} : ∀ (r : List (ℝ × Obj)) (h : List (Cell n)) (acc : Option Obj), (∀ c ∈ h, c.live.Good) →
    (∀ p, acc = some p → Ok h s p) → (∀ q ∈ r, Ok h s q.2) → ∃ h' acc', sumPriors h acc r = some (h', acc') ∧ Ext h h' ∧
      (∀ c ∈ h', c.live.Good) ∧ (∀ p, acc' = some p → Ok h' s p) ∧
      ∀ x, (acc'.map (val h' x)).getD 0 = (acc.map (val h x)).getD 0 + (r.map fun q => q.1 * val h x q.2).sum
  | [], h, acc, hg, ha, _ => ⟨h, acc, rfl, Ext.refl h, hg, ha, by simp⟩
  | (a, o) :: r, h, acc, hg, ha, hr => by
    obtain ⟨h', b, h1, h2, h3, h4, h5⟩ := scale_ok a o h hg (hr _ List.mem_cons_self)
    have hc : ∃ c, (match acc with
        | none => addScalar h' b 0
        | some p => add h' p b) = some c ∧ Ok h' s c ∧ ∀ x, val h' x c = (acc.map (val h x)).getD 0 + a * val h x o := by
      cases acc with
      | none =>
        have hl : OkAll h' s [b] := ⟨h4, trivial⟩
        refine ⟨.crit s [b], by simp [addScalar, mkCrit_ok (by simp) hl], ⟨rfl, by simp, hl⟩, fun x => ?_⟩
        simp [val, valAll, (h5 x).1]
      | some p =>
        have hp := ha p rfl
        obtain ⟨c, h6, h7, h8⟩ := add_ok (ok_ext h2 p hp) h4
        refine ⟨c, h6, h7, fun x => ?_⟩
        rw [(h8 x).1, (h5 x).1, (val_ext h2 x p hp).1]
        rfl
    obtain ⟨c, hc1, hc2, hc3⟩ := hc
    obtain ⟨h'', acc'', k1, k2, k3, k4, k5⟩ := sumPriors_ok r h' (some c) h3 (by rintro p hp; cases hp; exact hc2)
      (fun q hq => ok_ext h2 q.2 (hr q (List.mem_cons_of_mem _ hq)))
    refine ⟨h'', acc'', ?_, h2.trans k2, k3, k4, fun x => ?_⟩
    · simp only [sumPriors, h1, Option.bind_some]
      rw [hc1]
      exact k1
    · rw [k5 x]
      simp only [Option.map_some, Option.getD_some, hc3 x, List.map_cons, List.sum_cons, add_assoc]
      congr 3
      refine List.map_congr_left fun q hq => ?_
      rw [(val_ext h2 x q.2 (hr q (List.mem_cons_of_mem _ hq))).1]

/-- The sum of the norms of the priors multiplied by the parameters. -/
noncomputable def priorSum (x : Fin n → ℝ) : List (∀ m, Criterions.Norm m) → List ℝ → List (Option (List Nat) × Prior n) → ℝ
  | N :: Ns, a :: as, p :: ps => a * (N p.2.m).call (p.2.op *ᵥ x) + priorSum x Ns as ps
  | _, _, _ => 0

theorem prior_values (x : Fin n → ℝ) : ∀ (Ns : List (∀ m, Criterions.Norm m)) (as : List ℝ) (ps : List (Option (List Nat) × Prior n)) (pre : List (Cell n)),
    (((as.zip ((List.range ((Ns.zip ps).map fun (N, s, p) => (⟨s, ⟨⟨p.m, N p.m, p.op, none⟩, none⟩⟩ : Cell n)).length).map
      fun i => Obj.elem (i + pre.length))).map fun q => q.1 *
        val (pre ++ (Ns.zip ps).map fun (N, s, p) => (⟨s, ⟨⟨p.m, N p.m, p.op, none⟩, none⟩⟩ : Cell n)) x q.2).sum) = priorSum x Ns as ps
  | [], as, ps, pre => by cases as <;> simp [priorSum]
  | N :: Ns, [], ps, pre => by simp [priorSum]
  | N :: Ns, a :: as, [], pre => by simp [priorSum]
  | N :: Ns, a :: as, p :: ps, pre => by
    have ih := prior_values x Ns as ps (pre ++ [⟨p.1, ⟨⟨p.2.m, N p.2.m, p.2.op, none⟩, none⟩⟩])
    simp only [List.length_append, List.length_cons, List.length_nil, zero_add, List.append_assoc, List.singleton_append] at ih
    simp only [List.zip_cons_cons, List.map_cons, List.length_cons, List.range_succ_eq_map, List.map_map, Function.comp_def, List.sum_cons, zero_add]
    rw [priorSum, ← ih]
    congr 1
    · simp [val, Element.value, Element.minusData]
    · congr 1
      simp only [Nat.succ_eq_add_one, show ∀ i, i + 1 + pre.length = i + (pre.length + 1) from fun i => by omega]

/-- **C104** If each prior has a parameter and a norm, the criterion is the norm of the residual, with the first norm, plus the norms of the priors
multiplied by their parameters. -/
theorem C104_generate_partial (hn : 0 < n) (N : ∀ m, Criterions.Norm m) (Ns : List (∀ m, Criterions.Norm m)) (s : Option (List Nat)) (model : Matrix (Fin m) (Fin n) ℝ)
    (data : Fin m → ℝ) (hypers : List ℝ) (priors : List (Option (List Nat) × Prior n)) (hs : ∀ p ∈ priors, p.1 = s)
    (h1 : Ns.length = priors.length) (h2 : hypers.length = priors.length) : ∃ h a, generate (N :: Ns) s model data hypers priors = some (h, a) ∧
      ∀ x, (call h x a).2 = some ((N m).call (model *ᵥ x - data) +
        ∑ k : Fin priors.length, hypers[k.1]'(h2.symm ▸ k.2) * ((Ns[k.1]'(h1.symm ▸ k.2)) priors[k].2.m).call (priors[k].2.op *ᵥ x)) := by
  have hsum : ∀ (x : Fin n → ℝ) (Ns : List (∀ m, Criterions.Norm m)) (as : List ℝ) (ps : List (Option (List Nat) × Prior n)) (h1 : Ns.length = ps.length)
      (h2 : as.length = ps.length), priorSum x Ns as ps =
        ∑ k : Fin ps.length, as[k.1]'(h2.symm ▸ k.2) * ((Ns[k.1]'(h1.symm ▸ k.2)) ps[k].2.m).call (ps[k].2.op *ᵥ x) := by
    intro x Ns
    induction Ns with
    | nil =>
      intro as ps h1 h2
      cases ps with
      | nil => simp [priorSum]
      | cons p ps => cases h1
    | cons N Ns ih =>
      intro as ps h1 h2
      cases ps with
      | nil => cases h1
      | cons p ps =>
        cases as with
        | nil => cases h2
        | cons a as =>
          rw [priorSum, ih as ps (by simpa using h1) (by simpa using h2)]
          simp [Fin.sum_univ_succ]
          exact Or.inl rfl
  set L : Cell n := ⟨s, ⟨⟨m, N m, model, some data⟩, none⟩⟩ with hL
  set E : List (Cell n) := (Ns.zip priors).map fun (N, s, p) => (⟨s, ⟨⟨p.m, N p.m, p.op, none⟩, none⟩⟩ : Cell n) with hE
  have hE1 : ∀ c ∈ E, c.shapein = s ∧ c.live.cache = none := by
    intro c hc
    obtain ⟨⟨N', s', p⟩, hq, rfl⟩ := List.mem_map.1 hc
    exact ⟨hs _ (List.of_mem_zip hq).2, rfl⟩
  have hgood : ∀ c ∈ L :: E, c.live.Good := by
    intro c hc x ox hx
    rcases List.mem_cons.1 hc with rfl | hc
    · cases hx
    · rw [(hE1 c hc).2] at hx; cases hx
  have hok : ∀ q ∈ hypers.zip ((List.range E.length).map fun i => Obj.elem (i + 1)), Ok (L :: E) s q.2 := by
    rintro ⟨a, o⟩ hq
    obtain ⟨i, hi, rfl⟩ := List.mem_map.1 (List.of_mem_zip hq).2
    rw [List.mem_range] at hi
    exact ⟨E[i], by simp [hi], (hE1 _ (List.getElem_mem hi)).1⟩
  obtain ⟨h', acc, k1, k2, k3, k4, k5⟩ := sumPriors_ok _ (L :: E) none hgood (by simp) hok
  have hlike : Ok h' s (.elem 0) := ok_ext k2 (.elem 0) ⟨L, rfl, rfl⟩
  have hval : ∀ x, val h' x (.elem 0) = (N m).call (model *ᵥ x - data) := fun x =>
    (val_ext k2 (s := s) x (.elem 0) ⟨L, rfl, rfl⟩).1.trans (by simp [val, hL, Element.value, Element.minusData])
  have hpri : ∀ x, (acc.map (val h' x)).getD 0 = priorSum x Ns hypers priors := by
    intro x
    rw [k5 x, Option.map_none, Option.getD_none, zero_add]
    exact prior_values x Ns hypers priors [L]
  have hc : ∃ c, (match acc with
      | none => addScalar h' (.elem 0) 0
      | some p => add h' (.elem 0) p) = some c ∧ Ok h' s c ∧ ∀ x, val h' x c = (N m).call (model *ᵥ x - data) + priorSum x Ns hypers priors := by
    cases acc with
    | none =>
      have hl : OkAll h' s [.elem 0] := ⟨hlike, trivial⟩
      refine ⟨.crit s [.elem 0], by simp [addScalar, mkCrit_ok (by simp) hl], ⟨rfl, by simp, hl⟩, fun x => ?_⟩
      rw [← hpri x, ← hval x]
      simp [val, valAll]
    | some p =>
      obtain ⟨c, h6, h7, h8⟩ := add_ok hlike (k4 p rfl)
      refine ⟨c, h6, h7, fun x => ?_⟩
      rw [(h8 x).1, hval x, ← hpri x]
      rfl
  obtain ⟨c, c1, c2, c3⟩ := hc
  refine ⟨h', c, ?_, fun x => ?_⟩
  · simp only [generate]
    rw [← hL, ← hE, k1]
    simp only [Option.bind_some]
    rw [c1]
    rfl
  · rw [(call_ok hn x c h' k3 c2).1, c3 x, hsum x Ns hypers priors h1 h2]

/-! ### What fails -/

/-- **C104** The default values of deltas and ps are refused: it is an error to call the functions without them. -/
theorem C104_default_fails (s : Option (List Nat)) (model : Matrix (Fin m) (Fin n) ℝ) (data : Fin m → ℝ) (hypers : List ℝ)
    (priors : List (Option (List Nat) × Prior n)) : generate [] s model data hypers priors = none := rfl

/-- **C104** The first norm is that of the data: if there are as many norms as priors, the last prior is ignored, without an error. -/
theorem C104_norms_fails (N N' : ∀ m, Criterions.Norm m) (s : Option (List Nat)) (model : Matrix (Fin m) (Fin n) ℝ) (data : Fin m → ℝ) (a b : ℝ)
    (p q : Option (List Nat) × Prior n) : generate [N, N'] s model data [a, b] [p, q] = generate [N, N'] s model data [a] [p] := by
  simp [generate]

/-! ### Examples -/

/-- (x - 1)² and (2 x)² for numbers. -/
noncomputable def square : Element 1 := ⟨1, norm2 none, 1, some ![1]⟩

noncomputable def double : Element 1 := ⟨1, norm2 none, !![2], none⟩

/-- c = 3 (e + f), d = c + e: the calls of c and d, which share the element e. -/
noncomputable def program : List (Stmt 1) :=
  [.element (some [1]) square, .element (some [1]) double, .add 0 1, .scale 3 2, .add 3 0, .call 0 ![5], .call 4 ![2], .call 3 ![2]]

example : run ⟨[], []⟩ program = [.object, .object, .object, .object, .object, .value 16, .value 52, .value 51] := by
  rw [C104_functions (by decide)]
  simp [program, specRun, specStep, square, double, norm2, Element.minusData, Matrix.mulVec, dotProduct]
  norm_num

example : ∃ (F : (Fin 1 → ℝ) → ℝ) (g : Fin 1 → ℝ), (∀ y, (run ⟨[], []⟩ (program ++ [.call 4 y])).getLast? = some (.value (F y))) ∧
    (run ⟨[], []⟩ (program ++ [.diff 4 ![2]])).getLast? = some (.gradient g) ∧ IsGradient F ![2] g := by
  refine C104_gradient (by decide) program ![2] 4 ?_ ?_
  · intro s e he
    simp only [program, List.mem_cons, Stmt.element.injEq, List.not_mem_nil, or_false, reduceCtorEq] at he
    rcases he with ⟨-, rfl⟩ | ⟨-, rfl⟩ <;> exact (C76_norms_partial _).1
  · rw [C104_functions (by decide)]
    simp [program, specRun, specStep]

/-- Criterions whose inputs have different shapes are not added. -/
example : run ⟨[], []⟩ [.element (some [1]) square, .element (some [1, 1]) double, .add 0 1, .addScalar 0 1] =
    [.object, .object, .error, .error] := by
  rw [C104_functions (by decide)]
  simp [specRun, specStep]

/-- The Huber norm of x - 1 plus 10 times the Huber norm of 3 x. -/
example : ∃ h a, generate (m := 1) (n := 1) [fun _ => huberNorm 1, fun _ => huberNorm 2] (some [1]) 1 ![1] [10] [(some [1], ⟨1, !![3]⟩)] = some (h, a) ∧
    (call h ![0] a).2 = some 1 ∧ (call h ![1] a).2 = some 80 := by
  obtain ⟨h, a, h1, h2⟩ := C104_generate_partial (m := 1) (n := 1) (by decide) (fun _ => huberNorm 1) [fun _ => huberNorm 2] (some [1]) 1 ![1] [10]
    [(some [1], ⟨1, !![3]⟩)] (by simp) rfl rfl
  refine ⟨h, a, h1, ?_, ?_⟩
  · rw [h2]
    simp [huberNorm, huber]
    norm_num
  · rw [h2]
    simp [huberNorm, huber]
    norm_num

end Verif.CriterionAlgebra
