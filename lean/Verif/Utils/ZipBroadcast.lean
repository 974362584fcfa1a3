import Mathlib.Data.List.Basic
import Mathlib.Data.List.GetD
import Mathlib.Order.Basic
import Mathlib.Tactic.Cases

/-
Model of `zip_broadcast`: src/pyoperators/utils/misc.py:1197-1228.
-/

namespace Verif.ZipBroadcast

/-! ### Model -/

variable {α : Type}

/-- An argument.  A string is both a value and the sequence of its characters.  A collection that is not a sequence (a set, the keys of a
dictionary) cannot be indexed by zero.  A generator has no length; only those that end are modelled. -/
inductive Arg (α : Type) where
  | scalar (v : α)
  | string (v : α) (chars : List α)
  | sequence (l : List α)
  | collection (l : List α)
  | generator (l : List α)

/-- The condition `not isinstance(_, Iterable) or isinstance(_, str) and not iter_str`. -/
def Arg.repeated (iterStr : Bool) : Arg α → Option α
  | .scalar v => some v
  | .string v _ => if iterStr then none else some v
  | _ => none

/-- The elements that the iteration yields. -/
def Arg.elements : Arg α → List α
  | .scalar _ => []
  | .string _ l => l
  | .sequence l => l
  | .collection l => l
  | .generator l => l

/-- `hasattr(_, '__len__')` -/
def Arg.hasLen : Arg α → Bool
  | .generator _ => false
  | _ => true

/-- `a[0]` is defined -/
def Arg.indexable : Arg α → Bool
  | .string _ _ => true
  | .sequence _ => true
  | _ => false

/-- The length of an argument, in the computation of n; the third argument is `sys.maxsize`. -/
def Arg.count (iterStr : Bool) (maxsize : Nat) (a : Arg α) : Nat :=
  match a.repeated iterStr with
  | some _ => 1
  | none => if a.hasLen then a.elements.length else maxsize

/-- `max` of a non-empty generator. -/
def maximum : List Nat → Option Nat
  | [] => none
  | x :: xs => some (xs.foldl max x)

/-- `wrap(a)`: what the iteration over the wrapped argument yields.  `itertools.repeat(a, n)` is a list of n elements; `none` stands for the
exception raised by `a[0]`. -/
def wrap (iterStr : Bool) (n : Nat) (a : Arg α) : Option (List α) :=
  match a.repeated iterStr with
  | some v => some (List.replicate n v)
  | none =>
    if a.hasLen ∧ a.elements.length = 1 then
      if a.indexable then a.elements.head?.map (List.replicate n) else none
    else some a.elements

/-- The iteration over `zip(*args)`, with at most `fuel` tuples: the heads of all iterators, until one of them is exhausted.  `zip()` without argument is
empty. -/
def zipAll : Nat → List (List α) → List (List α)
  | 0, _ => []
  | fuel + 1, ls =>
    if ls = [] then []
    else
      match ls.mapM List.head? with
      | none => []
      | some t => t :: zipAll fuel (ls.map List.tail)

/-- `zip(*args)`: the first iterator bounds the number of tuples. -/
def zip (ls : List (List α)) : List (List α) := zipAll ((ls.head?.map List.length).getD 0) ls

/-- `zip_broadcast(*args, iter_str=iterStr)`; `none` stands for an exception. -/
def zipBroadcast (maxsize : Nat) (iterStr : Bool) (args : List (Arg α)) : Option (List (List α)) := do
  let n ← maximum (args.map (Arg.count iterStr maxsize))
  let ls ← args.mapM (wrap iterStr n)
  return zip ls

/-! ### Specification -/

/-- What an argument stands for: a value that is repeated, the elements of a container, or those of an iterator.  A string is a value if `iter_str` is False. -/
inductive Kind (α : Type) where
  | value (v : α)
  | container (l : List α)
  | iterator (l : List α)

def Arg.kind (iterStr : Bool) : Arg α → Kind α
  | .scalar v => .value v
  | .string v l => match iterStr with
    | true => .container l
    | false => .value v
  | .sequence l => .container l
  | .collection l => .container l
  | .generator l => .iterator l

/-- The number of elements of an argument that is iterated, and `none` if it is repeated: the values and the containers of length 1. -/
def Kind.size : Kind α → Option Nat
  | .value _ => none
  | .container [_] => none
  | .container l => some l.length
  | .iterator l => some l.length

/-- The value of the argument in the tuple i. -/
def Kind.at : Kind α → Nat → Option α
  | .value v, _ => some v
  | .container [v], _ => some v
  | .container l, i => l[i]?
  | .iterator l, i => l[i]?

/-- m is the number of tuples: the smallest number of elements of the arguments that are not repeated, and one if all are repeated. -/
def IsCount (iterStr : Bool) (args : List (Arg α)) (m : Nat) : Prop :=
  (∀ a ∈ args, ∀ k, (a.kind iterStr).size = some k → m ≤ k) ∧
    ((∃ a ∈ args, (a.kind iterStr).size = some m) ∨ (∀ a ∈ args, (a.kind iterStr).size = none) ∧ m = 1)

/-! ### Proofs -/

/-- The argument is repeated, in the terms of the model. -/
def Arg.single (iterStr : Bool) (a : Arg α) : Prop :=
  (a.repeated iterStr).isSome ∨ a.hasLen = true ∧ a.elements.length = 1

instance (iterStr : Bool) (a : Arg α) : Decidable (a.single iterStr) := by unfold Arg.single; infer_instance

/-- The value of the argument in the tuple i, in the terms of the model. -/
def Arg.at (iterStr : Bool) (a : Arg α) (i : Nat) : Option α :=
  match a.repeated iterStr with
  | some v => some v
  | none => if a.hasLen ∧ a.elements.length = 1 then a.elements[0]? else a.elements[i]?

theorem size_container (l : List α) : (Kind.container l).size = if l.length = 1 then none else some l.length := by
  match l with
  | [] => rfl
  | [_] => rfl
  | _ :: _ :: _ => simp [Kind.size]

theorem at_container (l : List α) (i : Nat) : (Kind.container l).at i = if l.length = 1 then l[0]? else l[i]? := by
  match l with
  | [] => simp [Kind.at]
  | [_] => rfl
  | _ :: _ :: _ => simp [Kind.at]

theorem size_eq (iterStr : Bool) (a : Arg α) : (a.kind iterStr).size = if a.single iterStr then none else some a.elements.length := by
  cases a with
  | scalar v => rfl
  | string v l =>
    cases iterStr
    · rfl
    · rw [Arg.kind, size_container]
      simp [Arg.single, Arg.repeated, Arg.hasLen, Arg.elements]
  | sequence l =>
    rw [Arg.kind, size_container]
    simp [Arg.single, Arg.repeated, Arg.hasLen, Arg.elements]
  | collection l =>
    rw [Arg.kind, size_container]
    simp [Arg.single, Arg.repeated, Arg.hasLen, Arg.elements]
  | generator l => simp [Arg.kind, Kind.size, Arg.single, Arg.repeated, Arg.hasLen, Arg.elements]

theorem at_eq (iterStr : Bool) (a : Arg α) (i : Nat) : (a.kind iterStr).at i = a.at iterStr i := by
  cases a with
  | scalar v => rfl
  | string v l =>
    cases iterStr
    · rfl
    · rw [Arg.kind, at_container]
      simp [Arg.at, Arg.repeated, Arg.hasLen, Arg.elements]
  | sequence l =>
    rw [Arg.kind, at_container]
    simp [Arg.at, Arg.repeated, Arg.hasLen, Arg.elements]
  | collection l =>
    rw [Arg.kind, at_container]
    simp [Arg.at, Arg.repeated, Arg.hasLen, Arg.elements]
  | generator l => simp [Arg.kind, Kind.at, Arg.at, Arg.repeated, Arg.hasLen, Arg.elements]

theorem isCount_iff (iterStr : Bool) (args : List (Arg α)) (m : Nat) : IsCount iterStr args m ↔
    (∀ a ∈ args, ¬ a.single iterStr → m ≤ a.elements.length) ∧
    ((∃ a ∈ args, ¬ a.single iterStr ∧ m = a.elements.length) ∨ (∀ a ∈ args, a.single iterStr) ∧ m = 1) := by
  unfold IsCount
  simp only [size_eq]
  constructor
  · rintro ⟨h1, h2⟩
    refine ⟨fun a ha hs => h1 a ha _ (by rw [if_neg hs]), ?_⟩
    rcases h2 with ⟨a, ha, h⟩ | ⟨h, e⟩
    · left
      refine ⟨a, ha, ?_⟩
      split at h
      · cases h
      · rename_i hs
        injection h with h
        exact ⟨hs, h.symm⟩
    · right
      refine ⟨fun a ha => ?_, e⟩
      have := h a ha
      split at this
      · assumption
      · cases this
  · rintro ⟨h1, h2⟩
    constructor
    · intro a ha k hk
      split at hk
      · cases hk
      · rename_i hs
        injection hk with hk
        rw [← hk]
        exact h1 a ha hs
    · rcases h2 with ⟨a, ha, h, e⟩ | ⟨h, e⟩
      · exact Or.inl ⟨a, ha, by rw [if_neg h, e]⟩
      · exact Or.inr ⟨fun a ha => by rw [if_pos (h a ha)], e⟩

theorem mapM_head (ls : List (List α)) (t : List α) : ls.mapM List.head? = some t ↔
    t.length = ls.length ∧ ∀ j (h : j < ls.length), (ls[j]).head? = t[j]? := by
  induction ls generalizing t with
  | nil =>
    constructor
    · intro h
      simp at h
      subst h
      simp
    · rintro ⟨h, _⟩
      have : t = [] := List.length_eq_zero_iff.1 h
      simp [this]
  | cons l ls ih =>
    rw [List.mapM_cons]
    constructor
    · intro h
      cases hl : l.head? with
      | none => rw [hl] at h; simp at h
      | some x =>
        cases hs : ls.mapM List.head? with
        | none => rw [hl, hs] at h; simp at h
        | some u =>
          rw [hl, hs] at h
          simp at h
          subst h
          obtain ⟨h1, h2⟩ := (ih u).1 hs
          refine ⟨by simp [h1], fun j hj => ?_⟩
          cases j with
          | zero => simpa using hl
          | succ j => simpa using h2 j (by simpa using hj)
    · rintro ⟨h1, h2⟩
      cases t with
      | nil => simp at h1
      | cons x u =>
        have e := h2 0 (by simp)
        simp at e
        have hs := (ih u).2 ⟨by simpa using h1, fun j hj => by
          have := h2 (j + 1) (by simpa using hj)
          rwa [List.getElem_cons_succ, List.getElem?_cons_succ] at this⟩
        rw [e, hs]; rfl

theorem mapM_head_none (ls : List (List α)) : ls.mapM List.head? = none ↔ ∃ l ∈ ls, l = [] := by
  induction ls with
  | nil => simp
  | cons l ls ih =>
    rw [List.mapM_cons]
    cases l with
    | nil => simp
    | cons x xs =>
      cases hs : ls.mapM List.head? with
      | none => simpa [hs] using ih.1 hs
      | some u =>
        simp
        intro h
        have := ih.2 ⟨[], h, rfl⟩
        rw [hs] at this
        cases this

/-- The tuples of `zip`: the i-th has the i-th elements. -/
theorem zipAll_spec : ∀ (fuel : Nat) (ls : List (List α)) (m : Nat), ls ≠ [] → m ≤ fuel → (∀ l ∈ ls, m ≤ l.length) →
    (m = fuel ∨ ∃ l ∈ ls, l.length = m) → (zipAll fuel ls).length = m ∧
      ∀ (i : Nat) (t : List α), (zipAll fuel ls)[i]? = some t → t.length = ls.length ∧ ∀ j (h : j < ls.length), t[j]? = (ls[j])[i]?
  | 0, ls, m, _, hm, _, _ => by
    refine ⟨by simp [zipAll]; omega, fun i t h => by simp [zipAll] at h⟩
  | fuel + 1, ls, m, hne, hm, hall, hex => by
    rw [zipAll, if_neg hne]
    cases h : ls.mapM List.head? with
    | none =>
      obtain ⟨l, hl, rfl⟩ := (mapM_head_none ls).1 h
      have := hall [] hl
      simp at this
      exact ⟨by simp [this], fun i t h => by simp at h⟩
    | some t0 =>
      obtain ⟨h1, h2⟩ := (mapM_head ls t0).1 h
      have hpos : m ≠ 0 := by
        rintro rfl
        rcases hex with hex | ⟨l, hl, h0⟩
        · omega
        · have := (mapM_head_none ls).2 ⟨l, hl, List.length_eq_zero_iff.1 h0⟩
          rw [h] at this
          cases this
      have ih := zipAll_spec fuel (ls.map List.tail) (m - 1) (by simpa using hne) (by omega)
        (by
          intro l hl
          obtain ⟨l', hl', rfl⟩ := List.mem_map.1 hl
          have := hall l' hl'
          rw [List.length_tail]; omega)
        (by
          rcases hex with hex | ⟨l, hl, h0⟩
          · left; omega
          · right; exact ⟨l.tail, List.mem_map.2 ⟨l, hl, rfl⟩, by rw [List.length_tail]; omega⟩)
      refine ⟨by simp [ih.1]; omega, fun i t ht => ?_⟩
      cases i with
      | zero =>
        simp at ht
        subst ht
        refine ⟨h1, fun j hj => ?_⟩
        rw [← h2 j hj, List.head?_eq_getElem?]
      | succ i =>
        simp at ht
        obtain ⟨k1, k2⟩ := ih.2 i t ht
        refine ⟨by simpa using k1, fun j hj => ?_⟩
        rw [k2 j (by simpa using hj)]
        simp

theorem zip_spec (ls : List (List α)) (m : Nat) (hne : ls ≠ []) (hall : ∀ l ∈ ls, m ≤ l.length) (hex : ∃ l ∈ ls, l.length = m) :
    (zip ls).length = m ∧
      ∀ (i : Nat) (t : List α), (zip ls)[i]? = some t → t.length = ls.length ∧ ∀ j (h : j < ls.length), t[j]? = (ls[j])[i]? := by
  cases ls with
  | nil => exact absurd rfl hne
  | cons l ls =>
    have := hall l (by simp)
    exact zipAll_spec _ _ m hne (by simpa using this) hall (Or.inr hex)

theorem foldl_max (l : List Nat) (x : Nat) : x ≤ l.foldl max x ∧ (∀ y ∈ l, y ≤ l.foldl max x) ∧ (l.foldl max x = x ∨ l.foldl max x ∈ l) := by
  induction l generalizing x with
  | nil => simp
  | cons y l ih =>
    obtain ⟨h1, h2, h3⟩ := ih (max x y)
    simp only [List.foldl_cons]
    refine ⟨by omega, ?_, ?_⟩
    · intro z hz
      rcases List.mem_cons.1 hz with rfl | hz
      · omega
      · exact h2 z hz
    · rcases h3 with h3 | h3
      · rw [h3]
        rcases Nat.le_total x y with hxy | hxy
        · right; simp [Nat.max_eq_right hxy]
        · left; exact Nat.max_eq_left hxy
      · right; exact List.mem_cons_of_mem _ h3

theorem maximum_spec (l : List Nat) (n : Nat) (h : maximum l = some n) : (∀ y ∈ l, y ≤ n) ∧ n ∈ l := by
  cases l with
  | nil => cases h
  | cons x xs =>
    obtain ⟨h1, h2, h3⟩ := foldl_max xs x
    simp only [maximum, Option.some.injEq] at h
    subst h
    refine ⟨?_, ?_⟩
    · intro y hy
      rcases List.mem_cons.1 hy with rfl | hy
      · exact h1
      · exact h2 y hy
    · rcases h3 with h3 | h3
      · rw [h3]; simp
      · exact List.mem_cons_of_mem _ h3

/-- The wrapped argument. -/
theorem wrap_spec (iterStr : Bool) (n : Nat) (a : Arg α) (ha : ∀ l, a = .collection l → l.length ≠ 1) : ∃ l, wrap iterStr n a = some l ∧
    (a.single iterStr → l.length = n) ∧ (¬ a.single iterStr → l.length = a.elements.length) ∧ ∀ i, i < l.length → l[i]? = a.at iterStr i := by
  unfold wrap Arg.single Arg.at
  cases h : a.repeated iterStr with
  | some v => exact ⟨List.replicate n v, by simp, by simp, by simp, fun i hi => by
      simp at hi
      simp [hi]⟩
  | none =>
    by_cases h1 : a.hasLen = true ∧ a.elements.length = 1
    · obtain ⟨x, hx⟩ := List.length_eq_one_iff.1 h1.2
      have hi : a.indexable = true := by
        cases a with
        | scalar v => simp [Arg.repeated] at h
        | string v l => rfl
        | sequence l => rfl
        | collection l => exact absurd h1.2 (ha l rfl)
        | generator l => simp [Arg.hasLen] at h1
      refine ⟨List.replicate n x, by simp [h1, hi, hx], by simp, by simp [h1], fun i hi => ?_⟩
      simp at hi
      simp [h1, hx, hi]
    · exact ⟨a.elements, by simp [h1], by simp [h1], by simp, fun i hi => by simp [h1]⟩

theorem mapM_wrap (iterStr : Bool) (n : Nat) : ∀ (args : List (Arg α)), (∀ a ∈ args, ∀ l, a = .collection l → l.length ≠ 1) →
    ∃ ls, args.mapM (wrap iterStr n) = some ls ∧ ls.length = args.length ∧
      ∀ j (h : j < args.length) (h' : j < ls.length), wrap iterStr n args[j] = some ls[j]
  | [], _ => ⟨[], by simp⟩
  | a :: args, ha => by
    obtain ⟨l, hl, _⟩ := wrap_spec iterStr n a (ha a (by simp))
    obtain ⟨ls, h1, h2, h3⟩ := mapM_wrap iterStr n args (fun b hb => ha b (by simp [hb]))
    refine ⟨l :: ls, by rw [List.mapM_cons, hl, h1]; rfl, by simp [h2], fun j hj hj' => ?_⟩
    cases j with
    | zero => simpa using hl
    | succ j => simpa using h3 j (by simpa using hj) (by simpa using hj')

/-- **C92.** For all arguments (at least one; scalars, strings, sequences and generators), `zip_broadcast` yields as many tuples as the shortest
argument that is not repeated (one if all are repeated), and the tuple i contains the value of the scalars and the only element of the containers
of length 1, and the element i of the other arguments.  Missing: sets and dictionaries of length 1, calls without argument (see the negations). -/
theorem C92_partial (maxsize : Nat) (iterStr : Bool) (args : List (Arg α)) (m : Nat) (h0 : args ≠ [])
    (hc : ∀ a ∈ args, ∀ l, a = .collection l → l.length ≠ 1) (hmax : ∀ a ∈ args, a.elements.length ≤ maxsize)
    (hm' : IsCount iterStr args m) :
    ∃ r, zipBroadcast maxsize iterStr args = some r ∧ r.length = m ∧
      ∀ (i : Nat) (t : List α), r[i]? = some t → t.length = args.length ∧ ∀ j (h : j < args.length), t[j]? = ((args[j]).kind iterStr).at i := by
  have hm := (isCount_iff iterStr args m).1 hm'
  obtain ⟨n, hn⟩ : ∃ n, maximum (args.map (Arg.count iterStr maxsize)) = some n := by
    cases args with
    | nil => exact absurd rfl h0
    | cons a as => exact ⟨_, rfl⟩
  obtain ⟨n1, n2⟩ := maximum_spec _ n hn
  obtain ⟨ls, w1, w2, w3⟩ := mapM_wrap iterStr n args hc
  have hsingle : ∀ a : Arg α, a.single iterStr → a.count iterStr maxsize = 1 := by
    intro a ha
    unfold Arg.count
    rcases ha with ha | ha
    · obtain ⟨v, hv⟩ := Option.isSome_iff_exists.1 ha
      simp [hv]
    · cases hr : a.repeated iterStr with
      | some v => simp
      | none => simp [ha.1, ha.2]
  have hnot : ∀ a : Arg α, ¬ a.single iterStr → a.elements.length ≤ maxsize → a.elements.length ≤ a.count iterStr maxsize := by
    intro a ha hle
    unfold Arg.count
    unfold Arg.single at ha
    cases hr : a.repeated iterStr with
    | some v => simp [hr] at ha
    | none =>
      by_cases hl : a.hasLen = true
      · simp [hl]
      · simpa [hl] using hle
  -- the repeated arguments are long enough, and the smallest length is reached
  have hmn : m ≤ n := by
    rcases hm.2 with ⟨a, ha, h1, h2⟩ | ⟨h1, h2⟩
    · rw [h2]
      exact Nat.le_trans (hnot a h1 (hmax a ha)) (n1 _ (List.mem_map.2 ⟨a, ha, rfl⟩))
    · obtain ⟨a, ha, e⟩ := List.mem_map.1 n2
      rw [h2, ← e, hsingle a (h1 a ha)]
      exact Nat.le_refl _
  have hw : ∀ j (h : j < args.length) (h' : j < ls.length), ((args[j]).single iterStr → (ls[j]).length = n) ∧
      (¬ (args[j]).single iterStr → (ls[j]).length = (args[j]).elements.length) ∧ ∀ i, i < (ls[j]).length → (ls[j])[i]? = (args[j]).at iterStr i := by
    intro j h h'
    obtain ⟨l, e, p⟩ := wrap_spec iterStr n args[j] (hc _ (List.getElem_mem h))
    rw [w3 j h h'] at e
    injection e with e
    rw [e]
    exact p
  have hall : ∀ l ∈ ls, m ≤ l.length := by
    intro l hl
    obtain ⟨j, hj, rfl⟩ := List.getElem_of_mem hl
    have hja : j < args.length := by omega
    obtain ⟨p1, p2, _⟩ := hw j hja hj
    by_cases hs : (args[j]).single iterStr
    · rw [p1 hs]; exact hmn
    · rw [p2 hs]; exact hm.1 _ (List.getElem_mem hja) hs
  have hex : ∃ l ∈ ls, l.length = m := by
    rcases hm.2 with ⟨a, ha, h1, h2⟩ | ⟨h1, h2⟩
    · obtain ⟨j, hj, rfl⟩ := List.getElem_of_mem ha
      have hjl : j < ls.length := by omega
      exact ⟨ls[j], List.getElem_mem hjl, by rw [(hw j hj hjl).2.1 h1, h2]⟩
    · have hj : 0 < args.length := List.length_pos_iff.2 h0
      have hjl : 0 < ls.length := by omega
      refine ⟨ls[0], List.getElem_mem hjl, ?_⟩
      rw [(hw 0 hj hjl).1 (h1 _ (List.getElem_mem hj)), h2]
      obtain ⟨a, ha, e⟩ := List.mem_map.1 n2
      rw [← e, hsingle a (h1 a ha)]
  have hne : ls ≠ [] := by
    intro hls
    rw [hls] at w2
    exact h0 (List.length_eq_zero_iff.1 w2.symm)
  obtain ⟨z1, z2⟩ := zip_spec ls m hne hall hex
  refine ⟨zip ls, by simp [zipBroadcast, hn, w1], z1, fun i t ht => ?_⟩
  obtain ⟨t1, t2⟩ := z2 i t ht
  refine ⟨by omega, fun j hj => ?_⟩
  have hjl : j < ls.length := by omega
  rw [t2 j hjl, at_eq]
  refine (hw j hj hjl).2.2 i ?_
  have hi : i < (zip ls).length := by
    by_contra hc
    rw [List.getElem?_eq_none (by omega)] at ht
    cases ht
  have := hall _ (List.getElem_mem hjl)
  omega

/-- `zip_broadcast([1, 2, 3], 7, [8], 'ab', (x for x in [4, 5, 6]), iter_str=False)` -/
example : zipBroadcast 100 false [.sequence [1, 2, 3], .scalar 7, .sequence [8], .string 9 [10, 11], .generator [4, 5, 6]] =
    some [[1, 7, 8, 9, 4], [2, 7, 8, 9, 5], [3, 7, 8, 9, 6]] := by decide

example : IsCount false [Arg.sequence [1, 2, 3], .scalar 7, .sequence [8], .string 9 [10, 11], .generator [4, 5, 6]] 3 := by
  unfold IsCount
  decide

/-- The number of tuples exists for all non-empty lists of arguments. -/
theorem isCount_exists (iterStr : Bool) (args : List (Arg α)) : ∃ m, IsCount iterStr args m := by
  simp only [isCount_iff]
  induction args with
  | nil => exact ⟨1, by simp⟩
  | cons a as ih =>
    obtain ⟨m, h1, h2⟩ := ih
    by_cases ha : a.single iterStr
    · refine ⟨m, ?_, ?_⟩
      · intro b hb hs
        rcases List.mem_cons.1 hb with rfl | hb
        · exact absurd ha hs
        · exact h1 b hb hs
      · rcases h2 with ⟨b, hb, p⟩ | ⟨p, q⟩
        · exact Or.inl ⟨b, by simp [hb], p⟩
        · refine Or.inr ⟨?_, q⟩
          intro b hb
          rcases List.mem_cons.1 hb with rfl | hb
          · exact ha
          · exact p b hb
    · rcases h2 with ⟨b, hb, p, q⟩ | ⟨p, q⟩
      · rcases Nat.le_total m a.elements.length with hle | hle
        · refine ⟨m, ?_, Or.inl ⟨b, by simp [hb], p, q⟩⟩
          intro c hcm hs
          rcases List.mem_cons.1 hcm with rfl | hcm
          · exact hle
          · exact h1 c hcm hs
        · refine ⟨a.elements.length, ?_, Or.inl ⟨a, by simp, ha, rfl⟩⟩
          intro c hcm hs
          rcases List.mem_cons.1 hcm with rfl | hcm
          · exact Nat.le_refl _
          · exact Nat.le_trans hle (h1 c hcm hs)
      · refine ⟨a.elements.length, ?_, Or.inl ⟨a, by simp, ha, rfl⟩⟩
        intro c hcm hs
        rcases List.mem_cons.1 hcm with rfl | hcm
        · exact Nat.le_refl _
        · exact absurd (p c hcm) hs

/-- **C92 (collections, negation).** The container `{1}` has length 1, but `a[0]` raises an exception. -/
theorem C92_set_fails : ∃ (args : List (Arg Nat)), args ≠ [] ∧ IsCount true args 2 ∧ zipBroadcast 100 true args = none :=
  ⟨[.collection [1], .sequence [2, 3]], by simp, by unfold IsCount; decide, by decide⟩

/-- **C92 (no argument, negation).** `zip()` is empty but `zip_broadcast()` raises ValueError. -/
theorem C92_empty_fails : zip ([] : List (List Nat)) = [] ∧ zipBroadcast 100 true ([] : List (Arg Nat)) = none := by decide

end Verif.ZipBroadcast
