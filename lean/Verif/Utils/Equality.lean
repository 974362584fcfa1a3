import Mathlib.Algebra.Order.Field.Rat
import Mathlib.Algebra.Order.Ring.Abs
import Mathlib.Tactic.NormNum
import Mathlib.Tactic.Linarith
import Mathlib.Data.Rat.Defs

/-
Model of the comparison of operators: src/pyoperators/utils/misc.py:139-179 (`all_eq`) and src/pyoperators/core.py:1547-1562
(`Operator.__eq__` and `Operator.__ne__`).
-/

namespace Verif.Equality

/-! ### Model -/

mutual
/-- The Python objects that are compared.  The objects that are compared by identity have a number, the numbers `none` are NaN.  `seq` are the
tuples (`true`) and the lists, `method` the bound methods (class of the object and function), `func` the functions (code and values of the
variables of the enclosing function), `obj` any other object, that is only equal to itself, such as `None`, a class or a dtype. -/
inductive Val where
  | str (s : String)
  | int (n : Int)
  | flt (id : Nat) (x : Option ℚ)
  | arr (id : Nat) (shape : List Nat) (data : List (Option ℚ))
  | seq (tuple : Bool) (items : Vals)
  | dict (items : Items)
  | method (cls func : Nat)
  | func (id code closure : Nat)
  | obj (id : Nat)
/-- The elements of a sequence. -/
inductive Vals where
  | nil
  | cons (v : Val) (rest : Vals)
/-- The items of a dictionary. -/
inductive Items where
  | nil
  | cons (k : String) (v : Val) (rest : Items)
end

/-- The keys of the dictionary. -/
def Items.keys : Items → List String
  | nil => []
  | cons k _ r => k :: r.keys

/-- `d[k]` -/
def Items.get : Items → String → Option Val
  | nil, _ => none
  | cons k v r, k' => if k = k' then some v else r.get k'

/-- `len` -/
def Vals.length : Vals → Nat
  | nil => 0
  | cons _ r => r.length + 1

/-- The numbers of a sequence of numbers. -/
def Vals.numbers : Vals → Option (List (Option ℚ))
  | nil => some []
  | cons (.int n) r => r.numbers.map (some (n : ℚ) :: ·)
  | cons (.flt _ x) r => r.numbers.map (x :: ·)
  | cons _ _ => none

/-- `np.asarray` in `np.allclose`: the shape and the elements, or an exception.  Simplification: nested sequences are not converted. -/
def toArray : Val → Option (List Nat × List (Option ℚ))
  | .int n => some ([], [some n])
  | .flt _ x => some ([], [x])
  | .arr _ s d => some (s, d)
  | .seq _ l => l.numbers.map fun d => ([d.length], d)
  | _ => none

/-- The broadcast shape, the dimensions being in the reversed order. -/
def broadcastShape : List Nat → List Nat → Option (List Nat)
  | [], t => some t
  | s, [] => some s
  | d :: s, e :: t =>
    if d = e ∨ d = 1 ∨ e = 1 then (broadcastShape s t).map ((if d = 1 then e else d) :: ·) else none

/-- The indices of an array, the last one being the first of the list. -/
def indices : List Nat → List (List Nat)
  | [] => [[]]
  | d :: s => (indices s).flatMap fun k => (List.range d).map (· :: k)

/-- The number of the element at the index, the dimensions of length one and the missing ones being ignored. -/
def position : List Nat → List Nat → Nat
  | d :: s, i :: k => (if d = 1 then 0 else i) + d * position s k
  | _, _ => 0

/-- `np.isclose`, with the default tolerances. -/
def close : Option ℚ → Option ℚ → Bool
  | some x, some y => decide (|x - y| ≤ 1 / 10 ^ 8 + 1 / 10 ^ 5 * |y|)
  | _, _ => false

/-- `np.allclose(a, b)`: an exception is `none`. -/
def allclose (a b : Val) : Option Bool :=
  match toArray a, toArray b with
  | some (s, x), some (t, y) =>
    (broadcastShape s.reverse t.reverse).map fun u =>
      (indices u).all fun k => close (x.getD (position s.reverse k) none) (y.getD (position t.reverse k) none)
  | _, _ => none

/-- `isinstance(a, (float, np.ndarray, np.number))` -/
def isNumeric : Val → Bool
  | .flt _ _ | .arr _ _ _ => true
  | _ => false

/-- `a is b`, for the values that have a number.  The other ones are compared by their contents, which gives the same result as the identity. -/
def identical : Val → Val → Bool
  | .flt i _, .flt j _ | .arr i _ _, .arr j _ _ | .func i _ _, .func j _ _ | .obj i, .obj j => i == j
  | _, _ => false

mutual
/-- `all_eq(a, b)`: src/pyoperators/utils/misc.py:139-179.  An exception is `none`. -/
def allEq (a b : Val) : Option Bool :=
  if identical a b then some true
  else match a with
    | .dict d =>
      match b with
      | .dict e => if d.keys.all (· ∈ e.keys) && e.keys.all (· ∈ d.keys) then allEqItems d e else some false
      | _ => some false
    | .str s =>
      match b with
      | .str t => some (s == t)
      | _ => some false
    | .int n =>
      if isNumeric b then allclose a b
      else match b with
        | .int m => some (n == m)
        | _ => some false
    | .flt _ _ | .arr _ _ _ => allclose a b
    | .seq t l =>
      if isNumeric b then allclose a b
      else match b with
        | .seq u m => if t = u then if l.length = m.length then allEqs l m else some false else some false
        | _ => some false
    | .method c f =>
      if isNumeric b then allclose a b
      else match b with
        | .method c' f' => some (c == c' && f == f')
        | _ => some false
    | .func _ c _ =>
      if isNumeric b then allclose a b
      else match b with
        | .func _ c' _ => some (c == c')
        | _ => some false
    | .obj _ => if isNumeric b then allclose a b else some false
/-- The loop over the elements: src/pyoperators/utils/misc.py:167-169. -/
def allEqs : Vals → Vals → Option Bool
  | .cons v r, .cons w q =>
    match allEq v w with
    | none => none
    | some false => some false
    | some true => allEqs r q
  | _, _ => some true
/-- The loop over the keys: src/pyoperators/utils/misc.py:150-152. -/
def allEqItems : Items → Items → Option Bool
  | .nil, _ => some true
  | .cons k v r, e =>
    match e.get k with
    | none => none
    | some w =>
      match allEq v w with
      | none => none
      | some false => some false
      | some true => allEqItems r e
end

/-- An operator: its type and its attributes. -/
structure Op where
  id : Nat
  type : Nat
  attrs : Items

/-- The items of a dictionary without those of the given keys. -/
def Items.without (ks : List String) : Items → Items
  | nil => nil
  | cons k v r => if k ∈ ks then r.without ks else cons k v (r.without ks)

/-- `Operator.__eq__`: src/pyoperators/core.py:1547-1559. -/
def Op.eq (a b : Op) : Option Bool :=
  if a.id = b.id then some true
  else if a.type ≠ b.type then some false
  else
    let ks := ["rules", "_C", "_T", "_H", "_I", "_D"]
    allEq (.dict (a.attrs.without ks)) (.dict (b.attrs.without ks))

/-! ### Specification -/

mutual
/-- The same values: equal strings, numbers and arrays, sequences with the same elements, dictionaries with the same items in any order; the
methods and the functions are the same if they cannot be distinguished; the numbers of the objects are not compared, except for the objects
that have nothing else. -/
inductive Same : Val → Val → Prop
  | str (s) : Same (.str s) (.str s)
  | int (n) : Same (.int n) (.int n)
  | flt (i j) (x) : Same (.flt i x) (.flt j x)
  | arr (i j) (s d) : Same (.arr i s d) (.arr j s d)
  | seq (t) {l m} : Sames l m → Same (.seq t l) (.seq t m)
  | dict {d e : Items} : (∀ k, k ∈ e.keys → k ∈ d.keys) → SameItems d e → Same (.dict d) (.dict e)
  | method (c f) : Same (.method c f) (.method c f)
  | func (i j c v) : Same (.func i c v) (.func j c v)
  | obj (i) : Same (.obj i) (.obj i)
/-- The same elements. -/
inductive Sames : Vals → Vals → Prop
  | nil : Sames .nil .nil
  | cons {v w l m} : Same v w → Sames l m → Sames (.cons v l) (.cons w m)
/-- The items of the first dictionary are in the second one. -/
inductive SameItems : Items → Items → Prop
  | nil (e) : SameItems .nil e
  | cons {k v d e w} : e.get k = some w → Same v w → SameItems d e → SameItems (.cons k v d) e
end

/-! ### Exactness for values without floating point numbers and functions -/

mutual
/-- There are no floating point numbers, arrays and functions. -/
def Exact : Val → Prop
  | .str _ | .int _ | .method _ _ | .obj _ => True
  | .flt _ _ | .arr _ _ _ | .func _ _ _ => False
  | .seq _ l => Exacts l
  | .dict d => ExactItems d
/-- The same, for the elements of a sequence. -/
def Exacts : Vals → Prop
  | .nil => True
  | .cons v l => Exact v ∧ Exacts l
/-- The same, for the items of a dictionary. -/
def ExactItems : Items → Prop
  | .nil => True
  | .cons _ v d => Exact v ∧ ExactItems d
end

theorem exact_not_numeric {v : Val} (h : Exact v) : isNumeric v = false := by
  cases v <;> simp_all [isNumeric, Exact]

theorem keys_get : ∀ {e : Items} {k : String}, k ∈ e.keys → ∃ w, e.get k = some w
  | .cons k' v r, k, h => by
    simp only [Items.get]
    split
    · exact ⟨v, rfl⟩
    · next hn =>
      simp only [Items.keys, List.mem_cons] at h
      exact keys_get (h.resolve_left fun e => hn e.symm)

theorem get_keys : ∀ {e : Items} {k : String} {w : Val}, e.get k = some w → k ∈ e.keys
  | .cons k' v r, k, w, h => by
    simp only [Items.get] at h
    simp only [Items.keys, List.mem_cons]
    split at h
    · next e => exact Or.inl e.symm
    · exact Or.inr (get_keys h)

theorem exactItems_get : ∀ {e : Items} {k : String} {w : Val}, ExactItems e → e.get k = some w → Exact w
  | .cons k' v r, k, w, he, h => by
    simp only [Items.get] at h
    split at h
    · cases h; exact he.1
    · exact exactItems_get he.2 h

mutual
theorem allEq_exact : ∀ (a b : Val), Exact a → Exact b → allEq a b = some true ∧ Same a b ∨ allEq a b = some false ∧ ¬ Same a b
  | .str s, b, _, _ => by
    cases b with
    | str t =>
      by_cases h : s = t
      · subst h; exact .inl ⟨by simp [allEq, identical], .str s⟩
      · exact .inr ⟨by simp [allEq, identical, h], fun hs => by cases hs; exact h rfl⟩
    | _ => exact .inr ⟨by simp [allEq, identical], fun hs => by cases hs⟩
  | .int n, b, _, hb => by
    have hn := exact_not_numeric hb
    cases b with
    | int m =>
      by_cases h : n = m
      · subst h; exact .inl ⟨by simp [allEq, identical, isNumeric], .int n⟩
      · exact .inr ⟨by simp [allEq, identical, isNumeric, h], fun hs => by cases hs; exact h rfl⟩
    | _ => exact .inr ⟨by simp [allEq, identical, hn], fun hs => by cases hs⟩
  | .flt _ _, _, ha, _ => ha.elim
  | .arr _ _ _, _, ha, _ => ha.elim
  | .func _ _ _, _, ha, _ => ha.elim
  | .method c f, b, _, hb => by
    have hn := exact_not_numeric hb
    cases b with
    | method c' f' =>
      by_cases h : c = c' ∧ f = f'
      · obtain ⟨rfl, rfl⟩ := h; exact .inl ⟨by simp [allEq, identical, isNumeric], .method c f⟩
      · refine .inr ⟨?_, fun hs => by cases hs; exact h ⟨rfl, rfl⟩⟩
        simp only [allEq, identical, isNumeric, Bool.false_eq_true, if_false, Option.some.injEq, Bool.and_eq_false_iff,
          beq_eq_false_iff_ne]
        by_cases h1 : c = c'
        · exact Or.inr fun h2 => h ⟨h1, h2⟩
        · exact Or.inl h1
    | _ => exact .inr ⟨by simp [allEq, identical, hn], fun hs => by cases hs⟩
  | .obj i, b, _, hb => by
    have hn := exact_not_numeric hb
    cases b with
    | obj j =>
      by_cases h : i = j
      · subst h; exact .inl ⟨by simp [allEq, identical], .obj i⟩
      · exact .inr ⟨by simp [allEq, identical, isNumeric, h], fun hs => by cases hs; exact h rfl⟩
    | _ => exact .inr ⟨by simp [allEq, identical, hn], fun hs => by cases hs⟩
  | .seq t l, b, ha, hb => by
    have hn := exact_not_numeric hb
    cases b with
    | seq u m =>
      by_cases htu : t = u
      · subst htu
        by_cases hlm : l.length = m.length
        · rcases allEqs_exact l m ha hb hlm with ⟨h1, h2⟩ | ⟨h1, h2⟩
          · exact .inl ⟨by simp [allEq, identical, isNumeric, hlm, h1], .seq t h2⟩
          · exact .inr ⟨by simp [allEq, identical, isNumeric, hlm, h1], fun hs => by cases hs with | seq _ h => exact h2 h⟩
        · refine .inr ⟨by simp [allEq, identical, isNumeric, hlm], fun hs => ?_⟩
          cases hs with
          | seq _ h => exact hlm (sames_length h)
      · exact .inr ⟨by simp [allEq, identical, isNumeric, htu], fun hs => by cases hs; exact htu rfl⟩
    | _ => exact .inr ⟨by simp [allEq, identical, hn], fun hs => by cases hs⟩
  | .dict d, b, ha, hb => by
    cases b with
    | dict e =>
      by_cases hk : (d.keys.all (· ∈ e.keys) && e.keys.all (· ∈ d.keys)) = true
      · have hk' := hk
        simp only [Bool.and_eq_true, List.all_eq_true, decide_eq_true_eq] at hk'
        rcases allEqItems_exact d e ha hb hk'.1 with ⟨h1, h2⟩ | ⟨h1, h2⟩
        · refine .inl ⟨?_, .dict hk'.2 h2⟩
          simp only [allEq, identical, hk, if_true, h1, Bool.false_eq_true, if_false]
        · refine .inr ⟨?_, fun hs => ?_⟩
          · simp only [allEq, identical, hk, if_true, h1, Bool.false_eq_true, if_false]
          · cases hs with
            | dict _ h => exact h2 h
      · refine .inr ⟨?_, fun hs => ?_⟩
        · simp only [allEq, identical, hk, Bool.false_eq_true, if_false]
        · cases hs with
          | dict h1 h2 =>
            apply hk
            simp only [Bool.and_eq_true, List.all_eq_true, decide_eq_true_eq]
            exact ⟨sameItems_keys h2, h1⟩
    | _ => exact .inr ⟨by simp [allEq, identical], fun hs => by cases hs⟩
theorem allEqs_exact : ∀ (l m : Vals), Exacts l → Exacts m → l.length = m.length →
    allEqs l m = some true ∧ Sames l m ∨ allEqs l m = some false ∧ ¬ Sames l m
  | .nil, .nil, _, _, _ => .inl ⟨by simp [allEqs], .nil⟩
  | .nil, .cons _ _, _, _, h => by simp [Vals.length] at h
  | .cons _ _, .nil, _, _, h => by simp [Vals.length] at h
  | .cons v l, .cons w m, ha, hb, h => by
    rcases allEq_exact v w ha.1 hb.1 with ⟨h1, h2⟩ | ⟨h1, h2⟩
    · rcases allEqs_exact l m ha.2 hb.2 (by simpa [Vals.length] using h) with ⟨h3, h4⟩ | ⟨h3, h4⟩
      · exact .inl ⟨by simp [allEqs, h1, h3], .cons h2 h4⟩
      · exact .inr ⟨by simp [allEqs, h1, h3], fun hs => by cases hs with | cons _ h => exact h4 h⟩
    · exact .inr ⟨by simp [allEqs, h1], fun hs => by cases hs with | cons h _ => exact h2 h⟩
theorem allEqItems_exact : ∀ (d e : Items), ExactItems d → ExactItems e → (∀ k ∈ d.keys, k ∈ e.keys) →
    allEqItems d e = some true ∧ SameItems d e ∨ allEqItems d e = some false ∧ ¬ SameItems d e
  | .nil, e, _, _, _ => .inl ⟨by simp [allEqItems], .nil e⟩
  | .cons k v d, e, ha, hb, h => by
    obtain ⟨w, hw⟩ := keys_get (h k (by simp [Items.keys]))
    rcases allEq_exact v w ha.1 (exactItems_get hb hw) with ⟨h1, h2⟩ | ⟨h1, h2⟩
    · rcases allEqItems_exact d e ha.2 hb (fun k' hk' => h k' (by simp [Items.keys, hk'])) with ⟨h3, h4⟩ | ⟨h3, h4⟩
      · exact .inl ⟨by simp [allEqItems, hw, h1, h3], .cons hw h2 h4⟩
      · exact .inr ⟨by simp [allEqItems, hw, h1, h3], fun hs => by cases hs with | cons _ _ h => exact h4 h⟩
    · refine .inr ⟨by simp [allEqItems, hw, h1], fun hs => ?_⟩
      cases hs with
      | cons hg h _ => rw [hw] at hg; cases hg; exact h2 h
theorem sames_length : ∀ {l m : Vals}, Sames l m → l.length = m.length
  | .nil, _, h => by cases h; rfl
  | .cons v l, _, h => by
    cases h with
    | cons _ h => simp [Vals.length, sames_length h]
theorem sameItems_keys : ∀ {d e : Items}, SameItems d e → ∀ k ∈ d.keys, k ∈ e.keys
  | .nil, _, _ => by simp [Items.keys]
  | .cons k v d, e, h => by
    cases h with
    | cons hg _ h =>
      intro k' hk'
      simp only [Items.keys, List.mem_cons] at hk'
      rcases hk' with rfl | hk'
      · exact get_keys hg
      · exact sameItems_keys h k' hk'
end

/-- The attributes that are not compared. -/
def generated : List String := ["rules", "_C", "_T", "_H", "_I", "_D"]

theorem without_get : ∀ (ks : List String) (d : Items) (k : String), (d.without ks).get k = if k ∈ ks then none else d.get k
  | ks, .nil, k => by simp [Items.without, Items.get]
  | ks, .cons k' v d, k => by
    simp only [Items.without]
    by_cases h : k' ∈ ks
    · rw [if_pos h, without_get ks d k]
      by_cases hk : k ∈ ks
      · simp [hk]
      · have : k' ≠ k := fun e => hk (e ▸ h)
        simp [hk, Items.get, this]
    · rw [if_neg h]
      simp only [Items.get, without_get ks d k]
      by_cases hk : k' = k
      · subst hk; simp [h]
      · simp [hk]

theorem without_keys : ∀ (ks : List String) (d : Items), (d.without ks).keys = d.keys.filter (· ∉ ks)
  | ks, .nil => rfl
  | ks, .cons k v d => by
    simp only [Items.without, Items.keys]
    split <;> simp_all [Items.keys, without_keys ks d]

theorem without_exact : ∀ (ks : List String) (d : Items), ExactItems d → ExactItems (d.without ks)
  | ks, .nil, h => h
  | ks, .cons k v d, h => by
    simp only [Items.without]
    split
    · exact without_exact ks d h.2
    · exact ⟨h.1, without_exact ks d h.2⟩

theorem get_none {d : Items} {k : String} (h : k ∉ d.keys) : d.get k = none := by
  cases hg : d.get k with
  | none => rfl
  | some w => exact absurd (get_keys hg) h

theorem sameItems_get : ∀ {d e : Items} {k : String}, SameItems d e → k ∈ d.keys → Option.Rel Same (d.get k) (e.get k)
  | .nil, _, _, _, hk => by simp [Items.keys] at hk
  | .cons k' v r, e, k, hs, hk => by
    cases hs with
    | cons hg hv hr =>
      simp only [Items.get]
      by_cases hkk : k' = k
      · subst hkk; rw [if_pos rfl, hg]; exact .some hv
      · rw [if_neg hkk]
        simp only [Items.keys, List.mem_cons] at hk
        exact sameItems_get hr (hk.resolve_left fun e => hkk e.symm)

theorem get_sameItems : ∀ {q e : Items}, q.keys.Nodup → (∀ k ∈ q.keys, Option.Rel Same (q.get k) (e.get k)) → SameItems q e
  | .nil, e, _, _ => .nil e
  | .cons k1 v1 q1, e, hn, hq => by
    simp only [Items.keys, List.nodup_cons] at hn
    have h1 := hq k1 (by simp [Items.keys])
    simp only [Items.get, if_true] at h1
    cases hg1 : e.get k1 with
    | none => rw [hg1] at h1; cases h1
    | some w1 =>
      rw [hg1] at h1
      cases h1 with
      | some hv1 =>
        refine .cons hg1 hv1 (get_sameItems hn.2 fun k hk => ?_)
        have := hq k (by simp [Items.keys, hk])
        have hne : k1 ≠ k := fun e => hn.1 (e ▸ hk)
        simpa [Items.get, hne] using this

theorem same_dict_iff {d e : Items} (hd : d.keys.Nodup) :
    Same (.dict d) (.dict e) ↔ ∀ k, Option.Rel Same (d.get k) (e.get k) := by
  constructor
  · intro h k
    cases h with
    | dict hk hs =>
      by_cases hkd : k ∈ d.keys
      · exact sameItems_get hs hkd
      · rw [get_none hkd, get_none fun h => hkd (hk k h)]
        exact .none
  · intro h
    refine .dict (fun k hk => ?_) (get_sameItems hd fun k _ => h k)
    obtain ⟨w, hw⟩ := keys_get hk
    have := h k
    rw [hw] at this
    cases hg : d.get k with
    | none => rw [hg] at this; cases this
    | some v => exact get_keys hg

/-- C87 (partial): if the attributes contain no floating point numbers, arrays and functions, the comparison of two operators raises no
exception, and they are equal if and only if they have the same type and the same attributes, other than the rules and the associated
operators. -/
theorem C87_exact_partial {a b : Op} (hid : a.id ≠ b.id) (ha : ExactItems a.attrs) (hb : ExactItems b.attrs) (hn : a.attrs.keys.Nodup) :
    a.eq b ≠ none ∧
    (a.eq b = some true ↔ a.type = b.type ∧ ∀ k ∉ generated, Option.Rel Same (a.attrs.get k) (b.attrs.get k)) := by
  by_cases ht : a.type = b.type
  · have hr : (∀ k ∉ generated, Option.Rel Same (a.attrs.get k) (b.attrs.get k)) ↔
        Same (.dict (a.attrs.without generated)) (.dict (b.attrs.without generated)) := by
      rw [same_dict_iff (by rw [without_keys]; exact hn.filter _)]
      constructor
      · intro h k
        rw [without_get, without_get]
        split
        · exact .none
        · next hk => exact h k hk
      · intro h k hk
        have := h k
        rwa [without_get, without_get, if_neg hk, if_neg hk] at this
    have e : a.eq b = allEq (.dict (a.attrs.without generated)) (.dict (b.attrs.without generated)) := by
      simp only [Op.eq, if_neg hid, ht, ne_eq, not_true_eq_false, if_false]; rfl
    rw [e, hr]
    simp only [ht, true_and]
    rcases allEq_exact (.dict (a.attrs.without generated)) (.dict (b.attrs.without generated)) (without_exact _ _ ha) (without_exact _ _ hb)
      with ⟨h1, h2⟩ | ⟨h1, h2⟩
    · simp [h1, h2]
    · simp [h1, h2]
  · have e : a.eq b = some false := by simp [Op.eq, hid, ht]
    simp [e, ht]

/-! ### Arrays -/

/-- C87: an operator is equal to itself, whatever its attributes, for instance data with NaN, which are not close to themselves. -/
theorem C87_reflexive (a : Op) : a.eq a = some true := by
  unfold Op.eq
  rw [if_pos rfl]

/-- An operator with NaN is equal to itself, but not to another one with the same data. -/
example : ((⟨0, 1, .cons "data" (.arr 5 [1] [none]) .nil⟩ : Op).eq ⟨1, 1, .cons "data" (.arr 6 [1] [none]) .nil⟩ = some false) ∧
    (⟨0, 1, .cons "data" (.arr 5 [1] [none]) .nil⟩ : Op).eq ⟨0, 1, .cons "data" (.arr 5 [1] [none]) .nil⟩ = some true :=
  ⟨by decide +kernel, C87_reflexive _⟩

theorem range_mul (d P : Nat) : (List.range P).flatMap (fun q => (List.range d).map fun i => i + d * q) = List.range (d * P) := by
  induction P with
  | zero => simp
  | succ P ih =>
    rw [List.range_succ, List.flatMap_append, ih, Nat.mul_succ, List.range_add]
    simp [Nat.add_comm]

/-- The positions of the elements, in the order of the indices. -/
theorem positions : ∀ s : List Nat, (indices s).map (position s) = List.range s.prod
  | [] => by simp [indices, position]
  | d :: s => by
    simp only [indices, List.map_flatMap, List.map_map, List.prod_cons]
    rw [← range_mul, ← positions s, List.flatMap_map]
    congr 1
    funext k
    refine List.map_congr_left fun i hi => ?_
    simp only [Function.comp, position]
    split
    · next h => subst h; simp at hi; omega
    · rfl

theorem broadcast_self : ∀ s : List Nat, broadcastShape s s = some s
  | [] => rfl
  | d :: s => by
    simp only [broadcastShape, broadcast_self s]
    by_cases h : d = 1 <;> simp [h]

/-- C87: arrays of the same shape, that are not the same object, are equal if and only if their elements are numbers that are equal within the
tolerances. -/
theorem C87_tolerance {i j : Nat} (hij : i ≠ j) (s : List Nat) {x y : List (Option ℚ)} (hx : x.length = s.prod) (hy : y.length = s.prod) :
    allEq (.arr i s x) (.arr j s y) ≠ none ∧
    (allEq (.arr i s x) (.arr j s y) = some true ↔
      ∀ n < s.prod, ∃ p q : ℚ, x[n]? = some (some p) ∧ y[n]? = some (some q) ∧ |p - q| ≤ 1 / 10 ^ 8 + 1 / 10 ^ 5 * |q|) := by
  have e : allEq (.arr i s x) (.arr j s y) =
      some ((List.range s.prod).all fun n => close (x.getD n none) (y.getD n none)) := by
    simp only [allEq, identical, beq_iff_eq, hij, if_false, allclose, toArray, broadcast_self, Option.map_some, Option.some.injEq]
    rw [← List.prod_reverse, ← positions s.reverse, List.all_map]
    rfl
  rw [e]
  refine ⟨by simp, ?_⟩
  simp only [Option.some.injEq, List.all_eq_true, List.mem_range]
  refine forall_congr' fun n => forall_congr' fun hn => ?_
  have hxn : n < x.length := by omega
  have hyn : n < y.length := by omega
  simp only [List.getD_eq_getElem?_getD, List.getElem?_eq_getElem hxn, List.getElem?_eq_getElem hyn, Option.getD_some, Option.some.injEq]
  constructor
  · intro h
    cases hp : x[n] with
    | none => rw [hp] at h; simp [close] at h
    | some p =>
      cases hq : y[n] with
      | none => rw [hp, hq] at h; simp [close] at h
      | some q => rw [hp, hq] at h; exact ⟨p, q, rfl, rfl, by simpa [close] using h⟩
  · rintro ⟨p, q, hp, hq, h⟩
    rw [hp, hq]
    simpa [close] using h

/-- A diagonal operator with the given data. -/
def diagonal (id : Nat) (data : List ℚ) : Op :=
  ⟨id, 0, .cons "broadcast" (.str "disabled") (.cons "data" (.arr id [data.length] (data.map some))
    (.cons "shapein" (.seq true (.cons (.int data.length) .nil)) .nil))⟩

/-- C87: the comparison of two diagonal operators of different shapes raises an exception. -/
theorem C87_shapes_fails : (diagonal 0 [1, 2]).eq (diagonal 1 [1, 2, 3]) = none := by decide +kernel

/-- C87: the comparison is not symmetric. -/
theorem C87_symmetric_fails : (diagonal 0 [0, 5]).eq (diagonal 1 [1000005 / 10 ^ 14, 5]) = some true ∧
    (diagonal 1 [1000005 / 10 ^ 14, 5]).eq (diagonal 0 [0, 5]) = some false := by decide +kernel

/-- C87: the comparison is not transitive. -/
theorem C87_transitive_fails : (diagonal 0 [0, 5]).eq (diagonal 1 [1 / 10 ^ 8, 5]) = some true ∧
    (diagonal 1 [1 / 10 ^ 8, 5]).eq (diagonal 2 [2 / 10 ^ 8, 5]) = some true ∧
    (diagonal 0 [0, 5]).eq (diagonal 2 [2 / 10 ^ 8, 5]) = some false := by decide +kernel

/-- C87: data of different shapes, that are broadcast, are equal. -/
theorem C87_broadcast_fails : allEq (.arr 0 [1, 2] [some 3, some 4]) (.arr 1 [2, 2] [some 3, some 4, some 3, some 4]) = some true ∧
    ¬ Same (.arr 0 [1, 2] [some 3, some 4]) (.arr 1 [2, 2] [some 3, some 4, some 3, some 4]) :=
  ⟨by decide +kernel, fun h => by cases h⟩

/-- An operator whose direct method is a function that uses a variable of the enclosing function. -/
def scaled (id factor : Nat) : Op := ⟨id, 0, .cons "direct" (.func id 7 factor) .nil⟩

/-- C87: operators that are defined by the same line of a function, with different values of its variables, are equal. -/
theorem C87_closure_fails : (scaled 0 2).eq (scaled 1 3) = some true ∧ ¬ Same (.func 0 7 2) (.func 1 7 3) :=
  ⟨by decide +kernel, fun h => by cases h⟩

/-- Operators without floating point numbers: the rules and the associated operators are ignored, and the order of the attributes. -/
def packed (id n : Nat) : Op := ⟨id, 3, .cons "name" (.str "P") (.cons "shapein" (.seq true (.cons (.int n) .nil)) (.cons "_T" (.obj id) .nil))⟩

example : ExactItems (packed 0 2).attrs ∧ (packed 0 2).attrs.keys.Nodup ∧ (packed 0 2).eq (packed 1 2) = some true ∧
    (packed 0 2).eq (packed 1 3) = some false ∧
    (packed 0 2).eq ⟨1, 3, .cons "shapein" (.seq true (.cons (.int 2) .nil)) (.cons "name" (.str "P") .nil)⟩ = some true := by
  refine ⟨by simp [packed, ExactItems, Exact, Exacts], by decide, by decide +kernel, by decide +kernel, by decide +kernel⟩

/-- Arrays that are equal within the tolerances, and a NaN. -/
example : allEq (.arr 0 [2] [some 1, some 2]) (.arr 1 [2] [some (1 + 1 / 10 ^ 6), some 2]) = some true ∧
    allEq (.arr 0 [2] [some 1, none]) (.arr 1 [2] [some 1, none]) = some false := by decide +kernel

end Verif.Equality
