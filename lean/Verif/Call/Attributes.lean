import Mathlib.Data.List.Basic
import Mathlib.Tactic.Cases

/-
Model of the classes and attributes of the arrays that operators return: src/pyoperators/core.py:346-368 (`Operator.propagate_attributes`),
476-500 (end of `Operator.__call__`), 2398-2401 (`CompositionOperator.propagate_attributes`), 2706-2738 (`CompositionOperator._merge` and `_merge_attr`),
1734-1735 and 1864-1865 (`CompositeOperator.propagate_attributes` and `CommutativeCompositeOperator.propagate_attributes`),
1938-1941 and 3163-3167 (the attributes of sums and of block operators), src/pyoperators/utils/misc.py:397-415 (`first_is_not`), 591-596 (`isclassattr`).

The classes have no property, and their method `__array_finalize__` sets no attribute.  That mutable values are copied is not modelled.
-/

namespace Verif.Attributes

/-! ### Model -/

abbrev Key := Nat
abbrev Val := Nat

/-- The classes of arrays: the attributes of the class and of the classes it derives from. -/
structure Classes (C : Type) where
  ndarray : C
  ndarraywrap : C
  /-- `isclassattr(a, cls)` -/
  classattr : C → Key → Bool
  /-- the attribute 'shape_global' -/
  shapeGlobal : Key
  distinct : ndarray ≠ ndarraywrap

/-- The attribute `__dict__` of an array, or the items of a dictionary. -/
abbrev Dict := List (Key × Val)

/-- `attr[k]` -/
def get (d : Dict) (k : Key) : Option Val := (d.find? fun p => p.1 == k).map (·.2)

/-- `attr[k] = v`: the value of an existing key is replaced, a new key is added at the end. -/
def set : Dict → Key → Val → Dict
  | [], k, v => [(k, v)]
  | p :: d, k, v => if p.1 == k then (k, v) :: d else p :: set d k v

/-- `del attr[k]` for the keys that satisfy a condition. -/
def del (d : Dict) (c : Key → Bool) : Dict := d.filter fun p => !c p.1

/-- `attr.update(items)`, or a loop of assignments. -/
def update (d : Dict) : Dict → Dict
  | [] => d
  | p :: items => update (set d p.1 p.2) items

/-- The attribute attrout.  A function receives the dictionary, can modify it, and returns a value that is ignored. -/
inductive Attrout where
  | dict (items : Dict)
  | func (modified : Dict → Dict) (returned : Dict → Option Dict)

/-- The attributes of an operator that determine the class and attributes of its output. -/
structure Op (C : Type) where
  classout : Option C
  attrout : Attrout

variable {C : Type} [DecidableEq C]

/-- What an attrout does to the dictionary: src/pyoperators/core.py:358-367. -/
def Attrout.apply : Attrout → Dict → Dict
  | .dict items, d => update d items
  | .func f _, d => f d

/-- `Operator.propagate_attributes`: src/pyoperators/core.py:346-368. -/
def propagate (K : Classes C) (o : Op C) (cls : C) (attr : Dict) : C × Dict :=
  let attr := match o.classout with
    | none => attr
    | some c => if c = cls then attr else del attr fun a => K.classattr cls a && !K.classattr c a
  let attr := del attr fun a => a == K.shapeGlobal
  (o.classout.getD cls, o.attrout.apply attr)

/-- `CompositionOperator.propagate_attributes`: src/pyoperators/core.py:2398-2401; the loop over the reversed list of operands. -/
def propagateAll (K : Classes C) (ops : List (Op C)) (cls : C) (attr : Dict) : C × Dict :=
  ops.reverse.foldl (fun s o => propagate K o s.1 s.2) (cls, attr)

/-- `if cls is np.ndarray and len(attr) > 0: cls = ndarraywrap`: src/pyoperators/core.py:482-483. -/
def promote (K : Classes C) (s : C × Dict) : C × Dict := if s.1 = K.ndarray ∧ s.2 ≠ [] then (K.ndarraywrap, s.2) else s

/-- An array: its class and its `__dict__`. -/
abbrev Arr (C : Type) := C × Dict

/-- The end of `Operator.__call__`: src/pyoperators/core.py:476-500.  `out` is the argument out, or `none`; `none` stands for the TypeError raised when
the class of an instance is changed to np.ndarray. -/
def finish (K : Classes C) (res : C × Dict) (out : Option (Arr C)) : Option (Arr C) :=
  let r := promote K res
  match out with
  | none => if r.1 = K.ndarray then some (K.ndarray, []) else some (r.1, update [] r.2)
  | some o =>
    if o.1 = K.ndarray then if r.1 = K.ndarray then some o else some (r.1, update [] r.2)
    else if o.1 = r.1 then some (o.1, update o.2 r.2)
    else if r.1 = K.ndarray then none
    else some (r.1, update o.2 r.2)

/-- The class and attributes of `op(x, out)`. -/
def call (K : Classes C) (ops : List (Op C)) (x : Arr C) (out : Option (Arr C)) : Option (Arr C) :=
  finish K (propagateAll K ops x.1 x.2) out

/-- `_merge_attr(attrs)`: src/pyoperators/core.py:2718-2738 (the attributes of an operator are never None). -/
def mergeAttr (attrs : List Attrout) : Attrout :=
  if attrs.all (fun a => match a with | .dict _ => true | .func _ _ => false) then
    .dict (attrs.foldl (fun d a => a.apply d) [])
  else .func (fun d => attrs.foldl (fun d a => a.apply d) d) fun _ => none

/-- `_merge(op, op1, op2)` for the operator into which the composition of op1 and op2 is simplified: src/pyoperators/core.py:2706-2716 and
2683-2688. -/
def merge (o1 o2 : Op C) : Op C :=
  ⟨if o1.classout.isSome then o1.classout else o2.classout, mergeAttr [o2.attrout, o1.attrout]⟩

/-- The attributes of a sum or product of operators: src/pyoperators/core.py:1938-1941.  The attribute attrout is never None. -/
def sum (ops : List (Op C)) : Op C :=
  ⟨(ops.filterMap (·.classout)).head?, (ops.map (·.attrout)).head?.getD (.dict [])⟩

/-- The class and attributes of the output of a block operator: `CompositeOperator.propagate_attributes` (src/pyoperators/core.py:1734-1735), the ones of its
first block. -/
def callBlock (K : Classes C) (blocks : List (Op C)) (x : Arr C) : Option (Arr C) :=
  match blocks with
  | [] => none
  | o :: _ => call K [o] x none

/-! ### Lemmas on dictionaries -/

theorem get_set (d : Dict) (k k' : Key) (v : Val) : get (set d k v) k' = if k' = k then some v else get d k' := by
  induction d with
  | nil =>
    by_cases h : k' = k
    · subst h; simp [set, get]
    · simp [set, get, h, Ne.symm h]
  | cons p d ih =>
    rw [set]
    by_cases hp : p.1 = k
    · rw [if_pos (by simpa using hp)]
      by_cases h : k' = k
      · subst h; simp [get]
      · simp [get, h, Ne.symm h, hp]
    · rw [if_neg (by simpa using hp)]
      by_cases hk : p.1 = k'
      · have h : k' ≠ k := fun e => hp (by rw [hk, e])
        simp [get, hk, h]
      · have e1 : get (p :: set d k v) k' = get (set d k v) k' := by simp [get, hk]
        have e2 : get (p :: d) k' = get d k' := by simp [get, hk]
        rw [e1, e2, ih]

/-- The last value of a key in the items. -/
theorem get_update (items d : Dict) (k : Key) : get (update d items) k = (get items.reverse k).or (get d k) := by
  induction items generalizing d with
  | nil => simp [update, get]
  | cons p items ih =>
    rw [update, ih, get_set, List.reverse_cons]
    have e : get (items.reverse ++ [p]) k = (get items.reverse k).or (if k = p.1 then some p.2 else none) := by
      simp only [get, List.find?_append]
      cases h : items.reverse.find? fun q => q.1 == k with
      | some q => simp
      | none =>
        by_cases hk : k = p.1
        · simp [hk]
        · simp [hk, Ne.symm hk]
    rw [e]
    cases get items.reverse k with
    | some v => simp
    | none => by_cases hk : k = p.1 <;> simp [hk]

theorem get_del (d : Dict) (c : Key → Bool) (k : Key) : get (del d c) k = if c k then none else get d k := by
  induction d with
  | nil => simp [del, get]
  | cons p d ih =>
    rw [del, List.filter_cons]
    by_cases hp : c p.1 = true
    · simp only [hp, Bool.not_true, Bool.false_eq_true, if_false]
      rw [← del, ih]
      by_cases hk : p.1 = k
      · rw [hk] at hp; simp [hp]
      · simp [get, hk]
    · simp only [hp, Bool.not_false, if_true]
      by_cases hk : p.1 = k
      · subst hk; simp [get, hp]
      · have e1 : ∀ l : Dict, get (p :: l) k = get l k := by intro l; simp [get, hk]
        rw [e1, e1, ← del, ih]

theorem get_nil_iff (d : Dict) : d = [] ↔ ∀ k, get d k = none := by
  cases d with
  | nil => simp [get]
  | cons p d =>
    simp only [reduceCtorEq, false_iff, not_forall]
    exact ⟨p.1, by simp [get]⟩

/-- Python dictionaries have no duplicated keys. -/
def Unique (d : Dict) : Prop := (d.map (·.1)).Nodup

theorem get_reverse (d : Dict) (h : Unique d) (k : Key) : get d.reverse k = get d k := by
  induction d with
  | nil => rfl
  | cons p d ih =>
    simp only [Unique, List.map_cons, List.nodup_cons] at h
    have ih := ih h.2
    rw [List.reverse_cons]
    have e : get (d.reverse ++ [p]) k = (get d.reverse k).or (if k = p.1 then some p.2 else none) := by
      simp only [get, List.find?_append]
      cases h : d.reverse.find? fun q => q.1 == k with
      | some q => simp
      | none =>
        by_cases hk : k = p.1
        · simp [hk]
        · simp [hk, Ne.symm hk]
    rw [e, ih]
    by_cases hk : k = p.1
    · subst hk
      have : get d p.1 = none := by
        simp only [get, Option.map_eq_none_iff, List.find?_eq_none]
        intro q hq he
        exact h.1 (List.mem_map.2 ⟨q, hq, by simpa using he⟩)
      rw [this]
      simp [get]
    · have e1 : get (p :: d) k = get d k := by simp [get, Ne.symm hk]
      rw [e1]
      simp [hk]

theorem keys_set (d : Dict) (k : Key) (v : Val) : (set d k v).map (·.1) = if k ∈ d.map (·.1) then d.map (·.1) else d.map (·.1) ++ [k] := by
  induction d with
  | nil => simp [set]
  | cons p d ih =>
    rw [set]
    by_cases hp : p.1 = k
    · simp [hp]
    · rw [if_neg (by simpa using hp), List.map_cons, ih]
      by_cases hk : k ∈ d.map (·.1)
      · rw [if_pos hk, if_pos (by simp only [List.map_cons, List.mem_cons]; exact Or.inr hk)]; rfl
      · rw [if_neg hk, if_neg (by simp only [List.map_cons, List.mem_cons]; rintro (h | h); exacts [hp h.symm, hk h])]; rfl

theorem unique_set (d : Dict) (k : Key) (v : Val) (h : Unique d) : Unique (set d k v) := by
  unfold Unique at *
  rw [keys_set]
  split
  · exact h
  · rename_i hk
    rw [List.nodup_append]
    exact ⟨h, by simp, fun a ha b hb => by simp at hb; subst hb; rintro rfl; exact hk ha⟩

theorem unique_update (items d : Dict) (h : Unique d) : Unique (update d items) := by
  induction items generalizing d with
  | nil => exact h
  | cons p items ih => exact ih _ (unique_set d p.1 p.2 h)

theorem update_nil_get (d : Dict) (h : Unique d) (k : Key) : get (update [] d) k = get d k := by
  rw [get_update, get_reverse d h]
  simp [get]

theorem unique_del (d : Dict) (c : Key → Bool) (h : Unique d) : Unique (del d c) := by
  unfold Unique at *
  exact List.Nodup.sublist (List.Sublist.map _ List.filter_sublist) h

theorem finish_none (K : Classes C) (res : C × Dict) (h : Unique res.2) : ∃ y, finish K res none = some y ∧ (∀ k, get y.2 k = get res.2 k) ∧
    y.1 = if res.1 = K.ndarray ∧ y.2 ≠ [] then K.ndarraywrap else res.1 := by
  have hn : ∀ d : Dict, Unique d → (update [] d = [] ↔ d = []) := by
    intro d hd
    rw [get_nil_iff, get_nil_iff d]
    constructor
    · intro hk k; rw [← update_nil_get d hd]; exact hk k
    · intro hk k; rw [update_nil_get d hd]; exact hk k
  unfold finish promote
  by_cases h1 : res.1 = K.ndarray
  · by_cases h2 : res.2 = []
    · refine ⟨(K.ndarray, []), by simp [h1, h2], by simp [h2], by simp [h1]⟩
    · refine ⟨(K.ndarraywrap, update [] res.2), by simp [h1, h2, K.distinct.symm], fun k => update_nil_get _ h k, ?_⟩
      simp [h1, hn _ h, h2]
  · exact ⟨(res.1, update [] res.2), by simp [h1], fun k => update_nil_get _ h k, by simp [h1]⟩

/-! ### Properties -/

/-- The attribute k of the output of an operator with the items attrout and an output of class c, for the input x: those of attrout, or those of the
input, except shape_global, and except the attributes of the class of the input that are not attributes of the class of the output. -/
def expected (K : Classes C) (items : Dict) (x : Arr C) (c : C) (k : Key) : Option Val :=
  match get items k with
  | some v => some v
  | none => if k = K.shapeGlobal ∨ (c ≠ x.1 ∧ K.classattr x.1 k = true ∧ K.classattr c k = false) then none else get x.2 k

/-- The attributes are those of a valid operator: the keys of the dictionary are unique. -/
def Op.Valid (o : Op C) : Prop :=
  match o.attrout with
  | .dict items => Unique items
  | .func f _ => ∀ d, Unique d → Unique (f d)

/-- **C94 (an operator).** For all classes and attributes of the input: the output of an operator with a dictionary attrout (in a new array) has the class
classout, or the class of the input (an array with attributes is an ndarraywrap); its attributes are those of attrout, and the attributes of the input, without shape_global
and, if the class changes, without the attributes of the class of the input that are not attributes of the new class. -/
theorem C94_operator (K : Classes C) (o : Op C) (items : Dict) (ho : o.attrout = .dict items) (hi : Unique items) (x : Arr C) (hx : Unique x.2) :
    ∃ y, call K [o] x none = some y ∧ (∀ k, get y.2 k = expected K items x (o.classout.getD x.1) k) ∧
      y.1 = if o.classout.getD x.1 = K.ndarray ∧ y.2 ≠ [] then K.ndarraywrap else o.classout.getD x.1 := by
  obtain ⟨y, h1, h2, h3⟩ := finish_none K (propagate K o x.1 x.2) (by
    rw [propagate]
    simp only [ho, Attrout.apply]
    apply unique_update
    apply unique_del
    split
    · exact hx
    · split
      · exact hx
      · exact unique_del _ _ hx)
  refine ⟨y, h1, fun k => ?_, h3⟩
  rw [h2, propagate]
  simp only [ho, Attrout.apply, get_update, get_reverse items hi, get_del]
  unfold expected
  cases get items k with
  | some v => rfl
  | none =>
    simp only [Option.none_or, beq_iff_eq]
    by_cases hk : k = K.shapeGlobal
    · simp [hk]
    · simp only [hk, if_false, false_or]
      cases hc : o.classout with
      | none => simp
      | some c =>
        by_cases he : c = x.1
        · simp [he]
        · simp only [he, if_false, Option.getD_some, ne_eq, not_false_eq_true, true_and, get_del, Bool.and_eq_true, Bool.not_eq_true']

/-- Four classes: np.ndarray, ndarraywrap, and two classes with the attributes 1 and 2; the attribute 0 is shape_global. -/
def classes : Classes (Fin 4) := ⟨0, 1, fun c k => (c == 2 && k == 1) || (c == 3 && k == 2), 0, by decide⟩

/-- The attribute 1 of the class of the input, and shape_global, are removed; the attribute 5 is kept, the attribute 6 is added. -/
example : call classes [⟨some 3, .dict [(6, 60)]⟩] (2, [(0, 7), (1, 10), (5, 50)]) none = some (3, [(5, 50), (6, 60)]) ∧
    call classes [⟨none, .dict [(6, 60)]⟩] (0, []) none = some (1, [(6, 60)]) ∧ call classes [⟨none, .dict []⟩] (0, []) none = some (0, []) := by decide

theorem set_new (d : Dict) (k : Key) (v : Val) (h : k ∉ d.map (·.1)) : set d k v = d ++ [(k, v)] := by
  induction d with
  | nil => rfl
  | cons p d ih =>
    simp only [List.map_cons, List.mem_cons, not_or] at h
    rw [set, if_neg (by simpa using fun e => h.1 e.symm), ih h.2]
    rfl

theorem update_new (items d : Dict) (h : Unique (d ++ items)) : update d items = d ++ items := by
  induction items generalizing d with
  | nil => simp [update]
  | cons p items ih =>
    have hk : p.1 ∉ d.map (·.1) := by
      unfold Unique at h
      rw [List.map_append, List.nodup_append] at h
      intro hm
      exact h.2.2 p.1 hm p.1 (by simp) rfl
    rw [update, set_new d _ _ hk, ih _ (by simpa using h)]
    simp

theorem update_nil (d : Dict) (h : Unique d) : update [] d = d := by
  rw [update_new d [] (by simpa using h)]; rfl

theorem finish_none_eq (K : Classes C) (res : C × Dict) (h : Unique res.2) : finish K res none = some (promote K res) := by
  unfold finish promote
  by_cases h1 : res.1 = K.ndarray
  · by_cases h2 : res.2 = []
    · obtain ⟨c, d⟩ := res
      simp only at h1 h2
      subst h1 h2
      simp
    · simp [h1, h2, K.distinct.symm, update_nil _ h]
  · simp [h1, update_nil _ h]

theorem unique_propagate (K : Classes C) (o : Op C) (ho : o.Valid) (c : C) (d : Dict) (h : Unique d) : Unique (propagate K o c d).2 := by
  have h' : Unique (del (match o.classout with
      | none => d
      | some c' => if c' = c then d else del d fun a => K.classattr c a && !K.classattr c' a) fun a => a == K.shapeGlobal) := by
    apply unique_del
    split
    · exact h
    · split
      · exact h
      · exact unique_del _ _ h
  unfold Op.Valid at ho
  rw [propagate]
  simp only
  cases ha : o.attrout with
  | dict items => exact unique_update _ _ h'
  | func f g => rw [ha] at ho; exact ho _ h'

theorem propagateAll_cons (K : Classes C) (o : Op C) (ops : List (Op C)) (c : C) (d : Dict) :
    propagateAll K (o :: ops) c d = propagate K o (propagateAll K ops c d).1 (propagateAll K ops c d).2 := by
  simp [propagateAll]

theorem unique_propagateAll (K : Classes C) (ops : List (Op C)) (ho : ∀ o ∈ ops, o.Valid) (c : C) (d : Dict) (h : Unique d) :
    Unique (propagateAll K ops c d).2 := by
  induction ops with
  | nil => exact h
  | cons o ops ih =>
    rw [propagateAll_cons]
    exact unique_propagate K o (ho o (by simp)) _ _ (ih fun o' h' => ho o' (by simp [h']))

/-- **C94 (compositions).** The class and the attributes of `(A * B * C)(x)` are those of `A((B * C)(x))`, for all operators and inputs, if ndarraywrap adds
no attribute to np.ndarray.  Missing: an outer operator that removes all the attributes of the intermediate array (see `C94_composition_fails`). -/
theorem C94_composition_partial (K : Classes C) (hK : ∀ k, K.classattr K.ndarraywrap k = K.classattr K.ndarray k) (o : Op C) (ops : List (Op C))
    (ho : ∀ o' ∈ o :: ops, o'.Valid) (x : Arr C) (hx : Unique x.2) :
    ∃ y z, call K ops x none = some y ∧ call K (o :: ops) x none = some z ∧ (y.2 = [] ∨ z.2 ≠ [] → call K [o] y none = some z) := by
  have hu := unique_propagateAll K ops (fun o' h' => ho o' (by simp [h'])) x.1 x.2 hx
  generalize hs : propagateAll K ops x.1 x.2 = s at hu
  have hv : o.Valid := ho o (by simp)
  refine ⟨promote K s, promote K (propagate K o s.1 s.2), ?_, ?_, ?_⟩
  · rw [call, hs, finish_none_eq K s hu]
  · rw [call, propagateAll_cons, hs, finish_none_eq K _ (unique_propagate K o hv _ _ hu)]
  · intro h
    have hp : (promote K s).2 = s.2 := by unfold promote; split <;> rfl
    have hp2 : ∀ t : C × Dict, (promote K t).2 = t.2 := by intro t; unfold promote; split <;> rfl
    rw [hp, hp2] at h
    have e1 : propagateAll K [o] (promote K s).1 (promote K s).2 = propagate K o (promote K s).1 s.2 := by
      rw [← hp]; rfl
    rw [call, e1, finish_none_eq K _ (unique_propagate K o hv _ _ hu)]
    by_cases hc : s.1 = K.ndarray ∧ s.2 ≠ []
    · have hpr : (promote K s).1 = K.ndarraywrap := by unfold promote; rw [if_pos hc]
      have h2 : (propagate K o s.1 s.2).2 ≠ [] := h.resolve_left hc.2
      rw [hpr, hc.1]
      rw [hc.1] at h2
      have ed : (propagate K o K.ndarraywrap s.2).2 = (propagate K o K.ndarray s.2).2 := by
        rw [propagate, propagate]
        simp only
        congr 2
        cases o.classout with
        | none => rfl
        | some c =>
          simp only
          have none1 : ∀ (c c' : C), (∀ k, K.classattr c k = K.classattr c' k) → del s.2 (fun a => K.classattr c a && !K.classattr c' a) = s.2 := by
            intro c c' h
            unfold del
            rw [List.filter_eq_self]
            intro p _
            simp [h]
          by_cases c1 : c = K.ndarraywrap
          · rw [if_pos c1, c1, if_neg (Ne.symm K.distinct)]
            exact (none1 _ _ fun k => (hK k).symm).symm
          · rw [if_neg c1]
            by_cases c2 : c = K.ndarray
            · rw [if_pos c2, c2]
              exact none1 _ _ hK
            · rw [if_neg c2]
              congr 1
              funext a
              rw [hK]
      have e1 : propagate K o K.ndarraywrap s.2 = (o.classout.getD K.ndarraywrap, (propagate K o K.ndarray s.2).2) := Prod.ext rfl ed
      have e2 : propagate K o K.ndarray s.2 = (o.classout.getD K.ndarray, (propagate K o K.ndarray s.2).2) := Prod.ext rfl rfl
      rw [e1]
      rw [e2] at h2 ⊢
      simp only at h2 ⊢
      unfold promote
      cases o.classout with
      | none => simp [h2, K.distinct.symm]
      | some c => simp
    · have hpr : (promote K s).1 = s.1 := by unfold promote; rw [if_neg hc]
      rw [hpr]

example : call classes [⟨some 3, .dict [(6, 60)]⟩, ⟨none, .dict [(7, 70)]⟩] (0, []) none = some (3, [(7, 70), (6, 60)]) ∧
    call classes [⟨none, .dict [(7, 70)]⟩] (0, []) none = some (1, [(7, 70)]) ∧
    call classes [⟨some 3, .dict [(6, 60)]⟩] (1, [(7, 70)]) none = some (3, [(7, 70), (6, 60)]) := by decide

/-- **C94 (compositions, negation).** If the only attribute of the intermediate array is removed, the intermediate array is an ndarraywrap, and the output of the
composition is an ndarray but the one of the nested calls is an ndarraywrap. -/
theorem C94_composition_fails : ∃ (o1 o2 : Op (Fin 4)) (y : Arr (Fin 4)), call classes [o2] (0, []) none = some y ∧
    call classes [o1] y none ≠ call classes [o1, o2] (0, []) none :=
  ⟨⟨none, .dict []⟩, ⟨none, .dict [(0, 9)]⟩, (1, [(0, 9)]), by decide⟩

/-- **C94 (classes).** The class of the output of a composition is the classout of its outermost operand that specifies one, and the class of the input if none does. -/
theorem C94_class (K : Classes C) (ops : List (Op C)) (x : Arr C) :
    ((∀ o ∈ ops, o.classout = none) → (propagateAll K ops x.1 x.2).1 = x.1) ∧
      ∀ (l r : List (Op C)) (o : Op C) (c : C), ops = l ++ o :: r → (∀ o' ∈ l, o'.classout = none) → o.classout = some c →
        (propagateAll K ops x.1 x.2).1 = c := by
  have e : ∀ (o : Op C) (ops : List (Op C)), (propagateAll K (o :: ops) x.1 x.2).1 = o.classout.getD (propagateAll K ops x.1 x.2).1 := by
    intro o ops
    rw [propagateAll_cons]; rfl
  constructor
  · intro h
    induction ops with
    | nil => rfl
    | cons o ops ih =>
      rw [e, h o (by simp)]
      exact ih fun o' h' => h o' (by simp [h'])
  · intro l
    induction l generalizing ops with
    | nil =>
      rintro r o c rfl _ hc
      rw [List.nil_append, e, hc]; rfl
    | cons o' l ih =>
      rintro r o c rfl hl hc
      rw [List.cons_append, e, hl o' (by simp)]
      exact ih (l ++ o :: r) r o c rfl (fun o'' h'' => hl o'' (by simp [h''])) hc

example : (propagateAll classes [⟨none, .dict []⟩, ⟨some 3, .dict []⟩, ⟨some 2, .dict []⟩] 0 []).1 = 3 := by decide

theorem propagate_same (K : Classes C) (o : Op C) (c : C) (d : Dict) (h : o.classout = none ∨ o.classout = some c) :
    propagate K o c d = (c, o.attrout.apply (del d fun a => a == K.shapeGlobal)) := by
  unfold propagate
  rcases h with h | h <;> simp [h]

theorem merged_apply (o1 o2 : Op C) (h1 : o1.Valid) (h2 : o2.Valid) (d : Dict) (hd : Unique d) (k : Key) :
    get ((merge o1 o2).attrout.apply d) k = get (o1.attrout.apply (o2.attrout.apply d)) k ∧ Unique ((merge o1 o2).attrout.apply d) := by
  unfold Op.Valid at h1 h2
  cases e1 : o1.attrout with
  | dict i1 =>
    cases e2 : o2.attrout with
    | dict i2 =>
      rw [e1] at h1
      rw [e2] at h2
      simp only at h1 h2
      have hu : Unique (update (update [] i2) i1) := unique_update _ _ (unique_update _ _ (by simp [Unique]))
      have em : (merge o1 o2).attrout = .dict (update (update [] i2) i1) := by simp [merge, mergeAttr, e1, e2, Attrout.apply]
      rw [em]
      simp only [Attrout.apply]
      refine ⟨?_, unique_update _ _ hd⟩
      rw [get_update, get_reverse _ hu, get_update, get_update, get_reverse _ h1, get_reverse _ h2, get_update, get_update, get_reverse _ h1,
        get_reverse _ h2]
      simp [get, Option.or_assoc]
    | func f2 g2 =>
      rw [e2] at h2
      have em : (merge o1 o2).attrout.apply d = update (f2 d) i1 := by simp [merge, mergeAttr, e1, e2, Attrout.apply]
      rw [em]
      exact ⟨rfl, unique_update _ _ (h2 d hd)⟩
  | func f1 g1 =>
    rw [e1] at h1
    have em : (merge o1 o2).attrout.apply d = f1 (o2.attrout.apply d) := by
      cases e2 : o2.attrout with
      | dict i2 => simp [merge, mergeAttr, e1, e2, Attrout.apply]
      | func f2 g2 => simp [merge, mergeAttr, e1, e2, Attrout.apply]
    rw [em]
    refine ⟨rfl, h1 _ ?_⟩
    cases e2 : o2.attrout with
    | dict i2 => exact unique_update _ _ hd
    | func f2 g2 => rw [e2] at h2; exact h2 d hd

/-- **C94 (simplified compositions).** If neither operand changes the class, and the inner one does not set shape_global, the operator into which the composition of
two operators is simplified gives its output the same class and the same attributes as the composition.  Missing: changes of classes (see `C94_merged_fails`). -/
theorem C94_merged_partial (K : Classes C) (o1 o2 : Op C) (h1 : o1.Valid) (h2 : o2.Valid) (x : Arr C) (hx : Unique x.2)
    (c1 : o1.classout = none ∨ o1.classout = some x.1) (c2 : o2.classout = none ∨ o2.classout = some x.1)
    (hg : ∀ d, get d K.shapeGlobal = none → get (o2.attrout.apply d) K.shapeGlobal = none) :
    ∃ y z, call K [merge o1 o2] x none = some y ∧ call K [o1, o2] x none = some z ∧ y.1 = z.1 ∧ ∀ k, get y.2 k = get z.2 k := by
  have hd : Unique (del x.2 fun a => a == K.shapeGlobal) := unique_del _ _ hx
  have cm : (merge o1 o2).classout = none ∨ (merge o1 o2).classout = some x.1 := by
    unfold merge
    rcases c1 with c1 | c1 <;> rcases c2 with c2 | c2 <;> simp [c1, c2]
  have e1 : propagateAll K [merge o1 o2] x.1 x.2 = propagate K (merge o1 o2) x.1 x.2 := rfl
  have e2 : propagateAll K [o1, o2] x.1 x.2 = propagate K o1 (propagate K o2 x.1 x.2).1 (propagate K o2 x.1 x.2).2 := rfl
  have hm := fun k => merged_apply o1 o2 h1 h2 _ hd k
  have hu2 : Unique (propagate K o1 (propagate K o2 x.1 x.2).1 (propagate K o2 x.1 x.2).2).2 :=
    unique_propagate K o1 h1 _ _ (unique_propagate K o2 h2 _ _ hx)
  obtain ⟨y, y1, y2, y3⟩ := finish_none K (propagate K (merge o1 o2) x.1 x.2) (by rw [propagate_same K _ _ _ cm]; exact (hm 0).2)
  obtain ⟨z, z1, z2, z3⟩ := finish_none K _ hu2
  have hk : ∀ k, get y.2 k = get z.2 k := by
    intro k
    rw [y2, z2, propagate_same K _ _ _ cm, propagate_same K o2 _ _ c2]
    simp only
    rw [propagate_same K o1 _ _ c1]
    simp only
    rw [(hm k).1]
    have hs : del (o2.attrout.apply (del x.2 fun a => a == K.shapeGlobal)) (fun a => a == K.shapeGlobal) =
        o2.attrout.apply (del x.2 fun a => a == K.shapeGlobal) := by
      have hn := hg (del x.2 fun a => a == K.shapeGlobal) (by rw [get_del]; simp)
      unfold del
      rw [List.filter_eq_self]
      intro p hp
      rw [Bool.not_eq_true', beq_eq_false_iff_ne]
      intro he
      simp only [get, Option.map_eq_none_iff, List.find?_eq_none] at hn
      have := hn p hp
      simp [he] at this
    rw [hs]
  refine ⟨y, z, y1, z1, ?_, hk⟩
  have hc : (propagate K (merge o1 o2) x.1 x.2).1 = (propagate K o1 (propagate K o2 x.1 x.2).1 (propagate K o2 x.1 x.2).2).1 := by
    rw [propagate_same K _ _ _ cm, propagate_same K o2 _ _ c2]
    simp only
    rw [propagate_same K o1 _ _ c1]
  have hne : y.2 ≠ [] ↔ z.2 ≠ [] := by
    rw [not_iff_not, get_nil_iff, get_nil_iff]
    simp only [hk]
  rw [y3, z3, hc]
  simp only [hne]

example : call classes [merge ⟨none, .dict [(6, 61)]⟩ ⟨none, .dict [(6, 60), (7, 70)]⟩] (2, [(1, 10)]) none = some (2, [(1, 10), (6, 61), (7, 70)]) ∧
    call classes [⟨none, .dict [(6, 61)]⟩, ⟨none, .dict [(6, 60), (7, 70)]⟩] (2, [(1, 10)]) none = some (2, [(1, 10), (6, 61), (7, 70)]) := by decide

/-- **C94 (simplified compositions, classes).** For all operands, whether or not they change the class, the operator into which the composition is simplified specifies the same class of the output as the composition. -/
theorem C94_merged_class (K : Classes C) (o1 o2 : Op C) (x : Arr C) : (propagateAll K [merge o1 o2] x.1 x.2).1 = (propagateAll K [o1, o2] x.1 x.2).1 := by
  have e : ∀ (o : Op C) (ops : List (Op C)), (propagateAll K (o :: ops) x.1 x.2).1 = o.classout.getD (propagateAll K ops x.1 x.2).1 := by
    intro o ops
    rw [propagateAll_cons]; rfl
  rw [e, e, e]
  unfold merge
  cases h1 : o1.classout <;> simp [h1]

example : (propagateAll classes [merge ⟨some 2, .dict []⟩ ⟨some 3, .dict []⟩] 0 []).1 = 2 ∧ (propagateAll classes [merge ⟨none, .dict []⟩ ⟨some 3, .dict []⟩] 0 []).1 = 3 := by decide

/-- **C94 (simplified compositions, negation).** If the operands change the class to another one and back, the composition removes the attributes of the class, but the operator
into which it is simplified keeps them. -/
theorem C94_merged_fails : ∃ (o1 o2 : Op (Fin 4)) (x y z : Arr (Fin 4)), call classes [merge o1 o2] x none = some y ∧ call classes [o1, o2] x none = some z ∧
    get y.2 1 = some 10 ∧ get z.2 1 = none :=
  ⟨⟨some 2, .dict []⟩, ⟨some 3, .dict []⟩, (2, [(1, 10)]), (2, [(1, 10)]), (2, []), by decide⟩

/-- **C94 (sums, classes).** The classout of a sum is the one of the first operand that specifies one, and a sum of operators with the same attrout has this attrout.
Missing: operands with different attributes (see `C94_sum_fails`). -/
theorem C94_sum_partial (ops : List (Op C)) : (∀ (l r : List (Op C)) (o : Op C) (c : C), ops = l ++ o :: r → (∀ o' ∈ l, o'.classout = none) → o.classout = some c →
      (sum ops).classout = some c) ∧ ((∀ o ∈ ops, o.classout = none) → (sum ops).classout = none) ∧
    ∀ a, ops ≠ [] → (∀ o ∈ ops, o.attrout = a) → (sum ops).attrout = a := by
  refine ⟨?_, ?_, ?_⟩
  · rintro l r o c rfl hl hc
    have : (l.filterMap (·.classout)) = [] := by
      rw [List.filterMap_eq_nil_iff]
      exact hl
    simp [sum, this, hc]
  · intro h
    have : (ops.filterMap (·.classout)) = [] := by
      rw [List.filterMap_eq_nil_iff]
      exact h
    simp [sum, this]
  · intro a hne h
    cases ops with
    | nil => exact absurd rfl hne
    | cons o ops => simp [sum, h o (by simp)]

example : (sum [(⟨none, .dict []⟩ : Op (Fin 4)), ⟨some 3, .dict []⟩, ⟨some 2, .dict []⟩]).classout = some 3 := by decide

/-- **C94 (sums, negation).** The attribute attrout of an operator that specifies none is the empty dictionary, not None: the sum takes it from its first operand, and the
attributes that the others specify are lost; `A + B` and `B + A` have different attributes. -/
theorem C94_sum_fails : ∃ (o1 o2 : Op (Fin 4)) (x : Arr (Fin 4)), call classes [sum [o1, o2]] x none = some (0, []) ∧
    call classes [sum [o2, o1]] x none = some (1, [(6, 60)]) :=
  ⟨⟨none, .dict []⟩, ⟨none, .dict [(6, 60)]⟩, (0, []), by decide⟩

/-- **C94 (blocks).** If all the blocks specify the same class and attributes, the output of the block operator has the class and attributes that each block gives, and its
attribute classout is theirs.  Missing: blocks that specify different ones (see `C94_block_fails`). -/
theorem C94_block_partial (K : Classes C) (blocks : List (Op C)) (o : Op C) (hne : blocks ≠ []) (h : ∀ b ∈ blocks, b = o) (x : Arr C) :
    callBlock K blocks x = call K [o] x none ∧ (sum blocks).classout = o.classout := by
  cases blocks with
  | nil => exact absurd rfl hne
  | cons b blocks =>
    have hb := h b (by simp)
    subst hb
    refine ⟨rfl, ?_⟩
    cases hc : b.classout with
    | none => exact (C94_sum_partial _).2.1 (fun o' ho' => by rw [h o' ho', hc])
    | some c => exact (C94_sum_partial (b :: blocks)).1 [] blocks b c rfl (by simp) hc

example : callBlock classes [⟨some 3, .dict [(6, 60)]⟩, ⟨some 3, .dict [(6, 60)]⟩] (2, [(1, 10), (5, 50)]) = some (3, [(5, 50), (6, 60)]) := by decide

/-- **C94 (blocks, negation).** If only the second block specifies a class, the attribute classout of the block operator is this class (src/pyoperators/core.py:3167), but its
output has the class of the input. -/
theorem C94_block_fails : ∃ (blocks : List (Op (Fin 4))) (x y : Arr (Fin 4)), (sum blocks).classout = some 3 ∧ callBlock classes blocks x = some y ∧ y.1 ≠ 3 :=
  ⟨[⟨none, .dict []⟩, ⟨some 3, .dict []⟩], (0, []), (0, []), by decide⟩

/-- **C94 (argument out).** If the argument out is an ndarray, the array returned has the class and attributes of the call without it.  If it is of another class, and
the result is not an ndarray, then it has the class of the result, and its attributes if it had no others.  Missing: see the negations. -/
theorem C94_out_partial (K : Classes C) (ops : List (Op C)) (ho : ∀ o ∈ ops, o.Valid) (x : Arr C) (hx : Unique x.2) (out : Arr C) :
    ∃ y, call K ops x none = some y ∧ (out = (K.ndarray, []) → call K ops x (some out) = some y) ∧
      (out.1 ≠ K.ndarray → y.1 ≠ K.ndarray → (∀ k, get y.2 k = none → get out.2 k = none) →
        ∃ z, call K ops x (some out) = some z ∧ z.1 = y.1 ∧ ∀ k, get z.2 k = get y.2 k) := by
  have hu := unique_propagateAll K ops ho x.1 x.2 hx
  generalize hs : propagateAll K ops x.1 x.2 = s at hu
  refine ⟨promote K s, by rw [call, hs, finish_none_eq K s hu], ?_, ?_⟩
  · rintro rfl
    rw [call, hs, ← finish_none_eq K s hu]
    simp [finish]
  · intro h1 h2 h3
    have hp2 : (promote K s).2 = s.2 := by unfold promote; split <;> rfl
    refine ⟨((promote K s).1, update out.2 (promote K s).2), ?_, rfl, fun k => ?_⟩
    · rw [call, hs, finish]
      simp only [h1, h2, if_false]
      by_cases h : out.1 = (promote K s).1
      · simp [h]
      · simp [h]
    · simp only
      rw [get_update, hp2, get_reverse _ hu]
      have := h3 k
      rw [hp2] at this
      cases hk : get s.2 k with
      | some v => rfl
      | none => simp [this hk]

example : call classes [⟨none, .dict [(6, 60)]⟩] (2, [(5, 50)]) (some (3, [(6, 1)])) = some (2, [(6, 60), (5, 50)]) := by decide

/-- **C94 (in place, negation).** If the operator is applied in place, the attributes that should be removed stay: shape_global, and the attributes of the class. -/
theorem C94_inplace_fails : ∃ (o : Op (Fin 4)) (x y z : Arr (Fin 4)), call classes [o] x none = some y ∧ call classes [o] x (some x) = some z ∧ y.1 = z.1 ∧
    get y.2 0 = none ∧ get z.2 0 = some 9 ∧ get y.2 1 = none ∧ get z.2 1 = some 10 :=
  ⟨⟨some 3, .dict []⟩, (2, [(0, 9), (1, 10)]), (3, []), (3, [(0, 9), (1, 10)]), by decide⟩

/-- **C94 (class of the argument out, negation).** If the argument out is an instance of a subclass of ndarray and the input is an ndarray, the class of out is changed to
np.ndarray, which raises TypeError, although the result has been computed. -/
theorem C94_static_fails : ∃ (o : Op (Fin 4)) (x out : Arr (Fin 4)), (call classes [o] x none).isSome ∧ call classes [o] x (some out) = none :=
  ⟨⟨none, .dict []⟩, (0, []), (2, []), by decide⟩

/-- **C94 (functions, negation).** "If it is a function, it takes the input attributes and returns the output attributes": what the function returns is ignored. -/
theorem C94_function_fails : ∃ (f : Dict → Dict) (g : Dict → Option Dict), g [] = some [(6, 60)] ∧
    call classes [⟨none, .func f g⟩] (2, []) none = some (2, []) :=
  ⟨id, fun d => some (set d 6 60), by decide⟩

end Verif.Attributes
