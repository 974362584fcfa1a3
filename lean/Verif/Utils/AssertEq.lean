import Mathlib.Algebra.Order.Field.Rat
import Mathlib.Algebra.Order.AbsoluteValue.Basic
import Mathlib.Data.List.Forall2
import Mathlib.Tactic.Linarith
import Mathlib.Tactic.NormNum
import Mathlib.Tactic.Ring

/-!
Model of the comparison of nested objects in tests, src/pyoperators/utils/testing.py:110-168 (`assert_eq`), and property C114. An object is a number, a
string, an array, a list or a tuple, a dictionary, or an object that is equal to itself only. Not modelled: the sub-classes of arrays (117-127, see C108), infinite
and complex numbers, sets.
-/

namespace Verif.AssertEq

/-- A number, or NaN. -/
abbrev Num := Option ℚ

/-- The objects. An array has a shape and its elements in the row-major order; a dictionary has keys and values. -/
inductive Obj where
  | num (x : Num)
  | str (s : String)
  | other (id : Nat)
  | array (shape : List Nat) (data : List Num)
  | seq (tuple : Bool) (items : List Obj)
  | dict (keys : List String) (vals : List Obj)

/-- The element-wise test of `numpy.testing.assert_allclose`, with the default tolerances (1e-7, relative to the desired value) and equal_nan. -/
def close (a b : Num) : Bool :=
  match a, b with
  | some a, some b => decide (|a - b| ≤ 1 / 10 ^ 7 * |b|)
  | none, none => true
  | _, _ => false

/-- The elements of two arrays of the same shape. -/
def allClose : List Num → List Num → Bool
  | [], [] => true
  | a :: as, b :: bs => close a b && allClose as bs
  | _, _ => false

/-- `assert_allclose` of NumPy: the shapes are equal, or one of the arguments is a scalar. -/
def assertAllclose : List Nat × List Num → List Nat × List Num → Bool
  | (sa, da), (sb, db) =>
    if sa = sb then allClose da db
    else if sa = [] then db.all fun b => da.all fun a => close a b
    else if sb = [] then da.all fun a => db.all fun b => close a b
    else false

/-- The arrays of the same shape, stacked. -/
def stack : List (List Nat × List Num) → Option (List Nat × List Num)
  | [] => some ([0], [])
  | a :: l => if l.all (fun b => b.1 = a.1) then some ((l.length + 1) :: a.1, a.2 ++ (l.map Prod.snd).flatten) else none

mutual
/-- `np.asanyarray(x)`: numbers, arrays, and nested lists of them that are regular. `none`: the comparison raises an exception. -/
def toArray : Obj → Option (List Nat × List Num)
  | .num x => some ([], [x])
  | .array shape data => some (shape, data)
  | .seq _ items => (toArrays items).bind stack
  | _ => none
def toArrays : List Obj → Option (List (List Nat × List Num))
  | [] => some []
  | o :: os => do
    let a ← toArray o
    let l ← toArrays os
    some (a :: l)
end

/-- `assert_allclose(a, b)`. -/
def assertArrays (a b : Obj) : Bool :=
  match toArray a, toArray b with
  | some x, some y => assertAllclose x y
  | _, _ => false

/-- `d[k]`. -/
def get : List String → List Obj → String → Option Obj
  | k :: ks, v :: vs, q => if k = q then some v else get ks vs q
  | _, _, _ => none

/-- The keys of a dictionary, as objects. -/
def keyObjects (keys : List String) : List Obj := keys.map Obj.str

mutual
/-- `assert_eq(a, b)`: src/pyoperators/utils/testing.py:110-168. True: no exception is raised. A list and a dictionary are both containers (153-162): the
iteration over a dictionary gives its keys. -/
def assertEq : Obj → Obj → Bool
  | .num x, .num y => close x y
  | .num x, .array s d => assertAllclose ([], [x]) (s, d)
  | .array s d, .num y => assertAllclose (s, d) ([], [y])
  | .array s d, .array s' d' => assertAllclose (s, d) (s', d')
  | .array s d, .seq t items => assertArrays (.array s d) (.seq t items)
  | .seq t items, .array s d => assertArrays (.seq t items) (.array s d)
  | .dict ka va, .dict kb vb => (ka.all fun k => kb.contains k) && (kb.all fun k => ka.contains k) && assertDict ka va kb vb
  | .seq _ a, .seq _ b => a.length == b.length && assertAll a b
  | .seq _ a, .dict kb _ => a.length == kb.length && assertAll a (keyObjects kb)
  | .dict ka _, .seq _ b => ka.length == b.length && assertStrings ka b
  | .str s, .str s' => s == s'
  | .other i, .other j => i == j
  | _, _ => false
def assertAll : List Obj → List Obj → Bool
  | a :: as, b :: bs => assertEq a b && assertAll as bs
  | _, _ => true
def assertDict : List String → List Obj → List String → List Obj → Bool
  | k :: ks, v :: vs, kb, vb =>
    (match get kb vb k with
      | some w => assertEq v w
      | none => false) && assertDict ks vs kb vb
  | _, _, _, _ => true
/-- The comparison of the keys of a dictionary with the elements of a list: strings are equal to strings only. -/
def assertStrings : List String → List Obj → Bool
  | k :: ks, .str s :: bs => k == s && assertStrings ks bs
  | _ :: _, _ :: _ => false
  | _, _ => true
end

/-! ### The property -/

/-- A step inside an object. -/
inductive Step where
  | idx (i : Nat)
  | key (k : String)

/-- What is found after one step. -/
def child : Obj → Step → Option Obj
  | .seq _ items, .idx i => items[i]?
  | .dict ks vs, .key k => get ks vs k
  | .array (n :: sh) data, .idx i => if i < n then some (.array sh ((data.drop (i * sh.prod)).take sh.prod)) else none
  | _, _ => none

/-- What is found at some place of an object. -/
def sub : Obj → List Step → Option Obj
  | o, [] => some o
  | o, s :: p => (child o s).bind fun c => sub c p

/-- The numbers, the strings and the other objects. -/
inductive Leaf where
  | num (x : Num)
  | str (s : String)
  | other (id : Nat)

/-- An object that is not made of other ones; an array without dimensions is a number. -/
def leaf : Obj → Option Leaf
  | .num x => some (.num x)
  | .array [] [x] => some (.num x)
  | .str s => some (.str s)
  | .other i => some (.other i)
  | _ => none

/-- What is read at some place: a[0][2], d['key'][1], ... -/
def look (o : Obj) (p : List Step) : Option Leaf := (sub o p).bind leaf

/-- Two numbers within the relative tolerance of 1e-7, two NaN, or the same string or object. -/
def Leaf.Same : Option Leaf → Option Leaf → Prop
  | some (.num (some x)), some (.num (some y)) => |x - y| ≤ 1 / 10 ^ 7 * |y|
  | some (.num none), some (.num none) => True
  | some (.str s), some (.str t) => s = t
  | some (.other i), some (.other j) => i = j
  | none, none => True
  | _, _ => False

/-- The arrays have as many elements as their shapes tell, the dictionaries as many values as keys, all different. -/
def Obj.WellFormed (o : Obj) : Prop :=
  (∀ p sh data, sub o p = some (.array sh data) → data.length = sh.prod) ∧
  ∀ p ks vs, sub o p = some (.dict ks vs) → ks.length = vs.length ∧ ks.Nodup

/-- A scalar: a number or an array without dimensions. -/
def Obj.scalar : Obj → Bool
  | .num _ => true
  | .array [] _ => true
  | _ => false

/-- An array or a sequence with dimensions. -/
def Obj.extended : Obj → Bool
  | .array (_ :: _) _ => true
  | _ => false

/-- A scalar and an array, or a dictionary and a sequence, at the same place. -/
def mismatch : Obj → Obj → Bool
  | .dict _ _, .seq _ _ => true
  | .seq _ _, .dict _ _ => true
  | .array [] _, .seq _ _ => true
  | .seq _ _, .array [] _ => true
  | a, b => a.scalar && b.extended || a.extended && b.scalar

/-- The two objects have no such mismatch. -/
def Matching (a b : Obj) : Prop := ∀ p x y, sub a p = some x → sub b p = some y → mismatch x y = false

theorem sub_child {o c : Obj} {s : Step} (h : child o s = some c) (p : List Step) : sub o (s :: p) = sub c p := by simp [sub, h]

theorem WellFormed.child {o c : Obj} {s : Step} (h : o.WellFormed) (hc : child o s = some c) : c.WellFormed :=
  ⟨fun p sh data hp => h.1 (s :: p) sh data (by rw [sub_child hc]; exact hp), fun p ks vs hp => h.2 (s :: p) ks vs (by rw [sub_child hc]; exact hp)⟩

theorem Matching.child {a b c d : Obj} {s : Step} (h : Matching a b) (hc : child a s = some c) (hd : AssertEq.child b s = some d) : Matching c d :=
  fun p x y hx hy => h (s :: p) x y (by rw [sub_child hc]; exact hx) (by rw [sub_child hd]; exact hy)

theorem look_cons (o : Obj) (s : Step) (p : List Step) : look o (s :: p) = (child o s).bind fun c => look c p := by
  unfold look
  rw [sub]
  cases child o s <;> rfl

theorem same_none : Leaf.Same none none := trivial

theorem close_same {x y : Num} (h : close x y = true) : Leaf.Same (some (.num x)) (some (.num y)) := by
  cases x <;> cases y <;> simp_all [close, Leaf.Same]

theorem allClose_slice {a b : List Num} (h : allClose a b = true) (i n : Nat) : allClose ((a.drop i).take n) ((b.drop i).take n) = true := by
  have hd : ∀ i, allClose (a.drop i) (b.drop i) = true := by
    intro i
    induction i generalizing a b with
    | zero => simpa using h
    | succ i ih =>
      cases a <;> cases b <;> simp_all [allClose]
  have ht : ∀ (n : Nat) (a b : List Num), allClose a b = true → allClose (a.take n) (b.take n) = true := by
    intro n
    induction n with
    | zero => intro a b _; simp [allClose]
    | succ n ih =>
      intro a b h
      cases a <;> cases b <;> simp_all [allClose]
  exact ht n _ _ (hd i)

/-- Arrays of the same shape. -/
theorem array_same (sh : List Nat) (a b : List Num) (h : allClose a b = true) (p : List Step) :
    Leaf.Same (look (.array sh a) p) (look (.array sh b) p) := by
  induction p generalizing sh a b with
  | nil =>
    unfold look
    simp only [sub, Option.bind_some]
    rcases sh with _ | ⟨n, sh⟩
    · rcases a with _ | ⟨x, _ | ⟨x', a⟩⟩ <;> rcases b with _ | ⟨y, _ | ⟨y', b⟩⟩ <;> simp [allClose] at h <;> simp [leaf, same_none]
      exact close_same h
    · simp [leaf, same_none]
  | cons s p ih =>
    rw [look_cons, look_cons]
    rcases sh with _ | ⟨n, sh⟩
    · simp [child, same_none]
    · rcases s with i | k
      · simp only [child]
        split
        · exact ih sh _ _ (allClose_slice h _ _)
        · exact same_none
      · simp [child, same_none]

theorem flatten_slice (m : Nat) (ds : List (List Num)) (h : ∀ d ∈ ds, d.length = m) (i : Nat) (d : List Num) (hi : ds[i]? = some d) :
    (ds.flatten.drop (i * m)).take m = d := by
  induction ds generalizing i with
  | nil => simp at hi
  | cons e ds ih =>
    have he : e.length = m := h e (by simp)
    cases i with
    | zero =>
      simp only [List.getElem?_cons_zero, Option.some.injEq] at hi
      subst hi
      simp [← he]
    | succ i =>
      simp only [List.getElem?_cons_succ] at hi
      rw [List.flatten_cons, show (i + 1) * m = e.length + i * m by rw [he]; ring, List.drop_append]
      simp only [Nat.add_sub_cancel_left]
      rw [List.drop_eq_nil_of_le (by omega), List.nil_append]
      exact ih (fun d hd => h d (by simp [hd])) i hi

theorem flatten_length (m : Nat) (ds : List (List Num)) (h : ∀ d ∈ ds, d.length = m) : ds.flatten.length = ds.length * m := by
  induction ds with
  | nil => simp
  | cons e ds ih =>
    rw [List.flatten_cons, List.length_append, ih fun d hd => h d (by simp [hd]), h e (by simp), List.length_cons]
    ring

/-- The array has the elements of the object. -/
def Represents (o : Obj) (x : List Nat × List Num) : Prop := x.2.length = x.1.prod ∧ ∀ p, look o p = look (.array x.1 x.2) p

theorem stack_represents (t : Bool) (items : List Obj) (l : List (List Nat × List Num)) (x : List Nat × List Num)
    (h : List.Forall₂ Represents items l) (hs : stack l = some x) : Represents (.seq t items) x ∧ x.1 ≠ [] := by
  rcases l with _ | ⟨a, l⟩
  · cases h
    simp only [stack, Option.some.injEq] at hs
    subst hs
    refine ⟨⟨rfl, fun p => ?_⟩, by simp⟩
    rcases p with _ | ⟨s, p⟩
    · rfl
    · rw [look_cons, look_cons]
      rcases s with i | k <;> simp [child]
  · simp only [stack] at hs
    split at hs
    · rename_i hall
      simp only [Option.some.injEq] at hs
      subst hs
      have hsh : ∀ b ∈ a :: l, b.1 = a.1 := by
        intro b hb
        rcases List.mem_cons.1 hb with rfl | hb
        · rfl
        · simpa using List.all_eq_true.1 hall b hb
      have hlen : items.length = l.length + 1 := by simpa using h.length_eq
      have hrep : ∀ (i : Nat) (b : List Nat × List Num), (a :: l)[i]? = some b → ∃ o, items[i]? = some o ∧ Represents o b := by
        intro i b hb
        obtain ⟨hi, hb'⟩ := List.getElem?_eq_some_iff.1 hb
        have hi' : i < items.length := by rw [h.length_eq]; exact hi
        refine ⟨items[i], List.getElem?_eq_getElem hi', ?_⟩
        have := List.Forall₂.get h hi' hi
        simp only [List.get_eq_getElem] at this
        rw [hb'] at this
        exact this
      have hds : ∀ d ∈ (a :: l).map Prod.snd, d.length = a.1.prod := by
        intro d hd
        obtain ⟨b, hb, rfl⟩ := List.mem_map.1 hd
        obtain ⟨i, hi⟩ := List.getElem?_of_mem hb
        obtain ⟨o, _, ho⟩ := hrep i b hi
        rw [ho.1, hsh b hb]
      have hdata : a.2 ++ (l.map Prod.snd).flatten = ((a :: l).map Prod.snd).flatten := by simp
      refine ⟨⟨?_, fun p => ?_⟩, by simp⟩
      · dsimp only
        rw [hdata, flatten_length _ _ hds]
        simp
      · rcases p with _ | ⟨s, p⟩
        · rfl
        · rw [look_cons, look_cons]
          rcases s with i | k
          · simp only [child]
            split
            · rename_i hi
              have hil : i < (a :: l).length := by simpa using hi
              obtain ⟨o, ho, hr⟩ := hrep i _ (List.getElem?_eq_getElem hil)
              rw [ho, hdata, flatten_slice _ _ hds i (((a :: l)[i]).2) (by rw [List.getElem?_map, List.getElem?_eq_getElem hil]; rfl)]
              simp only [Option.bind_some]
              rw [hr.2 p, hsh _ (List.getElem_mem hil)]
            · rename_i hi
              rw [List.getElem?_eq_none (by omega)]
          · simp [child]
    · cases hs

mutual
theorem toArray_represents : ∀ (o : Obj) (x : List Nat × List Num), o.WellFormed → toArray o = some x → Represents o x
  | .num y, x, _, h => by
    simp only [toArray, Option.some.injEq] at h
    subst h
    refine ⟨rfl, fun p => ?_⟩
    rcases p with _ | ⟨s, p⟩
    · rfl
    · rw [look_cons, look_cons]; rfl
  | .array sh d, x, hw, h => by
    simp only [toArray, Option.some.injEq] at h
    subst h
    exact ⟨hw.1 [] sh d rfl, fun _ => rfl⟩
  | .seq t items, x, hw, h => by
    simp only [toArray] at h
    cases hl : toArrays items with
    | none => rw [hl] at h; cases h
    | some l =>
      rw [hl] at h
      refine (stack_represents t items l x (toArrays_represents items l (fun o ho => ?_) hl) h).1
      obtain ⟨i, hi⟩ := List.getElem?_of_mem ho
      exact WellFormed.child (s := .idx i) hw hi
  | .str _, _, _, h => by simp [toArray] at h
  | .other _, _, _, h => by simp [toArray] at h
  | .dict _ _, _, _, h => by simp [toArray] at h
theorem toArrays_represents : ∀ (os : List Obj) (l : List (List Nat × List Num)), (∀ o ∈ os, o.WellFormed) → toArrays os = some l →
    List.Forall₂ Represents os l
  | [], l, _, h => by
    simp only [toArrays, Option.some.injEq] at h
    subst h
    exact .nil
  | o :: os, l, hw, h => by
    simp only [toArrays, Option.bind_eq_bind, Option.bind_eq_some_iff, Option.some.injEq] at h
    obtain ⟨a, ha, l', hl, rfl⟩ := h
    exact .cons (toArray_represents o a (hw o (by simp)) ha) (toArrays_represents os l' (fun o ho => hw o (by simp [ho])) hl)
end

theorem toArray_seq_shape {t : Bool} {items : List Obj} {x : List Nat × List Num} (h : toArray (.seq t items) = some x) : x.1 ≠ [] := by
  simp only [toArray, Option.bind_eq_some_iff] at h
  obtain ⟨l, _, hs⟩ := h
  rcases l with _ | ⟨a, l⟩
  · simp only [stack, Option.some.injEq] at hs
    rw [← hs]
    simp
  · simp only [stack] at hs
    split at hs
    · simp only [Option.some.injEq] at hs
      rw [← hs]
      simp
    · cases hs

theorem get_mem {ks : List String} {vs : List Obj} {k : String} {v : Obj} (h : get ks vs k = some v) : k ∈ ks := by
  induction ks generalizing vs with
  | nil => simp [get] at h
  | cons q ks ih =>
    cases vs with
    | nil => simp [get] at h
    | cons w vs =>
      simp only [get] at h
      split at h
      · rename_i e; simp [e]
      · exact List.mem_cons_of_mem _ (ih h)

theorem get_of_mem {ks : List String} {vs : List Obj} {k : String} (hl : ks.length = vs.length) (h : k ∈ ks) : ∃ v, get ks vs k = some v := by
  induction ks generalizing vs with
  | nil => cases h
  | cons q ks ih =>
    cases vs with
    | nil => simp at hl
    | cons w vs =>
      simp only [get]
      split
      · exact ⟨w, rfl⟩
      · rename_i e
        rcases List.mem_cons.1 h with rfl | h
        · exact absurd rfl e
        · exact ih (by simpa using hl) h

/-- Two objects look the same, if they are well formed and match. -/
def Sound (a b : Obj) : Prop := a.WellFormed → b.WellFormed → Matching a b → ∀ p, Leaf.Same (look a p) (look b p)

theorem allclose_same {sa sb : List Nat} {da db : List Num} (h : assertAllclose (sa, da) (sb, db) = true) (hs : sa = [] ↔ sb = []) (p : List Step) :
    Leaf.Same (look (.array sa da) p) (look (.array sb db) p) := by
  simp only [assertAllclose] at h
  split at h
  · rename_i e
    subst e
    exact array_same _ _ _ h p
  · rename_i e
    split at h
    · rename_i e1
      exact absurd (e1.trans (hs.1 e1).symm) e
    · split at h
      · rename_i e2
        exact absurd ((hs.2 e2).trans e2.symm) e
      · cases h

theorem look_num (x : Num) (p : List Step) : look (.num x) p = look (.array [] [x]) p := by
  rcases p with _ | ⟨s, p⟩
  · rfl
  · rw [look_cons, look_cons]; rfl

theorem arrays_sound {a b : Obj} (h : assertArrays a b = true) (hs : ∀ x y, toArray a = some x → toArray b = some y → (x.1 = [] ↔ y.1 = []))
    (ha : a.WellFormed) (hb : b.WellFormed) (p : List Step) : Leaf.Same (look a p) (look b p) := by
  unfold assertArrays at h
  cases hx : toArray a with
  | none => rw [hx] at h; cases h
  | some x =>
    cases hy : toArray b with
    | none => rw [hx, hy] at h; cases h
    | some y =>
      rw [hx, hy] at h
      rw [(toArray_represents a x ha hx).2, (toArray_represents b y hb hy).2]
      exact allclose_same h (hs x y hx hy) p

mutual
theorem assertEq_sound : ∀ a b : Obj, assertEq a b = true → Sound a b
  | .num x, b, h => by
    intro ha hb hm p
    have h0 := hm [] _ _ rfl rfl
    cases b with
    | num y =>
      rw [look_num x, look_num y]
      exact array_same [] [x] [y] (by simpa [allClose, assertEq] using h) p
    | array s d =>
      rw [look_num x]
      refine allclose_same (by simpa [assertEq] using h) ⟨fun _ => ?_, fun _ => rfl⟩ p
      cases s with
      | nil => rfl
      | cons n s => simp [mismatch, Obj.scalar, Obj.extended] at h0
    | _ => simp [assertEq] at h
  | .array s d, b, h => by
    intro ha hb hm p
    have h0 := hm [] _ _ rfl rfl
    cases b with
    | num y =>
      rw [look_num y]
      refine allclose_same (by simpa [assertEq] using h) ⟨fun _ => rfl, fun _ => ?_⟩ p
      cases s with
      | nil => rfl
      | cons n s => simp [mismatch, Obj.scalar, Obj.extended] at h0
    | array s' d' =>
      refine allclose_same (by simpa [assertEq] using h) ?_ p
      cases s <;> cases s' <;> simp_all [mismatch, Obj.scalar, Obj.extended]
    | seq t items =>
      refine arrays_sound (by simpa [assertEq] using h) (fun x y hx hy => ?_) ha hb p
      simp only [toArray, Option.some.injEq] at hx
      subst hx
      refine ⟨fun e => ?_, fun e => absurd e (toArray_seq_shape hy)⟩
      simp only at e
      subst e
      simp [mismatch] at h0
    | _ => simp [assertEq] at h
  | .seq t items, b, h => by
    intro ha hb hm p
    have h0 := hm [] _ _ rfl rfl
    cases b with
    | array s d =>
      refine arrays_sound (by simpa [assertEq] using h) (fun x y hx hy => ?_) ha hb p
      simp only [toArray, Option.some.injEq] at hy
      subst hy
      refine ⟨fun e => absurd e (toArray_seq_shape hx), fun e => ?_⟩
      simp only at e
      subst e
      simp [mismatch] at h0
    | seq t' items' =>
      simp only [assertEq, Bool.and_eq_true, beq_iff_eq] at h
      rcases p with _ | ⟨s, p⟩
      · exact same_none
      · rw [look_cons, look_cons]
        rcases s with i | k
        · simp only [child]
          rcases Nat.lt_or_ge i items.length with hi | hi
          · have e1 := List.getElem?_eq_getElem hi
            have e2 := List.getElem?_eq_getElem (h.1 ▸ hi : i < items'.length)
            rw [e1, e2]
            exact assertAll_sound items items' h.2 i _ _ e1 e2 (WellFormed.child (s := .idx i) ha e1) (WellFormed.child (s := .idx i) hb e2)
              (Matching.child (s := .idx i) hm e1 e2) p
          · rw [List.getElem?_eq_none hi, List.getElem?_eq_none (by omega)]
            exact same_none
        · exact same_none
    | dict ks vs => simp [mismatch] at h0
    | _ => simp [assertEq] at h
  | .dict ka va, b, h => by
    intro ha hb hm p
    have h0 := hm [] _ _ rfl rfl
    cases b with
    | seq t items => simp [mismatch] at h0
    | dict kb vb =>
      simp only [assertEq, Bool.and_eq_true] at h
      obtain ⟨⟨h1, h2⟩, h3⟩ := h
      rcases p with _ | ⟨s, p⟩
      · exact same_none
      · rw [look_cons, look_cons]
        rcases s with i | k
        · exact same_none
        · simp only [child]
          cases hv : get ka va k with
          | some v =>
            obtain ⟨w, hw, hs⟩ := assertDict_sound ka va kb vb h3 k v hv
            rw [hw]
            exact hs (WellFormed.child (s := .key k) ha hv) (WellFormed.child (s := .key k) hb hw) (Matching.child (s := .key k) hm hv hw) p
          | none =>
            cases hw : get kb vb k with
            | none => exact same_none
            | some w =>
              have hk := List.all_eq_true.1 h2 k (get_mem hw)
              obtain ⟨v, hv'⟩ := get_of_mem (ha.2 [] ka va rfl).1 (by simpa using hk)
              rw [hv] at hv'
              cases hv'
    | _ => simp [assertEq] at h
  | .str s, b, h => by
    intro _ _ _ p
    cases b with
    | str s' =>
      simp only [assertEq, beq_iff_eq] at h
      subst h
      rcases p with _ | ⟨q, p⟩
      · exact rfl
      · rw [look_cons]; exact same_none
    | _ => simp [assertEq] at h
  | .other i, b, h => by
    intro _ _ _ p
    cases b with
    | other j =>
      simp only [assertEq, beq_iff_eq] at h
      subst h
      rcases p with _ | ⟨q, p⟩
      · exact rfl
      · rw [look_cons]; exact same_none
    | _ => simp [assertEq] at h
theorem assertAll_sound : ∀ as bs : List Obj, assertAll as bs = true → ∀ (i : Nat) a b, as[i]? = some a → bs[i]? = some b → Sound a b
  | [], _, _, i, a, b, ha, _ => by simp at ha
  | _ :: _, [], _, i, a, b, _, hb => by simp at hb
  | a' :: as, b' :: bs, h, i, a, b, ha, hb => by
    simp only [assertAll, Bool.and_eq_true] at h
    cases i with
    | zero =>
      simp only [List.getElem?_cons_zero, Option.some.injEq] at ha hb
      rw [← ha, ← hb]
      exact assertEq_sound a' b' h.1
    | succ i => exact assertAll_sound as bs h.2 i a b (by simpa using ha) (by simpa using hb)
theorem assertDict_sound : ∀ (ks : List String) (vs : List Obj) (kb : List String) (vb : List Obj), assertDict ks vs kb vb = true →
    ∀ k v, get ks vs k = some v → ∃ w, get kb vb k = some w ∧ Sound v w
  | [], _, _, _, _, k, v, hv => by simp [get] at hv
  | _ :: _, [], _, _, _, k, v, hv => by simp [get] at hv
  | q :: ks, u :: vs, kb, vb, h, k, v, hv => by
    simp only [assertDict, Bool.and_eq_true] at h
    simp only [get] at hv
    split at hv
    · rename_i e
      subst e
      simp only [Option.some.injEq] at hv
      rw [← hv]
      cases hw : get kb vb q with
      | none => rw [hw] at h; cases h.1
      | some w =>
        rw [hw] at h
        exact ⟨w, rfl, assertEq_sound u w h.1⟩
    · exact assertDict_sound ks vs kb vb h.2 k v hv
end

/-- C114, partial: if `assert_eq` raises no exception, the same is found at the same places of the two objects, at any depth: numbers within the
tolerance, equal strings, and nothing in one of them that is not in the other. Missing: objects with, at the same place, a scalar and an array or a sequence, or a
dictionary and a sequence (`C114_broadcast_fails`, `C114_dict_fails`). -/
theorem C114_sound_partial (a b : Obj) (ha : a.WellFormed) (hb : b.WellFormed) (hm : Matching a b) (h : assertEq a b = true) (p : List Step) :
    Leaf.Same (look a p) (look b p) := assertEq_sound a b h ha hb hm p

theorem allClose_refl (d : List Num) : allClose d d = true := by
  induction d with
  | nil => rfl
  | cons x d ih =>
    simp only [allClose, ih, Bool.and_true]
    cases x with
    | none => rfl
    | some x => simp [close]

mutual
theorem assertEq_refl : ∀ a : Obj, a.WellFormed → assertEq a a = true
  | .num x, _ => by
    have := allClose_refl [x]
    simpa [allClose, assertEq] using this
  | .array s d, _ => by simp [assertEq, assertAllclose, allClose_refl]
  | .str _, _ => by simp [assertEq]
  | .other _, _ => by simp [assertEq]
  | .seq t items, h => by
    simp only [assertEq, beq_self_eq_true, Bool.true_and]
    refine assertAll_refl items fun o ho => ?_
    obtain ⟨i, hi⟩ := List.getElem?_of_mem ho
    exact WellFormed.child (s := .idx i) h hi
  | .dict ks vs, h => by
    simp only [assertEq, Bool.and_eq_true]
    obtain ⟨hl, hn⟩ := h.2 [] ks vs rfl
    refine ⟨⟨by simp, by simp⟩, ?_⟩
    exact assertDict_refl ks vs ks vs (fun k v hv => WellFormed.child (s := .key k) h hv) hn hl fun k v hv => hv
theorem assertAll_refl : ∀ as : List Obj, (∀ o ∈ as, o.WellFormed) → assertAll as as = true
  | [], _ => rfl
  | a :: as, h => by
    simp only [assertAll, Bool.and_eq_true]
    exact ⟨assertEq_refl a (h a (by simp)), assertAll_refl as fun o ho => h o (by simp [ho])⟩
theorem assertDict_refl : ∀ (ks : List String) (vs : List Obj) (kb : List String) (vb : List Obj), (∀ k v, get ks vs k = some v → v.WellFormed) →
    ks.Nodup → ks.length = vs.length → (∀ k v, get ks vs k = some v → get kb vb k = some v) → assertDict ks vs kb vb = true
  | [], _, _, _, _, _, _, _ => by simp [assertDict]
  | _ :: _, [], _, _, _, _, _, _ => by simp [assertDict]
  | q :: ks, u :: vs, kb, vb, hw, hn, hl, hg => by
    have hq : get (q :: ks) (u :: vs) q = some u := by simp [get]
    simp only [assertDict, Bool.and_eq_true]
    rw [hg q u hq]
    have hne : ∀ k v, get ks vs k = some v → get (q :: ks) (u :: vs) k = some v := by
      intro k v hv
      have : q ≠ k := fun e => (List.nodup_cons.1 hn).1 (e ▸ get_mem hv)
      simp [get, this, hv]
    exact ⟨assertEq_refl u (hw q u hq), assertDict_refl ks vs kb vb (fun k v hv => hw k v (hne k v hv)) (List.nodup_cons.1 hn).2 (by simpa using hl)
      fun k v hv => hg k v (hne k v hv)⟩
end

/-- C114: an object, or a copy of it, is equal to itself, also with NaN. -/
theorem C114_reflexive (a : Obj) (ha : a.WellFormed) : assertEq a a = true := assertEq_refl a ha

/-! ### Where the code differs -/

/-- C114 fails: a dictionary is equal to the list of its keys, on both sides; its values are not compared. -/
theorem C114_dict_fails : assertEq (.dict ["a", "b"] [.num (some 1), .num (some 2)]) (.seq false [.str "a", .str "b"]) = true ∧
    assertEq (.seq false [.str "a", .str "b"]) (.dict ["a", "b"] [.num (some 1), .num (some 2)]) = true := by
  constructor <;> simp [assertEq, assertStrings, assertAll, keyObjects]

/-- C114 fails: an array is equal to a scalar if all its elements are, whatever its shape; an empty array is equal to all the scalars. -/
theorem C114_broadcast_fails : assertEq (.array [2, 1] [some 3, some 3]) (.num (some 3)) = true ∧
    assertEq (.array [0] []) (.num (some 5)) = true := by
  constructor <;> simp [assertEq, assertAllclose, close]

/-- C114 fails: the order of the arguments matters, as the tolerance is relative to the second one. -/
theorem C114_symmetric_fails : assertEq (.num (some 1)) (.num (some (1 + 1 / 10 ^ 7 + 1 / 10 ^ 15))) = true ∧
    assertEq (.num (some (1 + 1 / 10 ^ 7 + 1 / 10 ^ 15))) (.num (some 1)) = false := by
  constructor <;> simp only [assertEq, close] <;> decide +kernel

/-! ### Examples -/

/-- A nested list of numbers and an array. -/
def nested : Obj := .seq false [.seq true [.num (some 1), .num (some 2)], .array [2] [some 3, none]]
def matrix : Obj := .array [2, 2] [some 1, some 2, some 3, none]

example : assertEq nested matrix = true := by
  simp [nested, matrix, assertEq, assertArrays, toArray, toArrays, stack, assertAllclose, allClose, close]

/-- What is found at the places of a list of a number and of a string. -/
theorem sub_pair {t : Bool} {x : Num} {u : String} {p : List Step} {y : Obj} (h : sub (.seq t [.num x, .str u]) p = some y) :
    p = [] ∧ y = .seq t [.num x, .str u] ∨ p = [.idx 0] ∧ y = .num x ∨ p = [.idx 1] ∧ y = .str u := by
  rcases p with _ | ⟨s, p⟩
  · exact .inl ⟨rfl, by simpa [sub, eq_comm] using h⟩
  · rcases s with i | k
    · rcases i with _ | _ | i
      · rcases p with _ | ⟨q, p⟩
        · exact .inr (.inl ⟨rfl, by simpa [sub, child, eq_comm] using h⟩)
        · simp [sub, child] at h
      · rcases p with _ | ⟨q, p⟩
        · exact .inr (.inr ⟨rfl, by simpa [sub, child, eq_comm] using h⟩)
        · simp [sub, child] at h
      · simp [sub, child] at h
    · simp [sub, child] at h

/-- The hypotheses of C114_sound_partial hold for a list and a tuple. -/
example : Obj.WellFormed (.seq false [.num (some 1), .str "u"]) ∧
    Matching (.seq false [.num (some 1), .str "u"]) (.seq true [.num (some (1 + 1 / 10 ^ 8)), .str "u"]) ∧
    assertEq (.seq false [.num (some 1), .str "u"]) (.seq true [.num (some (1 + 1 / 10 ^ 8)), .str "u"]) = true := by
  refine ⟨⟨fun p sh d h => ?_, fun p ks vs h => ?_⟩, fun p x y hx hy => ?_, ?_⟩
  · rcases sub_pair h with ⟨_, e⟩ | ⟨_, e⟩ | ⟨_, e⟩ <;> cases e
  · rcases sub_pair h with ⟨_, e⟩ | ⟨_, e⟩ | ⟨_, e⟩ <;> cases e
  · rcases sub_pair hx with ⟨rfl, rfl⟩ | ⟨rfl, rfl⟩ | ⟨rfl, rfl⟩ <;> rcases sub_pair hy with ⟨e, rfl⟩ | ⟨e, rfl⟩ | ⟨e, rfl⟩ <;>
      first | rfl | (simp at e)
  · simp only [assertEq, assertAll, close]
    decide +kernel

example : assertEq (.dict ["x"] [nested]) (.dict ["x"] [matrix]) = true := by
  simp [nested, matrix, assertEq, assertDict, get, assertArrays, toArray, toArrays, stack, assertAllclose, allClose, close]

example : assertEq nested (.array [2, 2] [some 1, some 2, some 3, some 4]) = false := by
  simp [nested, assertEq, assertArrays, toArray, toArrays, stack, assertAllclose, allClose, close]

end Verif.AssertEq
