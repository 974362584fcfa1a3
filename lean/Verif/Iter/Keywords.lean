import Mathlib.Data.List.Sort
import Mathlib.Data.List.Lex
import Mathlib.Data.Char
import Mathlib.Data.Finset.Card
import Mathlib.Order.Interval.Finset.Nat
import Mathlib.Tactic.Cases

/-
Model of the keywords of the constructor of an iterative algorithm, which define the variables of the recursion, its order, the initial values and their data types:
src/pyoperators/iterative/core.py:289-303 (`_get_suffix`), 337-393 (`_set_initial_state`), 395-402 (`_set_order`) and 413-424 (`_set_variables`); and property C97.
-/

namespace Verif.Iter.Keywords

/-! ### Model -/

abbrev Name := List Char

def sNew : Name := ['_', 'n', 'e', 'w']
def sOld : Name := ['_', 'o', 'l', 'd']
def sDtype : Name := ['_', 'd', 't', 'y', 'p', 'e']

/-- `str(n)` -/
def str (n : Nat) : Name := Nat.toDigits 10 n

/-- The loop of `_set_order`: src/pyoperators/iterative/core.py:400-401.  It ends after at most as many steps as there are keywords (see `setOrder_spec`). -/
def orderLoop (keys : List Name) : Nat → Nat → Nat
  | 0, o => o
  | f + 1, o => if keys.any (fun k => (sOld ++ str o).isSuffixOf k) then orderLoop keys f (o + 1) else o

/-- `_set_order`: src/pyoperators/iterative/core.py:395-402. -/
def setOrder (keys : List Name) : Nat :=
  if keys.any (fun k => sOld.isSuffixOf k) then orderLoop keys keys.length 2 else 1

/-- `_get_suffix`: src/pyoperators/iterative/core.py:289-303. -/
def suffixes (inplace : Bool) (order : Nat) : List Name :=
  if inplace then [[]]
  else if order = 1 then [sNew, []]
  else if order = 2 then [sNew, []] ++ [sOld]
  else [sNew, []] ++ [sOld] ++ (List.range' 3 (order - 2)).map fun o => sOld ++ str (o - 1)

/-- The regular expression `(_old[0-9]*|_new|_dtype)$`: src/pyoperators/iterative/core.py:415. -/
def reservedSuffix (s : Name) : Bool :=
  (sOld.isPrefixOf s && (s.drop 4).all Char.isDigit) || s == sNew || s == sDtype

/-- `regex.match(k)`: src/pyoperators/iterative/core.py:415-416: the negative lookahead holds at all the positions of k. -/
def plain (k : Name) : Bool := !(k.tails.any reservedSuffix)

/-- `_set_variables`: src/pyoperators/iterative/core.py:413-424; `none` is ValueError.  The keywords of a dictionary are distinct, so that the conversion to a set changes their order only, which is lost in the sort. -/
def setVariables (inplace : Bool) (order : Nat) (keys : List Name) : Option (List Name) :=
  let vars := (keys.filter plain).insertionSort (· ≤ ·)
  if vars.any (fun v => (suffixes inplace order).any fun s => s != sNew && !(keys.contains (v ++ s))) then none else some vars

inductive Kind where
  | int
  | float
  | complex
deriving DecidableEq

structure Dtype where
  kind : Kind
  bits : Nat
deriving DecidableEq

/-- The values of the keywords: those of the variables (arrays or array-like objects, with the kind of their elements, their shape and an identifier of their contents) and data types. -/
inductive Arg where
  | array (kind : Kind) (shape : List Nat) (id : Nat)
  | dtype (d : Dtype)
deriving DecidableEq

/-- `np.dtype('complex' + str(2 * int(dtype.name[5:])))`: src/pyoperators/iterative/core.py:360; `none` is TypeError: there is no complex32. -/
def complexOf (d : Dtype) : Option Dtype := if d.bits = 16 then none else some ⟨.complex, 2 * d.bits⟩

/-- The promotion of the data type by the initial values of a variable: src/pyoperators/iterative/core.py:351-360. -/
def promote (fixed : Bool) : Dtype → List Kind → Option Dtype
  | d, [] => some d
  | d, k :: ks =>
    if !fixed && d.kind = .float && k = .complex then
      match complexOf d with
      | none => none
      | some d => promote fixed d ks
    else promote fixed d ks

/-- The entries of `info` and `_initial_state` of a variable. -/
structure Info where
  names : List Name
  shape : List Nat
  dtype : Dtype
  initial : List Arg
deriving DecidableEq

def Arg.kind : Arg → Kind
  | .array k _ _ => k
  | .dtype _ => .int

def Arg.shape : Arg → List Nat
  | .array _ s _ => s
  | .dtype _ => []

/-- One iteration of the loop over the variables of `_set_initial_state`: src/pyoperators/iterative/core.py:345-374, after `_set_variables`, so that the keywords exist; `none` is an exception. -/
def info (inplace : Bool) (order : Nat) (default : Dtype) (keys : List Name) (get : Name → Arg) (v : Name) : Option Info :=
  let names := (suffixes inplace order).map (v ++ ·)
  let initial := (names.drop (if inplace then 0 else 1)).map get
  let fixed := if v ++ sDtype ∈ keys then some (get (v ++ sDtype)) else none
  let start : Option Dtype :=
    match fixed with
    | none => some default
    | some (.dtype d) => some d
    | some (.array _ _ _) => none
  match start with
  | none => none
  | some d =>
    match promote fixed.isSome d (initial.map Arg.kind), initial.map Arg.shape with
    | some d, s :: ss => if ss.any (· != s) then none else some ⟨names, s, d, initial⟩
    | _, _ => none

/-- The constructor: src/pyoperators/iterative/core.py:144-146: the order, and for each variable the entries of `info`. -/
def create (inplace : Bool) (default : Dtype) (keys : List Name) (get : Name → Arg) : Option (Nat × List (Name × Info)) :=
  let order := setOrder keys
  match setVariables inplace order keys with
  | none => none
  | some vars => (vars.mapM fun v => (info inplace order default keys get v).map fun i => (v, i)).map fun l => (order, l)

/-- An initial value that is an array: its address and its number of bytes. -/
structure Buffer where
  address : Nat
  size : Nat
deriving DecidableEq

/-- The check of the buffers: src/pyoperators/iterative/core.py:377-393; `true` is ValueError.  An initial value that is not an array is `none`. -/
def duplicated (initial : List (Option Buffer)) : Bool :=
  let addresses := initial.map fun b => match b with | some b => b.address | none => 0
  addresses.any fun a => decide (addresses.count a > 1) && a != 0

/-! ### Specification -/

/-- The name of the value of a variable j steps before the current one. -/
def lag (v : Name) : Nat → Name
  | 0 => v
  | 1 => v ++ ['_', 'o', 'l', 'd']
  | j + 2 => v ++ ['_', 'o', 'l', 'd'] ++ Nat.toDigits 10 (j + 2)

/-- A name that does not end with one of the suffixes of the recursion. -/
def IsVariable (v : Name) : Prop :=
  (∀ p, v ≠ p ++ ['_', 'n', 'e', 'w']) ∧ (∀ p, v ≠ p ++ ['_', 'd', 't', 'y', 'p', 'e']) ∧ ∀ p ds, v = p ++ ['_', 'o', 'l', 'd'] ++ ds → ∃ c ∈ ds, c.isDigit = false

/-- The keywords, in any order, are those of a recursion of order n with some variables: their initial values, and the data types of some of them. -/
def IsRecursion (n : Nat) (vars typed : List Name) (keys : List Name) : Prop :=
  keys.Perm ((vars.flatMap fun v => (List.range n).map (lag v)) ++ typed.map (· ++ ['_', 'd', 't', 'y', 'p', 'e']))

/-! ### Proofs -/

theorem str_inj {m n : Nat} (h : str m = str n) : m = n := by
  have := congrArg (fun l => Nat.ofDigitChars 10 l 0) h
  simpa [str, Nat.ofDigitChars_ten_toDigits] using this

theorem str_digit {n : Nat} {c : Char} (h : c ∈ str n) : c.isDigit = true := Nat.isDigit_of_mem_toDigits (by decide) (by decide) h

/-- A list that ends with `_old` and digits does so in one way. -/
theorem old_unique {p p' d d' : Name} (hd : ∀ c ∈ d, c.isDigit = true) (hd' : ∀ c ∈ d', c.isDigit = true) (h : p ++ sOld ++ d = p' ++ sOld ++ d') : d = d' := by
  have key : ∀ {p p' d d' : Name}, (∀ c ∈ d', c.isDigit = true) → p ++ (sOld ++ d) = p' ++ (sOld ++ d') → d'.length ≥ d.length → d = d' := by
    intro p p' d d' hd' h hl
    rcases Nat.eq_or_lt_of_le hl with e | hlt
    · have := List.append_inj_right' h (by simp [e])
      exact List.append_cancel_left this
    · exfalso
      have hl2 : (p ++ (sOld ++ d)).length = (p' ++ (sOld ++ d')).length := by rw [h]
      simp only [List.length_append] at hl2
      -- the character '_' of the first decomposition is in `old ++ d'`, after its first character
      have hs : (p ++ (sOld ++ d)).drop p'.length = sOld ++ d' := by rw [h]; simp
      have hpl : p'.length < p.length := by omega
      have h3 : (p.drop p'.length) ++ (sOld ++ d) = sOld ++ d' := by
        rw [← hs, List.drop_append_of_le_length (by omega)]
      cases e1 : p.drop p'.length with
      | nil =>
        have := congrArg List.length e1
        simp at this; omega
      | cons c q =>
        rw [e1] at h3
        have h4 : q ++ (sOld ++ d) = ['o', 'l', 'd'] ++ d' := by
          have := congrArg List.tail h3
          simpa [sOld] using this
        have hm : '_' ∈ ['o', 'l', 'd'] ++ d' := by
          rw [← h4]
          simp [sOld]
        rw [List.mem_append] at hm
        rcases hm with hm | hm
        · revert hm; decide
        · have := hd' _ hm
          revert this; decide
  rw [List.append_assoc, List.append_assoc] at h
  rcases Nat.le_total d.length d'.length with hl | hl
  · exact key hd' h hl
  · exact (key hd h.symm hl).symm

/-- The keyword ends with `_old` and these digits. -/
theorem suffix_iff (d k : Name) : (sOld ++ d).isSuffixOf k = true ↔ ∃ p, k = p ++ sOld ++ d := by
  rw [List.isSuffixOf_iff_suffix]
  constructor
  · rintro ⟨p, e⟩; exact ⟨p, by rw [← e, List.append_assoc]⟩
  · rintro ⟨p, e⟩; exact ⟨p, by rw [e, List.append_assoc]⟩

def Ends (o : Nat) (k : Name) : Prop := if o = 1 then ∃ p, k = p ++ sOld else ∃ p, k = p ++ sOld ++ str o

theorem ends_unique {o o' : Nat} {k : Name} (h : Ends o k) (h' : Ends o' k) : o = o' := by
  unfold Ends at h h'
  split at h <;> split at h'
  · omega
  · obtain ⟨p, e⟩ := h
    obtain ⟨p', e'⟩ := h'
    have := old_unique (d := []) (d' := str o') (by simp) (fun c hc => str_digit hc) (by rw [List.append_nil, ← e, e'] : p ++ sOld ++ [] = p' ++ sOld ++ str o')
    exact absurd this.symm (by unfold str; exact Nat.toDigits_ne_nil)
  · obtain ⟨p, e⟩ := h
    obtain ⟨p', e'⟩ := h'
    have := old_unique (d := []) (d' := str o) (by simp) (fun c hc => str_digit hc) (by rw [List.append_nil, ← e', e] : p' ++ sOld ++ [] = p ++ sOld ++ str o)
    exact absurd this.symm (by unfold str; exact Nat.toDigits_ne_nil)
  · obtain ⟨p, e⟩ := h
    obtain ⟨p', e'⟩ := h'
    exact str_inj (old_unique (fun c hc => str_digit hc) (fun c hc => str_digit hc) (by rw [← e, e']))

theorem any_ends (keys : List Name) (o : Nat) (ho : o ≠ 1) : keys.any (fun k => (sOld ++ str o).isSuffixOf k) = true ↔ ∃ k ∈ keys, Ends o k := by
  rw [List.any_eq_true]
  refine exists_congr fun k => and_congr_right fun _ => ?_
  rw [suffix_iff]
  unfold Ends
  rw [if_neg ho]

theorem any_old (keys : List Name) : keys.any (fun k => sOld.isSuffixOf k) = true ↔ ∃ k ∈ keys, Ends 1 k := by
  rw [List.any_eq_true]
  refine exists_congr fun k => and_congr_right fun _ => ?_
  have := suffix_iff [] k
  simp only [List.append_nil] at this
  rw [this]
  unfold Ends
  rw [if_pos rfl]

theorem orderLoop_spec (keys : List Name) : ∀ (f o : Nat), 2 ≤ o → (∀ j, 1 ≤ j → j < o → ∃ k ∈ keys, Ends j k) →
    o ≤ orderLoop keys f o ∧ (∀ j, 1 ≤ j → j < orderLoop keys f o → ∃ k ∈ keys, Ends j k) ∧
    ((¬ ∃ k ∈ keys, Ends (orderLoop keys f o) k) ∨ orderLoop keys f o = o + f) := by
  intro f
  induction f with
  | zero => intro o ho h; exact ⟨Nat.le_refl _, h, Or.inr rfl⟩
  | succ f ih =>
    intro o ho h
    simp only [orderLoop]
    split
    · rename_i hc
      have hc := (any_ends keys o (by omega)).1 hc
      obtain ⟨h1, h2, h3⟩ := ih (o + 1) (by omega) (fun j hj hlt => by
        rcases Nat.eq_or_lt_of_le (Nat.le_of_lt_succ hlt) with e | e
        · rw [e]; exact hc
        · exact h j hj e)
      exact ⟨by omega, h2, h3.imp_right fun e => by omega⟩
    · rename_i hc
      exact ⟨Nat.le_refl _, h, Or.inl fun hx => hc ((any_ends keys o (by omega)).2 hx)⟩

/-- There are at most as many lags as keywords. -/
theorem lags_le (keys : List Name) (m : Nat) (h : ∀ j, 1 ≤ j → j ≤ m → ∃ k ∈ keys, Ends j k) : m ≤ keys.length := by
  classical
  have hcard : (Finset.Icc 1 m).card ≤ keys.toFinset.card := by
    refine Finset.card_le_card_of_injOn (fun j => if hj : 1 ≤ j ∧ j ≤ m then (h j hj.1 hj.2).choose else []) ?_ ?_
    · intro j hj
      have hj : 1 ≤ j ∧ j ≤ m := by simpa using hj
      simp only [hj, and_self, dite_true]
      have := (h j hj.1 hj.2).choose_spec.1
      simpa using this
    · intro j hj j' hj' e
      have hj : 1 ≤ j ∧ j ≤ m := by simpa using hj
      have hj' : 1 ≤ j' ∧ j' ≤ m := by simpa using hj'
      simp only [hj, hj', and_self, dite_true] at e
      have h1 := (h j hj.1 hj.2).choose_spec.2
      have h2 := (h j' hj'.1 hj'.2).choose_spec.2
      rw [← e] at h2
      exact ends_unique h1 h2
  rw [Nat.card_Icc] at hcard
  have := keys.toFinset_card_le
  omega

theorem setOrder_spec (keys : List Name) : 1 ≤ setOrder keys ∧ (∀ j, 1 ≤ j → j < setOrder keys → ∃ k ∈ keys, Ends j k) ∧ ¬ ∃ k ∈ keys, Ends (setOrder keys) k := by
  unfold setOrder
  split
  · rename_i h
    have h := (any_old keys).1 h
    obtain ⟨h1, h2, h3⟩ := orderLoop_spec keys keys.length 2 (by omega) (fun j hj hlt => by
      have : j = 1 := by omega
      rw [this]; exact h)
    refine ⟨by omega, h2, ?_⟩
    rcases h3 with h3 | h3
    · exact h3
    · intro hx
      have := lags_le keys (orderLoop keys keys.length 2) (fun j hj hle => by
        rcases Nat.eq_or_lt_of_le hle with e | e
        · rw [e]; exact hx
        · exact h2 j hj e)
      omega
  · rename_i h
    exact ⟨Nat.le_refl _, fun j hj hlt => by omega, fun hx => h ((any_old keys).2 hx)⟩

theorem ends_lag (v : Name) (j : Nat) (hj : 1 ≤ j) : Ends j (lag v j) := by
  match j, hj with
  | 1, _ => unfold Ends; rw [if_pos rfl]; exact ⟨v, rfl⟩
  | j + 2, _ => unfold Ends; rw [if_neg (by omega)]; exact ⟨v, rfl⟩

theorem variable_ends {v : Name} (h : IsVariable v) (j : Nat) : ¬ Ends j v := by
  unfold Ends
  split
  · rintro ⟨p, e⟩
    obtain ⟨c, hc, _⟩ := h.2.2 p [] (by rw [e, List.append_nil]; rfl)
    simp at hc
  · rintro ⟨p, e⟩
    obtain ⟨c, hc, hd⟩ := h.2.2 p (str j) e
    rw [str_digit hc] at hd
    cases hd

theorem dtype_ends (v : Name) (j : Nat) : ¬ Ends j (v ++ sDtype) := by
  unfold Ends
  split
  · rintro ⟨p, e⟩
    have := congrArg List.getLast? e
    simp [sDtype, sOld] at this
  · rintro ⟨p, e⟩
    have hl : (v ++ sDtype).getLast? = some 'e' := by simp [sDtype]
    rw [e, List.getLast?_append_of_ne_nil _ (by unfold str; exact Nat.toDigits_ne_nil)] at hl
    have := str_digit (List.mem_of_getLast? hl)
    revert this; decide

theorem plain_iff (k : Name) : plain k = true ↔ IsVariable k := by
  unfold plain IsVariable
  rw [Bool.not_eq_true', Bool.eq_false_iff, Ne, List.any_eq_true]
  constructor
  · intro h
    refine ⟨fun p e => h ⟨sNew, ?_, by decide⟩, fun p e => h ⟨sDtype, ?_, by decide⟩, fun p ds e => ?_⟩
    · rw [List.mem_tails]; exact ⟨p, e.symm⟩
    · rw [List.mem_tails]; exact ⟨p, e.symm⟩
    · by_contra hc
      refine h ⟨sOld ++ ds, ?_, ?_⟩
      · rw [List.mem_tails]; exact ⟨p, by rw [e, List.append_assoc]; rfl⟩
      · unfold reservedSuffix
        rw [Bool.or_eq_true, Bool.or_eq_true, Bool.and_eq_true]
        refine Or.inl (Or.inl ⟨by simp [List.isPrefixOf_iff_prefix], ?_⟩)
        have : (sOld ++ ds).drop 4 = ds := by simp [sOld]
        rw [this, List.all_eq_true]
        intro c hc'
        by_contra hx
        exact hc ⟨c, hc', by simpa using hx⟩
  · rintro ⟨h1, h2, h3⟩ ⟨s, hs, hr⟩
    rw [List.mem_tails] at hs
    obtain ⟨p, hs⟩ := hs
    unfold reservedSuffix at hr
    rw [Bool.or_eq_true, Bool.or_eq_true, Bool.and_eq_true] at hr
    rcases hr with (⟨hr, hd⟩ | hr) | hr
    · rw [List.isPrefixOf_iff_prefix] at hr
      obtain ⟨ds, e⟩ := hr
      have hdr : s.drop 4 = ds := by rw [← e]; simp [sOld]
      rw [hdr, List.all_eq_true] at hd
      obtain ⟨c, hc, hcd⟩ := h3 p ds (by rw [← hs, ← e, List.append_assoc]; rfl)
      rw [hd c hc] at hcd
      cases hcd
    · have hr : s = sNew := by simpa using hr
      exact h1 p (by rw [← hs, hr]; rfl)
    · have hr : s = sDtype := by simpa using hr
      exact h2 p (by rw [← hs, hr]; rfl)

theorem lag_not_variable (v : Name) (j : Nat) (hj : 1 ≤ j) : ¬ IsVariable (lag v j) := fun h => variable_ends h j (ends_lag v j hj)

theorem dtype_not_variable (v : Name) : ¬ IsVariable (v ++ sDtype) := fun h => h.2.1 v rfl

theorem suffixes_false (n : Nat) (hn : 1 ≤ n) : suffixes false n = sNew :: (List.range n).map (lag []) := by
  unfold suffixes
  simp only [Bool.false_eq_true, if_false]
  split
  · rename_i h; subst h; rfl
  · split
    · rename_i h; subst h; rfl
    · obtain ⟨m, rfl⟩ : ∃ m, n = m + 3 := ⟨n - 3, by omega⟩
      have : List.range (m + 3) = 0 :: 1 :: (List.range (m + 1)).map (· + 2) := by
        rw [show m + 3 = 2 + (m + 1) by omega, List.range_add]
        simp [List.range_succ, Nat.add_comm]
      rw [this]
      simp only [List.map_cons, List.map_map, List.cons_append, List.nil_append, lag, List.range'_eq_map_range, List.cons.injEq, true_and]
      refine ⟨rfl, ?_⟩
      rw [show m + 3 - 2 = m + 1 by omega]
      apply List.map_congr_left
      intro o _
      simp only [Function.comp, lag, List.nil_append, str]
      rw [show 3 + o - 1 = o + 2 by omega]
      rfl

theorem append_lag (v : Name) (j : Nat) : v ++ lag [] j = lag v j := by
  match j with
  | 0 => simp [lag]
  | 1 => simp [lag]
  | j + 2 => simp [lag]

theorem recursion_key {n : Nat} {vars typed keys : List Name} (h : IsRecursion n vars typed keys) (k : Name) :
    k ∈ keys ↔ (∃ v ∈ vars, ∃ j < n, k = lag v j) ∨ ∃ v ∈ typed, k = v ++ sDtype := by
  rw [h.mem_iff, List.mem_append, List.mem_flatMap, List.mem_map]
  refine or_congr (exists_congr fun v => and_congr_right fun _ => ?_) (exists_congr fun v => and_congr_right fun _ => eq_comm)
  rw [List.mem_map]
  refine exists_congr fun j => ?_
  rw [List.mem_range, eq_comm]

theorem setOrder_recursion {n : Nat} {vars typed keys : List Name} (h : IsRecursion n vars typed keys) (hn : 1 ≤ n) (hv : vars ≠ []) (hp : ∀ v ∈ vars, IsVariable v) :
    setOrder keys = n := by
  obtain ⟨h1, h2, h3⟩ := setOrder_spec keys
  have hkey : ∀ k ∈ keys, ∀ j, 1 ≤ j → Ends j k → j < n := by
    intro k hk j hj he
    rcases (recursion_key h k).1 hk with ⟨v, hv, i, hi, e⟩ | ⟨v, _, e⟩
    · rw [e] at he
      rcases Nat.eq_zero_or_pos i with e0 | e0
      · rw [e0] at he
        exact absurd he (variable_ends (hp v hv) j)
      · rw [ends_unique he (ends_lag v i e0)]
        exact hi
    · rw [e] at he
      exact absurd he (dtype_ends v j)
  obtain ⟨v, hv⟩ := List.exists_mem_of_ne_nil vars hv
  rcases Nat.lt_trichotomy (setOrder keys) n with hlt | e | hlt
  · exact absurd ⟨lag v (setOrder keys), (recursion_key h _).2 (Or.inl ⟨v, hv, _, hlt, rfl⟩), ends_lag v _ h1⟩ h3
  · exact e
  · obtain ⟨k, hk, he⟩ := h2 n hn hlt
    exact absurd (hkey k hk n hn he) (by omega)

theorem filter_lags (n : Nat) (hn : 1 ≤ n) (vars : List Name) (hp : ∀ v ∈ vars, IsVariable v) : (vars.flatMap fun v => (List.range n).map (lag v)).filter plain = vars := by
  induction vars with
  | nil => rfl
  | cons v vars ih =>
    rw [List.flatMap_cons, List.filter_append, ih fun w hw => hp w (by simp [hw])]
    obtain ⟨m, rfl⟩ : ∃ m, n = m + 1 := ⟨n - 1, by omega⟩
    rw [List.range_succ_eq_map, List.map_cons, List.filter_cons_of_pos (show plain (lag v 0) = true from (plain_iff _).2 (hp v (by simp)))]
    rw [List.filter_eq_nil_iff.2 ?_]
    · rfl
    · intro k hk
      rw [List.map_map, List.mem_map] at hk
      obtain ⟨j, _, rfl⟩ := hk
      intro hx
      exact lag_not_variable v (j + 1) (by omega) ((plain_iff _).1 hx)

theorem filter_dtypes (typed : List Name) : (typed.map (· ++ ['_', 'd', 't', 'y', 'p', 'e'])).filter plain = [] := by
  rw [List.filter_eq_nil_iff]
  intro k hk hx
  obtain ⟨v, _, rfl⟩ := List.mem_map.1 hk
  exact dtype_not_variable v ((plain_iff _).1 hx)

theorem filter_recursion {n : Nat} {vars typed keys : List Name} (h : IsRecursion n vars typed keys) (hn : 1 ≤ n) (hp : ∀ v ∈ vars, IsVariable v) :
    (keys.filter plain).Perm vars := by
  have := h.filter plain
  rw [List.filter_append, filter_lags n hn vars hp, filter_dtypes, List.append_nil] at this
  exact this

theorem mapM_some {α β : Type} (f : α → Option β) : ∀ l : List α, (∀ a ∈ l, ∃ b, f a = some b) → ∃ r, l.mapM f = some r ∧ List.Forall₂ (fun a b => f a = some b) l r
  | [], _ => ⟨[], rfl, .nil⟩
  | a :: l, h => by
    obtain ⟨b, hb⟩ := h a (by simp)
    obtain ⟨r, hr, hf⟩ := mapM_some f l fun x hx => h x (by simp [hx])
    refine ⟨b :: r, ?_, .cons hb hf⟩
    rw [List.mapM_cons, hb, hr]
    rfl

theorem mapM_inv {α β : Type} (f : α → Option β) : ∀ (l : List α) (r : List β), l.mapM f = some r → List.Forall₂ (fun a b => f a = some b) l r
  | [], r, h => by
    rw [List.mapM_nil] at h
    cases h
    exact .nil
  | a :: l, r, h => by
    rw [List.mapM_cons] at h
    cases hb : f a with
    | none => rw [hb] at h; cases h
    | some b =>
      cases hr : l.mapM f with
      | none => rw [hb, hr] at h; cases h
      | some r' =>
        rw [hb, hr] at h
        cases h
        exact .cons hb (mapM_inv f l r' hr)

theorem forall₂_fst {f : Name → Option Info} {l : List Name} {r : List (Name × Info)} (h : List.Forall₂ (fun v p => (f v).map (fun i => (v, i)) = some p) l r) :
    r.map (·.1) = l ∧ ∀ p ∈ r, f p.1 = some p.2 := by
  induction h with
  | nil => simp
  | @cons v p l r hp _ ih =>
    obtain ⟨i, hi, e⟩ := Option.map_eq_some_iff.1 hp
    subst e
    refine ⟨by rw [List.map_cons, ih.1], fun q hq => ?_⟩
    rcases List.mem_cons.1 hq with rfl | hq
    · exact hi
    · exact ih.2 q hq

/-- The data type of a variable: the one that is specified or the default one, which is promoted to the complex type of the same precision by complex initial values. -/
def IsDtype (fixed : Option Dtype) (default : Dtype) (kinds : List Kind) (d : Dtype) : Prop :=
  match fixed with
  | some f => d = f
  | none => if default.kind = .float ∧ Kind.complex ∈ kinds then d = ⟨.complex, 2 * default.bits⟩ else d = default

theorem promote_fixed (d : Dtype) (ks : List Kind) : promote true d ks = some d := by
  induction ks with
  | nil => rfl
  | cons k ks ih => simp [promote, ih]

theorem promote_done (d : Dtype) (hd : d.kind ≠ .float) (ks : List Kind) : promote false d ks = some d := by
  induction ks with
  | nil => rfl
  | cons k ks ih => simp [promote, ih, hd]

theorem promote_spec (d : Dtype) (ks : List Kind) (h16 : d.bits ≠ 16 ∨ d.kind ≠ .float) : ∃ d', promote false d ks = some d' ∧ IsDtype none d ks d' := by
  induction ks with
  | nil => exact ⟨d, rfl, by simp [IsDtype]⟩
  | cons k ks ih =>
    by_cases hk : d.kind = .float
    · by_cases hc : k = .complex
      · have hb : d.bits ≠ 16 := h16.resolve_right (by simp [hk])
        refine ⟨⟨.complex, 2 * d.bits⟩, ?_, ?_⟩
        · simp only [promote, hk, hc, complexOf, if_neg hb]
          exact promote_done _ (by simp) ks
        · simp [IsDtype, hk, hc]
      · obtain ⟨d', h1, h2⟩ := ih
        refine ⟨d', ?_, ?_⟩
        · simp only [promote, hc]
          simpa using h1
        · unfold IsDtype at h2 ⊢
          simp only [List.mem_cons]
          have : (Kind.complex = k ∨ Kind.complex ∈ ks) ↔ Kind.complex ∈ ks := ⟨fun h => h.resolve_left fun e => hc e.symm, Or.inr⟩
          simp only [this]
          exact h2
    · exact ⟨d, promote_done d hk _, by simp [IsDtype, hk]⟩

/-- The data type that the keywords specify. -/
def fixedDtype (keys : List Name) (get : Name → Arg) (v : Name) : Option Dtype :=
  match get (v ++ ['_', 'd', 't', 'y', 'p', 'e']) with
  | .dtype d => if v ++ ['_', 'd', 't', 'y', 'p', 'e'] ∈ keys then some d else none
  | .array _ _ _ => none

/-- The names of the attributes of a variable: those of the new, the current and the previous values. -/
def attributes (inplace : Bool) (n : Nat) (v : Name) : List Name :=
  (if inplace then [] else [v ++ ['_', 'n', 'e', 'w']]) ++ (List.range n).map (lag v)

theorem names_eq (inplace : Bool) (n : Nat) (hn : 1 ≤ n) (hi : inplace = true → n = 1) (v : Name) :
    (suffixes inplace n).map (v ++ ·) = attributes inplace n v ∧
    ((suffixes inplace n).map (v ++ ·)).drop (if inplace then 0 else 1) = (List.range n).map (lag v) := by
  cases inplace with
  | true =>
    rw [hi rfl]
    simp [suffixes, attributes, lag, List.range_succ]
  | false =>
    rw [suffixes_false n hn]
    have : ((List.range n).map (lag [])).map (v ++ ·) = (List.range n).map (lag v) := by
      rw [List.map_map]
      exact List.map_congr_left fun j _ => append_lag v j
    simp only [List.map_cons, this, attributes, Bool.false_eq_true, if_false, List.drop_succ_cons, List.drop_zero, and_true]
    rfl

/-- **C97 (well-formed recursions).** For all orders n, numbers of variables, names, orders of the keywords and initial values: if the keywords are the current and the n - 1 previous values of the variables and the data types of some of them, the
order of the recursion is n, its variables are those, in alphabetical order, and each has its attributes, initial values, shape and data type.
Missing: default data types of 16 bits with complex initial values (see `C97_half_fails`), and previous values in an in-place recursion (see `C97_inplace_fails`). -/
theorem C97_partial (inplace : Bool) (default : Dtype) (n : Nat) (vars typed keys : List Name) (get : Name → Arg) (shape : Name → List Nat)
    (h : IsRecursion n vars typed keys) (hn : 1 ≤ n) (hv : vars ≠ []) (hp : ∀ v ∈ vars, IsVariable v) (hi : inplace = true → n = 1)
    (ht : ∀ v ∈ typed, ∃ d, get (v ++ ['_', 'd', 't', 'y', 'p', 'e']) = .dtype d)
    (hs : ∀ v ∈ vars, ∀ j < n, (get (lag v j)).shape = shape v) (h16 : default.bits ≠ 16 ∨ default.kind ≠ .float) :
    ∃ infos, create inplace default keys get = some (n, infos) ∧ (infos.map (·.1)).Perm vars ∧ (infos.map (·.1)).Pairwise (· ≤ ·) ∧
      ∀ p ∈ infos, p.2.names = attributes inplace n p.1 ∧ p.2.initial = (List.range n).map (fun j => get (lag p.1 j)) ∧ p.2.shape = shape p.1 ∧
        IsDtype (fixedDtype keys get p.1) default ((List.range n).map fun j => (get (lag p.1 j)).kind) p.2.dtype := by
  have ho := setOrder_recursion h hn hv hp
  have hf := filter_recursion h hn hp
  have hperm : ((keys.filter plain).insertionSort (· ≤ ·)).Perm vars := (List.perm_insertionSort _ _).trans hf
  have hset : setVariables inplace n keys = some ((keys.filter plain).insertionSort (· ≤ ·)) := by
    unfold setVariables
    simp only
    rw [if_neg]
    intro hx
    rw [List.any_eq_true] at hx
    obtain ⟨v, hvm, hx⟩ := hx
    rw [List.any_eq_true] at hx
    obtain ⟨s, hs', hx⟩ := hx
    have hvv : v ∈ vars := hperm.mem_iff.1 hvm
    rw [Bool.and_eq_true] at hx
    have hnot : v ++ s ∉ keys := by
      have := hx.2
      simpa using this
    have hne : s ≠ sNew := by
      have := hx.1
      simpa using this
    cases inplace with
    | true =>
      have : s = [] := by simpa [suffixes] using hs'
      rw [this, List.append_nil] at hnot
      exact hnot ((recursion_key h v).2 (Or.inl ⟨v, hvv, 0, by omega, rfl⟩))
    | false =>
      rw [suffixes_false n hn] at hs'
      rcases List.mem_cons.1 hs' with e | hm
      · exact hne e
      · obtain ⟨j, hj, rfl⟩ := List.mem_map.1 hm
        rw [append_lag] at hnot
        exact hnot ((recursion_key h _).2 (Or.inl ⟨v, hvv, j, List.mem_range.1 hj, rfl⟩))
  have hinfo : ∀ v ∈ vars, ∃ i, info inplace n default keys get v = some i ∧ i.names = attributes inplace n v ∧ i.initial = (List.range n).map (fun j => get (lag v j)) ∧
      i.shape = shape v ∧ IsDtype (fixedDtype keys get v) default ((List.range n).map fun j => (get (lag v j)).kind) i.dtype := by
    intro v hvv
    obtain ⟨e1, e2⟩ := names_eq inplace n hn hi v
    have e3 : ((attributes inplace n v).drop (if inplace then 0 else 1)).map get = (List.range n).map (fun j => get (lag v j)) := by
      rw [← e1, e2, List.map_map]; rfl
    have e4 : ((List.range n).map (fun j => get (lag v j))).map Arg.kind = (List.range n).map fun j => (get (lag v j)).kind := by
      rw [List.map_map]; rfl
    have e5 : ((List.range n).map (fun j => get (lag v j))).map Arg.shape = shape v :: List.replicate (n - 1) (shape v) := by
      rw [List.map_map, ← List.replicate_succ, show n - 1 + 1 = n by omega]
      rw [List.eq_replicate_iff]
      refine ⟨by simp, fun s hs' => ?_⟩
      obtain ⟨j, hj, rfl⟩ := List.mem_map.1 hs'
      exact hs v hvv j (List.mem_range.1 hj)
    have e6 : ((List.replicate (n - 1) (shape v)).any (· != shape v)) = false := by
      rw [List.any_eq_false]
      intro s hs'
      rw [List.eq_of_mem_replicate hs']
      simp
    by_cases hm : v ++ sDtype ∈ keys
    · have hget : ∃ d, get (v ++ sDtype) = .dtype d := by
        rcases (recursion_key h _).1 hm with ⟨w, hw, j, hj, e⟩ | ⟨w, hw, e⟩
        · exfalso
          rcases Nat.eq_zero_or_pos j with e0 | e0
          · rw [e0] at e
            exact dtype_not_variable v (by rw [e]; exact hp w hw)
          · exact dtype_ends v j (by rw [e]; exact ends_lag w j e0)
        · rw [e]
          exact ht w hw
      obtain ⟨d, hd⟩ := hget
      refine ⟨⟨attributes inplace n v, shape v, d, (List.range n).map (fun j => get (lag v j))⟩, ?_, rfl, rfl, rfl, ?_⟩
      · unfold info
        simp only [e1, e3, e4, e5, hm, if_true, hd, Option.isSome_some, promote_fixed, e6]
        simp
      · have hd' : get (v ++ ['_', 'd', 't', 'y', 'p', 'e']) = .dtype d := hd
        have hm' : v ++ ['_', 'd', 't', 'y', 'p', 'e'] ∈ keys := hm
        have : fixedDtype keys get v = some d := by
          unfold fixedDtype
          simp only [hd', hm', if_true]
        rw [this]
        exact rfl
    · obtain ⟨d, hd, hdd⟩ := promote_spec default ((List.range n).map fun j => (get (lag v j)).kind) h16
      refine ⟨⟨attributes inplace n v, shape v, d, (List.range n).map (fun j => get (lag v j))⟩, ?_, rfl, rfl, rfl, ?_⟩
      · unfold info
        simp only [e1, e3, e4, e5, hm, if_false, Option.isSome_none, hd, e6]
        simp
      · have hm' : v ++ ['_', 'd', 't', 'y', 'p', 'e'] ∉ keys := hm
        have : fixedDtype keys get v = none := by
          unfold fixedDtype
          split
          · rw [if_neg hm']
          · rfl
        rw [this]
        exact hdd
  obtain ⟨r, hr, hr2⟩ := mapM_some (fun v => (info inplace n default keys get v).map fun i => (v, i)) ((keys.filter plain).insertionSort (· ≤ ·)) (fun v hv' => by
    obtain ⟨i, hi, _⟩ := hinfo v (hperm.mem_iff.1 hv')
    exact ⟨(v, i), by rw [hi]; rfl⟩)
  obtain ⟨f1, f2⟩ := forall₂_fst hr2
  refine ⟨r, ?_, by rw [f1]; exact hperm, by rw [f1]; exact List.pairwise_insertionSort _ _, fun p hpr => ?_⟩
  · unfold create
    simp only [ho, hset, hr]
    rfl
  · have hpv : p.1 ∈ vars := hperm.mem_iff.1 (by rw [← f1]; exact List.mem_map_of_mem hpr)
    obtain ⟨i, hi, hrest⟩ := hinfo p.1 hpv
    have := f2 p hpr
    rw [hi] at this
    cases this
    exact hrest

/-- The variables yy and x of a recursion of order 3, with the data type of x. -/
def exampleKeys : List Name :=
  [['x', '_', 'o', 'l', 'd', '2'], ['y', 'y'], ['x', '_', 'd', 't', 'y', 'p', 'e'], ['y', 'y', '_', 'o', 'l', 'd'], ['x'], ['y', 'y', '_', 'o', 'l', 'd', '2'], ['x', '_', 'o', 'l', 'd']]

def exampleGet (k : Name) : Arg :=
  if k = ['x', '_', 'd', 't', 'y', 'p', 'e'] then .dtype ⟨.float, 32⟩
  else if k = ['y', 'y', '_', 'o', 'l', 'd'] then .array .complex [3] 1
  else if k.head? = some 'y' then .array .float [3] 2
  else .array .float [2, 2] 3

example : IsRecursion 3 [['y', 'y'], ['x']] [['x']] exampleKeys ∧ (∀ v ∈ [['y', 'y'], ['x']], IsVariable v) ∧
    (create false ⟨.float, 64⟩ exampleKeys exampleGet).map (fun r => (r.1, r.2.map fun p => (p.1, p.2.shape, p.2.dtype))) =
      some (3, [(['x'], [2, 2], ⟨.float, 32⟩), (['y', 'y'], [3], ⟨.complex, 128⟩)]) := by
  refine ⟨?_, fun v hv => (plain_iff v).1 ?_, ?_⟩
  · unfold IsRecursion; decide
  · revert v; decide
  · decide

/-- **C97 (missing values).** For all keywords: if the constructor succeeds, all the keywords that are names of variables are variables of the recursion, and the initial values of all of them are given, as far back as the order requires. -/
theorem C97_missing (default : Dtype) (keys : List Name) (get : Name → Arg) (o : Nat) (infos : List (Name × Info)) (h : create false default keys get = some (o, infos))
    (v : Name) (hv : v ∈ keys) (hp : IsVariable v) : v ∈ infos.map (·.1) ∧ ∀ j < o, lag v j ∈ keys := by
  unfold create at h
  simp only at h
  cases hset : setVariables false (setOrder keys) keys with
  | none => rw [hset] at h; cases h
  | some vars =>
    rw [hset] at h
    obtain ⟨l, hl, e⟩ := Option.map_eq_some_iff.1 h
    injection e with e1 e2
    subst e2
    obtain ⟨f1, _⟩ := forall₂_fst (mapM_inv _ _ _ hl)
    unfold setVariables at hset
    simp only at hset
    split at hset
    · cases hset
    · rename_i hc
      injection hset with hset
      have hvv : v ∈ (keys.filter plain).insertionSort (· ≤ ·) := by
        rw [(List.perm_insertionSort _ _).mem_iff, List.mem_filter]
        exact ⟨hv, (plain_iff v).2 hp⟩
      refine ⟨by rw [f1, ← hset]; exact hvv, fun j hj => ?_⟩
      by_contra hx
      refine hc (List.any_eq_true.2 ⟨v, hvv, List.any_eq_true.2 ⟨lag [] j, ?_, ?_⟩⟩)
      · rw [suffixes_false _ (setOrder_spec keys).1, e1]
        exact List.mem_cons_of_mem _ (List.mem_map_of_mem (List.mem_range.2 hj))
      · rw [append_lag, Bool.and_eq_true]
        refine ⟨?_, by simpa using hx⟩
        have hne : lag [] j ≠ sNew := by
          match j with
          | 0 => decide
          | 1 => decide
          | j + 2 =>
            intro e
            have := congrArg (fun l => l[1]?) e
            revert this
            simp [lag, sNew]
        simpa using hne

example : create false ⟨.float, 64⟩ [['x'], ['x', '_', 'o', 'l', 'd'], ['y']] exampleGet = none ∧ (create false ⟨.float, 64⟩ [['x'], ['y']] exampleGet).isSome = true := by
  decide

/-- **C97 (shapes).** For all keywords: if the constructor succeeds, the initial values of a variable have the same shape. -/
theorem C97_shapes (default : Dtype) (keys : List Name) (get : Name → Arg) (o : Nat) (infos : List (Name × Info)) (h : create false default keys get = some (o, infos))
    (v : Name) (hv : v ∈ keys) (hp : IsVariable v) (j : Nat) (hj : j < o) : (get (lag v j)).shape = (get v).shape := by
  have hm := (C97_missing default keys get o infos h v hv hp).1
  unfold create at h
  simp only at h
  cases hset : setVariables false (setOrder keys) keys with
  | none => rw [hset] at h; cases h
  | some vars =>
    rw [hset] at h
    obtain ⟨l, hl, e⟩ := Option.map_eq_some_iff.1 h
    injection e with e1 e2
    subst e2
    obtain ⟨f1, f2⟩ := forall₂_fst (mapM_inv _ _ _ hl)
    obtain ⟨p, hp', rfl⟩ := List.mem_map.1 hm
    have hi := f2 p hp'
    have ho := (setOrder_spec keys).1
    have hinit : (((suffixes false (setOrder keys)).map (p.1 ++ ·)).drop (if false then 0 else 1)).map get = (List.range o).map fun j => get (lag p.1 j) := by
      rw [suffixes_false _ ho, e1]
      simp [append_lag, Function.comp_def]
    simp only [info] at hi
    split at hi
    · cases hi
    · rw [hinit] at hi
      split at hi
      · rename_i s ss _ hs
        split at hi
        · cases hi
        · rename_i hany
          have hall : ∀ x ∈ (List.range o).map (fun j => (get (lag p.1 j)).shape), x = s := by
            have e2 : (List.range o).map (fun j => (get (lag p.1 j)).shape) = s :: ss := by
              rw [← hs, List.map_map]; rfl
            rw [e2]
            intro x hx
            rcases List.mem_cons.1 hx with rfl | hx
            · rfl
            · by_contra hne
              exact hany (List.any_eq_true.2 ⟨x, hx, by simpa using hne⟩)
          have h1 := hall _ (List.mem_map.2 ⟨j, List.mem_range.2 hj, rfl⟩)
          have h0 := hall _ (List.mem_map.2 ⟨0, List.mem_range.2 (by omega), rfl⟩)
          rw [h1, ← h0]
          rfl
      · cases hi

example : create false ⟨.float, 64⟩ [['x'], ['x', '_', 'o', 'l', 'd']] (fun n => if n = ['x'] then .array .float [2] 0 else .array .float [3] 1) = none := by
  decide

/-- **C97 (order of the keywords).** The result does not depend on the order of the keywords. -/
theorem C97_keywords (inplace : Bool) (default : Dtype) (keys keys' : List Name) (h : keys.Perm keys') (get : Name → Arg) : create inplace default keys get = create inplace default keys' get := by
  have hloop : ∀ f o, orderLoop keys f o = orderLoop keys' f o := by
    intro f
    induction f with
    | zero => intro o; rfl
    | succ f ih =>
      intro o
      simp only [orderLoop, ih]
      rw [h.any_eq]
  have ho : setOrder keys = setOrder keys' := by
    unfold setOrder
    rw [h.any_eq, hloop, h.length_eq]
  have hsort : (keys.filter plain).insertionSort (· ≤ ·) = (keys'.filter plain).insertionSort (· ≤ ·) := by
    refine List.Perm.eq_of_pairwise (fun a b _ _ => le_antisymm) (List.pairwise_insertionSort _ _) (List.pairwise_insertionSort _ _) ?_
    exact ((List.perm_insertionSort _ _).trans (h.filter plain)).trans (List.perm_insertionSort _ _).symm
  have hmem : ∀ k, k ∈ keys ↔ k ∈ keys' := fun k => h.mem_iff
  have hcont : ∀ k, keys.contains k = keys'.contains k := fun k => by
    rw [Bool.eq_iff_iff, List.contains_iff_mem, List.contains_iff_mem, hmem]
  have hset : ∀ o, setVariables inplace o keys = setVariables inplace o keys' := by
    intro o
    unfold setVariables
    simp only [hsort, hcont]
  have hinfo : ∀ o v, info inplace o default keys get v = info inplace o default keys' get v := by
    intro o v
    unfold info
    simp only [hmem]
  unfold create
  simp only [ho, hset, hinfo]

example : [['x'], ['y']].Perm [['y'], ['x']] ∧ (create false ⟨.float, 64⟩ [['y'], ['x']] exampleGet).map (fun r => r.2.map (·.1)) = some [['x'], ['y']] := by
  refine ⟨List.Perm.swap _ _ _, by decide⟩

/-- **C97 (unused keywords, negation).** With `x` and `x_old2` but not `x_old`, the order is 1 and x_old2 is silently ignored; so is `y_old` without `y` in a recursion of order 2. -/
theorem C97_unused_fails : ∃ (keys : List Name) (get : Name → Arg) (o : Nat) (infos : List (Name × Info)), create false ⟨.float, 64⟩ keys get = some (o, infos) ∧
    (∃ v ∈ keys, IsVariable v ∧ lag v 2 ∈ keys ∧ ∀ p ∈ infos, lag v 2 ∉ p.2.names) ∧
    ∃ (keys' : List Name) (o' : Nat) (infos' : List (Name × Info)), create false ⟨.float, 64⟩ keys' get = some (o', infos') ∧ lag ['y'] 1 ∈ keys' ∧ ['y'] ∉ infos'.map (·.1) := by
  refine ⟨[['x'], ['x', '_', 'o', 'l', 'd', '2']], exampleGet, 1, [(['x'], ⟨[['x', '_', 'n', 'e', 'w'], ['x']], [2, 2], ⟨.float, 64⟩, [.array .float [2, 2] 3]⟩)], by decide,
    ⟨['x'], by decide, (plain_iff _).1 (by decide), by decide, by decide⟩,
    [['x'], ['x', '_', 'o', 'l', 'd'], ['y', '_', 'o', 'l', 'd']], 2,
    [(['x'], ⟨[['x', '_', 'n', 'e', 'w'], ['x'], ['x', '_', 'o', 'l', 'd']], [2, 2], ⟨.float, 64⟩, [.array .float [2, 2] 3, .array .float [2, 2] 3]⟩)], by decide, by decide, by decide⟩

/-- **C97 (in-place recursions, negation).** In an in-place recursion with `x` and `x_old`, the order is 2, so that the number of iterations starts at 1, but x_old is not an attribute. -/
theorem C97_inplace_fails : ∃ (keys : List Name) (get : Name → Arg) (infos : List (Name × Info)), IsRecursion 2 [['x']] [] keys ∧ create true ⟨.float, 64⟩ keys get = some (2, infos) ∧
    ∀ p ∈ infos, lag ['x'] 1 ∉ p.2.names := by
  refine ⟨[['x'], ['x', '_', 'o', 'l', 'd']], exampleGet, [(['x'], ⟨[['x']], [2, 2], ⟨.float, 64⟩, [.array .float [2, 2] 3]⟩)], ?_, by decide, by decide⟩
  unfold IsRecursion
  decide

/-- **C97 (half precision, negation).** With dtype=float16, a complex initial value raises TypeError: the data type complex32 does not exist. -/
theorem C97_half_fails : ∃ (keys : List Name) (get : Name → Arg), IsRecursion 1 [['x']] [] keys ∧ create false ⟨.float, 16⟩ keys get = none ∧ create false ⟨.float, 32⟩ keys get ≠ none := by
  refine ⟨[['x']], fun _ => .array .complex [3] 0, ?_, by decide, by decide⟩
  unfold IsRecursion
  decide

/-! ### The buffers of the initial values -/

/-- Two buffers have no byte in common. -/
def Buffer.Disjoint (a b : Buffer) : Prop := ∀ i, ¬ (a.address ≤ i ∧ i < a.address + a.size ∧ b.address ≤ i ∧ i < b.address + b.size)

/-- **C97 (buffers).** If the arrays of the initial values are either the same memory or disjoint, the check (made if reuse_initial_state is True) accepts them if and only if no two of them share memory.
Missing: views of the same array that overlap but do not begin at the same address (see `C97_overlap_fails`). -/
theorem C97_buffers_partial (initial : List (Option Buffer)) (hpos : ∀ b, some b ∈ initial → 0 < b.address ∧ 0 < b.size)
    (hwhole : ∀ a b, some a ∈ initial → some b ∈ initial → a.address ≠ b.address → a.Disjoint b) :
    duplicated initial = false ↔ initial.Pairwise fun x y => ∀ a b, x = some a → y = some b → a.Disjoint b := by
  set addr : Option Buffer → Nat := fun b => match b with | some b => b.address | none => 0 with haddr
  have key : ∀ l : List (Option Buffer), (∀ x ∈ l, x ∈ initial) →
      ((∀ a ≠ 0, (l.map addr).count a ≤ 1) ↔ l.Pairwise fun x y => ∀ a b, x = some a → y = some b → a.Disjoint b) := by
    intro l
    induction l with
    | nil => simp
    | cons x l ih =>
      intro hl
      rw [List.pairwise_cons, ← ih fun y hy => hl y (by simp [hy]), List.map_cons]
      constructor
      · intro h
        refine ⟨fun y hy a b ha hb => ?_, fun a ha => ?_⟩
        · refine hwhole a b (ha ▸ hl x (by simp)) (hb ▸ hl y (by simp [hy])) fun e => ?_
          have h0 : a.address ≠ 0 := by have := (hpos a (ha ▸ hl x (by simp))).1; omega
          have := h a.address h0
          rw [List.count_cons, ha] at this
          have hm : a.address ∈ l.map addr := by
            rw [e, List.mem_map]
            exact ⟨y, hy, by rw [hb]⟩
          have := List.count_pos_iff.2 hm
          simp only [haddr, beq_self_eq_true, if_true] at *
          omega
        · have := h a ha
          rw [List.count_cons] at this
          omega
      · rintro ⟨h1, h2⟩ a ha
        rw [List.count_cons]
        split
        · rename_i he
          have he : addr x = a := by simpa using he
          have : a ∉ l.map addr := by
            intro hm
            obtain ⟨y, hy, e⟩ := List.mem_map.1 hm
            cases x with
            | none => exact ha he.symm
            | some bx =>
              cases y with
              | none => exact ha e.symm
              | some b =>
                have hx := hpos bx (hl _ (by simp))
                have hb := hpos b (hl _ (by simp [hy]))
                have he : bx.address = a := he
                have e : b.address = a := e
                refine h1 _ hy bx b rfl rfl a ⟨by omega, by omega, by omega, by omega⟩
          rw [List.count_eq_zero.2 this]
        · exact h2 a ha
  rw [← key initial fun _ h => h]
  unfold duplicated
  simp only
  rw [List.any_eq_false]
  constructor
  · intro h a ha
    by_contra hc
    have hm : a ∈ initial.map addr := List.count_pos_iff.1 (by omega)
    refine h a hm ?_
    rw [Bool.and_eq_true]
    exact ⟨by simpa using hc, by simpa using ha⟩
  · intro h a _ hx
    rw [Bool.and_eq_true] at hx
    have h1 := h a (by simpa using hx.2)
    have h2 : (initial.map addr).count a > 1 := by simpa using hx.1
    omega

example : duplicated [some ⟨64, 32⟩, none, some ⟨128, 32⟩, none] = false ∧ duplicated [some ⟨64, 32⟩, none, some ⟨64, 32⟩] = true := by decide

/-- **C97 (overlapping buffers, negation).** `x=a[:4], x_old=a[2:]` for an array of 6 elements is accepted with reuse_initial_state=True, although the buffers, which the iterations overwrite, overlap. -/
theorem C97_overlap_fails : ∃ a b : Buffer, 0 < a.address ∧ 0 < b.address ∧ duplicated [some a, some b] = false ∧ ¬ a.Disjoint b :=
  ⟨⟨64, 32⟩, ⟨80, 32⟩, by decide, by decide, by decide, fun h => h 80 ⟨by decide, by decide, by decide, by decide⟩⟩

end Verif.Iter.Keywords
