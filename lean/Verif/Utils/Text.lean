import Mathlib.Data.List.SplitOn
import Mathlib.Data.Nat.Log
import Mathlib.Data.Rat.Defs
import Mathlib.Tactic.Linarith
import Mathlib.Tactic.NormNum
import Mathlib.Tactic.Ring
import Mathlib.Tactic.FieldSimp

/-!
# C123, C124, C125, C126: the texts of the messages

The functions of src/pyoperators/utils/misc.py that write shapes, enumerations, sizes and the identity of the process.  The strings are lists of
characters.
-/

namespace Verif.Utils.Text

/-- `str(n)` for an integer that is not negative. -/
def decimal (n : Nat) : List Char := Nat.toDigits 10 n

/-- The values of the parameter broadcast of `strshape` that it compares: src/pyoperators/utils/misc.py:1055-1060.  `other` stands for all the
other values, None among them. -/
inductive Broadcast
  | other | leftward | rightward
deriving DecidableEq

/-- An element of the tuple that `strshape` writes: a dimension or the string `'...'`. -/
inductive Item
  | dots
  | dim (n : Nat)
deriving DecidableEq

/-- `repr` of an element, as `str` of the tuple writes it. -/
def Item.repr : Item → List Char
  | .dots => ['\'', '.', '.', '.', '\'']
  | .dim n => decimal n

/-- `str` of an element. -/
def Item.str : Item → List Char
  | .dots => ['.', '.', '.']
  | .dim n => decimal n

/-- `str(shape)` for a tuple. -/
def tupleStr (l : List Item) : List Char :=
  '(' :: [',', ' '].intercalate (l.map Item.repr) ++ (if l.length = 1 then [','] else []) ++ [')']

/-- The tuple with its ellipsis: src/pyoperators/utils/misc.py:1057-1060. -/
def items (s : List Nat) : Broadcast → List Item
  | .other => s.map .dim
  | .leftward => .dots :: s.map .dim
  | .rightward => s.map .dim ++ [.dots]

/-- `strshape(shape, broadcast)`: src/pyoperators/utils/misc.py:1049-1065.  The shape is None or a tuple of integers: the TypeError for the other
arguments (1053-1054) is not modelled. -/
def strshape (s : Option (List Nat)) (b : Broadcast) : List Char :=
  match s with
  | none => ['N', 'o', 'n', 'e']
  | some s =>
    if s = [] ∧ (b = .leftward ∨ b = .rightward) then ['(', '.', '.', '.', ')']
    else
      match items s b with
      | [] => tupleStr []
      | [i] => i.str
      | l => ((tupleStr l).filter (· ≠ ' ')).filter (· ≠ '\'')

/-! ### The texts of the shapes -/

theorem decimal_digit {n : Nat} {c : Char} (h : c ∈ decimal n) : c.isDigit = true :=
  Nat.isDigit_of_mem_toDigits (by decide) (by decide) h

theorem decimal_inj {m n : Nat} (h : decimal m = decimal n) : m = n := by
  have := congrArg (fun l => Nat.ofDigitChars 10 l 0) h
  simpa [decimal] using this

theorem decimal_ne {n : Nat} : decimal n ≠ [] := Nat.toDigits_ne_nil

theorem str_inj {i j : Item} (h : i.str = j.str) : i = j := by
  cases i <;> cases j
  · rfl
  · rename_i n
    have := decimal_digit (n := n) (c := '.') (by simp only [Item.str] at h; simp [← h])
    simp at this
  · rename_i n
    have := decimal_digit (n := n) (c := '.') (by simp only [Item.str] at h; simp [h])
    simp at this
  · rw [decimal_inj h]

theorem map_inj {α β : Type} {f : α → β} (hf : ∀ x y, f x = f y → x = y) : ∀ {l m : List α}, l.map f = m.map f → l = m
  | [], [], _ => rfl
  | [], _ :: _, h => by simp at h
  | _ :: _, [], h => by simp at h
  | x :: l, y :: m, h => by
    rw [List.map_cons, List.map_cons, List.cons.injEq] at h
    rw [hf _ _ h.1, map_inj hf h.2]

theorem str_ne (i : Item) : i.str ≠ [] := by
  cases i
  · simp [Item.str]
  · exact decimal_ne

theorem str_comma (i : Item) : ',' ∉ i.str := by
  cases i
  · simp [Item.str]
  · intro h
    have := decimal_digit h
    simp at this

/-- The text of a tuple without spaces and quotes. -/
def bare (l : List Item) : List Char := '(' :: [','].intercalate (l.map Item.str) ++ [')']

theorem filter_decimal (n : Nat) (c : Char) (hc : c.isDigit = false) : (decimal n).filter (· ≠ c) = decimal n := by
  rw [List.filter_eq_self]
  intro d hd
  have := decimal_digit hd
  simp only [decide_eq_true_eq]
  rintro rfl
  rw [hc] at this
  cases this

theorem filter_repr (i : Item) : ((i.repr).filter (· ≠ ' ')).filter (· ≠ '\'') = i.str := by
  cases i with
  | dots => decide
  | dim n => simp only [Item.repr, Item.str]; rw [filter_decimal _ _ (by decide), filter_decimal _ _ (by decide)]

theorem filter_intercalate : ∀ l : List Item,
    (([',', ' '].intercalate (l.map Item.repr)).filter (· ≠ ' ')).filter (· ≠ '\'') = [','].intercalate (l.map Item.str)
  | [] => rfl
  | [i] => by simpa using filter_repr i
  | i :: j :: l => by
    have ih := filter_intercalate (j :: l)
    rw [List.map_cons, List.map_cons, List.intercalate_cons_cons, List.map_cons, List.map_cons, List.intercalate_cons_cons]
    rw [List.map_cons, List.map_cons] at ih
    rw [List.filter_append, List.filter_append, List.filter_append, List.filter_append, filter_repr, ih]
    rfl

theorem filter_tuple {l : List Item} (h : l.length ≠ 1) : ((tupleStr l).filter (· ≠ ' ')).filter (· ≠ '\'') = bare l := by
  unfold tupleStr bare
  rw [if_neg h, List.append_nil, List.filter_append, List.filter_append, List.filter_cons_of_pos (by decide),
    List.filter_cons_of_pos (by decide), filter_intercalate]
  rfl

theorem bare_inj {l m : List Item} (h : bare l = bare m) : l = m := by
  unfold bare at h
  have h := List.append_cancel_right h
  have h : [','].intercalate (l.map Item.str) = [','].intercalate (m.map Item.str) := by simpa using h
  have key : ∀ k : List Item, k ≠ [] → ([','].intercalate (k.map Item.str)).splitOn ',' = k.map Item.str := fun k hk =>
    List.splitOn_intercalate _ (by
      intro t ht
      obtain ⟨i, _, rfl⟩ := List.mem_map.1 ht
      exact str_comma i) (by simpa using hk)
  have nil : ∀ k : List Item, k ≠ [] → [','].intercalate (k.map Item.str) ≠ [] := by
    intro k hk e
    have := key k hk
    rw [e, List.splitOn_nil] at this
    match k, hk with
    | i :: k, _ =>
      rw [List.map_cons] at this
      exact str_ne i (List.cons.inj this).1.symm
  by_cases hl : l = []
  · subst hl
    by_contra hm
    exact nil m (Ne.symm hm) (by rw [← h]; rfl)
  · by_cases hm : m = []
    · subst hm
      exact absurd (by rw [h]; rfl) (nil l hl)
    · have := key l hl
      rw [h, key m hm] at this
      exact (map_inj (fun _ _ => str_inj) this).symm

/-- What `strshape` writes: None, a dimension alone, or the elements between parentheses. -/
theorem strshape_eq (s : Option (List Nat)) (b : Broadcast) : strshape s b =
    match s with
    | none => ['N', 'o', 'n', 'e']
    | some s => if s.length = 1 ∧ b = .other then decimal s.head! else bare (items s b) := by
  cases s with
  | none => rfl
  | some s =>
    cases b with
    | other =>
      match s with
      | [] => rfl
      | [n] => rfl
      | n :: m :: s =>
        have := filter_tuple (l := items (n :: m :: s) .other) (by simp [items])
        simpa [strshape, items] using this
    | leftward =>
      match s with
      | [] => rfl
      | n :: s =>
        have := filter_tuple (l := items (n :: s) .leftward) (by simp [items])
        simpa [strshape, items] using this
    | rightward =>
      match s with
      | [] => rfl
      | [n] =>
        have := filter_tuple (l := items [n] .rightward) (by simp [items])
        simpa [strshape, items] using this
      | n :: m :: s =>
        have := filter_tuple (l := items (n :: m :: s) .rightward) (by simp [items])
        simpa [strshape, items] using this

theorem items_inj {s t : List Nat} {b c : Broadcast} (h : items s b = items t c) :
    s = t ∧ (b = c ∨ (s = [] ∧ b ≠ .other ∧ c ≠ .other)) := by
  have hd : ∀ (u : List Nat), Item.dots ∉ u.map Item.dim := by simp
  have hi : Function.Injective (List.map Item.dim) := fun _ _ => map_inj fun _ _ e => by cases e; rfl
  cases b <;> cases c <;> simp only [items] at h
  · exact ⟨hi h, .inl rfl⟩
  · exact absurd (h ▸ List.mem_cons_self) (hd s)
  · exact absurd (h ▸ (by simp : Item.dots ∈ t.map Item.dim ++ [Item.dots])) (hd s)
  · exact absurd (h ▸ List.mem_cons_self) (hd t)
  · exact ⟨hi (List.cons.inj h).2, .inl rfl⟩
  · cases t with
    | nil => cases s <;> simp_all
    | cons n t => simp at h
  · exact absurd (h ▸ (by simp : Item.dots ∈ s.map Item.dim ++ [Item.dots])) (hd t)
  · cases s with
    | nil => cases t <;> simp_all
    | cons n t => simp at h
  · exact ⟨hi (List.append_cancel_right h), .inl rfl⟩

/-- **C123.** The text of a shape identifies it, and the side of its ellipsis: two shapes have the same text if and only if they are equal and have
their ellipsis on the same side (None has no ellipsis, and the ellipsis of an empty shape has no side). -/
theorem C123_shape (s t : Option (List Nat)) (b c : Broadcast) : strshape s b = strshape t c ↔
    s = t ∧ (s = none ∨ b = c ∨ (s = some [] ∧ b ≠ .other ∧ c ≠ .other)) := by
  constructor
  · intro h
    rw [strshape_eq, strshape_eq] at h
    have first : ∀ n : Nat, ∀ l, bare l ≠ decimal n := by
      intro n l e
      have := decimal_digit (n := n) (c := '(') (by rw [← e]; simp [bare])
      simp at this
    have none' : ∀ n : Nat, ['N', 'o', 'n', 'e'] ≠ decimal n := by
      intro n e
      have := decimal_digit (n := n) (c := 'N') (by rw [← e]; simp)
      simp at this
    cases s with
    | none =>
      cases t with
      | none => exact ⟨rfl, .inl rfl⟩
      | some t =>
        simp only at h
        split at h
        · exact absurd h (none' _)
        · simp [bare] at h
    | some s =>
      cases t with
      | none =>
        simp only at h
        split at h
        · exact absurd h.symm (none' _)
        · simp [bare] at h
      | some t =>
        simp only at h
        split at h <;> split at h
        · rename_i h1 h2
          match s, t, h1, h2 with
          | [m], [n], h1, h2 =>
            have h : decimal m = decimal n := h
            rw [decimal_inj h]
            exact ⟨rfl, .inr (.inl (h1.2.trans h2.2.symm))⟩
        · exact absurd h.symm (first _ _)
        · exact absurd h (first _ _)
        · obtain ⟨rfl, h | ⟨h1, h2, h3⟩⟩ := items_inj (bare_inj h)
          · exact ⟨rfl, .inr (.inl h)⟩
          · exact ⟨rfl, .inr (.inr ⟨by rw [h1], h2, h3⟩)⟩
  · rintro ⟨rfl, rfl | rfl | ⟨rfl, h1, h2⟩⟩
    · rfl
    · rfl
    · cases b <;> cases c <;> first | rfl | exact absurd rfl h1 | exact absurd rfl h2

example : String.ofList (strshape (some [2, 13]) .leftward) = "(...,2,13)" ∧ String.ofList (strshape (some [213]) .other) = "213" ∧
    String.ofList (strshape (some [21]) .rightward) = "(21,...)" ∧ String.ofList (strshape (some [])  .other) = "()" := by decide +kernel

/-! ### The enumerations -/

/-- `strenum(choices, last)`: src/pyoperators/utils/misc.py:932-955.  The choices are the strings that the format writes; `none` is ValueError. -/
def strenum (choices : List (List Char)) (last : List Char) : Option (List Char) :=
  let quoted := choices.map fun c => ['\''] ++ c ++ ['\'']
  match quoted with
  | [] => none
  | [c] => some c
  | _ => some ([',', ' '].intercalate quoted.dropLast ++ [' '] ++ last ++ [' '] ++ quoted.getLast!)

/-- A choice between quotes. -/
def quote (c : List Char) : List Char := ['\''] ++ c ++ ['\'']

/-- The text of an enumeration that is not empty. -/
def enumText (last : List Char) : List (List Char) → List Char
  | [] => []
  | [c] => quote c
  | c :: d :: cs => quote c ++ (match cs with | [] => [' '] ++ last ++ [' '] | _ => [',', ' ']) ++ enumText last (d :: cs)

theorem strenum_eq (last : List Char) : ∀ {l : List (List Char)}, l ≠ [] → strenum l last = some (enumText last l)
  | [c], _ => rfl
  | [c, d], _ => by simp [strenum, enumText, quote]
  | c :: d :: e :: l, _ => by
    have ih := strenum_eq last (l := d :: e :: l) (by simp)
    have e1 : enumText last (c :: d :: e :: l) = quote c ++ [',', ' '] ++ enumText last (d :: e :: l) := rfl
    rw [e1]
    have ih := Option.some.inj ih
    rw [← ih]
    simp only [strenum, List.map_cons]
    simp [List.dropLast, List.intercalate_cons_cons, quote, List.getLast!]

/-- The parts of an enumeration between its quotes. -/
def parts (last : List Char) : List (List Char) → List (List Char)
  | [] => []
  | [c] => [c, []]
  | c :: d :: cs => c :: (match cs with | [] => [' '] ++ last ++ [' '] | _ => [',', ' ']) :: parts last (d :: cs)

theorem parts_ne (last : List Char) : ∀ {l : List (List Char)}, l ≠ [] → parts last l ≠ []
  | [_], _ => by simp [parts]
  | _ :: _ :: _, _ => by simp [parts]

theorem enumText_parts (last : List Char) : ∀ {l : List (List Char)}, l ≠ [] →
    enumText last l = ['\''].intercalate ([] :: parts last l)
  | [c], _ => by simp [enumText, parts, quote, List.intercalate_cons_cons]
  | c :: d :: cs, _ => by
    have ih := enumText_parts last (l := d :: cs) (by simp)
    obtain ⟨p, ps, hp⟩ := List.exists_cons_of_ne_nil (parts_ne last (l := d :: cs) (by simp))
    unfold enumText parts
    rw [ih, hp]
    simp [quote, List.intercalate_cons_cons]

theorem parts_quote {last : List Char} (hl : '\'' ∉ last) : ∀ {l : List (List Char)}, (∀ c ∈ l, '\'' ∉ c) →
    ∀ p ∈ parts last l, '\'' ∉ p
  | [], _ => by simp [parts]
  | [c], h => by simpa [parts] using h c (by simp)
  | c :: d :: cs, h => by
    intro p hp
    unfold parts at hp
    rcases List.mem_cons.1 hp with rfl | hp
    · exact h _ (by simp)
    rcases List.mem_cons.1 hp with rfl | hp
    · cases cs <;> simp [hl]
    · exact parts_quote hl (fun c hc => h c (List.mem_cons_of_mem _ hc)) p hp

theorem parts_inj (last : List Char) : ∀ {l m : List (List Char)}, parts last l = parts last m → l = m
  | [], [], _ => rfl
  | [], [_], h => by simp [parts] at h
  | [], _ :: _ :: _, h => by simp [parts] at h
  | [_], [], h => by simp [parts] at h
  | [_], [_], h => by simp [parts] at h; rw [h]
  | [_], _ :: d :: cs, h => by
    have := parts_ne last (l := d :: cs) (by simp)
    simp only [parts, List.cons.injEq] at h
    exact absurd h.2.2.symm this
  | _ :: _ :: _, [], h => by simp [parts] at h
  | _ :: d :: cs, [_], h => by
    have := parts_ne last (l := d :: cs) (by simp)
    simp only [parts, List.cons.injEq] at h
    exact absurd h.2.2 this
  | c :: d :: cs, c' :: d' :: cs', h => by
    simp only [parts, List.cons.injEq] at h
    rw [h.1, parts_inj last h.2.2]

/-- **C124, partial.** An enumeration identifies its choices, if they contain no quote: two enumerations with the same last separator are the same
text if and only if they have the same choices in the same order.  Missing from the full property: choices with quotes (`C124_quote_fails`). -/
theorem C124_enum_partial {last : List Char} (hl : '\'' ∉ last) {l m : List (List Char)} (h1 : ∀ c ∈ l, '\'' ∉ c) (h2 : ∀ c ∈ m, '\'' ∉ c) :
    strenum l last = strenum m last ↔ l = m := by
  constructor
  · intro h
    by_cases e1 : l = []
    · by_cases e2 : m = []
      · rw [e1, e2]
      · rw [strenum_eq last e2, e1] at h
        cases h
    · by_cases e2 : m = []
      · rw [strenum_eq last e1, e2] at h
        cases h
      · rw [strenum_eq last e1, strenum_eq last e2, enumText_parts last e1, enumText_parts last e2] at h
        have h := congrArg (fun t => t.splitOn '\'') (Option.some.inj h)
        rw [List.splitOn_intercalate _ _ (by simp), List.splitOn_intercalate _ _ (by simp)] at h
        · exact parts_inj last (List.cons.inj h).2
        · intro p hp
          rcases List.mem_cons.1 hp with rfl | hp
          · simp
          · exact parts_quote hl h2 p hp
        · intro p hp
          rcases List.mem_cons.1 hp with rfl | hp
          · simp
          · exact parts_quote hl h1 p hp
  · rintro rfl
    rfl

/-- The texts between the commas of the text of a tuple of integers, without spaces. -/
def cells : List Nat → List (List Char)
  | [n] => [decimal n, []]
  | l => l.map decimal

theorem cells_inj : ∀ {l m : List Nat}, cells l = cells m → l = m
  | [], [], _ => rfl
  | [], [_], h => by simp [cells] at h
  | [], _ :: _ :: _, h => by simp [cells] at h
  | [_], [], h => by simp [cells] at h
  | [_], [_], h => by
    simp only [cells, List.cons.injEq, and_true] at h
    rw [decimal_inj h]
  | [_], _ :: _ :: _, h => by
    simp only [cells, List.map_cons, List.cons.injEq] at h
    exact absurd h.2.1.symm decimal_ne
  | _ :: _ :: _, [], h => by simp [cells] at h
  | _ :: _ :: _, [_], h => by
    simp only [cells, List.map_cons, List.cons.injEq] at h
    exact absurd h.2.1 decimal_ne
  | a :: b :: l, c :: d :: m, h => map_inj (l := a :: b :: l) (m := c :: d :: m) (fun _ _ => decimal_inj) h

theorem cells_comma (l : List Nat) : ∀ t ∈ cells l, ',' ∉ t := by
  have hd : ∀ n, ',' ∉ decimal n := by
    intro n h
    have := decimal_digit h
    simp at this
  intro t ht
  unfold cells at ht
  split at ht
  · simp only [List.mem_cons, List.not_mem_nil, or_false] at ht
    rcases ht with rfl | rfl
    · exact hd _
    · simp
  · obtain ⟨n, _, rfl⟩ := List.mem_map.1 ht
    exact hd n

theorem filter_dims : ∀ l : List Nat,
    ([',', ' '].intercalate ((l.map Item.dim).map Item.repr)).filter (· ≠ ' ') = [','].intercalate (l.map decimal)
  | [] => rfl
  | [n] => by
    simp only [List.map_cons, List.map_nil, List.intercalate_singleton, Item.repr]
    exact filter_decimal n ' ' (by decide)
  | n :: m :: l => by
    have ih := filter_dims (m :: l)
    simp only [List.map_cons] at ih ⊢
    rw [List.intercalate_cons_cons, List.intercalate_cons_cons, List.filter_append, List.filter_append, ih]
    simp only [Item.repr]
    rw [filter_decimal _ _ (by decide)]
    rfl

theorem filter_cells (l : List Nat) : (tupleStr (l.map .dim)).filter (· ≠ ' ') = '(' :: [','].intercalate (cells l) ++ [')'] := by
  unfold tupleStr
  rw [List.filter_append, List.filter_append, List.filter_cons_of_pos (by decide), filter_dims]
  match l with
  | [] => rfl
  | [n] => simp [cells, List.intercalate_cons_cons]
  | n :: m :: l => simp [cells]

theorem tuple_inj {l m : List Nat} (h : tupleStr (l.map .dim) = tupleStr (m.map .dim)) : l = m := by
  have h := congrArg (List.filter (· ≠ ' ')) h
  rw [filter_cells, filter_cells] at h
  have h := (List.cons.inj (List.append_cancel_right h)).2
  have h0 : ∀ k : List Nat, k ≠ [] → cells k ≠ [] := by
    intro k hk
    unfold cells
    split <;> simp_all
  have key : ∀ k : List Nat, k ≠ [] → ([','].intercalate (cells k)).splitOn ',' = cells k := fun k hk =>
    List.splitOn_intercalate _ (cells_comma k) (h0 k hk)
  have nil : ∀ k : List Nat, k ≠ [] → [','].intercalate (cells k) ≠ [] := by
    intro k hk e
    have := key k hk
    rw [e, List.splitOn_nil] at this
    match k, hk with
    | [n], _ => simp [cells] at this
    | n :: m :: k, _ => simp [cells] at this
  by_cases hl : l = []
  · subst hl
    by_contra hm
    exact nil m (Ne.symm hm) (by rw [← h]; rfl)
  · by_cases hm : m = []
    · subst hm
      exact absurd (by rw [h]; rfl) (nil l hl)
    · have := key l hl
      rw [h, key m hm] at this
      exact (cells_inj this).symm

theorem intercalate_quote : ∀ k : List (List Char), (∀ t ∈ k, '\'' ∉ t) → '\'' ∉ [','].intercalate k
  | [], _ => by simp
  | [t], h => by simpa using h t (by simp)
  | t :: u :: k, h => by
    rw [List.intercalate_cons_cons]
    have := intercalate_quote (u :: k) (fun v hv => h v (List.mem_cons_of_mem _ hv))
    simp only [List.mem_append, not_or]
    exact ⟨⟨h t (by simp), by simp⟩, this⟩

theorem tuple_quote (l : List Nat) : '\'' ∉ tupleStr (l.map .dim) := by
  intro h
  have h : '\'' ∈ (tupleStr (l.map .dim)).filter (· ≠ ' ') := List.mem_filter.2 ⟨h, by decide⟩
  rw [filter_cells] at h
  have hc : '\'' ∈ [','].intercalate (cells l) := by simpa using h
  refine intercalate_quote _ ?_ hc
  intro t ht ht'
  have hd : ∀ n, '\'' ∉ decimal n := by
    intro n h
    have := decimal_digit h
    simp at this
  unfold cells at ht
  split at ht
  · simp only [List.mem_cons, List.not_mem_nil, or_false] at ht
    rcases ht with rfl | rfl
    · exact hd _ ht'
    · simp at ht'
  · obtain ⟨n, _, rfl⟩ := List.mem_map.1 ht
    exact hd n ht'

/-- **C124, partial.** The error message for operands of incompatible shapes (src/pyoperators/core.py:1992-2000) identifies the shapes and their
order. -/
theorem C124_shapes_partial {last : List Char} (hl : '\'' ∉ last) (l m : List (List Nat)) :
    strenum (l.map fun s => tupleStr (s.map .dim)) last = strenum (m.map fun s => tupleStr (s.map .dim)) last ↔ l = m := by
  rw [C124_enum_partial hl]
  · exact ⟨map_inj fun s t e => tuple_inj e, fun h => by rw [h]⟩
  all_goals
    intro c hc
    obtain ⟨s, _, rfl⟩ := List.mem_map.1 hc
    exact tuple_quote s

/-- **C124, partial.** An enumeration is refused if it is empty, and only then. -/
theorem C124_empty_partial (l : List (List Char)) (last : List Char) : strenum l last = none ↔ l = [] := by
  constructor
  · intro h
    by_contra hl
    rw [strenum_eq last hl] at h
    cases h
  · rintro rfl
    rfl

/-- **C124 does not hold** for choices with quotes: two lists, of one and two choices, have the same text. -/
theorem C124_quote_fails : ∃ l m : List (List Char), l.length = 1 ∧ m.length = 2 ∧ strenum l ['o', 'r'] = strenum m ['o', 'r'] :=
  ⟨[['a', '\'', ' ', 'o', 'r', ' ', '\'', 'b']], [['a'], ['b']], rfl, rfl, by decide⟩

example : (strenum ["blue".toList, "red".toList, "yellow".toList] "or".toList).map String.ofList = some "'blue', 'red' or 'yellow'" := by
  decide +kernel

example : '\'' ∉ "and".toList ∧ (∀ c ∈ ["square".toList, "linear".toList], '\'' ∉ c) := by decide +kernel

/-! ### The process -/

/-- `('/{:0' + n + '}').format(rank)`: the rank, with zeros on its left up to the width. -/
def padded (width rank : Nat) : List Char := List.replicate (width - (decimal rank).length) '0' ++ decimal rank

/-- `strinfo(msg)`: src/pyoperators/utils/misc.py:958-982.  `node` is the name of the processor, `size` and `rank` those of MPI.COMM_WORLD.  The
integer part of `np.log10(size - 1)` is that of the exact logarithm: the logarithms of the powers of ten are supposed not to be rounded down. -/
def strinfo (node : List Char) (size rank : Nat) (msg : List Char) : List Char :=
  let rank := if size > 1 then '/' :: padded (Nat.log 10 (size - 1) + 1) rank else []
  ['I', 'n', 'f', 'o', ' '] ++ node ++ rank ++ [':', ' '] ++ msg ++ ['.']

theorem padded_inj {w m n : Nat} (h : padded w m = padded w n) : m = n := by
  have := congrArg (fun l => Nat.ofDigitChars 10 l 0) h
  simpa [padded, decimal, Nat.ofDigitChars_append] using this

theorem padded_length {w n : Nat} (hw : 0 < w) (h : n < 10 ^ w) : (padded w n).length = w := by
  have := (Nat.length_toDigits_le_iff (b := 10) (n := n) (k := w) (by decide) hw).2 h
  unfold padded decimal
  rw [List.length_append, List.length_replicate]
  omega

/-- **C125.** The processes of a node that print the same message print different lines, of the same length. -/
theorem C125_rank (node msg : List Char) {size r q : Nat} (hr : r < size) (hq : q < size) :
    (strinfo node size r msg = strinfo node size q msg ↔ r = q) ∧
      (strinfo node size r msg).length = (strinfo node size q msg).length := by
  by_cases hs : size > 1
  · have hw : ∀ k < size, k < 10 ^ (Nat.log 10 (size - 1) + 1) := fun k hk =>
      lt_of_le_of_lt (by omega) (Nat.lt_pow_succ_log_self (by decide) (size - 1))
    constructor
    · constructor
      · intro h
        unfold strinfo at h
        simp only [if_pos hs, List.append_assoc] at h
        have h := List.append_cancel_left (List.append_cancel_left h)
        have h := List.append_cancel_right h
        exact padded_inj (List.cons.inj h).2
      · rintro rfl
        rfl
    · unfold strinfo
      simp only [if_pos hs, List.length_append, List.length_cons, padded_length (Nat.succ_pos _) (hw r hr),
        padded_length (Nat.succ_pos _) (hw q hq)]
  · have : r = q := by omega
    subst this
    simp

/-- **C125.** The line of a process is the message after its prefix. -/
theorem C125_message (node : List Char) (size rank : Nat) (m m' : List Char) :
    strinfo node size rank m = strinfo node size rank m' ↔ m = m' := by
  unfold strinfo
  simp

/-- The eighth process of twelve. -/
example : strinfo ['n'] 12 7 ['d'] = ['I', 'n', 'f', 'o', ' ', 'n', '/', '0', '7', ':', ' ', 'd', '.'] := by
  have e : Nat.log 10 11 = 1 := (Nat.log_eq_iff (by decide)).2 (by norm_num)
  unfold strinfo
  simp only [Nat.add_one_sub_one, e]
  rfl

/-! ### The sizes -/

/-- The units of `strnbytes`. -/
inductive Units
  | bytes | kib | mib | gib
deriving DecidableEq

/-- `strnbytes(nbytes)`: src/pyoperators/utils/misc.py:985-1008.  The number that is written, and its unit.  `fl` is the rounding of the division of two
integers to a number of 64 bits; the text of such a number identifies it. -/
def strnbytes (fl : Rat → Rat) (n : Nat) : Rat × Units :=
  if n < 1024 then (n, .bytes)
  else if n < 1048576 then (fl (n / 2 ^ 10), .kib)
  else if n < 1073741824 then (fl (n / 2 ^ 20), .mib)
  else (fl (n / 2 ^ 30), .gib)

/-- The number of bytes of a unit. -/
def Units.size : Units → Rat
  | .bytes => 1
  | .kib => 1024
  | .mib => 1024 ^ 2
  | .gib => 1024 ^ 3

/-- The non-negative numbers that have 53 significant bits. -/
def Representable (x : Rat) : Prop := ∃ m k : Nat, m < 2 ^ 53 ∧ (x = m / 2 ^ k ∨ x = m * 2 ^ k)

/-- **C126, partial.** The number that is written is exact, it is less than 1024 but for the largest unit, and it is at least one but for bytes.  Missing
from the full property: the sizes of 2^53 bytes and more (`C126_rounding_fails`). -/
theorem C126_bytes_partial {fl : Rat → Rat} (hfl : ∀ m k : Nat, m < 2 ^ 53 → k ≤ 30 → fl (m / 2 ^ k) = m / 2 ^ k) {n : Nat} (hn : n < 2 ^ 53) :
    (strnbytes fl n).1 * (strnbytes fl n).2.size = n ∧ ((strnbytes fl n).2 ≠ .gib → (strnbytes fl n).1 < 1024) ∧
      ((strnbytes fl n).2 ≠ .bytes → 1 ≤ (strnbytes fl n).1) := by
  have e10 := hfl n 10 hn (by decide)
  have e20 := hfl n 20 hn (by decide)
  have e30 := hfl n 30 hn (by decide)
  unfold strnbytes
  split
  · rename_i h
    refine ⟨by simp [Units.size], fun _ => ?_, fun h => absurd rfl h⟩
    show (n : Rat) < 1024
    exact_mod_cast h
  · rename_i h0
    have h0 : (1024 : Rat) ≤ n := by exact_mod_cast not_lt.1 h0
    split
    · rename_i h
      have h : (n : Rat) < 1048576 := by exact_mod_cast h
      simp only [e10, e20, e30, Units.size]
      refine ⟨by ring, fun _ => by linarith, fun _ => by linarith⟩
    · rename_i h1
      have h1 : (1048576 : Rat) ≤ n := by exact_mod_cast not_lt.1 h1
      split
      · rename_i h
        have h : (n : Rat) < 1073741824 := by exact_mod_cast h
        simp only [e10, e20, e30, Units.size]
        refine ⟨by ring, fun _ => by linarith, fun _ => by linarith⟩
      · rename_i h2
        have h2 : (1073741824 : Rat) ≤ n := by exact_mod_cast not_lt.1 h2
        simp only [e10, e20, e30, Units.size]
        refine ⟨by ring, fun h => absurd rfl h, fun _ => by linarith⟩

/-- 80000 bytes are 78.125 KiB. -/
example : strnbytes id 80000 = (625 / 8, .kib) := by
  simp only [strnbytes, id]
  norm_num

/-- **C126 does not hold** for all the sizes: for any rounding, the number that is written for 2^53 + 1 bytes is not exact. -/
theorem C126_rounding_fails {fl : Rat → Rat} (hfl : ∀ x, Representable (fl x)) :
    (strnbytes fl (2 ^ 53 + 1)).1 * (strnbytes fl (2 ^ 53 + 1)).2.size ≠ ((2 ^ 53 + 1 : Nat) : Rat) := by
  have e : strnbytes fl (2 ^ 53 + 1) = (fl (((2 ^ 53 + 1 : Nat) : Rat) / 2 ^ 30), .gib) := by
    unfold strnbytes
    rw [if_neg (by norm_num), if_neg (by norm_num), if_neg (by norm_num)]
  rw [e]
  generalize ((2 ^ 53 + 1 : Nat) : Rat) / 2 ^ 30 = x
  obtain ⟨m, k, hm, h | h⟩ := hfl x
  · simp only [h, Units.size]
    intro h
    have h : (m : Rat) * 1024 ^ 3 = (2 ^ 53 + 1) * 2 ^ k := by
      field_simp at h
      push_cast at h
      linarith
    have h : m * 1024 ^ 3 = (2 ^ 53 + 1) * 2 ^ k := by exact_mod_cast h
    by_cases hk : k < 30
    · obtain ⟨j, hj⟩ : ∃ j, 30 = k + (j + 1) := ⟨29 - k, by omega⟩
      have e3 : 1024 ^ 3 = 2 ^ k * (2 ^ j * 2) := by
        rw [← pow_succ, ← pow_add, ← hj]
        norm_num
      rw [e3] at h
      have h : 2 ^ k * (m * (2 ^ j * 2)) = 2 ^ k * (2 ^ 53 + 1) := by linarith
      have h := Nat.eq_of_mul_eq_mul_left (Nat.two_pow_pos k) h
      have h : m * 2 ^ j * 2 = 2 ^ 53 + 1 := by linarith
      omega
    · obtain ⟨j, rfl⟩ : ∃ j, k = 30 + j := ⟨k - 30, by omega⟩
      have h : 2 ^ 30 * m = 2 ^ 30 * ((2 ^ 53 + 1) * 2 ^ j) := by
        rw [pow_add] at h
        linarith
      have h := Nat.eq_of_mul_eq_mul_left (Nat.two_pow_pos 30) h
      have := Nat.two_pow_pos j
      have : 2 ^ 53 + 1 ≤ (2 ^ 53 + 1) * 2 ^ j := Nat.le_mul_of_pos_right _ this
      omega
  · simp only [h, Units.size]
    intro h
    have h : m * 2 ^ k * 1024 ^ 3 = 2 ^ 53 + 1 := by exact_mod_cast h
    omega

end Verif.Utils.Text
