import Mathlib.Data.Nat.Digits.Defs
import Mathlib.Tactic.Ring

/-
Property C133: the settings that are read from the environment (src/pyoperators/config.py:8-19 and 33-50).
-/

namespace Verif.Utils.Environment

/-- White space, for `str.strip` and for `int`.  Simplification: the four usual characters only. -/
def white (c : Char) : Bool := c = ' ' || c = '\t' || c = '\n' || c = '\r'

/-- `str.strip`: src/pyoperators/config.py:9. -/
def strip (s : List Char) : List Char := ((s.dropWhile white).reverse.dropWhile white).reverse

/-- The value of a digit.  Simplification: the digits of the other alphabets, which `int` accepts, are not modelled. -/
def digit (c : Char) : Option Nat := if 48 ≤ c.toNat ∧ c.toNat ≤ 57 then some (c.toNat - 48) else none

/-- The digits of an integer literal for `int`: single underscores are allowed between digits.  `after`: the previous character is a digit. -/
def digits (acc : Nat) (after : Bool) : List Char → Option Nat
  | [] => if after then some acc else none
  | c :: cs =>
    match digit c with
    | some d => digits (10 * acc + d) true cs
    | none => if c = '_' ∧ after = true then digits acc false cs else none

/-- `int(val)` for a stripped text: src/pyoperators/config.py:13-14; `none` for ValueError. -/
def toInt : List Char → Option Int
  | '-' :: cs => (digits 0 false cs).map fun n => -(n : Int)
  | '+' :: cs => (digits 0 false cs).map fun n => (n : Int)
  | cs => (digits 0 false cs).map fun n => (n : Int)

/-- The class of a setting.  The settings of class float (garbage collection threshold and tolerance of the pool) are not modelled. -/
inductive Cls where
  | int
  | bool
deriving DecidableEq

/-- `cls(val)` after the conversion into an integer; True and False are 1 and 0. -/
def Cls.make : Cls → Int → Int
  | .int, v => v
  | .bool, v => if v = 0 then 0 else 1

/-- `getenv(key, default, cls)`: src/pyoperators/config.py:8-19, for the text of the variable (`none` if it is not set); the value of the
setting and whether a warning is issued. -/
def getenv (env : Option (List Char)) (default : Int) (cls : Cls) : Int × Bool :=
  let val := strip (env.getD [])
  if val.length = 0 then (cls.make default, false)
  else
    match toInt val with
    | some v => (cls.make v, false)
    | none => (cls.make default, true)

/-- The aligned part of `empty`, src/pyoperators/memory.py:63-77: the offset of the array in a buffer of `requested + alignment` bytes at
the given address.  `none` for an exception: negative size of the buffer, modulo by zero, offset out of the buffer. -/
def emptyOffset (alignment address requested : Int) : Option Int :=
  if requested + alignment < 0 then none
  else if alignment = 0 then none
  else
    let offset := alignment - address.fmod alignment
    if offset < 0 ∨ requested + alignment < offset + requested then none else some offset

/-! ### Reading -/

/-- A sign, as it may be written. -/
inductive Sign where
  | absent
  | plus
  | minus

def Sign.text : Sign → List Char
  | .absent => []
  | .plus => ['+']
  | .minus => ['-']

def Sign.apply : Sign → Int → Int
  | .minus, n => -n
  | _, n => n

/-- The character of a digit. -/
def char (d : Fin 10) : Char := Char.ofNat (48 + d.val)

theorem digit_char (d : Fin 10) : digit (char d) = some d.val := by
  revert d; decide

theorem char_facts (d : Fin 10) : white (char d) = false ∧ char d ≠ '-' ∧ char d ≠ '+' := by
  revert d; decide

theorem digits_chars (ds : List (Fin 10)) : ∀ (acc : Nat) (after : Bool), (ds ≠ [] ∨ after = true) →
    digits acc after (ds.map char) = some (10 ^ ds.length * acc + Nat.ofDigits 10 (ds.reverse.map Fin.val)) := by
  induction ds with
  | nil =>
    intro acc after h
    have : after = true := by simpa using h
    simp [digits, this]
  | cons d ds ih =>
    intro acc after _
    rw [List.map_cons, digits, digit_char]
    dsimp only
    rw [ih _ true (Or.inr rfl), List.reverse_cons, List.map_append, Nat.ofDigits_append]
    simp only [List.length_map, List.length_reverse, List.map_cons, List.map_nil, Nat.ofDigits_singleton, List.length_cons]
    congr 1
    ring

theorem dropWhile_white (pre s : List Char) (hp : ∀ c ∈ pre, white c = true) (hs : ∀ c ∈ s.head?, white c = false) :
    (pre ++ s).dropWhile white = s := by
  induction pre with
  | nil =>
    cases s with
    | nil => rfl
    | cons c cs => simp [hs c (by simp)]
  | cons c cs ih =>
    rw [List.cons_append, List.dropWhile_cons_of_pos (hp c (by simp))]
    exact ih fun c hc => hp c (by simp [hc])

theorem strip_pad (pre s post : List Char) (hp : ∀ c ∈ pre, white c = true) (hq : ∀ c ∈ post, white c = true)
    (h : ∀ c ∈ s, white c = false) (hne : s ≠ []) : strip (pre ++ s ++ post) = s := by
  unfold strip
  rw [List.append_assoc, dropWhile_white pre (s ++ post) hp, List.reverse_append, dropWhile_white, List.reverse_reverse]
  · intro c hc; exact hq c (by simpa using hc)
  · intro c hc
    exact h c (by simpa using List.mem_of_mem_head? hc)
  · intro c hc
    apply h c
    cases s with
    | nil => exact absurd rfl hne
    | cons x xs => simp at hc; simp [hc]

theorem toInt_chars (sg : Sign) (ds : List (Fin 10)) (hd : ds ≠ []) :
    toInt (sg.text ++ ds.map char) = some (sg.apply (Nat.ofDigits 10 (ds.reverse.map Fin.val) : Nat)) := by
  have h := digits_chars ds 0 false (Or.inl hd)
  simp only [Nat.mul_zero, Nat.zero_add] at h
  cases sg with
  | minus => simp [Sign.text, toInt, h, Sign.apply]
  | plus => simp [Sign.text, toInt, h, Sign.apply]
  | absent =>
    cases ds with
    | nil => exact absurd rfl hd
    | cons d ds =>
      obtain ⟨_, h1, h2⟩ := char_facts d
      simp only [Sign.text, List.nil_append, List.map_cons, Sign.apply] at h ⊢
      unfold toInt
      split
      · rename_i e; exact absurd (List.cons.inj e).1 h1
      · rename_i e; exact absurd (List.cons.inj e).1 h2
      · rw [h]; rfl

/-- C133: an integer written in the environment, with or without sign, leading zeros and white space around it, is the value of the
setting, without warning; for a switch, it is on if and only if the integer is not zero. -/
theorem C133_integer (pre post : List Char) (hp : ∀ c ∈ pre, white c = true) (hq : ∀ c ∈ post, white c = true) (sg : Sign)
    (ds : List (Fin 10)) (hd : ds ≠ []) (default : Int) :
    getenv (some (pre ++ (sg.text ++ ds.map char) ++ post)) default .int =
      (sg.apply (Nat.ofDigits 10 (ds.reverse.map Fin.val) : Nat), false) ∧
    ((getenv (some (pre ++ (sg.text ++ ds.map char) ++ post)) default .bool = (0, false) ∧ ∀ d ∈ ds, d = 0) ∨
      (getenv (some (pre ++ (sg.text ++ ds.map char) ++ post)) default .bool = (1, false) ∧ ∃ d ∈ ds, d ≠ 0)) := by
  have hs : strip (pre ++ (sg.text ++ ds.map char) ++ post) = sg.text ++ ds.map char := by
    apply strip_pad _ _ _ hp hq
    · intro c hc
      rcases List.mem_append.mp hc with h | h
      · cases sg with
        | absent => simp [Sign.text] at h
        | plus => simp only [Sign.text, List.mem_singleton] at h; subst h; rfl
        | minus => simp only [Sign.text, List.mem_singleton] at h; subst h; rfl
      · obtain ⟨d, _, rfl⟩ := List.mem_map.mp h; exact (char_facts d).1
    · simp [hd]
  have hlen : (sg.text ++ ds.map char).length ≠ 0 := by
    have : 0 < ds.length := List.length_pos_iff.mpr hd
    rw [List.length_append, List.length_map]; omega
  have hg : ∀ cls, getenv (some (pre ++ (sg.text ++ ds.map char) ++ post)) default cls =
      (cls.make (sg.apply (Nat.ofDigits 10 (ds.reverse.map Fin.val) : Nat)), false) := by
    intro cls
    simp only [getenv, Option.getD_some, hs, if_neg hlen, toInt_chars sg ds hd]
  have hz : sg.apply (Nat.ofDigits 10 (ds.reverse.map Fin.val) : Nat) = 0 ↔ Nat.ofDigits 10 (ds.reverse.map Fin.val) = 0 := by
    cases sg <;> simp [Sign.apply]
  have h0 : ∀ l : List Nat, Nat.ofDigits 10 l = 0 ↔ ∀ d ∈ l, d = 0 := by
    intro l
    induction l with
    | nil => simp
    | cons a l ih => rw [Nat.ofDigits_cons, List.forall_mem_cons, ← ih]; omega
  have hall : sg.apply (Nat.ofDigits 10 (ds.reverse.map Fin.val) : Nat) = 0 ↔ ∀ d ∈ ds, d = 0 := by
    rw [hz, h0]
    constructor
    · intro h d hd; exact Fin.ext (h d.val (by simpa using ⟨d, hd, rfl⟩))
    · intro h n hn
      obtain ⟨d, hd, rfl⟩ := List.mem_map.mp hn
      rw [h d (List.mem_reverse.mp hd)]; rfl
  refine ⟨hg .int, ?_⟩
  rw [hg .bool]
  by_cases h : sg.apply (Nat.ofDigits 10 (ds.reverse.map Fin.val) : Nat) = 0
  · exact Or.inl ⟨by rw [Cls.make, if_pos h], hall.mp h⟩
  · refine Or.inr ⟨by rw [Cls.make, if_neg h], ?_⟩
    by_contra hc
    exact h (hall.mpr fun d hd => by by_contra h'; exact hc ⟨d, hd, h'⟩)

/-- Instance: ' -064\n'. -/
example : (∀ c ∈ [' '], white c = true) ∧ (∀ c ∈ ['\n'], white c = true) ∧ ([0, 6, 4] : List (Fin 10)) ≠ [] ∧
    getenv (some ([' '] ++ (Sign.minus.text ++ ([0, 6, 4] : List (Fin 10)).map char) ++ ['\n'])) 32 .int = (-64, false) := by
  decide +kernel

theorem strip_blank (s : List Char) (h : ∀ c ∈ s, white c = true) : strip s = [] := by
  have := dropWhile_white s [] h (by simp)
  rw [List.append_nil] at this
  simp [strip, this]

/-- C133: a variable that is not set, or that is blank, gives the default value without warning. -/
theorem C133_blank (env : Option (List Char)) (h : ∀ s, env = some s → ∀ c ∈ s, white c = true) (default : Int) :
    getenv env default .int = (default, false) ∧
    getenv env default .bool = (if default = 0 then 0 else 1, false) := by
  have hs : strip (env.getD []) = [] := by
    apply strip_blank
    cases env with
    | none => simp
    | some s => exact h s rfl
  simp [getenv, hs, Cls.make]

example : (∀ s, some [' ', '\t'] = some s → ∀ c ∈ s, white c = true) ∧ getenv (some [' ', '\t']) 32 .int = (32, false) :=
  ⟨by intro s h c hc; cases h; revert c; decide, by decide +kernel⟩

theorem digits_bad (s : List Char) (c : Char) (hc : c ∈ s) (hd : digit c = none) (hu : c ≠ '_') :
    ∀ acc after, digits acc after s = none := by
  induction s with
  | nil => simp at hc
  | cons x xs ih =>
    intro acc after
    rw [digits]
    rcases List.mem_cons.mp hc with rfl | h
    · rw [hd]; simp [hu]
    · cases digit x with
      | some d => exact ih h _ _
      | none =>
        dsimp only
        split
        · exact ih h _ _
        · rfl

theorem mem_strip (s : List Char) (c : Char) (hc : c ∈ s) (hw : white c = false) : c ∈ strip s := by
  have key : ∀ l : List Char, c ∈ l → c ∈ l.dropWhile white := by
    intro l hl
    induction l with
    | nil => simp at hl
    | cons x xs ih =>
      rw [List.dropWhile_cons]
      split
      · rename_i hx
        rcases List.mem_cons.mp hl with rfl | h
        · rw [hw] at hx; simp at hx
        · exact ih h
      · exact hl
  rw [strip, List.mem_reverse]
  exact key _ (List.mem_reverse.mpr (key s hc))

/-- C133: a text with a character that is neither white space, a digit, a sign nor an underscore gives the default value with a warning. -/
theorem C133_invalid (s : List Char) (c : Char) (hc : c ∈ s) (hw : white c = false) (hd : digit c = none) (hu : c ≠ '_')
    (hm : c ≠ '-') (hp : c ≠ '+') (default : Int) :
    getenv (some s) default .int = (default, true) ∧ getenv (some s) default .bool = (if default = 0 then 0 else 1, true) := by
  have h1 := mem_strip s c hc hw
  have h2 : toInt (strip s) = none := by
    unfold toInt
    split
    · rename_i cs e
      rw [e] at h1
      rw [digits_bad cs c (by simpa [hm] using h1) hd hu]; rfl
    · rename_i cs e
      rw [e] at h1
      rw [digits_bad cs c (by simpa [hp] using h1) hd hu]; rfl
    · rw [digits_bad _ c h1 hd hu]; rfl
  have h3 : (strip s).length ≠ 0 := (List.length_pos_of_mem h1).ne'
  simp only [getenv, Option.getD_some, if_neg h3, h2, Cls.make, and_self]

/-- C133: a text that is not blank and that has no digit, such as a lone sign, gives the default value with a warning. -/
theorem C133_misplaced (s : List Char) (hne : ∃ c ∈ s, white c = false) (h : ∀ c ∈ s, digit c = none) (default : Int) :
    getenv (some s) default .int = (default, true) ∧ getenv (some s) default .bool = (if default = 0 then 0 else 1, true) := by
  have sub : ∀ c ∈ strip s, c ∈ s := by
    intro c hc
    rw [strip, List.mem_reverse] at hc
    exact (List.dropWhile_sublist _).subset (List.mem_reverse.mp ((List.dropWhile_sublist _).subset hc))
  have none_of : ∀ l : List Char, (∀ c ∈ l, digit c = none) → digits 0 false l = none := by
    intro l hl
    cases l with
    | nil => rfl
    | cons x xs => rw [digits, hl x (by simp)]; simp
  have h2 : toInt (strip s) = none := by
    unfold toInt
    split
    · rename_i cs e
      rw [none_of cs fun c hc => h c (sub c (by rw [e]; simp [hc]))]; rfl
    · rename_i cs e
      rw [none_of cs fun c hc => h c (sub c (by rw [e]; simp [hc]))]; rfl
    · rw [none_of _ fun c hc => h c (sub c hc)]; rfl
  obtain ⟨c, hc, hw⟩ := hne
  have h3 : (strip s).length ≠ 0 := (List.length_pos_of_mem (mem_strip s c hc hw)).ne'
  simp only [getenv, Option.getD_some, if_neg h3, h2, Cls.make, and_self]

example : (∃ c ∈ ['-', '_', ' '], white c = false) ∧ (∀ c ∈ ['-', '_', ' '], digit c = none) ∧
    getenv (some ['-', '_', ' ']) 32 .int = (32, true) := by decide +kernel

example : '.' ∈ ['1', '.', '5'] ∧ white '.' = false ∧ digit '.' = none ∧ getenv (some ['1', '.', '5']) 32 .int = (32, true) := by
  decide +kernel

/-- C133, partial: with a positive setting of the alignment, an allocation does not raise an exception and the array fits in the buffer, at
an address which is a multiple of the alignment.  Missing: the other settings, which are accepted too (`C133_zero_fails`). -/
theorem C133_alignment_partial (alignment address requested : Int) (ha : 0 < alignment) (hr : 0 < requested) :
    ∃ o, emptyOffset alignment address requested = some o ∧ 0 ≤ o ∧ o + requested ≤ requested + alignment ∧
      alignment ∣ address + o := by
  have h1 := Int.fmod_nonneg_of_pos address ha
  have h2 := Int.fmod_lt_of_pos address ha
  refine ⟨alignment - address.fmod alignment, ?_, by omega, by omega, ?_⟩
  · unfold emptyOffset
    rw [if_neg (by omega), if_neg (by omega)]
    dsimp only
    rw [if_neg (by omega)]
  · have h3 := Int.mul_fdiv_add_fmod address alignment
    exact ⟨address.fdiv alignment + 1, by rw [Int.mul_add]; omega⟩

example : (0 : Int) < 32 ∧ emptyOffset 32 1000 64 = some 24 := by decide

/-- C133 is violated by the code: the alignments 0 and -32 are accepted without warning, and then all the allocations raise an exception. -/
theorem C133_zero_fails :
    getenv (some ['0']) 32 .int = (0, false) ∧ getenv (some ['-', '3', '2']) 32 .int = (-32, false) ∧
    (∀ address requested, emptyOffset 0 address requested = none) ∧
    ∀ address requested, emptyOffset (-32) address requested = none := by
  refine ⟨by decide +kernel, by decide +kernel, ?_, ?_⟩
  · intro address requested
    simp [emptyOffset]
  · intro address requested
    have h : -32 < address.fmod (-32) := by
      have e := Int.neg_fmod_neg (-address) 32
      rw [Int.neg_neg] at e
      have := Int.fmod_lt_of_pos (-address) (b := 32) (by decide)
      omega
    unfold emptyOffset
    split
    · rfl
    · rw [if_neg (by decide)]
      dsimp only
      rw [if_pos (by omega)]

/-- C133 is violated by the code: a switch that is set to 'true' is off (with a warning). -/
theorem C133_true_fails : getenv (some ['t', 'r', 'u', 'e']) 0 .bool = (0, true) := by decide +kernel

end Verif.Utils.Environment
