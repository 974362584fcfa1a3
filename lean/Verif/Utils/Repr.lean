import Mathlib.Data.List.Basic
import Mathlib.Data.List.TakeWhile
import Mathlib.Tactic.Tauto

/-!
# C130: the text of an operator

`Operator.__repr__`: the call of the class of the operator that it displays, and the text of the arrays among its arguments.
-/

namespace Verif.Utils.Repr

/-- The values of the attributes of an operator.  Everything but methods, operators, shapes and arrays is `other`, with its text. -/
inductive Value where
  | none
  | method
  | operator (id : Nat)
  | shape (l : List Nat)
  | array (ndim : Nat) (flat : List String) (dtype : String)
  | other (text : String)
deriving DecidableEq

/-- A parameter of a constructor; `keywords` is the parameter `**keywords`.  Parameters `*args` are not modelled. -/
inductive Kind where
  | required
  | optional (default : Value)
  | keywords
deriving DecidableEq

structure Param where
  name : String
  kind : Kind
deriving DecidableEq

/-- The default value of `inspect.signature`; `none` stands for `inspect._empty`, which is also the default of `**keywords`:
src/pyoperators/core.py:1591-1593. -/
def Kind.default : Kind → Option Value
  | .required => .none
  | .optional d => .some d
  | .keywords => .none

/-- The attributes of an operator and the flags that `__repr__` reads. -/
structure Op where
  attr : String → Option Value
  implicitIn : Bool
  implicitOut : Bool
  square : Bool

/-- `getattr(self, name, None)`: src/pyoperators/core.py:1616. -/
def Op.get (op : Op) (name : String) : Value := (op.attr name).getD .none

/-- The parameters that are not displayed because of their name or of the flags: src/pyoperators/core.py:1603-1614. -/
def hidden (op : Op) (name : String) : Bool :=
  name == "flags" || name == "self" || (name == "shapeout" && op.implicitOut) || (name == "shapein" && op.implicitIn) ||
    (name == "reshapeout" && op.square && op.implicitIn)

/-- `val == default`: src/pyoperators/core.py:1619-1625.  An array of one element is equal to the default value if its element is; the comparison of the other
arrays raises an exception, and the test is then `val is default` (here, the equality of the arrays). -/
def isDefault : Value → Value → Bool
  | .array _ [x] _, .other y => x == y
  | v, d => decide (v = d)

/-- What a parameter adds to the arguments: a positional argument, an argument with its name, or nothing: src/pyoperators/core.py:1602-1663. -/
def shown (op : Op) (p : Param) : Option (Option String × Value) :=
  if hidden op p.name then none
  else if op.get p.name = .method then none
  else match p.kind.default with
    | none => some (none, op.get p.name)
    | some d => if isDefault (op.get p.name) d then none else some (some p.name, op.get p.name)

/-- The parameters of the constructor, to which `shapein` and `shapeout` are added: src/pyoperators/core.py:1591-1600. -/
def parameters (sig : List Param) : List Param :=
  sig ++ (if sig.any (·.name == "shapein") then [] else [⟨"shapein", .optional .none⟩]) ++
    (if sig.any (·.name == "shapeout") then [] else [⟨"shapeout", .optional .none⟩])

/-- The arguments of the call that `__repr__` displays: src/pyoperators/core.py:1588-1663. -/
def arguments (op : Op) (sig : List Param) : List (Option String × Value) := (parameters sig).filterMap (shown op)

inductive Err where
  | syntaxError
  | typeError
deriving DecidableEq

/-- The specification: the values that the parameters receive when Python calls the constructor with the arguments.  The names of the arguments are supposed to be
distinct. -/
def bindCall (sig : List Param) (args : List (Option String × Value)) : Except Err (List (String × Value)) :=
  let ps := sig.filter fun p => p.kind != .keywords
  let pos := args.takeWhile fun a => a.1.isNone
  let kw := args.dropWhile fun a => a.1.isNone
  let rest := ps.drop pos.length
  if kw.any fun a => a.1.isNone then .error .syntaxError
  else if pos.length > ps.length then .error .typeError
  else if kw.any fun a => !(rest.any fun p => some p.name == a.1) && !(sig.any fun p => p.kind == .keywords) then .error .typeError
  else if kw.any fun a => (ps.take pos.length).any fun p => some p.name == a.1 then .error .typeError
  else if rest.any fun p => p.kind == .required && !(kw.any fun a => a.1 == some p.name) then .error .typeError
  else .ok ((ps.take pos.length).zipWith (fun p a => (p.name, a.2)) pos ++ rest.map fun p =>
    (p.name, ((kw.find? fun a => a.1 == some p.name).map Prod.snd).getD (p.kind.default.getD .none)))

theorem filterMap_required (op : Op) : ∀ reqs : List Param, (∀ p ∈ reqs, p.kind = .required ∧ hidden op p.name = false ∧ op.get p.name ≠ .method) →
    reqs.filterMap (shown op) = reqs.map fun p => (none, op.get p.name) := by
  intro reqs
  induction reqs with
  | nil => intro; rfl
  | cons p t ih =>
    intro h
    obtain ⟨h1, h2, h3⟩ := h p (by simp)
    have : shown op p = some (none, op.get p.name) := by
      unfold shown
      rw [h2, if_neg (by decide), if_neg h3, h1]
      rfl
    rw [List.filterMap_cons_some this, ih fun q hq => h q (by simp [hq])]
    rfl

theorem shown_optional {op : Op} {p : Param} {d : Value} (h : p.kind = .optional d) {a : Option String × Value} (ha : shown op p = some a) :
    a = (some p.name, op.get p.name) := by
  unfold shown at ha
  rw [h] at ha
  simp only [Kind.default] at ha
  split at ha
  · cases ha
  · split at ha
    · cases ha
    · split at ha
      · cases ha
      · exact (Option.some.inj ha).symm

theorem shown_optional_none {op : Op} {p : Param} {d : Value} (h : p.kind = .optional d) (ha : shown op p = none) :
    hidden op p.name = true ∨ op.get p.name = .method ∨ isDefault (op.get p.name) d = true := by
  unfold shown at ha
  rw [h] at ha
  simp only [Kind.default] at ha
  split at ha
  · left; assumption
  · split at ha
    · right; left; assumption
    · split at ha
      · right; right; assumption
      · cases ha

theorem takeWhile_split {α : Type} (f : α → Bool) {a b : List α} (ha : ∀ x ∈ a, f x = true) (hb : ∀ x ∈ b, f x = false) :
    (a ++ b).takeWhile f = a ∧ (a ++ b).dropWhile f = b := by
  induction a with
  | nil =>
    cases b with
    | nil => simp
    | cons x t => simp [hb x (by simp)]
  | cons x t ih =>
    have := ih fun y hy => ha y (by simp [hy])
    simp [ha x (by simp), this]

theorem find_kw (op : Op) : ∀ opts : List Param, (opts.map Param.name).Nodup → (∀ p ∈ opts, ∃ d, p.kind = .optional d) → ∀ p ∈ opts,
    (opts.filterMap (shown op)).find? (fun a => a.1 == some p.name) = shown op p := by
  intro opts
  induction opts with
  | nil => intro _ _ p hp; cases hp
  | cons q t ih =>
    intro hn hk p hp
    rw [List.map_cons, List.nodup_cons] at hn
    obtain ⟨d, hd⟩ := hk q (by simp)
    have hmiss : ∀ r : Param, r.name ∉ t.map Param.name → (t.filterMap (shown op)).find? (fun a => a.1 == some r.name) = none := by
      intro r hr
      rw [List.find?_eq_none]
      intro a ha
      obtain ⟨s, hs, hsa⟩ := List.mem_filterMap.1 ha
      obtain ⟨d', hd'⟩ := hk s (by simp [hs])
      rw [shown_optional hd' hsa]
      simp only [beq_iff_eq, Option.some.injEq]
      intro e
      exact hr (e ▸ List.mem_map_of_mem hs)
    cases hq : shown op q with
    | none =>
      rw [List.filterMap_cons_none hq]
      rcases List.mem_cons.1 hp with rfl | hp
      · rw [hmiss _ hn.1, hq]
      · exact ih hn.2 (fun r hr => hk r (by simp [hr])) p hp
    | some a =>
      rw [List.filterMap_cons_some hq]
      have ea := shown_optional hd hq
      rcases List.mem_cons.1 hp with rfl | hp
      · rw [List.find?_cons_of_pos (by simp [ea]), hq]
      · rw [List.find?_cons_of_neg]
        · exact ih hn.2 (fun r hr => hk r (by simp [hr])) p hp
        · rw [ea]
          simp only [beq_iff_eq, Option.some.injEq]
          intro e
          exact hn.1 (e ▸ List.mem_map_of_mem hp)

theorem zipWith_self {α β γ : Type} (f : α → β → γ) (g : α → β) (l : List α) : List.zipWith f l (l.map g) = l.map fun x => f x (g x) := by
  induction l with
  | nil => rfl
  | cons x t ih => simp [ih]

theorem isDefault_iff {v d : Value} (h : isDefault v d = true) : v = d ∨ ∃ n x ty, v = .array n [x] ty ∧ d = .other x := by
  unfold isDefault at h
  split at h
  · rename_i n x ty y
    right
    exact ⟨n, x, ty, rfl, by rw [beq_iff_eq.1 h]⟩
  · left
    simpa using h

theorem hidden_iff {op : Op} {name : String} : hidden op name = true ↔ name = "flags" ∨ name = "self" ∨ (name = "shapeout" ∧ op.implicitOut = true) ∨
    (name = "shapein" ∧ op.implicitIn = true) ∨ (name = "reshapeout" ∧ op.square = true ∧ op.implicitIn = true) := by
  simp [hidden, or_assoc, and_assoc]

/-- **C130, partial.** For a constructor without `**keywords`, that has the parameters shapein and shapeout: the call that is displayed is accepted by Python,
each parameter is given once, and it receives the value of the attribute, except in these cases, in which it receives its default value: the flags, the attributes that are methods, the shapes that are
implicit, and an array of one element that is equal to the default value.  Missing from the full property: the constructors with
`**keywords` (`C130_keywords_fails`, `C130_syntax_fails`). -/
theorem C130_rebuild_partial (op : Op) (reqs opts : List Param)
    (hr : ∀ p ∈ reqs, p.kind = .required ∧ p.name ∉ ["flags", "self", "shapein", "shapeout", "reshapeout"] ∧ op.get p.name ≠ .method)
    (ho : ∀ p ∈ opts, ∃ d, p.kind = .optional d) (hn : ((reqs ++ opts).map Param.name).Nodup)
    (hi : "shapein" ∈ (reqs ++ opts).map Param.name) (hu : "shapeout" ∈ (reqs ++ opts).map Param.name) :
    ∃ f : Param → Value, bindCall (reqs ++ opts) (arguments op (reqs ++ opts)) = .ok ((reqs ++ opts).map fun p => (p.name, f p)) ∧
      (∀ p ∈ reqs, f p = op.get p.name) ∧
      ∀ p ∈ opts, f p = op.get p.name ∨
        (p.kind = .optional (f p) ∧ (p.name = "flags" ∨ p.name = "self" ∨ (p.name = "shapeout" ∧ op.implicitOut = true) ∨
          (p.name = "shapein" ∧ op.implicitIn = true) ∨ (p.name = "reshapeout" ∧ op.square = true ∧ op.implicitIn = true) ∨
          op.get p.name = .method ∨ ∃ n x ty, op.get p.name = .array n [x] ty ∧ f p = .other x)) := by
  have hr : ∀ p ∈ reqs, p.kind = .required ∧ hidden op p.name = false ∧ op.get p.name ≠ .method := by
    intro p hp
    obtain ⟨h1, h2, h3⟩ := hr p hp
    refine ⟨h1, ?_, h3⟩
    rw [← Bool.not_eq_true, hidden_iff]
    simp only [List.mem_cons, List.not_mem_nil, or_false, not_or] at h2
    tauto
  have hp : parameters (reqs ++ opts) = reqs ++ opts := by
    have h1 : (reqs ++ opts).any (·.name == "shapein") = true := by
      obtain ⟨p, hp, e⟩ := List.mem_map.1 hi
      exact List.any_eq_true.2 ⟨p, hp, by simp [e]⟩
    have h2 : (reqs ++ opts).any (·.name == "shapeout") = true := by
      obtain ⟨p, hp, e⟩ := List.mem_map.1 hu
      exact List.any_eq_true.2 ⟨p, hp, by simp [e]⟩
    unfold parameters
    rw [h1, h2]
    simp
  have hargs : arguments op (reqs ++ opts) = (reqs.map fun p => (none, op.get p.name)) ++ opts.filterMap (shown op) := by
    unfold arguments
    rw [hp, List.filterMap_append, filterMap_required op reqs hr]
  have hsome : ∀ a ∈ opts.filterMap (shown op), ∃ p ∈ opts, a = (some p.name, op.get p.name) := by
    intro a ha
    obtain ⟨p, hp, hpa⟩ := List.mem_filterMap.1 ha
    obtain ⟨d, hd⟩ := ho p hp
    exact ⟨p, hp, shown_optional hd hpa⟩
  obtain ⟨ht, hd⟩ := takeWhile_split (fun a : Option String × Value => a.1.isNone) (a := reqs.map fun p => (none, op.get p.name))
    (b := opts.filterMap (shown op)) (by simp) (by
      intro a ha
      obtain ⟨p, _, rfl⟩ := hsome a ha
      rfl)
  have hkind : ∀ p ∈ reqs ++ opts, (p.kind != .keywords) = true := by
    intro p hp
    rcases List.mem_append.1 hp with h | h
    · rw [(hr p h).1]; rfl
    · obtain ⟨d, hd⟩ := ho p h
      rw [hd]; rfl
  have hf : (reqs ++ opts).filter (fun p => p.kind != .keywords) = reqs ++ opts := List.filter_eq_self.2 hkind
  have hdisj : ∀ p ∈ opts, ∀ q ∈ reqs, q.name ≠ p.name := by
    intro p hp q hq e
    rw [List.map_append, List.nodup_append] at hn
    exact hn.2.2 _ (List.mem_map_of_mem hq) _ (List.mem_map_of_mem hp) e
  have hno : (opts.map Param.name).Nodup := by
    rw [List.map_append, List.nodup_append] at hn
    exact hn.2.1
  refine ⟨fun p => if p ∈ reqs then op.get p.name else ((shown op p).map Prod.snd).getD (p.kind.default.getD .none), ?_, fun p hp => if_pos hp, ?_⟩
  · unfold bindCall
    rw [hargs]
    simp only [ht, hd, hf, List.length_map, List.drop_left, List.take_left]
    rw [if_neg, if_neg, if_neg, if_neg, if_neg]
    · rw [zipWith_self, List.map_append]
      congr 2
      · apply List.map_congr_left
        intro p hp
        simp [hp]
      · apply List.map_congr_left
        intro p hp
        have : p ∉ reqs := fun h => hdisj p hp p h rfl
        simp only [if_neg this, find_kw op opts hno ho p hp]
    · rw [List.any_eq_true]
      rintro ⟨p, hp, h⟩
      obtain ⟨d, hd⟩ := ho p hp
      rw [hd] at h
      simp at h
    · rw [List.any_eq_true]
      rintro ⟨a, ha, h⟩
      obtain ⟨p, hp, rfl⟩ := hsome a ha
      obtain ⟨q, hq, h⟩ := List.any_eq_true.1 h
      exact hdisj p hp q hq (by simpa using h)
    · rw [List.any_eq_true]
      rintro ⟨a, ha, h⟩
      obtain ⟨p, hp, rfl⟩ := hsome a ha
      have : (opts.any fun q => some q.name == some p.name) = true := List.any_eq_true.2 ⟨p, hp, by simp⟩
      rw [this] at h
      simp at h
    · simp
    · rw [List.any_eq_true]
      rintro ⟨a, ha, h⟩
      obtain ⟨p, hp, rfl⟩ := hsome a ha
      simp at h
  · intro p hp
    obtain ⟨d, hd⟩ := ho p hp
    have : p ∉ reqs := fun h => hdisj p hp p h rfl
    simp only [if_neg this]
    cases hs : shown op p with
    | some a =>
      left
      rw [shown_optional hd hs]
      rfl
    | none =>
      simp only [hd, Kind.default, Option.map_none, Option.getD_none, Option.getD_some, true_and]
      rcases shown_optional_none hd hs with h | h | h
      · right
        have := hidden_iff.1 h
        tauto
      · right
        tauto
      · rcases isDefault_iff h with h | h
        · exact .inl h.symm
        · right
          tauto

/-- An operator that has the shapes (2) and (3), and whose other attributes are equal to their default values. -/
example : let op : Op := ⟨fun n => if n = "shapein" then some (.shape [2]) else if n = "shapeout" then some (.shape [3]) else none, false, false, false⟩
    let sig : List Param := [⟨"direct", .optional .none⟩, ⟨"shapein", .optional .none⟩, ⟨"shapeout", .optional .none⟩]
    arguments op sig = [(some "shapein", .shape [2]), (some "shapeout", .shape [3])] := by
  decide

/-- **C130 does not hold** for the constructors with `**keywords`, which is displayed as a positional argument None: if there is no optional
parameter, the call that is displayed has too many arguments. -/
theorem C130_keywords_fails (op : Op) (reqs : List Param) (name : String)
    (hr : ∀ p ∈ reqs, p.kind = .required ∧ hidden op p.name = false ∧ op.get p.name ≠ .method)
    (h1 : hidden op name = false) (h2 : op.attr name = none) (h3 : op.implicitIn = true) (h4 : op.implicitOut = true) :
    arguments op (reqs ++ [⟨name, .keywords⟩]) = (reqs.map fun p => (none, op.get p.name)) ++ [(none, .none)] ∧
      bindCall (reqs ++ [⟨name, .keywords⟩]) (arguments op (reqs ++ [⟨name, .keywords⟩])) = .error .typeError := by
  have hg : op.get name = .none := by simp [Op.get, h2]
  have hk : shown op ⟨name, .keywords⟩ = some (none, .none) := by
    unfold shown
    simp only [h1, hg, Kind.default]
    rfl
  have hin : shown op ⟨"shapein", .optional .none⟩ = none := by
    unfold shown
    rw [if_pos (by simp [hidden, h3])]
  have hout : shown op ⟨"shapeout", .optional .none⟩ = none := by
    unfold shown
    rw [if_pos (by simp [hidden, h4])]
  have ha : arguments op (reqs ++ [⟨name, .keywords⟩]) = (reqs.map fun p => (none, op.get p.name)) ++ [(none, .none)] := by
    unfold arguments parameters
    simp only [List.filterMap_append, filterMap_required op reqs hr, List.filterMap_cons_some hk, List.filterMap_nil]
    split <;> split <;> simp [hin, hout]
  refine ⟨ha, ?_⟩
  have hf : (reqs ++ [(⟨name, .keywords⟩ : Param)]).filter (fun p => p.kind != .keywords) = reqs := by
    rw [List.filter_append, List.filter_eq_self.2 fun p hp => by rw [(hr p hp).1]; rfl]
    simp
  obtain ⟨ht, hd⟩ := takeWhile_split (fun a : Option String × Value => a.1.isNone) (a := (reqs.map fun p => (none, op.get p.name)) ++ [(none, .none)])
    (b := []) (by
      intro x hx
      rcases List.mem_append.1 hx with h | h
      · obtain ⟨p, _, rfl⟩ := List.mem_map.1 h
        rfl
      · rw [List.mem_singleton.1 h]
        rfl) (by simp)
  rw [List.append_nil] at ht hd
  unfold bindCall
  rw [ha]
  simp only [ht, hd, hf]
  simp

/-- `HomothetyOperator(2)`: src/pyoperators/core.py:4355, displayed as `HomothetyOperator(2, None)`. -/
example : let op : Op := ⟨fun n => if n = "data" then some (.array 0 ["2"] "int64") else none, true, true, true⟩
    arguments op [⟨"data", .required⟩, ⟨"keywords", .keywords⟩] = [(none, .array 0 ["2"] "int64"), (none, .none)] ∧
      hidden op "data" = false ∧ op.get "data" ≠ .method ∧ hidden op "keywords" = false ∧ op.attr "keywords" = none := by
  decide

/-- **C130 does not hold** for the constructors with `**keywords`: if the value of an optional parameter is displayed, a positional argument
follows it, which is not a valid expression. -/
theorem C130_syntax_fails (op : Op) (sig rest : List Param) (name : String) (h1 : hidden op name = false) (h2 : op.attr name = none)
    {p : Param} (hp : p ∈ sig) {a : Option String × Value} (hs : shown op p = some a) (ha : a.1.isNone = false) :
    bindCall (sig ++ ⟨name, .keywords⟩ :: rest) (arguments op (sig ++ ⟨name, .keywords⟩ :: rest)) = .error .syntaxError := by
  have hg : op.get name = .none := by simp [Op.get, h2]
  have hk : shown op ⟨name, .keywords⟩ = some (none, .none) := by
    unfold shown
    simp only [h1, hg, Kind.default]
    rfl
  obtain ⟨tail, ht⟩ : ∃ tail, arguments op (sig ++ ⟨name, .keywords⟩ :: rest) = sig.filterMap (shown op) ++ (none, .none) :: tail := by
    unfold arguments parameters
    rw [List.append_assoc, List.filterMap_append, List.filterMap_append, List.filterMap_cons_some hk, List.append_assoc, List.cons_append]
    exact ⟨_, rfl⟩
  have hm : a ∈ sig.filterMap (shown op) := List.mem_filterMap.2 ⟨p, hp, hs⟩
  have key : ∀ (l : List (Option String × Value)) (y : Option String × Value) (t : List (Option String × Value)), a ∈ l →
      y ∈ (l ++ y :: t).dropWhile fun a => a.1.isNone := by
    intro l y t hl
    induction l with
    | nil => cases hl
    | cons x u ih =>
      rw [List.cons_append, List.dropWhile_cons]
      split
      · rename_i hx
        rcases List.mem_cons.1 hl with rfl | hl
        · rw [ha] at hx
          cases hx
        · exact ih hl
      · simp
  unfold bindCall
  simp only
  rw [if_pos]
  rw [ht, List.any_eq_true]
  exact ⟨_, key _ _ _ hm, rfl⟩

/-- `DiagonalOperator([1, 2])`: src/pyoperators/core.py:4243, the hypotheses of `C130_syntax_fails`. -/
example : let op : Op := ⟨fun n => if n = "data" then some (.array 1 ["1", "2"] "int64") else if n = "broadcast" then some (.other "'disabled'") else
      if n = "dtype" then some (.other "int64") else none, false, false, true⟩
    let sig : List Param := [⟨"data", .required⟩, ⟨"broadcast", .optional .none⟩, ⟨"dtype", .optional .none⟩]
    arguments op (sig ++ [⟨"keywords", .keywords⟩]) = [(none, .array 1 ["1", "2"] "int64"), (some "broadcast", .other "'disabled'"),
      (some "dtype", .other "int64"), (none, .none)] := by
  decide

/-! ## The text of an array -/

/-- The text of an array: src/pyoperators/core.py:1645-1655; `none` stands for an IndexError.  The elements and the data type are given by their texts; for an array without dimension, that of the element. -/
def arrayText (ndim : Nat) (flat : List (List Char)) (dtype : List Char) : Option (List Char) :=
  if ndim = 0 then flat.head?
  else match flat with
    | [] => none
    | x :: t =>
      some (['a', 'r', 'r', 'a', 'y', '('] ++ (List.replicate ndim '[' ++ (x ++ ((match t with
        | [] => []
        | [y] => [',', ' '] ++ y
        | y :: z :: u => [',', ' ', '.', '.', '.', ',', ' '] ++ (z :: u).getLastD y) ++
          (List.replicate ndim ']' ++ ([',', ' ', 'd', 't', 'y', 'p', 'e', '='] ++ (dtype ++ [')'])))))))

/-- The texts of numbers: they are not empty and have no comma, space or bracket. -/
def Number (x : List Char) : Prop := x ≠ [] ∧ ∀ c ∈ x, c ≠ ',' ∧ c ≠ '[' ∧ c ≠ ']' ∧ c ≠ ' '

theorem sep {P : Char → Prop} : ∀ {x y : List Char} {a b : Char} {r s : List Char}, (∀ c ∈ x, ¬ P c) → (∀ c ∈ y, ¬ P c) → P a → P b →
    x ++ a :: r = y ++ b :: s → x = y ∧ a = b ∧ r = s := by
  intro x
  induction x with
  | nil =>
    intro y a b r s _ hy ha _ e
    cases y with
    | nil =>
      simp only [List.nil_append, List.cons.injEq] at e
      exact ⟨rfl, e⟩
    | cons c t =>
      simp only [List.nil_append, List.cons_append, List.cons.injEq] at e
      exact absurd (e.1 ▸ ha) (hy c (by simp))
  | cons c t ih =>
    intro y a b r s hx hy ha hb e
    cases y with
    | nil =>
      simp only [List.nil_append, List.cons_append, List.cons.injEq] at e
      exact absurd (e.1 ▸ hb) (hx c (by simp))
    | cons d u =>
      simp only [List.cons_append, List.cons.injEq] at e
      obtain ⟨h1, h2, h3⟩ := ih (fun q hq => hx q (by simp [hq])) (fun q hq => hy q (by simp [hq])) ha hb e.2
      exact ⟨by rw [e.1, h1], h2, h3⟩

/-- What follows the first element. -/
def tailText (t : List (List Char)) (r : List Char) : List Char :=
  (match t with
    | [] => []
    | [y] => [',', ' '] ++ y
    | y :: z :: u => [',', ' ', '.', '.', '.', ',', ' '] ++ (z :: u).getLastD y) ++ r

theorem tailText_inj {t u : List (List Char)} {r s : List Char} (ht : ∀ x ∈ t, Number x) (hu : ∀ x ∈ u, Number x)
    (e : tailText t (']' :: r) = tailText u (']' :: s)) : t.getLast? = u.getLast? ∧ min t.length 2 = min u.length 2 ∧ r = s := by
  have hP : ∀ x : List Char, Number x → ∀ c ∈ x, ¬ (c = ',' ∨ c = ']') := fun x hx c hc h => by
    have := hx.2 c hc
    rcases h with h | h
    · exact this.1 h
    · exact this.2.2.1 h
  have hdots : ∀ c ∈ ['.', '.', '.'], ¬ (c = ',' ∨ c = ']') := by decide
  have hlast : ∀ (y z : List Char) (v : List (List Char)), (∀ x ∈ y :: z :: v, Number x) → Number ((z :: v).getLastD y) ∧
      (y :: z :: v).getLast? = some ((z :: v).getLastD y) := by
    intro y z v h
    have e : (z :: v).getLastD y = (z :: v).getLast (by simp) := by
      rw [List.getLastD_eq_getLast?, List.getLast?_eq_some_getLast (by simp)]
      rfl
    rw [e]
    refine ⟨h _ (List.mem_cons_of_mem _ (List.getLast_mem _)), ?_⟩
    rw [List.getLast?_eq_some_getLast (by simp), List.getLast_cons (by simp)]
  match t, u with
  | [], [] =>
    simp only [tailText, List.nil_append, List.cons.injEq, true_and] at e
    exact ⟨rfl, rfl, e⟩
  | [], [y] => simp [tailText] at e
  | [], y :: z :: v => simp [tailText] at e
  | [y], [] => simp [tailText] at e
  | y :: z :: v, [] => simp [tailText] at e
  | [x], [y] =>
    simp only [tailText, List.cons_append, List.nil_append, List.cons.injEq, true_and] at e
    obtain ⟨h1, _, h2⟩ := sep (hP x (ht x (by simp))) (hP y (hu y (by simp))) (.inr rfl) (.inr rfl) e
    exact ⟨by rw [h1], rfl, h2⟩
  | [x], y :: z :: v =>
    simp only [tailText, List.cons_append, List.nil_append, List.cons.injEq, true_and] at e
    obtain ⟨_, h2, _⟩ := sep (y := ['.', '.', '.']) (hP x (ht x (by simp))) hdots (.inr rfl) (.inl rfl) e
    exact absurd h2 (by decide)
  | y :: z :: v, [x] =>
    simp only [tailText, List.cons_append, List.nil_append, List.cons.injEq, true_and] at e
    obtain ⟨_, h2, _⟩ := sep (y := ['.', '.', '.']) (hP x (hu x (by simp))) hdots (.inr rfl) (.inl rfl) e.symm
    exact absurd h2 (by decide)
  | y :: z :: v, y' :: z' :: v' =>
    obtain ⟨n1, l1⟩ := hlast y z v ht
    obtain ⟨n2, l2⟩ := hlast y' z' v' hu
    simp only [tailText, List.cons_append, List.nil_append, List.cons.injEq, true_and] at e
    obtain ⟨h1, _, h2⟩ := sep (hP _ n1) (hP _ n2) (.inr rfl) (.inr rfl) e
    exact ⟨by rw [l1, l2, h1], by simp, h2⟩

/-- **C130, partial.** The text of an array that is not empty tells its number of dimensions, its first and last elements, whether it has one, two or more
elements and its data type.  In particular, arrays of one dimension and at most two elements that have the same text are equal.  Missing from the full property: the
empty arrays (`C130_empty_fails`), the shapes (`C130_shape_fails`); the elements that are elided. -/
theorem C130_array_partial {n m : Nat} {f g : List (List Char)} {d e : List Char} (hn : n ≠ 0) (hm : m ≠ 0) (hf : f ≠ []) (hg : g ≠ [])
    (nf : ∀ x ∈ f, Number x) (ng : ∀ x ∈ g, Number x) (h : arrayText n f d = arrayText m g e) :
    n = m ∧ f.head? = g.head? ∧ f.getLast? = g.getLast? ∧ min f.length 3 = min g.length 3 ∧ d = e ∧ (f.length ≤ 2 → f = g) := by
  obtain ⟨x, t, rfl⟩ := List.exists_cons_of_ne_nil hf
  obtain ⟨y, u, rfl⟩ := List.exists_cons_of_ne_nil hg
  unfold arrayText at h
  rw [if_neg hn, if_neg hm] at h
  have h := List.append_cancel_left (Option.some.inj h)
  obtain ⟨nx, cx⟩ := nf x (by simp)
  obtain ⟨ny, cy⟩ := ng y (by simp)
  obtain ⟨a, x', rfl⟩ := List.exists_cons_of_ne_nil nx
  obtain ⟨b, y', rfl⟩ := List.exists_cons_of_ne_nil ny
  obtain ⟨h1, h2, h3⟩ := sep (P := fun c => c ≠ '[') (by simp) (by simp) (cx a (by simp)).2.1 (cy b (by simp)).2.1 h
  have hnm : n = m := by simpa using congrArg List.length h1
  subst hnm
  obtain ⟨k, rfl⟩ := Nat.exists_eq_succ_of_ne_zero hn
  have hs : ∀ (t : List (List Char)) (d : List Char), ∃ c r, (c = ',' ∨ c = ']') ∧
      tailText t (List.replicate (k + 1) ']' ++ ([',', ' ', 'd', 't', 'y', 'p', 'e', '='] ++ (d ++ [')']))) = c :: r := by
    intro t d
    match t with
    | [] => exact ⟨']', _, .inr rfl, rfl⟩
    | [y] => exact ⟨',', _, .inl rfl, rfl⟩
    | y :: z :: v => exact ⟨',', _, .inl rfl, rfl⟩
  change x' ++ tailText t _ = y' ++ tailText u _ at h3
  obtain ⟨c1, r1, p1, e1⟩ := hs t d
  obtain ⟨c2, r2, p2, e2⟩ := hs u e
  have h3' := h3
  simp only [Nat.succ_eq_add_one] at h3'
  rw [e1, e2] at h3'
  obtain ⟨h4, h5, h6⟩ := sep (P := fun c => c = ',' ∨ c = ']') (by
    intro c hc h
    have := cx c (by simp [hc])
    rcases h with h | h
    · exact this.1 h
    · exact this.2.2.1 h) (by
    intro c hc h
    have := cy c (by simp [hc])
    rcases h with h | h
    · exact this.1 h
    · exact this.2.2.1 h) p1 p2 h3'
  rw [h4] at h3
  have h7 := List.append_cancel_left h3
  simp only [Nat.succ_eq_add_one, List.replicate_succ, List.cons_append] at h7
  obtain ⟨h8, h9, h10⟩ := tailText_inj (fun q hq => nf q (by simp [hq])) (fun q hq => ng q (by simp [hq])) h7
  have hd : d = e := by
    have h10 := List.append_cancel_left h10
    simpa using h10
  subst h2 h4 hd
  refine ⟨rfl, rfl, ?_, ?_, rfl, ?_⟩
  · rw [List.getLast?_cons, List.getLast?_cons, h8]
  · simp only [List.length_cons]
    omega
  · intro hl
    match t, u with
    | [], [] => rfl
    | [], [_] => simp at h9
    | [], _ :: _ :: _ => simp at h9
    | [_], [] => simp at h9
    | [v], [w] => simp at h8; rw [h8]
    | [_], _ :: _ :: _ => simp at h9
    | _ :: _ :: _, _ => simp at hl

/-- The text of the array [1, 2]. -/
example : arrayText 1 [['1'], ['2']] ['i', '8'] = some "array([1, 2], dtype=i8)".toList ∧ Number ['1'] ∧ Number ['2'] := by
  refine ⟨by decide, ⟨by decide, by decide⟩, ⟨by decide, by decide⟩⟩

/-- **C130 does not hold** for empty arrays: the text of an operator that has one raises an IndexError. -/
theorem C130_empty_fails (n : Nat) (d : List Char) : arrayText (n + 1) [] d = none := rfl

/-- **C130 does not hold** for arrays of several dimensions: a row and a column of two elements have the same text. -/
theorem C130_shape_fails : ∃ (s t : List Nat) (f : List (List Char)), s ≠ t ∧ s.prod = f.length ∧ t.prod = f.length ∧
    ∀ d, arrayText s.length f d = arrayText t.length f d :=
  ⟨[1, 2], [2, 1], [['1'], ['2']], by decide, rfl, rfl, fun _ => rfl⟩

end Verif.Utils.Repr
