import Verif.Shape.Initial
import Verif.Utils.Proxy
import Verif.Flags.Model

/-
Model of the shapes and flags of the proxies of a group: `ProxyBase`, `ProxyReverseBase` and `proxy_group`
(src/pyoperators/proxy.py:9-87 and 213-291), initialised by `Operator._init_inout` (src/pyoperators/core.py:1130-1254), and of their
associated operators.  The access to the operators of the group is modelled in Verif.Utils.Proxy (property C37).  The methods toshapein
and toshapeout are left out.
-/

namespace Verif.Shape.ProxyGroup

open Verif.Shape

/-- An operator whose input and output are exchanged. -/
def swap (o : Op) : Op :=
  { shapein := o.shapeout
    shapeout := o.shapein
    reshapein := o.reshapeout
    reshapeout := o.reshapein
    validatein := o.validateout
    validateout := o.validatein
    kindin := o.kindout
    kindout := o.kindin
    square := o.square }

/-- The current operator of the group, as seen by the methods of `ProxyBase` (src/pyoperators/proxy.py:31-47) or, if `reverse` is true,
by those of `ProxyReverseBase` (68-87). -/
def view (reverse : Bool) (cur : Op) : Op := if reverse then swap cur else cur

/-- The attributes of a proxy that do not depend on the current operator of the group. -/
structure Proxy where
  shapein : Option Shape
  shapeout : Option Shape
  square : Bool
  reverse : Bool
deriving DecidableEq, Repr

/-- `shapeout = self.reshapein(self.shapein)` followed by an assignment or a validation (src/pyoperators/core.py:1190-1201), when
reshapein asks another operator, which can return None if its output is unconstrained.  The validation of None, which only raises for
operators with their own validation, is not modelled: it is accepted.  The outer `none` is the ValueError. -/
def fillProxy (own other : Option Shape) (reshape : Shape → Option Shape) (valid : Shape → Bool) : Option (Option Shape) :=
  match other with
  | none => some own
  | some s =>
    match own with
    | none => some (reshape s)
    | some _ =>
      match reshape s with
      | none => some own
      | some t => if valid t then some own else none

/-- `self.validatein(self.shapein)`: src/pyoperators/core.py:1202-1205. -/
def checkedProxy (valid : Shape → Bool) (own : Option Shape) : Bool :=
  match own with
  | none => true
  | some s => valid s

/-- The end of the initialisation: src/pyoperators/core.py:1207-1218. -/
def finishProxy (reverse square : Bool) (sin sout : Option Shape) : Proxy :=
  let sq := match sin, sout with
    | some a, some b => a == b
    | _, _ => square
  { shapein := if sq then sin.or sout else sin
    shapeout := if sq then sin.or sout else sout
    square := sq
    reverse := reverse }

/-- `Operator._init_inout` for a proxy: src/pyoperators/core.py:1187-1254.  `o` is what the methods of the proxy ask, `square` is the
flag given to the proxy, `si` and `so` the shapes given to it.  `none` is the ValueError. -/
def initProxy (o : Op) (reverse square : Bool) (si so : Option Shape) : Option Proxy :=
  match fillProxy so si o.reshapein o.validateout with
  | none => none
  | some sout =>
    match fillProxy si sout o.reshapeout o.validatein with
    | none => none
    | some sin => if checkedProxy o.validatein sin && checkedProxy o.validateout sout then some (finishProxy reverse square sin sout) else none

/-- The flags shape_input and shape_output: src/pyoperators/core.py:1230-1245.  The methods reshapein and reshapeout of the proxies are
never those of the class Operator. -/
def kindProxy (own : Option Shape) : Kind := if own.isSome then .explicit else .implicit

/-- The methods of a proxy when `cur` is the current operator of the group: src/pyoperators/proxy.py:31-47, 68-87 and
src/pyoperators/core.py:1210-1218, 1247-1252. -/
def Proxy.methods (p : Proxy) (cur : Op) : Op :=
  let v := view p.reverse cur
  { shapein := p.shapein
    shapeout := p.shapeout
    reshapein := if p.shapeout.isSome then fun _ => p.shapeout else if p.square then some else v.reshapein
    reshapeout := if p.shapein.isSome then fun _ => p.shapein else if p.square then some else v.reshapeout
    validatein := if p.shapein.isSome then defaultValid p.shapein else v.validatein
    validateout := if p.shapeout.isSome then defaultValid p.shapeout else if p.square then v.validatein else v.validateout
    kindin := kindProxy p.shapein
    kindout := kindProxy p.shapeout
    square := p.square }

/-- `shapeins = n * (op.shapein,)` if they are not given: src/pyoperators/proxy.py:267-270. -/
def orDefault (given : Option (List (Option Shape))) (n : Nat) (s : Option Shape) : List (Option Shape) := given.getD (List.replicate n s)

/-- All the constructions, none of which raises. -/
def mapAll {α β : Type} (f : α → Option β) : List α → Option (List β)
  | [] => some []
  | a :: l =>
    match f a, mapAll f l with
    | some b, some m => some (b :: m)
    | _, _ => none

/-- `proxy_group`: src/pyoperators/proxy.py:258-291.  `op` is the operator returned by `callback(0)`, which is the current one while the
proxies are made. -/
def makeGroup (op : Op) (n : Nat) (shapeins shapeouts : Option (List (Option Shape))) : Option (List Proxy) :=
  mapAll (fun s => initProxy op false op.square s.1 s.2)
    ((orDefault shapeins n op.shapein).zip (orDefault shapeouts n op.shapeout))

/-- What the methods of a proxy that has already been initialised without shapes ask: src/pyoperators/core.py:1210-1218. -/
def again (square : Bool) (o : Op) : Op :=
  if square then { o with reshapein := some, reshapeout := some, validateout := o.validatein } else o

/-- The proxy of an associated operator: it is made without shapes (src/pyoperators/proxy.py:125-165) and initialised a second time by
`_copy_direct` or `_copy_reverse` (src/pyoperators/core.py:4759-4777 and 4798-4812) with the shapes of the proxy, exchanged if `reverse`
is true.  `cur` is the current operator of the group at that time, `square` the flag of the associated operator of the operator 0. -/
def associated (p : Proxy) (reverse square : Bool) (cur : Op) : Option Proxy :=
  if reverse then initProxy (again square (view reverse cur)) reverse square p.shapeout p.shapein
  else initProxy (again square (view reverse cur)) reverse square p.shapein p.shapeout

/-- The flags of a proxy: `_set_flags` copies the flags of the operator and the closure is computed again
(src/pyoperators/proxy.py:10-16 and src/pyoperators/core.py:1018-1059, 1289-1292). -/
def proxyFlags (complexDtype : Bool) (f : Flags.Flags) : Flags.Flags := Flags.closure complexDtype f

/-- The flags of the proxy of an associated operator, which is made without data type (src/pyoperators/proxy.py:125-165) and then initialised
again with the data type of the proxy (src/pyoperators/core.py:4759-4777 and 4798-4812).  `f` are the flags of the associated operator. -/
def associatedFlags (complexDtype : Bool) (f : Flags.Flags) : Flags.Flags := Flags.closure complexDtype (Flags.closure false f)

/-! ### Properties -/

/-- Two operators have the same shapes and infer and accept the same shapes. -/
structure SameShapes (a b : Op) : Prop where
  shapein : a.shapein = b.shapein
  shapeout : a.shapeout = b.shapeout
  reshapein : ∀ s, a.reshapein s = b.reshapein s
  reshapeout : ∀ s, a.reshapeout s = b.reshapeout s
  validatein : ∀ s, a.validatein s = b.validatein s
  validateout : ∀ s, a.validateout s = b.validateout s
  square : a.square = b.square

/-- What an initialised operator satisfies besides `Initialised`: a side whose shape is unknown although the other one is known is
unconstrained. -/
structure Complete (op : Op) : Prop where
  init : Initialised op
  out : op.shapein ≠ none → op.shapeout = none → ∀ s, op.reshapein s = none
  inp : op.shapeout ≠ none → op.shapein = none → ∀ s, op.reshapeout s = none
  square : op.square = true → op.shapein = none → ∀ s, op.validateout s = op.validatein s
  square_iff : op.shapein ≠ none → op.shapeout ≠ none → (op.square = true ↔ op.shapein = op.shapeout)

theorem complete_of_init {d : Decl} {op : Op} (h : init d = some op) : Complete op := by
  have hi := C60_initialised d op h
  obtain ⟨sin, sout, h1, h2, _, _, rfl⟩ := init_eq h
  refine ⟨hi, ?_, ?_, ?_, ?_⟩
  · intro a b s
    cases hd : d.reshapein <;> cases hdi : d.shapein <;> cases hdo : d.shapeout <;> cases hr : d.reshapeout <;>
      cases sin <;> cases sout <;> cases hsq : d.square <;>
      simp_all [finishInit, squareOf, reshapeOf, fill, reshaped]
  · intro a b s
    cases hd : d.reshapein <;> cases hdi : d.shapein <;> cases hdo : d.shapeout <;> cases hr : d.reshapeout <;>
      cases sin <;> cases sout <;> cases hsq : d.square <;>
      simp_all [finishInit, squareOf, reshapeOf, fill, reshaped]
  · intro a b s
    cases sin <;> cases sout <;> simp_all [finishInit, squareOf, validOf]
  · intro a b
    cases sin <;> cases sout <;> simp_all [finishInit, squareOf]
    all_goals (split_ifs <;> simp_all)

theorem Complete.swap {op : Op} (h : Complete op) : Complete (swap op) where
  init :=
    { kindin := h.init.kindout
      kindout := h.init.kindin
      reshapein := h.init.reshapeout
      reshapeout := h.init.reshapein
      validatein := h.init.validateout
      validateout := h.init.validatein
      implicitin := h.init.implicitout
      implicitout := h.init.implicitin
      unconstrainedin := h.init.unconstrainedout
      unconstrainedout := h.init.unconstrainedin
      square := fun hs => by
        obtain ⟨h1, h2, h3⟩ := h.init.square hs
        exact ⟨h1.symm, h2.symm, fun hn s => (h3 (h1.trans hn) s).symm⟩ }
  out := h.inp
  inp := h.out
  square := fun hs hn s => (h.square hs ((h.init.square hs).1.trans hn) s).symm
  square_iff := fun h1 h2 => (h.square_iff h2 h1).trans eq_comm

/-- What the initialisation of a proxy with the shapes of an operator asks to this operator. -/
structure Ready (o : Op) : Prop where
  vin : ∀ a, o.shapein = some a → o.validatein a = true
  vout : ∀ b, o.shapeout = some b → o.validateout b = true
  rin : ∀ a, o.shapein = some a → o.reshapein a = o.shapeout
  rout : ∀ b, o.shapeout = some b → o.reshapeout b = o.shapein
  square : o.square = true → o.shapein = o.shapeout
  square_iff : o.shapein ≠ none → o.shapeout ≠ none → (o.square = true ↔ o.shapein = o.shapeout)

theorem Complete.ready {op : Op} (h : Complete op) : Ready op where
  vin := fun a ha => (h.init.validatein a ha a).2 rfl
  vout := fun b hb => (h.init.validateout b hb b).2 rfl
  rin := fun a ha => by
    cases h2 : op.shapeout with
    | none => exact h.out (by simp [ha]) h2 a
    | some b => exact h.init.reshapein b h2 a
  rout := fun b hb => by
    cases h1 : op.shapein with
    | none => exact h.inp (by simp [hb]) h1 b
    | some a => exact h.init.reshapeout a h1 b
  square := fun hs => (h.init.square hs).1
  square_iff := h.square_iff

theorem Complete.ready_again {op : Op} (h : Complete op) : Ready (again op.square op) := by
  unfold again
  split_ifs with hs
  · have he := (h.init.square hs).1
    have hr := h.ready
    refine ⟨hr.vin, fun b hb => hr.vin b (he.trans hb), fun a ha => ?_, fun b hb => ?_, fun _ => he, hr.square_iff⟩
    · exact (he.symm.trans ha).symm
    · exact (he.trans hb).symm
  · exact h.ready

theorem again_shapein (b : Bool) (o : Op) : (again b o).shapein = o.shapein := by unfold again; split_ifs <;> rfl
theorem again_shapeout (b : Bool) (o : Op) : (again b o).shapeout = o.shapeout := by unfold again; split_ifs <;> rfl
theorem again_square (b : Bool) (o : Op) : (again b o).square = o.square := by unfold again; split_ifs <;> rfl

theorem init_same {o : Op} (h : Ready o) (rev : Bool) :
    initProxy o rev o.square o.shapein o.shapeout = some ⟨o.shapein, o.shapeout, o.square, rev⟩ := by
  obtain ⟨vin, vout, rin, rout, hsq, hiff⟩ := h
  cases h1 : o.shapein with
  | none =>
    cases h2 : o.shapeout with
    | none => simp [initProxy, fillProxy, checkedProxy, finishProxy]
    | some b =>
      have hq : o.square = false := by
        by_contra hq
        have := hsq (by simpa using hq)
        simp [h1, h2] at this
      simp [initProxy, fillProxy, rout b h2, h1, checkedProxy, finishProxy, vout b h2, hq]
  | some a =>
    cases h2 : o.shapeout with
    | none =>
      have hq : o.square = false := by
        by_contra hq
        have := hsq (by simpa using hq)
        simp [h1, h2] at this
      simp [initProxy, fillProxy, rin a h1, h2, checkedProxy, finishProxy, vin a h1, hq]
    | some b =>
      have hq := hiff (by simp [h1]) (by simp [h2])
      rw [h1, h2, Option.some.injEq] at hq
      have r1 := rin a h1
      have r2 := rout b h2
      rw [h2] at r1
      rw [h1] at r2
      have : (a == b) = o.square := by
        cases hs : o.square
        · simpa using fun e => by simpa [hs] using hq.2 e
        · simpa using hq.1 hs
      have e1 : fillProxy (some b) (some a) o.reshapein o.validateout = some (some b) := by simp [fillProxy, r1, vout b h2]
      have e2 : fillProxy (some a) (some b) o.reshapeout o.validatein = some (some a) := by simp [fillProxy, r2, vin a h1]
      simp only [initProxy, e1, e2, checkedProxy, vin a h1, vout b h2, finishProxy, this]
      cases hs : o.square
      · simp
      · simp [hq.1 hs]

theorem mapAll_some {α β : Type} {f : α → Option β} {l : List α} {m : List β} :
    mapAll f l = some m ↔ List.Forall₂ (fun a b => f a = some b) l m := by
  induction l generalizing m with
  | nil => simp [mapAll, eq_comm]
  | cons a l ih =>
    rw [mapAll]
    cases hf : f a with
    | none => cases m <;> simp [hf]
    | some b =>
      cases hm : mapAll f l with
      | none =>
        cases m with
        | nil => simp
        | cons b' m =>
          have := (ih (m := m)).not.1 (by simp [hm])
          simp [hf, this]
      | some m' =>
        cases m with
        | nil => simp
        | cons b' m =>
          rw [List.forall₂_cons, ← ih, hm, hf]
          simp

theorem same_methods {op : Op} (h : Complete op) (rev : Bool) (cur : Op) (hc : view rev cur = op) :
    SameShapes ((⟨op.shapein, op.shapeout, op.square, rev⟩ : Proxy).methods cur) op := by
  have hi := h.init
  refine ⟨rfl, rfl, ?_, ?_, ?_, ?_, rfl⟩ <;> intro s <;> simp only [Proxy.methods, hc]
  · cases h2 : op.shapeout with
    | some b => simp [hi.reshapein b h2]
    | none =>
      cases hq : op.square with
      | false => simp
      | true =>
        obtain ⟨h3, -, h4⟩ := hi.square hq
        simp [(h4 (h3.trans h2) s).1]
  · cases h1 : op.shapein with
    | some b => simp [hi.reshapeout b h1]
    | none =>
      cases hq : op.square with
      | false => simp
      | true => simp [((hi.square hq).2.2 h1 s).2]
  · cases h1 : op.shapein with
    | some a =>
      rw [Bool.eq_iff_iff, hi.validatein a h1]
      simp only [Option.isSome_some, if_true, defaultValid, beq_iff_eq]
      exact eq_comm
    | none => simp
  · cases h2 : op.shapeout with
    | some b =>
      rw [Bool.eq_iff_iff, hi.validateout b h2]
      simp only [Option.isSome_some, if_true, defaultValid, beq_iff_eq]
      exact eq_comm
    | none =>
      cases hq : op.square with
      | false => simp
      | true => simp [h.square hq ((hi.square hq).1.trans h2) s]

/-- C120 (partial), for operators that have the same shapes and infer and accept the same shapes, as is assumed by default: the group is
made, it has the right number of proxies, and each proxy has the shapes of its operator and infers and accepts the same shapes,
whichever operator `c` of the group is the current one. -/
theorem C120_default_partial (decl : Decl) (ops : Nat → Op) (h : init decl = some (ops 0)) (hsame : ∀ i, ops i = ops 0) (n : Nat) :
    ∃ group, makeGroup (ops 0) n none none = some group ∧ group.length = n ∧
      ∀ (i c : Nat) (p : Proxy), group[i]? = some p → SameShapes (p.methods (ops c)) (ops i) := by
  have hC := complete_of_init h
  refine ⟨List.replicate n ⟨(ops 0).shapein, (ops 0).shapeout, (ops 0).square, false⟩, ?_, by simp, ?_⟩
  · rw [makeGroup, mapAll_some]
    simp only [orDefault, Option.getD_none, List.zip_replicate', List.forall₂_iff_get]
    simp [init_same hC.ready false]
  · intro i c p hp
    rw [List.getElem?_replicate] at hp
    split_ifs at hp
    cases hp
    rw [hsame i, hsame c]
    exact same_methods hC false _ rfl

/-- C120 (partial), the same for the proxies of the associated operators: they are made whichever operator `c` of the group is the current
one, and they have the shapes of the associated operators (those of the operator, exchanged for the transpose, the adjoint, the inverse
and the conjugate of the inverse), whichever operator `c'` is then the current one. -/
theorem C120_associated_partial (decl : Decl) (ops : Nat → Op) (h : init decl = some (ops 0)) (hsame : ∀ i, ops i = ops 0) (n : Nat)
    (group : List Proxy) (hg : makeGroup (ops 0) n none none = some group) (i c c' : Nat) (p : Proxy) (hp : group[i]? = some p)
    (a : Utils.Proxy.Attr) :
    ∃ q, associated p (Utils.Proxy.reversed a) (ops 0).square (ops c) = some q ∧
      SameShapes (q.methods (ops c')) (if a = .t ∨ a = .h ∨ a = .i ∨ a = .ic then swap (ops i) else ops i) := by
  have hC := complete_of_init h
  have hp' : p = ⟨(ops 0).shapein, (ops 0).shapeout, (ops 0).square, false⟩ := by
    rw [makeGroup, mapAll_some] at hg
    simp only [orDefault, Option.getD_none, List.zip_replicate', List.forall₂_iff_get] at hg
    obtain ⟨hi, rfl⟩ := List.getElem?_eq_some_iff.1 hp
    have := hg.2 i (by omega) hi
    simp only [List.get_eq_getElem, List.getElem_replicate, init_same hC.ready false, Option.some.injEq] at this
    exact this.symm
  subst hp'
  have key : ∀ rev : Bool, ∃ q, associated ⟨(ops 0).shapein, (ops 0).shapeout, (ops 0).square, false⟩ rev (ops 0).square (ops 0) = some q ∧
      SameShapes (q.methods (ops 0)) (if rev then swap (ops 0) else ops 0) := by
    intro rev
    cases rev with
    | false =>
      have e := init_same hC.ready_again false
      rw [again_shapein, again_shapeout, again_square] at e
      exact ⟨_, e, same_methods hC false (ops 0) rfl⟩
    | true =>
      have e := init_same hC.swap.ready_again true
      rw [again_shapein, again_shapeout, again_square] at e
      exact ⟨_, e, same_methods hC.swap true (ops 0) rfl⟩
  rw [hsame i, hsame c, hsame c']
  obtain ⟨q, h1, h2⟩ := key (Utils.Proxy.reversed a)
  refine ⟨q, h1, ?_⟩
  cases a <;> simpa [Utils.Proxy.reversed] using h2

/-- C120 (partial), for the shapes that are given, if the operator 0 has no explicit shape and accepts them (C120_explicit_fails for explicit
ones): the group is made, the proxy i has the shapes that are given for it, and these are the only ones that it infers and accepts,
whatever the current operator of the group is. -/
theorem C120_given_partial (op : Op) (shapes : List (Shape × Shape)) (n : Nat)
    (hv : ∀ s ∈ shapes, op.validatein s.1 = true ∧ op.validateout s.2 = true ∧ (∀ t, op.reshapein s.1 = some t → op.validateout t = true) ∧
      ∀ t, op.reshapeout s.2 = some t → op.validatein t = true) :
    ∃ group, makeGroup op n (some (shapes.map fun s => some s.1)) (some (shapes.map fun s => some s.2)) = some group ∧
      group.length = shapes.length ∧
      ∀ (i : Nat) (p : Proxy) (cur : Op), group[i]? = some p → ∃ a b, shapes[i]? = some (a, b) ∧
        (p.methods cur).shapein = some a ∧ (p.methods cur).shapeout = some b ∧
        (p.methods cur).kindin = .explicit ∧ (p.methods cur).kindout = .explicit ∧ ((p.methods cur).square = true ↔ a = b) ∧
        ∀ s, (p.methods cur).reshapein s = some b ∧ (p.methods cur).reshapeout s = some a ∧
          ((p.methods cur).validatein s = true ↔ s = a) ∧ ((p.methods cur).validateout s = true ↔ s = b) := by
  have key : ∀ s ∈ shapes, initProxy op false op.square (some s.1) (some s.2) = some ⟨some s.1, some s.2, s.1 == s.2, false⟩ := by
    rintro ⟨a, b⟩ hs
    obtain ⟨v1, v2, v3, v4⟩ := hv _ hs
    simp only at v1 v2 v3 v4
    have e1 : fillProxy (some b) (some a) op.reshapein op.validateout = some (some b) := by
      cases hr : op.reshapein a with
      | none => simp [fillProxy, hr]
      | some t => simp [fillProxy, hr, v3 t hr]
    have e2 : fillProxy (some a) (some b) op.reshapeout op.validatein = some (some a) := by
      cases hr : op.reshapeout b with
      | none => simp [fillProxy, hr]
      | some t => simp [fillProxy, hr, v4 t hr]
    simp only [initProxy, e1, e2, checkedProxy, v1, v2, finishProxy]
    by_cases hab : a = b
    · simp [hab]
    · simp [hab]
  refine ⟨shapes.map fun s => ⟨some s.1, some s.2, s.1 == s.2, false⟩, ?_, by simp, ?_⟩
  · rw [makeGroup, mapAll_some]
    simp only [orDefault, Option.getD_some]
    rw [List.zip_map', List.forall₂_map_left_iff, List.forall₂_map_right_iff, List.forall₂_same]
    exact key
  · intro i p cur hp
    rw [List.getElem?_map, Option.map_eq_some_iff] at hp
    obtain ⟨⟨a, b⟩, hs, rfl⟩ := hp
    refine ⟨a, b, hs, rfl, rfl, rfl, rfl, by simp [Proxy.methods], fun s => ⟨rfl, rfl, ?_, ?_⟩⟩ <;>
      · simp only [Proxy.methods, Option.isSome_some, if_true, defaultValid, beq_iff_eq]
        exact eq_comm

theorem fillProxy_own {own other own' : Option Shape} {r : Shape → Option Shape} {v : Shape → Bool} (h : fillProxy own other r v = some own')
    (ho : own ≠ none) : own' = own := by
  unfold fillProxy at h
  split at h
  · simpa using h.symm
  · split at h
    · exact absurd rfl ho
    · split at h
      · simpa using h.symm
      · split_ifs at h
        simpa using h.symm

/-- A proxy cannot be made with an input shape that the current operator refuses. -/
theorem init_refused (o : Op) (rev sq : Bool) (a : Shape) (so : Option Shape) (h : o.validatein a = false) :
    initProxy o rev sq (some a) so = none := by
  unfold initProxy
  split
  · rfl
  · split
    · rfl
    · rename_i sin hsin
      have := fillProxy_own hsin (by simp)
      subst this
      simp [checkedProxy, h]

/-- C120 is violated by the code: if the first operator has an explicit shape, shapes that differ from it cannot be given, although the
documentation of `proxy_group` says that the shapes should then be specified: the constructor raises ValueError, because the proxies
validate their shapes with the operator 0. -/
theorem C120_explicit_fails (decl : Decl) (op : Op) (h : init decl = some op) (s a : Shape) (hs : op.shapein = some s) (ha : a ≠ s) (n : Nat)
    (shapeins shapeouts : List (Option Shape)) (i : Nat) (hi : shapeins[i]? = some (some a)) (hi' : i < shapeouts.length) :
    makeGroup op n (some shapeins) (some shapeouts) = none := by
  by_contra hc
  obtain ⟨group, hg⟩ := Option.ne_none_iff_exists'.1 hc
  rw [makeGroup, mapAll_some] at hg
  have hl : i < (shapeins.zip shapeouts).length := by
    have := (List.getElem?_eq_some_iff.1 hi).1
    simp; omega
  have h2 := (List.forall₂_iff_get.1 hg).2 i hl (by rw [← hg.length_eq]; exact hl)
  simp only [orDefault, Option.getD_some, List.get_eq_getElem, List.getElem_zip] at h2
  have hia : shapeins[i]'(List.getElem?_eq_some_iff.1 hi).1 = some a := (List.getElem?_eq_some_iff.1 hi).2
  rw [hia, init_refused] at h2
  · cases h2
  · have := (C60_initialised decl op h).validatein s hs a
    by_contra hv
    exact ha (this.1 (by simpa using hv))

/-- The hypotheses are met: two matrices, of shapes 3 x 2 and 3 x 4. -/
example : ∃ op op', init { shapein := some [2], shapeout := some [3] } = some op ∧ init { shapein := some [4], shapeout := some [3] } = some op' ∧
    op.shapein = some [2] ∧ op'.shapein = some [4] ∧
    makeGroup op 2 (some [some [2], some [4]]) (some [some [3], some [3]]) = none :=
  ⟨_, _, rfl, rfl, rfl, rfl, rfl⟩

/-- An operator of implicit shape, which adds a last dimension of length `k`. -/
def addAxis (k : Nat) : Decl :=
  { reshapein := some (fun s => s ++ [k]), reshapeout := some (fun s => s.take (s.length - 1)),
    validateout := some (fun s => s.getLast? == some k) }

/-- The hypotheses of C120_default_partial and C120_associated_partial are met by operators of implicit shape. -/
example : ∃ op, init (addAxis 2) = some op ∧ ∃ p, makeGroup op 3 none none = some [p, p, p] ∧ p.shapein = none ∧
    (p.methods op).reshapein [5] = some [5, 2] ∧ (p.methods op).validateout [5, 3] = false := ⟨_, rfl, _, rfl, rfl, rfl, rfl⟩

/-- And those of C120_given_partial: the operators add an axis of length 2. -/
example : ∃ op, init (addAxis 2) = some op ∧ ∀ s ∈ [(([5], [5, 2]) : Shape × Shape), ([6], [6, 2])],
    op.validatein s.1 = true ∧ op.validateout s.2 = true ∧ (∀ t, op.reshapein s.1 = some t → op.validateout t = true) ∧
      ∀ t, op.reshapeout s.2 = some t → op.validatein t = true := by
  refine ⟨_, rfl, ?_⟩
  intro s hs
  simp only [List.mem_cons, List.not_mem_nil, or_false] at hs
  rcases hs with rfl | rfl <;> refine ⟨rfl, rfl, ?_, ?_⟩ <;> intro t ht <;> cases ht <;> rfl

/-- C120 is violated by the code for operators of implicit shapes that differ: the shape that the proxy 0 infers is the one of the operator
that has been accessed last.  Before any access, it is [5, 2] for the input [5]; after an access to the proxy 1, it is [5, 3]. -/
theorem C120_history_fails : ∃ (ops : Nat → Op) (p : Proxy), (∀ i, init (addAxis (i + 2)) = some (ops i)) ∧
    makeGroup (ops 0) 2 none none = some [p, p] ∧ (ops 0).reshapein [5] = some [5, 2] ∧
    (p.methods (ops (Utils.Proxy.accesses (fun _ _ => false) []).number)).reshapein [5] = some [5, 2] ∧
    (p.methods (ops (Utils.Proxy.accesses (fun _ _ => false) [1]).number)).reshapein [5] = some [5, 3] :=
  ⟨fun i => finishInit (addAxis (i + 2)) none none, _, fun _ => rfl, rfl, rfl, rfl, rfl⟩

/-- C120 is violated by the code: the number of proxies is not the one that is asked for if fewer shapes are given. -/
theorem C120_number_fails : ∃ op p q, init (addAxis 2) = some op ∧
    makeGroup op 3 (some [some [5], some [6]]) (some [some [5, 2], some [6, 2]]) = some [p, q] := ⟨_, _, _, rfl, rfl⟩

/-- C120 is violated by the code: a side that is unconstrained for the operator is declared implicit for the proxy, although its method
returns None. -/
theorem C120_kind_fails : ∃ op p, init {} = some op ∧ makeGroup op 1 none none = some [p] ∧ op.kindout = .unconstrained ∧
    (p.methods op).kindout = .implicit ∧ (p.methods op).reshapein [5] = none := ⟨_, _, rfl, rfl, rfl, rfl, rfl⟩

/-- C120 (partial): apart from the unconstrained sides, the flags shape_input and shape_output of the proxies are those of the operators. -/
theorem C120_kind_partial (decl : Decl) (ops : Nat → Op) (h : init decl = some (ops 0)) (hsame : ∀ i, ops i = ops 0) (n : Nat)
    (group : List Proxy) (hg : makeGroup (ops 0) n none none = some group) (i c : Nat) (p : Proxy) (hp : group[i]? = some p) :
    ((ops i).kindin ≠ .unconstrained → (p.methods (ops c)).kindin = (ops i).kindin) ∧
    ((ops i).kindout ≠ .unconstrained → (p.methods (ops c)).kindout = (ops i).kindout) := by
  obtain ⟨group', hg', -, hs⟩ := C120_default_partial decl ops h hsame n
  rw [hg] at hg'
  cases hg'
  have hs := hs i c p hp
  have hi := C60_initialised decl _ h
  have e1 : (p.methods (ops c)).kindin = kindProxy (ops i).shapein := by rw [← hs.shapein]; rfl
  have e2 : (p.methods (ops c)).kindout = kindProxy (ops i).shapeout := by rw [← hs.shapeout]; rfl
  rw [e1, e2, hsame i]
  refine ⟨fun hu => ?_, fun hu => ?_⟩
  · by_cases he : (ops 0).kindin = .explicit
    · have := Option.isSome_iff_ne_none.2 (hi.kindin.1 he)
      rw [he, kindProxy, if_pos this]
    · have : (ops 0).shapein = none := by
        by_contra hn
        exact he (hi.kindin.2 hn)
      rw [this]
      cases hk : (ops 0).kindin <;> simp_all [kindProxy]
  · by_cases he : (ops 0).kindout = .explicit
    · have := Option.isSome_iff_ne_none.2 (hi.kindout.1 he)
      rw [he, kindProxy, if_pos this]
    · have : (ops 0).shapeout = none := by
        by_contra hn
        exact he (hi.kindout.2 hn)
      rw [this]
      cases hk : (ops 0).kindout <;> simp_all [kindProxy]

/-- C120 (partial), for real operators that are not declared involutary: the flags of the proxies and of the proxies of the associated
operators are those of the operators. -/
theorem C120_flags_partial (d : Flags.Flags) (h : d.involutary = false) :
    proxyFlags false (Flags.initFlags false d) = Flags.initFlags false d ∧
    associatedFlags false (Flags.initFlags false d) = Flags.initFlags false d := by
  obtain ⟨a, b, c, e, f, g, i, j⟩ := d
  cases h
  cases a <;> cases b <;> cases c <;> cases e <;> cases f <;> cases i <;> cases j <;> exact ⟨rfl, rfl⟩

example : Flags.initFlags false { symmetric := true } = { linear := true, real := true, symmetric := true, hermitian := true } := rfl

/-- C120 is violated by the code for complex operators: the proxies of the associated operators are always declared real. -/
theorem C120_flags_fails (f : Flags.Flags) : (associatedFlags true f).real = true := by
  obtain ⟨a, b, c, d, e, g, i, j⟩ := f
  cases a <;> cases b <;> cases c <;> cases d <;> cases e <;> cases g <;> cases i <;> cases j <;> rfl

/-- Instance: a complex linear operator, whose transpose is not real. -/
example : (Flags.initFlags true { linear := true }).real = false ∧ (associatedFlags true (Flags.initFlags true { linear := true })).real = true :=
  ⟨rfl, rfl⟩

end Verif.Shape.ProxyGroup
