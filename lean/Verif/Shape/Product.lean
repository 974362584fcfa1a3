import Verif.Shape.Operator

/-
Model of the shapes of the products that are simplified because one of the factors is zero or the identity: `CompositionOperator.__init__` and
`_merge` (src/pyoperators/core.py:2288-2295 and 2706-2716), the rules of the zero operator (4540-4561), of the identity (4408-4424) and of
compositions (2311-2325), and property C105.
-/

namespace Verif.Shape.Product

/-! ### Model -/

/-- What matters of the class of an operator.  No rule applies to two operators that are neither zero nor the identity. -/
inductive Tag where
  | zero
  | identity
  | other
deriving DecidableEq, Repr

/-- An operator that is not a composition, or a composition and its operands. -/
inductive Term where
  | single (tag : Tag) (op : Op)
  | comp (operands : List Op) (op : Op)

/-- The shapes of a term. -/
def Term.op : Term → Op
  | .single _ op => op
  | .comp _ op => op

/-- `_get_attributes(operands, flags=...)` and the initialisation that follows: src/pyoperators/core.py:2681-2704.  The flag square is
given. -/
def composeWith (square : Bool) (ops : List Op) : Option Op :=
  match ops.head?, ops.getLast? with
  | some o1, some on =>
    match getShapes on.shapein o1.shapeout ops with
    | none => none
    | some shapes =>
      init
        { shapein := shapes.getLast?.getD none
          shapeout := shapes.head?.getD none
          reshapein := mergeReshapein ops
          reshapeout := mergeReshapeout ops
          validatein := some on.validatein
          validateout := some o1.validateout
          square := square }
  | _, _ => none

/-- `cls._merge(op, op1, op2)` if op1 and op2 are not compositions: src/pyoperators/core.py:2715-2716.  `square` is the flag of op. -/
def merge (tag : Tag) (square : Bool) (op1 op2 : Op) : Option Term := (composeWith square [op1, op2]).map (Term.single tag)

/-- The attributes of `ZeroOperator()`. -/
def bareZero : Op := finishInit {} none none

/-- A new composition, whose operands are not simplified: src/pyoperators/core.py:2296-2298. -/
def newComp (ops : List Op) : Option Term := (compose ops).map (Term.comp ops)

/-- The rules are applied to operands followed by a zero operator, from the right to the left: src/pyoperators/core.py:2212-2261 and 4555-4561. -/
def absorb (ops : List Op) (z : Op) : Option Op := ops.foldr (fun o r => r.bind fun z => composeWith false [o, z]) (some z)

/-- `a * b`, which is `CompositionOperator([a, b])`: src/pyoperators/core.py:2288-2325.  The rules are tried in the order of
`1000 - len(mro) - len(mro)` (2219-2227), those of a first: for two factors, this is first the rules of the identity (whose class has 7 ancestors),
then those of the left factor.  `_merge` does nothing if a factor is a composition. -/
def mul : Term → Term → Option Term
  | .single .identity a, .single t b => merge t b.square a b
  | .single .identity _, .comp ops b => some (.comp ops b)
  | .single t a, .single .identity b => merge t a.square a b
  | .comp ops a, .single .identity _ => some (.comp ops a)
  | .single .zero a, .single _ b => merge .zero false a b
  | .single .zero _, .comp _ _ => some (.single .zero bareZero)
  | .single .other a, .single .zero b => merge .zero false a b
  | .comp ops _, .single .zero b => (absorb ops b).map (Term.single .zero)
  | .single .other a, .single .other b => newComp [a, b]
  | .single .other a, .comp ops _ => newComp (a :: ops)
  | .comp ops _, .single .other b => newComp (ops ++ [b])
  | .comp ops _, .comp ops' _ => newComp (ops ++ ops')

/-- The shape of the output that is allocated for an input of shape s: src/pyoperators/core.py:1373-1388.  `none` is an error. -/
def outputShape (op : Op) (s : Shape) : Option Shape :=
  match validateShapes op (some s) none with
  | none => none
  | some (_, sout) => if op.kindin = .implicit ∧ op.kindout = .unconstrained then none else some (sout.getD s)

/-! ### Specification -/

/-- The dimensions of a factor: `none` if the output has the shape of the input, otherwise the shapes of the output and of the input, if they are
known. -/
abbrev Dims := Option (Option Shape × Option Shape)

/-- The dimensions of a product: those of the matrices. -/
def comb : Dims → Dims → Option Dims
  | none, d => some d
  | d, none => some d
  | some (o, i), some (o', i') => if i = none ∨ o' = none ∨ i = o' then some (some (o, i')) else none

/-- The dimensions of the product of a list of factors. -/
def total : List Dims → Option Dims
  | [] => some none
  | d :: ds => (total ds).bind (comb d)

/-- An operator given by its dimensions, as the user creates it. -/
def declOf : Dims → Decl
  | none => { square := true }
  | some (o, i) => { shapeout := o, shapein := i }

/-- The operator has the dimensions. -/
structure Shows (op : Op) (d : Dims) : Prop where
  shapeout : op.shapeout = d.bind Prod.fst
  shapein : op.shapein = d.bind Prod.snd
  same : d = none → ∀ s, op.reshapein s = some s ∧ op.reshapeout s = some s

/-- A product with parentheses. -/
inductive Tree where
  | leaf (tag : Tag) (d : Dims)
  | mul (a b : Tree)

def Tree.leaves : Tree → List (Tag × Dims)
  | .leaf t d => [(t, d)]
  | .mul a b => a.leaves ++ b.leaves

/-- The product as it is computed. -/
def Tree.eval : Tree → Option Term
  | .leaf t d => (init (declOf d)).map (Term.single t)
  | .mul a b => a.eval.bind fun x => b.eval.bind fun y => Product.mul x y

def Tree.hasZero (t : Tree) : Prop := ∃ l ∈ t.leaves, l.1 = .zero

def Tree.allIdentity (t : Tree) : Prop := ∀ l ∈ t.leaves, l.1 = .identity

/-- At least two factors are neither zero nor the identity, and none is zero. -/
def Tree.isComp (t : Tree) : Prop := ¬ t.hasZero ∧ 2 ≤ (t.leaves.filter fun l => l.1 = .other).length

/-- The identities are square. -/
def Tree.Good (t : Tree) : Prop := ∀ l ∈ t.leaves, l.1 = .identity → l.2 = none ∨ ∃ s, l.2 = some (some s, some s)

/-- No composition between parentheses is multiplied on the left by zero, and no composition is multiplied by an identity whose shape is given. -/
def Tree.Safe : Tree → Prop
  | .leaf _ _ => True
  | .mul a b => a.Safe ∧ b.Safe ∧ (b.isComp → ¬ a.hasZero ∧ (a.allIdentity → ∀ l ∈ a.leaves, l.2 = none)) ∧
      (a.isComp → b.allIdentity → ∀ l ∈ b.leaves, l.2 = none)

/-! ### Compositions of operators given by their dimensions -/

/-- The operator. -/
def opOf : Dims → Bool → Op
  | none, sq => ⟨none, none, some, some, fun _ => true, fun _ => true, .implicit, .implicit, sq⟩
  | some (o, i), _ => finishInit {} i o

theorem init_declOf (d : Dims) : init (declOf d) = some (opOf d true) := by
  match d with
  | none =>
    simp only [declOf, init, fill, checked, opOf, finishInit, squareOf, Bool.and_self, if_true]
    congr 1
  | some (o, i) =>
    cases o <;> cases i <;> simp [declOf, init, fill, checked, opOf, accepts, defaultValid, reshaped, finishInit, squareOf]

/-- The shape on the left of the operands, given the one on the right. -/
def leftOf (e : Option Shape) : List Dims → Option Shape
  | [] => e
  | none :: ds => leftOf e ds
  | some (o, _) :: _ => o

/-- The shapes between the operands, seen from the right. -/
def lefts (e : Option Shape) : List Dims → List (Option Shape)
  | [] => [e]
  | d :: ds => leftOf e (d :: ds) :: lefts e ds

/-- The shape on the right of the operands, given the one on the left. -/
def rightOf (c : Option Shape) : List Dims → Option Shape
  | [] => c
  | none :: ds => rightOf c ds
  | some (_, i) :: ds => rightOf i ds

/-- The shapes agree. -/
def Fits (c e : Option Shape) : List Dims → Prop
  | [] => agree c e
  | none :: ds => Fits c e ds
  | some (o, i) :: ds => agree c o ∧ Fits i e ds

theorem lefts_eq (e : Option Shape) (ds : List Dims) : ∃ r, lefts e ds = leftOf e ds :: r := by
  cases ds <;> exact ⟨_, rfl⟩

theorem across_left (cur : Option Shape) (d : Dims) (q : Bool) (e : Option Shape) (ds : List Dims) (h : cur = leftOf e ds) :
    across cur (opOf d q).shapeout (opOf d q).reshapein = leftOf e (d :: ds) := by
  subst h
  match d with
  | none => cases h : leftOf e ds <;> simp [across, opOf, leftOf, h]
  | some (o, i) =>
    cases o <;> cases i <;> cases leftOf e ds <;>
      simp [across, opOf, leftOf, finishInit, squareOf, reshapeOf]
    all_goals split <;> simp_all

theorem across_right (cur : Option Shape) (d : Dims) (q : Bool) :
    across cur (opOf d q).shapein (opOf d q).reshapeout = rightOf cur [d] := by
  match d with
  | none => cases cur <;> simp [across, opOf, rightOf]
  | some (o, i) =>
    cases o <;> cases i <;> cases cur <;>
      simp [across, opOf, rightOf, finishInit, squareOf, reshapeOf]
    all_goals split <;> simp_all

theorem scanOut_opOf (e : Option Shape) (l : List (Dims × Bool)) :
    scanOut none e (l.map fun p => opOf p.1 p.2) = some (lefts e (l.map Prod.fst)) := by
  induction l with
  | nil => rfl
  | cons p l ih =>
    obtain ⟨r, hr⟩ := lefts_eq e (l.map Prod.fst)
    simp only [List.map_cons, scanOut, ih, hr, across_left _ p.1 p.2 e _ rfl, agree, if_true, Option.or_none, lefts]

theorem agree_iff (a b : Option Shape) : agree a b = true ↔ a = none ∨ b = none ∨ a = b := by
  cases a <;> cases b <;> simp [agree]

theorem agree_refl (a : Option Shape) : agree a a = true := by cases a <;> simp [agree]

theorem agree_comm (a b : Option Shape) : agree a b = agree b a := by
  cases a <;> cases b <;> simp [agree, Bool.beq_comm]

theorem agree_or {a b : Option Shape} (h : agree a b = true) : agree b (a.or b) = true := by
  cases a with
  | none => simpa using agree_refl b
  | some a => simpa [agree_comm] using h

theorem Fits.agree {c e : Option Shape} : ∀ {ds : List Dims}, Fits c e ds → agree c (leftOf e ds) = true
  | [], h => h
  | none :: ds, h => Fits.agree (ds := ds) h
  | some _ :: _, h => h.1

theorem scanOut_head (e : Option Shape) (p : Dims × Bool) (l : List (Dims × Bool)) :
    scanOut (opOf p.1 p.2).shapeout e ((p :: l).map fun p => opOf p.1 p.2) = some (lefts e ((p :: l).map Prod.fst)) := by
  obtain ⟨r, hr⟩ := lefts_eq e (l.map Prod.fst)
  simp only [List.map_cons, scanOut, scanOut_opOf, hr, across_left _ p.1 p.2 e _ rfl, lefts]
  match p with
  | (none, q) => simp [opOf, agree]
  | (some (o, i), q) =>
    have : (opOf (some (o, i)) q).shapeout = o := by
      cases o <;> cases i <;> simp [opOf, finishInit, squareOf]
    rw [this]
    simp only [leftOf, agree_refl, if_true, Option.or_self]

theorem scanIn_opOf (e : Option Shape) : ∀ (l : List (Dims × Bool)) (L : Option Shape) (r : List (Option Shape)),
    lefts e (l.map Prod.fst) = leftOf e (l.map Prod.fst) :: r → Fits L e (l.map Prod.fst) →
    ∃ shapes, scanIn (l.map fun p => opOf p.1 p.2) (L.or (leftOf e (l.map Prod.fst)) :: r) =
      some (L.or (leftOf e (l.map Prod.fst)) :: shapes) ∧
      (L.or (leftOf e (l.map Prod.fst)) :: shapes).getLast? = some ((rightOf L (l.map Prod.fst)).or e)
  | [], L, r, hr, _ => by
    have : r = [] := by simpa [lefts, leftOf] using hr.symm
    subst this
    exact ⟨[], rfl, rfl⟩
  | p :: l, L, r, hr, hf => by
    obtain ⟨r', hr'⟩ := lefts_eq e (l.map Prod.fst)
    have : r = leftOf e (l.map Prod.fst) :: r' := by
      simp only [List.map_cons, lefts, hr', List.cons.injEq, true_and] at hr
      exact hr.symm
    subst this
    have key : ∀ L', Fits L' e (l.map Prod.fst) →
        (rightOf (L.or (leftOf e ((p :: l).map Prod.fst))) [p.1]).or (leftOf e (l.map Prod.fst)) = L'.or (leftOf e (l.map Prod.fst)) →
        Shape.agree (leftOf e (l.map Prod.fst)) (rightOf (L.or (leftOf e ((p :: l).map Prod.fst))) [p.1]) = true →
        rightOf L ((p :: l).map Prod.fst) = rightOf L' (l.map Prod.fst) →
        ∃ shapes, scanIn ((p :: l).map fun p => opOf p.1 p.2) (L.or (leftOf e ((p :: l).map Prod.fst)) :: leftOf e (l.map Prod.fst) :: r') =
          some (L.or (leftOf e ((p :: l).map Prod.fst)) :: shapes) ∧
          (L.or (leftOf e ((p :: l).map Prod.fst)) :: shapes).getLast? = some ((rightOf L ((p :: l).map Prod.fst)).or e) := by
      intro L' h1 h2 h3 h4
      obtain ⟨shapes, k1, k2⟩ := scanIn_opOf e l L' r' hr' h1
      refine ⟨L'.or (leftOf e (l.map Prod.fst)) :: shapes, ?_, ?_⟩
      · rw [List.map_cons, scanIn]
        simp only [across_right, h3, if_true, h2, k1, Option.map_some]
      · rw [h4, ← k2, List.getLast?_cons_cons]
    rcases p with ⟨_ | ⟨o, i⟩, q⟩
    · have hf : Fits L e (l.map Prod.fst) := hf
      refine key L hf ?_ ?_ rfl
      · simp [rightOf, leftOf, Option.or_assoc]
      · simpa [rightOf, leftOf] using agree_or hf.agree
    · have hf : Shape.agree L o = true ∧ Fits i e (l.map Prod.fst) := hf
      refine key i hf.2 ?_ ?_ rfl
      · simp [rightOf]
      · simpa [rightOf, agree_comm] using hf.2.agree

theorem total_cons {d : Dims} {ds : List Dims} {t : Dims} (h : total (d :: ds) = some t) : ∃ t', total ds = some t' ∧ comb d t' = some t := by
  simp only [total, Option.bind_eq_some_iff] at h
  exact h

theorem rightOf_total : ∀ {ds : List Dims} {t : Dims} (c : Option Shape), total ds = some t → rightOf c ds = t.elim c Prod.snd
  | [], t, c, h => by cases h; rfl
  | d :: ds, t, c, h => by
    obtain ⟨t', h1, h2⟩ := total_cons h
    match d, t', h1, h2 with
    | none, t', h1, h2 => cases h2; exact rightOf_total (ds := ds) c h1
    | some (o, i), none, h1, h2 => cases h2; exact rightOf_total i h1
    | some (o, i), some (o', i'), h1, h2 =>
      simp only [comb] at h2
      split at h2
      · cases h2; exact rightOf_total i h1
      · cases h2

theorem leftOf_total (e : Option Shape) : ∀ {ds : List Dims} {t : Dims}, total ds = some t → leftOf e ds = t.elim e Prod.fst
  | [], t, h => by cases h; rfl
  | d :: ds, t, h => by
    obtain ⟨t', h1, h2⟩ := total_cons h
    match d, t', h1, h2 with
    | none, t', h1, h2 => cases h2; exact leftOf_total e (ds := ds) h1
    | some (o, i), none, h1, h2 => cases h2; rfl
    | some (o, i), some (o', i'), h1, h2 =>
      simp only [comb] at h2
      split at h2
      · cases h2; rfl
      · cases h2

theorem fits_total (e : Option Shape) : ∀ {ds : List Dims} {t : Dims} (c : Option Shape), total ds = some t →
    (∀ x, t = some x → agree c x.1 ∧ agree x.2 e) → (t = none → agree c e) → Fits c e ds
  | [], t, c, h, _, h2 => by cases h; exact h2 rfl
  | d :: ds, t, c, h, h1, h2 => by
    obtain ⟨t', k1, k2⟩ := total_cons h
    match d, t', k1, k2 with
    | none, t', k1, k2 => cases k2; exact fits_total e (ds := ds) c k1 h1 h2
    | some (o, i), none, k1, k2 =>
      cases k2
      obtain ⟨a1, a2⟩ := h1 _ rfl
      exact ⟨a1, fits_total e i k1 (by simp) fun _ => a2⟩
    | some (o, i), some (o', i'), k1, k2 =>
      simp only [comb] at k2
      split at k2
      · rename_i hag
        cases k2
        obtain ⟨a1, a2⟩ := h1 _ rfl
        refine ⟨a1, fits_total e i k1 ?_ (by simp)⟩
        intro x hx
        cases hx
        exact ⟨(agree_iff _ _).2 hag, a2⟩
      · cases k2

/-- The shape on the right of the last operand. -/
def endOf (ds : List Dims) : Option Shape := (ds.getLast?.bind id).bind Prod.snd

theorem endOf_total : ∀ {ds : List Dims} {t : Dims}, total ds = some t → endOf ds = none ∨ ∃ o, t = some (o, endOf ds)
  | [], t, _ => .inl rfl
  | [d], t, h => by
    match d, h with
    | none, h => exact .inl rfl
    | some (o, i), h => cases h; exact .inr ⟨o, rfl⟩
  | d :: d' :: ds, t, h => by
    obtain ⟨t', h1, h2⟩ := total_cons h
    have hE : endOf (d :: d' :: ds) = endOf (d' :: ds) := by simp [endOf, List.getLast?_cons_cons]
    rw [hE]
    rcases endOf_total h1 with h | ⟨o, h⟩
    · exact .inl h
    · subst h
      match d, h2 with
      | none, h2 => cases h2; exact .inr ⟨o, rfl⟩
      | some (a, b), h2 =>
        simp only [comb] at h2
        split at h2
        · cases h2; exact .inr ⟨a, rfl⟩
        · cases h2

theorem total_none : ∀ {ds : List Dims}, total ds = some none ↔ ∀ d ∈ ds, d = none
  | [] => by simp [total]
  | d :: ds => by
    constructor
    · intro h
      obtain ⟨t', h1, h2⟩ := total_cons h
      have : d = none ∧ t' = none := by
        match d, t', h2 with
        | none, t', h2 => cases h2; exact ⟨rfl, rfl⟩
        | some (o, i), none, h2 => cases h2
        | some (o, i), some (o', i'), h2 =>
          simp only [comb] at h2
          split at h2 <;> cases h2
      obtain ⟨rfl, rfl⟩ := this
      simpa using total_none.1 h1
    · intro h
      simp only [List.mem_cons, forall_eq_or_imp] at h
      simp [total, total_none.2 h.2, h.1, comb]

theorem opOf_shapein (d : Dims) (q : Bool) : (opOf d q).shapein = d.bind Prod.snd := by
  match d with
  | none => rfl
  | some (o, i) => cases o <;> cases i <;> simp [opOf, finishInit, squareOf]

theorem opOf_shapeout (d : Dims) (q : Bool) : (opOf d q).shapeout = d.bind Prod.fst := by
  match d with
  | none => rfl
  | some (o, i) => cases o <;> cases i <;> simp [opOf, finishInit, squareOf]

theorem getShapes_opOf (p : Dims × Bool) (l : List (Dims × Bool)) (t : Dims) (h : total ((p :: l).map Prod.fst) = some t) (on : Op)
    (hon : ((p :: l).map fun p => opOf p.1 p.2).getLast? = some on) :
    ∃ shapes, getShapes on.shapein (opOf p.1 p.2).shapeout ((p :: l).map fun p => opOf p.1 p.2) = some shapes ∧
      shapes.head? = some (t.bind Prod.fst) ∧ shapes.getLast? = some (t.bind Prod.snd) := by
  have he : on.shapein = endOf ((p :: l).map Prod.fst) := by
    rw [endOf]
    simp only [List.getLast?_map] at hon ⊢
    cases hx : (p :: l).getLast? with
    | none => simp at hx
    | some x =>
      rw [hx] at hon
      cases hon
      simp [opOf_shapein]
  have hE := endOf_total h
  rw [he]
  generalize endOf ((p :: l).map Prod.fst) = e at hE
  have hf : Fits none e ((p :: l).map Prod.fst) := by
    refine fits_total e none h ?_ (fun _ => rfl)
    intro x hx
    refine ⟨rfl, ?_⟩
    rcases hE with rfl | ⟨o, rfl⟩
    · cases x.2 <;> rfl
    · cases hx; exact agree_refl _
  obtain ⟨r, hr⟩ := lefts_eq e ((p :: l).map Prod.fst)
  obtain ⟨shapes, k1, k2⟩ := scanIn_opOf e (p :: l) none r hr hf
  rw [rightOf_total none h] at k2
  rw [Option.none_or, leftOf_total e h] at k1 k2
  refine ⟨t.elim e Prod.fst :: shapes, ?_, ?_, ?_⟩
  · simp only [getShapes, scanOut_head, hr]
    rw [leftOf_total e h, k1]
  · rcases hE with rfl | ⟨o, rfl⟩
    · cases t <;> rfl
    · rfl
  · rw [k2]
    rcases hE with rfl | ⟨o, rfl⟩
    · cases t <;> simp
    · simp

theorem opOf_known (o i : Option Shape) (q : Bool) : opOf (some (o, i)) q =
    ⟨i, o, fun _ => o, fun _ => i, defaultValid i, defaultValid o, if i.isSome then .explicit else .unconstrained,
      if o.isSome then .explicit else .unconstrained, o.isSome && i == o⟩ := by
  have ha : ∀ v, accepts none v = defaultValid v := fun v => rfl
  rcases o with _ | a <;> rcases i with _ | b
  · simp [opOf, finishInit, squareOf, reshapeOf, validOf, kindOf, ha]
  · simp [opOf, finishInit, squareOf, reshapeOf, validOf, kindOf, ha]
  · simp [opOf, finishInit, squareOf, reshapeOf, validOf, kindOf, ha]
  · by_cases hab : b = a
    · subst hab
      simp [opOf, finishInit, squareOf, reshapeOf, validOf, kindOf]
    · simp [opOf, finishInit, squareOf, reshapeOf, validOf, kindOf, hab]

theorem init_same (v w : Shape → Bool) (hv : v = fun _ => true) (hw : w = fun _ => true) (sq : Bool) :
    init { reshapein := some id, reshapeout := some id, validatein := some v, validateout := some w, square := sq } = some (opOf none sq) := by
  subst hv hw
  simp only [init, fill, checked, Bool.and_self, if_true, finishInit, squareOf, opOf, Option.some.injEq, Op.mk.injEq]
  cases sq <;> simp [reshapeOf, validOf, kindOf] <;> rfl

theorem init_known (o i : Option Shape) (v w : Shape → Bool) (hv : v = (fun _ => true) ∨ v = defaultValid i)
    (hw : w = (fun _ => true) ∨ w = defaultValid o) (sq : Bool) (hsq : o = none ∨ i = none → sq = false) :
    init { shapein := i, shapeout := o, validatein := some v, validateout := some w, square := sq } = some (opOf (some (o, i)) sq) := by
  rw [opOf_known]
  have hd : (fun _ => true) = defaultValid none := rfl
  have ha : ∀ v, accepts (some v) none = v := fun v => rfl
  rcases o with _ | a <;> rcases i with _ | b
  · have := hsq (by simp)
    subst this
    rcases hv with rfl | rfl <;> rcases hw with rfl | rfl <;>
      simp [init, fill, checked, finishInit, squareOf, reshapeOf, validOf, kindOf, hd, ha]
  · have := hsq (by simp)
    subst this
    rcases hv with rfl | rfl <;> rcases hw with rfl | rfl <;>
      simp [init, fill, checked, accepts, reshaped, finishInit, squareOf, reshapeOf, validOf, kindOf] <;>
      (try constructor) <;> (try funext s) <;> simp [accepts, defaultValid]
  · have := hsq (by simp)
    subst this
    rcases hv with rfl | rfl <;> rcases hw with rfl | rfl <;>
      simp [init, fill, checked, accepts, reshaped, finishInit, squareOf, reshapeOf, validOf, kindOf] <;>
      (try constructor) <;> (try funext s) <;> simp [accepts, defaultValid]
  · by_cases hab : b = a
    · subst hab
      rcases hv with rfl | rfl <;> rcases hw with rfl | rfl <;>
        simp [init, fill, checked, accepts, reshaped, finishInit, squareOf, defaultValid, reshapeOf, validOf, kindOf]
    · rcases hv with rfl | rfl <;> rcases hw with rfl | rfl <;>
        simp [init, fill, checked, accepts, reshaped, finishInit, squareOf, defaultValid, reshapeOf, validOf, kindOf, hab]

theorem mergeReshapein_none {l : List (Dims × Bool)} (hne : l ≠ []) (h : ∀ p ∈ l, p.1 = none) :
    mergeReshapein (l.map fun p => opOf p.1 p.2) = some id := by
  have h1 : (l.map fun p => opOf p.1 p.2).any (fun o => o.kindout ≠ .implicit) = false := by
    rw [List.any_eq_false]
    simp only [List.mem_map, forall_exists_index, and_imp, forall_apply_eq_imp_iff₂]
    intro p hp
    simp [h p hp, opOf]
  rw [mergeReshapein, h1]
  simp only [Bool.false_eq_true, if_false]
  have h2 : ∀ p ∈ l, ∀ s, ((opOf p.1 p.2).reshapein s).getD s = s := fun p hp s => by simp [h p hp, opOf]
  split
  · cases hx : l.getLast? with
    | none => simp at hx; exact absurd hx hne
    | some x =>
      simp only [List.getLast?_map, hx, Option.map_some, Option.some.injEq]
      exact funext fun s => h2 x (List.mem_of_getLast? hx) s
  · congr 1
    funext s
    rename_i h3
    clear h1 hne h3
    induction l with
    | nil => rfl
    | cons p l ih =>
      have := ih (fun p hp => h p (List.mem_cons_of_mem _ hp)) (fun p hp => h2 p (List.mem_cons_of_mem _ hp))
      simp only [reshapeAll, List.map_cons, List.foldr_cons] at this ⊢
      rw [this]
      exact h2 p List.mem_cons_self s

theorem mergeReshapeout_none {l : List (Dims × Bool)} (hne : l ≠ []) (h : ∀ p ∈ l, p.1 = none) :
    mergeReshapeout (l.map fun p => opOf p.1 p.2) = some id := by
  have h1 : (l.map fun p => opOf p.1 p.2).any (fun o => o.kindin ≠ .implicit) = false := by
    rw [List.any_eq_false]
    simp only [List.mem_map, forall_exists_index, and_imp, forall_apply_eq_imp_iff₂]
    intro p hp
    simp [h p hp, opOf]
  rw [mergeReshapeout, h1]
  simp only [Bool.false_eq_true, if_false]
  have h2 : ∀ p ∈ l, ∀ s, ((opOf p.1 p.2).reshapeout s).getD s = s := fun p hp s => by simp [h p hp, opOf]
  split
  · cases l with
    | nil => exact absurd rfl hne
    | cons x l => exact congrArg some (funext fun s => h2 x List.mem_cons_self s)
  · congr 1
    funext s
    rename_i h3
    clear h1 hne h3
    induction l with
    | nil => rfl
    | cons p l ih =>
      have := ih (fun p hp => h p (List.mem_cons_of_mem _ hp)) (fun p hp => h2 p (List.mem_cons_of_mem _ hp))
      simp only [reshapeAllBack, List.map_cons, List.foldl_cons] at this ⊢
      rw [h2 p List.mem_cons_self s]
      exact this

theorem kinds_some (x : Option Shape × Option Shape) (q : Bool) : (opOf (some x) q).kindin ≠ .implicit ∧ (opOf (some x) q).kindout ≠ .implicit := by
  obtain ⟨o, i⟩ := x
  cases o <;> cases i <;> simp [opOf_known]

theorem valid_some (o i : Option Shape) (q : Bool) :
    (opOf (some (o, i)) q).validatein = defaultValid i ∧ (opOf (some (o, i)) q).validateout = defaultValid o := by
  simp [opOf_known]

/-- The composition of operators given by their dimensions is the operator of the dimensions of the product. -/
theorem composeWith_opOf (sq : Bool) {l : List (Dims × Bool)} (hne : l ≠ []) {t : Dims} (h : total (l.map Prod.fst) = some t)
    (hsq : ∀ o i, t = some (o, i) → o = none ∨ i = none → sq = false) :
    composeWith sq (l.map fun p => opOf p.1 p.2) = some (opOf t sq) := by
  obtain ⟨p, l, rfl⟩ := List.exists_cons_of_ne_nil hne
  obtain ⟨x, hx⟩ : ∃ x, (p :: l).getLast? = some x := ⟨_, List.getLast?_eq_some_getLast (by simp)⟩
  have hon : ((p :: l).map fun p => opOf p.1 p.2).getLast? = some (opOf x.1 x.2) := by simp only [List.getLast?_map, hx, Option.map_some]
  obtain ⟨shapes, h1, h2, h3⟩ := getShapes_opOf p l t h _ hon
  have hhead : ((p :: l).map fun p => opOf p.1 p.2).head? = some (opOf p.1 p.2) := rfl
  simp only [composeWith, hhead, hon, h1, h2, h3, Option.getD_some]
  cases t with
  | none =>
    have hall : ∀ q ∈ p :: l, q.1 = none := fun q hq => total_none.1 h q.1 (List.mem_map_of_mem hq)
    rw [mergeReshapein_none hne hall, mergeReshapeout_none hne hall]
    exact init_same _ _ (by rw [hall x (List.mem_of_getLast? hx)]; rfl) (by rw [hall p List.mem_cons_self]; rfl) sq
  | some t =>
    obtain ⟨o, i⟩ := t
    obtain ⟨y, hy, hy'⟩ : ∃ y ∈ p :: l, y.1 ≠ none := by
      by_contra hc
      push Not at hc
      have : total ((p :: l).map Prod.fst) = some none := total_none.2 fun d hd => by
        obtain ⟨q, hq, rfl⟩ := List.mem_map.1 hd
        exact hc q hq
      rw [h] at this
      cases this
    obtain ⟨z, hz⟩ := Option.ne_none_iff_exists'.1 hy'
    have k := kinds_some z y.2
    rw [← hz] at k
    have m1 : mergeReshapein ((p :: l).map fun p => opOf p.1 p.2) = none := by
      rw [mergeReshapein, if_pos]
      rw [List.any_eq_true]
      exact ⟨_, List.mem_map_of_mem hy, by simpa using k.2⟩
    have m2 : mergeReshapeout ((p :: l).map fun p => opOf p.1 p.2) = none := by
      rw [mergeReshapeout, if_pos]
      rw [List.any_eq_true]
      exact ⟨_, List.mem_map_of_mem hy, by simpa using k.1⟩
    rw [m1, m2]
    refine init_known o i _ _ ?_ ?_ sq (hsq o i rfl)
    · match hd : x.1 with
      | none => exact .inl rfl
      | some (a, b) =>
        right
        have he : endOf ((p :: l).map Prod.fst) = b := by rw [endOf, List.getLast?_map, hx]; simp [hd]
        rcases endOf_total h with h4 | ⟨o', h4⟩
        · rw [(valid_some a b _).1]
          have hr := rightOf_total none h
          rw [he] at h4
          subst h4
          obtain ⟨ds, hds⟩ : ∃ ds, p :: l = ds ++ [x] := ⟨_, (List.dropLast_append_getLast? x hx).symm⟩
          rw [hds] at hr
          have : ∀ (ds : List (Dims × Bool)) c, rightOf c ((ds ++ [x]).map Prod.fst) = none := by
            intro ds
            induction ds with
            | nil => intro c; simp [hd, rightOf]
            | cons d ds ih =>
              intro c
              obtain ⟨_ | ⟨_, _⟩, _⟩ := d
              · exact ih c
              · exact ih _
          rw [this] at hr
          rw [show i = none from hr.symm]
        · rw [he] at h4
          cases h4
          exact (valid_some a i _).1
    · cases hd : p.1 with
      | none => exact .inl rfl
      | some z =>
        right
        have hl := leftOf_total none h
        rw [List.map_cons, hd] at hl
        have hz : z.1 = o := hl
        rw [← hz]
        exact (valid_some z.1 z.2 _).2

/-! ### Products -/

theorem none_comb (d : Dims) : comb none d = some d := rfl

theorem comb_none (d : Dims) : comb d none = some d := by cases d <;> rfl

theorem comb_assoc (a b c : Dims) : (comb a b).bind (comb · c) = (comb b c).bind (comb a) := by
  match a, b, c with
  | none, b, c => cases h : comb b c <;> simp [none_comb, h]
  | some a, none, c => simp [comb]
  | some a, some b, none => cases h : comb (some a) (some b) <;> simp [comb_none, h]
  | some (o, i), some (o', i'), some (o'', i'') =>
    by_cases h1 : i = none ∨ o' = none ∨ i = o' <;> by_cases h2 : i' = none ∨ o'' = none ∨ i' = o'' <;> simp only [comb, h1, h2, if_true, if_false, Option.bind_some, Option.bind_none]

theorem total_append (ds ds' : List Dims) : total (ds ++ ds') = (total ds).bind fun a => (total ds').bind (comb a) := by
  induction ds with
  | nil => cases h : total ds' <;> simp [total, comb, h]
  | cons d ds ih =>
    rw [List.cons_append, total, ih, total]
    cases total ds with
    | none => simp
    | some a =>
      cases total ds' with
      | none => cases h : comb d a <;> simp [h]
      | some b =>
        simp only [Option.bind_some]
        rw [← comb_assoc]

theorem total_append_some {ds ds' : List Dims} {d : Dims} (h : total (ds ++ ds') = some d) :
    ∃ a b, total ds = some a ∧ total ds' = some b ∧ comb a b = some d := by
  rw [total_append] at h
  simp only [Option.bind_eq_some_iff] at h
  obtain ⟨a, h1, b, h2, h3⟩ := h
  exact ⟨a, b, h1, h2, h3⟩

theorem total_pair (a b : Dims) : total [a, b] = comb a b := by simp [total, comb_none]

theorem total_two {ds ds' : List Dims} {a b d : Dims} (h1 : total ds = some a) (h2 : total ds' = some b) (h3 : comb a b = some d) :
    total (ds ++ ds') = some d := by simp [total_append, h1, h2, h3]

/-- The shapes are unknown together. -/
def Even (d : Dims) : Prop := ∀ o i, d = some (o, i) → o ≠ none ∧ i ≠ none

theorem Even.comb {a b d : Dims} (ha : Even a) (hb : Even b) (h : comb a b = some d) : Even d := by
  match a, b, h with
  | none, b, h => cases h; exact hb
  | some a, none, h => cases h; exact ha
  | some (o, i), some (o', i'), h =>
    simp only [Product.comb] at h
    split at h
    · cases h
      intro _ _ he
      cases he
      exact ⟨(ha _ _ rfl).1, (hb _ _ rfl).2⟩
    · cases h

theorem Even.total {ds : List Dims} (h : ∀ d ∈ ds, Even d) {d : Dims} (hd : total ds = some d) : Even d := by
  induction ds generalizing d with
  | nil => cases hd; intro _ _ h; cases h
  | cons a ds ih =>
    obtain ⟨t, h1, h2⟩ := total_cons hd
    exact Even.comb (h a List.mem_cons_self) (ih (fun d hd => h d (List.mem_cons_of_mem _ hd)) h1) h2

theorem even_of_square {d : Dims} {q : Bool} (h : (opOf d q).square = true) : Even d := by
  intro o i hd
  subst hd
  rw [opOf_known] at h
  simp only [Bool.and_eq_true, beq_iff_eq] at h
  obtain ⟨h1, rfl⟩ := h
  cases i <;> simp_all

theorem compose_opOf {l : List (Dims × Bool)} (hne : l ≠ []) {t : Dims} (h : total (l.map Prod.fst) = some t) :
    ∃ q, compose (l.map fun p => opOf p.1 p.2) = some (opOf t q) := by
  have hw : compose (l.map fun p => opOf p.1 p.2) =
      composeWith ((l.map fun p => opOf p.1 p.2).all fun o => o.square) (l.map fun p => opOf p.1 p.2) := rfl
  rw [hw]
  refine ⟨_, composeWith_opOf _ hne h ?_⟩
  intro o i ht hoi
  by_contra hc
  simp only [Bool.not_eq_false, List.all_eq_true, List.mem_map, forall_exists_index, and_imp, forall_apply_eq_imp_iff₂] at hc
  have : Even t := Even.total (ds := l.map Prod.fst) (by
    intro d hd
    obtain ⟨p, hp, rfl⟩ := List.mem_map.1 hd
    exact even_of_square (hc p hp)) h
  rcases hoi with rfl | rfl
  · exact (this _ _ ht).1 rfl
  · exact (this _ _ ht).2 rfl

theorem newComp_ok {l : List (Dims × Bool)} (hne : l ≠ []) {t : Dims} (h : total (l.map Prod.fst) = some t) :
    ∃ q, newComp (l.map fun p => opOf p.1 p.2) = some (.comp (l.map fun p => opOf p.1 p.2) (opOf t q)) := by
  obtain ⟨q, hq⟩ := compose_opOf hne h
  exact ⟨q, by rw [newComp, hq]; rfl⟩

theorem merge_ok (tag : Tag) (sq : Bool) {a b d : Dims} (qa qb : Bool) (h : comb a b = some d)
    (hsq : ∀ o i, d = some (o, i) → o = none ∨ i = none → sq = false) :
    merge tag sq (opOf a qa) (opOf b qb) = some (.single tag (opOf d sq)) := by
  have := composeWith_opOf sq (l := [(a, qa), (b, qb)]) (by simp) (by simpa [total_pair] using h) hsq
  rw [merge]
  simp only [List.map_cons, List.map_nil] at this
  rw [this]
  rfl

theorem absorb_ok (l : List (Dims × Bool)) (z : Dims) (q : Bool) {d : Dims} (h : total (l.map Prod.fst ++ [z]) = some d) :
    ∃ q', absorb (l.map fun p => opOf p.1 p.2) (opOf z q) = some (opOf d q') := by
  induction l generalizing d with
  | nil =>
    have : d = z := by simpa [total, comb_none] using h.symm
    subst this
    exact ⟨q, rfl⟩
  | cons p l ih =>
    obtain ⟨t, h1, h2⟩ := total_cons (d := p.1) (ds := l.map Prod.fst ++ [z]) (by simpa using h)
    obtain ⟨q', hq⟩ := ih h1
    refine ⟨false, ?_⟩
    have := composeWith_opOf false (l := [p, (t, q')]) (by simp) (by simpa [total_pair] using h2) (by simp)
    simp only [absorb, List.map_cons, List.foldr_cons] at hq ⊢
    rw [hq]
    exact this

/-- The number of factors that are neither zero nor the identity. -/
def Tree.others (t : Tree) : Nat := (t.leaves.filter fun l => l.1 = .other).length

theorem hasZero_mul (a b : Tree) : (Tree.mul a b).hasZero ↔ a.hasZero ∨ b.hasZero := by
  simp only [Tree.hasZero, Tree.leaves, List.mem_append, or_and_right, exists_or]

theorem others_mul (a b : Tree) : (Tree.mul a b).others = a.others + b.others := by simp [Tree.others, Tree.leaves]

theorem allIdentity_iff (t : Tree) : t.allIdentity ↔ ¬ t.hasZero ∧ t.others = 0 := by
  simp only [Tree.allIdentity, Tree.hasZero, Tree.others, List.length_eq_zero_iff, List.filter_eq_nil_iff, decide_eq_true_eq, not_exists, not_and]
  constructor
  · intro h
    exact ⟨fun l hl => by simp [h l hl], fun l hl => by simp [h l hl]⟩
  · intro h l hl
    have h1 := h.1 l hl
    have h2 := h.2 l hl
    cases hx : l.1 <;> simp_all

/-- What is known of the class of the product. -/
def TagOk (t : Tree) (d : Dims) : Tag → Prop
  | .zero => t.hasZero
  | .identity => ¬ t.hasZero ∧ t.others = 0 ∧ (d = none ∨ ∃ s, d = some (some s, some s))
  | .other => ¬ t.hasZero ∧ t.others = 1

/-- The product has the dimensions. -/
def Inv (t : Tree) (d : Dims) : Term → Prop
  | .single tag op => (∃ q, op = opOf d q) ∧ TagOk t d tag
  | .comp ops op => (∃ l : List (Dims × Bool), ops = (l.map fun p => opOf p.1 p.2) ∧ l ≠ [] ∧ total (l.map Prod.fst) = some d) ∧
      (∃ q, op = opOf d q) ∧ ¬ t.hasZero ∧ 2 ≤ t.others

theorem square_left {a b d : Dims} {q : Bool} (ha : a = none ∨ ∃ s, a = some (some s, some s)) (h : comb a b = some d) (o i : Option Shape)
    (hd : d = some (o, i)) (hoi : o = none ∨ i = none) : (opOf b q).square = false := by
  by_contra hc
  have he := even_of_square (Bool.not_eq_false _ ▸ hc)
  have : Even a := by
    rcases ha with rfl | ⟨s, rfl⟩
    · intro _ _ h; cases h
    · intro _ _ h; cases h; simp
  have := Even.comb this he h _ _ hd
  rcases hoi with rfl | rfl
  · exact this.1 rfl
  · exact this.2 rfl

theorem square_right {a b d : Dims} {q : Bool} (hb : b = none ∨ ∃ s, b = some (some s, some s)) (h : comb a b = some d) (o i : Option Shape)
    (hd : d = some (o, i)) (hoi : o = none ∨ i = none) : (opOf a q).square = false := by
  by_contra hc
  have he := even_of_square (Bool.not_eq_false _ ▸ hc)
  have : Even b := by
    rcases hb with rfl | ⟨s, rfl⟩
    · intro _ _ h; cases h
    · intro _ _ h; cases h; simp
  have := Even.comb he this h _ _ hd
  rcases hoi with rfl | rfl
  · exact this.1 rfl
  · exact this.2 rfl

theorem square_comb {a b d : Dims} (ha : a = none ∨ ∃ s, a = some (some s, some s)) (hb : b = none ∨ ∃ s, b = some (some s, some s))
    (h : comb a b = some d) : d = none ∨ ∃ s, d = some (some s, some s) := by
  rcases ha with rfl | ⟨s, rfl⟩
  · cases h; exact hb
  · rcases hb with rfl | ⟨s', rfl⟩
    · cases h; exact .inr ⟨s, rfl⟩
    · simp only [comb] at h
      by_cases h' : s = s'
      · subst h'
        simp only [or_true, if_true, Option.some.injEq] at h
        exact .inr ⟨s, h.symm⟩
      · simp [h'] at h

theorem mul_inv {a b : Tree} {da db d : Dims} {x y : Term} (hx : Inv a da x) (hy : Inv b db y) (h : comb da db = some d)
    (hs : b.isComp → ¬ a.hasZero ∧ (a.allIdentity → da = none)) (hs' : a.isComp → b.allIdentity → db = none) :
    ∃ r, Product.mul x y = some r ∧ Inv (.mul a b) d r := by
  have hz := hasZero_mul a b
  have ho := others_mul a b
  match x, y, hx, hy with
  | .single tx _, .single ty _, ⟨⟨q, rfl⟩, hx⟩, ⟨⟨q', rfl⟩, hy⟩ =>
    by_cases htx : tx = .identity
    · subst htx
      refine ⟨_, merge_ok _ _ _ _ h (square_left hx.2.2 h), ⟨_, rfl⟩, ?_⟩
      cases ty with
      | zero => exact hz.2 (.inr hy)
      | identity => exact ⟨fun hc => (hz.1 hc).elim hx.1 hy.1, by rw [ho, hx.2.1, hy.2.1], square_comb hx.2.2 hy.2.2 h⟩
      | other => exact ⟨fun hc => (hz.1 hc).elim hx.1 hy.1, by rw [ho, hx.2.1, hy.2]⟩
    · by_cases hty : ty = .identity
      · subst hty
        have hm : Product.mul (.single tx (opOf da q)) (.single .identity (opOf db q')) = merge tx (opOf da q).square (opOf da q) (opOf db q') := by
          cases tx <;> first | rfl | exact absurd rfl htx
        rw [hm]
        refine ⟨_, merge_ok _ _ _ _ h (square_right hy.2.2 h), ⟨_, rfl⟩, ?_⟩
        cases tx with
        | zero => exact hz.2 (.inl hx)
        | identity => exact absurd rfl htx
        | other => exact ⟨fun hc => (hz.1 hc).elim hx.1 hy.1, by rw [ho, hx.2, hy.2.1]⟩
      · cases tx with
        | identity => exact absurd rfl htx
        | zero =>
          have hm : Product.mul (.single .zero (opOf da q)) (.single ty (opOf db q')) = merge .zero false (opOf da q) (opOf db q') := by
            cases ty <;> first | rfl | exact absurd rfl hty
          rw [hm]
          exact ⟨_, merge_ok _ _ _ _ h (by simp), ⟨_, rfl⟩, hz.2 (.inl hx)⟩
        | other =>
          cases ty with
          | identity => exact absurd rfl hty
          | zero => exact ⟨_, merge_ok _ _ _ _ h (by simp), ⟨_, rfl⟩, hz.2 (.inr hy)⟩
          | other =>
            have ht : total (([(da, q), (db, q')] : List (Dims × Bool)).map Prod.fst) = some d := by simpa [total_pair] using h
            obtain ⟨r, hr⟩ := newComp_ok (by simp) ht
            exact ⟨_, hr, ⟨_, rfl, by simp, ht⟩, ⟨_, rfl⟩, fun hc => (hz.1 hc).elim hx.1 hy.1, by rw [ho, hx.2, hy.2]; exact Nat.le_refl 2⟩
  | .single tx _, .comp _ _, ⟨⟨q, rfl⟩, hx⟩, ⟨⟨l, rfl, hl, ht⟩, ⟨q', rfl⟩, hy1, hy2⟩ =>
    obtain ⟨hs1, hs2⟩ := hs ⟨hy1, hy2⟩
    cases tx with
    | zero => exact absurd hx hs1
    | identity =>
      have := hs2 ((allIdentity_iff a).2 ⟨hx.1, hx.2.1⟩)
      subst this
      cases h
      exact ⟨_, rfl, ⟨l, rfl, hl, ht⟩, ⟨q', rfl⟩, fun hc => (hz.1 hc).elim hx.1 hy1, by rw [ho, hx.2.1]; omega⟩
    | other =>
      have ht' : total (((da, q) :: l).map Prod.fst) = some d := by simp [total, ht, h]
      obtain ⟨r, hr⟩ := newComp_ok (by simp) ht'
      exact ⟨_, hr, ⟨_, rfl, by simp, ht'⟩, ⟨_, rfl⟩, fun hc => (hz.1 hc).elim hx.1 hy1, by rw [ho]; omega⟩
  | .comp _ _, .single ty _, ⟨⟨l, rfl, hl, ht⟩, ⟨q', rfl⟩, hx1, hx2⟩, ⟨⟨q, rfl⟩, hy⟩ =>
    have h1 : total [db] = some db := by simp [total, comb_none]
    cases ty with
    | zero =>
      obtain ⟨r, hr⟩ := absorb_ok l db q (total_two ht h1 h)
      exact ⟨.single .zero (opOf d r), by rw [Product.mul, hr]; rfl, ⟨r, rfl⟩, hz.2 (.inr hy)⟩
    | identity =>
      have := hs' ⟨hx1, hx2⟩ ((allIdentity_iff b).2 ⟨hy.1, hy.2.1⟩)
      subst this
      rw [comb_none] at h
      cases h
      exact ⟨_, rfl, ⟨l, rfl, hl, ht⟩, ⟨q', rfl⟩, fun hc => (hz.1 hc).elim hx1 hy.1, by rw [ho, hy.2.1]; omega⟩
    | other =>
      have ht' : total ((l ++ [(db, q)]).map Prod.fst) = some d := by simpa using total_two ht h1 h
      obtain ⟨r, hr⟩ := newComp_ok (by simp) ht'
      rw [List.map_append] at hr
      exact ⟨_, hr, ⟨l ++ [(db, q)], by simp, by simp, ht'⟩, ⟨_, rfl⟩, fun hc => (hz.1 hc).elim hx1 hy.1, by rw [ho]; omega⟩
  | .comp _ _, .comp _ _, ⟨⟨l, rfl, hl, ht⟩, ⟨q, rfl⟩, hx1, hx2⟩, ⟨⟨l', rfl, hl', ht'⟩, ⟨q', rfl⟩, hy1, hy2⟩ =>
    have h' : total ((l ++ l').map Prod.fst) = some d := by simpa using total_two ht ht' h
    obtain ⟨r, hr⟩ := newComp_ok (by simp [hl]) h'
    rw [List.map_append] at hr
    exact ⟨_, hr, ⟨l ++ l', by simp, by simp [hl], h'⟩, ⟨_, rfl⟩, fun hc => (hz.1 hc).elim hx1 hy1, by rw [ho]; omega⟩

theorem leaves_none {t : Tree} {e : Dims} (he : total (t.leaves.map Prod.snd) = some e) (hn : ∀ l ∈ t.leaves, l.2 = none) : e = none := by
  have := total_none.2 (show ∀ d ∈ t.leaves.map Prod.snd, d = none from fun d hd => by
    obtain ⟨l, hl, rfl⟩ := List.mem_map.1 hd
    exact hn l hl)
  rw [he] at this
  exact Option.some.inj this

theorem eval_inv (t : Tree) (hg : t.Good) (hs : t.Safe) : ∀ d, total (t.leaves.map Prod.snd) = some d → ∃ r, t.eval = some r ∧ Inv t d r := by
  induction t with
  | leaf tag e =>
    intro d h
    have : d = e := by simpa [Tree.leaves, total, comb_none] using h.symm
    subst this
    refine ⟨.single tag (opOf d true), by rw [Tree.eval, init_declOf]; rfl, ⟨true, rfl⟩, ?_⟩
    cases tag with
    | zero => exact ⟨_, List.mem_singleton_self _, rfl⟩
    | identity => exact ⟨by simp [Tree.hasZero, Tree.leaves], by simp [Tree.others, Tree.leaves], hg _ (List.mem_singleton_self _) rfl⟩
    | other => exact ⟨by simp [Tree.hasZero, Tree.leaves], by simp [Tree.others, Tree.leaves]⟩
  | mul a b iha ihb =>
    intro d h
    obtain ⟨hsa, hsb, hs1, hs2⟩ := hs
    rw [Tree.leaves, List.map_append] at h
    obtain ⟨da, db, h1, h2, h3⟩ := total_append_some h
    obtain ⟨x, hx, hx'⟩ := iha (fun l hl => hg l (List.mem_append_left _ hl)) hsa da h1
    obtain ⟨y, hy, hy'⟩ := ihb (fun l hl => hg l (List.mem_append_right _ hl)) hsb db h2
    obtain ⟨r, hr, hr'⟩ := mul_inv hx' hy' h3 (fun hb => ⟨(hs1 hb).1, fun ha => leaves_none h1 ((hs1 hb).2 ha)⟩) (fun ha hb => leaves_none h2 (hs2 ha hb))
    exact ⟨r, by simp only [Tree.eval, hx, hy, Option.bind_some, hr], hr'⟩

/-! ### Products whose dimensions do not match -/

theorem total_of_fits (e : Option Shape) : ∀ {ds : List Dims} (c : Option Shape), Fits c e ds →
    ∃ t, total ds = some t ∧ agree c (t.elim e Prod.fst) = true
  | [], c, h => ⟨none, rfl, h⟩
  | none :: ds, c, h => by
    obtain ⟨t, h1, h2⟩ := total_of_fits e (ds := ds) c h
    exact ⟨t, by simp [total, h1, none_comb], h2⟩
  | some (o, i) :: ds, c, h => by
    obtain ⟨t, h1, h2⟩ := total_of_fits e (ds := ds) i h.2
    match t, h1, h2 with
    | none, h1, _ => exact ⟨some (o, i), by simp [total, h1, comb_none], h.1⟩
    | some (o', i'), h1, h2 => exact ⟨some (o, i'), by simp only [total, h1, Option.bind_some, comb]; exact if_pos ((agree_iff _ _).1 h2), h.1⟩

theorem scanIn_none (e : Option Shape) : ∀ (l : List (Dims × Bool)) (L : Option Shape) (r : List (Option Shape)),
    lefts e (l.map Prod.fst) = leftOf e (l.map Prod.fst) :: r → agree L (leftOf e (l.map Prod.fst)) = true → ¬ Fits L e (l.map Prod.fst) →
    scanIn (l.map fun p => opOf p.1 p.2) (L.or (leftOf e (l.map Prod.fst)) :: r) = none
  | [], L, r, _, ha, hf => absurd ha hf
  | p :: l, L, r, hr, ha, hf => by
    obtain ⟨r', hr'⟩ := lefts_eq e (l.map Prod.fst)
    have : r = leftOf e (l.map Prod.fst) :: r' := by
      simp only [List.map_cons, lefts, hr', List.cons.injEq, true_and] at hr
      exact hr.symm
    subst this
    rw [List.map_cons, scanIn]
    simp only [across_right]
    rcases p with ⟨_ | ⟨o, i⟩, q⟩
    · have ih := scanIn_none e l L r' hr' ha hf
      simp only [List.map_cons, leftOf, rightOf, Option.or_assoc, Option.or_self, ih, Option.map_none, ite_self]
    · simp only [List.map_cons, leftOf, rightOf]
      by_cases h : agree (leftOf e (l.map Prod.fst)) i = true
      · rw [agree_comm] at h
        have ih := scanIn_none e l i r' hr' h fun hc => hf ⟨ha, hc⟩
        rw [ih]
        simp
      · simp [h]

theorem composeWith_none (sq : Bool) {l : List (Dims × Bool)} (hne : l ≠ []) (h : total (l.map Prod.fst) = none) :
    composeWith sq (l.map fun p => opOf p.1 p.2) = none := by
  obtain ⟨p, l, rfl⟩ := List.exists_cons_of_ne_nil hne
  obtain ⟨x, hx⟩ : ∃ x, (p :: l).getLast? = some x := ⟨_, List.getLast?_eq_some_getLast (by simp)⟩
  have hon : ((p :: l).map fun p => opOf p.1 p.2).getLast? = some (opOf x.1 x.2) := by simp only [List.getLast?_map, hx, Option.map_some]
  have hhead : ((p :: l).map fun p => opOf p.1 p.2).head? = some (opOf p.1 p.2) := rfl
  obtain ⟨r, hr⟩ := lefts_eq (opOf x.1 x.2).shapein ((p :: l).map Prod.fst)
  have : ¬ Fits none (opOf x.1 x.2).shapein ((p :: l).map Prod.fst) := by
    intro hc
    obtain ⟨t, ht, _⟩ := total_of_fits _ _ hc
    rw [h] at ht
    cases ht
  have := scanIn_none _ (p :: l) none r hr rfl this
  rw [Option.none_or] at this
  simp only [composeWith, hhead, hon, getShapes, scanOut_head, hr, this]

theorem absorb_none (l : List (Dims × Bool)) (z : Dims) (q : Bool) (h : total (l.map Prod.fst ++ [z]) = none) :
    absorb (l.map fun p => opOf p.1 p.2) (opOf z q) = none := by
  induction l with
  | nil => simp [total, comb_none] at h
  | cons p l ih =>
    simp only [absorb, List.map_cons, List.foldr_cons] at ih ⊢
    cases ht : total (l.map Prod.fst ++ [z]) with
    | none => rw [ih ht]; rfl
    | some t =>
      obtain ⟨q', hq⟩ := absorb_ok l z q ht
      rw [absorb] at hq
      rw [hq]
      have : comb p.1 t = none := by simpa [total, ht] using h
      exact composeWith_none false (l := [p, (t, q')]) (by simp) (by simpa [total_pair] using this)

theorem mul_none {a b : Tree} {da db : Dims} {x y : Term} (hx : Inv a da x) (hy : Inv b db y) (h : comb da db = none)
    (hs : b.isComp → ¬ a.hasZero ∧ (a.allIdentity → da = none)) (hs' : a.isComp → b.allIdentity → db = none) : Product.mul x y = none := by
  have hm : ∀ tag sq q q', merge tag sq (opOf da q) (opOf db q') = none := fun tag sq q q' => by
    have := composeWith_none sq (l := [(da, q), (db, q')]) (by simp) (by simpa [total_pair] using h)
    rw [merge]
    simp only [List.map_cons, List.map_nil] at this
    rw [this]
    rfl
  have hn : ∀ l : List (Dims × Bool), l ≠ [] → total (l.map Prod.fst) = none → newComp (l.map fun p => opOf p.1 p.2) = none := fun l hl ht => by
    have : compose (l.map fun p => opOf p.1 p.2) = none := composeWith_none _ hl ht
    rw [newComp, this]
    rfl
  match x, y, hx, hy with
  | .single tx _, .single ty _, ⟨⟨q, rfl⟩, hx⟩, ⟨⟨q', rfl⟩, hy⟩ =>
    have h2 := hn [(da, q), (db, q')] (by simp) (by simpa [total_pair] using h)
    cases tx <;> cases ty <;> first | exact hm _ _ _ _ | exact h2
  | .single tx _, .comp _ _, ⟨⟨q, rfl⟩, hx⟩, ⟨⟨l, rfl, hl, ht⟩, ⟨q', rfl⟩, hy1, hy2⟩ =>
    obtain ⟨hs1, hs2⟩ := hs ⟨hy1, hy2⟩
    cases tx with
    | zero => exact absurd hx hs1
    | identity =>
      rw [hs2 ((allIdentity_iff a).2 ⟨hx.1, hx.2.1⟩)] at h
      cases h
    | other => exact hn ((da, q) :: l) (by simp) (by simp [total, ht, h])
  | .comp _ _, .single ty _, ⟨⟨l, rfl, hl, ht⟩, ⟨q', rfl⟩, hx1, hx2⟩, ⟨⟨q, rfl⟩, hy⟩ =>
    have h1 : total [db] = some db := by simp [total, comb_none]
    have h2 : total (l.map Prod.fst ++ [db]) = none := by simp [total_append, ht, h1, h]
    cases ty with
    | zero => rw [Product.mul, absorb_none l db q h2]; rfl
    | identity =>
      rw [hs' ⟨hx1, hx2⟩ ((allIdentity_iff b).2 ⟨hy.1, hy.2.1⟩), comb_none] at h
      cases h
    | other =>
      have := hn (l ++ [(db, q)]) (by simp) (by simpa using h2)
      rw [List.map_append] at this
      exact this
  | .comp _ _, .comp _ _, ⟨⟨l, rfl, hl, ht⟩, ⟨q, rfl⟩, hx1, hx2⟩, ⟨⟨l', rfl, hl', ht'⟩, ⟨q', rfl⟩, hy1, hy2⟩ =>
    have := hn (l ++ l') (by simp [hl]) (by simp [total_append, ht, ht', h])
    rw [List.map_append] at this
    exact this

theorem eval_none (t : Tree) (hg : t.Good) (hs : t.Safe) (h : total (t.leaves.map Prod.snd) = none) : t.eval = none := by
  induction t with
  | leaf tag e => simp [Tree.leaves, total, comb_none] at h
  | mul a b iha ihb =>
    obtain ⟨hsa, hsb, hs1, hs2⟩ := hs
    have hga : a.Good := fun l hl => hg l (List.mem_append_left _ hl)
    have hgb : b.Good := fun l hl => hg l (List.mem_append_right _ hl)
    rw [Tree.leaves, List.map_append, total_append] at h
    cases h1 : total (a.leaves.map Prod.snd) with
    | none => rw [Tree.eval, iha hga hsa h1]; rfl
    | some da =>
      obtain ⟨x, hx, hx'⟩ := eval_inv a hga hsa da h1
      cases h2 : total (b.leaves.map Prod.snd) with
      | none => rw [Tree.eval, hx, ihb hgb hsb h2]; rfl
      | some db =>
        obtain ⟨y, hy, hy'⟩ := eval_inv b hgb hsb db h2
        rw [h1, h2] at h
        rw [Tree.eval, hx, hy]
        exact mul_none hx' hy' h (fun hb => ⟨(hs1 hb).1, fun ha => leaves_none h1 ((hs1 hb).2 ha)⟩) (fun ha hb => leaves_none h2 (hs2 ha hb))

/-! ### Theorems -/

theorem opOf_shows (d : Dims) (q : Bool) : Shows (opOf d q) d :=
  ⟨opOf_shapeout d q, opOf_shapein d q, fun h s => by subst h; exact ⟨rfl, rfl⟩⟩

/-- **C105** The product has the dimensions of the product of the matrices, and is refused if the dimensions do not match, whatever the
parentheses and the simplifications because of zeros and identities: for products in which no zero is on the left of a composition between
parentheses, and no identity whose shape is given is multiplied with a composition. -/
theorem C105_shapes_partial (t : Tree) (hg : t.Good) (hs : t.Safe) :
    (∀ d, total (t.leaves.map Prod.snd) = some d → ∃ r, t.eval = some r ∧ Shows r.op d) ∧
      (total (t.leaves.map Prod.snd) = none → t.eval = none) := by
  refine ⟨fun d h => ?_, eval_none t hg hs⟩
  obtain ⟨r, h1, h2⟩ := eval_inv t hg hs d h
  refine ⟨r, h1, ?_⟩
  match r, h2 with
  | .single _ _, ⟨⟨q, rfl⟩, _⟩ => exact opOf_shows d q
  | .comp _ _, ⟨_, ⟨q, rfl⟩, _⟩ => exact opOf_shows d q

/-- **C105** The output that is allocated has as many elements as the product of the matrices has rows, and the inputs that do not have as
many elements as it has columns are refused. -/
theorem C105_output_partial (t : Tree) (hg : t.Good) (hs : t.Safe) (rows columns s : Shape)
    (h : total (t.leaves.map Prod.snd) = some (some (some rows, some columns))) :
    ∃ r, t.eval = some r ∧ outputShape r.op s = if s = columns then some rows else none := by
  obtain ⟨r, h1, h2⟩ := eval_inv t hg hs _ h
  refine ⟨r, h1, ?_⟩
  have : ∃ q, r.op = opOf (some (some rows, some columns)) q := by
    match r, h2 with
    | .single _ _, ⟨⟨q, rfl⟩, _⟩ => exact ⟨q, rfl⟩
    | .comp _ _, ⟨_, ⟨q, rfl⟩, _⟩ => exact ⟨q, rfl⟩
  obtain ⟨q, hq⟩ := this
  rw [hq, opOf_known]
  by_cases hsc : s = columns
  · subst hsc
    simp [outputShape, validateShapes, infer, validGiven, defaultValid, agree]
  · have : ¬ columns = s := fun h => hsc h.symm
    simp [outputShape, validateShapes, infer, validGiven, defaultValid, hsc, this]

/-- A matrix. -/
def Tree.matrix (rows columns : Nat) : Tree := .leaf .other (some (some [rows], some [columns]))

/-- A zero operator with its shapes. -/
def Tree.zeros (rows columns : Nat) : Tree := .leaf .zero (some (some [rows], some [columns]))

/-- An operator such as a homothety without shapes. -/
def Tree.same : Tree := .leaf .other none

/-- An identity with its shape. -/
def Tree.one (n : Nat) : Tree := .leaf .identity (some (some [n], some [n]))

/-- What the user sees of a product: the shape of the output for an input, or an error. -/
def Tree.output (t : Tree) (s : Shape) : Option Shape := t.eval.bind fun r => outputShape r.op s

/-- **C105** A zero operator on the left of a composition between parentheses loses its shapes: the output has the shape of the input instead
of the number of rows, inputs of any shape are accepted, and so are products whose dimensions do not match. -/
theorem C105_zero_fails (r k m n s : Nat) :
    (Tree.mul (.zeros r k) (.mul (.matrix k m) (.matrix m n))).output [s] = some [s] ∧
      (Tree.mul (.mul (.zeros r k) (.matrix k m)) (.matrix m n)).output [s] = (if [s] = [n] then some [r] else none) ∧
      (Tree.mul (.zeros r (k + 1)) (.mul (.matrix k m) (.matrix m n))).output [s] = some [s] := by
  refine ⟨?_, ?_, ?_⟩
  · simp [Tree.output, Tree.eval, Tree.zeros, Tree.matrix, init_declOf, Product.mul, newComp]
    obtain ⟨q, hq⟩ := compose_opOf (l := [(some (some [k], some [m]), true), (some (some [m], some [n]), true)]) (by simp)
      (t := some (some [k], some [n])) (by simp [total, comb])
    simp only [List.map_cons, List.map_nil] at hq
    rw [hq]
    rfl
  · obtain ⟨x, h1, h2⟩ := C105_output_partial (.mul (.mul (.zeros r k) (.matrix k m)) (.matrix m n))
      (by simp [Tree.Good, Tree.leaves, Tree.zeros, Tree.matrix])
      (by simp [Tree.Safe, Tree.isComp, Tree.hasZero, Tree.allIdentity, Tree.leaves, Tree.zeros, Tree.matrix]) [r] [n] [s]
      (by simp [Tree.leaves, Tree.zeros, Tree.matrix, total, comb])
    rw [Tree.output, h1]
    exact h2
  · simp [Tree.output, Tree.eval, Tree.zeros, Tree.matrix, init_declOf, Product.mul, newComp]
    obtain ⟨q, hq⟩ := compose_opOf (l := [(some (some [k], some [m]), true), (some (some [m], some [n]), true)]) (by simp)
      (t := some (some [k], some [n])) (by simp [total, comb])
    simp only [List.map_cons, List.map_nil] at hq
    rw [hq]
    rfl

/-- **C105** An identity whose shape is given is forgotten if it multiplies a composition of operators without shapes: inputs of other shapes
are accepted. -/
theorem C105_identity_fails (n s : Nat) :
    (Tree.mul (.one n) (.mul .same .same)).output [s] = some [s] ∧ (Tree.mul (.mul .same .same) (.one n)).output [s] = some [s] ∧
      (Tree.mul (.mul (.one n) .same) .same).output [s] = if [s] = [n] then some [n] else none := by
  obtain ⟨q, hq⟩ := compose_opOf (l := [(none, true), (none, true)]) (by simp) (t := none) (by simp [total, comb])
  simp only [List.map_cons, List.map_nil] at hq
  refine ⟨?_, ?_, ?_⟩
  · simp [Tree.output, Tree.eval, Tree.one, Tree.same, init_declOf, Product.mul, newComp]
    rw [hq]
    rfl
  · simp [Tree.output, Tree.eval, Tree.one, Tree.same, init_declOf, Product.mul, newComp]
    rw [hq]
    rfl
  · obtain ⟨x, h1, h2⟩ := C105_output_partial (.mul (.mul (.one n) .same) .same)
      (by simp [Tree.Good, Tree.leaves, Tree.one, Tree.same])
      (by simp [Tree.Safe, Tree.isComp, Tree.hasZero, Tree.allIdentity, Tree.leaves, Tree.one, Tree.same]) [n] [n] [s]
      (by simp [Tree.leaves, Tree.one, Tree.same, total, comb])
    rw [Tree.output, h1]
    exact h2

/-! ### Examples -/

/-- A * B * Z * C, where Z is 4 x 6. -/
def chain : Tree := .mul (.mul (.mul (.matrix 2 3) (.matrix 3 4)) (.zeros 4 6)) (.matrix 6 7)

example (s : Shape) : ∃ r, chain.eval = some r ∧ outputShape r.op s = if s = [7] then some [2] else none :=
  C105_output_partial chain (by simp [chain, Tree.Good, Tree.leaves, Tree.zeros, Tree.matrix])
    (by simp [chain, Tree.Safe, Tree.isComp, Tree.hasZero, Tree.allIdentity, Tree.leaves, Tree.zeros, Tree.matrix]) [2] [7] s
    (by simp [chain, Tree.leaves, Tree.zeros, Tree.matrix, total, comb])

/-- (A * I) * (B * C) with an identity without shape, whose dimensions do not match. -/
example : (Tree.mul (.mul (.matrix 2 3) (.leaf .identity none)) (.mul .same (.matrix 4 5))).eval = none :=
  (C105_shapes_partial _ (by simp [Tree.Good, Tree.leaves, Tree.same, Tree.matrix])
    (by simp [Tree.Safe, Tree.isComp, Tree.hasZero, Tree.allIdentity, Tree.leaves, Tree.same, Tree.matrix])).2
    (by simp [Tree.leaves, Tree.same, Tree.matrix, total, comb])

end Verif.Shape.Product
