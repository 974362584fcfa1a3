import Verif.Flags.Model

/-
Model of `Operator._generate_associated_operators` (src/pyoperators/core.py:764-1011): which objects the attributes
C, T, H and I of an operator and of its associated operators refer to, and what these objects compute.
-/

namespace Verif.Flags

/-- The eight variables of the method: the operator itself, its conjugate, transpose, adjoint, inverse and the
conjugate, transpose and adjoint of the inverse.  They are also used as the identities of the objects: an object is
named after the variable for which it has been created. -/
inductive Role where
  | self | C | T | H | I | IC | IT | IH
deriving DecidableEq, Repr

/-- What a unary rule returns: the operator itself (the rule '.') or a new operator, given by what it computes.
Simplification: a rule that returns another already existing operator is not modelled. -/
inductive RuleResult (M : Type) where
  | same
  | fresh (value : M)

/-- A reference to an object and what the object computes; `none` if it has no direct method (the evaluation of
such an operator raises NotImplementedError). -/
structure Ob (M : Type) where
  id : Role
  val : Option M

/-- The configuration of an operator: what it computes, its flags, its unary rules and its methods (a method is given
by what it computes).  `conj` is the effect of `Operator.conjugate` (src/pyoperators/core.py:416-422). -/
structure Config (M : Type) where
  value : M
  flags : Flags
  ruleC : Option (RuleResult M) := none
  ruleT : Option (RuleResult M) := none
  ruleH : Option (RuleResult M) := none
  ruleI : Option (RuleResult M) := none
  ruleIC : Option (RuleResult M) := none
  ruleIT : Option (RuleResult M) := none
  ruleIH : Option (RuleResult M) := none
  transpose : Option M := none
  adjoint : Option M := none
  inverse : Option M := none
  inverseConjugate : Option M := none
  inverseTranspose : Option M := none
  inverseAdjoint : Option M := none

variable {M : Type}

def Config.me (k : Config M) : Ob M := ⟨.self, some k.value⟩

/-- `_copy_direct(self, rules['..'](self))` and `_copy_reverse`: the object returned by the rule.
src/pyoperators/core.py:4761-4830 (the shapes and data types copied by these functions are not modelled). -/
def Config.apply (k : Config M) (role : Role) : RuleResult M → Ob M
  | .same => k.me
  | .fresh v => ⟨role, some v⟩

/-- src/pyoperators/core.py:773-793. -/
def Config.mkC (k : Config M) (conj : M → M) : Ob M :=
  if k.flags.real then k.me
  else match k.ruleC with
  | some r => k.apply .C r
  | none => ⟨.C, some (conj k.value)⟩

/-- src/pyoperators/core.py:802-818: the transpose, before the adjoint is known. -/
def Config.mkT0 (k : Config M) : Option (Ob M) :=
  if k.flags.symmetric then some k.me
  else match k.ruleT, (if k.flags.real then k.ruleH else none), (if k.flags.orthogonal then k.ruleI else none) with
  | some r, _, _ => some (k.apply .T r)
  | none, some r, _ => some (k.apply .T r)
  | none, none, some r => some (k.apply .T r)
  | none, none, none =>
    match k.transpose with
    | some v => some ⟨.T, some v⟩
    | none => none

/-- src/pyoperators/core.py:820-838. -/
def Config.mkH0 (k : Config M) (c : Ob M) (t : Option (Ob M)) : Option (Ob M) :=
  if k.flags.hermitian then some k.me
  else if k.flags.symmetric then some c
  else if k.flags.real then t
  else match k.ruleH, (if k.flags.unitary then k.ruleI else none) with
  | some r, _ => some (k.apply .H r)
  | none, some r => some (k.apply .H r)
  | none, none =>
    match k.adjoint with
    | some v => some ⟨.H, some v⟩
    | none => none

/-- src/pyoperators/core.py:840-868 (and 970-998 for the inverse): the transpose and the adjoint from each other.
The variables keep the value `None` in one case only: T is then an operator without direct method. -/
def complete (conj : M → M) (real : Bool) (roleT roleH : Role) (t h : Option (Ob M)) : Ob M × Ob M :=
  match t, h with
  | some t, some h => (t, h)
  | some t, none => (t, ⟨roleH, t.val.map conj⟩)
  | none, some h => if real then (h, h) else (⟨roleT, h.val.map conj⟩, h)
  | none, none =>
    let t : Ob M := ⟨roleT, none⟩
    if real then (t, t) else (t, ⟨roleH, t.val.map conj⟩)

/-- src/pyoperators/core.py:870-892. -/
def Config.mkI (k : Config M) (t h : Ob M) : Ob M :=
  if k.flags.involutary then k.me
  else if k.flags.orthogonal then t
  else if k.flags.unitary then h
  else match k.ruleI with
  | some r => k.apply .I r
  | none => ⟨.I, k.inverse⟩

/-- src/pyoperators/core.py:900-920. -/
def Config.mkIC (k : Config M) (conj : M → M) (c t h i : Ob M) : Ob M :=
  if k.flags.real then i
  else if k.flags.orthogonal then h
  else if k.flags.unitary then t
  else if k.flags.involutary then c
  else match k.ruleIC with
  | some r => k.apply .IC r
  | none =>
    match k.inverseConjugate with
    | some v => ⟨.IC, some v⟩
    | none => ⟨.IC, i.val.map conj⟩

/-- src/pyoperators/core.py:922-942. -/
def Config.mkIT0 (k : Config M) (c t i : Ob M) : Option (Ob M) :=
  if k.flags.orthogonal then some k.me
  else if k.flags.symmetric then some i
  else if k.flags.unitary then some c
  else if k.flags.involutary then some t
  else match k.ruleIT with
  | some r => some (k.apply .IT r)
  | none =>
    match k.inverseTranspose with
    | some v => some ⟨.IT, some v⟩
    | none => none

/-- src/pyoperators/core.py:944-968. -/
def Config.mkIH0 (k : Config M) (c h i ic : Ob M) (it : Option (Ob M)) : Option (Ob M) :=
  if k.flags.unitary then some k.me
  else if k.flags.hermitian then some i
  else if k.flags.orthogonal then some c
  else if k.flags.involutary then some h
  else if k.flags.symmetric then some ic
  else if k.flags.real then it
  else match k.ruleIH with
  | some r => some (k.apply .IH r)
  | none =>
    match k.inverseAdjoint with
    | some v => some ⟨.IH, some v⟩
    | none => none

/-- The eight variables at line 999. -/
structure Vars (M : Type) where
  self : Ob M
  C : Ob M
  T : Ob M
  H : Ob M
  I : Ob M
  IC : Ob M
  IT : Ob M
  IH : Ob M

/-- src/pyoperators/core.py:770-998. -/
def Config.vars (k : Config M) (conj : M → M) : Vars M :=
  let c := k.mkC conj
  let t0 := k.mkT0
  let h0 := k.mkH0 c t0
  let th := complete conj k.flags.real .T .H t0 h0
  let i := k.mkI th.1 th.2
  let ic := k.mkIC conj c th.1 th.2 i
  let it0 := k.mkIT0 c th.1 i
  let ih0 := k.mkIH0 c th.2 i ic it0
  let ith := complete conj k.flags.real .IT .IH it0 ih0
  ⟨k.me, c, th.1, th.2, i, ic, ith.1, ith.2⟩

/-- The attributes C, T, H and I of an object. -/
structure Attrs (M : Type) where
  C : Ob M
  T : Ob M
  H : Ob M
  I : Ob M

/-- The attributes of the objects; `none` when they have not been set. -/
abbrev Heap (M : Type) := Role → Option (Attrs M)

/-- One of the assignments `x._C, x._T, x._H, x._I = ..`. -/
def Heap.write (h : Heap M) (x : Ob M) (a : Attrs M) : Heap M := fun r => if r = x.id then some a else h r

/-- src/pyoperators/core.py:1004-1011. -/
def Vars.writes (v : Vars M) : Heap M :=
  let h : Heap M := fun _ => none
  let h := h.write v.self ⟨v.C, v.T, v.H, v.I⟩
  let h := h.write v.C ⟨v.self, v.H, v.T, v.IC⟩
  let h := h.write v.T ⟨v.H, v.self, v.C, v.IT⟩
  let h := h.write v.H ⟨v.T, v.C, v.self, v.IH⟩
  let h := h.write v.I ⟨v.IC, v.IT, v.IH, v.self⟩
  let h := h.write v.IC ⟨v.I, v.IH, v.IT, v.C⟩
  let h := h.write v.IT ⟨v.IH, v.I, v.IC, v.T⟩
  h.write v.IH ⟨v.IT, v.IC, v.I, v.H⟩

/-- `_generate_associated_operators` as a whole: src/pyoperators/core.py:764-1011. -/
def Config.generate (k : Config M) (conj : M → M) : Heap M := (k.vars conj).writes

/-- The four attributes. -/
inductive Attr where
  | C | T | H | I
deriving DecidableEq, Repr

def Attrs.get (a : Attrs M) : Attr → Ob M
  | .C => a.C
  | .T => a.T
  | .H => a.H
  | .I => a.I

/-- `A.x.y.z`: reading the attributes of an operator one after the other, src/pyoperators/core.py:710-736.
Simplification: an attribute that has not been set by `_generate_associated_operators` would call this method for the
associated operator; here the path is then `none` (a theorem states that it does not happen). -/
def Heap.path (h : Heap M) : List Attr → Ob M → Option (Ob M)
  | [], x => some x
  | a :: as, x =>
    match h x.id with
    | some attrs => h.path as (attrs.get a)
    | none => none

end Verif.Flags
