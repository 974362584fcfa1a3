import Verif.Shape.Model

/-
Model of the shapes of the operators: `Operator._init_inout` (src/pyoperators/core.py:1130-1254), `Operator._validate_shapes`
(1422-1468), `CompositionOperator._get_shapes` and `_get_attributes` (2644-2704, 2752-2777), and
`CommutativeCompositeOperator._get_attributes` (1933-2000), for what concerns the shapes.
The methods `toshapein` and `toshapeout`, the attributes and classes of the arrays and the communicators are left out.
-/

namespace Verif.Shape

/-- The values of the flags shape_input and shape_output. -/
inductive Kind where
  | explicit
  | implicit
  | unconstrained
deriving DecidableEq, Repr

/-- What the class of an operator and the keywords of its constructor specify.  A function that is not specified is the method of
the class Operator.  The functions reshapein and reshapeout that are specified return a tuple: "this method returns None if and
only if the operator's output shape is unconstrained" (src/pyoperators/core.py:288-301).  The validations return false if the
method raises a ValueError. -/
structure Decl where
  shapein : Option Shape := none
  shapeout : Option Shape := none
  reshapein : Option (Shape → Shape) := none
  reshapeout : Option (Shape → Shape) := none
  validatein : Option (Shape → Bool) := none
  validateout : Option (Shape → Bool) := none
  square : Bool := false

/-- The shape attributes, flags and methods of an operator that has been initialised. -/
structure Op where
  shapein : Option Shape
  shapeout : Option Shape
  reshapein : Shape → Option Shape
  reshapeout : Shape → Option Shape
  validatein : Shape → Bool
  validateout : Shape → Bool
  kindin : Kind
  kindout : Kind
  square : Bool

/-- `Operator.validatein` and `Operator.validateout`: src/pyoperators/core.py:386-408. -/
def defaultValid (own : Option Shape) (s : Shape) : Bool :=
  match own with
  | none => true
  | some t => t == s

/-- The validation that applies before the end of the initialisation. -/
def accepts (valid : Option (Shape → Bool)) (own : Option Shape) (s : Shape) : Bool :=
  match valid with
  | some v => v s
  | none => defaultValid own s

/-- `self.reshapein(s)` before the end of the initialisation: the method of the class Operator returns the shape already known. -/
def reshaped (own : Option Shape) (reshape : Option (Shape → Shape)) (s : Shape) : Option Shape :=
  match reshape with
  | some f => some (f s)
  | none => own

/-- `shapeout = self.reshapein(self.shapein)` followed by an assignment or a validation: src/pyoperators/core.py:1190-1201.
`own` is the shape that has been specified, `other` the one on the other side.  The outer `none` is the ValueError. -/
def fill (own other : Option Shape) (reshape : Option (Shape → Shape)) (valid : Option (Shape → Bool)) :
    Option (Option Shape) :=
  match other with
  | none => some own
  | some s =>
    match own with
    | none => some (reshaped own reshape s)
    | some d => if accepts valid own ((reshaped own reshape s).getD d) then some own else none

/-- `self.validatein(self.shapein)`: src/pyoperators/core.py:1202-1205. -/
def checked (valid : Option (Shape → Bool)) (own : Option Shape) : Bool :=
  match own with
  | none => true
  | some s => accepts valid own s

/-- The flags shape_input and shape_output: src/pyoperators/core.py:1230-1245. -/
def kindOf (own : Option Shape) (reshape : Option (Shape → Shape)) (square : Bool) : Kind :=
  if own.isSome then .explicit
  else if reshape.isSome || square then .implicit
  else .unconstrained

/-- The method reshapein or reshapeout at the end: src/pyoperators/core.py:1210-1218 and 1247-1252. -/
def reshapeOf (own : Option Shape) (reshape : Option (Shape → Shape)) (square : Bool) : Shape → Option Shape :=
  if own.isSome then fun _ => own
  else if square then fun s => some s
  else
    match reshape with
    | some f => fun s => some (f s)
    | none => fun _ => own

/-- The method validatein or validateout at the end. -/
def validOf (own : Option Shape) (valid : Option (Shape → Bool)) : Shape → Bool :=
  if own.isSome then defaultValid own else accepts valid own

/-- The flag square: src/pyoperators/core.py:1207-1208. -/
def squareOf (d : Decl) (sin sout : Option Shape) : Bool :=
  match sin, sout with
  | some a, some b => a == b
  | _, _ => d.square

/-- The end of the initialisation, given the shapes. -/
def finishInit (d : Decl) (sin sout : Option Shape) : Op :=
  let square := squareOf d sin sout
  let sin' := if square then sin.or sout else sin
  let sout' := if square then sin.or sout else sout
  { shapein := sin'
    shapeout := sout'
    reshapein := reshapeOf sout' d.reshapein square
    reshapeout := reshapeOf sin' d.reshapeout square
    validatein := validOf sin' d.validatein
    validateout := validOf sout' (if square then d.validatein else d.validateout)
    kindin := kindOf sin' d.reshapeout square
    kindout := kindOf sout' d.reshapein square
    square := square }

/-- `Operator._init_inout`: src/pyoperators/core.py:1187-1254.  `none` is the ValueError. -/
def init (d : Decl) : Option Op :=
  match fill d.shapeout d.shapein d.reshapein d.validateout with
  | none => none
  | some sout =>
    match fill d.shapein sout d.reshapeout d.validatein with
    | none => none
    | some sin =>
      if checked d.validatein sin && checked d.validateout sout then some (finishInit d sin sout) else none

/-- The shape inferred by an operator that is implicit, validated: src/pyoperators/core.py:1437-1440 (or 1447-1450). -/
def inferImplicit (s : Option Shape) (reshape : Shape → Option Shape) (validOwn : Shape → Bool) : Option (Option Shape) :=
  match s.bind reshape with
  | none => some none
  | some b => if validOwn b then some (some b) else none

/-- The shape that is given, if any, is accepted: src/pyoperators/core.py:1434-1435 (or 1444-1445). -/
def validGiven (s : Option Shape) (valid : Shape → Bool) : Bool :=
  match s with
  | none => true
  | some a => valid a

/-- One half of `_validate_shapes`: src/pyoperators/core.py:1433-1441 (or 1443-1451): the shape on the other side, inferred from the
shape `s` that is given. -/
def infer (s : Option Shape) (kind : Kind) (own : Option Shape) (reshape : Shape → Option Shape)
    (valid validOwn : Shape → Bool) : Option (Option Shape) :=
  if validGiven s valid then
    match kind with
    | .explicit => some own
    | .unconstrained => some none
    | .implicit => inferImplicit s reshape validOwn
  else none

/-- `None not in (s, s_) and s != s_` is false. -/
def agree (s s' : Option Shape) : Bool :=
  match s, s' with
  | some a, some b => a == b
  | _, _ => true

/-- `Operator._validate_shapes`: src/pyoperators/core.py:1422-1468.  `none` is the ValueError. -/
def validateShapes (op : Op) (shapein shapeout : Option Shape) : Option (Option Shape × Option Shape) :=
  match infer shapein op.kindout op.shapeout op.reshapein op.validatein op.validateout with
  | none => none
  | some sout =>
    match infer shapeout op.kindin op.shapein op.reshapeout op.validateout op.validatein with
    | none => none
    | some sin =>
      if agree shapein sin && agree shapeout sout then some (shapein.or sin, shapeout.or sout) else none

/-- The shape on one side of an operand, given the one on the other side: src/pyoperators/core.py:2653-2656 and 2667-2670. -/
def across (cur own : Option Shape) (reshape : Shape → Option Shape) : Option Shape :=
  match cur with
  | none => own
  | some c => reshape c

/-- First scan of `_get_shapes`, from the innermost to the outermost operand: src/pyoperators/core.py:2651-2661.  The shape on the
left of the first operand is initially `so`; the others are unknown. -/
def scanOut (so sin : Option Shape) : List Op → Option (List (Option Shape))
  | [] => some [sin]
  | op :: ops =>
    match scanOut none sin ops with
    | none => none
    | some [] => none
    | some (cur :: rest) =>
      let s := across cur op.shapeout op.reshapein
      if agree so s then some ((s.or so) :: cur :: rest) else none

/-- Second scan of `_get_shapes`, from the outermost to the innermost operand: src/pyoperators/core.py:2663-2677. -/
def scanIn : List Op → List (Option Shape) → Option (List (Option Shape))
  | op :: ops, cur :: next :: rest =>
    let s := across cur op.shapein op.reshapeout
    if agree next s then (scanIn ops ((s.or next) :: rest)).map (cur :: ·) else none
  | _, shapes => some shapes

/-- `_get_shapes`: src/pyoperators/core.py:2644-2679.  If there is only one operand, the initial value of shapes[0] is shapeout. -/
def getShapes (shapein shapeout : Option Shape) (ops : List Op) : Option (List (Option Shape)) :=
  match scanOut shapeout shapein ops with
  | none => none
  | some shapes => scanIn ops shapes

/-- The loop of the functions built by `_merge_reshapein`: src/pyoperators/core.py:2759-2762.  The functions of implicit operators
do not return None. -/
def reshapeAll (ops : List Op) (s : Shape) : Shape := ops.foldr (fun o s => (o.reshapein s).getD s) s

/-- The same for `_merge_reshapeout`: src/pyoperators/core.py:2772-2775. -/
def reshapeAllBack (ops : List Op) (s : Shape) : Shape := ops.foldl (fun s o => (o.reshapeout s).getD s) s

/-- `_merge_reshapein`: src/pyoperators/core.py:2752-2764. -/
def mergeReshapein (ops : List Op) : Option (Shape → Shape) :=
  if ops.any (fun o => o.kindout ≠ .implicit) then none
  else if ops.all (fun o => o.square) then ops.getLast?.map (fun o s => (o.reshapein s).getD s)
  else some (reshapeAll ops)

/-- `_merge_reshapeout`: src/pyoperators/core.py:2766-2777. -/
def mergeReshapeout (ops : List Op) : Option (Shape → Shape) :=
  if ops.any (fun o => o.kindin ≠ .implicit) then none
  else if ops.all (fun o => o.square) then ops.head?.map (fun o s => (o.reshapeout s).getD s)
  else some (reshapeAllBack ops)

/-- The initialisation of a composition of operands that are not simplified: `CompositionOperator._get_attributes`,
src/pyoperators/core.py:2681-2704. -/
def compose (ops : List Op) : Option Op :=
  match ops.head?, ops.getLast? with
  | some o1, some on =>
    match getShapes on.shapein o1.shapeout ops with
    | none => none
    | some shapes =>
      init
        { shapein := shapes.getLast?.getD none
          shapeout := shapes.head?.getD none
          reshapein := mergeReshapein ops
          reshapeout := mergeReshapeout ops
          validatein := some on.validatein
          validateout := some o1.validateout
          square := ops.all (fun o => o.square) }
  | _, _ => none

/-- `CommutativeCompositeOperator._merge_shape`: src/pyoperators/core.py:1990-2000. -/
def mergeShape (shapes : List (Option Shape)) : Option (Option Shape) :=
  match shapes.filterMap id with
  | [] => some none
  | s :: rest => if rest.any (fun t => t ≠ s) then none else some (some s)

/-- `CommutativeCompositeOperator._merge_reshapein` and `_merge_reshapeout`: src/pyoperators/core.py:1970-1988. -/
def sumReshape (kinds : List (Kind × (Shape → Option Shape))) : Option (Shape → Shape) :=
  if kinds.any (fun k => k.1 = .explicit) then none
  else (kinds.find? (fun k => k.1 = .implicit)).map (fun k s => (k.2 s).getD s)

/-- The initialisation of a sum or of a product of operands: `CommutativeCompositeOperator._get_attributes`,
src/pyoperators/core.py:1933-1958.  The flag square is the one of the methods `_merge_flags` of the subclasses (2023-2034, 2054-2064). -/
def sum (ops : List Op) : Option Op :=
  match ops.head?, mergeShape (ops.map Op.shapein), mergeShape (ops.map Op.shapeout) with
  | some o1, some sin, some sout =>
    init
      { shapein := sin
        shapeout := sout
        reshapein := sumReshape (ops.map (fun o => (o.kindout, o.reshapein)))
        reshapeout := sumReshape (ops.map (fun o => (o.kindin, o.reshapeout)))
        validatein := some o1.validatein
        validateout := some o1.validateout
        square := ops.any (fun o => o.square) }
  | _, _, _ => none

end Verif.Shape
