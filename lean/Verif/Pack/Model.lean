import Verif.Broadcast.Special

/-
Model of the operators that pack the elements kept by a mask: src/pyoperators/linear.py:838-957 (`PackBase`, `PackOperator`,
`UnpackOperator`).
-/

namespace Verif.Pack

open Verif.Shape Verif.Block Verif.Broadcast

variable {R : Type}

/-- The places at which a boolean array is true, in C order: the elements that NumPy's boolean indexing selects. -/
def selected (m : Data Bool) : List MIndex := (enum m.shape).filter m.get

/-- `np.sum(data)`: src/pyoperators/linear.py:842. -/
def count (m : Data Bool) : Nat := (selected m).length

/-- `shape[-n:]`, which is the whole shape if n is zero: src/pyoperators/linear.py:867. -/
def lastOf (n : Nat) (s : Shape) : Shape := if n = 0 then s else s.drop (s.length - n)

/-- `shape[:-n]`, which is empty if n is zero: src/pyoperators/linear.py:853. -/
def initOf (n : Nat) (s : Shape) : Shape := if n = 0 then [] else s.take (s.length - n)

/-- `_reshape_packed`: src/pyoperators/linear.py:845-848. -/
def reshapePacked (m : Data Bool) (b : Kind) (s : Shape) : Shape :=
  if b = .rightward then m.shape ++ s.drop 1 else s.dropLast ++ m.shape

/-- `_reshape_unpacked`: src/pyoperators/linear.py:850-853. -/
def reshapeUnpacked (m : Data Bool) (b : Kind) (s : Shape) : Shape :=
  if b = .rightward then count m :: s.drop m.shape.length else initOf m.shape.length s ++ [count m]

/-- `_validate_packed`: src/pyoperators/linear.py:855-861.  The IndexError of an empty shape is also a failure. -/
def validatePacked (m : Data Bool) (b : Kind) (s : Shape) : Bool :=
  (if b = .rightward then s.head? else s.getLast?) = some (count m)

/-- `_validate_unpacked`: src/pyoperators/linear.py:863-872. -/
def validateUnpacked (m : Data Bool) (b : Kind) (s : Shape) : Bool :=
  (if b = .rightward then s.take m.shape.length else lastOf m.shape.length s) = m.shape

/-- `input[data, ...]` or `input[..., data]`: src/pyoperators/linear.py:905-909. -/
def packDirect (m : Data Bool) (b : Kind) (x : Data R) : Data R :=
  ⟨reshapeUnpacked m b x.shape, fun k =>
    if b = .rightward then x.get ((selected m).getD (k.headD 0) [] ++ k.drop 1)
    else x.get (k.dropLast ++ (selected m).getD (k.getLastD 0) [])⟩

/-- `output[...] = 0`, followed by `output[data, ...] = input` or `output[..., data] = input`: src/pyoperators/linear.py:946-951.  The
selected elements are distinct, so that each element of the output is written once. -/
def unpackDirect [Zero R] (m : Data Bool) (b : Kind) (y : Data R) : Data R :=
  ⟨reshapePacked m b y.shape, fun k =>
    let n := m.shape.length
    let place := if b = .rightward then k.take n else k.drop (k.length - n)
    let j := (selected m).idxOf place
    if m.get place then
      if b = .rightward then y.get (j :: k.drop n) else y.get (k.take (k.length - n) ++ [j])
    else 0⟩

/-- What the constructors return: the operator has turned into a diagonal operator if all the elements are kept. -/
inductive Op (R : Type) where
  | diagonal (o : Broadcast.Op R)
  | pack (mask : Data Bool) (b : Kind)
  | unpack (mask : Data Bool) (b : Kind)

section

variable [Ring R] [DecidableEq R]

/-- `PackOperator(data, broadcast)`: src/pyoperators/linear.py:882-903.  `none` is the IndexError of `data.flat[0]`. -/
def packOperator (m : Data Bool) (b : Kind) : Option (Op R) :=
  if m.flat = [] then none
  else if m.flat.all (· == true) then some (.diagonal (diagonalOperator id (.bools m) (some b)))
  else some (.pack m (defaultKind m.shape (some b)))

/-- `UnpackOperator(data, broadcast)`: src/pyoperators/linear.py:923-944. -/
def unpackOperator (m : Data Bool) (b : Kind) : Option (Op R) :=
  if m.flat = [] then none
  else if m.flat.all (· == true) then some (.diagonal (diagonalOperator id (.bools m) (some b)))
  else some (.unpack m (defaultKind m.shape (some b)))

/-- The result of an operator for an input: the shape is compared with shapein if there is no broadcasting (src/pyoperators/linear.py:
889-891, 930-932), and validated otherwise. -/
def Op.call : Op R → Data R → Option (Data R)
  | .diagonal o, x => o.call x
  | .pack m b, x =>
    if (if b = .disabled then x.shape = m.shape else validateUnpacked m b x.shape) then some (packDirect m b x) else none
  | .unpack m b, y =>
    if (if b = .disabled then y.shape = [count m] else validatePacked m b y.shape) then some (unpackDirect m b y) else none

/-- `.T`: src/pyoperators/linear.py:902, 943.  The operators obtained from a mask that keeps everything are identities, which are
symmetric. -/
def Op.T : Op R → Option (Op R)
  | .diagonal o => some (.diagonal o)
  | .pack m b => unpackOperator m b
  | .unpack m b => packOperator m b

/-- What the rule 'T,.' of an operator makes of the composition of its transpose and of itself: src/pyoperators/linear.py:903 and 944.
The identity is `IdentityOperator()`, without shape. -/
def Op.ruleTransposed : Op R → Option (Broadcast.Op R)
  | .diagonal _ => none
  | .pack _ _ => some ⟨.identity, none⟩
  | .unpack _ _ => some ⟨.identity, none⟩

end

end Verif.Pack
