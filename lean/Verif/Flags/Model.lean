/-
Model of the algebraic flags of an operator and of their closure at the construction (`Operator._init_flags`).
Only the flags that state an algebraic property are modelled.
-/

namespace Verif.Flags

/-- The algebraic flags: src/pyoperators/flags.py:10-36. -/
structure Flags where
  linear : Bool := false
  real : Bool := false
  symmetric : Bool := false
  hermitian : Bool := false
  idempotent : Bool := false
  involutary : Bool := false
  orthogonal : Bool := false
  unitary : Bool := false
deriving DecidableEq, Repr

/-- `_set_flags('symmetric')`: src/pyoperators/core.py:1289-1299; the same for the three other flags that imply linear. -/
def setSymmetric (f : Flags) : Flags := { f with symmetric := true, linear := true }
def setHermitian (f : Flags) : Flags := { f with hermitian := true, linear := true }
def setOrthogonal (f : Flags) : Flags := { f with orthogonal := true, linear := true }
def setUnitary (f : Flags) : Flags := { f with unitary := true, linear := true }

/-- `_set_flags(flags)` for declared flags (a dictionary, a string): src/pyoperators/core.py:1289-1299. -/
def declare (f : Flags) : Flags :=
  if f.hermitian || f.orthogonal || f.symmetric || f.unitary then { f with linear := true } else f

/-- `if cond: f`. -/
def when (cond : Bool) (g : Flags → Flags) (f : Flags) : Flags := if cond then g f else f

/-- src/pyoperators/core.py:1021-1023. -/
def stepDtype (complexDtype : Bool) (f : Flags) : Flags := when (!complexDtype) (fun f => { f with real := true }) f

/-- src/pyoperators/core.py:1025-1033. -/
def stepReal (f : Flags) : Flags :=
  if f.real then
    let f := when f.symmetric setHermitian f
    let f := when f.hermitian setSymmetric f
    let f := when f.orthogonal setUnitary f
    when f.unitary setOrthogonal f
  else f

/-- src/pyoperators/core.py:1035-1039. -/
def stepOrthogonal (f : Flags) : Flags :=
  if f.orthogonal then
    let f := when f.idempotent setSymmetric f
    when f.symmetric (fun f => { f with idempotent := true }) f
  else f

/-- src/pyoperators/core.py:1041-1045. -/
def stepUnitary (f : Flags) : Flags :=
  if f.unitary then
    let f := when f.idempotent setHermitian f
    when f.hermitian (fun f => { f with idempotent := true }) f
  else f

/-- src/pyoperators/core.py:1047-1055. -/
def stepInvolutary (f : Flags) : Flags :=
  if f.involutary then
    let f := when f.symmetric setOrthogonal f
    let f := when f.orthogonal setSymmetric f
    let f := when f.hermitian setUnitary f
    when f.unitary setHermitian f
  else f

/-- src/pyoperators/core.py:1057-1059. -/
def stepIdempotent (f : Flags) : Flags :=
  if f.idempotent then
    when (f.orthogonal || f.unitary || f.involutary)
      (fun f => { f with orthogonal := true, unitary := true, involutary := true, linear := true }) f
  else f

/-- The closure: src/pyoperators/core.py:1018-1059. -/
def closure (complexDtype : Bool) (f : Flags) : Flags :=
  stepIdempotent (stepInvolutary (stepUnitary (stepOrthogonal (stepReal (stepDtype complexDtype f)))))

/-- Construction of an operator from the declared flags. -/
def initFlags (complexDtype : Bool) (declared : Flags) : Flags := closure complexDtype (declare declared)

/-- A new initialization of an operator that carries its flags over, as `_reset` does (src/pyoperators/core.py:
1272-1287, called by `CompositionOperator._merge` on the operators obtained by a simplification, 2706-2716): the flags
are copied as they are and the closure is computed again. -/
def resetFlags (complexDtype : Bool) (f : Flags) : Flags := closure complexDtype f

end Verif.Flags
