import Verif.Flags.Model

/-
Model of the flags given to a composition and to a sum.
-/

namespace Verif.Flags

/-- What the merging of the flags looks at in an operand.  `complexDtype` is true if its data type is complex (false for
the data type None). -/
structure OpFlags where
  flags : Flags
  square : Bool := false
  separable : Bool := false
  complexDtype : Bool := false
deriving DecidableEq, Repr

/-- `_find_common_type`, as far as complex types are concerned: src/pyoperators/core.py:756-762. -/
def commonComplex (ops : List OpFlags) : Bool := ops.any (fun o => o.complexDtype)

/-- The algebraic flags of `CompositionOperator._merge_flags`, src/pyoperators/core.py:2738-2750, followed by the
closure at the construction of the composition. -/
def compositionFlags (ops : List OpFlags) : OpFlags :=
  { flags := initFlags (commonComplex ops)
      { linear := ops.all (fun o => o.flags.linear), real := ops.all (fun o => o.flags.real) }
    square := ops.all (fun o => o.square)
    separable := ops.all (fun o => o.separable)
    complexDtype := commonComplex ops }

/-- The algebraic flags of `AdditionOperator._merge_flags`, src/pyoperators/core.py:2021-2034 and 1961-1969, followed by
the closure.  The flag hermitian is computed from the flags symmetric, as in line 2031. -/
def additionFlags (ops : List OpFlags) : OpFlags :=
  { flags := initFlags (commonComplex ops)
      { linear := ops.all (fun o => o.flags.linear), real := ops.all (fun o => o.flags.real),
        symmetric := ops.all (fun o => o.flags.symmetric), hermitian := ops.all (fun o => o.flags.symmetric) }
    square := ops.any (fun o => o.square)
    separable := ops.all (fun o => o.separable)
    complexDtype := commonComplex ops }

/-- The flags of `MultiplicationOperator._merge_flags`, src/pyoperators/core.py:2055-2064 and 1961-1969. -/
def multiplicationFlags (ops : List OpFlags) : OpFlags :=
  { flags := initFlags (commonComplex ops) { real := ops.all (fun o => o.flags.real) }
    square := ops.any (fun o => o.square)
    separable := ops.all (fun o => o.separable)
    complexDtype := commonComplex ops }

end Verif.Flags
