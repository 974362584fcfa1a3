import Verif.Split.Model
import Verif.Split.Dist
import Verif.Split.Props
import Verif.Split.DistProps
import Verif.Memory.Model
import Verif.Memory.Props
import Verif.Memory.CopyIf
import Verif.Memory.CopyIfProps
import Verif.Rules.Manager
import Verif.Rules.ManagerProps
import Verif.Rules.SetRule
import Verif.Rules.SetRuleProps
import Verif.Flags.Model
import Verif.Flags.Props
import Verif.Flags.Assoc
import Verif.Flags.AssocProps
import Verif.Flags.Merge
import Verif.Flags.MergeProps
import Verif.Simplify.Model
import Verif.Simplify.Props
import Verif.Simplify.Commutative
import Verif.Simplify.CommutativeProps
import Verif.Simplify.Homothety
import Verif.Simplify.HomothetyProps
import Verif.Simplify.Expression
import Verif.Simplify.ExpressionProps
import Verif.Rules.ContextProps
import Verif.Compose.Model
import Verif.Compose.Plan
import Verif.Compose.Info
import Verif.Compose.Loop
import Verif.Compose.Props
import Verif.Sum.Model
import Verif.Sum.Props
import Verif.Call.Model
import Verif.Call.Props
import Verif.Shape.Model
import Verif.Shape.Props
import Verif.Shape.Operator
import Verif.Shape.Initial
import Verif.Shape.ProxyGroup
import Verif.Shape.Chain
import Verif.Shape.Product
import Verif.Shape.Sum
import Verif.Block.Model
import Verif.Block.Slices
import Verif.Block.Matrix
import Verif.Block.Inplace
import Verif.Block.Fuse
import Verif.Block.FuseProps
import Verif.Block.FuseMore
import Verif.Block.FuseSeparable
import Verif.Block.Implicit
import Verif.Block.Infer
import Verif.Block.Needs
import Verif.Block.Pieces
import Verif.Broadcast.Model
import Verif.Broadcast.Props
import Verif.Broadcast.Special
import Verif.Broadcast.Combine
import Verif.Iter.Control
import Verif.Iter.ControlProps
import Verif.Iter.Algebra
import Verif.Iter.Buffers
import Verif.Iter.Restart
import Verif.Iter.Cg
import Verif.Iter.CgMpi
import Verif.Pack.Model
import Verif.Pack.Props
import Verif.Pointwise.Index
import Verif.Pointwise.Round
import Verif.Pointwise.Threshold
import Verif.Pointwise.Power
import Verif.Linear.Rotation
import Verif.Utils.Timer
import Verif.Utils.Proxy
import Verif.Linear.Trapeze
import Verif.Wavelet.Coeffs
import Verif.Linear.Axis
import Verif.Linear.Band
import Verif.Fourier.Dft
import Verif.Fourier.Toeplitz
import Verif.Fourier.Convolution
import Verif.Linear.Reshape
import Verif.Linear.Dense
import Verif.Flags.Copy
import Verif.Pointwise.Spherical
import Verif.Pointwise.Clip
import Verif.Pointwise.Normalize
import Verif.Linear.Eigen
import Verif.Iter.Lanczos
import Verif.Iter.Criterions
import Verif.Iter.LineSearch
import Verif.Iter.DoubleLoop
import Verif.Iter.Legacy
import Verif.Broadcast.Strided
import Verif.Broadcast.Constants
import Verif.Broadcast.Blocks
import Verif.Utils.Multiple
import Verif.Broadcast.Reshape
import Verif.Utils.Interrupt
import Verif.Utils.Setting
import Verif.Linear.Todense
import Verif.Utils.Equality
import Verif.Compose.Algebra
import Verif.Linear.Sparse
import Verif.Linear.Asoperator
import Verif.Utils.Search
import Verif.Utils.ZipBroadcast
import Verif.Linear.Reduction
import Verif.Call.Attributes
import Verif.Split.Comm
import Verif.Shape.ToShape
import Verif.Iter.Keywords
import Verif.Rules.Group
import Verif.Linear.Numexpr
import Verif.Rules.Apply
import Verif.Call.Dtype
import Verif.Utils.Stub
import Verif.Utils.Group
import Verif.Utils.AssertSame
import Verif.Iter.Minimisers
import Verif.Simplify.Printing
import Verif.Iter.Callback
import Verif.Utils.Dtypes
import Verif.Compose.Arithmetic
import Verif.Utils.AssertEq
import Verif.Flags.Decorators
import Verif.Compose.Nested
import Verif.Compose.NestedProps
import Verif.Rules.Scoped
import Verif.Linear.DenseShapes
import Verif.Linear.DenseInit
import Verif.Simplify.Variables
import Verif.Utils.Deprecated
import Verif.Utils.Text
import Verif.Memory.Typed
import Verif.Call.Refused
import Verif.Call.Conjugate
import Verif.Utils.Repr
import Verif.Flags.Blocks
import Verif.Flags.Delete
import Verif.Utils.Environment
