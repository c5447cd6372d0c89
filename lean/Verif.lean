import Verif.Props.Reverse
import Verif.Props.Memory
import Verif.Props.Program
import Verif.Props.Nodes
import Verif.Props.Forward
import Verif.Props.Stat
import Verif.Props.Build
import Verif.Props.Var
import Verif.Props.Objects
import Verif.Props.Joint
import Verif.Props.Loop
import Verif.Props.Ceres
import Verif.Props.BlackScholes
import Verif.Props.AnyScalar
import Verif.Spec.ExactProg
import Verif.Proof.GenStmt
import Verif.Proof.GenProg
import Verif.Props.AnyProg
import Verif.Spec.Inline
import Verif.Proof.Inline
import Verif.Props.Inline
import Verif.Spec.Storage
import Verif.Proof.Storage
import Verif.Props.Storage
import Verif.Model.Params
import Verif.Spec.Params
import Verif.Proof.Params
import Verif.Props.Params
import Verif.Model.ReadmeNet
import Verif.Spec.ReadmeNet
import Verif.Proof.DataGrad
import Verif.Proof.ReadmeNet
import Verif.Props.ReadmeNet
import Verif.Spec.Needed
import Verif.Proof.Needed
import Verif.Props.Needed
import Verif.Spec.InlineSize
import Verif.Proof.InlineSize
import Verif.Props.InlineSize
import Verif.Proof.Defined
import Verif.Props.AnyOrder
import Verif.Spec.Interleave
import Verif.Proof.Local
import Verif.Proof.Interleave
import Verif.Props.Interleave
import Verif.Props.Follow
import Verif.Spec.Blocks
import Verif.Proof.BindN
import Verif.Proof.BlocksApi
import Verif.Props.Blocks
import Verif.Spec.Inside
import Verif.Spec.Faithful
import Verif.Spec.Rounded
import Verif.Proof.Map
import Verif.Proof.Relate
import Verif.Proof.RelateInside
import Verif.Proof.RelateStat
import Verif.Proof.ApproxStat
import Verif.Proof.Converge
import Verif.Proof.Rounded
import Verif.Props.Converge
import Verif.Model.Hessian
import Verif.Spec.Hessian
import Verif.Proof.Hessian
import Verif.Props.Hessian
import Verif.Model.Pointer
import Verif.Spec.Pointer
import Verif.Proof.Pointer
import Verif.Spec.Peak
import Verif.Proof.Peak
import Verif.Props.Pointer
import Verif.Spec.InsideProg
import Verif.Proof.MapProg
import Verif.Proof.RelateProg
import Verif.Proof.ConvergeProg
import Verif.Props.ConvergeProg
import Verif.Proof.HessianProg
import Verif.Props.HessianProg
import Verif.Spec.Rate
import Verif.Proof.Rate
import Verif.Props.Rate
import Verif.Proof.Smooth
import Verif.Props.HessianSymm
import Verif.Spec.ForwardMap
import Verif.Proof.RateForward
import Verif.Props.RateForward
import Verif.Proof.JointInside
import Verif.Props.RateModel
import Verif.Model.Example
import Verif.Spec.Example
import Verif.Proof.Example
import Verif.Props.Example
import Verif.Model.Assign
import Verif.Spec.Assign
import Verif.Proof.Assign
import Verif.Props.Assign
import Verif.Model.World
import Verif.Spec.World
import Verif.Proof.Works
import Verif.Proof.World
import Verif.Props.World
import Verif.Spec.Ownership
import Verif.Proof.Ownership
import Verif.Props.Ownership
import Verif.Spec.WriteOut
import Verif.Proof.WriteOut
import Verif.Props.WriteOut
import Verif.Spec.NestedIf
import Verif.Proof.NestedIf
import Verif.Props.NestedIf
import Verif.Proof.Exact
import Verif.Props.Exact
import Verif.Model.Readme
import Verif.Proof.Readme
import Verif.Props.Readme
import Verif.Spec.Benchmark
import Verif.Model.Benchmark
import Verif.Proof.Benchmark
import Verif.Props.Benchmark
import Verif.Spec.VarCopies
import Verif.Model.VarCopies
import Verif.Proof.VarCopies
import Verif.Props.VarCopies
import Verif.Spec.RepeatedStddev
import Verif.Model.RepeatedStddev
import Verif.Proof.RepeatedStddev
import Verif.Props.RepeatedStddev
import Verif.Spec.NormalBench
import Verif.Model.NormalBench
import Verif.Proof.NormalBench
import Verif.Props.NormalBench
import Verif.Spec.NoReset
import Verif.Proof.NoReset
import Verif.Props.NoReset
import Verif.Spec.IntTest
import Verif.Model.IntTest
import Verif.Proof.IntTest
import Verif.Props.IntTest
import Verif.Spec.HeadTail
import Verif.Model.HeadTail
import Verif.Proof.HeadTail
import Verif.Props.HeadTail
import Verif.Spec.ManyNested
import Verif.Model.ManyNested
import Verif.Proof.ManyNested
import Verif.Props.ManyNested
