import Verif.Alloc.Model
import Verif.Alloc.Lemmas
import Verif.Alloc.AllocFree
import Verif.Alloc.Consolidate
import Verif.Alloc.Defrag
import Verif.Alloc.Principle
import Verif.Alloc.Spec
import Verif.Alloc.ClientLemmas
import Verif.Alloc.Props
import Verif.Proc.Model
import Verif.Proc.Lemmas
import Verif.Proc.Spec
import Verif.Proc.World
import Verif.Proc.Props
import Verif.Engine.Model
import Verif.Engine.Props
import Verif.Math.Range
import Verif.Math.RangeProps
import Verif.Math.RangeSets
import Verif.Math.Angle
import Verif.Math.AngleProps
import Verif.Curve.Model
import Verif.Curve.Props
import Verif.Curve.Roots
import Verif.Curve.RootProps
import Verif.Curve.DualCubic
import Verif.Curve.DualProps
import Verif.Math.FloatBits
import Verif.Spline.Model
import Verif.Spline.NodeProps
import Verif.Spline.AddProps
import Verif.Spline.IndexProps
import Verif.Spline.EvalProps
import Verif.Spline.Layout
import Verif.Spline.Bulk
import Verif.Spline.BulkProps
import Verif.Spline.BulkMove
import Verif.Spline.BulkBlend
import Verif.Curve.Ease
import Verif.Curve.RootScale
import Verif.Curve.EaseProps
import Verif.Curve.Spring
import Verif.Curve.SpringProps
import Verif.Curve.SpringStart
import Verif.Curve.SpringInc
import Verif.Slot.Spring
import Verif.Slot.SpringProps
import Verif.Slot.Ease
import Verif.Slot.EaseProps
import Verif.Proc.Partial
import Verif.Slot.Overshoot
import Verif.Slot.OvershootProps
import Verif.Slot.OvershootFrames
import Verif.Slot.Const
import Verif.Spline.BulkRange
import Verif.Proc.Clean
import Verif.SplineProc.Ownership
import Verif.SplineProc.OwnershipProps
import Verif.SplineProc.Target
import Verif.SplineProc.SetTarget
import Verif.SplineProc.SetTargetProps
import Verif.SplineProc.SetTargetLimits
import Verif.Matrix.Ops
import Verif.Matrix.Blend
import Verif.Matrix.BlendProps
import Verif.Matrix.Sqt
import Verif.Matrix.SqtProps
import Verif.Rig.Globals
import Verif.Rig.Average
import Verif.Rig.Data
import Verif.Rig.Props
import Verif.Rig.Time
import Verif.Table.Load
import Verif.Table.LoadProps
import Verif.Table.Defining
import Verif.Table.DefiningProps
import Verif.Util.ConstSpeed
import Verif.Util.ConstSpeedProps
import Verif.Util.Keyframes
import Verif.Util.KeyframesProps
import Verif.Util.KeyframesSpline
import Verif.Util.KeyframesCurves
import Verif.Pipeline.Nodes
import Verif.Pipeline.NodesProps
import Verif.Pipeline.PruneProps
import Verif.Pipeline.Channels
import Verif.Pipeline.SumProps
import Verif.Pipeline.ChannelsProps
import Verif.Pipeline.Timing
import Verif.Pipeline.Repeat
import Verif.Pipeline.Export
import Verif.Pipeline.RoundTrip
import Verif.Pipeline.Query
import Verif.Matrix.Clone
import Verif.Pipeline.Scene
import Verif.Pipeline.Again
import Verif.Pipeline.Fbx
import Verif.Pipeline.FbxCurve
import Verif.Engine.Frame
import Verif.Engine.FrameBones
import Verif.Engine.FrameSqt
import Verif.Owner.Props
import Verif.Float.Basic
import Verif.Float.Angle
import Verif.Float.AngleWrap
import Verif.Float.Range
import Verif.Float.Quantize
import Verif.Float.Time
import Verif.Audit
import Verif.Spline.TwoSteps
import Verif.Pipeline.Args
import Verif.Rig.Storage
import Verif.Proc.Vector
import Verif.Proc.Lineage
import Verif.Proc.Instances
import Verif.SplineProc.Playing
import Verif.Float.Overshoot
import Verif.Float.OvershootPrograms
import Verif.Pipeline.Output
import Verif.Pipeline.DefiningFile
import Verif.Matrix.SplineDriver
import Verif.SplineProc.Forever
import Verif.Matrix.Clip
import Verif.Rig.Clip
import Verif.Float.Cubic
import Verif.Float.SplineEval
import Verif.Matrix.Children
import Verif.Float.PlayMove
import Verif.Float.Blend
import Verif.Float.BlendMove
import Verif.Slot.OvershootSettle
import Verif.Slot.OvershootRound
import Verif.Slot.Twitch
import Verif.Rig.Debug
import Verif.Rig.Rates
import Verif.Rig.RatesBones
import Verif.SplineProc.Ahead
import Verif.SplineProc.Twitch
import Verif.SplineProc.Again
import Verif.Matrix.Rest
import Verif.Rig.Rest
import Verif.Matrix.Pace
import Verif.Rig.Pace
import Verif.SplineProc.Pause
import Verif.Rig.Pause
import Verif.Spline.Resample
import Verif.SplineProc.Whole
import Verif.Util.Benchmark
import Verif.Proc.Verify
import Verif.Matrix.Nested
import Verif.Rig.Stored
import Verif.Slot.Params
import Verif.Curve.Graph
import Verif.Curve.EaseAny
import Verif.Curve.RootRange
import Verif.Curve.EaseRange
import Verif.Viewer.Play
import Verif.Viewer.Camera
import Verif.Viewer.Args
import Verif.Rig.Wrap
import Verif.Util.InitCopy
import Verif.Spline.Packed
import Verif.Slot.TimeLeft
import Verif.Spline.Neon
import Verif.Math.RangeInt
import Verif.Math.RangeMore
import Verif.Slot.Linear
import Verif.Curve.Retarget
import Verif.Curve.RetargetFrames
import Verif.Util.Aligned
import Verif.Viewer.Skin
import Verif.Math.RangeUInt
import Verif.Math.RangeDouble
