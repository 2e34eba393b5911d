import Verif.Astar.Complete
import Verif.Astar.Exact
import Verif.Astar.Exec
import Verif.Astar.Final
import Verif.Astar.Finite
import Verif.Astar.Lemmas
import Verif.Astar.Model
import Verif.Astar.Opt
import Verif.Astar.Props
import Verif.Astar.Spec
import Verif.Astar.Term
import Verif.Astar.Vec
import Verif.Astar.VecLemmas
import Verif.Astar.VecSpec
import Verif.Bbf.Model
import Verif.Bbf.Props
import Verif.Bbf.Spec
import Verif.CSpace.Core
import Verif.CSpace.Model
import Verif.CSpace.Props
import Verif.CSpace.Spec
import Verif.Compat.Model
import Verif.Compat.Props
import Verif.Control.Model
import Verif.Control.Props
import Verif.Control.Spec
import Verif.CyclicVec.Model
import Verif.CyclicVec.Props
import Verif.CyclicVec.Spec
import Verif.DistMap.Change
import Verif.DistMap.ChangeProps
import Verif.DistMap.Exec
import Verif.DistMap.Extend
import Verif.DistMap.Grid
import Verif.DistMap.Lemmas
import Verif.DistMap.Model
import Verif.DistMap.Props
import Verif.DistMap.Reach
import Verif.DistMap.ReachProps
import Verif.DistMap.ReachSpec
import Verif.DistMap.Spec
import Verif.DistMap.Term
import Verif.Dummy.Model
import Verif.Dummy.Props
import Verif.Dummy.Spec
import Verif.Filter.Model
import Verif.Filter.Props
import Verif.Filter.Spec
import Verif.FloorSel.Model
import Verif.FloorSel.Props
import Verif.FloorSel.Spec
import Verif.Frames.Model
import Verif.Frames.Props
import Verif.Frames.Spec
import Verif.GridMetric.Model
import Verif.GridMetric.Props
import Verif.GridMetric.Spec
import Verif.Gridmap.Lemmas
import Verif.Gridmap.Model
import Verif.Gridmap.Props
import Verif.Gridmap.Spec
import Verif.Guide.Lemmas
import Verif.Guide.Model
import Verif.Guide.Props
import Verif.Guide.PropsSearch
import Verif.Guide.Spec
import Verif.Heap.Model
import Verif.Heap.Props
import Verif.Heap.Spec
import Verif.Hyst.Lemmas
import Verif.Hyst.Model
import Verif.Hyst.Props
import Verif.Hyst.Spec
import Verif.Joints2D.Cheap
import Verif.Joints2D.Lemmas
import Verif.Joints2D.LinkModel
import Verif.Joints2D.LinkProps
import Verif.Joints2D.LinkSpec
import Verif.Joints2D.Map
import Verif.Joints2D.Model
import Verif.Joints2D.Node
import Verif.Joints2D.Props
import Verif.Joints2D.PropsMap
import Verif.Joints2D.Search
import Verif.Joints2D.Spec
import Verif.Joystick.Force
import Verif.Joystick.Model
import Verif.Joystick.Props
import Verif.Joystick.Spec
import Verif.Jump.Model
import Verif.Jump.Props
import Verif.Jump.Spec
import Verif.LargeMap.Lemmas
import Verif.LargeMap.Model
import Verif.LargeMap.Props
import Verif.LargeMap.Spec
import Verif.Layers.Dynamic
import Verif.Layers.Lemmas
import Verif.Layers.Model
import Verif.Layers.OneSensor
import Verif.Layers.Props
import Verif.Layers.Setup
import Verif.Layers.SetupModel
import Verif.Layers.SetupSpec
import Verif.Layers.Spec
import Verif.Layers.Static
import Verif.LocalMap.Model
import Verif.LocalMap.Props
import Verif.LocalMap.Spec
import Verif.MapIO.Model
import Verif.MapIO.Props
import Verif.MapIO.Spec
import Verif.Mesh.Cover
import Verif.Mesh.Model
import Verif.Mesh.Props
import Verif.Mesh.Spec
import Verif.Model3D.Cost
import Verif.Model3D.CostProps
import Verif.Model3D.CostSpec
import Verif.Model3D.Ends
import Verif.Model3D.Lemmas
import Verif.Model3D.Local
import Verif.Model3D.Model
import Verif.Model3D.Plan
import Verif.Model3D.Props
import Verif.Model3D.SpacingProps
import Verif.Model3D.SpacingSpec
import Verif.Model3D.Spec
import Verif.Num.Ext
import Verif.Odom.Fuse
import Verif.Odom.Height
import Verif.Odom.Model
import Verif.Odom.Props
import Verif.Odom.Slip
import Verif.Odom.Spec
import Verif.Path2D.Goals
import Verif.Path2D.Lemmas
import Verif.Path2D.Model
import Verif.Path2D.Props
import Verif.Path2D.Spec
import Verif.Patrol.Model
import Verif.Patrol.Props
import Verif.Patrol.Spec
import Verif.Picture.Model
import Verif.Picture.Props
import Verif.Pipeline.Example
import Verif.Pipeline.OneSensor
import Verif.Pipeline.Props
import Verif.Pipeline.Sensed
import Verif.Pipeline.SensedExample
import Verif.Pipeline.SensedSpec
import Verif.Pipeline.Spec
import Verif.Pipeline.Sync
import Verif.PlannerMap.Lemmas
import Verif.PlannerMap.Model
import Verif.PlannerMap.Props
import Verif.PlannerMap.Rough
import Verif.PlannerMap.Spec
import Verif.PlannerNode.Arrive
import Verif.PlannerNode.ArriveSpec
import Verif.PlannerNode.Causes
import Verif.PlannerNode.Deliver
import Verif.PlannerNode.Guided
import Verif.PlannerNode.GuidedProps
import Verif.PlannerNode.GuidedSpec
import Verif.PlannerNode.Lemmas
import Verif.PlannerNode.Model
import Verif.PlannerNode.Origin
import Verif.PlannerNode.Outcome
import Verif.PlannerNode.Props
import Verif.PlannerNode.Report
import Verif.PlannerNode.ReportProps
import Verif.PlannerNode.Spec
import Verif.PlannerNode.Status
import Verif.PlannerNode.StatusSpec
import Verif.PlannerNode.Steps
import Verif.PlannerNode.Total
import Verif.PlannerNode.Trace
import Verif.PlannerNode.Trail
import Verif.PlannerNode.Watch
import Verif.PlannerNode.WatchSpec
import Verif.Polygon.Convex
import Verif.Polygon.Model
import Verif.Polygon.Props
import Verif.Polygon.Region
import Verif.Polygon.Spec
import Verif.Region.Model
import Verif.Region.Props
import Verif.Region.Spec
import Verif.Replan.Model
import Verif.Replan.Props
import Verif.Replan.Spec
import Verif.Safety.Lemmas
import Verif.Safety.Levels
import Verif.Safety.Model
import Verif.Safety.Props
import Verif.Safety.Recover
import Verif.Safety.Ride
import Verif.Safety.RideExample
import Verif.Safety.RideSpec
import Verif.Safety.Spec
import Verif.Scene.ClearProps
import Verif.Scene.Lemmas
import Verif.Scene.Model
import Verif.Scene.Props
import Verif.Scene.SensedProps
import Verif.Scene.SpacingProps
import Verif.Scene.Spec
import Verif.SearchPos.EscapeModel
import Verif.SearchPos.EscapeProps
import Verif.SearchPos.EscapeSpec
import Verif.SearchPos.Model
import Verif.SearchPos.Props
import Verif.SearchPos.Spec
import Verif.Service.Cost
import Verif.Service.Lemmas
import Verif.Service.Model
import Verif.Service.Props
import Verif.Service.PropsMap
import Verif.Service.Spec
import Verif.Slices.Model
import Verif.Slices.Props
import Verif.Slices.SelectProps
import Verif.Slices.Spec
import Verif.StartPose.Lemmas
import Verif.StartPose.Model
import Verif.StartPose.Props
import Verif.StartPose.PropsPlan
import Verif.StartPose.Spec
import Verif.Tracker.Append
import Verif.Tracker.Approach
import Verif.Tracker.Arrive
import Verif.Tracker.ArriveSpec
import Verif.Tracker.Cases
import Verif.Tracker.CommandCase
import Verif.Tracker.CommandProps
import Verif.Tracker.CommandSpec
import Verif.Tracker.Lemmas
import Verif.Tracker.Limits
import Verif.Tracker.LineTurn
import Verif.Tracker.LineTurnCase
import Verif.Tracker.Model
import Verif.Tracker.Props
import Verif.Tracker.Short
import Verif.Tracker.Sparse
import Verif.Tracker.Spec
import Verif.Tracker.Straight
import Verif.Tracker.Turn
import Verif.Tracker.TurnCase
import Verif.Tracker.TurnEnd
import Verif.Tracker.Watch
import Verif.Tracker.WatchSpec
import Verif.TrajFile.Model
import Verif.TrajFile.Props
import Verif.TrajFile.Spec
