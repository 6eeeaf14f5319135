import Verif.Cfg.Model
import Verif.Cfg.Lemmas
import Verif.Cfg.Props
import Verif.Cfg.Values
import Verif.Cfg.Print
import Verif.Cfg.Load
import Verif.Cfg.LoadWitness
import Verif.Common.Lin
import Verif.Geom.Model
import Verif.Geom.ModelReal
import Verif.Geom.Props
import Verif.Geom.PropsReal
import Verif.Geom.AxisAngle
import Verif.Geom.SmallAngle
import Verif.Data.Window
import Verif.Data.Assoc
import Verif.Data.Files
import Verif.Data.FilesProps
import Verif.Data.SeqProps
import Verif.Data.Images
import Verif.Data.ImagesProps
import Verif.Data.Quat
import Verif.PC.Model
import Verif.PC.Spec
import Verif.PC.Refine
import Verif.PC.Refine2
import Verif.PC.Refine3
import Verif.PC.Refine4
import Verif.PC.Geo
import Verif.PC.Idx
import Verif.PC.Hist
import Verif.PC.Props
import Verif.PC.Props2
import Verif.Rgbd.Model
import Verif.Rgbd.Spec
import Verif.Rgbd.Rep
import Verif.Rgbd.Hist
import Verif.Rgbd.Props
import Verif.Fusion.Model
import Verif.Fusion.Spec
import Verif.Fusion.Active
import Verif.Fusion.Match
import Verif.Fusion.Fuse
import Verif.Fusion.FuseProps
import Verif.Fusion.Alpha
import Verif.Fusion.Update
import Verif.Fusion.Witness
import Verif.Fusion.ReadFrame
import Verif.Icp.Model
import Verif.Icp.Solve
import Verif.Icp.Gauss
import Verif.Icp.Loop
import Verif.Icp.Down
import Verif.Icp.Provider
import Verif.Icp.DownWitness
import Verif.Slam.Model
import Verif.Slam.Step
import Verif.Slam.MapStep
import Verif.Slam.Run
import Verif.Slam.Loop
import Verif.Slam.Props
import Verif.Slam.Unique
import Verif.Slam.Map
import Verif.Slam.Final
import Verif.Slam.Real
import Verif.Slam.Witness
import Verif.Slam.Moved
import Verif.Slam.Batch
import Verif.Slam.BatchWitness
import Verif.Geom.Clouds
import Verif.Geom.Exponential
import Verif.Data.Item
import Verif.Data.ItemProps
import Verif.Data.ItemSets
import Verif.Data.ItemWitness
import Verif.Data.Batch
import Verif.Data.BatchSets
import Verif.Slam.EndToEnd
import Verif.Slam.EndToEndSets
import Verif.Slam.Thresholds
import Verif.Slam.Static
import Verif.Slam.StaticPose
import Verif.Slam.StaticProps
import Verif.Slam.StaticWitness
import Verif.PC.Export
import Verif.Rgbd.Show
import Verif.Icp.Smooth
import Verif.Icp.SmoothStep
import Verif.Icp.SmoothRun
import Verif.Icp.SmoothWitness
import Verif.Slam.SmoothData
import Verif.Slam.SmoothMatch
import Verif.Slam.SmoothMap
import Verif.Slam.SmoothRun
import Verif.Slam.SmoothWitness
import Verif.Slam.SmoothTrack
import Verif.Slam.SmoothTrackWitness
import Verif.Icp.Rotate
import Verif.Slam.Rotate
import Verif.Slam.RotateWitness
import Verif.Mem.Model
import Verif.Mem.Sim
import Verif.Mem.Sim2
import Verif.Mem.Copy
import Verif.Mem.Copy2
import Verif.Mem.Copy3
import Verif.Mem.Append
import Verif.Mem.World
import Verif.Mem.World2
import Verif.Mem.Isolation
import Verif.Mem.Sharing
import Verif.Mem.Witness
import Verif.RMem.Model
import Verif.RMem.Sim
import Verif.RMem.Getters
import Verif.RMem.Copies
import Verif.RMem.Layout
import Verif.RMem.World
import Verif.RMem.Isolation
import Verif.RMem.Sharing
import Verif.RMem.Witness
import Verif.Slam.Ledger
import Verif.Slam.LedgerWitness
import Verif.Cfg.Assign
import Verif.Data.Select
import Verif.Data.SelectProps
import Verif.Slam.Scaled
import Verif.Slam.ScaledWitness
import Verif.CfgMem.Model
import Verif.CfgMem.Spec
import Verif.CfgMem.Region
import Verif.CfgMem.Isolation
import Verif.CfgMem.Value
import Verif.CfgMem.Merge
import Verif.CfgMem.Paths
import Verif.CfgMem.Witness
import Verif.Flt.Format
import Verif.Flt.Model
import Verif.Flt.Track
import Verif.Flt.Fuse
import Verif.Flt.Props
import Verif.Flt.Drift
import Verif.Fusion.Raw
import Verif.Icp.Raw
import Verif.Slam.Layout
import Verif.Slam.Colour
import Verif.Slam.ColourWitness
import Verif.Flt.ProjModel
import Verif.Flt.ProjBounds
import Verif.Flt.Project
import Verif.Flt.ProjectCase
import Verif.Slam.Raise
import Verif.Slam.RaiseWitness
import Verif.Icp.Norm
import Verif.Icp.Basin
import Verif.Icp.Converge
import Verif.Icp.ConvergeRun
import Verif.Icp.ConvergeWitness
import Verif.Slam.Accuracy
import Verif.Slam.AccuracyWitness
import Verif.Icp.Order
import Verif.Slam.Order
import Verif.Slam.OrderWitness
import Verif.Mem.Map
import Verif.Mem.MapSim
import Verif.Mem.MapSim2
import Verif.Mem.MapProps
import Verif.RMem.Makes
import Verif.RMem.Slam
import Verif.RMem.SlamSim
import Verif.RMem.SlamFwd
import Verif.RMem.SlamProps
import Verif.Flt.Pose
import Verif.Flt.PoseDrift
import Verif.Flt.PoseCase
import Verif.Nan.Model
import Verif.Nan.Local
import Verif.Nan.Link
import Verif.Nan.Float
import Verif.Nan.Register
import Verif.Data.Access
import Verif.Data.AccessMem
import Verif.Data.AccessProps
import Verif.Data.AccessIter
import Verif.Rgbd.Shapes
import Verif.Rgbd.ShapesW
import Verif.Dtype.Model
import Verif.Dtype.Props
import Verif.Dtype.Cases
import Verif.Grad.Model
import Verif.Grad.Spec
import Verif.Grad.Props
import Verif.Grad.Code
import Verif.Grad.Grads
import Verif.Grad.Cases
import Verif.Grad.Solve
import Verif.Nd.Model
import Verif.Nd.Spec
import Verif.Nd.Props
import Verif.Nd.Trans
import Verif.Nd.Cases
import Verif.Axis.Model
import Verif.Axis.Props
import Verif.Axis.Laws
import Verif.Axis.Mats
import Verif.Axis.MatsProps
import Verif.Axis.MatsCloud
import Verif.IcpRaw.Model
import Verif.IcpRaw.Props
import Verif.IcpRaw.Table
import Verif.IcpRaw.Grad
import Verif.Track.Model
import Verif.Track.Props
import Verif.Track.Runs
import Verif.Warn.Model
import Verif.Warn.Props
import Verif.Warn.Runs
import Verif.Warn.Witness
import Verif.Fusion.Table
import Verif.Fusion.Table2
import Verif.Icp.DownTable
import Verif.Fusion.Args
import Verif.Slam.ParamUse
import Verif.Slam.Args
import Verif.Slam.Sigma
