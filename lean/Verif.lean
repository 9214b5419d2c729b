import Verif.Msg.Props
import Verif.Sentinel.Props
import Verif.Algebra.Props
import Verif.Assign.Props
import Verif.Assign.SearchProps
import Verif.Assign.ReadyProps
import Verif.Timer.Props
import Verif.Validator.LiveProps
import Verif.Waypoint.Props
import Verif.Net.Props
import Verif.Bridge.Props
import Verif.Manager.Props
import Verif.Routes.Props
import Verif.PlanBuilder.Props
import Verif.Task.Model
import Verif.Task.Spec
import Verif.Task.Activity
import Verif.Task.Reports
import Verif.Task.Waypoints
import Verif.Task.Implement
import Verif.Task.Answers
import Verif.Task.Options
import Verif.Task.Phases
import Verif.Task.Timing
import Verif.Task.Resume
import Verif.Task.Props
import Verif.Services.Region
import Verif.Services.Serial
import Verif.Services.Sender
import Verif.Services.Coord
import Verif.Services.Tracker
import Verif.Services.CallTimer
import Verif.Services.Leash
import Verif.Services.SimpleWp
import Verif.Permute.Model
import Verif.Permute.Props
import Verif.Options.Model
import Verif.Options.Groups
import Verif.Options.Text
import Verif.Options.Single
import Verif.Options.Search
import Verif.Options.CordonProps
import Verif.Options.Rendezvous
import Verif.Options.NextPerm
import Verif.Options.RendezvousProps
import Verif.Options.EndToEnd
import Verif.Options.OnceProps
import Verif.Batch.Flags
import Verif.Visibility.Model
import Verif.Visibility.Segment
import Verif.Visibility.Convex
import Verif.Visibility.Build
import Verif.Visibility.Search
import Verif.Visibility.Dijkstra
import Verif.Visibility.Classify
import Verif.Visibility.Props
import Verif.Visibility.Examples
import Verif.Visibility.Service
import Verif.Visibility.ServiceProps
import Verif.Visibility.Complete
import Verif.Visibility.KeepIn
import Verif.Visibility.Sound
import Verif.RoutePlanner.Model
import Verif.RoutePlanner.Lemmas
import Verif.RoutePlanner.Props
import Verif.RoutePlanner.Zones
import Verif.RoutePlanner.Cases
import Verif.RoutePlanner.Total
import Verif.Visilib.Model
import Verif.Visilib.Segment
import Verif.Visilib.Inside
import Verif.Visilib.Parity
import Verif.Visilib.Props
import Verif.Visilib.Distance
import Verif.Visilib.Standard
import Verif.Visilib.Reduce
import Verif.Visilib.ReduceClear
import Verif.Visilib.EnvModel
import Verif.Visilib.Environment
import Verif.Visilib.Valid
import Verif.Visilib.Simple
import Verif.RoutePlanner.Library
import Verif.RoutePlanner.LibraryCases
import Verif.Visilib.Path
import Verif.Sensor.Cases
import Verif.Sensor.GroundProps
import Verif.Services.StatusCases
import Verif.Earth.Props
import Verif.Earth.AngleProps
import Verif.Extend.Answer
import Verif.Steering.Cases
import Verif.Rendezvous.Times
import Verif.Rendezvous.PlanCases
import Verif.Rendezvous.SpeedCases
import Verif.Search.Tips
import Verif.Pattern.SectorCases
import Verif.Pattern.SpiralCases
import Verif.Escort.Cases
import Verif.Blockade.Cases
import Verif.Dynamic.Cases
import Verif.Roads.Cases
import Verif.Stare.Cases
import Verif.Dpss.Cases
import Verif.Stare.More
import Verif.Dpss.SteerNear
import Verif.Dpss.OfferCases
import Verif.Dpss.Active
import Verif.Dubins.Cases
import Verif.Clock.Cases
import Verif.Config.Cases
import Verif.PlanBuilder.Witness
import Verif.Task.Finish
import Verif.Dpss.SegMap
import Verif.Log.Manager
import Verif.Log.Files
import Verif.Log.Xml
import Verif.Log.Sql
import Verif.Diagram.Props
import Verif.Bridge.Stream
import Verif.Dubins.Round
import Verif.Visibility.Boundary
import Verif.Assign.Dive
import Verif.Grid.Cases
import Verif.System.Cases
import Verif.Bridge.ZyreLink
import Verif.Visilib.MergeProps
import Verif.Visilib.PaddingProps
import Verif.Visilib.ZonesProps
import Verif.Loiter.Props
import Verif.Visilib.PaddingMerge
import Verif.Assign.Kept
import Verif.Assign.Factorial
import Verif.Main.Props
import Verif.Assign.Limit
import Verif.Assign.LimitProps
import Verif.Loiter.Ring
import Verif.Loiter.Depth
import Verif.Manager.Start
import Verif.Manager.StartProps
import Verif.Manager.Run
import Verif.Manager.RunProps
import Verif.Manager.Sweep
import Verif.Manager.SweepProps
import Verif.Net.Setup
import Verif.Net.SetupProps
import Verif.Audit
