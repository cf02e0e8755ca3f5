import Verif.Props.Dfs
import Verif.Props.Graph
import Verif.Props.Query
import Verif.Props.Loops
import Verif.Props.Lookup
import Verif.Props.Glob
import Verif.Props.RangeArg
import Verif.Props.Table
import Verif.Props.External
import Verif.Props.Dot
import Verif.Props.Cli
import Verif.Props.PathReport
import Verif.Props.Interval
import Verif.Props.ValueTracker
import Verif.Props.Cuts
import Verif.Props.BitSlice
import Verif.Props.PortSlice
import Verif.Props.Serial
import Verif.Props.Intern
import Verif.Props.Dependency
import Verif.Props.Pending
import Verif.Props.Locks
import Verif.Props.Sequential
import Verif.Props.Dataflow
import Verif.Props.Pipeline
import Verif.Props.Canonical
import Verif.Props.Build
import Verif.Props.Script
import Verif.Props.Schedule
import Verif.Props.ScheduleDesign
import Verif.Props.ScheduleNetlist
import Verif.Props.TrackerLocks
import Verif.Props.Tasks
import Verif.Props.TaskNetlist
import Verif.Proofs.ScheduleNet
import Verif.Props.Traverse
import Verif.Props.Sound
import Verif.Props.EndToEnd
import Verif.Props.Nodes
import Verif.Props.Cycles
import Verif.Props.Relabel
import Verif.Props.Influence
import Verif.Props.Elab
import Verif.Spec.TextClock
import Verif.Proofs.TextClock
import Verif.Props.TextClock
import Verif.Props.TextTotal
import Verif.Props.Reporter
import Verif.Props.ReportRun
import Verif.Props.Reports
import Verif.Props.Iface
import Verif.Props.Profile
import Verif.Spec.Clock
import Verif.Proofs.Clock
import Verif.Props.Clock
import Verif.Spec.Tick
import Verif.Proofs.Tick
import Verif.Props.Tick
import Verif.Props.Enter
import Verif.Props.VisitAll
import Verif.Proofs.Grown
import Verif.Spec.Reload
import Verif.Proofs.Reload
import Verif.Proofs.ReloadQuery
import Verif.Proofs.ReloadAll
import Verif.Props.Reload
import Verif.Model.Driver
import Verif.Spec.Driver
import Verif.Proofs.Driver
import Verif.Props.Driver
import Verif.Props.LoadTables
import Verif.Props.LoadData
import Verif.Model.RefCache
import Verif.Spec.RefCache
import Verif.Props.RefCache
import Verif.Model.Python
import Verif.Spec.Python
import Verif.Proofs.Python
import Verif.Props.Python
import Verif.Props.Fork
import Verif.Props.Loop
import Verif.Props.Jump
import Verif.Model.Nested
import Verif.Spec.Nested
import Verif.Proofs.Nested
import Verif.Proofs.NestedFrame
import Verif.Proofs.NestedSeg
import Verif.Props.Nested
import Verif.Spec.Force
import Verif.Proofs.Force
import Verif.Props.Force
import Verif.Spec.Walks
import Verif.Proofs.Walks
import Verif.Props.Walks
import Verif.Spec.Automatic
import Verif.Proofs.Automatic
import Verif.Props.Automatic
import Verif.Spec.Unreachable
import Verif.Proofs.Unreachable
import Verif.Props.Unreachable
import Verif.Spec.IfaceFlow
import Verif.Proofs.IfaceFlow
import Verif.Props.IfaceFlow
import Verif.Spec.IfaceMeaning
import Verif.Spec.IfaceClock
import Verif.Proofs.IfaceInfluence
import Verif.Proofs.IfaceClock
import Verif.Props.IfaceInfluence
import Verif.Props.IfaceClock
import Verif.Props.IfaceTick
import Verif.Props.TickVia
import Verif.Props.TextTickVia
import Verif.Props.TextIface
import Verif.Model.Process
import Verif.Spec.Process
import Verif.Props.Process
import Verif.Spec.IfacePorts
import Verif.Proofs.IfacePorts
import Verif.Props.IfacePorts
import Verif.Conform.Base
import Verif.Conform.Dot
import Verif.Conform.Concat
import Verif.Conform.Blocks
import Verif.Conform.Modules
import Verif.Conform.Queries
import Verif.Conform.Units
import Verif.Conform.Interfaces
