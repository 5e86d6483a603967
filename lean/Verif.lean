import Verif.Base.AMap
import Verif.Model.Types
import Verif.Model.Changes
import Verif.Model.Diff
import Verif.Model.Mutation
import Verif.Model.Stage
import Verif.Spec.Content
import Verif.Spec.Effect
import Verif.Spec.Path
import Verif.Spec.Lossy
import Verif.Proofs.Refine
import Verif.Proofs.Wf
import Verif.Proofs.Mutation
import Verif.Proofs.Frame
import Verif.Proofs.Revert
import Verif.Proofs.Stage
import Verif.Props.Demo
import Verif.Props.Changes
import Verif.Spec.Reached
import Verif.Spec.Undone
import Verif.Spec.Needed
import Verif.Proofs.RunX
import Verif.Proofs.DiffRun
import Verif.Proofs.DiffSchema
import Verif.Proofs.DiffApply
import Verif.Proofs.DiffEmpty
import Verif.Proofs.DiffNeeded
import Verif.Proofs.DiffOrder
import Verif.Proofs.DiffMore
import Verif.Props.Diff
import Verif.Model.Load
import Verif.Model.Sql
import Verif.Spec.Load
import Verif.Spec.Sql
import Verif.Proofs.Load
import Verif.Proofs.SqlEqns
import Verif.Proofs.Sql
import Verif.Props.Load
import Verif.Props.Sql
import Verif.Model.History
import Verif.Model.Commands
import Verif.Spec.History
import Verif.Spec.Commands
import Verif.Proofs.History
import Verif.Proofs.Chain
import Verif.Proofs.Commands
import Verif.Props.History
import Verif.Props.Commands
import Verif.Model.Pg
import Verif.Spec.Pg
import Verif.Proofs.Pg
import Verif.Props.Pg
import Verif.Model.Text
import Verif.Model.Node
import Verif.Model.Ddl
import Verif.Spec.Def
import Verif.Proofs.Text
import Verif.Proofs.NodeSpec
import Verif.Proofs.Key
import Verif.Proofs.Tree
import Verif.Proofs.Ddl
import Verif.Proofs.DdlTable
import Verif.Proofs.DdlSchema
import Verif.Proofs.DdlFile
import Verif.Proofs.DdlWf
import Verif.Proofs.DdlAttrs
import Verif.Proofs.DdlPanic
import Verif.Proofs.NodeEq
import Verif.Props.Def
import Verif.Spec.Stated
import Verif.Spec.Definable
import Verif.Proofs.DdlStated
import Verif.Proofs.Stated
import Verif.Props.Stated
import Verif.Model.Project
import Verif.Spec.Project
import Verif.Proofs.Project
import Verif.Props.Project
import Verif.Model.Serde
import Verif.Spec.Serde
import Verif.Proofs.Serde
import Verif.Props.Serde
import Verif.Model.Introspect
import Verif.Model.Clone
import Verif.Spec.Introspect
import Verif.Proofs.Introspect
import Verif.Proofs.Clone
import Verif.Props.Introspect
import Verif.Model.Output
import Verif.Model.Program
import Verif.Spec.Output
import Verif.Proofs.Output
import Verif.Spec.Program
import Verif.Proofs.Program
import Verif.Props.Program
import Verif.Spec.Follow
import Verif.Proofs.Follow
import Verif.Props.Follow
import Verif.Model.Conc
import Verif.Proofs.DiffSame
import Verif.Props.DiffSame
import Verif.Proofs.DiffLoss
import Verif.Proofs.DiffUndo
import Verif.Props.Undo
import Verif.Model.FileConc
import Verif.Spec.FileConc
import Verif.Proofs.FileConc
import Verif.Props.FileConc
import Verif.Spec.Conc
import Verif.Proofs.Conc
import Verif.Proofs.ConcSerial
import Verif.Proofs.ConcAlone
import Verif.Props.Conc
import Verif.Proofs.UpEnds
import Verif.Props.ProgramPg
import Verif.Spec.Endings
import Verif.Proofs.Endings
import Verif.Props.Endings
import Verif.Spec.Fleet
import Verif.Proofs.Fleet
import Verif.Props.Fleet
import Verif.Spec.Merge
import Verif.Proofs.Merge
import Verif.Props.Merge
import Verif.Spec.Data
import Verif.Proofs.Data
import Verif.Props.Data
import Verif.Spec.Edited
import Verif.Proofs.Edited
import Verif.Props.Edited
import Verif.Spec.Missing
import Verif.Proofs.Missing
import Verif.Props.Missing
import Verif.Spec.Foreign
import Verif.Proofs.Foreign
import Verif.Props.Foreign
import Verif.Model.Clock
import Verif.Spec.Life
import Verif.Proofs.Clock
import Verif.Proofs.Life
import Verif.Props.Life
import Verif.Proofs.Loaded
import Verif.Proofs.Loops
import Verif.Proofs.Definable
import Verif.Props.Definable
import Verif.Props.MetaName
import Verif.Spec.Reads
import Verif.Proofs.Reads
import Verif.Spec.Accepts
import Verif.Proofs.Accepts
import Verif.Props.Accepts
import Verif.Spec.Panics
import Verif.Proofs.Panics
import Verif.Props.Panics
import Verif.Model.Queries
import Verif.Spec.Queries
import Verif.Proofs.Queries
import Verif.Proofs.QueryKeys
import Verif.Proofs.QueryShow
import Verif.Proofs.QueryFalse
import Verif.Proofs.QueryDemo
import Verif.Props.Queries
import Verif.Proofs.RoundTrip
import Verif.Props.RoundTrip
import Verif.Props.Output
import Verif.Spec.Errors
import Verif.Proofs.Errors
import Verif.Props.Errors
import Verif.Proofs.ConcLine
import Verif.Props.Deadlock
import Verif.Model.DdlErrors
import Verif.Spec.DefErrors
import Verif.Proofs.DdlErrors
import Verif.Props.DdlErrors
import Verif.Props.Definitions
import Verif.Props.Workflow
import Verif.Model.Stderr
import Verif.Spec.Stderr
import Verif.Proofs.Stderr
import Verif.Proofs.StderrText
import Verif.Props.Stderr
import Verif.Proofs.SerdeRead
import Verif.Model.Cli
import Verif.Spec.Cli
import Verif.Proofs.Cli
import Verif.Props.Cli
import Verif.Model.UpConc
import Verif.Proofs.UpConc
import Verif.Props.UpConc
import Verif.Spec.Repair
import Verif.Proofs.Repair
import Verif.Props.Repair
import Verif.Spec.Tended
import Verif.Proofs.Tended
import Verif.Props.Tended
import Verif.Spec.Minded
import Verif.Spec.Initial
import Verif.Proofs.Minded
import Verif.Proofs.Initial
import Verif.Props.Minded
import Verif.Props.Initial
import Verif.Props.Return
import Verif.Spec.Keep
import Verif.Proofs.Keep
import Verif.Proofs.Keeping
import Verif.Props.Keep
import Verif.Model.Wide
import Verif.Spec.Apart
import Verif.Proofs.Apart
import Verif.Proofs.Aparting
import Verif.Props.Apart
import Verif.Spec.AnyNames
import Verif.Spec.Renamed
import Verif.Spec.Wild
import Verif.Proofs.AnyNames
import Verif.Proofs.Renamed
import Verif.Props.AnyNames
import Verif.Props.Renamed
import Verif.Props.Wild
import Verif.Model.Pipe
import Verif.Spec.Pipe
import Verif.Proofs.Pipe
import Verif.Props.Pipe
import Verif.Model.Disk
import Verif.Spec.Disk
import Verif.Proofs.Disk
import Verif.Props.Disk
import Verif.Model.Wire
import Verif.Spec.Wire
import Verif.Proofs.Wire
import Verif.Props.Wire
import Verif.Model.Json
import Verif.Spec.Json
import Verif.Proofs.Json
import Verif.Props.Json
import Verif.Props.FleetProg
import Verif.Spec.Along
import Verif.Proofs.Along
import Verif.Props.Along
import Verif.Spec.TableIndex
import Verif.Proofs.TableIndex
import Verif.Props.TableIndex
import Verif.Spec.Views
import Verif.Proofs.Views
import Verif.Props.Views
import Verif.Spec.ViewColumns
import Verif.Props.ViewColumns
