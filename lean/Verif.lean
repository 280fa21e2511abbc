import Verif.BT.Basic
import Verif.BT.Hooks
import Verif.BT.Sem
import Verif.BT.Loops
import Verif.BT.Spec
import Verif.BT.Lifecycle
import Verif.BT.Struct
import Verif.BT.Deep
import Verif.BT.Broken
import Verif.BT.Trace
import Verif.BT.Forget
import Verif.BT.Logic
import Verif.BT.Pass
import Verif.BT.Config
import Verif.BT.Par
import Verif.BT.Switch
import Verif.BT.Quiet
import Verif.BT.Counts
import Verif.BT.Iterate
import Verif.BT.Table
import Verif.Utility.Model
import Verif.Utility.Spec
import Verif.Utility.Sequence
import Verif.Utility.Parallel
import Verif.Edit.Model
import Verif.Edit.Spec
import Verif.Edit.Links
import Verif.Edit.Basic
import Verif.Edit.Limits
import Verif.Edit.Root
import Verif.Edit.Wire
import Verif.Edit.Cycles
import Verif.Edit.Agree
import Verif.Edit.Exchange
import Verif.Edit.Polite
import Verif.Edit.Acyclic
import Verif.Edit.Shape
import Verif.Edit.Replace
import Verif.Edit.Reject
import Verif.Edit.Load
import Verif.Exec.Model
import Verif.Exec.Spec
import Verif.Exec.Control
import Verif.Exec.Guard
import Verif.Exec.Down
import Verif.Exec.Calls
import Verif.Exec.Quirks
import Verif.Exec.Race
import Verif.Edit.Extract
import Verif.Data.Model
import Verif.Data.Msg
import Verif.Data.Json
import Verif.Data.Spec
import Verif.Data.Permitted
import Verif.Data.Static
import Verif.Data.Compat
import Verif.Data.Values
import Verif.Data.Flow
import Verif.Data.Deliver
import Verif.Data.Sync
import Verif.Data.Updates
import Verif.Data.Config
import Verif.Files.Names
import Verif.Files.Save
import Verif.Files.Listing
import Verif.Ros.Frame
import Verif.Ros.Wait
import Verif.Ros.Service
import Verif.Ros.Action
import Verif.Ros.Topic
import Verif.Ros.Publisher
import Verif.Ros.WaitService
import Verif.BT.Throttle
import Verif.Nodes.Model
import Verif.Nodes.Getters
import Verif.Nodes.Lists
import Verif.Nodes.Compare
import Verif.Nodes.Pipeline
import Verif.Nodes.Maths
import Verif.Nodes.Yaml
import Verif.Nodes.Fields
import Verif.Nodes.Format
import Verif.Data.Subtree
import Verif.Files.Load
import Verif.Files.Migrate
import Verif.Exec.Subtrees
import Verif.Exec.Diag
import Verif.Data.Watch
import Verif.BT.Same
import Verif.BT.Rows
import Verif.BT.Laws
import Verif.Exec.Shown
import Verif.Exec.Rate
import Verif.Exec.Health
import Verif.Exec.Log
import Verif.Data.Classes
import Verif.Exec.Meta
import Verif.BT.Finish
import Verif.BT.FinishKinds
import Verif.BT.Finished
import Verif.Exec.Until
import Verif.Data.Generic
import Verif.Data.Refs
import Verif.Data.Saved
import Verif.Ros.Unused
import Verif.Exec.Rest
import Verif.BT.Alive
import Verif.BT.Single
import Verif.BT.Busy
import Verif.Files.Overlap
import Verif.Nodes.Results
import Verif.Utility.Optional
import Verif.Exec.Pool
import Verif.Whole.Claims
import Verif.Whole.Process
import Verif.Files.Lists
import Verif.Data.Equal
import Verif.Exec.Mark
import Verif.Whole.Wires
import Verif.Nodes.Iterate
import Verif.Whole.Values
import Verif.Whole.Refine
import Verif.BT.Inline
import Verif.Whole.Program
import Verif.Whole.Progress
import Verif.BT.Renew
import Verif.Ros.Renew
import Verif.Data.Heap
import Verif.Ros.Rpc
import Verif.Ros.Goal
import Verif.Exec.Locks
import Verif.BT.Formula
import Verif.BT.Resume
import Verif.BT.Refactor
import Verif.Edit.Exactly
import Verif.BT.Rounds
import Verif.BT.Duration
import Verif.BT.Again
import Verif.BT.Tolerance
import Verif.Exec.Takes
import Verif.Exec.Periodic
import Verif.Exec.Single
import Verif.Exec.Restart
import Verif.Exec.Answer
