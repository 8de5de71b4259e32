import Verif.Props.SlowStart
import Verif.Props.MachineSet
import Verif.Props.Claim
import Verif.Props.Deletion
import Verif.Props.Expectations
import Verif.Props.Rolling
import Verif.Props.Scale
import Verif.Props.Recreate
import Verif.Props.Template
import Verif.Props.Revision
import Verif.Props.Rollback
import Verif.Props.Status
import Verif.Props.Freeze
import Verif.Props.Similar
import Verif.Props.Codes
import Verif.Props.Termination
import Verif.Props.TerminationLive
import Verif.Props.TermQueue
import Verif.Props.Creation
import Verif.Props.Worker
import Verif.Props.Orphan
import Verif.Props.ApiFreeze
import Verif.Props.Conditions
import Verif.Props.Events
import Verif.Props.Taints
import Verif.Props.NodeSync
import Verif.Props.Trigger
import Verif.Props.RolloutNodes
import Verif.Props.Finalizers
import Verif.Props.SyncMachines
import Verif.Props.Permits
import Verif.Props.UserData
import Verif.Props.Health
import Verif.Props.Validation
import Verif.Props.Drain
import Verif.Props.Volumes
import Verif.Props.Dispatch
import Verif.Props.Outcome
import Verif.Props.Hash
import Verif.Props.Adopt
import Verif.Props.NodeReason
import Verif.Props.Wake
import Verif.Props.Make
import Verif.Props.Retire
import Verif.Props.Retry
import Verif.Props.RefWake
import Verif.Props.Lifecycle
import Verif.Props.LifecycleLive
import Verif.Props.Settings
import Verif.Props.OwnNode
import Verif.Props.Attach
import Verif.Props.Fleet
import Verif.Props.DepStatus
import Verif.Props.Metrics
import Verif.Props.World
import Verif.Props.History
import Verif.Props.RecreateLive
import Verif.Props.Loop
import Verif.Props.SetRun
import Verif.Props.Lag
import Verif.Props.Collector
import Verif.Props.LifecycleStatus
import Verif.Props.Startup
import Verif.Props.Election
import Verif.Props.Floor
import Verif.Props.Ceiling
import Verif.Props.Teardown
import Verif.Props.Recovery
import Verif.Props.TeardownRecovery
import Verif.Props.Turmoil
import Verif.Props.Pace
import Verif.Props.Solo
import Verif.Props.Stuck
import Verif.Props.Tokens
import Verif.Props.Float64
import Verif.Props.Guard
import Verif.Lemmas.Agree
import Verif.Conform.Machine
import Verif.Conform.Node
import Verif.Conform.Deployment
import Verif.Conform.MachineSet
import Verif.Conform.Util
import Verif.Conform.Drain
import Verif.Props.Budget
import Verif.Props.Resync
import Verif.Props.InPlace
import Verif.Props.ScaleIn
import Verif.Props.InTurn
import Verif.Props.DrainClock
import Verif.Props.Forced
import Verif.Props.Rest
import Verif.Props.RestSets
import Verif.Props.Undo
import Verif.Props.DepRun
import Verif.Props.Thaw
import Verif.Props.Meaning
import Verif.Props.Outside
import Verif.Props.Contract
import Verif.Props.Patience
import Verif.Props.Initial
import Verif.Props.Complete
import Verif.Props.Limit
import Verif.Props.RollError
import Verif.Props.RecreateError
import Verif.Props.SetError
