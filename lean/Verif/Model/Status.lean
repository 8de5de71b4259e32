import Verif.Model.Rolling
/-!
Model of status reporting: conditions, MachineSet status, MachineDeployment status, rollout progress.
/repo/pkg/controller/deployment_machineset_util.go:39-225, deployment_util.go:150-221 and 958-1090, deployment_sync.go:606-665,
deployment_progress.go:40-200.
-/
namespace MCM.Status
open MCM

/-! ### Conditions -/

/-- A condition of a MachineSet or MachineDeployment. Messages are left out (they never influence a decision). `updated` is
`LastUpdateTime` (MachineSet conditions have none). Times are nanoseconds.
machineset_types.go:87-106, machinedeployment_types.go:265-286. -/
structure Cond where
  type : String
  status : String
  reason : String
  updated : Int
  transitioned : Int
deriving Repr, DecidableEq

/-- `GetMachineDeploymentCondition`, deployment_util.go:165-173; `GetCondition`, deployment_machineset_util.go:173-180 -/
def getCond (cs : List Cond) (t : String) : Option Cond := cs.find? fun c => c.type == t

/-- `filterOutDeploymentCondition`, deployment_util.go:209-218; `filterOutMachineSetCondition`, deployment_machineset_util.go:199-208;
also `RemoveMachineDeploymentCondition` and `RemoveCondition` -/
def removeCond (cs : List Cond) (t : String) : List Cond := cs.filter fun c => !(c.type == t)

/-- `SetMachineDeploymentCondition`, deployment_util.go:190-201 -/
def setCond (cs : List Cond) (c : Cond) : List Cond :=
  match getCond cs c.type with
  | none => removeCond cs c.type ++ [c]
  | some cur =>
    if cur.status = c.status ∧ cur.reason = c.reason then cs
    else
      let c' := if cur.status = c.status then { c with transitioned := cur.transitioned } else c
      removeCond cs c.type ++ [c']

/-- `SetCondition` of a MachineSet, deployment_machineset_util.go:184-191: does not keep the transition time. -/
def setCondMS (cs : List Cond) (c : Cond) : List Cond :=
  match getCond cs c.type with
  | none => removeCond cs c.type ++ [c]
  | some cur => if cur.status = c.status ∧ cur.reason = c.reason then cs else removeCond cs c.type ++ [c]

/-- `NewMachineDeploymentCondition`, deployment_util.go:153-162 -/
def newCond (now : Int) (type status reason : String) : Cond := ⟨type, status, reason, now, now⟩

/-! ### MachineSet status -/

/-- A machine as far as the MachineSet status counts it. deployment_machineset_util.go:92-160. -/
structure SMachine where
  name : String
  phase : Phase
  /-- the machine's labels match the labels of the set's template -/
  fullyLabeled : Bool := true
  /-- `Status.LastOperation.State == Failed` -/
  opFailed : Bool := false
deriving Repr, DecidableEq

/-- `isMachineAvailable`, deployment_machineset_util.go:210-218 -/
def isAvailable (m : SMachine) : Bool := m.phase == .available || m.phase == .running
/-- `isMachineReady`, deployment_machineset_util.go:220-223 -/
def isReady (m : SMachine) : Bool := m.phase == .running

/-- `MachineSetStatus`, machineset_types.go:108-136 -/
structure SetStatus where
  replicas : Int := 0
  fullyLabeled : Int := 0
  ready : Int := 0
  available : Int := 0
  /-- names of `FailedMachines`; `none` = nil -/
  failed : Option (List String) := none
  conds : List Cond := []
deriving Repr, DecidableEq

/-- `MachineSetReplicaFailure`, machineset_types.go:78-81, and `MachineDeploymentReplicaFailure`, machinedeployment_types.go:250 -/
def replicaFailure : String := "ReplicaFailure"

/-- `calculateMachineSetStatus`, deployment_machineset_util.go:92-159. `spec` is `Spec.Replicas`, `err` says whether replica
management failed. -/
def calcSet (now spec : Int) (cur : SetStatus) (machines : List SMachine) (err : Bool) : SetStatus :=
  let ready := ((machines.filter fun m => isAvailable m && isReady m).length : Int)
  let failed := (machines.filter (·.opFailed)).map (·.name)
  let diff := (machines.length : Int) - spec
  let reason := if diff < 0 then "FailedCreate" else if diff > 0 then "FailedDelete" else ""
  { replicas := machines.length
    fullyLabeled := (machines.filter (·.fullyLabeled)).length
    ready := ready
    available := (machines.filter isAvailable).length
    failed := if failed.length > 0 then some failed else if ready = cur.replicas then none else cur.failed
    conds :=
      if err && (getCond cur.conds replicaFailure).isNone then setCondMS cur.conds (newCond now replicaFailure "True" reason)
      else if !err && (getCond cur.conds replicaFailure).isSome then removeCond cur.conds replicaFailure
      else cur.conds }

/-- `updateMachineSetStatus`, deployment_machineset_util.go:39-90: whether a write is attempted. `gen` is the generation of the object
acted on, `obs` its observed generation. -/
def setWriteNeeded (cur new : SetStatus) (gen obs : Int) : Bool :=
  !(decide (cur.replicas = new.replicas) && decide (cur.fullyLabeled = new.fullyLabeled) && decide (cur.ready = new.ready)
    && decide (cur.available = new.available) && decide (gen = obs) && decide (cur.conds = new.conds) && decide (cur.failed = new.failed))

/-! ### MachineDeployment status -/

/-- A machine set as seen by the deployment controller; deployment_sync.go:621-670 -/
structure DSet where
  name : String
  spec : Int
  st : SetStatus
deriving Repr, DecidableEq

/-- `MachineDeploymentStatus`, machinedeployment_types.go:190-232 -/
structure DStatus where
  observed : Int := 0
  replicas : Int := 0
  updated : Int := 0
  ready : Int := 0
  available : Int := 0
  unavailable : Int := 0
  failed : List String := []
  conds : List Cond := []
deriving Repr, DecidableEq

/-- machinedeployment_types.go:30-112, as used in deployment_sync.go:607-670 and deployment_progress.go:40-200 -/
structure DDep where
  dep : Rolling.Dep
  generation : Int := 0
  /-- `Spec.ProgressDeadlineSeconds` -/
  deadline : Option Int := none
  status : DStatus := {}

/-- `calculateDeploymentStatus`, deployment_sync.go:621-665; `all` are the old sets followed by the new one, if any. -/
def calcDep (now : Int) (d : DDep) (all : List DSet) (new : Option DSet) : DStatus :=
  let available := (all.map (·.st.available)).sum
  let un := (all.map (·.spec)).sum - available
  { observed := d.generation
    replicas := (all.map (·.st.replicas)).sum
    updated := (new.toList.map (·.st.replicas)).sum
    ready := (all.map (·.st.ready)).sum
    available := available
    unavailable := if un < 0 then 0 else un
    failed := all.flatMap fun s => s.st.failed.getD []
    conds :=
      if available ≥ d.dep.replicas - Rolling.maxUnavailable d.dep then
        setCond d.status.conds (newCond now "Available" "True" "MinimumReplicasAvailable")
      else setCond d.status.conds (newCond now "Available" "False" "MinimumReplicasUnavailable") }

/-! ### Rollout progress -/

/-- `MachineDeploymentProgressing`, machinedeployment_types.go:246 -/
def progressing : String := "Progressing"
/-- `NewISAvailableReason`, deployment_util.go:131-134 -/
def newISAvailable : String := "NewMachineSetAvailable"
/-- `TimedOutReason`, deployment_util.go:135-137 -/
def timedOutReason : String := "ProgressDeadlineExceeded"
/-- `MachineSetUpdatedReason`, deployment_util.go:122-124 -/
def updatedReason : String := "MachineSetUpdated"

/-- `MachineDeploymentComplete`, deployment_util.go:1009-1014 -/
def complete (d : DDep) (n : DStatus) : Bool :=
  decide (n.updated = d.dep.replicas) && decide (n.replicas = d.dep.replicas) && decide (n.available = d.dep.replicas) && decide (n.observed ≥ d.generation)

/-- `MachineDeploymentProgressing`, deployment_util.go:1020-1031 -/
def isProgressing (old n : DStatus) : Bool :=
  decide (n.updated > old.updated) || decide (n.replicas - n.updated < old.replicas - old.updated) || decide (n.ready > old.ready) || decide (n.available > old.available)

/-- `MachineDeploymentTimedOut`, deployment_util.go:1039-1079 -/
def timedOut (now : Int) (d : DDep) (n : DStatus) : Bool :=
  match d.deadline, getCond n.conds progressing with
  | some dl, some c =>
    if c.reason = newISAvailable then false
    else if c.reason = timedOutReason then true
    else decide (c.updated + dl * 1000000000 < now)
  | _, _ => false

/-- `currentCond != nil && currentCond.Reason == NewISAvailableReason`, deployment_progress.go:47 -/
def reportedDone : Option Cond → Bool
  | some c => c.reason == newISAvailable
  | none => false

/-- The condition part of `syncRolloutStatus`, deployment_progress.go:41-98. -/
def progressConds (now : Int) (d : DDep) (n : DStatus) : List Cond :=
  let cur := getCond d.status.conds progressing
  if decide (n.replicas = n.updated) && reportedDone cur then n.conds
  else if complete d n then setCond n.conds (newCond now progressing "True" newISAvailable)
  else if isProgressing d.status n then
    let c := newCond now progressing "True" updatedReason
    match cur with
    | some k => setCond (removeCond n.conds progressing) (if k.status = "True" then { c with transitioned := k.transitioned } else c)
    | none => setCond n.conds c
  else if timedOut now d n then setCond n.conds (newCond now progressing "False" timedOutReason)
  else n.conds

/-- `getReplicaFailures`, deployment_progress.go:122-152 with `MachineSetToMachineDeploymentCondition`, deployment_util.go:222-231 -/
def replicaFailures (all : List DSet) (new : Option DSet) : List Cond :=
  let f (s : DSet) := (s.st.conds.filter fun c => c.type == replicaFailure).map fun c => { c with updated := c.transitioned }
  let a := new.toList.flatMap f
  if a.length > 0 then a else all.flatMap f

/-- `syncRolloutStatus` up to the write, deployment_progress.go:40-107 -/
def rolloutStatus (now : Int) (d : DDep) (all : List DSet) (new : Option DSet) : DStatus :=
  let n := calcDep now d all new
  let cs := progressConds now d n
  { n with conds :=
      match replicaFailures all new with
      | c :: _ => setCond cs c
      | [] => removeCond cs replicaFailure }

/-- `requeueStuckMachineDeployment`, deployment_progress.go:161-200: delay after which the deployment is looked at again; `none` = not
requeued. A remaining time under one second requeues at once (rate limited). -/
def requeueStuck (now : Int) (d : DDep) (n : DStatus) : Option Int :=
  match d.deadline, getCond d.status.conds progressing with
  | some dl, some c =>
    if complete d n || c.reason == timedOutReason then none
    else
      let after := c.updated + dl * 1000000000 - now
      if after < 1000000000 then some 0 else some (after + 1000000000)
  | _, _ => none

/-- `checkPausedConditions`, deployment_sync.go:81-112: the conditions afterwards (when the write succeeds). -/
def checkPaused (now : Int) (paused : Bool) (cs : List Cond) : List Cond :=
  match getCond cs progressing with
  | some c =>
    if c.reason = timedOutReason then cs
    else if paused ∧ c.reason ≠ "DeploymentPaused" then setCond cs (newCond now progressing "Unknown" "DeploymentPaused")
    else if ¬ paused ∧ c.reason = "DeploymentPaused" then setCond cs (newCond now progressing "Unknown" "DeploymentResumed")
    else cs
  | none => if paused then setCond cs (newCond now progressing "Unknown" "DeploymentPaused") else cs

end MCM.Status
