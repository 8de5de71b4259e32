import Verif.Model.Status
/-!
When the deployment controller writes the status of a MachineDeployment, with the failed machines in full.
/repo/pkg/controller/deployment_sync.go:606-665, deployment_progress.go:40-120, deployment_util.go:1187-1222.

The status is calculated by `Status.calcDep` and `Status.rolloutStatus`; this module adds the summaries of failed machines and the two
comparisons that decide about a write. `CollisionCount` is left out: the new status copies the pointer of the old one, so both comparisons
find it equal.
-/
namespace MCM.DepStatus
open MCM
open MCM.Status (Cond DSet DStatus DDep)

/-- `MachineSummary`, /repo/pkg/apis/machine/v1alpha1/shared_types.go:62-74. `state` and `time` stand for the fields of `LastOperation`
other than the description. -/
structure Summary where
  name : String
  providerID : String := ""
  description : String := ""
  state : String := "Failed"
  time : Int := 0
  owner : String := ""
deriving Repr, DecidableEq

/-- A machine set with the failed machines of its status in full (machineset_types.go:135-137; `none` = nil). -/
structure FSet where
  set : DSet
  failed : Option (List Summary) := none

/-- The set as `Status` sees it: failed machines by name only; (fields of machineset_types.go:108-130 read by deployment_sync.go:621-665) -/
def FSet.plain (s : FSet) : DSet := { s.set with st := { s.set.st with failed := s.failed.map fun l => l.map (·.name) } }

/-- `MachineDeploymentStatus`, /repo/pkg/apis/machine/v1alpha1/machinedeployment_types.go:190-231. `failed = none` is the nil slice. -/
structure FStatus where
  observed : Int := 0
  replicas : Int := 0
  updated : Int := 0
  ready : Int := 0
  available : Int := 0
  unavailable : Int := 0
  conds : List Cond := []
  failed : Option (List Summary) := none
deriving Repr, DecidableEq

/-- The machines listed; in `Status.FailedMachines`, machinedeployment_types.go:190-232 -/
def FStatus.listed (s : FStatus) : List Summary := s.failed.getD []

/-- The status as `Status` sees it; (machinedeployment_types.go:190-232) -/
def FStatus.plain (s : FStatus) : DStatus :=
  { observed := s.observed, replicas := s.replicas, updated := s.updated, ready := s.ready, available := s.available,
    unavailable := s.unavailable, failed := s.listed.map (·.name), conds := s.conds }

/-- A status of `Status` with the summaries of the failed machines put in, deployment_sync.go:621-665 -/
def ofPlain (s : DStatus) (failed : List Summary) : FStatus :=
  { observed := s.observed, replicas := s.replicas, updated := s.updated, ready := s.ready, available := s.available,
    unavailable := s.unavailable, conds := s.conds, failed := some failed }

/-- The parts of a MachineDeployment read by deployment_progress.go:40-120 and deployment_sync.go:606-665 (machinedeployment_types.go:30-232) -/
structure FDep where
  dep : Rolling.Dep
  generation : Int := 0
  deadline : Option Int := none
  status : FStatus := {}

/-- The deployment as `Status` sees it (deployment_progress.go:40-120) -/
def FDep.plain (d : FDep) : DDep := { dep := d.dep, generation := d.generation, deadline := d.deadline, status := d.status.plain }

/-- The loop over the sets' failed machines, deployment_sync.go:642-652; the slice starts empty but not nil. -/
def summaries (all : List FSet) : List Summary := all.flatMap fun s => s.failed.getD []

/-- `calculateDeploymentStatus`, deployment_sync.go:621-665 -/
def fresh (now : Int) (d : FDep) (all : List FSet) (new : Option FSet) : FStatus :=
  ofPlain (Status.calcDep now d.plain (all.map FSet.plain) (new.map FSet.plain)) (summaries all)

/-- `syncRolloutStatus` up to the comparison, deployment_progress.go:41-107 -/
def rollout (now : Int) (d : FDep) (all : List FSet) (new : Option FSet) : FStatus :=
  ofPlain (Status.rolloutStatus now d.plain (all.map FSet.plain) (new.map FSet.plain)) (summaries all)

/-- The inner loop of `statusUpdateRequired`, deployment_util.go:1204-1210 -/
def sameFailure (a b : Summary) : Bool := decide (a.name = b.name) && decide (a.description = b.description)

/-- `statusUpdateRequired`, deployment_util.go:1188-1222 -/
def updateRequired (old new : FStatus) : Bool :=
  !(decide (old.available = new.available) && decide (old.listed.length = new.listed.length) && decide (old.observed = new.observed)
    && decide (old.ready = new.ready) && decide (old.replicas = new.replicas) && decide (old.updated = new.updated)
    && decide (old.unavailable = new.unavailable) && decide (old.conds = new.conds)
    && new.listed.all fun m => old.listed.any fun o => sameFailure o m)

/-- `syncRolloutStatus`, deployment_progress.go:109-119: the status sent to the API server, if any -/
def rolloutRun (now : Int) (d : FDep) (all : List FSet) (new : Option FSet) : Option FStatus :=
  if updateRequired d.status (rollout now d all new) then some (rollout now d all new) else none

/-- `syncMachineDeploymentStatus`, deployment_sync.go:607-619: the status sent to the API server, if any. `reflect.DeepEqual` tells a nil
slice from an empty one. -/
def statusRun (now : Int) (d : FDep) (all : List FSet) (new : Option FSet) : Option FStatus :=
  if d.status = fresh now d all new then none else some (fresh now d all new)

/-- What comes back from the API server: `omitempty` (machinedeployment_types.go:230) drops an empty slice, which is then read as nil. -/
def stored (s : FStatus) : FStatus := { s with failed := if s.failed = some [] then none else s.failed }

/-- The deployment after an accepted write (or none); deployment_progress.go:109-119, deployment_sync.go:607-618 -/
def FDep.after (d : FDep) : Option FStatus → FDep
  | none => d
  | some n => { d with status := stored n }

/-- Rollout runs at the given times while the sets do not change: the deployment afterwards and the number of status writes;
deployment_progress.go:40-120 repeated -/
def runs (all : List FSet) (new : Option FSet) : List Int → FDep → FDep × Nat
  | [], d => (d, 0)
  | t :: ts, d =>
    let w := rolloutRun t d all new
    let r := runs all new ts (d.after w)
    (r.1, (if w.isSome then 1 else 0) + r.2)

end MCM.DepStatus
