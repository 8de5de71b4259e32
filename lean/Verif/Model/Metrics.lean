import Verif.Model.Rolling
import Verif.Model.Types
/-!
Metrics: what a scrape of the two processes sets. /repo/pkg/controller/metrics.go (all), /repo/pkg/util/provider/machinecontroller/metrics.go
(all), /repo/pkg/metrics/metrics.go, /repo/pkg/util/provider/metrics/metrics.go.

Gauge vectors live for the life of the process: a scrape sets values, no code deletes a series or resets a vector. Values are modelled as
integers (`float64` of an `int32`/`int64`). A nil dereference during a scrape is `none` (the collectors run in goroutines of the registry and
nothing recovers from the panic). Failing listers (counted by `ScrapeFailedCounter`) are left out: informer caches do not fail.
-/
namespace MCM.Metrics
open MCM

/-- A series: the name of the vector and its labels;
(prometheus client library); the vectors are in /repo/pkg/metrics/metrics.go:30-312 and /repo/pkg/util/provider/metrics/metrics.go:20-134 -/
structure Key where
  metric : String
  labels : List (String × String)
deriving Repr, DecidableEq

/-- All series of the process; `none` = the series does not exist;
Set in pkg/controller/metrics.go:52-296 and machinecontroller/metrics.go:25-130. -/
abbrev Store := Key → Option Int

/-- `With(labels).Set(v)`; pkg/controller/metrics.go:96-296, machinecontroller/metrics.go:73-130 -/
def Store.set (s : Store) (k : Key) (v : Int) : Store := fun x => if x = k then some v else s x

/-- Several writes in turn (pkg/controller/metrics.go:96-296, machinecontroller/metrics.go:73-130) -/
def Store.apply (s : Store) (ws : List (Key × Int)) : Store := ws.foldl (fun s w => s.set w.1 w.2) s

/-- Name and namespace labels, used by every vector; pkg/controller/metrics.go:96-288, machinecontroller/metrics.go:73-130 -/
def who (name ns : String) : List (String × String) := [("name", name), ("namespace", ns)]

/-- The three `switch condition.Status` blocks, metrics.go:144-151 and :236-243, machinecontroller/metrics.go:96-104 -/
def condCode (status : String) : Int := if status = "True" then 1 else if status = "False" then 0 else if status = "Unknown" then 2 else 0

/-- A condition: type and status; machine_types.go:94-109, machineset_types.go:87-106, machinedeployment_types.go:265-286 -/
abbrev C := String × String

/-- One write for every condition: machinecontroller/metrics.go:95-113, pkg/controller/metrics.go:136-154, 219-237 -/
def condWrites (metric name ns : String) (cs : List C) : List (Key × Int) :=
  cs.map fun c => (⟨metric, who name ns ++ [("condition", c.1)]⟩, condCode c.2)

/-! ### Machines -/

/-- The parts of a machine shown, machinecontroller/metrics.go:31-130 -/
structure Mach where
  name : String
  ns : String := "ns"
  created : Int := 0
  pid : String := ""
  group : String := ""
  kind : String := ""
  cls : String := ""
  conds : List C := []
  phase : Phase := .empty
deriving Repr, DecidableEq

/-- `updateMachineCSPhaseMetric`, machinecontroller/metrics.go:71-91 -/
def phaseCode : Phase → Int
  | .terminating => -4
  | .failed => -3
  | .crashLoopBackOff => -2
  | .unknown => -1
  | .pending => 0
  | .running => 1
  | _ => 0

/-- `updateMachineInfoMetric`, machinecontroller/metrics.go:114-123 -/
def Mach.info (m : Mach) : Key := ⟨"machine_info", who m.name m.ns ++ [("createdAt", toString m.created), ("spec_provider_id", m.pid),
  ("spec_class_api_group", m.group), ("spec_class_kind", m.kind), ("spec_class_name", m.cls)]⟩

/-- The series of a machine's phase, machinecontroller/metrics.go:73-93 -/
def Mach.phaseKey (m : Mach) : Key := ⟨"machine_current_status_phase", who m.name m.ns⟩

/-- The loop body of `CollectMachineMetrics`, machinecontroller/metrics.go:39-45 -/
def Mach.writes (m : Mach) : List (Key × Int) :=
  (m.info, 1) :: condWrites "machine_status_condition" m.name m.ns m.conds ++ [(m.phaseKey, phaseCode m.phase)]

/-- `CollectMachineMetrics` and `CollectMachineControllerFrozenStatusMetrics`, machinecontroller/metrics.go:30-70: the new store, the number of
machines reported and the frozen flag reported -/
def scrapeMachines (s : Store) (ms : List Mach) (frozen : Bool) : Store × Nat × Int :=
  (s.apply (ms.flatMap Mach.writes), ms.length, if frozen then 1 else 0)

/-! ### Machine sets -/

/-- A failed machine: name, provider id, state and type of the last operation, owner; `MachineSummary`, shared_types.go:62-75 -/
structure Failed where
  name : String
  pid : String := ""
  state : String := ""
  type : String := ""
  owner : String := ""
deriving Repr, DecidableEq

/-- The series of a failed machine, pkg/controller/metrics.go:121-134, 203-217 -/
def failedKey (metric name ns : String) (f : Failed) : Key :=
  ⟨metric, who name ns ++ [("failed_machine_name", f.name), ("failed_machine_provider_id", f.pid), ("failed_machine_last_operation_state", f.state),
    ("failed_machine_last_operation_machine_operation_type", f.type), ("failed_machine_owner_ref", f.owner)]⟩

/-- The parts of a machine set shown, pkg/controller/metrics.go:77-182 -/
structure MSet where
  name : String
  ns : String := "ns"
  created : Int := 0
  group : String := ""
  kind : String := ""
  cls : String := ""
  spec : Int := 0
  minReady : Int := 0
  conds : List C := []
  failed : List Failed := []
  replicas : Int := 0
  fullyLabeled : Int := 0
  ready : Int := 0
  available : Int := 0
deriving Repr, DecidableEq

/-- A series of a machine set, pkg/controller/metrics.go:96-173 -/
def MSet.key (s : MSet) (metric : String) : Key := ⟨metric, who s.name s.ns⟩

/-- `updateMachineSetInfoMetric`, metrics.go:170-178 -/
def MSet.info (s : MSet) : Key := ⟨"machine_set_info", who s.name s.ns ++ [("createdAt", toString s.created),
  ("spec_machine_class_api_group", s.group), ("spec_machine_class_kind", s.kind), ("spec_machine_class_name", s.cls)]⟩

/-- The loop body of `CollectMachineSetMetrics`, metrics.go:86-93 with :96-168. `status_replicas` is set to the ready replicas
(metrics.go:115-118). -/
def MSet.writes (s : MSet) : List (Key × Int) :=
  [(s.info, 1), (s.key "machine_set_info_spec_replicas", s.spec), (s.key "machine_set_info_spec_min_ready_seconds", s.minReady)]
    ++ condWrites "machine_set_status_condition" s.name s.ns s.conds
    ++ s.failed.map (fun f => (failedKey "machine_set_failed_machines" s.name s.ns f, 1))
    ++ [(s.key "machine_set_status_available_replicas", s.available), (s.key "machine_set_status_fully_labelled_replicas", s.fullyLabeled),
        (s.key "machine_set_status_ready_replicas", s.ready), (s.key "machine_set_status_replicas", s.ready)]

/-! ### Machine deployments -/

/-- The parts of a machine deployment shown, pkg/controller/metrics.go:57-75, 184-296 -/
structure MDep where
  name : String
  ns : String := "ns"
  created : Int := 0
  strategy : String := "RollingUpdate"
  /-- `Spec.Strategy.RollingUpdate` with `MaxSurge` and `MaxUnavailable`, pointers all three -/
  rolling : Option (Option Rolling.IntOrStr × Option Rolling.IntOrStr) := none
  paused : Bool := false
  spec : Int := 0
  minReady : Int := 0
  history : Option Int := none
  deadline : Option Int := none
  rollbackTo : Option Int := none
  conds : List C := []
  failed : List Failed := []
  replicas : Int := 0
  updated : Int := 0
  ready : Int := 0
  available : Int := 0
  unavailable : Int := 0
  collisions : Option Int := none
deriving Repr, DecidableEq

/-- A series of a machine deployment, pkg/controller/metrics.go:184-288 -/
def MDep.key (d : MDep) (metric : String) : Key := ⟨metric, who d.name d.ns⟩

/-- `IntOrString.IntValue` (k8s.io/apimachinery/pkg/util/intstr): the number, or the string read as a number, 0 if it is none; used at pkg/controller/metrics.go:258-261 -/
def intValue : Rolling.IntOrStr → Int
  | .int n => n
  | .str s => (atoi s).getD 0

/-- The strategy block of `updateMachineDeploymentSpecRelatedMetrics`, metrics.go:267-274; `none` = nil dereference -/
def MDep.rollingWrites (d : MDep) : Option (List (Key × Int)) :=
  if d.strategy = "RollingUpdate" then
    match d.rolling with
    | some (some s, some u) =>
      some [(d.key "machine_deployment_info_spec_rolling_update_max_surge", intValue s), (d.key "machine_deployment_info_spec_rolling_update_max_unavailable", intValue u)]
    | _ => none
  else some []

/-- A metric of an optional field: set only if the field is present (metrics.go:275-289 and :200-202) -/
def MDep.optional (d : MDep) (metric : String) (v : Option Int) : List (Key × Int) := v.toList.map fun n => (d.key metric, n)

/-- `updateMachineDeploymentInfoMetric`, metrics.go:292-299 -/
def MDep.info (d : MDep) : Key :=
  ⟨"machine_deployment_info", who d.name d.ns ++ [("createdAt", toString d.created), ("spec_strategy_type", d.strategy)]⟩

/-- The writes before and after the strategy block; of pkg/controller/metrics.go:239-278: this one before -/
def MDep.before (d : MDep) : List (Key × Int) :=
  [(d.info, 1), (d.key "machine_deployment_info_spec_paused", if d.paused then 1 else 0), (d.key "machine_deployment_info_spec_replicas", d.spec),
    (d.key "machine_deployment_info_spec_min_ready_seconds", d.minReady)]

/-- The writes after the strategy block, pkg/controller/metrics.go:263-277 -/
def MDep.rest (d : MDep) : List (Key × Int) :=
  d.optional "machine_deployment_info_spec_revision_history_limit" d.history ++ d.optional "machine_deployment_info_spec_progress_deadline_seconds" d.deadline
    ++ d.optional "machine_deployment_info_spec_rollback_to_revision" d.rollbackTo
    ++ condWrites "machine_deployment_status_condition" d.name d.ns d.conds
    ++ d.failed.map (fun f => (failedKey "machine_deployment_failed_machines" d.name d.ns f, 1))
    ++ [(d.key "machine_deployment_status_available_replicas", d.available), (d.key "machine_deployment_status_unavailable_replicas", d.unavailable),
        (d.key "machine_deployment_status_ready_replicas", d.ready), (d.key "machine_deployment_status_updated_replicas", d.updated), (d.key "machine_deployment_status_replicas", d.replicas)]
    ++ d.optional "machine_deployment_status_collision_count" d.collisions

/-- The loop body of `CollectMachineDeploymentMetrics`, metrics.go:64-73 with :190-299 -/
def MDep.writes (d : MDep) : Option (List (Key × Int)) := d.rollingWrites.map fun r => d.before ++ r ++ d.rest

/-- All deployments in turn; the first nil dereference ends the process; pkg/controller/metrics.go:57-75 -/
def depWrites : List MDep → Option (List (Key × Int))
  | [] => some []
  | d :: ds => d.writes.bind fun w => (depWrites ds).map fun r => w ++ r

/-- `Collect`, metrics.go:44-48, sets first, then deployments: the new store and the numbers of sets and deployments reported;
`none` = the process dies. -/
def scrape (s : Store) (sets : List MSet) (deps : List MDep) : Option (Store × Nat × Nat) :=
  (depWrites deps).map fun w => ((s.apply (sets.flatMap MSet.writes)).apply w, sets.length, deps.length)

/-! ### The counter of stale machines -/

/-- What happens around `staleMachinesRemovedCounter`, metrics.go:19-37 (both operations under one mutex) -/
inductive Ev
  /-- `prepareMachineForDeletion` of a machine, machineset.go:664-694: already marked in the cache; the API call accepted; phase Failed; last
  operation a health check -/
  | delete (name : String) (marked accepted failed healthCheck : Bool)
  /-- `CollectMachineMetrics`, metrics.go:51-53 -/
  | scrape
deriving Repr, DecidableEq

/-- `value` of the counter and the total shown by `StaleMachineCount`; pkg/controller/metrics.go:19-37, 53 -/
structure Stale where
  pending : Nat := 0
  shown : Nat := 0
deriving Repr, DecidableEq

/-- Counting at machineset.go:687-690, shown and reset at pkg/controller/metrics.go:30-37, 53 -/
def Stale.step (s : Stale) : Ev → Stale
  | .delete _ marked accepted failed health =>
    if marked then s else if accepted && failed && health then { s with pending := s.pending + 1 } else s
  | .scrape => { pending := 0, shown := s.shown + s.pending }

end MCM.Metrics
