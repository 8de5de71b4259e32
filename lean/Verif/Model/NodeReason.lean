import Verif.Model.Conditions
import Verif.Model.Termination
/-!
Model of the termination condition on the node: `UpdateNodeTerminationCondition` and `setTerminationReasonByPhase`,
/repo/pkg/util/provider/machinecontroller/machine_util.go:1486-1523 and 1630-1638, `AddOrUpdateConditionsOnNode` and `UpdateNodeConditions`,
/repo/pkg/util/nodeops/conditions.go:67-110.
-/
namespace MCM.NodeReason
open MCM MCM.Conditions

/-- a version of the node object; (machine_util.go:1500-1520, nodeops/conditions.go:67-110) -/
structure Node where
  version : Nat := 0
  conds : List Cond := []
deriving DecidableEq, Repr

/-- errors of the calls; nodeops/conditions.go:67-110, machine_util.go:1500-1520 -/
inductive Err | notFound | conflict | other
deriving DecidableEq, Repr

/-- The calls of one run. machine_util.go:1486-1523, nodeops/conditions.go:67-110. -/
structure Calls where
  now : Int := 0
  /-- the first read, machine_util.go:1502 -/
  read : Option Err := none
  /-- the second read, with resource version "0": the API server answers from its cache, with the node as it was at some time -/
  cached : Except Err Node
  /-- the write fails for another reason than an old version -/
  write : Option Err := none

/-- `machineutils.NodeTerminationCondition`, machineutils/utils.go:68 -/
def condType : String := "Terminating"

/-- `setTerminationReasonByPhase`, machine_util.go:1630-1638 -/
def reasonOf (phase : Phase) : String × String :=
  if phase = .failed then ("Unhealthy", "Machine Controller is terminating failed machine")
  else ("ScaleDown", "Machine Controller is scaling down machine")

/-- the condition to set, machine_util.go:1494-1516; `getNodeCondition` is conditions.go:50-57 -/
def wanted (now : Int) (phase : Phase) (conds : List Cond) : Cond :=
  let why := match conds.find? (·.type = condType) with
    | some c => if phase = Phase.terminating then (c.reason, c.message) else reasonOf phase
    | none => reasonOf phase
  { type := condType, status := "True", reason := why.1, message := why.2, heartbeat := now, transition := now }

/-- `AddOrUpdateConditionsOnNode`, conditions.go:68-94: the error of the write is formatted with `%v` (:106), so `RetryOnConflict` never
recognises a conflict and there is one attempt. The API server refuses a write based on an old version. -/
def setCond (c : Calls) (store : Option Node) (cond : Cond) : Option Node × Option Err :=
  match c.cached with
  | .error e => (store, some e)
  | .ok seen =>
    match c.write, store with
    | some _, _ => (store, some .other)
    | none, none => (store, some .other)
    | none, some n =>
      if seen.version = n.version then (some { version := n.version + 1, conds := cloneAndAdd seen.conds cond }, none)
      else (store, some .other)

/-- errors for a missing node are dropped, machine_util.go:1504-1507 and 1519-1521 -/
def dropNotFound (r : Option Node × Option Err) : Option Node × Option Err := if r.2 = some .notFound then (r.1, none) else r

/-- `UpdateNodeTerminationCondition`, machine_util.go:1487-1523 -/
def update (c : Calls) (phase : Phase) (store : Option Node) : Option Node × Option Err :=
  if phase = .empty ∨ phase = .crashLoopBackOff then (store, none)
  else match c.read, store with
    | some e, _ => dropNotFound (store, some e)
    | none, none => (store, none)
    | none, some n => dropNotFound (setCond c store (wanted c.now phase n.conds))

end MCM.NodeReason
