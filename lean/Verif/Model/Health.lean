import Verif.Model.Conditions
/-!
Model of health checks: /repo/pkg/util/provider/machinecontroller/machine_util.go:618-806 (`reconcileMachineHealth`), 871-911, 1450-1484,
1525-1628, 1640-1669, 1707-1709 and machine.go:209-214.
-/
namespace MCM.Health
open MCM.Conditions

/-- The phases told apart in machine_util.go:618-806 (machine_types.go:130-163) -/
inductive Phase
  | none | pending | running | unknown | failed | terminating | crashLoop
deriving DecidableEq, Repr

/-- The parts of a machine read here. `created`: the last operation is a creation that was not successful yet.
Timeouts and conditions are the effective ones, machine_util.go:1454-1484. -/
structure Machine where
  phase : Phase
  /-- `CurrentStatus.LastUpdateTime` -/
  since : Int
  conds : List Cond
  creating : Bool := false
  creationTimeout : Int
  healthTimeout : Int
  /-- the node conditions that make a machine unhealthy, `strings.Split(…, ",")` -/
  bad : List String
deriving DecidableEq, Repr

/-- The parts of a Node read in machine_util.go:618-806 and 871-911 -/
structure Node where
  conds : List Cond
  /-- the taint node.gardener.cloud/critical-components-not-ready is present -/
  critical : Bool := false
deriving DecidableEq, Repr

/-- Answer of the node lister, machine_util.go:627-640 -/
inductive NodeLookup
  | found (n : Node) | notFound | error
deriving DecidableEq, Repr

/-- `isHealthy`, machine_util.go:871-894 -/
def isHealthy (bad : List String) (conds : List Cond) : Bool :=
  if conds.length = 0 then false
  else conds.all fun c => !(c.type == "Ready" && c.status != "True") && bad.all fun b => !(c.type == b && c.status != "False")

/-- What a check does. `status`: the status is written, with these conditions and, if given, this phase from now on. `tryFail`:
`tryMarkingMachineFailed` is called. `recheck`: the machine is put into the queue again after a minute. machine_util.go:618-806 -/
inductive Outcome
  | error | nothing | recheck | tryFail
  | status (phase : Option Phase) (conds : List Cond) (deleteToken : Bool)
deriving DecidableEq, Repr

/-- machine_util.go:732-784, the part for pending and unknown machines when nothing has changed -/
def timeouts (now : Int) (m : Machine) : Outcome :=
  if m.phase = .pending then
    if now - m.creationTimeout - m.since > 0 then .status (some .failed) m.conds false else .recheck
  else if m.phase = .unknown then
    if now - m.healthTimeout - m.since > 0 then .tryFail else .recheck
  else .nothing

/-- the conditions of the clone, machine_util.go:658-665 -/
def seen (m : Machine) (n : Node) : List Cond := if haveChanged m.conds n.conds then n.conds else m.conds

/-- `reconcileMachineHealth`, machine_util.go:618-806 -/
def check (now : Int) (m : Machine) : NodeLookup → Outcome
  | .error => .error
  | .notFound =>
    if 0 < m.conds.length ∧ m.phase = .running then .status (some .unknown) m.conds false
    else timeouts now m
  | .found n =>
    if isHealthy m.bad (seen m n) then
      if m.phase ≠ .running ∧ ¬ (m.phase = .pending ∧ n.critical = true) then .status (some .running) (seen m n) m.creating
      else if haveChanged m.conds n.conds then .status none (seen m n) false
      else timeouts now m
    else if m.phase = .running then .status (some .unknown) (seen m n) false
    else if haveChanged m.conds n.conds then .status none (seen m n) false
    else timeouts now m

/-- the machine after a check whose request succeeds; `mark`: `tryMarkingMachineFailed` succeeds; machine_util.go:787-803 -/
def Machine.after (m : Machine) (now : Int) (mark : Bool) : Outcome → Machine
  | .status (some p) conds tok => { m with phase := p, since := now, conds := conds, creating := m.creating && !tok }
  | .status none conds _ => { m with conds := conds }
  | .tryFail => if mark then { m with phase := .failed, since := now } else m
  | _ => m

/-! ### one replacement at a time -/

/-- A machine as seen by `canMarkMachineFailed`: stored and cached phase, the label `name`; `marked`: failed by a health check and not yet
gone (not part of the program). machine_util.go:1554-1602 -/
structure Mach where
  name : String
  deploy : Option String
  phase : Phase
  cached : Phase
  marked : Bool := false
deriving DecidableEq, Repr

/-- what one machine adds to `inProgress`, machine_util.go:1574-1592 -/
def weight : Phase → Nat
  | .running => 0
  | .unknown => 0
  | .terminating => 2
  | _ => 1

/-- `canMarkMachineFailed`, machine_util.go:1554-1602 with `maxReplacements` = 1 (line 69): machines selected by the label `name`; a missing
label is read as "" by `getMachineDeploymentName` (1707-1709) but matches no selector -/
def canMark (ms : List Mach) (deploy : Option String) : Bool :=
  ((ms.filter fun m => m.deploy = some (deploy.getD "")).map fun m => weight m.cached).sum < 1

/-- The machines of a cluster, and what happens to them. Marking is one step, because the permit of the deployment is held from the test to
the end of the wait for the cache (machine_util.go:1640-1669, `waitForFailedMachineCacheUpdate` 1604-1628); `synced` says that the wait
ended with the cache showing the new phase. -/
inductive Step (allSynced : Bool) : List Mach → List Mach → Prop
  | mark {l r : List Mach} (m : Mach) (synced : Bool) : m.cached = .unknown → m.phase = .unknown → canMark (l ++ m :: r) m.deploy = true → (allSynced = true → synced = true) →
      Step allSynced (l ++ m :: r) (l ++ { m with phase := .failed, marked := true, cached := if synced then .failed else m.cached } :: r)
  /-- the deletion of a failed machine begins -/
  | terminate {l r : List Mach} (m : Mach) : Step allSynced (l ++ m :: r) (l ++ { m with phase := .terminating } :: r)
  /-- other changes of the phase, of machines not marked -/
  | other {l r : List Mach} (m : Mach) (p : Phase) : m.marked = false → Step allSynced (l ++ m :: r) (l ++ { m with phase := p } :: r)
  /-- a marked machine becomes healthy again -/
  | revive {l r : List Mach} (m : Mach) : Step allSynced (l ++ m :: r) (l ++ { m with phase := .running, marked := false } :: r)
  /-- the watch delivers -/
  | watch {l r : List Mach} (m : Mach) : Step allSynced (l ++ m :: r) (l ++ { m with cached := m.phase } :: r)
  /-- a machine is gone, also from the cache -/
  | gone {l r : List Mach} (m : Mach) : Step allSynced (l ++ m :: r) (l ++ r)
  /-- a new machine -/
  | new {l : List Mach} (name : String) (deploy : Option String) (p : Phase) : Step allSynced l ({ name, deploy, phase := p, cached := p } :: l)

/-- The states reachable by the steps of machine_util.go:1554-1669 -/
inductive Reach (allSynced : Bool) : List Mach → Prop
  | start : Reach allSynced []
  | step {l l' : List Mach} : Reach allSynced l → Step allSynced l l' → Reach allSynced l'

end MCM.Health
