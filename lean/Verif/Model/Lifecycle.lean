import Verif.Model.Creation
import Verif.Model.Health
import Verif.Model.Termination
/-!
All writers of `Machine.Status.CurrentStatus.Phase` together: whole runs of the machine controller
(/repo/pkg/util/provider/machinecontroller/machine.go:171-238), runs of the termination (machine.go:240-292, 699-761), the machine set
controller's `prepareMachineForDeletion` (/repo/pkg/controller/machineset.go:666-711, 796-821), and the safety controller
(machine_safety.go:64-103).

Every write carries a version and is accepted only if that version is the stored one; so only runs that start from the stored
object change it. The label update inside a run of the machine controller (machine.go:625-653) leaves the status alone; if a status
update follows it, the two appear as one version.
-/
namespace MCM.Lifecycle
open MCM MCM.Similar

/-- A Machine object. machine_types.go:36-128. -/
structure Obj extends Creation.Obj where
  /-- `Status.Conditions` -/
  conds : List Conditions.Cond := []
  /-- `getEffectiveHealthTimeout`, machine_util.go:1454-1462 -/
  healthTimeout : Int := 10 * 60 * 1000000000
  /-- `getEffectiveNodeConditions`, machine_util.go:1476-1484 -/
  bad : List String := []

/-- the phases that the health check distinguishes; it treats all others alike; machine_util.go:618-806 -/
def healthPhase : Phase → Health.Phase
  | .pending => .pending
  | .running => .running
  | .unknown => .unknown
  | .failed => .failed
  | .terminating => .terminating
  | .crashLoopBackOff => .crashLoop
  | _ => .none

/-- the phase a health check writes; machine_util.go:643-780 -/
def ofHealth : Health.Phase → Phase
  | .pending => .pending
  | .running => .running
  | .unknown => .unknown
  | .failed => .failed
  | .terminating => .terminating
  | .crashLoop => .crashLoopBackOff
  | .none => .empty

/-- the machine as the health check sees it; machine_util.go:618-806 -/
def asHealth (v : Obj) : Health.Machine :=
  { phase := healthPhase v.st.phase
    since := v.st.phaseTime
    conds := v.conds
    creating := v.st.opType = "Create" && v.st.state ≠ "Successful"
    creationTimeout := v.creationTimeout
    healthTimeout := v.healthTimeout
    bad := v.bad }

/-- The outside world during a run of the machine controller; `c.health` is not used here. machine.go:171-238. -/
structure Env where
  c : Creation.Env
  node : Health.NodeLookup := .notFound
  /-- answer to the status update of the health check, machine_util.go:787 -/
  healthRes : ApiRes := .ok
  /-- `tryMarkingMachineFailed` gets the permit, finds the machine markable and its update is accepted, machine_util.go:1640-1669 -/
  mark : Bool := false
  /-- `syncMachineNameToNode` or `syncMachineNodeTemplates` return an error, machine.go:216-224 -/
  sync : Bool := false

/-- the run gets past the finalizer, machine.go:175-207 -/
def gate (e : Env) (v : Obj) : Bool :=
  !v.deleting && !e.c.frozen && e.c.valid && e.c.classFound && e.c.classFinalizer && e.c.templateOk && v.finalizer

/-- the rest of the run, machine.go:226-237, and runs that stop at or before the finalizer -/
def rest (e : Env) (v : Obj) : Option Obj :=
  (Creation.reconcile { e.c with health := none } v.toObj).wrote.map fun o => { v with toObj := o }

/-- the operation recorded when a health check writes a phase, machine_util.go:640-784 -/
def opAfter (v : Obj) (p : Phase) : String × String :=
  match p with
  | .running => (if v.st.opType = "Create" && v.st.state ≠ "Successful" then "Create" else "HealthCheck", "Successful")
  | .unknown => ("HealthCheck", "Processing")
  | _ => (v.st.opType, "Failed")

/-- the object written by the health check; descriptions are left out; machine_util.go:643-803 -/
def healthWrite (e : Env) (v : Obj) (p : Option Health.Phase) (conds : List Conditions.Cond) : Obj :=
  match p with
  | none => { v with conds := conds }
  | some p => { v with
      conds := conds
      st := { v.st with
        desc := "", errorCode := "", state := (opAfter v (ofHealth p)).2, opType := (opAfter v (ofHealth p)).1, opTime := e.c.now
        phase := ofHealth p, timeoutActive := false, phaseTime := e.c.now } }

/-- `reconcileClusterMachine`, machine.go:171-238: the object stored by the run, if any. A health check that writes ends the run
with an error, whether the write is accepted (`errSuccessfulPhaseUpdate`, machine_util.go:795) or not; after a machine was marked failed the run
goes on with the old version, whose updates are all refused. -/
def run (e : Env) (v : Obj) : Option Obj :=
  if gate e v = true ∧ v.node.getD "" ≠ "" ∧ v.st.phase ≠ .empty then
    match Health.check e.c.now (asHealth v) e.node with
    | .error => none
    | .status p conds _ => if e.healthRes = .ok then some (healthWrite e v p conds) else none
    | .tryFail => if e.mark then some (healthWrite e v (some .failed) v.conds) else none
    | .recheck => if e.sync then none else rest e v
    | .nothing => if e.sync then none else rest e v
  else rest e v

/-- What may happen besides ordinary runs. (besides machine.go:171-292 and machineset.go:665-711) -/
structure Opts where
  /-- other writers change labels, annotations and the provider id -/
  edits : Bool := false
  /-- requests to delete a machine may fail -/
  deleteFails : Bool := false
  /-- the name is in the queue of the termination because of an earlier machine of this name (machine.go:240-258 does not look at the
  deletion timestamp) -/
  reused : Bool := false
  /-- the safety controller's cache may show a machine unknown that no longer is -/
  resets : Bool := false
  /-- the provider may give empty names and ids -/
  improper : Bool := false

/-- node names and provider ids given by the provider are not empty; answers to the calls at machine.go:468 and 495 -/
def Proper (e : Creation.Env) : Prop :=
  (∀ n p, e.status = .ok n p → n ≠ "" ∧ p ≠ "") ∧ (∀ t n p, e.status = .err t (some (n, p)) → n ≠ "" ∧ p ≠ "") ∧
  (∀ n p, e.create = .ok n p → n ≠ "" ∧ p ≠ "")

/-- One accepted write; the versions of the object are listed newest first.
machine.go:171-292, machineset.go:665-711, machine_safety.go:64-103. -/
inductive Step (opts : Opts) : List Obj → List Obj → Prop
  /-- a run of the machine controller -/
  | machine {cur new : Obj} {old : List Obj} (e : Env) : run e cur = some new → (opts.improper = false → Proper e.c) →
      Step opts (cur :: old) (new :: cur :: old)
  /-- a run of the termination; `t` is the same object as the termination's model sees it -/
  | terminate {cur : Obj} {old : List Obj} (e : Termination.Env) (t t' : Termination.Obj) (wr : Termination.Write) :
      cur.deleting = true ∨ opts.reused = true → t.st = cur.st → t.finalizer = cur.finalizer → t.deleting.isSome = cur.deleting →
      (Termination.flow e t).write = some wr → Termination.applyWrite e t wr = some t' →
      Step opts (cur :: old) ({ cur with st := t'.st, finalizer := t'.finalizer } :: cur :: old)
  /-- the label update of the termination, machine_util.go:946-955 -/
  | termLabel {cur : Obj} {old : List Obj} (n : String) : cur.deleting = true ∨ opts.reused = true → cur.st.phase = .terminating →
      Step opts (cur :: old) ({ cur with node := some n } :: cur :: old)
  /-- somebody, e.g. the machine set controller, asks for the deletion -/
  | delete {cur : Obj} {old : List Obj} : Step opts (cur :: old) ({ cur with deleting := true } :: cur :: old)
  /-- the machine set controller writes its status after asking for the deletion, machineset.go:695-711: it reads the stored object and repeats
  the update until it is accepted. It does so also if the request failed, machineset.go:680-693. -/
  | announce {cur : Obj} {old : List Obj} (now : Int) : cur.deleting = true ∨ opts.deleteFails = true →
      Step opts (cur :: old) ({ cur with st := { cur.st with
        desc := "Deleting machine from cloud provider", errorCode := "", state := "Processing", opType := "Delete", opTime := now
        phase := .terminating, timeoutActive := false, phaseTime := now } } :: cur :: old)
  /-- the safety controller resets a machine that its cache shows unknown, machine_safety.go:72-96: it reads the stored object -/
  | reset {cur : Obj} {old : List Obj} (v : Obj) (now : Int) : v ∈ cur :: old → v.st.phase = .unknown →
      opts.resets = true ∨ cur.st.phase = .unknown →
      Step opts (cur :: old) ({ cur with st := { cur.st with
        desc := "Machine Health Timeout was reset due to APIServer being unreachable", errorCode := "", state := "Successful",
        opType := "HealthCheck", opTime := now, phase := .running, timeoutActive := false, phaseTime := now } } :: cur :: old)
  /-- other writers leave the status alone -/
  | edit {cur new : Obj} {old : List Obj} : new.st = cur.st → new.deleting = cur.deleting → new.created = cur.created →
      (opts.edits = false → new.node = cur.node ∧ new.pid = cur.pid ∧ new.prio = cur.prio) →
      Step opts (cur :: old) (new :: cur :: old)

/-- A machine as it is created: no status, no node, no VM. controller_utils.go:535-567. -/
def New (o : Obj) : Prop := o.st = {} ∧ o.conds = [] ∧ o.node = none ∧ o.pid = "" ∧ o.deleting = false

/-- the histories of a machine; under machine.go:171-292, machineset.go:665-711 and machine_safety.go:64-103 -/
inductive Hist (opts : Opts) : List Obj → Prop
  | new {o : Obj} : New o → Hist opts [o]
  | step {h h' : List Obj} : Hist opts h → Step opts h h' → Hist opts h'

/-! ### Undisturbed runs -/

/-- the run ends with the health check or the node syncs; machine.go:209-225 -/
def ends (e : Env) (v : Obj) : Bool :=
  decide (gate e v = true ∧ v.node.getD "" ≠ "" ∧ v.st.phase ≠ .empty) &&
  match Health.check e.c.now (asHealth v) e.node with
  | .recheck => e.sync
  | .nothing => e.sync
  | _ => true

/-- the run asks the provider for a new VM; machine.go:495 -/
def asks (e : Env) (v : Obj) : Bool := !ends e v && Creation.creates { e.c with health := none } v.toObj

/-- the outside world with a truthful provider that has the VMs `vms` and creates `vm` when asked; answers at machine.go:468 and 495 -/
def truthful (e : Env) (vm : Creation.VM) (vms : List Creation.VM) : Env :=
  { e with c := { e.c with
      status := match vms with
        | x :: _ => .ok x.node x.pid
        | [] => .err (Codes.render .notFound "no such VM") none
      create := .ok vm.node vm.pid } }

/-- One run of the machine controller with a truthful provider. machine.go:171-238. -/
def live (e : Env) (vm : Creation.VM) (s : List Creation.VM × Obj) : List Creation.VM × Obj :=
  (if asks (truthful e vm s.1) s.2 then vm :: s.1 else s.1, (run (truthful e vm s.1) s.2).getD s.2)

end MCM.Lifecycle
