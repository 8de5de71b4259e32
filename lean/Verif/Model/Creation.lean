import Verif.Model.Similar
import Verif.Model.Codes
/-!
Model of the creation of a machine: `reconcileClusterMachineKey`, `reconcileClusterMachine`, `triggerCreationFlow`, `updateLabels`
and `initializeMachine` in /repo/pkg/util/provider/machinecontroller/machine.go:136-238, 446-697, `ValidateMachineClass`,
`addMachineFinalizers`, `machineCreateErrorHandler` and `getCreateFailurePhase` in machine_util.go.
Health checks and node syncs (machine.go:209-225) are here only the question whether they return an error.
-/
namespace MCM.Creation
open MCM MCM.Similar MCM.Codes

/-- A Machine object, as far as its creation uses it.
Fields of pkg/apis/machine/v1alpha1/machine_types.go:36-109 used in machine.go:171-238, 446-697. -/
structure Obj where
  name : String := "m"
  /-- the finalizer `machine.sapcloud.io/machine-controller-manager` is present -/
  finalizer : Bool := false
  deleting : Bool := false
  /-- label `node` -/
  node : Option String := none
  /-- annotation `machinepriority.machine.sapcloud.io` -/
  prio : Option String := none
  /-- `Spec.ProviderID` -/
  pid : String := ""
  /-- `CreationTimestamp` -/
  created : Int := 0
  /-- `getEffectiveCreationTimeout`, machine_util.go:1465-1473 -/
  creationTimeout : Int := 20 * 60 * 1000000000
  st : MStatus := {}
deriving Repr, DecidableEq

/-- Answer to `driver.GetMachineStatus`: node name and provider id, or an error text with the response (if not nil); machine.go:468-470 -/
inductive StatusAns
  | ok (node pid : String)
  | err (text : String) (resp : Option (String × String))
deriving Repr, DecidableEq

/-- Answer to `driver.CreateMachine`: node name and provider id, or an error text with the response's last known state; machine.go:495-500 -/
inductive CreateAns
  | ok (node pid : String)
  | err (text : String) (lks : String)
deriving Repr, DecidableEq

/-- The outside world during one reconcile;
(machine.go:171-238, 446-697): answers of the driver, of the API server and of parts not modelled here -/
structure Env where
  now : Int := 0
  /-- `safetyOptions.MachineControllerFrozen` -/
  frozen : Bool := false
  /-- conversion and `ValidateMachine` succeed, machine.go:183-194 -/
  valid : Bool := true
  /-- the class is found and its secrets can be read, machine_util.go:83-100 -/
  classFound : Bool := true
  /-- the class carries the finalizer, machine_util.go:102 -/
  classFinalizer : Bool := true
  /-- `validateNodeTemplate` -/
  templateOk : Bool := true
  /-- health check and node syncs return an error (with this retry period), machine.go:211-224 -/
  health : Option Nat := none
  /-- user data and bootstrap token, machine.go:459-464 -/
  userData : Bool := true
  status : StatusAns := .err "" none
  create : CreateAns := .err "" ""
  /-- names of the nodes in the node lister -/
  nodes : List String := []
  /-- `driver.DeleteMachine` for a VM using a stale node: error text -/
  delStale : Option String := none
  /-- answer to the update of `updateLabels` -/
  labelRes : ApiRes := .ok
  /-- answer to `driver.InitializeMachine`: error text -/
  init : Option String := none
  /-- answer to the status update -/
  statusRes : ApiRes := .ok
  /-- answer to the update adding the finalizer -/
  finRes : ApiRes := .ok

/-- Calls to the provider, in the order made; the object is the one in the request;
machine.go:468 (status), 495 (create), 526 (delete of a VM with a stale node), 662 (initialize) -/
inductive Event
  | getStatus (ans : StatusAns)
  | create (req : Obj) (ans : CreateAns)
  | delete (pid : String) (err : Option String)
  | init (req : Obj) (err : Option String)
deriving Repr, DecidableEq

/-- Result of a reconcile: provider calls; the object as last written by it (`none`: no write accepted); retry period; error;
panic; machine.go:171-238 -/
structure Out where
  events : List Event := []
  wrote : Option Obj := none
  retry : Nat := 0
  err : Bool := true
  panic : Bool := false
deriving Repr, DecidableEq

/-- `getCreateFailurePhase`, machine_util.go:601-614 -/
def failurePhase (e : Env) (v : Obj) : Phase :=
  if e.now - v.creationTimeout - v.created > 0 then .failed else .crashLoopBackOff

/-- `machineStatusUpdate` as last call: result after the status update, then `retry`/`err` unless the update failed; machine_util.go:545-576 -/
def withStatus (e : Env) (v : Obj) (new : MStatus) (retry : Nat) (err : Bool) (events : List Event) (before : Option Obj) : Out :=
  match statusUpdate e.now e.statusRes v.st new with
  | (st, r, true) => { events := events, wrote := (st.map fun s => { v with st := s }).or before, retry := r, err := true }
  | (st, _, false) => { events := events, wrote := (st.map fun s => { v with st := s }).or before, retry := retry, err := err }

/-- `machineCreateErrorHandler`, machine_util.go:503-543 -/
def createError (e : Env) (v : Obj) (text lks : String) (events : List Event) : Out :=
  let short := match fromError text with
    | some (.unknown, _) | some (.deadlineExceeded, _) | some (.aborted, _) | some (.unavailable, _) => true
    | _ => false
  let code := match fromError text with | some (c, _) => c.str | none => Code.str .unknown
  withStatus e v
    { desc := "Cloud provider message - " ++ text, errorCode := code, state := "Failed", opType := "Create", opTime := e.now,
      phase := failurePhase e v, timeoutActive := false, phaseTime := e.now,
      lastKnownState := if lks ≠ "" then lks else if short then v.st.lastKnownState else "" }
    (if short then shortRetry else mediumRetry) true events none

/-- the update in `updateLabels`, machine.go:625-653 -/
def labelled (v : Obj) (node pid : String) : Obj :=
  { v with node := some node, prio := if v.prio.getD "" = "" then some "3" else v.prio, pid := pid }

/-- whether `updateLabels` makes an update, machine.go:629 -/
def needsLabels (v : Obj) : Bool := v.node.isNone || v.prio.isNone || v.pid == ""

/-- `initializeMachine`, machine.go:655-697, on the object `c`; `wrote` is what was written before -/
def initVM (e : Env) (c : Obj) (events : List Event) (wrote : Option Obj) : Out :=
  let events := events ++ [.init c e.init]
  match e.init with
  | none => { events := events, wrote := wrote, retry := shortRetry }
  | some text =>
    match fromError text with
    | none => { events := events, wrote := wrote, retry := longRetry }
    | some (code, _) =>
      if code = .unimplemented then { events := events, wrote := wrote, retry := shortRetry }
      else withStatus e c
        { desc := "Provider error: " ++ text ++ ". Initialize VM Instance", errorCode := code.str, state := "Failed",
          opType := "Create", opTime := e.now, phase := failurePhase e c, timeoutActive := false, phaseTime := e.now,
          lastKnownState := c.st.lastKnownState }
        shortRetry true events wrote

/-- the status written at the end of the creation, machine.go:599-621 -/
def pendingStatus (e : Env) (v : Obj) : MStatus :=
  { desc := "Creating machine on cloud provider", errorCode := "", state := "Processing", opType := "Create", opTime := e.now,
    phase := .pending, timeoutActive := true, phaseTime := e.now, lastKnownState := v.st.lastKnownState }

/-- `triggerCreationFlow` after the VM is known, machine.go:582-622 -/
def record (e : Env) (v : Obj) (node pid : String) (uninit : Bool) (events : List Event) : Out :=
  let wrote := if needsLabels v && e.labelRes == .ok then some (labelled v node pid) else none
  if uninit then initVM e (wrote.getD v) events wrote
  else if needsLabels v then { events := events, wrote := wrote, retry := shortRetry }
  else if v.st.phase = .empty ∨ v.st.phase = .crashLoopBackOff then
    { events := events, wrote := if e.statusRes = .ok then some { v with st := pendingStatus e v } else none, retry := shortRetry }
  else { events := events, retry := longRetry, err := false }

/-- the status of a machine whose VM uses a stale node, machine.go:535-549 -/
def staleStatus (e : Env) (v : Obj) : MStatus :=
  { desc := "VM using old node obj", errorCode := "", state := "Failed", opType := "Create", opTime := e.now,
    phase := .failed, timeoutActive := false, phaseTime := e.now, lastKnownState := v.st.lastKnownState }

/-- creation of a VM, machine.go:491-558 -/
def createStep (e : Env) (v : Obj) : Out :=
  let events := [.getStatus e.status, .create v e.create]
  match e.create with
  | .err text lks => createError e v text lks events
  | .ok node pid =>
    if node ∈ e.nodes ∧ node ≠ v.name then
      withStatus e v (staleStatus e v) shortRetry e.delStale.isSome (events ++ [.delete pid e.delStale]) none
    else record e v node pid true events

/-- `triggerCreationFlow`, machine.go:446-623 -/
def creation (e : Env) (v : Obj) : Out :=
  if !e.userData then { retry := shortRetry }
  else
    let events := [.getStatus e.status]
    match e.status with
    | .ok node pid => record e v node pid false events
    | .err text resp =>
      match fromError text with
      | none => { events := events, retry := mediumRetry }
      | some (code, _) =>
        match code with
        | .notFound | .unimplemented =>
          match v.node with
          | none => createStep e v
          | some n => record e v n "" false events
        | .uninitialized =>
          match resp with
          | none => { events := events, panic := true }
          | some (node, pid) => record e v node pid true events
        | _ => createError e v text "" events

/-- `reconcileClusterMachine`, machine.go:171-238, called from `reconcileClusterMachineKey`, machine.go:136-169 -/
def reconcile (e : Env) (v : Obj) : Out :=
  if v.deleting then { err := false }
  else if e.frozen || !e.valid || !e.classFound then { retry := longRetry }
  else if !e.classFinalizer || !e.templateOk then { retry := shortRetry }
  else if !v.finalizer then
    { wrote := if e.finRes = .ok then some { v with finalizer := true } else none, retry := shortRetry }
  else if v.node.getD "" ≠ "" ∧ v.st.phase ≠ .empty ∧ e.health.isSome then { retry := e.health.getD 0 }
  else if v.pid = "" ∨ v.st.phase = .empty ∨ v.st.phase = .crashLoopBackOff then creation e v
  else { retry := longRetry, err := false }

/-! ### All interleavings with one provider -/

/-- A VM at the provider that belongs to the machine's name; behind the driver's answers, machine.go:468-500 -/
structure VM where
  node : String
  pid : String
deriving Repr, DecidableEq

/-- The VMs of the name, all versions of the object stored so far, and the creation reconcile that has asked for the status
and is about to send its `CreateMachine` (at most one: the work queue hands a key to one worker at a time).
Reconciles: machine.go:136-238, 446-697. -/
structure World where
  vms : List VM := []
  hist : List Obj := []
  busy : Option (Env × Obj) := none

/-- the reconcile gets to `CreateMachine`; machine.go:495 -/
def creates (e : Env) (v : Obj) : Bool := (reconcile e v).events.any fun | .create .. => true | _ => false

/-- One step, with a predicate for the provider's answers to `GetMachineStatus` given the VMs that exist at that moment.
Reconciles: machine.go:136-238, 446-697; the rest is the environment. -/
inductive Step (Answer : List VM → StatusAns → Prop) : World → World → Prop
  /-- a reconcile of any stored version that does not create a VM; its writes are `other` steps -/
  | query {w : World} (e : Env) (v : Obj) : w.busy = none → v ∈ w.hist → Answer w.vms e.status → creates e v = false → Step Answer w w
  /-- a reconcile of any stored version gets the answer that makes it create a VM -/
  | missing {w : World} (e : Env) (v : Obj) : w.busy = none → v ∈ w.hist → Answer w.vms e.status → creates e v = true →
      Step Answer w { w with busy := some (e, v) }
  /-- `CreateMachine` succeeds -/
  | created {w : World} (e : Env) (v : Obj) (vm : VM) : w.busy = some (e, v) → Step Answer w { w with vms := vm :: w.vms, busy := none }
  /-- `CreateMachine` fails, or the controller crashes, with or without a VM having been created -/
  | failed {w : World} (e : Env) (v : Obj) (vm : Option VM) : w.busy = some (e, v) →
      Step Answer w { w with vms := vm.toList ++ w.vms, busy := none }
  /-- VMs disappear: deleted by the termination, by the clean-up after a stale node, by the orphan collection or from outside -/
  | vanish {w : World} (vms : List VM) : vms.Sublist w.vms → Step Answer w { w with vms := vms }
  /-- any write to the object by anyone -/
  | other {w : World} (o : Obj) : Step Answer w { w with hist := w.hist ++ [o] }

/-- Any number of steps of machine.go:136-238 and the environment -/
inductive Reach (Answer : List VM → StatusAns → Prop) (w0 : World) : World → Prop
  | refl : Reach Answer w0 w0
  | step {w w' : World} : Reach Answer w0 w → Step Answer w w' → Reach Answer w0 w'

/-! ### Creation and termination together -/

/-- The VMs of a name, the stored object (`none`: gone) and all its versions, the creation reconcile about to send its
`CreateMachine`, and whether the termination has seen its `DeleteMachine` confirmed. The termination is reduced to what
`C22_finalizer_outlives_vm` says about it. Creation: machine.go:446-697; termination: machine.go:699-761. -/
structure Life where
  vms : List VM := []
  obj : Option Obj := none
  hist : List Obj := []
  busy : Option (Env × Obj) := none
  confirmed : Bool := false

/-- One step; `G` restricts when the creation worker may act (`True` in the code: the two queues do not know of each other,
machine.go:136-169 and 240-290). -/
inductive LStep (G : Life → Prop) : Life → Life → Prop
  /-- a creation reconcile of any stored version gets to its `CreateMachine` -/
  | missing {w : Life} (e : Env) (v : Obj) : G w → w.busy = none → v ∈ w.hist → creates e v = true →
      (∀ text resp m, e.status = .err text resp → fromError text = some (.notFound, m) → w.vms = []) →
      LStep G w { w with busy := some (e, v) }
  /-- the `CreateMachine` call ends, with or without a VM -/
  | created {w : Life} (e : Env) (v : Obj) (vm : Option VM) : G w → w.busy = some (e, v) →
      LStep G w { w with vms := vm.toList ++ w.vms, busy := none }
  /-- a write to the object -/
  | write {w : Life} (o o' : Obj) : w.obj = some o → o'.deleting = o.deleting → LStep G w { w with obj := some o', hist := w.hist ++ [o'] }
  /-- the deletion of the object is requested -/
  | delete {w : Life} (o : Obj) : w.obj = some o →
      LStep G w { w with obj := some { o with deleting := true }, hist := w.hist ++ [{ o with deleting := true }] }
  /-- the termination's `DeleteMachine` is answered with success or NotFound: no VM is left -/
  | confirm {w : Life} (o : Obj) : w.obj = some o → o.deleting = true → LStep G w { w with vms := [], confirmed := true }
  /-- the finalizer is removed and the object with it -/
  | remove {w : Life} (o : Obj) : w.obj = some o → w.confirmed = true → LStep G w { w with obj := none }

/-- Any number of steps in the life of a machine, machine.go:136-299 -/
inductive LReach (G : Life → Prop) (w0 : Life) : Life → Prop
  | refl : LReach G w0 w0
  | step {w w' : Life} : LReach G w0 w → LStep G w w' → LReach G w0 w'

/-! ### Undisturbed reconciles -/

/-- One reconcile of the current object by a truthful provider that creates the VM `vm` when asked, all writes accepted.
machine.go:171-238, 446-697. -/
def run (e : Env) (vm : VM) (s : List VM × Obj) : List VM × Obj :=
  let e := { e with
    status := match s.1 with
      | x :: _ => .ok x.node x.pid
      | [] => .err (render .notFound "no such VM") none
    create := .ok vm.node vm.pid }
  let out := reconcile e s.2
  (if creates e s.2 then vm :: s.1 else s.1, out.wrote.getD s.2)

end MCM.Creation
