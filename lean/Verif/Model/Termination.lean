import Verif.Model.Similar
import Verif.Model.Codes
/-!
Model of the termination of a machine: `reconcileClusterMachineTermination` and `triggerDeletionFlow`,
/repo/pkg/util/provider/machinecontroller/machine.go:240-292, 699-761, and the steps in machine_util.go:902-1429.

The step reached is kept in the text `Status.LastOperation.Description`. Errors of the provider and of the API server are
arbitrary texts. A reconcile works on an object from the cache (any version that was ever stored), makes calls to the outside
(recorded in a trace), and ends with one write that carries the version it started from.
-/
namespace MCM.Termination
open MCM MCM.Similar MCM.Codes

/-- `strings.Contains(s, t)`; machine.go:722-757 -/
def contains : List Char → List Char → Bool
  | [], t => t.isPrefixOf []
  | c :: s, t => t.isPrefixOf (c :: s) || contains s t

/-- the steps of a termination; machine.go:712-757, machineutils/utils.go:18-60 -/
inductive TStep | getVM | drain | vols | vm | node | fin
deriving Repr, DecidableEq

/-- the step texts, machineutils/utils.go:18-39 -/
def TStep.text : TStep → String
  | .getVM => "Set machine status to termination. Now, getting VM Status"
  | .drain => "Initiate node drain"
  | .vols => "Delete Volume Attachments"
  | .vm => "Initiate VM deletion"
  | .node => "Initiate node object deletion"
  | .fin => "Initiate machine object finalizer removal"

/-- the order of the cases in `triggerDeletionFlow`, machine.go:714-748 -/
def allSteps : List TStep := [.getVM, .drain, .vols, .vm, .node, .fin]

/-- the step a description stands for, machine.go:714-748; `none` is the `default` case -/
def decode (desc : String) : Option TStep := allSteps.find? fun s => contains desc.toList s.text.toList

/-- A condition in `machine.Status.Conditions`, as used by `drainNode`: whether it shows a healthy node, and since when.
machine_util.go:1085-1118. -/
structure NCond where
  healthy : Bool
  since : Int
deriving Repr, DecidableEq

/-- A Machine object, as far as its termination uses it. machine_types.go:36-128. -/
structure Obj where
  name : String := "m"
  /-- the finalizer `machine.sapcloud.io/machine-controller-manager` is present -/
  finalizer : Bool := true
  /-- `DeletionTimestamp` -/
  deleting : Option Int := none
  /-- label `node`; "" stands for absent, so that an update of the label from absent to the empty value (after a `GetMachineStatus` that
  answers with an empty name), which changes the stored object once, is not seen by the model -/
  node : String := ""
  /-- label `force-deletion: "True"` -/
  forceLabel : Bool := false
  /-- condition `Ready` (unhealthy: status not True), if present and not empty -/
  ready : Option NCond := none
  /-- condition `ReadonlyFilesystem` (unhealthy: status not False), if present and not empty -/
  readonly : Option NCond := none
  /-- `getEffectiveDrainTimeout` -/
  drainTimeout : Int := 0
  st : MStatus := {}
deriving Repr, DecidableEq

/-- Answer to `driver.DeleteMachine`: `LastKnownState` of the response ("" also for a nil response) and the error's text.
machine_util.go:1302-1371. -/
structure DelAns where
  lks : String := ""
  err : Option String := none
deriving Repr, DecidableEq

/-- Answer to a node deletion; machine_util.go:1373-1430 -/
inductive NodeDel | ok | notFound (text : String) | fail (text : String)
deriving Repr, DecidableEq

/-- The node lister's answer: the node and whether `Status.VolumesAttached` is not empty; machine_util.go:1238-1300 -/
inductive NodeGet | found (attached : Bool) | notFound (text : String) | fail
deriving Repr, DecidableEq

/-- The outside world during one reconcile; machine.go:240-292, 699-761 -/
structure Env where
  now : Int := 0
  /-- `ValidateMachineClass` succeeds, machine.go:262 -/
  classOk : Bool := true
  /-- `fetchMatchingNodeName`, machine_util.go:1741-1753: first node labelled with the machine's name -/
  nodeByLabel : Option String := none
  /-- `driver.GetMachineStatus`: node name or error text -/
  getStatus : Except String String := .ok ""
  /-- `UpdateNodeTerminationCondition`: error text -/
  condErr : Option String := none
  /-- `drainOptions.RunDrain`: error text -/
  drainErr : Option String := none
  nodeGet : NodeGet := .found false
  /-- live volume attachments of the node exist; `none`: listing failed -/
  liveVols : Option Bool := some false
  delVM : DelAns := {}
  delNode : NodeDel := .ok

/-- Calls to the outside, in the order made; machine_util.go:919-1430 -/
inductive Event
  /-- the drain was run; forced or not; its result -/
  | drained (forced : Bool) (err : Option String)
  /-- no node name, nothing to drain -/
  | noDrain
  /-- `driver.DeleteMachine` was called and answered; the request carried these -/
  | deleteVM (deleting : Option Int) (ans : DelAns)
  /-- deletion of the node object was requested and answered -/
  | deleteNode (name : String) (ans : NodeDel)
  /-- no node name, no node object to delete -/
  | noNode
  /-- the write removing the finalizer was accepted -/
  | finalizerRemoved
deriving Repr, DecidableEq

/-- the write at the end of a reconcile; machine_util.go:545-576, 847-866, 919-1430 -/
inductive Write
  /-- `UpdateStatus`; `checked`: via `machineStatusUpdate`, i.e. dropped if similar to the cached status -/
  | status (checked : Bool) (new : MStatus)
  /-- `Update` without the finalizer -/
  | dropFinalizer
deriving Repr, DecidableEq

/-- Result of a reconcile: calls made, the final write, retry period in ms, whether an error was returned, and whether it
panicked. machine.go:240-292, 699-761. -/
structure Out where
  events : List Event := []
  write : Option Write := none
  retry : Nat := 0
  err : Bool := true
  panic : Bool := false
deriving Repr, DecidableEq

/-- the status written by `setMachineTerminationStatus`; machine_util.go:919-948 -/
def termStatus (e : Env) (v : Obj) : MStatus :=
  { desc := TStep.getVM.text
    state := "Processing"
    opType := "Delete"
    opTime := e.now
    phase := .terminating
    phaseTime := e.now
    lastKnownState := v.st.lastKnownState }

/-- `setMachineTerminationStatus`, machine_util.go:902-933 -/
def setTerminating (e : Env) (v : Obj) : Out :=
  { write := some (.status false (termStatus e v)), retry := shortRetry }

/-- the status written by the steps: `CurrentStatus` is kept as it was; machine_util.go:1211-1236, 1276-1300, 1345-1371, 1404-1430 -/
def stepStatus (e : Env) (v : Obj) (desc state : String) : MStatus :=
  { v.st with desc := desc, errorCode := "", state := state, opType := "Delete", opTime := e.now }

/-- `getNodeName`, machine_util.go:1727-1739 -/
def nodeName (e : Env) : Except String String :=
  match e.nodeByLabel with
  | some n => .ok n
  | none => e.getStatus

/-- The label update attempted in `updateMachineStatusAndNodeLabel`, machine_util.go:946-955 -/
def labelWrite (e : Env) (v : Obj) : Option String :=
  if v.node ≠ "" then none
  else match nodeName e with
    | .ok n => some n
    | .error _ => none

/-- description, state, retry and error of `updateMachineStatusAndNodeLabel` when no name was found, machine_util.go:956-990 -/
def getVMError (text : String) : String × String × Nat :=
  match fromError text with
  | none => ("Error occurred with decoding machine error status while getting VM status, aborting without retry. " ++ text ++
      " " ++ TStep.getVM.text, "Failed", longRetry)
  | some (c, _) =>
    match c with
    | .unimplemented => (TStep.drain.text, "Processing", shortRetry)
    | .notFound => ("VM was not found at provider. Moving forward to node drain. " ++ TStep.drain.text, "Processing", shortRetry)
    | .unknown | .deadlineExceeded | .aborted | .unavailable =>
      ("Error occurred with decoding machine error status while getting VM status, aborting with retry. " ++ TStep.getVM.text,
        "Failed", shortRetry)
    | .uninitialized =>
      ("VM instance was not initialized. Moving forward to node drain. " ++ TStep.drain.text, "Processing", shortRetry)
    | _ => ("Error occurred with decoding machine error status while getting VM status, aborting without retry. machine code: " ++
        text ++ " " ++ TStep.getVM.text, "Failed", mediumRetry)

/-- `updateMachineStatusAndNodeLabel`, machine_util.go:936-1026, after the label update (if any) was acknowledged. -/
def getVMStep (e : Env) (v : Obj) : Out :=
  if v.node ≠ "" then { write := some (.status true (stepStatus e v TStep.drain.text "Processing")), retry := shortRetry }
  else match nodeName e with
    | .ok _ => { write := some (.status true (stepStatus e v TStep.drain.text "Processing")), retry := shortRetry }
    | .error text =>
      { write := some (.status true (stepStatus e v (getVMError text).1 (getVMError text).2.1)), retry := (getVMError text).2.2 }

/-- 5 minutes, machine_util.go:1074 -/
def notReadyLimit : Int := 5 * 60 * 1000000000

/-- the node has been unhealthy for long, machine_util.go:1098-1108 -/
def unhealthyLong (e : Env) (v : Obj) : Bool :=
  (match v.ready with | some c => !c.healthy && decide (e.now - c.since > notReadyLimit) | none => false) ||
  (match v.readonly with | some c => !c.healthy && decide (e.now - c.since > notReadyLimit) | none => false)

/-- `forceDeleteMachine` (= `forceDeletePods`), machine_util.go:1098-1124. `HasTimeOutOccurred` in
/repo/pkg/util/time/time.go:14-21 -/
def forced (e : Env) (v : Obj) (ts : Int) : Bool :=
  unhealthyLong e v || v.forceLabel || decide (e.now - v.drainTimeout - ts > 0)

/-- description and state after the drain, machine_util.go:1184-1212 -/
def drainResult (force : Bool) : Option String → String × String
  | none => if force then ("Force Drain successful. " ++ TStep.vols.text, "Processing")
      else ("Drain successful. " ++ TStep.vm.text, "Processing")
  | some err => if force then
      ("Drain failed due to - " ++ err ++ ". However, since it's a force deletion shall continue deletion of VM. " ++ TStep.vols.text,
        "Processing")
      else ("Drain failed due to - " ++ err ++ ". Will retry in next sync. " ++ TStep.drain.text, "Failed")

/-- `drainNode`, machine_util.go:1051-1235. The deletion timestamp is dereferenced (machine_util.go:1114). -/
def drainStep (e : Env) (v : Obj) : Out :=
  if v.node = "" then
    { events := [.noDrain],
      write := some (.status true (stepStatus e v ("Skipping drain as nodeName is not a valid one for machine. " ++ TStep.vm.text) "Processing")),
      retry := shortRetry }
  else match v.deleting with
    | none => { panic := true }
    | some ts =>
      match e.condErr, forced e v ts with
      | some err, false =>
        { write := some (.status true (stepStatus e v ("Drain failed due to failure in update of node conditions - " ++ err ++
            ". Will retry in next sync. " ++ TStep.drain.text) "Failed")), retry := shortRetry }
      | _, f =>
        { events := [.drained f e.drainErr],
          write := some (.status true (stepStatus e v (drainResult f e.drainErr).1 (drainResult f e.drainErr).2)), retry := shortRetry }

/-- the status written by `deleteNodeVolAttachments`: the operation's type is kept, machine_util.go:1278-1290 -/
def volStatus (e : Env) (v : Obj) (desc : String) : MStatus :=
  { v.st with desc := desc, errorCode := "", state := "Processing", opTime := e.now }

/-- `deleteNodeVolAttachments`, machine_util.go:1238-1299 -/
def volStep (e : Env) (v : Obj) : Out :=
  match e.nodeGet with
  | .fail => { retry := shortRetry }
  | .notFound text =>
    { write := some (.status true (volStatus e v ("Skipping deleteNodeVolAttachments due to - " ++ text ++ ". Moving to VM Deletion. " ++
        TStep.vm.text))), retry := 0 }
  | .found false =>
    { write := some (.status true (volStatus e v ("Node Volumes for node: " ++ v.node ++ " are already detached. Moving to VM Deletion. " ++
        TStep.vm.text))), retry := 0, err := false }
  | .found true =>
    match e.liveVols with
    | none => { retry := shortRetry }
    | some true => { retry := shortRetry, err := false }
    | some false =>
      { write := some (.status true (volStatus e v ("No Live VolumeAttachments for node: " ++ v.node ++ ". Moving to VM Deletion. " ++
          TStep.vm.text))), retry := shortRetry, err := false }

/-- description, state and retry after `driver.DeleteMachine`, machine_util.go:1313-1346 -/
def deleteVMResult : Option String → String × String × Nat
  | none => ("VM deletion was successful. " ++ TStep.node.text, "Processing", shortRetry)
  | some err =>
    match fromError err with
    | none => ("Error occurred while decoding machine error: " ++ err ++ ". " ++ TStep.vm.text, "Failed", longRetry)
    | some (c, _) =>
      match c with
      | .unknown | .deadlineExceeded | .aborted | .unavailable =>
        ("VM deletion failed due to - " ++ err ++ ". However, will re-try in the next resync. " ++ TStep.vm.text, "Failed", shortRetry)
      | .notFound => ("VM not found. Continuing deletion flow. " ++ TStep.node.text, "Processing", shortRetry)
      | _ => ("VM deletion failed due to - " ++ err ++ ". Aborting operation. " ++ TStep.vm.text, "Failed", longRetry)

/-- `deleteVM`, machine_util.go:1302-1370 -/
def vmStep (e : Env) (v : Obj) : Out :=
  { events := [.deleteVM v.deleting e.delVM],
    write := some (.status true { stepStatus e v (deleteVMResult e.delVM.err).1 (deleteVMResult e.delVM.err).2.1 with
      lastKnownState := e.delVM.lks }),
    retry := (deleteVMResult e.delVM.err).2.2 }

/-- `%q` of a Kubernetes name; (Go's library), machine_util.go:1302-1430 -/
def quote (s : String) : String := "\"" ++ s ++ "\""

/-- description and state after the deletion of the node, machine_util.go:1382-1405 -/
def deleteNodeResult (node : String) : NodeDel → String × String
  | .ok => ("Deletion of Node Object " ++ quote node ++ " is successful. " ++ TStep.fin.text, "Processing")
  | .notFound _ => ("No node object found for " ++ quote node ++ ", continuing deletion flow. " ++ TStep.fin.text, "Processing")
  | .fail text => ("Deletion of Node Object " ++ quote node ++ " failed due to error: " ++ text ++ ". " ++ TStep.node.text, "Failed")

/-- `deleteNodeObject`, machine_util.go:1373-1429 -/
def nodeStep (e : Env) (v : Obj) : Out :=
  if v.node ≠ "" then
    { events := [.deleteNode v.node e.delNode],
      write := some (.status true (stepStatus e v (deleteNodeResult v.node e.delNode).1 (deleteNodeResult v.node e.delNode).2)),
      retry := shortRetry }
  else
    { events := [.noNode],
      write := some (.status true (stepStatus e v ("Label " ++ quote "node" ++ " not present on machine " ++ quote v.name ++
        " or no associated node object found, continuing deletion flow. " ++ TStep.fin.text) "Processing")),
      retry := shortRetry }

/-- `deleteMachineFinalizers`, machine_util.go:846-865, called only if the finalizer is present -/
def finStep : Out := { write := some .dropFinalizer, retry := longRetry, err := false }

/-- `triggerDeletionFlow`, machine.go:699-761. Only the MCM finalizer is modelled; the metrics and logs are not. -/
def flow (e : Env) (v : Obj) : Out :=
  if !v.finalizer then { retry := longRetry }
  else if v.st.phase ≠ .terminating then setTerminating e v
  else match decode v.st.desc with
    | some .getVM => getVMStep e v
    | some .drain => drainStep e v
    | some .vols => volStep e v
    | some .vm => vmStep e v
    | some .node => nodeStep e v
    | some .fin => finStep
    | none => setTerminating e v

/-- the label update preceding the flow's write, if this reconcile makes one; machine_util.go:1711-1738 -/
def labelOf (e : Env) (v : Obj) : Option String :=
  if v.finalizer && v.st.phase == .terminating && decode v.st.desc == some .getVM then labelWrite e v else none

/-- the object after an accepted write; `none`: no write is sent (similar status); machine_util.go:545-576, 847-866 -/
def applyWrite (e : Env) (v : Obj) : Write → Option Obj
  | .status true new => if isSimilar e.now new v.st then none else some { v with st := new }
  | .status false new => some { v with st := new }
  | .dropFinalizer => some { v with finalizer := false }

/-! ### All interleavings -/

/-- All versions of the object stored so far (oldest first; the position is the resource version), the calls made so far, and
the writes on their way, each with the version it is based on, the resulting object, and whether it removes the finalizer.
machine.go:240-292. -/
structure World where
  hist : List Obj
  trace : List Event := []
  pending : List (Nat × Obj × Bool) := []

/-- `b` is the current version; API server's check of resource versions, for machine_util.go:545-576 -/
def World.latest (w : World) (b : Nat) : Prop := b + 1 = w.hist.length

/-- Writes of others: the other controllers either leave phase and description alone, set another phase, or (the MachineSet
controller, machineset.go:695-706) write the description "Deleting machine from cloud provider". Anything else may change. -/
def Harmless (old new : Obj) : Prop :=
  new.st.phase ≠ .terminating ∨ (new.st.phase = old.st.phase ∧ new.st.desc = old.st.desc) ∨
  new.st.desc = "Deleting machine from cloud provider"

/-- Adds the calls and the final write of a reconcile of version `b`. machine.go:240-292. -/
def World.act (w : World) (e : Env) (b : Nat) (v : Obj) : World :=
  { w with
    trace := w.trace ++ (flow e v).events
    pending := match (flow e v).write with
      | none => w.pending
      | some wr => match applyWrite e v wr with
        | none => w.pending
        | some o => (b, o, wr == .dropFinalizer) :: w.pending }

/-- One step. A reconcile may use any stored version (cache lag), stop anywhere (its write simply never arrives), and its write
may arrive at any later time; it is accepted if its version is still the current one. machine.go:240-292. -/
inductive Step : World → World → Prop
  | act {w : World} (e : Env) (b : Nat) (v : Obj) : w.hist[b]? = some v → labelOf e v = none → Step w (w.act e b v)
  /-- the label update arrives, whether or not the reconcile continues afterwards -/
  | label {w : World} (e : Env) (b : Nat) (v : Obj) (n : String) : w.hist[b]? = some v → labelOf e v = some n → w.latest b →
      n ≠ v.node → Step w { w with hist := w.hist ++ [{ v with node := n }] }
  /-- the reconcile goes on after its label update was acknowledged -/
  | afterLabel {w : World} (e : Env) (b : Nat) (v : Obj) (n : String) : w.hist[b]? = some v → labelOf e v = some n →
      Step w (w.act e b v)
  | land {w : World} (b : Nat) (o : Obj) (fin : Bool) : (b, o, fin) ∈ w.pending → w.latest b →
      Step w { w with hist := w.hist ++ [o], trace := if fin then w.trace ++ [.finalizerRemoved] else w.trace }
  | other {w : World} (b : Nat) (v new : Obj) : w.hist[b]? = some v → w.latest b → Harmless v new →
      Step w { w with hist := w.hist ++ [new] }

/-- The states reached by steps of machine.go:240-292 -/
inductive Reach (w0 : World) : World → Prop
  | refl : Reach w0 w0
  | step {w w' : World} : Reach w0 w → Step w w' → Reach w0 w'

/-! ### Undisturbed reconciles -/

/-- One reconcile of the current object with all writes accepted. If the label update changed the object, the status write
that follows carries an outdated version and is rejected. machine.go:240-292, 699-761. -/
def run (e : Env) (v : Obj) : Obj :=
  if !e.classOk then v
  else match labelOf e v with
    | some n => if n ≠ v.node then { v with node := n } else afterFlow e v
    | none => afterFlow e v
where
  afterFlow (e : Env) (v : Obj) : Obj :=
    match (flow e v).write with
    | none => v
    | some wr => (applyWrite e v wr).getD v

/-- a sequence of undisturbed reconciles; machine.go:240-292 -/
def runs (es : List Env) (v : Obj) : Obj := es.foldl (fun v e => run e v) v

end MCM.Termination
