import Verif.Model.MachineSet
import Verif.Model.Lifecycle
/-!
The machines of one machine set under all controllers together: runs of the machine set controller
(/repo/pkg/controller/machineset.go:333-452, 660-737), runs of the machine controller for single machines
(/repo/pkg/util/provider/machinecontroller/machine.go:171-238) and runs of the termination (machine.go:240-292, 699-761), in any order, with the
machines' VMs at a truthful provider.
-/
namespace MCM.Fleet
open MCM MCM.Similar

/-- What of a machine the other models leave out. Read in machineset.go:333-452 and machine_util.go:1051-1237. -/
structure Extra where
  /-- annotation `node.machine.sapcloud.io/trigger-deletion-by-mcm: "true"`, machineutils/utils.go:119-121 -/
  trig : Bool := false
  /-- label `force-deletion: "True"`, machine_util.go:1094 -/
  force : Bool := false
  /-- `getEffectiveDrainTimeout` -/
  drainTimeout : Int := 0

/-- A machine object, as it lives or is being deleted, with the VMs that exist for it.
Written by machine.go:171-292, 699-761 and machineset.go:665-711. -/
inductive M
  | live (vms : List Creation.VM) (v : Lifecycle.Obj) (x : Extra)
  | dying (vms : List Creation.VM) (t : Termination.Obj) (prio : Option String) (created : Int) (trig : Bool)

/-- `Name` of the machine (machine_types.go:36-48) -/
def M.name : M → String
  | .live _ v _ => v.name
  | .dying _ t _ _ _ => t.name

/-- The VMs of the machine at the provider, behind the driver's answers in machine.go:446-623 and machine_util.go:1302-1371 -/
def M.vms : M → List Creation.VM
  | .live vms _ _ => vms
  | .dying vms _ _ _ _ => vms

/-- `DeletionTimestamp != nil`, machine.go:200-206 -/
def M.isDying : M → Bool
  | .live _ _ _ => false
  | .dying _ _ _ _ _ => true

/-- the annotations that the machine set controller looks at; machineset.go:337-346, controller_utils.go:737-789 -/
def annotations (prio : Option String) (trig : Bool) : SMap :=
  (match prio with | some p => [(machinePriorityKey, p)] | none => []) ++ if trig then [(triggerDeletionKey, "true")] else []

/-- the machine as the machine set controller sees it; machineset.go:333-452 -/
def view : M → Machine
  | .live _ v x => { name := v.name, annotations := annotations v.prio x.trig, phase := v.st.phase, creation := v.created, deleting := false }
  | .dying _ t prio created trig =>
    { name := t.name, annotations := annotations prio trig, phase := t.st.phase, creation := created, deleting := true }

/-- a condition as the drain sees it, machine_util.go:1098-1108 -/
def ncond (conds : List Conditions.Cond) (type healthy : String) : Option Termination.NCond :=
  (conds.find? fun c => c.type == type).map fun c => { healthy := c.status == healthy, since := c.transition }

/-- the object after the deletion was requested and announced by the machine set controller, machineset.go:666-711 -/
def announced (now : Int) (v : Lifecycle.Obj) (x : Extra) : Termination.Obj :=
  { name := v.name
    finalizer := v.finalizer
    deleting := some now
    node := v.node.getD ""
    forceLabel := x.force
    ready := ncond v.conds "Ready" "True"
    readonly := ncond v.conds "ReadonlyFilesystem" "False"
    drainTimeout := x.drainTimeout
    st := { v.st with
      desc := "Deleting machine from cloud provider", errorCode := "", state := "Processing", opType := "Delete", opTime := now
      phase := .terminating, timeoutActive := false, phaseTime := now } }

/-- `prepareMachineForDeletion` with all calls accepted: machines that are being deleted are skipped (machineset.go:669); a machine without
finalizer is removed at once by the API server. -/
def kill (now : Int) : M → Option M
  | .live vms v x => if v.finalizer then some (.dying vms (announced now v x) v.prio v.created x.trig) else none
  | m => some m

/-- all create calls are accepted; machineset.go:390-421 -/
def allCreated : Nat → MachineSet.CreateOutcome := fun _ => { err := .none, landed := true }

/-- what a run does with the machines of the set: `manageReplicas` on the current machines, machineset.go:333-452; all machines of a set that is being deleted are
deleted, machineset.go:535-559 -/
def plan (srt : List Machine → List Machine) (ms : MachineSet.MSet) (w : List M) : MachineSet.Outcome :=
  if ms.deleting then { staleTerminated := [], creation := none, victims := w.map view, err := false }
  else MachineSet.manageReplicas srt allCreated (w.map view) ms

/-- the names of the machines that the run deletes, machineset.go:351, 441 -/
def targets (o : MachineSet.Outcome) : List String := (o.staleTerminated ++ o.victims).map Machine.name

/-- what a run of the machine set controller does to the machines there are; machineset.go:333-452, 665-742 -/
def setRun (srt : List Machine → List Machine) (now : Int) (ms : MachineSet.MSet) (w : List M) (m : M) : Option M :=
  if m.name ∈ targets (plan srt ms w) then kill now m else some m

/-- a run of the machine controller for the machine `n`; machine.go:171-238 -/
def machineRun (n : String) (e : Lifecycle.Env) (vm : Creation.VM) : M → Option M
  | .live vms v x =>
    if v.name = n then some (.live (Lifecycle.live e vm (vms, v)).1 (Lifecycle.live e vm (vms, v)).2 x) else some (.live vms v x)
  | m => some m

/-- the answer says that there is no VM any more; machine_util.go:1302-1371 -/
def confirms : Termination.Event → Bool
  | .deleteVM _ ans => match ans.err with
    | none => true
    | some text => match Codes.fromError text with
      | some (.notFound, _) => true
      | _ => false
  | _ => false

/-- the VMs left after a run of the termination, with a truthful provider; machine_util.go:1302-1371 -/
def vmsAfter (e : Termination.Env) (t : Termination.Obj) (vms : List Creation.VM) : List Creation.VM :=
  if e.classOk && (Termination.flow e t).events.any confirms then [] else vms

/-- a run of the termination for the machine `n`; without its finalizer the object is removed by the API server; machine.go:240-292, 699-761 -/
def termRun (n : String) (e : Termination.Env) : M → Option M
  | .dying vms t prio created trig =>
    if t.name = n then
      if (Termination.run e t).finalizer then some (.dying (vmsAfter e t vms) (Termination.run e t) prio created trig) else none
    else some (.dying vms t prio created trig)
  | m => some m

/-- The machines of the set, and the VMs that belong to no machine object any more.
The objects of machineset.go:333-452 and the VMs of machine.go:446-623. -/
structure Fleet where
  ms : List M
  orphans : List Creation.VM := []

/-- the machines after a run that does `f` to each of them and creates `new`; the VMs of removed objects stay behind;
machineset.go:333-452, machine.go:171-292 -/
def Fleet.after (s : Fleet) (f : M → Option M) (new : List M) : Fleet :=
  { ms := s.ms.filterMap f ++ new
    orphans := s.orphans ++ s.ms.flatMap fun m => if (f m).isNone then m.vms else [] }

end MCM.Fleet
