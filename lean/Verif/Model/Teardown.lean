import Verif.Model.Deletion
import Verif.Model.Fleet
/-!
The deletion of a machine deployment under all controllers: the deployment controller (/repo/pkg/controller/deployment.go:414-573), the machine set controller
(/repo/pkg/controller/machineset.go:457-587, 665-793), the machine controller and the termination (/repo/pkg/util/provider/machinecontroller/machine.go:171-292, 699-761).
It composes the models `Deletion` (with `Claim`) and `Fleet` (with `Lifecycle` and `Termination`).

Simplifications: the runs of the machine controller and of the termination for one machine do not overlap (for runs that do, see `C61_vm_left_behind_false`); only the
sets of one deployment and the machines of these sets are part of the state, other objects occur only in the caches; Kubernetes' own garbage collection is left out.
-/
namespace MCM.Teardown
open MCM MCM.Claim MCM.Deletion

/-- A MachineSet object. machineset_types.go:26-72. -/
structure SetRec where
  name : String
  obj : FObj
  labels : SMap := []
  owners : List OwnerRef := []
  /-- `Spec.Selector` -/
  sel : SMap → Bool

/-- the set as `ClaimMachineSets` sees it; controller_ref_manager.go:325-354 -/
def SetRec.seen (s : SetRec) : Claim.Obj :=
  { name := s.name, uid := s.obj.uid, labels := s.labels, deleting := s.obj.deleting, owners := s.owners }

/-- A Machine object with its VMs. machine_types.go:36-48. -/
structure MachRec where
  m : Fleet.M
  uid : String := ""
  labels : SMap := []
  owners : List OwnerRef := []

/-- the machine as `ClaimMachines` sees it; controller_ref_manager.go:185-224 -/
def MachRec.seen (r : MachRec) : Claim.Obj :=
  { name := r.m.name, uid := r.uid, labels := r.labels, deleting := r.m.isDying, owners := r.owners }

/-- What is stored, and the VMs that belong to no machine object any more. deployment.go:414-573, machineset.go:457-587. -/
structure Cluster where
  dep : Option FObj
  /-- `Spec.Selector` of the deployment -/
  sel : SMap → Bool
  sets : List SetRec := []
  machines : List MachRec := []
  orphans : List Creation.VM := []

/-- What becomes of a request to delete an object. machineset.go:665-711, deployment.go:553-573. -/
inductive Fate
  /-- nothing of it arrives -/
  | lost
  /-- the request is refused; for a machine the status is written all the same, machineset.go:680-707 -/
  | refused
  | done
deriving DecidableEq

/-- The outside world during one run of the deployment controller or of the machine set controller.
deployment.go:414-613, machineset.go:457-793. -/
structure Call where
  env : Deletion.Env := {}
  /-- the uncached read before adoptions -/
  live : Option Ctrl := none
  /-- answers to adoption and release patches -/
  ans : Claim.Obj → Option ApiErr := fun _ => none
  /-- the lister's content -/
  cache : Option (List Claim.Obj)
  /-- the run crashes after so many of its writes -/
  crash : Nat := 10
  /-- a write of finalizers arrives -/
  lands : Bool := true
  /-- the requests to delete, by name -/
  fate : String → Fate := fun _ => .done
  now : Int := 0

/-- a request to delete a set or a deployment: without finalizers it is removed at once (API server);
(client-go calls at deployment.go:553-573) -/
def doomed (o : FObj) : Option FObj := if o.finalizers.isEmpty then none else some { o with deleting := true }

/-- the object with a new list of finalizers, or none any more; machineset.go:744-793 -/
def Cluster.putSet (w : Cluster) (n : String) (g : FObj → Option FObj) : Cluster :=
  { w with sets := w.sets.filterMap fun s => if s.name = n then (g s.obj).map fun o => { s with obj := o } else some s }

/-- something happens to each machine; the VMs of removed objects stay behind; machineset.go:665-742 -/
def Cluster.onMachines (w : Cluster) (f : Fleet.M → Option Fleet.M) : Cluster :=
  { w with
    machines := w.machines.filterMap fun r => (f r.m).map fun m => { r with m := m }
    orphans := w.orphans ++ w.machines.flatMap fun r => if (f r.m).isNone then r.m.vms else [] }

/-- `terminateMachineSets`, deployment.go:553-573, for the sets `deps` -/
def Cluster.dropSets (w : Cluster) (c : Call) (deps : List Claim.Obj) : Cluster :=
  { w with sets := w.sets.filterMap fun s =>
      if (deps.any fun o => o.name == s.name) && decide (c.fate s.name = .done) then (doomed s.obj).map fun o => { s with obj := o } else some s }

/-- one write of a run of the deployment controller; deployment.go:470-505, 553-613 -/
def Cluster.depAct (c : Call) (w : Cluster) : Act → Cluster
  | .writeFinalizers fs => if c.lands then { w with dep := applyFinWrite w.dep fs } else w
  | .terminate deps => w.dropSets c deps
  | .others => w

/-- a run of the deployment controller, deployment.go:414-551. It reads the deployment from the API server. Runs for a deployment that is not being deleted may also make sets
and change those there are: this is not part of it. -/
def Cluster.depRun (w : Cluster) (c : Call) : Cluster :=
  match w.dep with
  | none => w
  | some d => ((reconcileDeployment d c.env w.sel c.live c.ans c.cache).take c.crash).foldl (Cluster.depAct c) w

/-- the status written when a machine is to be deleted, machineset.go:695-707 -/
def announce (now : Int) (s : Similar.MStatus) : Similar.MStatus :=
  { s with
    desc := "Deleting machine from cloud provider", errorCode := "", state := "Processing", opType := "Delete", opTime := now
    phase := .terminating, timeoutActive := false, phaseTime := now }

/-- the machine with that status; machineset.go:694-709 -/
def announced (now : Int) : Fleet.M → Fleet.M
  | .live vms v x => .live vms { v with st := announce now v.st } x
  | .dying vms t p c tr => .dying vms { t with st := announce now t.st } p c tr

/-- a deletion that nobody announces (e.g. a user's): a machine without finalizer is removed at once (API server);
as with machine.go:200-206 -/
def request (now : Int) : Fleet.M → Option Fleet.M
  | .live vms v x => if v.finalizer then some (.dying vms { Fleet.announced now v x with st := v.st } v.prio v.created x.trig) else none
  | m => some m

/-- `prepareMachineForDeletion`, machineset.go:666-711, for a machine that the cache shows as `o`: nothing if the cache knows of the deletion. -/
def prepare (now : Int) (fate : Fate) (o : Claim.Obj) (m : Fleet.M) : Option Fleet.M :=
  if o.deleting then some m else
  match fate with
  | .lost => some m
  | .refused => some (announced now m)
  | .done => match m with
    | .live .. => Fleet.kill now m
    | .dying .. => some (announced now m)

/-- `terminateMachines`, machineset.go:713-737, for the machines `deps` -/
def dropMachine (c : Call) (deps : List Claim.Obj) (m : Fleet.M) : Option Fleet.M :=
  match deps.find? fun o => o.name == m.name with
  | none => some m
  | some o => prepare c.now (c.fate m.name) o m

/-- one write of a run of the machine set controller for the set `n`; machineset.go:545-566, 665-793 -/
def Cluster.setAct (n : String) (c : Call) (w : Cluster) : Act → Cluster
  | .writeFinalizers fs => if c.lands then w.putSet n fun o => applyFinWrite (some o) fs else w
  | .terminate deps => w.onMachines (dropMachine c deps)
  | .others => w

/-- a run of the machine set controller for the set `n`, machineset.go:457-587. It reads the set from the API server. What it does for a set that is not being deleted, besides
the finalizer, is not part of it. -/
def Cluster.setRun (w : Cluster) (n : String) (c : Call) : Cluster :=
  match w.sets.find? fun s => s.name == n with
  | none => w
  | some s => ((reconcileSet s.obj c.env s.sel c.live c.ans c.cache).take c.crash).foldl (Cluster.setAct n c) w

/-- other parties rewrite finalizers and leave the controller's own alone; a deletion is requested;
next to deployment.go:580-613 and machineset.go:744-793 -/
def edited (fs : List String) (o : FObj) : Option FObj :=
  if (o.finalizers.contains finalizerName) == (fs.contains finalizerName) then applyFinWrite (some o) fs else some o

end MCM.Teardown
