import Verif.Model.Claim
import Verif.Model.SyncMachines
import Verif.Model.MachineSet
import Verif.Model.Status
/-!
Model of one whole run of the machine set controller: `reconcileClusterMachineSet`, /repo/pkg/controller/machineset.go:457-587, with
`claimMachines` (589-604) and the edits of finalizers (744-766). It composes the models `Claim`, `SyncMachines`, `MachineSet` and `Status`.

Simplifications: the conversion for validation (483-488) always succeeds, so does the listing of machines from the cache (514-517); expectations
are never consulted (540-541 is commented out) and left out. The calls that terminate machines may fail in any way: their errors are only logged.
-/
namespace MCM.SetRun
open MCM

/-- How a run ends, as the work queue sees it. worker.go:45-62, machineset.go:575-586. -/
structure Ending where
  /-- the run asked for another one (`AddAfter`) -/
  again : Bool := false
  /-- the run returned no error -/
  ok : Bool := true
deriving Repr, DecidableEq

/-- A machine in the cache, with everything that a run looks at. machineset.go:457-604. -/
structure Mach where
  name : String
  uid : String := ""
  labels : SMap := []
  owners : List Claim.OwnerRef := []
  deleting : Bool := false
  annotations : SMap := []
  phase : Phase := .running
  creation : Int := 0
  /-- `Status.LastOperation.State == Failed` -/
  opFailed : Bool := false
  /-- the labels match those of the set's template -/
  fullyLabeled : Bool := true
  /-- the parts of the spec that are propagated, as stored and as cached -/
  stored : SyncMachines.Obj
  cached : SyncMachines.Obj
deriving Repr, DecidableEq

/-- the machine as `ClaimMachines` sees it; controller_ref_manager.go:185-224 -/
def Mach.obj (m : Mach) : Claim.Obj := { name := m.name, uid := m.uid, labels := m.labels, deleting := m.deleting, owners := m.owners }
/-- the machine as `manageReplicas` sees it; machineset.go:333-452 -/
def Mach.view (m : Mach) : Machine :=
  { name := m.name, annotations := m.annotations, phase := m.phase, creation := m.creation, deleting := m.deleting }
/-- the machine as the status counts it; deployment_machineset_util.go:92-160 -/
def Mach.counted (m : Mach) : Status.SMachine := { name := m.name, phase := m.phase, fullyLabeled := m.fullyLabeled, opFailed := m.opFailed }
/-- the machine as the propagation of the template sees it; machineset_util.go:85-204 -/
def Mach.sync (m : Mach) : SyncMachines.Mach := { name := m.name, active := isMachineActive m.view, stored := m.stored, cached := m.cached }

/-- The machine set as read at the start of the run (from the API server, not from a cache). machineset.go:468-478. -/
structure SetObj where
  uid : String
  deleting : Bool := false
  /-- the finalizers contain the controller's own -/
  finalizer : Bool := true
  replicas : Nat
  freezeLabel : String := ""
  /-- `Spec.Selector` -/
  sel : SMap → Bool
  /-- node template, configuration and class kind of the machine template -/
  want : SyncMachines.Spec
  status : Status.SetStatus := {}
  generation : Int := 0
  observed : Int := 0

/-- Outcomes of the calls of one run. machineset.go:457-587. -/
structure Env where
  /-- `ValidateMachineSet` finds nothing, 489-493 -/
  valid : Bool := true
  /-- the finalizer is added -/
  addOk : Bool := true
  /-- the selector can be converted, 502-506 -/
  selectorOk : Bool := true
  /-- what the uncached read before adoptions returns -/
  live : Option Claim.Ctrl := none
  /-- answers to the adoption and release patches -/
  patch : Claim.Obj → Option Claim.ApiErr := fun _ => none
  /-- attempts of the updates that propagate the template -/
  att : SyncMachines.Field → String → List SyncMachines.Attempt := fun _ _ => [{}]
  /-- result of `sort.Sort` -/
  srt : List Machine → List Machine := id
  createOut : Nat → MachineSet.CreateOutcome := fun _ => ⟨.none, true⟩
  /-- the finalizer is removed -/
  removeOk : Bool := true
  /-- the status is accepted -/
  statusOk : Bool := true
  now : Int := 0

/-- What a run does, in order. machineset.go:457-587. -/
inductive Act
  | addFinalizer
  | claim (e : Claim.Eff)
  /-- the template was propagated, with this result -/
  | propagate (ms : List SyncMachines.Mach)
  /-- so many create calls -/
  | create (n : Nat)
  /-- a delete call -/
  | delete (name : String)
  | removeFinalizer
  | status (s : Status.SetStatus)
deriving Repr, DecidableEq

/-- `terminateMachines` with `prepareMachineForDeletion`, 665-737: machines that are being deleted are skipped -/
def dels (l : List Machine) : List Act := (l.filter fun m => !m.deleting).map fun m => .delete m.name

/-- the calls of `manageReplicas`, 333-452 -/
def manage (o : MachineSet.Outcome) : List Act :=
  dels o.staleTerminated ++ (o.creation.toList.map fun r => .create r.issued) ++ dels o.victims

/-- The part of the run on the number of machines, 542-567. -/
structure Part where
  acts : List Act
  /-- the run ends with an error -/
  stop : Bool := false
  /-- `manageReplicasErr` -/
  err : Bool := false

/-- 542-567 -/
def replicas (e : Env) (s : SetObj) (ms : List Mach) : Part :=
  if !s.deleting then
    let o := MachineSet.manageReplicas e.srt e.createOut (ms.map Mach.view) { replicas := s.replicas, freezeLabel := s.freezeLabel }
    { acts := manage o, err := o.err }
  else if ms.isEmpty then
    if s.finalizer then { acts := [.removeFinalizer], stop := !e.removeOk } else { acts := [] }
  else if s.finalizer then { acts := dels (ms.map Mach.view) }
  else { acts := [] }

/-- What a run did, and how it ended. machineset.go:457-587. -/
structure Out where
  acts : List Act
  ending : Ending

/-- 569-586 -/
def report (e : Env) (s : SetObj) (ms : List Mach) (done : List Act) (err : Bool) : Out :=
  let st := Status.calcSet e.now s.replicas s.status (ms.map Mach.counted) err
  if Status.setWriteNeeded s.status st s.generation s.observed then
    if e.statusOk then ⟨done ++ [.status st], { again := true, ok := !err }⟩ else ⟨done ++ [.status st], { ok := false }⟩
  else ⟨done, { again := true, ok := !err }⟩

/-- the claimed machines, 519-523 -/
def claim (e : Env) (s : SetObj) (cache : List Mach) : List Claim.Obj × Bool × List Claim.Eff :=
  Claim.claimAll ⟨s.uid, s.deleting⟩ s.sel e.live e.patch none (cache.map Mach.obj)

/-- the machines of the cache that were claimed; machineset.go:519-522 -/
def claimed (e : Env) (s : SetObj) (cache : List Mach) : List Mach := cache.filter fun m => (claim e s cache).1.contains m.obj

/-- 524-587 -/
def serve (e : Env) (s : SetObj) (ms : List Mach) (done : List Act) : Out :=
  let y := SyncMachines.reconcile s.want e.att (ms.map Mach.sync)
  if !y.2 then ⟨done ++ [.propagate y.1], { ok := false }⟩
  else
    let p := replicas e s ms
    if p.stop then ⟨done ++ [.propagate y.1] ++ p.acts, { ok := false }⟩
    else report e s ms (done ++ [.propagate y.1] ++ p.acts) p.err

/-- the finalizer is missing, 495-500 and 744-753 -/
def needsFinalizer (s : SetObj) : Bool := !s.deleting && !s.finalizer

/-- what is done about it; machineset.go:495-500 -/
def protect (s : SetObj) : List Act := if needsFinalizer s then [.addFinalizer] else []

/-- a run that found the set, 482-587 -/
def run (e : Env) (s : SetObj) (cache : List Mach) : Out :=
  if !e.valid then ⟨[], {}⟩
  else if needsFinalizer s && !e.addOk then ⟨protect s, { ok := false }⟩
  else if !e.selectorOk then ⟨protect s, {}⟩
  else
    let c := claim e s cache
    let done := protect s ++ c.2.2.map .claim
    if c.2.1 then ⟨done, { ok := false }⟩
    else serve e s (claimed e s cache) done

/-- What the read at the start returns, 470-480. -/
inductive Read
  | notFound
  | failed
  | found (s : SetObj)

/-- `reconcileClusterMachineSet`, 457-587 -/
def reconcile (e : Env) (r : Read) (cache : List Mach) : Out :=
  match r with
  | .notFound => ⟨[], {}⟩
  | .failed => ⟨[], { ok := false }⟩
  | .found s => run e s cache

end MCM.SetRun
