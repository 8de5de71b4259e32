import Verif.Model.Recreate
import Verif.Model.Rollback
/-!
Model of one whole run of the deployment controller as it decides between deleting, pausing, rolling back, scaling and
rolling out: `reconcileClusterMachineDeployment`, /repo/pkg/controller/deployment.go:425-551, with `sync` and `syncStatusOnly`
(/repo/pkg/controller/deployment_sync.go:44-76) and `getNewMachineSet` (deployment_sync.go:230-400). It composes the models
`Template`, `Revision`, `Scale`, `Recreate`, `Rolling` and `Rollback`.

Simplifications: node taints and annotations, events, status and conditions are other modules; so is adding the hash label to adopted
sets (`Adopt`) and the choice of the name of a created set (`Hash`). A run that fails stops; the error itself is not modelled.
-/
namespace MCM.Dispatch
open MCM MCM.Template MCM.Revision MCM.Rolling

/-- A MachineSet with everything the run looks at.
Fields of machineset_types.go:26-130 used in deployment.go:414-551 and the functions called there. -/
structure FSet where
  /-- name, size, availability, replica annotations, creation time -/
  set : Scale.MSet
  tmpl : Tmpl := {}
  /-- the other annotations -/
  annotations : SMap := []
  minReady : Int := 0
  /-- `Status.Replicas` -/
  status : Int := 0
  generation : Int := 0
  observed : Int := 0
  /-- `DeletionTimestamp` is set -/
  deleting : Bool := false
deriving Repr, DecidableEq

/-- A MachineDeployment. Fields of machinedeployment_types.go:30-232 used in deployment.go:414-551. -/
structure FDep where
  spec : Rolling.Dep
  template : Tmpl := {}
  annotations : SMap := []
  minReady : Int := 0
  paused : Bool := false
  rollbackTo : Option Int := none
  /-- `Spec.RevisionHistoryLimit` -/
  limit : Option Int := none
  deleting : Bool := false
  finalizer : Bool := true
  /-- the selector is empty -/
  selectsAll : Bool := false

/-- Outcome of creating the machine set of a new template (deployment_sync.go:336-393). -/
inductive Created
  /-- created -/
  | done
  /-- created, but the following update of the deployment failed -/
  | doneThenError
  /-- AlreadyExists, and the existing set has the same template and owner -/
  | existing (f : FSet)
  /-- any other outcome -/
  | failed

/-- Outcomes of the calls of one run. deployment.go:414-551. -/
structure Env where
  /-- `ValidateMachineDeployment` finds nothing -/
  valid : Bool := true
  /-- listing sets and machines works -/
  listOk : Bool := true
  /-- pause condition and trigger-deletion annotations were handled without error -/
  preOk : Bool := true
  /-- Update of the current set in `getNewMachineSet` -/
  setOk : Bool := true
  /-- Update/UpdateStatus of the deployment in `getNewMachineSet` -/
  depOk : Bool := true
  created : Created := .done
  /-- name, hash and creation time of a created set -/
  fresh : String := ""
  hash : String := ""
  now : Int := 0
  scale : Scale.Env := {}
  rolling : Rolling.Env := {}
  /-- number of machines by set name -/
  machines : String → Nat := fun _ => 0
  /-- the clean-up of old sets at the end of a rollout is reached (`MachineDeploymentComplete` and no error or scaling before) -/
  cleanupReached : Bool := false
  cleanupSort : List Rollback.OldSet → List Rollback.OldSet := id
  cleanupFails : Rollback.OldSet → Bool := fun _ => false
  /-- a Delete of the clean-up that fails has not been carried out either -/
  cleanupLost : Rollback.OldSet → Bool := fun _ => false
  /-- Delete of a set works -/
  deleteOk : String → Bool := fun _ => true
  /-- Update of the deployment at the end of a rollback -/
  updateOk : Bool := true

/-- the set as `Rolling` sees it; (argument of deployment_rolling.go:126-292) -/
def msOf (f : FSet) : Rolling.MS := { name := f.set.name, spec := f.set.spec, status := f.status, avail := f.set.avail, creation := f.set.creation }
/-- the set as `Rollback` sees it; (argument of deployment_rollback.go:40-123) -/
def tsetOf (f : FSet) : Template.MSet := { name := f.set.name, template := f.tmpl, annotations := f.annotations, creation := f.set.creation }
/-- the set as the clean-up sees it; (argument of deployment_sync.go:570-604) -/
def oldOf (f : FSet) : Rollback.OldSet :=
  { name := f.set.name, spec := f.set.spec, status := f.status, generation := f.generation, observed := f.observed, deleting := f.deleting,
    creation := f.set.creation }

/-- the template fields that are copied to an existing set: `SetNewMachineSetNodeTemplate`, `SetNewMachineSetConfig`, `UpdateMachineSetClassKind`,
deployment_util.go:344-480 -/
def inPlace (d t : Tmpl) : Tmpl := { t with nodeTemplate := d.nodeTemplate, config := d.config, classKind := d.classKind }

/-- what differs between deployment and current set, deployment_sync.go:250-254 -/
def diff (d : FDep) (f : FSet) : Revision.Diff :=
  { minReady := f.minReady != d.minReady
    nodeTemplate := f.tmpl.nodeTemplate != d.template.nodeTemplate
    config := f.tmpl.config != d.template.config
    classKind := f.tmpl.classKind != d.template.classKind }

/-- sets other than the named one; as in `FindOldMachineSets`, deployment_util.go:881-895 -/
def others (l : List FSet) (n : String) : List FSet := l.filter fun f => !(f.set.name == n)

/-- Result of `getAllMachineSetsAndSyncRevision`. deployment_sync.go:120-140 -/
structure Got where
  sets : List FSet
  /-- name of the set of the current template -/
  new : Option String := none
  err : Bool := false
  /-- the current set was updated -/
  wrote : Bool := false

/-- update of an existing current set, deployment_sync.go:246-286. Simplification: when the revision of the set is not a number, the copy that the code goes on with may differ from
the stored set in node template and configuration without having been written; an update of its size later in the same run stores these as well (deployment_sync.go:545-565). Here
such an update stores the size only. -/
def syncCurrent (d : FDep) (e : Env) (sets : List FSet) (n : FSet) : Got :=
  let r := synced d.annotations (diff d n) (newRevisionText ((others sets n.set.name).map (·.annotations))) n.annotations
  if r.2 then
    if e.setOk then
      { sets := sets.map fun f => if f.set.name == n.set.name then { n with annotations := r.1, tmpl := inPlace d.template n.tmpl, minReady := d.minReady } else f
        new := some n.set.name, wrote := true }
    else { sets := sets, err := true }
  else if e.depOk then { sets := sets, new := some n.set.name } else { sets := sets, err := true }

/-- the set that is created, deployment_sync.go:293-334 -/
def newSet (d : FDep) (e : Env) (sets : List FSet) (size : Int) : FSet :=
  { set := { name := e.fresh, spec := size, desired := some (Scale.desiredText d.spec), maxR := some (Scale.maxText d.spec), creation := e.now }
    tmpl := { d.template with labels := d.template.labels.set hashKey e.hash }
    annotations := createdAnnotations d.annotations (sets.map (·.annotations))
    minReady := d.minReady }

/-- creation of the set of a new template, deployment_sync.go:292-400 -/
def createCurrent (d : FDep) (e : Env) (sets : List FSet) : Got :=
  match newReplicas d.spec (sets.map msOf ++ [{ spec := 0 }]) { spec := 0 } with
  | none => { sets := sets, err := true }
  | some size =>
    match e.created with
    | .failed => { sets := sets, err := true }
    | .existing f => { sets := sets ++ [f], new := some f.set.name }
    | .doneThenError => { sets := sets ++ [newSet d e sets size], err := true }
    | .done => { sets := sets ++ [newSet d e sets size], new := some e.fresh }

/-- `getAllMachineSetsAndSyncRevision` with `getNewMachineSet`, deployment_sync.go:118-149, 230-400. `sets` is in order of creation (ties by name),
the order in which `FindNewMachineSet` looks for the template (deployment_util.go:864-877). -/
def getNew (d : FDep) (e : Env) (create : Bool) (sets : List FSet) : Got :=
  match sets.find? fun f => equalIgnoreHash f.tmpl d.template with
  | some n => syncCurrent d e sets n
  | none => if create then createCurrent d e sets else { sets := sets }

/-- the sets other than the current one; `oldISs` in deployment_sync.go:120-140 -/
def oldSets (g : Got) : List FSet := match g.new with | none => g.sets | some n => others g.sets n
/-- the current set; `newIS` in deployment_sync.go:120-140 -/
def curSet (g : Got) : Option FSet := match g.new with | none => none | some n => g.sets.find? fun f => f.set.name == n

/-- store new sizes: every set whose name occurs in `r` takes over what `r` says about it; the updates of deployment_sync.go:545-568 -/
def resize (l : List FSet) (r : List Scale.MSet) : List FSet :=
  l.map fun f => match r.find? (fun s => s.name == f.set.name) with
    | some s => { f with set := s }
    | none => f

/-- a set with the size a rolling update writes; `scaleMachineSet` (deployment_sync.go:546-565) writes the replica annotations together with a new size -/
def withSize (d : Dep) (f : FSet) (n : Int) : FSet :=
  if f.set.spec = n then f
  else { f with set := { f.set with spec := n, desired := some (Scale.desiredText d), maxR := some (Scale.maxText d) } }

/-- the same for the sizes a rolling update writes; deployment_sync.go:545-568 called from deployment_rolling.go:126-292 -/
def resizeMS (d : Dep) (l : List FSet) (r : List Rolling.MS) : List FSet :=
  l.map fun f => match r.find? (fun s => s.name == f.set.name) with
    | some s => withSize d f s.spec
    | none => f

/-- `cleanupMachineDeployment` (model `Rollback.cleanup`) applied to the old sets as read before scaling: a deleted set keeps existing with a deletion timestamp
because of its finalizer. deployment_sync.go:570-604. -/
def cleanup (d : FDep) (e : Env) (old sets : List FSet) : List FSet :=
  let del := (Rollback.cleanup e.cleanupSort e.cleanupFails d.limit (old.map oldOf)).deleted.filter fun o => !(e.cleanupFails o && e.cleanupLost o)
  sets.map fun f => if del.any fun o => o.name == f.set.name then { f with deleting := true } else f

/-- clean-up of a paused deployment, deployment_sync.go:67-72 -/
def pausedCleanup (d : FDep) (e : Env) (old sets : List FSet) : List FSet :=
  if d.paused && d.rollbackTo.isNone then cleanup d e old sets else sets

/-- `sync`, deployment_sync.go:56-76 -/
def sync (d : FDep) (e : Env) (sets : List FSet) : List FSet :=
  let g := getNew d e false sets
  if g.err then g.sets
  else
    let r := Scale.scale d.spec e.scale ((oldSets g).map (·.set)) ((curSet g).map (·.set))
    if r.2 then resize g.sets r.1
    else pausedCleanup d e (oldSets g) (resize g.sets r.1)

/-- clean-up at the end of a rollout, deployment_rolling.go:108-120, deployment_recreate.go:93-105 -/
def rolloutCleanup (d : FDep) (e : Env) (old sets : List FSet) : List FSet :=
  if e.cleanupReached then cleanup d e old sets else sets

/-- `rolloutRolling`, deployment_rolling.go:48-124 -/
def rolloutRolling (d : FDep) (e : Env) (sets : List FSet) : List FSet :=
  let g := getNew d e true sets
  if g.err then g.sets
  else match curSet g with
    | none => g.sets
    | some n =>
      let r := rolloutStep d.spec e.rolling ((oldSets g).map msOf) (msOf n)
      rolloutCleanup d e (oldSets g) (resizeMS d.spec g.sets (r.1 ++ [r.2]))

/-- `rolloutRecreate`, deployment_recreate.go:35-109: the current set is only looked for first, and created once nothing old is left -/
def rolloutRecreate (d : FDep) (e : Env) (sets : List FSet) : List FSet :=
  let g := getNew d e false sets
  if g.err then g.sets
  else
    let v : Recreate.View := ⟨(oldSets g).map (·.set), (curSet g).map (·.set), fun n => ((sets.find? fun f => f.set.name == n).map (·.status)).getD 0, e.machines⟩
    let wait := decide ((Scale.active v.old).length > 0) || Recreate.oldMachinesRunning v
    let g2 := if g.new.isNone && !wait then getNew d e true g.sets else g
    if g2.err then g2.sets
    else
      let r := Recreate.rolloutRecreate d.spec { scaleEnv := e.scale, created := (curSet g2).map (·.set) } v
      rolloutCleanup d e (oldSets g2) (resize g2.sets (r.1 ++ r.2.toList))

/-- What is stored after a run. deployment.go:414-551. -/
structure Out where
  dep : FDep
  sets : List FSet

/-- `rollback`, deployment_rollback.go:40-93 -/
def rollback (d : FDep) (e : Env) (rv : Int) (sets : List FSet) : Out :=
  let g := getNew d e true sets
  if g.err then ⟨d, g.sets⟩
  else
    let r := Rollback.run ⟨d.template, d.annotations, d.rollbackTo⟩ rv ((oldSets g ++ (curSet g).toList).map tsetOf) true e.updateOk
    ⟨{ d with template := r.template, annotations := r.annotations, rollbackTo := r.rollbackTo }, g.sets⟩

/-- `isScalingEvent` and what follows it, deployment.go:534-551. `isScalingEvent` syncs the current set too (deployment_sync.go:675-678); if that wrote it,
the second attempt of the same run sends an outdated resource version and the run ends with a conflict. -/
def scaleOrRoll (d : FDep) (e : Env) (sets : List FSet) : List FSet :=
  let g := getNew d e false sets
  if g.err || g.wrote then g.sets
  else if Scale.isScalingEvent d.spec ((oldSets g).map (·.set)) ((curSet g).map (·.set)) then sync d e sets
  else match d.spec.strategy with
    | .recreate => rolloutRecreate d e sets
    | .rolling => rolloutRolling d e sets
    | .other => sets

/-- `terminateMachineSets`, deployment.go:553-573 -/
def terminate (e : Env) (sets : List FSet) : List FSet :=
  sets.map fun f => if e.deleteOk f.set.name then { f with deleting := true } else f

/-- a deployment with deletion timestamp, deployment.go:497-507. `syncStatusOnly` works on the sets as listed before the deletions; its Update of a set that was just
marked fails with a conflict, so the set is written only if the Delete call failed. -/
def reconcileDeleting (d : FDep) (e : Env) (sets : List FSet) : Out :=
  if !d.finalizer then ⟨d, sets⟩
  else match sets with
    | [] => ⟨{ d with finalizer := false }, []⟩
    | _ => ⟨d, (getNew d e false (terminate e sets)).sets⟩

/-- `reconcileClusterMachineDeployment`, deployment.go:425-551 -/
def reconcile (d : FDep) (e : Env) (sets : List FSet) : Out :=
  if !e.valid then ⟨d, sets⟩
  else if d.selectsAll then ⟨d, sets⟩
  else if !e.listOk then ⟨d, sets⟩
  else if d.deleting then reconcileDeleting d e sets
  else if !e.preOk then ⟨d, sets⟩
  else if d.paused then ⟨d, sync d e sets⟩
  else match d.rollbackTo with
    | some rv => rollback d e rv sets
    | none => ⟨d, scaleOrRoll d e sets⟩

end MCM.Dispatch
