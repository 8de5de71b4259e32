import Verif.Model.Revision
/-!
Model of rollback and of the clean-up of old machine sets: /repo/pkg/controller/deployment_rollback.go:40-140 and
/repo/pkg/controller/deployment_sync.go:567-604.
-/
namespace MCM.Rollback
open MCM MCM.Template MCM.Revision

/-- A MachineDeployment as far as rollback looks at it. deployment_rollback.go:40-140 -/
structure Dep where
  template : Tmpl
  annotations : SMap := []
  /-- `Spec.RollbackTo.Revision`; `none` = no rollback requested -/
  rollbackTo : Option Int := none
deriving Repr, DecidableEq

/-- `SetFromMachineSetTemplate`, deployment_util.go:949-956, with `CloneAndRemoveLabel`, /repo/pkg/util/labels/labels.go:46-58 -/
def fromSet (t : Tmpl) : Tmpl := { t with labels := t.labels.del hashKey }

/-- `rollbackToTemplate`, deployment_rollback.go:98-123: the deployment as sent in the Update call. -/
def rollbackToTemplate (d : Dep) (s : MSet) : Dep :=
  if equalIgnoreHash d.template s.template then { d with rollbackTo := none }
  else { template := fromSet s.template, annotations := annotationsFromSet d.annotations s.annotations, rollbackTo := none }

/-- The loop over all machine sets, deployment_rollback.go:57-89. -/
def findRevision (rv : Int) : List MSet → Option MSet
  | [] => none
  | s :: rest =>
    match revision s.annotations with
    | none => findRevision rv rest
    | some v => if v = rv then some s else findRevision rv rest

/-- `rollback`, deployment_rollback.go:40-93: `sets` are all machine sets, old ones first, as returned by
`getAllMachineSetsAndSyncRevision`. Result: the deployment sent in the (single) Update call. Taint removal only touches nodes. -/
def rollback (d : Dep) (rv : Int) (sets : List MSet) : Dep :=
  let rv' := if rv = 0 then lastRevision (sets.map (·.annotations)) 0 0 else rv
  if rv = 0 ∧ rv' = 0 then { d with rollbackTo := none }
  else match findRevision rv' sets with
    | none => { d with rollbackTo := none }
    | some s => rollbackToTemplate d s

/-- The stored deployment after a run with a pending rollback: `listOk` is the outcome of getting the machine sets (deployment_rollback.go:41-44),
`updateOk` that of the Update. -/
def run (d : Dep) (rv : Int) (sets : List MSet) (listOk updateOk : Bool) : Dep :=
  if listOk && updateOk then rollback d rv sets else d

/-! ### Clean-up of old machine sets -/

/-- The parts of a machine set read in deployment_sync.go:567-604 -/
structure OldSet where
  name : String
  spec : Int := 0
  status : Int := 0
  generation : Int := 0
  observed : Int := 0
  deleting : Bool := false
  creation : Int := 0
deriving Repr, DecidableEq

/-- Outcome of the clean-up: sets for which Delete was called, and whether the run panicked (index out of range).
deployment_sync.go:567-604 -/
structure Cleanup where
  deleted : List OldSet
  panicked : Bool := false
deriving Repr, DecidableEq

/-- Loop of `cleanupMachineDeployment`, deployment_sync.go:590-601, for `diff` more iterations over the rest of the sorted list;
`fails s` says that Delete of `s` ends with an error other than NotFound. -/
def cleanupLoop (fails : OldSet → Bool) : Nat → List OldSet → Cleanup
  | 0, _ => ⟨[], false⟩
  | _ + 1, [] => ⟨[], true⟩
  | n + 1, s :: rest =>
    if s.status ≠ 0 ∨ s.spec ≠ 0 ∨ s.generation > s.observed ∨ s.deleting then cleanupLoop fails n rest
    else if fails s then ⟨[s], false⟩
    else let r := cleanupLoop fails n rest; ⟨s :: r.deleted, r.panicked⟩

/-- `cleanupMachineDeployment`, deployment_sync.go:570-604. `sort` is `sort.Sort(MachineSetsByCreationTimestamp(..))`. -/
def cleanup (sort : List OldSet → List OldSet) (fails : OldSet → Bool) (limit : Option Int) (old : List OldSet) : Cleanup :=
  match limit with
  | none => ⟨[], false⟩
  | some l =>
    let cleanable := old.filter fun s => !s.deleting
    let diff := (cleanable.length : Int) - l
    if diff ≤ 0 then ⟨[], false⟩ else cleanupLoop fails diff.toNat (sort cleanable)

end MCM.Rollback
