import Verif.Model.Claim
/-!
Deletion of MachineSets and MachineDeployments: which writes a reconcile makes, and when the object disappears.
-/
namespace MCM.Deletion
open MCM MCM.Claim

/-- `DeleteFinalizerName`, /repo/pkg/controller/controller.go:38 -/
def finalizerName : String := "machine.sapcloud.io/machine-controller-manager"

/-- The part of a MachineSet / MachineDeployment that matters for its deletion.
pkg/apis/machine/v1alpha1/machineset_types.go:26-41, machinedeployment_types.go:30-43. -/
structure FObj where
  uid : String
  deleting : Bool := false
  finalizers : List String := []
deriving Repr, DecidableEq, Inhabited

/-- Writes of a reconcile that concern deletion. `others` stands for every write that touches neither finalizers
nor dependents' existence (status, propagation to dependents) or that creates/deletes dependents of a live object.
machineset.go:457-586, deployment.go:414-551. -/
inductive Act
  | writeFinalizers (fs : List String)
  /-- the given dependents are told to delete -/
  | terminate (deps : List Obj)
  | others
deriving Repr, DecidableEq

/-- Decisions taken by parts of the code not modelled here: success of the steps before the deletion branch.
machineset.go:457-535, deployment.go:414-500. -/
structure Env where
  /-- validation passes (machineset.go:490-499, deployment.go:441-455) -/
  valid : Bool := true
  /-- selector converts (machineset.go:509-513; deployment.go: empty selector check 470-481) -/
  selectorOk : Bool := true
  /-- the finalizer write returned no error (machineset.go:744-793) -/
  finWriteOk : Bool := true
  /-- sync of node templates / config / class kind succeeded (machineset.go:532-547), machine map built (deployment.go:494-497) -/
  syncOk : Bool := true

/-- addMachineSetFinalizers machineset.go:744-754 and addMachineDeploymentFinalizers deployment.go:580-587: nothing if
present, else the set with the name inserted. The set-to-sorted-list conversion is modelled by deduplication only
(order of finalizers has no meaning). -/
def addFin (o : FObj) : List Act :=
  if finalizerName ∈ o.finalizers then [] else [.writeFinalizers (o.finalizers.eraseDups ++ [finalizerName])]

/-- deleteMachineSetFinalizers machineset.go:756-766 and deleteMachineDeploymentFinalizers deployment.go:589-596 -/
def delFin (o : FObj) : List Act :=
  if finalizerName ∈ o.finalizers then [.writeFinalizers (o.finalizers.eraseDups.filter (· != finalizerName))] else []

/-- `reconcileClusterMachineSet`, machineset.go:457-587. `view` is the object read at the start (473), `cache` the
machine lister's content (`none` = list error); claiming as in `Claim.claimAll` (its patches are not repeated in the
result). -/
def reconcileSet (view : FObj) (env : Env) (sel : SMap → Bool) (live : Option Ctrl) (ans : Obj → Option ApiErr)
    (cache : Option (List Obj)) : List Act :=
  if !env.valid then [] else
  let a1 := if view.deleting then [] else addFin view
  if !a1.isEmpty && !env.finWriteOk then a1 else
  if !env.selectorOk then a1 else
  match cache with
  | none => a1
  | some ms =>
    let (claimed, err, _) := claimAll ⟨view.uid, view.deleting⟩ sel live ans none ms
    if err then a1 else
    if !env.syncOk then a1 ++ [.others] else
    if !view.deleting then a1 ++ [.others]
    else if claimed.isEmpty then a1 ++ delFin view ++ (if env.finWriteOk || (delFin view).isEmpty then [.others] else [])
    else if finalizerName ∈ view.finalizers then a1 ++ [.terminate claimed, .others]
    else a1 ++ [.others]

/-- `reconcileClusterMachineDeployment`, deployment.go:414-551, and `terminateMachineSets` 553-573 (sets already being
deleted are skipped). Errors of the finalizer write are ignored by the code. -/
def reconcileDeployment (view : FObj) (env : Env) (sel : SMap → Bool) (live : Option Ctrl) (ans : Obj → Option ApiErr)
    (cache : Option (List Obj)) : List Act :=
  if !env.valid then [] else
  let a1 := if view.deleting then [] else addFin view
  if !env.selectorOk then a1 ++ [.others] else
  match cache with
  | none => a1
  | some ms =>
    let (claimed, err, _) := claimAll ⟨view.uid, view.deleting⟩ sel live ans none ms
    if err then a1 else
    if !env.syncOk then a1 else
    if view.deleting then
      if finalizerName ∉ view.finalizers then a1
      else if claimed.isEmpty then a1 ++ delFin view
      else a1 ++ [.terminate (claimed.filter (fun o => !o.deleting)), .others]
    else a1 ++ [.others]

/-! ## Life of the object on the API server -/

/-- API server handling `Update` with a new finalizer list on the live object: missing object → error; a deleting object
may not gain finalizers; a deleting object without finalizers is removed. (`updateMachineSetFinalizers` 769-793 and
`updateMachineDeploymentFinalizers` 598-613 read the live object and overwrite its list; a conflict is retried, so the
write is atomic.) -/
def applyFinWrite (s : Option FObj) (fs : List String) : Option FObj :=
  match s with
  | none => none
  | some o =>
    if o.deleting && fs.any (fun f => !(o.finalizers.contains f)) then some o
    else if o.deleting && fs.isEmpty then none
    else some { o with finalizers := fs }

/-- The writes of a reconcile (machineset.go:769-793, deployment.go:598-613) applied in order; only those of finalizers change the object -/
def applyActs (s : Option FObj) : List Act → Option FObj
  | [] => s
  | .writeFinalizers fs :: as => applyActs (applyFinWrite s fs) as
  | _ :: as => applyActs s as

/-- Events in the life of the object. A reconcile works on the `view` it read (possibly outdated by the time its writes
arrive) and may crash after `k` writes. machineset.go:457-586, deployment.go:414-551 and the API server's part. -/
inductive Ev
  | reconcile (view : FObj) (env : Env) (sel : SMap → Bool) (live : Option Ctrl) (ans : Obj → Option ApiErr)
      (cache : Option (List Obj)) (k : Nat)
  /-- somebody requests deletion -/
  | requestDelete
  /-- other parties rewrite the finalizer list without touching ours -/
  | foreign (fs : List String)

/-- `rec` is `reconcileSet` or `reconcileDeployment`. machineset.go:457-586, deployment.go:414-551. -/
def stepEv (rec : FObj → Env → (SMap → Bool) → Option Ctrl → (Obj → Option ApiErr) → Option (List Obj) → List Act)
    (s : Option FObj) : Ev → Option FObj
  | .reconcile view env sel live ans cache k => applyActs s ((rec view env sel live ans cache).take k)
  | .requestDelete => match s with
    | none => none
    | some o => if o.finalizers.isEmpty then none else some { o with deleting := true }
  | .foreign fs => match s with
    | none => none
    | some o => if (o.finalizers.contains finalizerName) == (fs.contains finalizerName) then applyFinWrite s fs else s

end MCM.Deletion
