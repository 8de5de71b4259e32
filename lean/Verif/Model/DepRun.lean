import Verif.Model.Claim
import Verif.Model.Dispatch
/-!
Model of a run of the deployment controller among all the machine sets of its namespace: `reconcileClusterMachineDeployment`, /repo/pkg/controller/deployment.go:414-551, with
`getMachineSetsForMachineDeployment` (350-376) and `getMachineMapForMachineDeployment` (382-410). It composes the models `Claim` and `Dispatch`.

Simplifications: the cache of machine sets is up to date; adding the hash label to adopted sets is `Adopt`; marking the machines named by an annotation is `Trigger`.
-/
namespace MCM.DepRun
open MCM MCM.Template MCM.Dispatch

/-- A machine set of the namespace with its metadata. Fields of machineset_types.go:26-130 used in controller_ref_manager.go:75-131 and deployment.go:414-551. -/
structure Item where
  uid : String := ""
  labels : SMap := []
  owners : List Claim.OwnerRef := []
  f : FSet
deriving Repr, DecidableEq

/-- its name; machineset_types.go:29 -/
def Item.name (i : Item) : String := i.f.set.name

/-- the set as `ClaimMachineSets` sees it; controller_ref_manager.go:325-353 -/
def Item.obj (i : Item) : Claim.Obj := { name := i.name, uid := i.uid, labels := i.labels, deleting := i.f.deleting, owners := i.owners }

/-- A MachineDeployment with its metadata. machinedeployment_types.go:30-72. -/
structure DepObj where
  uid : String
  /-- `Spec.Selector` -/
  sel : SMap → Bool
  d : FDep

/-- Outcomes of the calls of one run. deployment.go:414-551. -/
structure Env where
  /-- the calls after the sets have been claimed; `created` is the answer to the creation of a set if its name is free -/
  base : Dispatch.Env := {}
  /-- the finalizer is added, 463-466 -/
  addOk : Bool := true
  /-- the selector can be converted and the lists can be read, 350-361 -/
  listOk : Bool := true
  /-- what the uncached read before adoptions returns, 363-372 -/
  live : Option Claim.Ctrl := none
  /-- answers to the adoption and release patches -/
  patch : Claim.Obj → Option Claim.ApiErr := fun _ => none
  /-- a patch that ended with an error other than NotFound or Invalid was carried out -/
  done : Claim.Obj → Bool := fun _ => false
  /-- the machines of the namespace, with their owners -/
  machines : List Claim.Obj := []
  /-- uid of a created set -/
  uid : String := ""

/-- the claim of the run, deployment.go:350-376 -/
def claim (e : Env) (D : DepObj) (items : List Item) : List Claim.Obj × Bool × List Claim.Eff :=
  Claim.claimAll ⟨D.uid, D.d.deleting⟩ D.sel e.live e.patch none (items.map Item.obj)

/-- the patch for this object was carried out; controller_ref_manager.go:356-397 -/
def carried (e : Env) (o : Claim.Obj) : Bool :=
  match e.patch o with
  | none => true
  | some .other => e.done o
  | some _ => false

/-- the stored set after the patches of the claim, controller_ref_manager.go:356-397. Both patches are merge patches (`Claim.mergeOwners`). -/
def patched (e : Env) (D : DepObj) (effs : List Claim.Eff) (i : Item) : Item :=
  if effs.contains (.adopt i.obj) && carried e i.obj then { i with owners := Claim.mergeOwners i.owners (Claim.adoptDoc ⟨D.uid, D.d.deleting⟩) }
  else if effs.contains (.release i.obj) && carried e i.obj then { i with owners := Claim.mergeOwners i.owners (Claim.releaseDoc ⟨D.uid, D.d.deleting⟩) }
  else i

/-- the sets claimed, deployment.go:373-375 -/
def mine (e : Env) (D : DepObj) (items : List Item) : List Item := items.filter fun i => (claim e D items).1.contains i.obj

/-- number of machines of the named set among the machines that match the deployment's selector, deployment.go:382-410 -/
def count (e : Env) (D : DepObj) (sets : List Item) (n : String) : Nat :=
  match sets.find? (fun i => i.name == n) with
  | none => 0
  | some i => (e.machines.filter fun m => D.sel m.labels && Claim.controllerOf m == some i.uid).length

/-- the answer to the creation of a set, deployment_sync.go:336-375: a name that is taken ends in AlreadyExists, and the existing set is used only if it belongs to the deployment
and has its template -/
def created (e : Env) (D : DepObj) (items : List Item) : Created :=
  match items.find? (fun i => i.name == e.base.fresh) with
  | some i => if Claim.controllerOf i.obj == some D.uid && equalIgnoreHash D.d.template i.f.tmpl then .existing i.f else .failed
  | none => match e.base.created with
    | .existing _ => .failed
    | c => c

/-- the stored set with what the run left of it, if the run worked on it; deployment_sync.go:545-604 -/
def settled (out : List FSet) (i : Item) : Item :=
  match out.find? (fun f => f.set.name == i.name) with
  | some f => { i with f := f }
  | none => i

/-- what is stored after the run: the sets the run worked on as it left them, the others as they were, and created ones; deployment_sync.go:305-331, 545-604 -/
def merge (e : Env) (D : DepObj) (items : List Item) (out : List FSet) : List Item :=
  items.map (settled out) ++
  (out.filter fun f => !items.any fun i => i.name == f.set.name).map fun f => { uid := e.uid, labels := f.tmpl.labels, owners := [⟨D.uid, true⟩], f := f }

/-- the finalizer is added to a deployment that is not being deleted, deployment.go:463-466 -/
def guarded (e : Env) (D : DepObj) : DepObj := if !D.d.deleting && e.addOk then { D with d := { D.d with finalizer := true } } else D

/-- What is stored after a run. deployment.go:414-551. -/
structure Out where
  dep : DepObj
  items : List Item

/-- the calls of the rest of the run, deployment.go:468-551 -/
def rest (e : Env) (D : DepObj) (items : List Item) : Dispatch.Env :=
  { e.base with
    valid := true
    listOk := true
    created := created e D (items.map (patched e D (claim e D items).2.2))
    machines := count e D (mine e D items) }

/-- `reconcileClusterMachineDeployment`, deployment.go:414-551 -/
def run (e : Env) (D : DepObj) (items : List Item) : Out :=
  if !e.base.valid then ⟨D, items⟩
  else if D.d.selectsAll || !e.listOk then ⟨guarded e D, items⟩
  else
    let c := claim e D items
    let stored := items.map (patched e D c.2.2)
    if c.2.1 then ⟨guarded e D, stored⟩
    else
      let o := reconcile (guarded e D).d (rest e D items) ((mine e D items).map (·.f))
      ⟨{ D with d := o.dep }, merge e D stored o.sets⟩

/-! ### Several deployments -/

/-- All deployments and machine sets of a namespace. What the runs of deployment.go:414-551 read and write. -/
structure Cluster where
  /-- by uid -/
  deps : String → Option DepObj
  items : List Item

/-- What happens in the namespace: runs of the deployment controller (deployment.go:414-551), and what others do. -/
inductive Op
  /-- a run for the deployment with this uid -/
  | run (uid : String) (e : Env)
  /-- somebody creates, edits or removes the deployment with this uid -/
  | edit (uid : String) (D : Option DepObj)
  /-- the machine set controller or a user writes the named set; name and owners stay -/
  | write (name : String) (g : FSet → FSet)
  /-- the named set disappears -/
  | remove (name : String)
  /-- somebody creates a set; refused if the name is taken -/
  | add (i : Item)

/-- the effect of one step; a run is deployment.go:414-551 -/
def step (s : Cluster) : Op → Cluster
  | .run u e =>
    match s.deps u with
    | none => s
    | some D =>
      let o := run e D s.items
      ⟨fun v => if v = u then some o.dep else s.deps v, o.items⟩
  | .edit u D => ⟨fun v => if v = u then D else s.deps v, s.items⟩
  | .write n g => ⟨s.deps, s.items.map fun i => if i.name == n then { i with f := { g i.f with set := { (g i.f).set with name := n } } } else i⟩
  | .remove n => ⟨s.deps, s.items.filter fun i => !(i.name == n)⟩
  | .add i => ⟨s.deps, if s.items.any (fun j => j.name == i.name) then s.items else s.items ++ [i]⟩

/-- the effect of a sequence of steps; runs are deployment.go:414-551 -/
def exec (s : Cluster) (ops : List Op) : Cluster := ops.foldl step s

end MCM.DepRun
