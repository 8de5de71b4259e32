import Verif.Model.Types
/-!
Model of finalizers: /repo/pkg/util/provider/machinecontroller/machineclass.go:68-191, machineclass_util.go, secret.go:25-127,
secret_util.go, machine_util.go:76-232, 825-866 and /repo/pkg/controller/machineset.go:744-792, deployment.go:580-613.
-/
namespace MCM.Finalizers

/-- `sets.NewString(l...)` with the own finalizer inserted, then `List()`; the order (sorted) plays no role;
machineclass.go:159-163, secret.go:85-93, machine_util.go:825-844, machineset.go:744-754, deployment.go:580-587 -/
def withOwn (own : String) (l : List String) : List String := if l.contains own then l.eraseDups else own :: l.eraseDups
/-- … and deleted; machineclass.go:165-169, secret.go:95-103, machine_util.go:847-866, machineset.go:756-767, deployment.go:589-596 -/
def without (own : String) (l : List String) : List String := l.eraseDups.filter fun f => ¬ (f = own)

/-- An object: its version (every write gives a new one) and its finalizers.
Read and written in machineclass.go:171-191, secret.go:105-127. -/
structure Obj where
  version : Nat
  finalizers : List String
deriving DecidableEq, Repr

/-- Adding and removing the own finalizer, machineclass.go:159-169, secret.go:85-103 -/
inductive Edit
  | add | remove
deriving DecidableEq, Repr

/-- the finalizers wanted, computed from the cached object; `none`: nothing to do;
machineclass.go:159-169, secret.go:85-103, machine_util.go:825-866 -/
def wanted (own : String) (e : Edit) (cached : Obj) : Option (List String) :=
  match e with
  | .add => if cached.finalizers.contains own then none else some (withOwn own cached.finalizers)
  | .remove => if cached.finalizers.contains own then some (without own cached.finalizers) else none

/-- `addMachineFinalizers` and `deleteMachineFinalizers`, machine_util.go:825-866: the cached object itself is written, which the API
server refuses unless it is the present version -/
def editCached (own : String) (e : Edit) (cached stored : Obj) : Obj :=
  match wanted own e cached with
  | none => stored
  | some l => if cached.version = stored.version then { version := stored.version + 1, finalizers := l } else stored

/-- The same for classes (machineclass.go:159-191), secrets (secret.go:85-127), machine sets (machineset.go:744-792) and deployments
(deployment.go:580-613): the latest object is read and its finalizers are replaced by those computed from the cached object.
`none`: the read fails or each write does. The write is refused if the object changes after the read; it is repeated for machine sets
and deployments; here the result of the first write accepted is given. -/
def editLatest (own : String) (e : Edit) (cached stored : Obj) (ok : Bool) : Obj :=
  match wanted own e cached with
  | none => stored
  | some l => if ok then { version := stored.version + 1, finalizers := l } else stored

/-! ### machine classes -/

/-- `MCMFinalizerName`, controller.go:47-49 -/
def mcmFinalizer : String := "machine.sapcloud.io/machine-controller-manager"
/-- `MCFinalizerName`, controller.go:50-54 -/
def mcFinalizer : String := "machine.sapcloud.io/machine-controller"

/-- A machine class as read in machineclass.go:98-157 -/
structure Class where
  name : String
  deleting : Bool := false
  obj : Obj
deriving DecidableEq, Repr

/-- the class a machine refers to: kind and name; machineclass_util.go:13-30 -/
structure Mach where
  name : String
  kind : String := "MachineClass"
  cls : String
deriving DecidableEq, Repr

/-- `findMachinesForClass`, machineclass_util.go:13-25 -/
def machinesFor (cache : List Mach) (cls : String) : List Mach := cache.filter fun m => m.kind = "MachineClass" ∧ m.cls = cls

/-- What a reconcile of a class does: nothing, an edit of its finalizer, or an error asking for a retry; and the machines put into their
queue. machineclass.go:98-157 -/
inductive Decision
  | nothing | edit (e : Edit) (wake : List String) | retry (wake : List String)
deriving DecidableEq, Repr

/-- `reconcileClusterMachineClass`, machineclass.go:98-157, up to the edit; the conversion always succeeds -/
def reconcileClass (machines : List Mach) (c : Class) : Decision :=
  let ms := machinesFor machines c.name
  if c.deleting = false ∧ ms ≠ [] then
    if c.obj.finalizers.contains mcmFinalizer then .nothing else .edit .add (ms.map (·.name))
  else if ms ≠ [] then .retry (ms.map (·.name))
  else if c.obj.finalizers.contains mcmFinalizer then .edit .remove []
  else .nothing

/-- The API server: the class, if it exists, and the machines. machineclass.go:98-191 acts on it. -/
structure World where
  cls : Option Class
  machines : List Mach
deriving Repr

/-- A reconcile with the cached class and machines; `ok`: read and write succeed. A class being deleted disappears with its last
finalizer. machineclass.go:98-191. -/
def World.reconcile (w : World) (cached : Class) (machines : List Mach) (ok : Bool) : World :=
  match w.cls, reconcileClass machines cached with
  | some c, .edit e _ =>
    let o := editLatest mcmFinalizer e cached.obj c.obj ok
    { w with cls := if c.deleting ∧ o.finalizers = [] then none else some { c with obj := o } }
  | _, _ => w

/-- What happens to a class and its machines. `complete` demands that reconciles see all machines that exist.
Reconciles: machineclass.go:98-191. -/
inductive Step (complete : Bool) : World → World → Prop
  | reconcile {w : World} (cached : Class) (machines : List Mach) (ok : Bool) :
      (∀ c, w.cls = some c → cached.name = c.name) → (complete = true → ∀ m ∈ w.machines, m ∈ machines) → Step complete w (w.reconcile cached machines ok)
  | create {w : World} (m : Mach) : Step complete w { w with machines := m :: w.machines }
  | remove {w : World} (m : Mach) : Step complete w { w with machines := w.machines.filter fun x => x ≠ m }
  /-- the user deletes the class -/
  | delete {w : World} (c : Class) : w.cls = some c →
      Step complete w { w with cls := if c.obj.finalizers = [] then none else some { c with deleting := true } }
  /-- others change the finalizers of the class, but not this controller's -/
  | other {w : World} (c : Class) (l : List String) : w.cls = some c → (mcmFinalizer ∈ c.obj.finalizers ↔ mcmFinalizer ∈ l) →
      Step complete w { w with cls := if c.deleting ∧ l = [] then none else some { c with obj := { version := c.obj.version + 1, finalizers := l } } }

/-! ### secrets -/

/-- the secrets a class refers to, `SecretRef` and `CredentialsSecretRef`: namespace and name; machine_util.go:76-118, secret_util.go:31-50 -/
structure ClassRefs where
  secretRef : Option (String × String) := none
  credentialsRef : Option (String × String) := none
deriving DecidableEq, Repr

/-- `existsMachineClassForSecret` and `findMachineClassForSecret`, secret_util.go:13-44 -/
def secretUsed (classes : List ClassRefs) (name : String) : Bool :=
  classes.any fun c => (c.secretRef.any fun r => r.2 = name) || (c.credentialsRef.any fun r => r.2 = name)

/-- `reconcileClusterSecretKey` and `reconcileClusterSecret`, secret.go:25-82: the edit of the finalizer of a secret -/
def reconcileSecret (controllerNs : String) (classes : List ClassRefs) (ns name : String) (cached : Obj) : Option Edit :=
  if ns ≠ controllerNs then none
  else if secretUsed classes name then (if cached.finalizers.contains mcFinalizer then none else some .add)
  else if cached.finalizers.contains mcFinalizer then some .remove else none

/-! ### validation of a class for a machine -/

/-- `NodeTemplate` of a class; as checked in machine_util.go:143-169 -/
structure NodeTemplate where
  capacity : List String
  instanceType : String
  region : String
  zone : String
deriving DecidableEq, Repr

/-- `validateNodeTemplate`, machine_util.go:143-168 -/
def templateValid : Option NodeTemplate → Bool
  | none => true
  | some t => ["cpu", "gpu", "memory"].all (fun a => t.capacity.contains a) && !(t.instanceType == "" || t.region == "" || t.zone == "")

/-- a lookup by a lister; machine_util.go:83-89, 171-186 -/
inductive Lookup (α : Type)
  | found (a : α) | notFound | error
deriving Repr

/-- A machine class as read in machine_util.go:76-169 -/
structure FullClass where
  finalizers : List String
  refs : ClassRefs
  template : Option NodeTemplate := none
deriving DecidableEq, Repr

/-- Result of `ValidateMachineClass`, machine_util.go:76-118 -/
inductive Answer
  | ok (data : SMap)
  | refused
  /-- nil dereference -/
  | crash
deriving DecidableEq, Repr

/-- `mergeDataMaps`, machine_util.go:222-232 -/
def mergeData (a b : SMap) : SMap := b.foldr (fun e m => m.set e.1 e.2) a

/-- `getSecretData`, machine_util.go:120-140, with `getSecret`, 171-186: a secret not found is no error; on another error line 129
reads the namespace of the nil secret -/
def secretData (secret : String × String → Lookup SMap) : List (Option (String × String)) → SMap → Answer
  | [], acc => .ok acc
  | none :: rs, acc => secretData secret rs acc
  | some r :: rs, acc =>
    match secret r with
    | .error => .crash
    | .notFound => secretData secret rs acc
    | .found d => secretData secret rs (mergeData acc d)

/-- `ValidateMachineClass`, machine_util.go:76-117 -/
def validate (cls : Lookup FullClass) (secret : String × String → Lookup SMap) : Answer :=
  match cls with
  | .found c =>
    match secretData secret [c.refs.secretRef, c.refs.credentialsRef] [] with
    | .ok d =>
      if ¬ c.finalizers.contains mcmFinalizer then .refused
      else if ¬ templateValid c.template then .refused
      else .ok d
    | a => a
  | _ => .refused

end MCM.Finalizers
