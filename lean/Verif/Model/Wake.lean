import Verif.Model.Types
/-!
Model of the watch-event handlers of the machine set and machine deployment controllers:
/repo/pkg/controller/machineset.go:76-330 and /repo/pkg/controller/deployment.go:56-265, 298-348, registered in
/repo/pkg/controller/controller.go:107-135; `GetMachineDeploymentsForMachineSet`, /repo/pkg/controller/deployment_util.go:67-96.

The informers watch one namespace. A selector is a list of labels, or invalid.
-/
namespace MCM.Wake
open MCM

/-- metav1.OwnerReference; (apimachinery), read at machineset.go:173, 222-223, 290 and deployment.go:99, 154-155, 213, 303 -/
structure Ref where
  kind : String
  name : String
  uid : String
  controller : Bool := true
deriving DecidableEq, Repr

/-- `Spec.Selector`, machineset_types.go:56-72, machinedeployment_types.go:46-100 -/
structure Sel where
  valid : Bool := true
  labels : SMap := []
deriving DecidableEq, Repr

/-- what is common to machines, machine sets and deployments; machineset.go:77-308, deployment.go:56-345 -/
structure Obj where
  name : String
  uid : String := ""
  version : Nat := 0
  deleting : Bool := false
  labels : SMap := []
  owners : List Ref := []
  /-- of a set or deployment -/
  selector : Sel := {}
  /-- of a deployment: strategy Recreate -/
  recreate : Bool := false
deriving DecidableEq, Repr

/-- `metav1.GetControllerOf`; (apimachinery), called at deployment.go:99, 154-155, 213, 303, 319 -/
def controllerOf (o : Obj) : Option Ref := o.owners.find? (·.controller)

/-- an informer's delete event: the object, or what it was when last seen; (client-go), machineset.go:272-288, deployment.go:193-212 -/
inductive Gone
  | seen (o : Obj)
  | tombstone (o : Obj)
deriving DecidableEq, Repr

/-- machineset.go:272-288, deployment.go:193-212 -/
def Gone.obj : Gone → Obj
  | .seen o => o
  | .tombstone o => o

/-- what the handlers do; machineset.go:139-331, deployment.go:56-297 -/
inductive Action
  /-- key added to `machineSetQueue` -/
  | set (name : String)
  /-- `expectations.CreationObserved` for the set -/
  | created (name : String)
  /-- `expectations.DeletionObserved` for the set and machine -/
  | deleted (name machine : String)
  /-- key added to `machineDeploymentQueue` -/
  | deployment (name : String)
deriving DecidableEq, Repr

/-- `selector.Matches` and not `selector.Empty()`; machineset.go:95-105, deployment_util.go:80-90 -/
def Sel.selects (s : Sel) (labels : SMap) : Bool := !s.labels.isEmpty && s.labels.all fun e => List.lookup e.1 labels == some e.2

/-- `getMachineMachineSets`, machineset.go:77-115, and `GetMachineDeploymentsForMachineSet`, deployment_util.go:67-96: an invalid
selector is an error, and there are none then; so it is for an object without labels. -/
def matching (cache : List Obj) (labels : SMap) : List Obj :=
  if labels.isEmpty then []
  else if cache.any fun c => !c.selector.valid then []
  else cache.filter fun c => c.selector.selects labels

/-- `resolveMachineSetControllerRef`, machineset.go:120-136, and `resolveDeploymentControllerRef`, deployment.go:329-345: `get` is the
cache of machine sets or a read of the deployment -/
def resolve (kind : String) (get : String → Option Obj) (r : Ref) : Option Obj :=
  if r.kind ≠ kind then none
  else match get r.name with
    | none => none
    | some o => if o.uid ≠ r.uid then none else some o

/-- the listers' `Get`, machineset.go:120-137, deployment.go:329-348 -/
def lookup (cache : List Obj) (name : String) : Option Obj := cache.find? (·.name == name)

/-- the owner of an object, if it can be resolved; machineset.go:120-137, deployment.go:329-348 -/
def owner (kind : String) (get : String → Option Obj) (o : Obj) : Option Obj := (controllerOf o).bind (resolve kind get)

/-! ### Machines → machine sets -/

/-- `deleteMachineToMachineSet`, machineset.go:272-308 -/
def deleteMachine (sets : List Obj) (g : Gone) : List Action :=
  match owner "MachineSet" (lookup sets) g.obj with
  | none => []
  | some s => [.deleted s.name g.obj.name, .set s.name]

/-- `addMachineToMachineSet`, machineset.go:162-203 -/
def addMachine (sets : List Obj) (m : Obj) : List Action :=
  if m.deleting then deleteMachine sets (.seen m)
  else match controllerOf m with
    | some r => (match resolve "MachineSet" (lookup sets) r with
      | none => []
      | some s => [.created s.name, .set s.name])
    | none => (matching sets m.labels).map fun s => .set s.name

/-- the former owner, machineset.go:230-238 and deployment.go:156-162 -/
def former (kind : String) (get : String → Option Obj) (wake : String → Action) (old new : Obj) : List Action :=
  if controllerOf new ≠ controllerOf old then ((owner kind get old).map fun s => wake s.name).toList else []

/-- `updateMachineToMachineSet`, machineset.go:208-268 -/
def updateMachine (sets : List Obj) (old new : Obj) : List Action :=
  if new.version = old.version then []
  else if new.deleting then
    deleteMachine sets (.seen new) ++ (if new.labels ≠ old.labels then deleteMachine sets (.seen old) else [])
  else former "MachineSet" (lookup sets) .set old new ++
    (match controllerOf new with
    | some r => ((resolve "MachineSet" (lookup sets) r).map fun s => Action.set s.name).toList
    | none => if new.labels ≠ old.labels ∨ controllerOf new ≠ controllerOf old then (matching sets new.labels).map fun s => .set s.name else [])

/-! ### Machine sets -/

/-- `enqueueMachineSet` and `machineSetUpdate`, machineset.go:139-159, 311-318, controller.go:114-118: at every event, resyncs included -/
def setEvent (s : Obj) : List Action := [.set s.name]

/-! ### Machine sets → deployments; `get` is a read from the API server -/

/-- `deleteMachineSetToDeployment`, deployment.go:193-224 -/
def deleteSet (get : String → Option Obj) (g : Gone) : List Action :=
  ((owner "MachineDeployment" get g.obj).map fun d => Action.deployment d.name).toList

/-- `addMachineSetToDeployment`, deployment.go:88-119 -/
def addSet (deps : List Obj) (get : String → Option Obj) (s : Obj) : List Action :=
  if s.deleting then deleteSet get (.seen s)
  else match controllerOf s with
    | some r => ((resolve "MachineDeployment" get r).map fun d => Action.deployment d.name).toList
    | none => (matching deps s.labels).map fun d => .deployment d.name

/-- `updateMachineSetToDeployment`, deployment.go:145-190 -/
def updateSet (deps : List Obj) (get : String → Option Obj) (old new : Obj) : List Action :=
  if new.version = old.version then []
  else former "MachineDeployment" get .deployment old new ++
    (match controllerOf new with
    | some r => ((resolve "MachineDeployment" get r).map fun d => Action.deployment d.name).toList
    | none => if new.labels ≠ old.labels ∨ controllerOf new ≠ controllerOf old then (matching deps new.labels).map fun d => .deployment d.name else [])

/-! ### Machines → deployments -/

/-- what an informer hands to a delete handler; deployment.go:227-265 -/
inductive Any
  | machine (m : Obj)
  | machineTombstone (m : Obj)
  | deployment (d : Obj)
  | deploymentTombstone (d : Obj)
deriving DecidableEq, Repr

/-- `deleteMachineDeployment`, deployment.go:69-85: other objects are ignored -/
def deleteDeployment : Any → List Action
  | .deployment d => [.deployment d.name]
  | .deploymentTombstone d => [.deployment d.name]
  | .machine _ => []
  | .machineTombstone _ => []

/-- the handler registered for deleted machines in the deployment controller is `deleteMachineDeployment`, controller.go:121-123 -/
def machineDeleted : Gone → List Action
  | .seen m => deleteDeployment (.machine m)
  | .tombstone m => deleteDeployment (.machineTombstone m)

/-- `deleteMachineToMachineDeployment`, deployment.go:227-265, which is registered nowhere: the set is read from the API server, and the machines of the deployment's
sets are counted (`getMachineMapForMachineDeployment`, deployment.go:382-411) -/
def machineDeletedIntended (getSet get : String → Option Obj) (machines : Obj → Nat) (g : Gone) : List Action :=
  match (owner "MachineSet" getSet g.obj).bind (owner "MachineDeployment" get) with
  | some d => if d.recreate ∧ machines d = 0 then [.deployment d.name] else []
  | none => []

end MCM.Wake
