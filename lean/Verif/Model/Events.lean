import Verif.Model.Conditions
/-!
Model of the watch-event handlers of the machine controller for machines and nodes:
/repo/pkg/util/provider/machinecontroller/machine.go:38-100, 301-440, machineclass.go:25-39, machine_safety.go:302-331, registered in
controller.go:141-195.
-/
namespace MCM.Events

/-- the part of a Machine object the handlers read; machine.go:38-100, 301-416, machineclass.go:25-39, machine_safety.go:302-331 -/
structure Mach where
  name : String
  generation : Nat := 1
  deleting : Bool := false
  phase : Phase := .empty
  /-- value of the label `node` -/
  node : Option String := none
  conditions : List Conditions.Cond := []
  classKind : String := "MachineClass"
  className : String := ""
  /-- does the description of the last operation contain the text OutOfRange? -/
  outOfRange : Bool := false
deriving DecidableEq, Repr

/-- The part of a Node object the handlers read, machine.go:301-440 -/
structure Node where
  name : String
  annotations : SMap := []
  conditions : List Conditions.Cond := []
  taintKeys : List String := []
deriving DecidableEq, Repr

/-- the object of a delete event: the last state, or a `DeletedFinalStateUnknown` around it when the event itself was missed;
machine.go:75-90, 375-397 -/
inductive Gone (α : Type)
  | object (a : α) | tombstone (a : α)
deriving DecidableEq, Repr

/-- The watch events with handlers registered in controller.go:141-195 -/
inductive Event
  | machineAdd (m : Mach)
  | machineUpdate (old new : Mach)
  | machineDelete (o : Gone Mach)
  | nodeAdd (n : Node)
  | nodeUpdate (old new : Node)
  | nodeDelete (o : Gone Node)
deriving DecidableEq, Repr

/-- What a handler does: add a key to a queue, or ask the API server to delete a machine.
machine.go:38-130, 301-397, machineclass.go:25-39, machine_safety.go:302-331 -/
inductive Action
  | machine (name : String) | termination (name : String) | machineClass (name : String) | orphan
  | deleteMachine (name : String)
deriving DecidableEq, Repr

/-- `machineutils.NotManagedByMCM`; machineutils/utils.go:53-54 -/
def notManaged : String := "node.machine.sapcloud.io/not-managed-by-mcm"
/-- `machineutils.EssentialTaints`, machineutils/utils.go:91-98 -/
def essentialTaint : String := "node.gardener.cloud/critical-components-not-ready"

/-- `addMachine`, machine.go:38-52 -/
def addMachine (m : Mach) : List Action := if m.deleting then [.termination m.name] else [.machine m.name]
/-- `updateMachine`, machine.go:54-73 -/
def updateMachine (old new : Mach) : List Action :=
  if old.generation = new.generation then [] else addMachine new
/-- `deleteMachine`, machine.go:75-89 -/
def deleteMachine : Gone Mach → List Action
  | .object m => [.termination m.name]
  | .tombstone m => [.termination m.name]
/-- `machineToMachineClassAdd`, machineclass.go:25-34 -/
def machineToClass (m : Mach) : List Action := if m.classKind = "MachineClass" then [.machineClass m.className] else []
/-- `machineToMachineClassDelete`, machineclass.go:36-38: a tombstone is not unwrapped -/
def machineToClassDelete : Gone Mach → List Action
  | .object m => machineToClass m
  | .tombstone _ => []
/-- `updateMachineToSafety`, machine_safety.go:302-315 -/
def updateToSafety (old new : Mach) : List Action := if ¬ old.outOfRange ∧ new.outOfRange then [.orphan] else []
/-- `deleteMachineToSafety`, machine_safety.go:318-325: `none` is the failing type assertion -/
def deleteToSafety : Gone Mach → Option (List Action)
  | .object _ => some [.orphan]
  | .tombstone _ => none

/-- `addNodeToMachine`, machine.go:301-337 -/
def addNode (cache : List Mach) (n : Node) : List Action :=
  if n.annotations.has notManaged then []
  else match cache.filter fun m => m.node = some n.name with
    | [m] =>
      if m.phase ≠ .crashLoopBackOff ∧ m.phase ≠ .terminating ∧ Conditions.haveChanged m.conditions n.conditions then [.machine m.name] else []
    | _ => []

/-- `updateNodeToMachine`, machine.go:339-373; `ok`: the request to delete the machine succeeds -/
def updateNode (cache : List Mach) (ok : Bool) (old new : Node) : List Action :=
  match cache.filter fun m => m.node = some new.name with
  | [m] =>
    let trigger := new.annotations.get triggerDeletionKey = "true" ∧ ¬ m.deleting
    let req := if trigger then [Action.deleteMachine m.name] else []
    if trigger ∧ ¬ ok then req
    else if (essentialTaint ∈ old.taintKeys) ≠ (essentialTaint ∈ new.taintKeys) then req ++ [.machine m.name]
    else req ++ addNode cache new
  | _ => []

/-- `deleteNodeToMachine`, machine.go:375-392 -/
def deleteNode (cache : List Mach) (n : Node) : List Action :=
  match cache.filter fun m => m.node = some n.name with
  | [m] => if m.deleting then [] else [.machine m.name]
  | _ => []

/-- all handlers of one event; `none` is a crash of the controller; in the order of their registration, controller.go:141-195 -/
def handle (cache : List Mach) (ok : Bool) : Event → Option (List Action)
  | .machineAdd m => some (machineToClass m ++ addMachine m)
  | .machineUpdate old new => some (updateMachine old new ++ updateToSafety old new)
  | .machineDelete o => (deleteToSafety o).map fun l => machineToClassDelete o ++ deleteMachine o ++ l
  | .nodeAdd n => some (addNode cache n)
  | .nodeUpdate old new => some (updateNode cache ok old new)
  | .nodeDelete (.object n) => some (deleteNode cache n)
  | .nodeDelete (.tombstone n) => some (deleteNode cache n)

end MCM.Events
