import Verif.Model.Types
/-!
Model of the safety loop that removes orphan VMs and marks nodes that belong to no machine:
/repo/pkg/util/provider/machinecontroller/machine_safety.go:26-51, 154-300 and machine_safety_util.go:15-35.
-/
namespace MCM.Orphan

/-- the part of a Machine object the loop reads; machine_safety.go:154-300 -/
structure Mach where
  name : String
  /-- `Spec.ProviderID` -/
  pid : String := ""
  phase : Phase := .empty
  /-- the value of the label `node`, if it has one -/
  node : Option String := none
deriving DecidableEq, Repr

/-- result of `machineLister.Get`, machine_safety.go:255 -/
inductive Lookup
  | found (m : Mach) | notFound | failed
deriving DecidableEq, Repr

/-- `retry` periods, machineutils/utils.go:85-93 -/
inductive Retry
  | short | medium | long
deriving DecidableEq, Repr

/-- the decision for one VM, machine_safety.go:257-296: must it be deleted? -/
def shouldDelete (id : String) : Lookup → Bool
  | .failed => false
  | .notFound => true
  | .found m => if m.pid = id then false else if m.phase = .empty ∨ m.phase = .crashLoopBackOff then false else true

/-- What a pass over one class meets: errors of the secret lookup and of `ListMachines`, the VMs it lists (provider id, name; in
the order in which Go happens to iterate the map), whether the cache reports being synchronised. machine_safety.go:227-252 -/
structure Class where
  secretOk : Bool := true
  listOk : Bool := true
  vms : List (String × String) := []
  synced : Bool := true

/-- Delete requests sent to the provider (provider id, name), and the error. The outcome of a delete request is only logged.
machine_safety.go:227-300 -/
structure Out where
  deletes : List (String × String) := []
  retry : Retry := .long
  err : Bool := false
deriving DecidableEq, Repr

/-- `checkMachineClass`, machine_safety.go:226-300. When the cache is not synchronised the error returned is nil (line 249-250). -/
def checkClass (lookup : String → Lookup) (c : Class) : Out :=
  if ¬ c.secretOk then { err := true }
  else if ¬ c.listOk then { err := true }
  else if c.vms ≠ [] ∧ ¬ c.synced then { retry := .short }
  else { deletes := c.vms.filter fun v => shouldDelete v.1 (lookup v.2) }

/-- the loop of `checkMachineClasses`, machine_safety.go:216-223 -/
def checkClasses (lookup : String → Lookup) : List Class → Out
  | [] => {}
  | c :: cs =>
    let o := checkClass lookup c
    if o.err then o
    else { checkClasses lookup cs with deletes := o.deletes ++ (checkClasses lookup cs).deletes }

/-- lookups in a cache holding these machines; machine_safety.go:255 -/
def inCache (cache : List Mach) (name : String) : Lookup :=
  match cache.find? (·.name = name) with
  | some m => .found m
  | none => .notFound

/-- `machineutils.NotManagedByMCM`, machineutils/utils.go:54 -/
def notManaged : String := "node.machine.sapcloud.io/not-managed-by-mcm"

/-- The parts of a Node read and written in machine_safety.go:154-206 -/
structure Node where
  name : String
  annotations : SMap := []
  created : Int := 0
deriving DecidableEq, Repr

/-- `getMachineFromNode`, machine.go:399-416, as the machines whose label equals the node's name (one match is a machine, none and
several are the two errors). A name that is no valid label value yields a requirement that no label meets. -/
def machinesOf (cache : List Mach) (node : String) : List Mach := cache.filter fun m => m.node = some node

/-- what is written for one node, machine_safety.go:161-202 -/
def desired (cache : List Mach) (now timeout : Int) (n : Node) : Option Node :=
  match machinesOf cache n.name with
  | [] =>
    if ¬ n.created < now - timeout then none
    else if n.annotations.has notManaged then none
    else some { n with annotations := n.annotations.set notManaged "1" }
  | [_] => if n.annotations.has notManaged then some { n with annotations := n.annotations.del notManaged } else none
  | _ => none

/-- Result of a pass over the nodes: the nodes as they are stored afterwards; whether an update failed. machine_safety.go:154-206 -/
structure NOut where
  nodes : List Node
  err : Bool := false
deriving DecidableEq, Repr

/-- `AnnotateNodesUnmanagedByMCM`, machine_safety.go:154-206. `ok`: does the update of this node succeed? The update carries the
resource version of the node read, so it replaces exactly what was read. -/
def annotate (cache : List Mach) (now timeout : Int) (ok : String → Bool) : List Node → NOut
  | [] => { nodes := [] }
  | n :: ns =>
    match desired cache now timeout n with
    | none => let r := annotate cache now timeout ok ns; { r with nodes := n :: r.nodes }
    | some n' =>
      if ok n.name then let r := annotate cache now timeout ok ns; { r with nodes := n' :: r.nodes }
      else { nodes := n :: ns, err := true }

end MCM.Orphan
