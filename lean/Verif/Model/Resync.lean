import Verif.Model.Wake
import Verif.Model.Events
import Verif.Model.RefWake
import Verif.Model.Loop
/-!
Model of the periodic resync of the informers: at the end of every period the update handlers are called with each object of the cache, as old and as new object.
The period is given to the factories in /repo/cmd/machine-controller-manager/app/controllermanager.go:236-255 and /repo/pkg/util/provider/app/app.go:243-260; the handlers are
registered in /repo/pkg/controller/controller.go:108-147 and /repo/pkg/util/provider/machinecontroller/controller.go:145-207.
-/
namespace MCM.Resync
open MCM

/-- `MinResyncPeriod`, options.go:59 (manager) and options.go:61 (machine controller), in seconds: it is passed to the informers as it is, although the description of the
flag (options.go:82 and 90) promises a random time between it and twice its value -/
def period : Nat := 12 * 60 * 60

/-- the caches of the manager: machines, machine sets, deployments; controller.go:59-66 -/
structure Manager where
  machines : List Wake.Obj
  sets : List Wake.Obj
  deps : List Wake.Obj
  /-- reads of deployments from the API server, deployment.go:329-345 -/
  get : String → Option Wake.Obj

/-- `updateMachineDeployment`, /repo/pkg/controller/deployment.go:62-67, with `enqueueMachineDeployment`: at every event -/
def updateDeployment (_old new : Wake.Obj) : List Wake.Action := [.deployment new.name]

/-- what the update handlers of the manager do in a resync; controller.go:108-147. The handler of deleted machines (121-123) and the one of the safety controller (144-147) do
not get updates. -/
def manager (c : Manager) : List Wake.Action :=
  (c.machines.flatMap fun m => Wake.updateMachine c.sets m m) ++
  (c.sets.flatMap fun s => Wake.setEvent s ++ Wake.updateSet c.deps c.get s s) ++
  (c.deps.flatMap fun d => updateDeployment d d)

/-- a machine class with its namespace and name; /repo/pkg/util/provider/machinecontroller/secret.go:178-190, machineclass.go:49-60 -/
structure Class where
  ns : String
  name : String
  refs : Finalizers.ClassRefs

/-- the caches of the machine controller: machines, nodes, classes, secrets; machinecontroller/controller.go:100-143 -/
structure Worker where
  machines : List Events.Mach
  nodes : List Events.Node
  classes : List Class
  secrets : List RefWake.Key

/-- what the machine controller does in a resync: machines and nodes (`Events.handle`), classes to be looked at, secrets to be looked at -/
inductive Did
  | act (a : Events.Action)
  | cls (k : RefWake.Key)
  | secret (k : RefWake.Key)
deriving DecidableEq, Repr

/-- what the update handlers of the machine controller do in a resync; machinecontroller/controller.go:145-195. There is none for secrets (145-148). `ok`: requests to delete
a machine succeed. -/
def worker (ok : Bool) (c : Worker) : List Did :=
  (c.classes.flatMap fun k => (RefWake.classUpdated k.refs k.refs).map .secret ++ (RefWake.classEvent k.ns k.name).map .cls) ++
  (c.machines.flatMap fun m => ((Events.handle c.machines ok (.machineUpdate m m)).getD []).map .act) ++
  (c.nodes.flatMap fun n => ((Events.handle c.machines ok (.nodeUpdate n n)).getD []).map .act)

/-- the keys put into the queue of machine sets; machineset.go:311-318 -/
def setKeys (l : List Wake.Action) : List String := l.filterMap fun a => match a with
  | .set k => some k
  | _ => none

/-- The queue after all keys were added, worker.go:37-68 -/
def addAll (s : Loop.S) (ks : List String) : Loop.S := ks.foldl (fun s k => { s with q := s.q.add k }) s

end MCM.Resync
