import Verif.Model.Dispatch
import Verif.Model.SyncMachines
import Verif.Model.NodeSync
import Mathlib.Data.List.Forall2
/-!
How an edit of a deployment that is carried out in place travels: from the deployment to the machine set of its template (`Dispatch`), from that set to its machines
(`SyncMachines`) and from a machine to its node (`NodeSync`). The three controllers act in any order and any of their calls may fail.

/repo/pkg/controller/deployment.go:425-551, machineset_util.go:85-205, /repo/pkg/util/provider/machinecontroller/machine_util.go:271-347.
-/
namespace MCM.InPlace
open MCM MCM.Template MCM.Dispatch

/-- what a template hands on in place: node template, configuration and class kind; deployment_util.go:344-480, machineset_util.go:85-205 -/
def specOf (t : Tmpl) : SyncMachines.Spec := { template := t.nodeTemplate, config := t.config, kind := t.classKind }

/-- The sets of the deployment, the machines of one of them, and the nodes of these machines by machine name. The other sets' machines take no part in what follows.
deployment.go:425-551, machineset.go:524-539, machine_util.go:271-347. -/
structure State where
  sets : List FSet
  machines : List SyncMachines.Mach
  nodes : String → NodeSync.Node

/-- Anything that may happen while the deployment `d` is not edited; `home` is the set whose machines are followed, `decode` reads a node template.
deployment.go:425-551, machineset.go:524-539, machine_util.go:271-347. Simplifications: a machine does not become active or inactive; a node is synced with the machine as stored
(in the code: as cached), the machines with the template of the set as stored (in the code: as cached); nobody else writes nodes or the specs of machines. -/
inductive Step (d : FDep) (home : String) (decode : String → NodeSync.Template) : State → State → Prop
  /-- a run of the deployment controller, whatever fails; deployment.go:425-551 -/
  | deploy {s : State} (e : Env) : Step d home decode s { s with sets := (reconcile d e s.sets).sets }
  /-- anything else that happens to the sets without changing a template: new sizes, reported numbers, deletion marks; machineset.go:457-587 -/
  | report {s : State} (l : List FSet) : List.Forall₂ (fun a b => b.set.name = a.set.name ∧ b.tmpl = a.tmpl) s.sets l → Step d home decode s { s with sets := l }
  /-- the watch delivers some machines; machineset.go:208-270 -/
  | watch {s : State} (p : String → Bool) : Step d home decode s { s with machines := s.machines.map fun m => if p m.name then m.refresh else m }
  /-- a run of the machine set controller, whatever fails; machineset.go:524-539 -/
  | set {s : State} (f : FSet) (att : SyncMachines.Field → String → List SyncMachines.Attempt) : f ∈ s.sets → f.set.name = home →
      Step d home decode s { s with machines := (SyncMachines.reconcile (specOf f.tmpl) att s.machines).1 }
  /-- a machine is created from the template of the set; machineset.go:360-423 -/
  | create {s : State} (f : FSet) (m : SyncMachines.Mach) : f ∈ s.sets → f.set.name = home → (∀ x ∈ s.machines, x.name ≠ m.name) → m.stored.spec = specOf f.tmpl →
      m.cached = m.stored → Step d home decode s { s with machines := s.machines ++ [m] }
  /-- machines disappear; machineset.go:350-356, 424-451 -/
  | remove {s : State} (p : String → Bool) : Step d home decode s { s with machines := s.machines.filter fun m => p m.name }
  /-- a sync of the node of a machine whose update is accepted; (one that fails or finds nothing to do changes nothing); machine_util.go:271-347 -/
  | node {s : State} (m : SyncMachines.Mach) (n : NodeSync.Node) : m ∈ s.machines → NodeSync.decide_ (decode m.stored.spec.template) (s.nodes m.name) = .update n →
      Step d home decode s { s with nodes := fun k => if k = m.name then n else s.nodes k }

/-- a run of the machine set controller for which the watch has delivered all machines and whose requests succeed; machineset.go:524-539 -/
inductive Good (home : String) : State → State → Prop
  | round {s : State} (f : FSet) (att : SyncMachines.Field → String → List SyncMachines.Attempt) : f ∈ s.sets → f.set.name = home →
      (∀ g n, ∃ as, att g n = { refresh := false, error := false } :: as ∧ ∀ a ∈ as, a.error = false ∧ a.refresh = false) →
      Good home s { s with machines := (SyncMachines.reconcile (specOf f.tmpl) att (s.machines.map SyncMachines.Mach.refresh)).1 }

/-- an execution with `k` good runs of the machine set controller in it; machineset.go:524-539 -/
inductive Run (d : FDep) (home : String) (decode : String → NodeSync.Template) : Nat → State → State → Prop
  | refl (s : State) : Run d home decode 0 s s
  | step {k : Nat} {s s' s'' : State} : Run d home decode k s s' → Step d home decode s' s'' → Run d home decode k s s''
  | good {k : Nat} {s s' s'' : State} : Run d home decode k s s' → Good home s' s'' → Run d home decode (k + 1) s s''

end MCM.InPlace
