import Verif.Model.Creation
import Verif.Model.Orphan
/-!
The collection of orphan VMs beside the creation of machines: `checkMachineClass` (/repo/pkg/util/provider/machinecontroller/machine_safety.go:226-300) lists the VMs, looks up
each of them in the cache and sends a delete request, while the machine controller creates VMs (model `Creation`) and both see the same cache, which follows the stored
objects at its own pace. One name is looked at: the collection decides on each VM by its name alone.

Simplifications: names are not used again once their object is gone (they carry a random suffix, `Make`); the informer begins with a list that is not outdated; the classes whose
listing fails are passes that do not list anything.
-/
namespace MCM.Collector
open MCM MCM.Creation

/-- All versions of the object of this name, oldest first (`none`: there is no object), which of them the cache shows, the VMs of this name, the creation that is about to send
its `CreateMachine`, the VMs that the pass under way still has to look up, and the one it has decided to delete.
Listing and lookups: machine_safety.go:239-299; creation: machine.go:446-623. -/
structure S where
  hist : List (Option Obj)
  seen : Nat := 0
  vms : List VM := []
  busy : Option (Env × Obj) := none
  pass : List VM := []
  doomed : Option VM := none

/-- the object in the cache; (`machineLister`, machine_safety.go:255) -/
def S.cache (s : S) : Option Obj := (s.hist[s.seen]?).join
/-- the stored object; (API server's; written in machine.go:446-697) -/
def S.store (s : S) : Option Obj := (s.hist.getLast?).join

/-- after a delete request for `vm`, machine_safety.go:283: the provider removes the VMs with that provider id -/
def S.strike (s : S) (vm : VM) : S := { s with vms := s.vms.filter fun x => x.pid != vm.pid, doomed := none }

/-- the answer of the machine lister, machine_safety.go:258 -/
def lookup : Option Obj → Orphan.Lookup
  | none => .notFound
  | some o => .found { name := o.name, pid := o.pid, phase := o.st.phase, node := o.node }

/-- the phases in which the collection leaves a machine alone, machine_safety.go:266 -/
def Making (o : Obj) : Prop := o.st.phase = .empty ∨ o.st.phase = .crashLoopBackOff

/-- Updates by the machine controller that worked on the version `v` (the API server refuses them if there is a newer one): the last one of a reconcile, or
`updateLabels` (machine.go:625-653) before it, which is reached from `triggerCreationFlow` only (machine.go:225-231). -/
def Next (v o : Obj) : Prop :=
  (∃ e, (reconcile e v).wrote = some o) ∨ ∃ node pid, (v.pid = "" ∨ Making v) ∧ o = labelled v node pid

/-- Updates by others: nobody else writes the provider id, or puts a machine back into the phases of its creation.
Machine-controller writes of these fields: machine.go:625-653, machine_util.go:545-576. -/
def Foreign (v o : Obj) : Prop := o.pid = v.pid ∧ (Making o → Making v)

/-- One step. `restarts`: the process may be restarted. `unreliable`: delete requests may fail.
machine_safety.go:226-300 (pass), machine.go:446-623 (creation). -/
inductive Step (restarts unreliable : Bool) : S → S → Prop
  /-- the object is made -/
  | make {s : S} (o : Obj) : s.hist = [none] → Step restarts unreliable s { s with hist := s.hist ++ [some o] }
  | write {s : S} (v o : Obj) : s.store = some v → Next v o → Step restarts unreliable s { s with hist := s.hist ++ [some o] }
  | other {s : S} (v o : Obj) : s.store = some v → Foreign v o → Step restarts unreliable s { s with hist := s.hist ++ [some o] }
  /-- the object goes -/
  | remove {s : S} (v : Obj) : s.store = some v → Step restarts unreliable s { s with hist := s.hist ++ [none] }
  /-- the watch delivers the next version -/
  | deliver {s : S} : s.seen + 1 < s.hist.length → Step restarts unreliable s { s with seen := s.seen + 1 }
  /-- a reconcile of the cached object gets to `CreateMachine` -/
  | missing {s : S} (e : Env) (v : Obj) : s.busy = none → s.cache = some v → creates e v = true → Step restarts unreliable s { s with busy := some (e, v) }
  /-- the call ends, with or without a VM -/
  | created {s : S} (b : Env × Obj) (vm : Option VM) : s.busy = some b → Step restarts unreliable s { s with vms := vm.toList ++ s.vms, busy := none }
  /-- VMs go without the collection -/
  | vanish {s : S} (vms : List VM) : vms.Sublist s.vms → Step restarts unreliable s { s with vms := vms }
  /-- a pass begins: `ListMachines`, machine_safety.go:236 -/
  | list {s : S} : s.pass = [] → s.doomed = none → Step restarts unreliable s { s with pass := s.vms }
  /-- the next VM is looked up, machine_safety.go:257-271 -/
  | check {s : S} (vm : VM) (rest : List VM) : s.doomed = none → s.pass = vm :: rest →
      Step restarts unreliable s { s with pass := rest, doomed := if Orphan.shouldDelete vm.pid (lookup s.cache) then some vm else none }
  /-- the delete request, machine_safety.go:283 -/
  | strike {s : S} (vm : VM) : s.doomed = some vm → Step restarts unreliable s (s.strike vm)
  /-- the delete request fails; it is only logged, machine_safety.go:288-289 -/
  | spare {s : S} (vm : VM) : unreliable = true → s.doomed = some vm → Step restarts unreliable s { s with doomed := none }
  /-- the process is restarted; a creation under way may have been successful -/
  | restart {s : S} (vm : Option VM) : restarts = true → (vm ≠ none → s.busy ≠ none) →
      Step restarts unreliable s { s with seen := s.hist.length - 1, vms := vm.toList ++ s.vms, busy := none, pass := [], doomed := none }

/-- Any number of steps; machine_safety.go:226-300 beside machine.go:446-623 -/
inductive Steps (restarts unreliable : Bool) : S → S → Prop
  | refl {s : S} : Steps restarts unreliable s s
  | tail {s t u : S} : Steps restarts unreliable s t → Step restarts unreliable t u → Steps restarts unreliable s u

end MCM.Collector
