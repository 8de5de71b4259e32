import Verif.Model.Trigger
import Verif.Model.Lag
/-!
Scaling in by naming machines, as the cluster autoscaler does it: the size of a deployment is lowered and the machines to go are named in an annotation of the deployment.
The deployment controller marks the named machines one after another (/repo/pkg/controller/deployment.go:615-671) and then gives the machine set its new size
(deployment.go:530-548, deployment_sync.go:402-417); the machine set controller reads the set from the API server and the machines from a cache (machineset.go:472, 514), deletes
marked machines and compares the number of the others with the size (333-452). The two controllers run at the same time.

One deployment with one machine set that is not frozen. Left out: further changes by users, machines of other sets, rollouts.
-/
namespace MCM.ScaleIn
open MCM MCM.MachineSet MCM.Trigger

/-- The state. `work` is where the deployment controller is: nowhere, or with requests of `Trigger.trigger` still to be made and the knowledge whether the set is scaled
afterwards. deployment.go:615-671, deployment_sync.go:402-417, machineset.go:472, 514. -/
structure S where
  /-- the size of the deployment -/
  want : Nat
  /-- the annotation of the deployment -/
  value : Str
  /-- the size of the machine set -/
  size : Nat
  /-- the machines on the API server -/
  store : List Machine
  /-- the machines in the cache that both controllers read -/
  cache : List Machine
  work : Option (List Action × Bool) := none

/-- What the deployment controller looks at of a machine, deployment.go:623-640 -/
def view (m : Machine) : Mach :=
  { name := m.name.toList, deleting := m.deleting, failed := isMachineFailed m, priority := m.annotations.get machinePriorityKey == "1" }

/-- The stored machine after the update, deployment.go:641-646. An update on the basis of an outdated machine is refused; that is one of the calls that fail. -/
def mark (n : Str) (m : Machine) : Machine :=
  if m.name.toList = n then { m with annotations := m.annotations.set machinePriorityKey "1" } else m

/-- The effect of a request, deployment.go:646, 664 -/
def S.perform (s : S) : Action → S
  | .setPriority n => { s with store := s.store.map (mark n) }
  | .setAnnotation v => { s with value := v }

/-- What a run of the machine set controller does in a state: the set as stored, the machines of the cache. machineset.go:472, 514, 333-452 -/
def S.plan (s : S) (srt : List Machine → List Machine) (createOut : Nat → CreateOutcome) : Outcome :=
  manageReplicas srt createOut s.cache { replicas := s.size }

/-- What can happen. `may` is what is assumed about the moments at which the machine set controller runs, `fails` about the machines that fail.
deployment.go:615-671, deployment_sync.go:402-417, machineset.go:333-452. The deployment controller looks up all named machines when it begins; in the code each is looked up when
its turn comes. The names of new machines end in five random characters (machineset.go:390-421); they are assumed not to be among `old`. -/
inductive Step (old : List String) (may : S → Prop) (fails : S → String → Prop) : S → S → Prop
  /-- a reconcile of the deployment begins, with any answers to its calls -/
  | begin {s : S} (sort : List Str → List Str) (ok : Nat → Bool) (annOk : Bool) : (∀ l, (sort l).Perm l) → s.work = none →
      Step old may fails s { s with work := some (trigger sort (s.cache.map view) ok annOk s.value) }
  /-- it makes its next request -/
  | act {s : S} (a : Action) (acts : List Action) (b : Bool) : s.work = some (a :: acts, b) →
      Step old may fails s { s.perform a with work := some (acts, b) }
  /-- it scales the set -/
  | scale {s : S} : s.work = some ([], true) → Step old may fails s { s with size := s.want, work := none }
  /-- it ends early -/
  | stop {s : S} : Step old may fails s { s with work := none }
  /-- the machine set controller runs -/
  | run {s : S} (srt : List Machine → List Machine) (createOut : Nat → CreateOutcome) (t : String → TermOutcome) (new : List Machine) :
      may s → (∀ l, IsSortOf less (srt l) l) → new.length = landedCount createOut (s.plan srt createOut).issued →
      ((s.store ++ new).map Machine.name).Nodup → (∀ m ∈ new, isLive m = true ∧ m.deleting = false ∧ m.name ∉ old) →
      Step old may fails s { s with store := Lag.after t (s.plan srt createOut) new s.store }
  /-- the cache catches up -/
  | deliver {s : S} : Step old may fails s { s with cache := s.store }
  /-- a deleted machine vanishes -/
  | vanish {s : S} (n : String) : (∀ m ∈ s.store, m.name = n → m.deleting = true) → Step old may fails s { s with store := s.store.filter fun m => m.name ≠ n }
  /-- the machine controller reports another phase of an active machine -/
  | phase {s : S} (n : String) (p : Phase) : (∀ m ∈ s.store, m.name = n → isMachineActive m = true) → p ≠ .terminating → (p = .failed → fails s n) →
      Step old may fails s { s with store := s.store.map fun m => if m.name = n then { m with phase := p } else m }

/-- Any number of steps, deployment.go:615-671, machineset.go:333-452 -/
inductive Steps (old : List String) (may : S → Prop) (fails : S → String → Prop) : S → S → Prop
  | refl {s : S} : Steps old may fails s s
  | tail {s t u : S} : Steps old may fails s t → Step old may fails t u → Steps old may fails s u

end MCM.ScaleIn
