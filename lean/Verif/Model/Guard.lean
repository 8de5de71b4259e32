import Verif.Model.Freeze
import Verif.Model.Lag
/-!
The machine set controller on a cache that is behind (`Lag`) together with the overshooting safety controller (`Freeze`): runs of
`reconcileClusterMachineSet` (/repo/pkg/controller/machineset.go:457-587) and of `reconcileClusterMachineSafetyOvershooting`
(/repo/pkg/controller/machine_safety.go:38-72) for one machine set. Both controllers read machines from the same informer cache (machineset.go:514,
machine_safety.go:215); the machine set itself is read from the API server by the former (machineset.go:470).
-/
namespace MCM.Guard
open MCM MCM.MachineSet

/-- A machine set called `name` among the stored sets and deployments; its machines as the cache shows them, and their versions since then, the last one
being what is stored. machineset.go:457-587, machine_safety.go:199-279. -/
structure G where
  name : String
  objs : Freeze.Store
  cache : List Machine
  later : List (List Machine) := []

/-- what is stored; (what machineset.go:665-737 act on) -/
def G.store (g : G) : List Machine := g.later.getLast?.getD g.cache

/-- what `manageReplicas` uses of the set read at the start of the run; machineset.go:333-452, 470. The set is not being deleted. -/
def msOf (f : Freeze.FSet) : MSet := { replicas := f.replicas.toNat, freezeLabel := if f.label then "True" else "" }

/-- A run of the machine set controller, with any answers to its calls; machineset.go:333-452. As in `Lag`, a run is one change of the stored machines. -/
inductive Work : G → Freeze.FSet → G → Prop
  | run {g : G} (f : Freeze.FSet) (srt : List Machine → List Machine) (createOut : Nat → CreateOutcome) (t : String → TermOutcome) (new : List Machine) :
      f ∈ g.objs.sets → f.name = g.name → (∀ l, IsSortOf less (srt l) l) →
      new.length = landedCount createOut (manageReplicas srt createOut g.cache (msOf f)).issued →
      ((g.store ++ new).map Machine.name).Nodup → (∀ m ∈ new, isLive m = true ∧ m.deleting = false) →
      Work g f { g with later := g.later ++ [Lag.after t (manageReplicas srt createOut g.cache (msOf f)) new g.store] }

/-- Anything else that happens to the machines: changes by others, which create no machines of the set, and deliveries of the watch.
(what machineset.go:514 sees of it) -/
inductive Drift : G → G → Prop
  | other {g : G} (w : List Machine) : w.length ≤ g.store.length → Drift g { g with later := g.later ++ [w] }
  | deliver {g : G} (w : List Machine) (rest : List (List Machine)) : g.later = w :: rest → Drift g { g with cache := w, later := rest }

/-- Others change machine sets and deployments: sizes, templates, labels, creations and deletions. The set wants at most `k` machines, and nobody else takes the label off
that freezes it. (what machineset.go:470 and machine_safety.go:145, 201 read of it) -/
inductive Edit (k : Nat) : G → G → Prop
  | edit {g : G} (z : Freeze.Store) : (z.sets.map Freeze.FSet.name).Nodup → (∀ f ∈ z.sets, f.name = g.name → f.replicas.toNat ≤ k) →
      (∀ f ∈ z.sets, f.name = g.name → f.label = false → ∃ x ∈ g.objs.sets, x.name = g.name ∧ x.label = false) → Edit k g { g with objs := z }

/-- A run of the safety controller; machine_safety.go:38-72 -/
def check (o : Freeze.Opts) (ok : Nat → Bool) (w : Freeze.Views) (g : G) : G := { g with objs := (Freeze.run o ok w g.objs).1 }

end MCM.Guard
