import Verif.Model.MachineSet
/-!
Runs of the machine set controller on a cache that is behind the API server: `manageReplicas` (/repo/pkg/controller/machineset.go:333-452) decides on the machines of the
lister (514), and its calls act on the stored ones (665-737). The expectations that would make a run wait for the cache are not consulted (540-541 is
commented out).

A run is one change of the stored machines here; the cache shows them before or after it. Machines without finalizers, which a deletion removes at once,
are left out, as in the model `MachineSet`.
-/
namespace MCM.Lag
open MCM MCM.MachineSet

/-- The machines of a set: as the cache shows them, and the versions since then, the last one being what is stored.
machineset.go:514 reads the cache, 665-737 write. -/
structure S where
  ms : MSet
  cache : List Machine
  later : List (List Machine) := []

/-- what is stored; (what machineset.go:665-737 act on) -/
def S.store (s : S) : List Machine := s.later.getLast?.getD s.cache

/-- `prepareMachineForDeletion`, machineset.go:682-710, on the stored machine: the delete call, and the update of the status of the machine as it is now (794-818).
Unlike in `MachineSet.prepareMachineForDeletion` the stored machine may be in deletion already although the cached one is not. -/
def strike (o : TermOutcome) (m : Machine) : Machine :=
  { m with deleting := m.deleting || o.deleteOk, phase := if o.statusOk then .terminating else m.phase }

/-- the machines that a run has deleted, by name: those that the cache shows as being deleted are skipped, machineset.go:669 -/
def struck (o : Outcome) : List String := ((o.staleTerminated ++ o.victims).filter fun m => !m.deleting).map Machine.name

/-- the stored machines after a run; machineset.go:333-452, 665-737 -/
def after (t : String → TermOutcome) (o : Outcome) (new store : List Machine) : List Machine :=
  (store.map fun m => if m.name ∈ struck o then strike (t m.name) m else m) ++ new

/-- What can happen. `may` is what is assumed about the moments at which runs begin, `foreign` what others – the machine controller, users – may do to the machines.
Runs: machineset.go:333-452. -/
inductive Step (may : S → Prop) (foreign : List Machine → List Machine → Prop) : S → S → Prop
  /-- a run, with any answers to its calls -/
  | run {s : S} (srt : List Machine → List Machine) (createOut : Nat → CreateOutcome) (t : String → TermOutcome) (new : List Machine) :
      may s → (∀ l, IsSortOf less (srt l) l) →
      new.length = landedCount createOut (manageReplicas srt createOut s.cache s.ms).issued →
      ((s.store ++ new).map Machine.name).Nodup → (∀ m ∈ new, isLive m = true ∧ m.deleting = false) →
      Step may foreign s { s with later := s.later ++ [after t (manageReplicas srt createOut s.cache s.ms) new s.store] }
  /-- a change by somebody else -/
  | other {s : S} (w : List Machine) : foreign s.store w → Step may foreign s { s with later := s.later ++ [w] }
  /-- the watch delivers the next version -/
  | deliver {s : S} (w : List Machine) (rest : List (List Machine)) : s.later = w :: rest → Step may foreign s { s with cache := w, later := rest }

/-- Any number of steps, machineset.go:333-452 -/
inductive Steps (may : S → Prop) (foreign : List Machine → List Machine → Prop) : S → S → Prop
  | refl {s : S} : Steps may foreign s s
  | tail {s t u : S} : Steps may foreign s t → Step may foreign t u → Steps may foreign s u

end MCM.Lag
