import Verif.Model.SetRun
import Verif.Model.Worker
/-!
How the controllers' loops keep going: what each reconciler tells the work queue at its end, and the queue (model `Worker`) under any number of workers,
event handlers and timers. /repo/pkg/util/worker/worker.go:37-68, /repo/pkg/controller/deployment.go:411-551, /repo/pkg/controller/machineset.go:457-587,
/repo/pkg/util/provider/machinecontroller/machine.go:138-169 and 240-292, machineclass.go:70-97, secret.go:25-82.
-/
namespace MCM.Loop
open MCM MCM.Worker
open MCM.SetRun (Ending)

/-- What a lister or the API server returns. deployment.go:421-429, machineset.go:470-478, machine.go:141-149, 247-255 -/
inductive Found
  | notFound | failed | found
deriving Repr, DecidableEq

/-- `reconcileClusterMachineDeployment`, deployment.go:426-457: after the validation a further run is always asked for; `err`: the rest of the run failed -/
def deployment (f : Found) (valid err : Bool) : Ending :=
  match f with
  | .notFound => {}
  | .failed => { ok := false }
  | .found => if valid then { again := true, ok := !err } else {}

/-- `reconcileClusterMachineKey`, machine.go:138-169: errors are turned into a further run; machines being deleted belong to the other queue -/
def machine (f : Found) (deleting : Bool) : Ending :=
  match f with
  | .notFound => {}
  | .failed => { ok := false }
  | .found => if deleting then {} else { again := true }

/-- `reconcileClusterMachineTermination`, machine.go:240-292 -/
def termination (f : Found) (err : Bool) : Ending :=
  match f with
  | .notFound => {}
  | .failed => { ok := false }
  | .found => { again := true, ok := !err }

/-- `reconcileClusterMachineClassKey`, machineclass.go:70-97 -/
def machineClass (f : Found) : Ending :=
  match f with
  | .notFound => {}
  | .failed => { ok := false }
  | .found => { again := true }

/-- `reconcileClusterSecretKey` with `reconcileClusterSecret`, secret.go:25-82 -/
def secret (foreign : Bool) (f : Found) (err : Bool) : Ending :=
  if foreign then {}
  else match f with
    | .notFound => {}
    | .failed => { ok := false }
    | .found => { again := true, ok := !err }

/-- The queue, and the keys whose present run has asked for another one. worker.go:37-68 and the calls of `AddAfter` in the reconcilers. -/
structure S where
  q : Q := {}
  asked : List String := []

/-- Any number of workers, event handlers and timers; `may` says how runs can end. worker.go:37-68. -/
inductive Step (may : String → Ending → Prop) : S → S → Prop
  /-- an event -/
  | add {s : S} (k : String) : Step may s { s with q := s.q.add k }
  /-- another controller asks for a run later -/
  | later {s : S} (k : String) : Step may s { s with q := s.q.addAfter k }
  /-- a timer -/
  | fire {s : S} (a b : List String) (k : String) : s.q.delayed = a ++ k :: b → Step may s { s with q := { s.q with delayed := a ++ b }.add k }
  /-- a worker begins a run -/
  | get {s : S} (k : String) (rest : List String) : s.q.queue = k :: rest →
      Step may s ⟨{ s.q with queue := rest, processing := k :: s.q.processing, dirty := s.q.dirty.filter (· ≠ k) }, s.asked.filter (· ≠ k)⟩
  /-- a run asks for another one -/
  | ask {s : S} (k : String) : k ∈ s.q.processing → Step may s ⟨s.q.addAfter k, k :: s.asked⟩
  /-- a run ends -/
  | finish {s : S} (k : String) (e : Ending) : k ∈ s.q.processing → may k e → (e.again = true → k ∈ s.asked) →
      Step may s { s with q := s.q.finish true k e.ok }

/-- Any number of steps, worker.go:37-68 -/
inductive Steps (may : String → Ending → Prop) : S → S → Prop
  | refl {s : S} : Steps may s s
  | tail {s t u : S} : Steps may s t → Step may t u → Steps may s u

end MCM.Loop
