import Verif.Model.Dispatch
import Verif.Model.Fleet
import Verif.Model.Status
/-!
A machine deployment with all its machine sets, their machines and the VMs, under the deployment controller
(/repo/pkg/controller/deployment.go:425-551), the machine set controller (/repo/pkg/controller/machineset.go:457-587) and the machine controller
(/repo/pkg/util/provider/machinecontroller/machine.go:171-292). It composes the models `Dispatch` (with everything below it) and `Fleet` (with everything below it).

Simplification: a run of the machine set controller is split into its two parts, changing machines and writing the status; either may happen without the other.
-/
namespace MCM.World
open MCM MCM.Dispatch

/-- The objects of deployment.go:425-551 and machineset.go:457-587. -/
structure World where
  /-- the machine sets of the deployment, oldest first -/
  sets : List FSet
  /-- the machines of a set, by the name of the set -/
  fleet : String → Fleet.Fleet

/-- what the machine set controller needs to know of a set; machineset.go:333-452, 535-559 -/
def demand (f : FSet) : MachineSet.MSet := { replicas := f.set.spec.toNat, deleting := f.deleting }

/-- a machine as the status of its set counts it; deployment_machineset_util.go:92-160 -/
def counted (m : Fleet.M) : Status.SMachine := { name := (Fleet.view m).name, phase := (Fleet.view m).phase }

/-- the status of a set as calculated from its machines, deployment_machineset_util.go:92-159 -/
def statusOf (f : FSet) (s : Fleet.Fleet) : Status.SetStatus := Status.calcSet 0 f.set.spec {} (s.ms.map counted) false

/-- the set with a new status, deployment_machineset_util.go:39-90 -/
def observed (f : FSet) (s : Fleet.Fleet) : FSet :=
  { f with
    status := (statusOf f s).replicas
    observed := f.generation
    set := { f.set with avail := (statusOf f s).available } }

/-- the status of the set `n` is written, machineset.go:568-572 -/
def World.report (w : World) (n : String) : World :=
  { w with sets := w.sets.map fun f => if f.set.name = n then observed f (w.fleet n) else f }

/-- the machines of the set `n` change; machineset.go:333-452, machine.go:171-292 -/
def World.change (w : World) (n : String) (s : Fleet.Fleet) : World :=
  { w with fleet := fun m => if m = n then s else w.fleet m }

/-- the set `n` is removed: its finalizer is removed when it is being deleted and has no machines, machineset.go:535-549 -/
def World.drop (w : World) (n : String) : World := { w with sets := others w.sets n }

/-- a user deletes the set `n`; it has a finalizer, so that it stays for the time being, machineset.go:514-517, 535-559 -/
def World.mark (w : World) (n : String) : World :=
  { w with sets := w.sets.map fun f => if f.set.name = n then { f with deleting := true } else f }

/-- what a run of the deployment controller leaves behind: it writes no status of a machine set, so that the stored ones stay;
deployment.go:425-551 -/
def restore (stored out : List FSet) : List FSet :=
  out.map fun f => match stored.find? (fun s => s.set.name == f.set.name) with
    | some s => { f with status := s.status, observed := s.observed, set := { f.set with avail := s.set.avail } }
    | none => f

/-- a run of the deployment controller that sees `seen`; deployment.go:425-551 -/
def World.deploy (w : World) (d : FDep) (e : Dispatch.Env) (seen : List FSet) : World :=
  { w with sets := restore w.sets (reconcile d e seen).sets }

end MCM.World
