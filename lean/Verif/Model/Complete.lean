import Verif.Model.World
/-!
What a machine deployment reports about itself, from the statuses of its machine sets: `calculateDeploymentStatus` and `MachineDeploymentComplete`
(/repo/pkg/controller/deployment_sync.go:607-665, deployment_util.go:1003-1014) on the objects of the model `World`.
-/
namespace MCM.World
open MCM MCM.Dispatch MCM.Template

/-- A machine set as `calculateDeploymentStatus` reads it, deployment_sync.go:621-665. Simplification: of the status of a set `FSet` keeps the numbers of machines and of available
machines; ready machines, failed machines and conditions are left empty, they do not enter `MachineDeploymentComplete`. -/
def shown (f : FSet) : Status.DSet := ⟨f.set.name, f.set.spec, { replicas := f.status, available := f.set.avail }⟩

/-- the set of the current template, `FindNewMachineSet`; deployment_util.go:864-877; the sets are listed oldest first -/
def ofTemplate (d : FDep) (l : List FSet) : Option FSet := l.find? fun f => equalIgnoreHash f.tmpl d.template

/-- the sets of other templates followed by the one of the current template; deployment_sync.go:120-140 with `FindOldMachineSets`, deployment_util.go:881-896 -/
def inOrder (d : FDep) (l : List FSet) : List FSet :=
  match ofTemplate d l with
  | some n => others l n.set.name ++ [n]
  | none => l

/-- the status calculated at the time `now` for generation `gen` of the deployment, deployment_sync.go:621-665 -/
def summary (now gen : Int) (d : FDep) (l : List FSet) : Status.DStatus :=
  Status.calcDep now { dep := d.spec, generation := gen } ((inOrder d l).map shown) ((ofTemplate d l).map shown)

/-- `MachineDeploymentComplete` of the status just calculated, as in deployment_progress.go:51 and 168; deployment_util.go:1009-1014 -/
def said (now gen : Int) (d : FDep) (l : List FSet) : Bool := Status.complete { dep := d.spec, generation := gen } (summary now gen d l)

end MCM.World
