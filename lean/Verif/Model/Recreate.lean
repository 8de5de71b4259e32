import Verif.Model.Scale
/-!
Model of the Recreate strategy, /repo/pkg/controller/deployment_recreate.go, and of the dispatch between scaling and
rollout in `reconcileClusterMachineDeployment`, /repo/pkg/controller/deployment.go:507-551.
-/
namespace MCM.Recreate
open MCM MCM.Rolling MCM.Scale

/-- What one run of the deployment controller sees: the machine sets (old ones and the one carrying the current template,
if it exists), their reported replicas and the machines controlled by each set (by set name; the code uses UIDs).
deployment_recreate.go:35-160, deployment.go:492-551. -/
structure View where
  old : List MSet
  new : Option MSet
  /-- `Status.Replicas` by set name -/
  status : String → Int
  /-- number of machines in the machine map by set name, deployment.go:379-409 -/
  machines : String → Nat

/-- Outcomes of one run. deployment.go:507-551, deployment_recreate.go:35-110. -/
structure Out where
  /-- everything before scaling succeeded (revision sync, node annotations) -/
  preOk : Bool := true
  scaleEnv : Scale.Env := {}
  /-- the set obtained when the new set must be created: created, or found as already existing
  (deployment_sync.go:336-364); `none`: creation failed -/
  created : Option MSet := none

/-- `oldMachinesRunning`, deployment_recreate.go:133-147 -/
def oldMachinesRunning (v : View) : Bool :=
  if (v.old.map fun s => v.status s.name).sum > 0 then true
  else (v.old.map (·.name) ++ v.new.toList.map (·.name)).any fun n =>
    if (v.new.map (·.name)) = some n then false else decide (v.machines n > 0)

/-- `rolloutRecreate`, deployment_recreate.go:35-109 with scaleDownOldMachineSetsForRecreate 112-130 and
scaleUpNewMachineSetForRecreate 150-153, effect on machine sets. A set created for Recreate gets `replicas` at once
(`NewISNewReplicas`, deployment_util.go:1104-1105); a set found existing keeps its size until scaled. -/
def rolloutRecreate (d : Dep) (o : Out) (v : View) : List MSet × Option MSet :=
  if !o.preOk then (v.old, v.new)
  else
    let act := active v.old
    if act.length > 0 then
      ((v.old.filter fun s => !(s.spec > 0)) ++ (zeroAll d o.scaleEnv.ok act).1, v.new)
    else if oldMachinesRunning v then (v.old, v.new)
    else
      match v.new with
      | some n => (v.old, some (scaleSetEv d (o.scaleEnv.ok n) n d.replicas).1)
      | none =>
        match o.created with
        | none => (v.old, none)
        | some n => (v.old, some (scaleSetEv d (o.scaleEnv.ok n) n d.replicas).1)

/-- split the sets returned by `scale` into old ones and the new one again; deployment_sync.go:402-497 -/
def splitNew (new : Option MSet) (l : List MSet) : List MSet × Option MSet :=
  match new with
  | none => (l, none)
  | some n => (l.filter fun s => s.name ≠ n.name, l.find? fun s => s.name = n.name)

/-- `reconcileClusterMachineDeployment` from the paused check on (deployment.go:511-551) for a deployment with the
Recreate strategy and no rollback request: paused or scaling → `sync` (scale), else rollout. -/
def reconcile (d : Dep) (paused : Bool) (o : Out) (v : View) : List MSet × Option MSet :=
  if paused || isScalingEvent d v.old v.new then
    if !o.preOk then (v.old, v.new) else splitNew v.new (scale d o.scaleEnv v.old v.new).1
  else rolloutRecreate d o v

end MCM.Recreate
