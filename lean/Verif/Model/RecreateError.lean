import Verif.Model.Recreate
/-!
What a run of the strategy Recreate returns to the queue. pkg/controller/deployment_recreate.go.
-/
namespace MCM.Recreate
open MCM MCM.Rolling MCM.Scale

/-- Outcomes of the calls at the end of a run: whether the status of the deployment says that the rollout is complete, whether annotations of nodes and old sets could be
cleaned up, and whether the status could be written; deployment_recreate.go:70, 75, 93-108 -/
structure Rest where
  complete : Bool := false
  cleanOk : Bool := true
  statusOk : Bool := true

/-- the end of a run, once the set `n` of the current template is there; deployment_recreate.go:88-108 -/
def finishError (d : Dep) (o : Out) (r : Rest) (n : MSet) : Bool :=
  if (scaleSetEv d (o.scaleEnv.ok n) n d.replicas).2 then true
  else if r.complete && !r.cleanOk then true
  else !r.statusOk

/-- Does `rolloutRecreate` return an error? deployment_recreate.go:35-109. `preOk`: revision sync and annotations of nodes (43-62). Old sets are scaled down to zero only
if their size is positive, so that without an error `scaledDown` is true whenever there are any (112-130). -/
def rolloutError (d : Dep) (o : Out) (r : Rest) (v : View) : Bool :=
  if !o.preOk then true
  else if (active v.old).length > 0 then
    if (zeroAll d o.scaleEnv.ok (active v.old)).2 then true else !r.statusOk
  else if oldMachinesRunning v then !r.statusOk
  else
    match v.new with
    | some n => finishError d o r n
    | none =>
      match o.created with
      | none => true
      | some n => finishError d o r n

end MCM.Recreate
