import Verif.Model.Rolling
/-!
What a run of a rolling update returns to the queue. pkg/controller/deployment_rolling.go.
-/
namespace MCM.Rolling

/-- Outcomes of the calls at the end of a run: whether the status of the deployment says that the rollout is complete, whether annotations of nodes and old sets could be
cleaned up, and whether the status could be written; deployment_rolling.go:94-124 -/
structure Rest where
  complete : Bool := false
  cleanOk : Bool := true
  statusOk : Bool := true

/-- Does `rolloutRolling` return an error? deployment_rolling.go:48-124. An error of `reconcileOldMachineSets` cannot occur: it returns `false, nil` when a call failed
(190-193, 199-202). `preOk`: revision sync and annotations of nodes; a failure to taint nodes is only logged (84-86). -/
def rolloutError (d : Dep) (env : Env) (r : Rest) (old : List MS) (new : MS) : Bool :=
  if !env.preOk then true
  else
    let n := reconcileNew d env.okNew (old ++ [new]) new
    if n.2.2 then true
    else if n.2.1 then !r.statusOk
    else if (reconcileOld d env (specSum (old ++ [n.1])) (old.filter (fun s => s.spec > 0)) n.1).2 then !r.statusOk
    else if r.complete && !r.cleanOk then true
    else !r.statusOk

end MCM.Rolling
