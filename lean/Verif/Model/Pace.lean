import Verif.Model.OwnNode
import Verif.Model.Health
import Verif.Model.NodeSync
import Verif.Model.Worker
/-!
When the machine controller comes back to a machine: the retry periods returned by the steps and what the queues make of them.
/repo/pkg/util/provider/machinecontroller/machine.go:138-292, machine_util.go:76-118, 236-347, 618-806, 1640-1669, /repo/pkg/util/provider/machineutils/utils.go:86-93,
/repo/pkg/util/worker/worker.go:37-68 and client-go's `DefaultControllerRateLimiter` (vendored library; its documented behaviour). Times are in milliseconds.
-/
namespace MCM.Pace
open MCM MCM.Similar

/-! ### A machine not being deleted -/

/-- `reconcileMachineHealth`, machine_util.go:618-806 and 1640-1669: the retry period, if it returns an error and so ends the run. `status`: the answer to the
status update; `markErr`: `tryMarkingMachineFailed` returns an error. A status update that succeeds returns an error too (line 799). -/
def healthDelay (o : Health.Outcome) (status : ApiRes) (markErr : Bool) : Option Nat :=
  match o with
  | .error => some shortRetry
  | .nothing => none
  | .recheck => none
  | .tryFail => if markErr then some shortRetry else none
  | .status _ _ _ => some (if status = .conflict then conflictRetry else shortRetry)

/-- what the node lister answers; machine_util.go:236-347 -/
inductive Look (α : Type)
  | fail | notFound | found (a : α)

/-- `syncMachineNameToNode`, machine_util.go:236-266; `found w`: the node to be written, if any, as in `OwnNode.syncName` -/
def nameDelay (l : Look (Option OwnNode.Node)) (res : ApiRes) : Option Nat :=
  match l with
  | .fail => some shortRetry
  | .notFound => none
  | .found none => none
  | .found (some _) => match res with
    | .ok => none
    | .conflict => some conflictRetry
    | .fail => some shortRetry

/-- `syncMachineNodeTemplates`, machine_util.go:271-347; an update that succeeds returns an error too (line 338) -/
def templateDelay (l : Look NodeSync.Decision) (res : ApiRes) : Option Nat :=
  match l with
  | .fail => some shortRetry
  | .notFound => none
  | .found .error => some shortRetry
  | .found .nothing => none
  | .found (.update _) => some (if res = .conflict then conflictRetry else shortRetry)

/-- The outside world during a run; the field `health` of `base` is not used. machine.go:171-238, machine_util.go:236-347, 618-806 -/
structure Env where
  base : Creation.Env := {}
  health : Health.Outcome := .nothing
  healthRes : ApiRes := .ok
  markErr : Bool := false
  name : Look (Option OwnNode.Node) := .found none
  nameRes : ApiRes := .ok
  template : Look NodeSync.Decision := .found .nothing
  templateRes : ApiRes := .ok

/-- the three steps in their order, machine.go:209-225 -/
def Env.checks (e : Env) : Option Nat :=
  (healthDelay e.health e.healthRes e.markErr).or ((nameDelay e.name e.nameRes).or (templateDelay e.template e.templateRes))

/-- the environment of `Creation.reconcile`; machine.go:171-238 -/
def Env.full (e : Env) : Creation.Env := { e.base with health := e.checks }

/-- the run comes to the health check, machine.go:175-209 -/
def atHealth (e : Creation.Env) (v : Creation.Obj) : Bool :=
  !v.deleting && !e.frozen && e.valid && e.classFound && e.classFinalizer && e.templateOk && v.finalizer && v.node.getD "" != "" && v.st.phase != .empty

/-- The delays for which a run asks for another one, machine.go:138-169: always the retry period at its end; before that a minute when a timeout is pending
(machine_util.go:732, 784). A machine being deleted belongs to the other queue; a panic ends the process. -/
def live (e : Env) (v : Creation.Obj) : List Nat :=
  if v.deleting || (Creation.reconcile e.full v).panic then []
  else (if atHealth e.base v ∧ e.health = .recheck then [60000] else []) ++ [(Creation.reconcile e.full v).retry]

/-! ### A machine being deleted -/

/-- `ValidateMachineClass`, machine_util.go:76-118 -/
inductive ClassCheck
  | ok | missing | noFinalizer | badTemplate
deriving DecidableEq, Repr

/-- the retry period of `ValidateMachineClass` if it fails; machine_util.go:76-118 -/
def ClassCheck.delay : ClassCheck → Option Nat
  | .ok => none
  | .missing => some longRetry
  | .noFinalizer => some shortRetry
  | .badTemplate => some shortRetry

/-- what the API server answers to the last write of a run of the flow: the retry period and whether an error is returned;
machine_util.go:545-576, 847-866; machine.go:256-292 -/
def settle (e : Termination.Env) (v : Termination.Obj) (o : Termination.Out) (res : ApiRes) : Nat × Bool :=
  match o.write with
  | none => (o.retry, o.err)
  | some (.status true s) => match statusUpdate e.now res v.st s with
    | (_, r, true) => (r, true)
    | (_, _, false) => (o.retry, o.err)
  | some (.status false _) => (if res = .conflict then conflictRetry else o.retry, true)
  | some .dropFinalizer => if res = .ok then (o.retry, o.err) else (shortRetry, true)

/-- `reconcileClusterMachineTermination`, machine.go:240-292, with `triggerDeletionFlow`, 699-761: the delay of `enqueueMachineTerminationAfter` and whether an error
is returned to the worker. `label`, `res`: the answers to the update of the label and to the last write. `none`: panic -/
def term (c : ClassCheck) (e : Termination.Env) (v : Termination.Obj) (label res : ApiRes) : Option (Nat × Bool) :=
  match c.delay with
  | some r => some (r, true)
  | none =>
    if (Termination.labelOf e v).isSome ∧ label ≠ .ok then some (shortRetry, true)
    else if (Termination.flow e v).panic then none
    else some (settle e v (Termination.flow e v) res)

/-! ### The queue -/

/-- the item limiter of `DefaultControllerRateLimiter`: 5 ms, doubled with each failure counted, at most 1000 s;
(client-go, used at controller.go:91-98) -/
def backoff (failures : Nat) : Nat := min (5 * 2 ^ failures) 1000000

/-- The time until the next run of a key, if nothing else adds it: the delay asked for by the run (`AddAfter`) and, after an error while the failures counted
are below the maximum, the one of the rate limiter (`AddRateLimited`, worker.go:56-60); of two delays the queue takes the smaller. `bucket`: the delay of the
limiter common to all keys of the queue; the limiter's delay is the larger of the two. -/
def wait (failures : Nat) (asked : Nat) (err : Bool) (bucket : Nat) : Nat :=
  if err ∧ failures < Worker.maxRetries then min asked (max (backoff failures) bucket) else asked

/-- the failures counted afterwards, worker.go:48-64 -/
def failuresAfter (failures : Nat) (err : Bool) : Nat :=
  if err ∧ failures < Worker.maxRetries then failures + 1 else 0

/-- the time from the first of a sequence of runs of one key until a run after the last of them; for each run the delay asked for, whether there was an error,
and the delay of the common limiter; machine.go:138-169, 240-292; worker.go:37-68 -/
def elapsed (failures : Nat) : List (Nat × Bool × Nat) → Nat
  | [] => 0
  | (asked, err, bucket) :: l => wait failures asked err bucket + elapsed (failuresAfter failures err) l

end MCM.Pace
