import Verif.Model.Volumes
/-!
Start of the two processes: /repo/cmd/machine-controller-manager/app/controllermanager.go (the manager of sets and deployments),
/repo/pkg/util/provider/app/app.go (the machine controller) and the `Run` functions of /repo/pkg/controller/controller.go and
/repo/pkg/util/provider/machinecontroller/controller.go, with the health endpoint of /repo/pkg/handlers/health.go.

Simplifications: the flags are read without failure; configurations of clients can be built. The informers are those of client-go: one says that it has synced when its first list is in
the cache, and it tries again for ever when the list fails. `stop` is a nil channel (controllermanager.go:130, app.go:126): nothing is ever received from it, and `Run` does not
come back.
-/
namespace MCM.Startup

/-- kinds of objects that are kept in caches; controllermanager.go:263-268, app.go:273-283 -/
inductive Kind | node | machine | set | deployment | cls | secret | pod | pvc | pv | pdb | attachment
deriving DecidableEq, Repr

/-- queues with workers; /repo/pkg/controller/controller.go:194-231, /repo/pkg/util/provider/machinecontroller/controller.go:272-323 -/
inductive Queue | sets | deployments | overshooting | secrets | classes | nodes | machines | terminations | orphans | apiServer
deriving DecidableEq, Repr

/-! ## What the API server offers -/

/-- `strings.Split(s, "/")`; (Go's library), behind controllermanager.go:331 and app.go:346 -/
def splitSlash : List Char → List Char → List String
  | acc, [] => [String.ofList acc.reverse]
  | acc, c :: cs => if c = '/' then String.ofList acc.reverse :: splitSlash [] cs else splitSlash (c :: acc) cs

/-- `schema.ParseGroupVersion` of apimachinery, called at controllermanager.go:331 and app.go:346; `none` is its error -/
def parseGroupVersion (s : String) : Option (String × String) :=
  if s = "" ∨ s = "/" then some ("", "") else
  match splitSlash [] s.toList with
  | [v] => some ("", v)
  | [g, v] => some (g, v)
  | _ => none

/-- `getAvailableResources`, controllermanager.go:292-341 and app.go:307-356. `healthz`: the results of the requests for the health of the server within ten seconds; `lists`: the
group versions with their resources. An error of the discovery itself is only logged. -/
def available (healthz : List Bool) (lists : List (String × List String)) : Option (List (String × String × String)) :=
  if ¬ healthz.any id then none
  else if lists.isEmpty then none
  else (lists.mapM fun l => (parseGroupVersion l.1).map fun gv => l.2.map fun r => (gv.1, gv.2, r)).map List.flatten

/-- `machineGVR`, `machineSetGVR`, `machineDeploymentGVR`, controllermanager.go:69-73, app.go:69-71 -/
def gvr (r : String) : String × String × String := ("machine.sapcloud.io", "v1alpha1", r)

/-- `IsResourceSupported`, /repo/pkg/util/k8sutils/helper.go:24-62, for the volume attachments, machinecontroller/controller.go:195-207: whether the process has a handler of volume
attachments, decided once. `groups`: the answer to the request for the groups (name and preferred version), `resources`: the one for the resources of a group version; `none` is a failing
request. -/
def handler (groups : Option (List (String × String))) (resources : String → Option (List String)) : Bool :=
  match groups with
  | none => false
  | some gs =>
    match gs.find? (·.1 == "storage.k8s.io") with
    | none => false
    | some g => ((resources g.2).getD []).contains "volumeattachments"

/-! ## The programs -/

/-- What differs between the two programs: controllermanager.go:202-290, app.go:199-305. -/
structure Program where
  /-- whether `StartControllers` goes on after looking at the resources -/
  accepts : List (String × String × String) → Bool
  /-- the informers that are created -/
  watches : List Kind
  /-- the caches `Run` waits for -/
  waits : List Kind
  /-- the queues that get workers -/
  queues : List Queue
  /-- the caches the reconciler of a queue reads -/
  reads : Queue → List Kind
  /-- the caches it reads after waiting for them itself, drain.go:242 -/
  later : Queue → List Kind

/-- controllermanager.go:231 (a single one of the resources is enough), 259-271; controller.go:194-231. The reads of the reconcilers: machineset.go:512; deployment.go:353, 388, 623 with
deployment_sync.go, deployment_rolling.go, deployment_rollback.go (sets and machines); machine_safety.go:77-208. -/
def manager : Program where
  accepts l := l.contains (gvr "machines") || l.contains (gvr "machinesets") || l.contains (gvr "machinedeployments")
  watches := [.node, .machine, .set, .deployment]
  waits := [.node, .machine, .set, .deployment]
  queues := [.sets, .deployments, .overshooting]
  reads
    | .sets => [.machine]
    | .deployments => [.set, .machine]
    | .overshooting => [.deployment, .set, .machine]
    | _ => []
  later _ := []

/-- `ConstraintK8sGreaterEqual121`, /repo/pkg/util/k8sutils/version.go: `>= 1.21-0`, the least of all versions 1.21 -/
def from121 (v : Nat × Nat) : Bool := decide (1 < v.1) || (v.1 == 1 && decide (21 ≤ v.2))

/-- app.go:238, 268-288; machinecontroller/controller.go:272-323. The reads: secret.go:35, secret_util.go:32; machineclass.go:75, machineclass_util.go:14; node.go:40; machine.go:144-511
with machine_util.go:83, 177, 237, 278, 626, 1563, 1606; for terminations also machine_util.go:1089, 1176-1180, 1246, 1262 and drain.go:735, 833, 994, 1059 (352, pods, after
waiting); machine_safety.go:65, 156, 210, 258 with machine_util.go:83, 177. -/
def controller (v : Nat × Nat) : Program where
  accepts l := l.contains (gvr "machines")
  watches := [.pvc, .pv, .secret, .node, .pod, .pdb, .attachment, .cls, .machine]
  waits := if from121 v then [.secret, .pvc, .pv, .pdb, .attachment, .node, .cls, .machine] else [.secret, .pvc, .pv, .attachment, .node, .cls, .machine]
  queues := [.secrets, .classes, .nodes, .machines, .terminations, .orphans, .apiServer]
  reads
    | .secrets => [.secret, .cls]
    | .classes => [.cls, .machine]
    | .nodes => [.node]
    | .machines => [.machine, .cls, .secret, .node]
    | .terminations => [.machine, .cls, .secret, .node, .pvc, .pv, .pdb, .attachment]
    | .orphans => [.node, .cls, .machine, .secret]
    | .apiServer => [.machine]
    | _ => []
  later
    | .terminations => [.pod]
    | _ => []

/-! ## The life of a process -/

/-- the flags: `--concurrent-syncs` (an int32 that is not checked, cmd/machine-controller-manager/app/options/options.go:108-112, pkg/util/provider/app/options/options.go:123-127), `--leader-elect` -/
structure Conf where
  workers : Int
  elect : Bool := true

/-- controllermanager.go:76-290 and app.go:74-305 -/
inductive Stage | booting | leading | waiting | running | dead
deriving DecidableEq, Repr

/-- The state of a process; controllermanager.go:76-290, app.go:74-305 -/
structure P where
  stage : Stage := .booting
  http : Bool := false
  /-- `healthy`, handlers/health.go:13-22 -/
  healthy : Bool := false
  filled : List Kind := []

/-- What happens: the http server starts; a request to `/healthz` and its answer; the lease is obtained; `StartControllers` with what discovery gives; a cache has its first list; the
workers start; a reconciler reads a cache; the lease is lost or the process ends for another reason.
controllermanager.go:76-290, app.go:74-305. -/
inductive Event
  | http | probe (ok : Bool) | elected | start (healthz : List Bool) (lists : List (String × List String)) | fill (k : Kind) | go | read (q : Queue) (k : Kind) | die
deriving DecidableEq

/-- one event; `none`: it cannot happen now; controllermanager.go:76-290, app.go:74-305 -/
def step (p : Program) (c : Conf) (s : P) : Event → Option P
  -- controllermanager.go:125, 351-372, app.go:121, 366-393: `healthy` is set before anything else is started
  | .http => if s.stage ≠ .dead ∧ ¬ s.http then some { s with http := true, healthy := true } else none
  -- handlers/health.go:27-41
  | .probe ok => if s.stage ≠ .dead ∧ s.http ∧ ok = s.healthy then some s else none
  -- controllermanager.go:160-199: without election `run` is called at once
  | .elected => if s.stage = .booting then some { s with stage := .leading } else none
  -- controllermanager.go:202-285: an error ends the process (155)
  | .start hz lists =>
    if s.stage = .leading then
      match available hz lists with
      | none => some { s with stage := .dead }
      | some l => some { s with stage := if p.accepts l then .waiting else .dead }
    else none
  | .fill k => if (s.stage = .waiting ∨ s.stage = .running) ∧ k ∈ p.watches then some { s with filled := k :: s.filled } else none
  -- controller.go:207-210 with /repo/pkg/util/provider/cache/cache.go: polled until all have synced
  | .go => if s.stage = .waiting ∧ p.waits.all (s.filled.contains ·) then some { s with stage := .running } else none
  -- controller.go:220-224: one worker per queue and turn of the loop; none if the number is not positive
  | .read q k =>
    if s.stage = .running ∧ 0 < c.workers ∧ q ∈ p.queues ∧ (k ∈ p.reads q ∨ (k ∈ p.later q ∧ k ∈ s.filled)) then some s else none
  -- controllermanager.go:193-195: a lost lease ends the process
  | .die => if s.stage ≠ .dead then some { s with stage := .dead } else none

/-- an execution from the start of the process; controllermanager.go:76-290, app.go:74-305 -/
def exec (p : Program) (c : Conf) : P → List Event → Option P
  | s, [] => some s
  | s, e :: es => (step p c s e).bind fun s => exec p c s es

end MCM.Startup
