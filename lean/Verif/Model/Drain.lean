/-!
Model of draining a node: /repo/pkg/util/provider/drain/drain.go:218-441, 447-536, 538-542, 628-821, 1025-1120, 1157-1200 and the options used
in machinecontroller/machine_util.go:1160-1183. Volumes are modelled in `Volumes.lean`.
-/
namespace MCM.Drain

/-- Kinds of volumes told apart in drain.go:317-325 and 443-445 -/
inductive Vol
  | emptyDir
  | pvc (claim : String)
  | other
deriving DecidableEq, Repr

/-- The parts of a pod read during a drain. drain.go:271-337, 447-476, 538-542 -/
structure Pod where
  ns : String := "default"
  name : String
  uid : String
  node : String
  /-- has the annotation kubernetes.io/config.mirror -/
  mirror : Bool := false
  /-- the kind of the owner reference with `controller: true`, `metav1.GetControllerOf` -/
  controller : Option String := none
  /-- succeeded or failed -/
  finished : Bool := false
  vols : List Vol := []
  priority : Option Int := some 0
deriving DecidableEq, Repr

/-- the options of `NewDrainOptions`, drain.go:168-215, that decide which pods are drained -/
structure Flags where
  ignoreUncontrolled : Bool
  ignoreDaemonsets : Bool
  deleteLocalData : Bool
deriving DecidableEq, Repr

/-- the values used, machine_util.go:1170-1172 -/
def flags : Flags := { ignoreUncontrolled := true, ignoreDaemonsets := true, deleteLocalData := true }

/-- what a filter says: include the pod, and whether its presence is fatal; drain.go:275-337 -/
abbrev Filter := Bool × Bool

/-- `mirrorPodFilter`, drain.go:312-317 -/
def mirrorFilter (p : Pod) : Filter := (!p.mirror, false)

/-- `localStorageFilter`, drain.go:319-337 -/
def localFilter (f : Flags) (p : Pod) : Filter :=
  if p.vols.any (· = .emptyDir) then (if f.deleteLocalData then (true, false) else (false, true)) else (true, false)

/-- `unreplicatedFilter`, drain.go:275-289 -/
def unreplicatedFilter (f : Flags) (p : Pod) : Filter :=
  if p.finished then (true, false) else if p.controller.isSome then (true, false) else if f.ignoreUncontrolled then (true, false) else (false, true)

/-- `daemonsetFilter`, drain.go:291-310 -/
def daemonsetFilter (f : Flags) (p : Pod) : Filter :=
  if p.controller ≠ some "DaemonSet" then (true, false) else if f.ignoreDaemonsets then (false, false) else (false, true)

/-- the four filters, drain.go:369 -/
def filters (f : Flags) (p : Pod) : List Filter := [mirrorFilter p, localFilter f p, unreplicatedFilter f p, daemonsetFilter f p]

/-- `getPodsForDeletion`, drain.go:351-390; `none`: an error -/
def podsForDeletion (f : Flags) (node : String) (cache : List Pod) : Option (List Pod) :=
  if (cache.filter (·.node = node)).any (fun p => (filters f p).any (·.2)) then none
  else some ((cache.filter (·.node = node)).filter fun p => (filters f p).all (·.1))

/-- drain.go:443-445, 454-462 -/
def hasPvc (p : Pod) : Bool := p.vols.any fun v => match v with
  | .pvc _ => true
  | _ => false

/-- `filterPodsWithPv`, drain.go:447-468 -/
def splitPv : List Pod → List Pod × List Pod
  | [] => ([], [])
  | p :: ps => if hasPvc p then (p :: (splitPv ps).1, (splitPv ps).2) else ((splitPv ps).1, p :: (splitPv ps).2)

/-! ### evictions -/

/-- `deletePod` and `evictPod`, drain.go:392-421 -/
inductive Verb | evict | delete
deriving DecidableEq, Repr

/-- the server's answer to an eviction or deletion; as told apart in drain.go:738-786 and 1040-1084 -/
inductive Resp | ok | tooMany | notFound | error
deriving DecidableEq, Repr

/-- how waiting for the detachment of the volumes ends; `waitForDetach`, drain.go:861-922 -/
inductive Detach | ok | nodeGone | error
deriving DecidableEq, Repr

/-- how waiting for their attachment elsewhere ends; `waitForReattach`, drain.go:937-986 -/
inductive Reattach | ok | timeout | error
deriving DecidableEq, Repr

/-- What can be observed: requests with their answers, waits with their outcome, and results put into the channel `returnCh`. (The program
does not say to which pod a result belongs.); drain.go:490-526, 692-821, 1025-1097. -/
inductive Ev
  | req (p : Pod) (v : Verb) (r : Resp)
  | detach (p : Pod) (d : Detach)
  | reattach (p : Pod) (r : Reattach)
  | result (p : Pod) (ok : Bool)
deriving DecidableEq, Repr

/-- What the surroundings do while a pod is visited. `done`: the drain has timed out; `pdb`: the disruption budget found for the pod is
misconfigured. drain.go:692-821. -/
structure Ans where
  done : Bool := false
  resp : Resp := .ok
  pdb : Bool := false
  detach : Detach := .ok
  reattach : Reattach := .ok
deriving DecidableEq, Repr

/-- what happens after a pod: it is retried in the next round, it is settled, or the rest of the list is not visited;
the branches of the loop in drain.go:715-819 -/
inductive Next | retry | settled | stop
deriving DecidableEq, Repr

/-- the waits after a successful request, drain.go:768-816 -/
def waits (a : Ans) (p : Pod) : List Ev × Next :=
  match a.detach with
  | .nodeGone => ([.detach p .nodeGone, .result p true], .stop)
  | .error => ([.detach p .error, .result p false], .settled)
  | .ok => match a.reattach with
    | .error => ([.detach p .ok, .reattach p .error, .result p false], .settled)
    | r => ([.detach p .ok, .reattach p r, .result p true], .settled)

/-- one pass through the loop of `evictPodsWithPVInternal`, drain.go:705-817 -/
def visit (attempt : Bool) (a : Ans) (p : Pod) : List Ev × Next :=
  if a.done then ([.result p true], .stop)
  else if attempt && a.resp = .tooMany then
    if a.pdb then ([.req p .evict .tooMany, .result p false], .settled) else ([.req p .evict .tooMany], .retry)
  else match a.resp with
    | .notFound => ([.req p (if attempt then .evict else .delete) .notFound, .result p true], .settled)
    | .ok => (.req p (if attempt then .evict else .delete) .ok :: (waits a p).1, (waits a p).2)
    | r => ([.req p (if attempt then .evict else .delete) r], .retry)

/-- events, remaining pods, "fast track"; result of `evictPodsWithPVInternal`, drain.go:692-821 -/
structure Round where
  evs : List Ev
  rem : List Pod
  fast : Bool
deriving DecidableEq, Repr

/-- `evictPodsWithPVInternal`, drain.go:692-821. The pods to retry are kept in front of those not visited. -/
def internal (attempt : Bool) (a : Pod → Ans) : List Pod → Round
  | [] => ⟨[], [], false⟩
  | p :: ps =>
    match (visit attempt (a p) p).2 with
    | .stop => ⟨(visit attempt (a p) p).1, ps, true⟩
    | .settled => ⟨(visit attempt (a p) p).1 ++ (internal attempt a ps).evs, (internal attempt a ps).rem, (internal attempt a ps).fast⟩
    | .retry => ⟨(visit attempt (a p) p).1 ++ (internal attempt a ps).evs, p :: (internal attempt a ps).rem, (internal attempt a ps).fast⟩

/-- the loop drain.go:644-660, from round `r` on; without any round `remainingPods` stays empty -/
def rounds (a : Nat → Pod → Ans) (r : Nat) : Nat → List Pod → Round
  | 0, _ => ⟨[], [], false⟩
  | n + 1, ps =>
    if (internal true (a r) ps).fast || (internal true (a r) ps).rem.isEmpty || n = 0 then internal true (a r) ps
    else ⟨(internal true (a r) ps).evs ++ (rounds a (r + 1) n (internal true (a r) ps).rem).evs,
      (rounds a (r + 1) n (internal true (a r) ps).rem).rem, (rounds a (r + 1) n (internal true (a r) ps).rem).fast⟩

/-- `evictPodsWithPv`, drain.go:628-682, after sorting. `n`: `MaxEvictRetries`. -/
def withPv (attempt : Bool) (n : Nat) (a : Nat → Pod → Ans) (ps : List Pod) : List Ev :=
  if attempt then
    if !(rounds a 0 n ps).fast && !(rounds a 0 n ps).rem.isEmpty then
      (rounds a 0 n ps).evs ++ (internal false (a n) (rounds a 0 n ps).rem).evs ++
        (internal false (a n) (rounds a 0 n ps).rem).rem.map (Ev.result · false)
    else (rounds a 0 n ps).evs ++ (rounds a 0 n ps).rem.map (Ev.result · (rounds a 0 n ps).fast)
  else (internal false (a 0) ps).evs ++ (internal false (a 0) ps).rem.map (Ev.result · false)

/-- `sortPodsByPriority`, drain.go:538-542, as a relation (the order of equal pods is open); sorting compares every pod if there are at
least two, and the priority is dereferenced -/
def Sorted (ps qs : List Pod) : Prop :=
  qs.Perm ps ∧ qs.Pairwise fun p q => ∀ a b, p.priority = some a → q.priority = some b → b ≤ a

/-- sorting panics; `*pods[i].Spec.Priority` with a nil pointer, drain.go:538-542 -/
def sortPanics (ps : List Pod) : Bool := decide (2 ≤ ps.length) && ps.any (·.priority.isNone)

/-! ### pods without volumes -/

/-- what `Get` returns for a pod: the client returns an object in any case (empty in case of an error); drain.go:1104-1110 -/
inductive GetAns
  | found (uid : String)
  | notFound
  | error
deriving DecidableEq, Repr

/-- `p.ObjectMeta.UID`; in drain.go:1106 -/
def GetAns.uid : GetAns → String
  | .found u => u
  | _ => ""

/-- How `waitForDelete` ends, drain.go:1099-1121 -/
inductive Waited | gone | timeout | error
deriving DecidableEq, Repr

/-- `waitForDelete` for one pod, drain.go:1099-1120; the list holds the answers until the timeout -/
def waitForDelete (p : Pod) : List GetAns → Waited
  | [] => .timeout
  | g :: gs => if g = .notFound ∨ g.uid ≠ p.uid then .gone else if g = .error then .error else waitForDelete p gs

/-- the surroundings of one pod without volumes: the answers to the requests, whether the budget is misconfigured, and the answers to `Get`;
drain.go:1025-1097 -/
structure Ans1 where
  resp : Nat → Resp
  pdb : Nat → Bool
  gets : List GetAns

/-- after a successful request, drain.go:1072-1096 -/
def afterNoPv (force : Bool) (a : Ans1) (p : Pod) : List Ev :=
  if force then [.result p true] else [.result p (decide (waitForDelete p a.gets = .gone))]

/-- `evictPodWithoutPVInternal`, drain.go:1025-1097, at attempt `i` with `n` evictions left. -/
def noPv (attempt force : Bool) (a : Ans1) (p : Pod) (i : Nat) : Nat → List Ev
  | 0 =>
    .req p .delete (a.resp i) :: match a.resp i with
      | .ok => afterNoPv force a p
      | .notFound => [.result p true]
      | _ => [.result p false]
  | n + 1 =>
    if attempt then
      .req p .evict (a.resp i) :: match a.resp i with
        | .ok => afterNoPv force a p
        | .notFound => [.result p true]
        | .error => [.result p false]
        | .tooMany => if a.pdb i then [.result p false] else noPv attempt force a p (i + 1) n
    else
      .req p .delete (a.resp i) :: match a.resp i with
        | .ok => afterNoPv force a p
        | .notFound => [.result p true]
        | _ => [.result p false]

/-! ### the whole -/

/-- `evictPods`, drain.go:490-526: one sequential process for the pods with volumes, one for each other pod; with force, one for each pod.
The result is the list of their traces. `sorted`: the pods with volumes after sorting. -/
def processes (force attempt : Bool) (n : Nat) (a : Nat → Pod → Ans) (a1 : Pod → Ans1) (ps sorted : List Pod) : List (List Ev) :=
  if force then ps.map fun p => noPv attempt force (a1 p) p 0 n
  else withPv attempt n a sorted :: (splitPv ps).2.map fun p => noPv attempt force (a1 p) p 0 n

/-- the results sent; to `returnCh`, drain.go:490-526 -/
def results : List Ev → List (Pod × Bool)
  | [] => []
  | .result p b :: evs => (p, b) :: results evs
  | _ :: evs => results evs

/-- How the loop drain.go:513-525 ends: it takes one result for each of the `n` pods. -/
inductive End
  | success | failure
  /-- waits for ever for a further result -/
  | blocked
  /-- a further result is sent to the closed channel -/
  | panic
deriving DecidableEq, Repr

/-- Collecting the results, drain.go:513-525: with too few the receiver waits forever, with too many a value is sent to the closed channel -/
def collect (n : Nat) (rs : List (Pod × Bool)) : End :=
  if rs.length < n then .blocked else if n < rs.length then .panic else if rs.all (·.2) then .success else .failure

/-- a group that the discovery API lists, with its preferred version, drain.go:1133-1139 -/
structure Group where
  name : String
  preferred : String
deriving DecidableEq, Repr

/-- a resource of the version v1 that the discovery API lists, drain.go:1147-1151 -/
structure Resource where
  name : String
  kind : String
deriving DecidableEq, Repr

/-- `SupportEviction`, drain.go:1123-1153; the constants are those of drain.go:127-130. `groups` and `resources` are the answers of the discovery API, `none` an error.
The result is the version of the group, empty if evictions are not served; `none` is an error. -/
def supportEviction (groups : Option (List Group)) (resources : Option (List Resource)) : Option String :=
  match groups with
  | none => none
  | some gs =>
    match gs.find? (·.name == "policy") with
    | none => some ""
    | some g =>
      match resources with
      | none => none
      | some rs => if rs.any fun r => r.name == "pods/eviction" && r.kind == "Eviction" then some g.preferred else some ""

/-- `attemptEvict`, drain.go:438; `supported`: the group version found by `SupportEviction` is not empty -/
def attempts (force supported : Bool) : Bool := !force && supported

/-- `deleteOrEvictPods`, drain.go:424-441: `none` – it ends with an error before any pod is asked to leave; otherwise whether evictions are attempted. With no pods it ends
before (425-427), which is not shown here. -/
def handOver (force : Bool) (groups : Option (List Group)) (resources : Option (List Resource)) : Option Bool :=
  (supportEviction groups resources).map fun v => attempts force (v != "")

/-- the number of evictions, machine_util.go:1065 and 1121: limited by the drain timeout (in seconds) divided by twenty seconds -/
def retries (forced : Bool) (maxEvictRetries : Nat) (timeout : Nat) : Nat := if forced then 1 else min maxEvictRetries (timeout / 20)

/-! ### cordoning -/

/-- `RunCordonOrUncordon`, drain.go:1157-1176, and the start of `RunDrain`, 237-248. `unschedulable`: the state of the node, `none` if it does
not exist; `readOk`, `updateOk`: the calls work. Returned: does the drain go on, and the state of the node then. -/
def cordon (unschedulable : Option Bool) (readOk updateOk : Bool) : Bool × Option Bool :=
  match unschedulable with
  | none => (true, none)
  | some u =>
    if !readOk then (true, some u)
    else if u then (true, some u)
    else if updateOk then (true, some true)
    else (false, some u)

end MCM.Drain
