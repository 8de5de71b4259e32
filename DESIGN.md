# Design of the formal model of gardener/machine-controller-manager

Source: `/repo` (Go), read as text, never built or run. Model and proofs: Lean 4.33.0, project in `lean/`.

## Layout

* `lean/Verif/Model/*.lean`  – the model: total computable functions, one per Go function, each with a comment
  naming the file and lines it models and every simplification.
* `lean/Verif/Lemmas/*.lean` – helper lemmas (no property statements).
* `lean/Verif/Props/*.lean`  – the property theorems, each with the small independent specification it refers to and,
  beside it, an `example` showing that its hypotheses are met by a concrete non-trivial case. Negations (code violates the
  property) are theorems named `..._false` / `not_...` with an explicit witness; the provable part has suffix `_partial`.
* `lean/Verif/Conform/*.lean` – tests, not proofs: tables of the project's own unit tests, with the outcome the Go test expects,
  evaluated in the model (see "Trusted base").
* `seeded/LOG.jsonl` – log of seeded-bug experiments. `MANIFEST.json` – property → theorem map.

## Method

* Stateful parts are modelled as `step` functions over explicit state; API-server, provider and clock answers are
  arguments (universally quantified), so crashes and failures are covered by quantifying over answers and over
  operation lists. Crash = the remaining writes of a reconcile do not happen.
* `int32` is modelled as `Int` (no overflow) unless stated; metav1.Time as `Int`/`Nat` ticks; maps as association lists or
  functions; `sort.Sort` (unstable) as *any* permutation sorted w.r.t. the comparison.
* Goroutines/channels/locks become explicit interleaved steps.

## Plan per property

| Id | Modelled | Proof |
|----|----------|-------|
| C01 | `slowStartBatch` loop, outcomes = oracle on call index | induction on remaining |
| C02 | `manageReplicas` decision + effect on live set | case analysis + iteration lemma |
| C03 | `ActiveMachines.Less`, `getMachinesToDelete` with arbitrary sorted permutation | strict weak order + sortedness |
| C04, C05 | `manageReplicas` | case analysis |
| C06 | `ClaimObject`, adopt/release patches with UID precondition against live store, interleavings | invariant by induction |
| C07 | reconcile deletion branches | case analysis, traces |
| C08 | `ContExpectations`, `UIDTrackingContExpectations` | refinement to multiset history |
| C09 | intstr scaling, `ResolveFenceposts`, `MaxUnavailable`, `MinAvailable`, `MaxSurge` | arithmetic |
| C10–C12 | rolling-update functions over lists of machine sets | invariants, well-founded measure |
| C13 | `scale`, `GetProportion`, `getMachineSetFraction` (float rounding as exact integer rounding) | arithmetic over lists; expected to be violated by code in corner cases → witnesses + partial |
| C14 | `rolloutRecreate` | case analysis + traces |
| C15–C17 | revision annotations, `EqualIgnoreHash`, rollback | map lemmas; C16/C17 expected to fail in one argument order → witness |
| C18 | `cleanupMachineDeployment` | list induction |
| C19, C20 | status/condition functions | list lemmas |
| C21 | freeze decision | arithmetic, traces |
| C22–C24 | `triggerDeletionFlow` and its steps over persisted status, descriptions as real strings | invariant over traces with arbitrary failures/crashes |
| C25, C26 | `reconcileClusterMachine`, `triggerCreationFlow`, `updateLabels` over store+provider | invariant over traces |
| C27 | `checkMachineClass` | list induction |
| C28 | `reconcileClusterMachineSafetyAPIServer` | timed traces; timer not reset on recovery → witness |
| C29 | `reconcileMachineHealth`, `isHealthy` | case analysis, timed traces |
| C30, C31 | permit giver interleavings, `canMarkMachineFailed` | invariant; janitor race → witness |
| C32 | `Status.Error`, `FromError`, bracket scanner | parsing lemma; unbalanced brackets → witness |
| C33, C34 | `SyncMachine{Labels,Annotations,Taints}` | map lemmas |
| C35–C38 | pod filters, eviction loops, shared volumes | list induction; zero retries → witness |
| C39, C40 | class/secret finalizer reconciles, finalizer writes against stale cache | case analysis; lost update → witness |
| C41, C42 | node condition / taint helpers | list lemmas |
| C43 | annotation join/split | string lemma |
| C44 | `isMachineStatusSimilar`, Levenshtein | DP refinement to recursive edit distance |
| C45 | token id | witness of collision; partial |
| C46 | termination queue handler | witness; partial |
| C47 | worker loop | traces |
| C48 | `waitForDetach` | polling traces, pattern matching as parameter |
| C49 | `syncMachines*` with mutable cache | witness; partial |
| C50 | timed-out predicate, `syncRolloutStatus` | case analysis |
| C51 | validation functions | iff theorem |
| C52 | `nodeConditionsHaveChanged` | list lemma |
| C53 | trigger-deletion annotation handling | list lemma |
| C54 | priority annotation / stale machine retries over runs | traces; failed delete not retried → witness |
| C55 | desired-replicas annotation (`isScalingEvent`, `SetReplicasAnnotations`) | traces |
| C56–C73 | added while modelling: unfreeze requests, last known state, drain before deletion, creation liveness, provider ids, leaked VMs, orphan nodes, watch handlers, node-driven deletion, rollout taints and annotations, class completeness, failed phase, drain success, drain order, cordon, reattachment, attachment events | one module each, see below |
| C74–C76 | whole runs of the deployment controller (`Dispatch.reconcile`): pausing, creation of sets, deletion | case analysis over the run; pausing in the same run as a template change, double surge → witnesses |
| C77–C79 | forced drains, VMs whose node name is stale, failing creations (`Outcome`, over Termination and Creation) | iff theorems, case analysis |
| C80–C81 | names and hashes of machine sets, collisions (`Hash`) | injectivity of encoding, counting of names; slow cache and added label → witnesses |
| C82 | adding the hash label to adopted sets (`Adopt`) | list induction; failed machines → witness |
| C83 | termination condition on the node (`NodeReason`) | case analysis; reason given in the wrong phase, conflicts → witnesses |
| C84–C85 | event handlers of the set and deployment controllers (`Wake`) | case analysis over events and caches; unregistered handler → witness |
| C86 | machines made from the template (`Make`) | fold over maps; claiming and replica management reused; marked template → witness for all runs |
| C87 | retry loops around writes (`Retry`) | induction over the attempts; endless loops → witnesses for every number of attempts |
| C88–C89 | handlers and passes for secrets and classes (`RefWake`) | case analysis over events; two keys for one class → witness |
| C90–C91 | all writers of a machine's phase (`Lifecycle`) | invariants over all histories of versions; documented diagram as the spec; played histories as witnesses |
| C92 | undisturbed runs of the machine controller (`LifecycleLive`) | stages counted down over runs |
| C93–C94 | settings in force (`Settings`) | arithmetic, splitting of texts, case analysis; long and short timeouts, blanks, unknown state, `disableHealthTimeout` → witnesses |
| C95 | which nodes a machine's runs touch (`OwnNode`) | invariant over interleavings of many machines and nodes; reused names → witness |
| C96 | volume attachments deleted for a forced deletion (`Attach`) | case analysis of runs, induction over runs; refused deletion → stuck witness |
| C97 | all controllers acting on the machines of one set (`Fleet`) | invariant over all interleavings; distance and stages counted down over epochs; existence of epochs from every start |
| C98 | status writes of the deployment controller (`DepStatus`) | case analysis, induction over runs at arbitrary times; stale-details witnesses |
| C99, C100 | metrics (`Metrics`) | store of series as a function, functional-writes lemma, induction over scrapes; exact characterisation of the crash; witnesses |
| C101 | deployment, machine set and machine controllers together (`World`) | measure of the remaining work that no run increases (`Lemmas/DispatchSteps`), and of the sets that can still be marked or removed (`Lemmas/Marks`); while it stays, projection to `Fleet` per set; statuses settle; a good run then decreases it |
| C102 | the same, after any history (`History`) | invariant of every run of any deployment (`Lemmas/Rescale`: `reconcile_any`, `reconcile_templates`, `reconcile_dep`); three stages in which a change is taken up (`reconcile_next`), then C101 |
| C103 | a deployment with the strategy Recreate comes to its end, too (`RecreateLive`) | a rank that no run increases (`Lemmas/RecreateSteps`: the outcomes of a run, `recreate_better`), instance of `Drives` |
| C104 | objects are never dropped by the work queues (`Loop`) | an invariant of the queue under any number of workers, events and timers; a failure streak of sixteen is the only way out |
| C105 | a whole run of the machine set controller (`SetRun`) | composition of `Claim`, `SyncMachines`, `MachineSet` and `Status` |
| C106 | a lagging machine cache (`Lag`) | per run a bound by the number of machines about which the cache is wrong; executions with a history of versions between store and cache |
| C107 | orphan collection beside the creation of machines (`Collector`) | invariant over the history of the object and the position of the cache in it; look-up and delete request are separate steps |
| C108 | operation, state and timeout flag fit the phase (`LifecycleStatus`) | invariant over the histories of `Lifecycle` |
| C109 | nothing is reconciled before its caches are filled (`Startup`) | executions as lists of events, invariant over what has happened |
| C110 | lease, resources, caches, workers; what `/healthz` says (`Startup`) | same |
| C111 | whether volume attachments are followed is decided once (`Startup`, with `Volumes`) | characterisation |
| C112 | at most one leader (`Election`) | invariant over all interleavings, with discrete time |
| C113 | the floor of serving machines over whole executions (`Floor`, on `World`) | invariant: what the sizes of the sets leave alone does not go below the floor |
| C114 | the ceiling on machines over whole executions (`Ceiling`, on `World`) | invariant: machines there are or are wanted, per set the larger, do not go above the ceiling |
| C115 | teardown of a whole deployment (`Teardown`, composing `Deletion`, `Claim` and `Fleet`) | invariant: what exists has its owner, and the owner has the finalizer; ranking of the machines for the end |
| C116 | recovery after any disturbance (`Rough`, extending `Fleet`, `Lifecycle` and `Termination`) | invariant of all disturbed steps, weaker than that of `Fleet`; four undisturbed epochs lead back to it |
| C117 | teardown after any disturbance of any controller (`Teardown` with `Rough`) | invariant of all disturbed steps (C116's for each machine, C115's for the objects); then C115 |
| C118 | a deployment, its sets, machines and VMs after any edits and any disturbance (`World` with `Rough`) | invariants of C102 and C116 together; four epochs put machines and sets in order; then C101, C103 |
| C119 | delays asked for by every step of the machine controller; the work queue's backoff (`Pace`) | case analysis; for sequences of refusals a potential argument over the failure count |
| C120 | machines of a deployment with Recreate at every moment of any history (`Solo`) | invariant: of two sets one neither wants nor has machines, and if there is a set of the current template, all others are so; the outcomes of a run (`Lemmas/RecreateSteps`: `Outcome`) |
| C121 | when a stuck rollout is reported, over infinite sequences of timed runs (`Stuck`) | the condition's last update is at most the first run's time (no progress is seen after the first run); the run at which the deadline has passed comes in time because of the delay asked for before |
| C122 | the life of a machine's bootstrap token (`Tokens`) | the stored token and all tokens given are dated by a recorded attempt; with fresh caches a token is there only while the last operation is an unfinished creation (or there is no status yet) |
| C123 | reading and printing taints, adding and removing together (`Taints`) | induction over the texts; `IsQualifiedName` and `IsValidLabelValue` are parameters |
| C124 | floating point in percentages, shares, similarity, eviction attempts (`Float64`) | error bounds of rounding to nearest on rationals; exact results are far enough from the thresholds; int32 product → witness |
| C125 | machine set controller on outdated caches and overshooting guard together (`Guard`) | invariant over executions with a count of runs since the last check; cache shared by both → witness |
| C126 | disruption budgets during a drain (`Budget`, on `Drain`) | arithmetic on the status; a pod whose refusals are all recognised is not among those left for deletion |
| C127 | periodic resync of the informers (`Resync`, on `Wake`, `Events`, `RefWake`, `Loop`) | each update handler on equal objects; keys added stay marked |
| C128 | edits in place across three controllers (`InPlace`, on `Dispatch`, `SyncMachines`, `NodeSync`) | runs for two deployments compared step by step up to the parts changed in place (`Lemmas/Twin`); then an invariant through the interleaved execution, counting good runs |
| C129 | scaling in by naming machines (`ScaleIn`, on `Trigger`, `MachineSet`, `Lag`) | invariant through the interleaved execution with two stages, before and after the set has its new size; counting machines in service by name |
| C130 | replacement of all unhealthy machines of a deployment (`Health`) | a measure decreases with every step, and until the end there is a next step; the test of the limit fails while another machine is on its way |
| C131 | duration of a drain, time left for deletions (`DrainClock`) | clocked version of `Drain`; it refines the model without a clock, so C36 gives the results and an induction over rounds the times |
| C132 | deletion with failing drains | outside the drain step the outcome of drains does not matter, so C24's progress measure applies; at the drain step force decides |
| C133 | controllers come to rest | a measure (pending metadata, pending annotations, unmarked sets) that every changing run of `Dispatch.reconcile` lowers and the environment never raises; whole runs of `SetRun` and `Lifecycle` |
| C134 | undoing an undo | an invariant (current set, set with the next lower revision, room for revisions) that each rollback turns round and every ordinary run keeps; composition over `Dispatch.reconcile` |
| C135 | deployments do not interfere | claims, creation and writes concern only sets within the deployment; the run commutes with the restriction to its own sets; noninterference by unwinding over the sequence of steps |
| C136 | a freeze is temporary | three ranking phases over composed rounds: excess (−100 a round), number of frozen sets (−1 a round, by `idealRun_sets`), lack (−100 a round) |
| C137 | the status means what the API documentation says | `replicas_err` (error ↔ a refused creation, by C01's accounting) lifted to `SetRun.run`; counting lemmas; witnesses for the promises not kept |
| C138 | budgets matter only during a rollout | explicit form of the sizes after a run when all other sets are empty: `scale_only`, `rolling_single`, `recreate_single`; independence as corollary |
| C139 | error codes against the contract for drivers | tables of the documentation as a function `autoRetry`; reading of the text by C32; case analysis of each call |
| C140 | time granted to pods and volumes | relation between successive entries of the log of a process (`List.IsChain`), closed under appending; induction over rounds and readings |
| C141 | initialisation of VMs | invariant over all steps, with stale versions; the effect of a run's calls at the provider is monotone |
| C142 | a rollout reported as complete | equivalence by sums over sets; invariant at the end of the executions of C102 and C103 |
| C143 | old sets beyond the history limit | the measures of C101 and C103 get constant; a run of the clean-up that finds too many sets, and the removal of a set in deletion, would lower them |
| C144 | a run of a rolling update that could not scale says so | case analysis; totals of the two loops by induction |
| C145 | with Recreate and on changes of the size a run without error has done its work | exact condition by cases; loops that stop at the first error by induction |
| C146 | a run of the machine set controller that falls short says so (`SetRun`) | account of all endings of a run; accounting of slow start (C01) |

## Trusted base

Lean 4.33.0 kernel; axioms `propext`, `Classical.choice`, `Quot.sound` at most; the faithfulness of the hand-written
model to the Go text (citations in each definition). Details are extended below as modules are added.

The faithfulness cannot be proved, and the code cannot be run here; it can be tested. The modules in `Conform` transcribe cases of
the project's unit tests in 130 `example`s, many of them with several cases (creation and deletion of machines, health, safety loops, node templates, deployments, machine sets, taints, user data,
validation, finalizers, permits, drains): setup and expected outcome are taken from the Go test, the outcome is computed by the model, and the two are
compared by the kernel. No case disagreed. Expectations about timing (in `drain_test.go`), tests about fakes, and the rows whose setup the model
abstracts from are not transcribed. These are samples and prove nothing beyond themselves; no claim refers to them.

## What each module models, and what it leaves out

* **SlowStart** (C01): whole of `slowStartBatch`; goroutines of a batch are joined before the next batch, so only the
  number of successes matters. Left out: nothing observable.
* **MachineSet** (C02–C05, C54): `manageReplicas`, active/stale split, victim ranking with any sorted permutation, machine
  creation/deletion outcomes as oracles, the informer view as an arbitrary (possibly stale) list. Left out: logging,
  expectations here (see Expectations), machine object contents other than those compared.
* **Claim** (C06): `ClaimObject`, adopt/release patch with UID precondition against a live store with arbitrary
  interleaved edits. JSON merge-patch on `ownerReferences` is modelled as list replacement, as the API server does.
* **Deletion** (C07): finalizer order machine deployment → set → machine. Left out: foreground-deletion GC.
* **Expectations** (C08): both expectation stores; atomics as single steps; TTL by an explicit clock.
* **Rolling** (C09–C12): budgets, reconcile of new/old sets, availability floor, progress. Health = the reported available
  replicas. Left out: taints/annotations on nodes during rollout.
* **Scale** (C13, C55): `scale`, proportions with exact integer rounding instead of float64 (equal for 32-bit products, C124); int32 overflow left out.
* **Recreate** (C14): rollout and dispatch between scale and rollout.
* **Template** (C16), **Revision** (C15), **Rollback** (C17, C18; for the whole run of the deployment controller in `Props/Retire`), **Status** (C19, C20, C50): string maps as association
  lists, revision text parsed by a modelled `strconv.ParseInt`; template contents other than labels and the three
  in-place fields are one opaque value; time stamps are integers (ns).
* **Freeze** (C21, C56): freeze/unfreeze loop and unfreeze annotations, over histories. Left out: events and logging.
* **Similar** (C44, C57): `isMachineStatusSimilar` with the two-row Levenshtein function as in the library; times in ns.
* **Codes** (C32): `Status.Error`/`FromError`; regular expression and bracket scan as functions on characters.
* **Termination**, **TerminationLive**, **TermQueue** (C22–C24, C46, C58): the whole termination flow over the *text* of the recorded
  description, every step an API/provider oracle, object versions with optimistic locking, stale caches, lost writes. The drain itself
  is an oracle here (see Drain).
* **Creation** (C25, C26, C59–C61): creation flow over store and provider; the creation and termination workers interleave.
* **Worker** (C47): work queue with rate limiting as sets and counters. **Orphan** (C27, C62), **ApiFreeze** (C28), **Events** (C63, C64):
  safety loops and informer handlers, tombstones included. Left out: the safety loops' periods.
* **Conditions**, **Taints**, **NodeSync** (C33, C34, C41, C42, C52): helpers and template sync; JSON of the last-applied annotation is a
  decodable/undecodable value.
* **Trigger**, **RolloutNodes** (C43, C53, C65, C66): annotation lists as character lists; node updates as oracles.
* **Finalizers** (C39, C40, C67), **SyncMachines** (C49; shared mutable cache objects are modelled), **Permits** (C30; channel operations
  and the janitor as interleaved steps), **UserData** (C45; hex encoding and text replacement).
* **Health** (C29, C31, C68): health check as a function of phase, conditions and time; marking under the permit as one step.
* **Validation** (C51): the three validation functions; errors as one verdict, nil selector as panic.
* **Drain** (C35–C37, C69–C71): pod filters, rounds of evictions, waits as outcomes, results per pod. The channel is a list. Go client calls
  return an empty object on error (client-go v0.31: `result` is allocated before the request).
* **Volumes** (C38, C48, C72, C73): volume lists, `regexp.MatchString` for ordinary characters, `.` and simple sets (an arbitrary function for
  other patterns), polling, the attachment handler under its lock.

* **Dispatch** (C74–C76, C10): `reconcileClusterMachineDeployment` as one function from deployment, sets and a number of machines per set to
  the resulting deployment and sets, composed of the functions of Rolling, Scale, Recreate, Template, Revision, Rollback and Status. Every
  API call succeeds. Left out: the status written at the end, events, claiming (see Claim), node taints (see RolloutNodes).
* **Outcome** (C77–C79, C57): no new model; what single runs of Termination and Creation do with force labels, timeouts, stale node names and
  creation errors.
* **Hash** (C80, C81): `ComputeHash` with FNV-1a (32 bit) as written; the printed template is an arbitrary byte string per template, so the theorems
  hold for every printer. Collision counts below 256. The set's annotations, size and conditions are left to Revision, Rolling and Status.
* **Adopt** (C82): the three steps on the set and its machines; a call with retries is one step; waits are the value finally seen.
* **NodeReason** (C83): the termination condition of the node. Nodes have versions, the first read may come from an old cache; there is one attempt only,
  because the error of the write is wrapped so that it is no longer seen as a conflict.
* **Wake** (C84, C85): the watch handlers by which machines wake sets and sets wake deployments. One namespace; a selector is a list of labels or invalid;
  the queue is the list of keys added; resyncs are updates between equal versions.
* **Make** (C86): the machine built from the template; the machine's spec is one opaque value; names are ASCII.
* **Retry** (C87): the retry loops around writes of finalizers and statuses. One answer of the API per attempt; loops without a bound are cut off by a
  number of attempts that the theorems quantify over. The context is never consulted by the loops and does not appear.
* **RefWake** (C88, C89): which events put which keys of secrets and classes on the queues, what the passes do with the finalizers and when they look
  again. Keys are namespace and name; the contents of secrets and classes do not appear.
* **Lifecycle** (C90–C92, C28): whole runs of the machine controller with the health check in front of the creation, runs of the termination, the
  announcement of deletions by the machine set controller and the resets of the safety controller, all on one stored object. Versions are listed newest
  first; only writes based on the stored version are accepted, except where the code re-reads. A label write and a status write of one run
  appear as one version. The descriptions that health checks write are left out. `Opts` lists what may happen besides ordinary runs.
* **Settings** (C93, C94): from the options, the machine's configuration and the class to the values that the drain and the health check use. Durations
  are integers in nanoseconds; exact quotients stand for the `float64` conversion (equal for timeouts below 26 days, C124).
* **OwnNode** (C95): many machines and nodes; the owner of a node and the names that were given out are ghost state, caches may show any earlier
  version. Only the parts of runs that pick the node are modelled.
* **Attach** (C96): the volume attachments around the decisions of `Termination.volStep`; an accepted deletion sets the deletion mark and the
  attachment disappears at any later time.
* **Fleet** (C97): a set and all its machines with runs of the set, machine and termination controllers in any order. Caches are current and
  API calls accepted; the provider tells the truth. Each machine carries its VMs, VMs of removed objects are kept as `orphans`. The deletion
  request of the set and its announcement by the machine controller are one step. Repeated early termination runs are allowed.
* **DepStatus** (C98): the two comparisons that decide about a status write, with failed machines in full and the nil/empty distinction lost by
  the API round trip; collision counts (pointer copies, always equal) left out; writes are accepted and caches current.
* **Metrics** (C99, C100): every series set by a scrape of both processes; vectors keep their series for the life of the process. Values are
  integers instead of `float64`; failing listers and the counters of provider API calls are left out; a nil dereference in a collector ends the
  process (library behaviour, assumed).
* **World** (C101): the deployment (`Dispatch`), its sets, and the machines and VMs of every set (`Fleet`). A run of the machine set controller
  is split into changing machines and writing the status, in any order. Runs of the deployment controller may see statuses of another time and
  may have any call fail; they see all sets and their current sizes. Sets of size zero that the history clean-up deletes
  are marked, terminate their machines (`Fleet.plan`), and are removed once they have none (`World.drop`; the step from C115 is taken over as: no machine object
  of the set is left). Sets deleted by hand are marked too (`World.mark`). Left out: freezing.
* **History** (C102): all executions of `World` from the creation of the deployment, with edits of the deployment and deletions of machine sets by the user at any moment. A run with a pending
  rollback changes the deployment too. Hashes are not empty, names of new sets are not in use, label values are not empty. Missing: sets that were
  not made by the controller.
* **RecreateLive** (C103): executions of `World` for the strategy Recreate. In a good run the map from sets to machines that the deployment
  controller reads is right; in all others it may say anything.
* **SetRun** (C105): `reconcileClusterMachineSet` from the read to the resync, composed of the models `Claim`, `SyncMachines`, `MachineSet` and `Status`. All calls can
  fail, those that terminate machines without effect on the rest. The listing from the cache and the conversion for the validation cannot fail.
* **Loop** (C104): the queue of `Worker` with runs that may ask for another run (`AddAfter`) before they end. The endings of each reconciler are modelled, the
  time that a delayed entry waits is not. The delaying queue keeps one waiting entry per key, as client-go does: a retry that is due earlier replaces the
  resync that an earlier run asked for. Informer resyncs (C127) and restarts are events (`Step.add`) that may or may not come.
* **Lag** (C106): executions of `MachineSet.manageReplicas` on a cache that is any number of versions behind the stored machines. A run is one change of the store; the cache
  never shows half of one. Expectations do not occur, as the code does not consult them (`machineset.go:540-541`).
  `C105_as_in_fleet` shows that a whole run of `SetRun` that is served does to the machines exactly what `Fleet` (C97) assumes.
* **Collector** (C107): the pass of `Orphan` split into list, look-up and delete request, interleaved with the reconciles of `Creation` on the same cache. One name at a time, as the
  decision looks at nothing else. The safety rests on the cache being shared: a VM can be listed only after the worker saw the object in the cache, and the cache does not go back.
* **LifecycleStatus** (C108): no model of its own; an invariant of the histories of `Lifecycle` about all fields of the status but texts and times.
* **Startup** (C109-C111): both programs as data (resources needed, informers, caches waited for, queues, caches read per queue; the last by looking up every use of a lister),
  and the life of a process as a function of events. The informers and the discovery client of client-go are trusted to behave as described in the file.
* **Election** (C112): the leader election of client-go v0.31.0 is not in /repo and is modelled after its `tryAcquireOrRenew`/`renew`; part of the trusted base for C112.
* **Floor** (C113): no new definitions of code; executions of `World` in which machines stay healthy, with what each run of the deployment controller sees as a parameter.
* **Ceiling** (C114): no new definitions of code; executions of `World` with what each run of the deployment controller sees as a parameter.
* **Teardown** (C115): a deployment, its sets, the machines of these sets and their VMs; runs of the deployment and machine set controllers as lists of writes (`Deletion`) that are
  applied one by one, with a crash after any of them, lost finalizer writes and lost or refused deletions; runs of the machine controller and of the termination as in `Fleet`.
  Not in it: Kubernetes' garbage collection; overlapping runs of creation and termination for one machine (see `C61_vm_left_behind_false`); what a live deployment does to its sets besides making them.
* **Recovery** (C116): `Rough` gives the machine controller a provider whose calls fail with any text, with or without effect, and whose writes may not arrive; the termination may lose its write while the
  VM goes, or keep it; machines may be killed, requested to be deleted, announced as deleted without being so, reset by the safety controller and edited. Not in it: VMs that vanish by themselves
  (`C116_vanished_false`); overlapping runs of creation and termination for one machine; changes of names, finalizers, node labels and provider ids by users.
* **Teardown after disturbances** (C117): the steps of `Teardown` with those of `Rough` for each machine: every call of every controller may fail with or without effect, every run may end
  anywhere, others delete, edit and reset objects and add finalizers. The conditions of C115 on caches and labels remain.
* **Any past** (C118): `World` with the disturbed steps of `Rough` for the machines of every set, statuses written from anything, sets scaled, deleted, adopted (with machines that have a disturbed
  past of their own), released and frozen. The theorem for the whole system:
  from every state that can come about, undisturbed controllers make what the deployment asks for.
* **Pace** (C119): the retry periods of `Creation`, `Termination`, `Health`, `NodeSync` and `OwnNode` put together, with the answers to the last write, and the time until the
  next run of a key in the rate limited queue (5 ms doubled with each failure up to 15 failures; the limiter common to all keys is an arbitrary delay). Durations of the calls
  themselves and the waiting for a free worker are not modelled.
* **Solo** (C120): histories of `World` for a deployment that always recreates, with two switches: may the template of an existing set come back, may the machine cache be behind.
  With both off the property is proved, with either on it is refuted. Pauses at any time; only runs of the paused deployment at the moment `Between` are excluded
  (`C120_pause_false`). No rollbacks.
* **Stuck** (C121): runs of `syncRolloutStatus` at any times, with the status read back as it was stored (times in whole seconds), the sets unchanged, writes succeeding
  or (`Flaky`) at most a given number of runs in a row failing to write; the next
  run comes no later than `requeueStuckMachineDeployment` asks for (or at once after a write) plus a slack. Only the status part of a run is considered.
* **Tokens** (C122): runs of the machine controller as in `Lifecycle`, from any stored version, with the secret of the bootstrap token in the target cluster; making it at the start of the
  creation flow, its deletion by the health check, its removal by the cluster's token cleaner, the clock. One machine; a run takes no time.
* **Taints**, second part (C123): `parseTaint`, `Var.Set`, `Var.String`, `ParseTaints`, `ReorganizeTaints`; texts are lists of characters. `RemoveTaintOffNode` is as in the first part.
* **Float64** (C124): the operations of binary64 as rounding to nearest, ties to even, on rationals (any exponent; no infinities, NaN or subnormal numbers), conversions to
  integers towards zero, products of `int32` modulo 2^32. With it the exact integer formulas of `Rolling`, `Scale`, `Similar` and `Settings` are theorems, not assumptions.
* **Lemmas/Agree**: where two models describe the same function (finalizers in `Finalizers`, `Deletion`, `SetRun`, `Teardown`; the deletion of machines in `MachineSet`, `Fleet`,
  `Teardown`; the end of a machine class in `Finalizers`, `Teardown`), they are proved to give the same result.
* **Guard** (C125): runs of `Lag` and of `Freeze` on one machine set; the set is read from the API server, machines from a cache that both controllers share. Others edit sets and deployments; sizes and limits are bounded by `k` and `h`, and nobody else unfreezes the set.
* **Budget** (C126): `getPdbForPod` and `isMisconfiguredPdb`, put into `Drain`'s answers. The lister's `GetPodPodDisruptionBudgets` is client-go's (namespace and
  selector, any order). How Kubernetes computes the status of a budget (`permits`) is part of the specification, not of the model.
* **Resync** (C127): the update handlers called with equal old and new objects, for every object in a cache, once per period. That informers do so is client-go's.
* **InPlace** (C128): runs of `Dispatch`, `SyncMachines` and `NodeSync` in any order on the sets of one deployment, the machines of one set and their nodes. Machines do not become active or inactive, nobody else writes the nodes or the specs of machines, and each controller reads the object above it as stored.
* **ScaleIn** (C129): the requests of `Trigger` one by one and the scaling of the one machine set, interleaved with runs of `MachineSet.manageReplicas` on a cache, deliveries, changes of phase and machines that vanish. Names are looked up when the reconcile begins; new machines are not given a name of the request; users change nothing else.
* **InTurn** (C130): no model of its own; the steps of `Health` in which nothing more goes wrong.
* **DrainClock** (C131): the drain with the durations of requests, sleeps and waits. Requests and readings with the drain's context fail once it has ended; what happens before
  the first request (cordon, discovery, reading volumes) is a start time that may be anything. Sleeps are exact, the time between other instructions is part of the requests.
* **Forced** (C132) uses the model of `Termination` as it is; only the assumptions on drains are dropped.
* **Rest**, **RestSets** (C133) use the models of `Dispatch`, `SetRun`, `Health`, `Creation` and `Lifecycle` as they are.
* **Undo** (C134) uses the model of `Dispatch` as it is.
* **DepRun** (C135) composes `Claim` and `Dispatch` into one run among all sets of the namespace, and runs of several deployments with steps of others. The cache is up to date;
  the hash label of adopted sets (`Adopt`) and the trigger annotation (`Trigger`) are left out.
* **Thaw** (C136) composes `MachineSet.Round` of every set with `Freeze.idealRun`; machines are counted for the set that owns them, and all carry the labels of its template.
  Deployments do not change the sizes of their sets meanwhile.
* **Meaning** (C137) takes the sentences of the API types as specification. Since when a machine is Running is an attribute of the specification (`Watched`), the code has none.
* **Outside** (C138) needs no model of its own; it is about `Dispatch.reconcile` on lists of sets of which only the current one is not empty.
* **Contract** (C139) needs no model of its own; the tables of docs/development/machine_error_codes.md are transcribed as the specification.
* **Patience** (C140) needs no model of its own; it is about the logs of `DrainClock.processesT`. That a failed `Get` returns an empty object and not nil is client-go (trusted, as in C69).
* **Initial** (C141) adds the VM (initialised or not) to the runs of **Lifecycle** and the writers of **Tokens**. Not modelled: VMs that vanish while the machine is not being deleted; a driver that answers wrongly.
* **Complete** (C142) calculates the deployment's status from the sets of **World**. Of the status of a set only the numbers of machines and of available machines are kept; conditions are in **Status** and **DepStatus**.
* **Limit** (C143) adds nothing to the model. Its runs get as far as the clean-up if the status calculated from the sets (`said` of C142) says that the rollout is complete; the code uses the status as written by an earlier run.
* **RollError** (C144) says what a run of `Rolling` returns to the queue. The outcomes of clean-up and status are parameters.
* **RecreateError** (C145) says what a run of `Recreate` returns to the queue. The outcomes of clean-up and status are parameters, as in C144.
* **SetError** (C146) needs no model of its own; it is about the endings in `SetRun`.

Not modelled: process start-up beyond `Startup`, the cluster-autoscaler priority contents, provider drivers, garbage
collection by the API server, CRD schema validation, the conversion/defaulting code.

## Findings (theorems ending in `_false`)

C02 stale cache overshoots; C54 failed delete is not retried; C06 merge patch drops concurrent owner edits; C07 unmatched
machines stay behind; C09 negative budget raises the floor; C10 lagging status overshoots the surge limit; C11 shrinking the
new set breaks the floor; C13 leftover replicas lost, empty new set not scaled, set grows on scale-in; C14 returning to an
earlier template mixes old and new; C15 malformed revision blocks numbering; C16 comparison is asymmetric and ignores labels
with empty value; C17 roll-back skipped when the deployment gained a label; C18 negative history limit panics; C20 machine set
conditions lose their transition time; C50 returning to an old template never times out, busy requeue.
C21 zero margin flaps, Recreate deployment panics the loop; C56 failing call loses an unfreeze request; C57 last known state dropped;
C32 unbalanced brackets, unnamed codes; C24 error text quoting a step restarts it; C25/C26/C59/C60/C61 stale caches, providers without
status, endless creation retry, erased provider id, leaked VM; C46 re-created names are terminated; C27 stale cache loses a VM; C28 blips
add up, sixteen failures stop the loop; C62 one node blocks the others; C63 tombstone crashes; C64 annotated new node ignored; C33/C34
undecodable record, timeAdded; C53 foreign machines marked; C65/C66 unretried node updates, lost user annotation; C39 stale machine cache;
C40 lost finalizers; C67 missing secret; C49 failed update not retried; C30 janitor race; C45 token from three characters of the name;
C29 no Ready condition is healthy, flapping; C68 failed machine revived; C31 slow cache; C51 selectors, negative budgets, InPlaceUpdate;
C35 orphaned daemon-set pods; C36 zero evictions block for ever, missing priority panics; C38 claim mounted twice; C48 identifiers as
patterns; C69 timeout and read errors count as success; C74 a run that pauses still
propagates, creates and deletes; C76 invalid deployments are never deleted; C78/C79 stale node adopted later, failed machine still creates; C71 read error skips the cordon; C72/C73 inline volumes panic, lost events.
C81 a slow cache and an in-place change make two sets of one template, an added label and a collision are taken for the old template; C82 a replaced failed
machine is released, a set below its size blocks its deployment, a set deleted meanwhile crashes the controller.
C83 the reason Unhealthy is never given, write conflicts are not retried; C84 the former owner of a machine being deleted is not woken, one invalid selector
keeps orphans from all sets; C85 a failing read loses the event, the handler for deleted machines is not registered; C86 a template with the lowest priority
makes and deletes machines for ever.
C87 refused status and finalizer writes are repeated for ever and occupy the worker, the status is compared with the cached machine; C88 classes with
only a credentials reference, first and last references and missed deletions wake no secret; C89 a changed class and a missed deletion wake nobody,
two keys let two workers work on one class.
C90 machines become Failed from no phase, Running from CrashLoopBackOff and Failed, and CrashLoopBackOff from Failed; an erased provider id makes a
running machine crash-loop; C91 a deletion that failed is announced and then revived, the safety controller resets a terminating machine, a machine that
reuses a name is terminated without a request.
C93 pods are deleted after two hours although a longer drain timeout is set, timeouts below twenty seconds block the drain; C94 a blank after a comma
hides a condition, the state Unknown of any listed condition counts as unhealthy, `disableHealthTimeout` has no effect; C95 a node name that is used again lets
the deletion of one machine drain another machine's node; C96 a refused deletion of an attachment blocks the forced deletion for ever, attachments are left behind.
C98 details of failed machines can stay out of date for ever; a paused deployment without failed machines is written at every run.
C99 series of gone objects stay, `status_replicas` of a set shows ready replicas, a deployment without rolling update parameters ends the process at the next scrape.
C102 `getMachineSetFraction` (`deployment_util.go:692-694`) divides by the recorded limit of a set and says it cannot be zero. It can: a run with zero
replicas and a new template is no scaling but a rollout; if it is cut short after reducing a first old set, that set has size > 0 and the limit 0.
Scaling the deployment up again before the next run divides by zero; the result depends on the processor, on arm64 it is a set of 2147483647
machines (`C102_limit_zero_false`). With a strategy that is neither of the two (validation accepts
InPlaceUpdate) no set of the template is ever made, whatever the runs and however many (`C102_in_place_false`).
* C103 A deployment whose strategy is changed to Recreate in the middle of a rolling update and whose replicas are changed before the old sets are at zero is stuck for
  ever: `isScalingEvent` (`deployment_sync.go:673-698`) holds in every run, and `scale` (`deployment_sync.go:402-489`) does nothing for Recreate with several active sets,
  so that neither the recorded number nor any size ever changes (`C103_two_sets_stuck_false`, for all executions: `C103_stuck`).
* C103 A rollback of a Recreate deployment whose template was just changed creates the set of that template at full size, next to the machines in use, although the template
  is given up in the same run (`deployment_rollback.go:40-44`; `C103_rollback_mixes_false`).
* C104 A machine set can be forgotten: `reconcileClusterMachineSet` schedules its ten-minute resync only after the status was accepted (`machineset.go:583-584`). If
  claiming, propagation or the status write fail sixteen times in a row (`worker.go:18`, `48-64`; about 164 s in all), the key is dropped, and the next run comes with the
  next event for the set or the informer's resync after 12 hours (C127; `C104_set_forgotten_false`). The deployment controller asks for its resync right after the
  validation (`deployment.go:457`) and does not have the problem.
* C105 A single machine whose update is refused stops its whole set: `syncMachinesNodeTemplates` and its siblings return on the first error
  (`machineset.go:524-539`), before any machine is created or deleted and before the status is written (`C105_one_machine_blocks_false`).
* C106 Since the expectations are not consulted (`machineset.go:540-541`, commented out), each run that begins before the watch has delivered the machines created last creates
  them again: no number bounds the machines of a set that wants one (`C106_unbounded_excess_false`). Likewise deletions are repeated on other machines when the order of
  deletion changes in between (`C106_too_few_false`).
* C107 A machine that was given up before a provider id was recorded (phase Failed, e.g. after its VM came up under a foreign node, `machine.go:529-549`) is reconciled again, and the
  next provider error sets it to CrashLoopBackOff (`getCreateFailurePhase` looks at the age only); it can then become Pending while the orphan collection still acts on the Failed
  version, and lose its VM (`C107_given_up_false`).
* C108 The timeout flag is not set while the health timeout runs (`machine_util.go:709` is commented out): `C108_health_timeout_hidden_false`.
* C109 The machine controller does not wait for disruption budgets on clusters before 1.21, and reads them (`controller.go:288-298`): `C109_budgets_false`.
* C110 `/healthz` never says anything but OK: `UpdateHealth(false)` comes after `<-stopCh`, and the channel is nil. With `--concurrent-syncs=0`, or when one of the custom
  resources is missing (`controllermanager.go:231` says `&&` where it needs all three), the process reconciles nothing and looks healthy.
* C111 `IsResourceSupported` answers false when a request fails; the machine controller then works without a handler of volume attachments until it is restarted, and each wait for
  a re-attachment takes its full time.
* C112 The identity of a process in the election is its host name; processes of equal host names lead at the same time.
* C113 The clean-up of unhealthy machines (`deployment_rolling.go:213-246`) counts in statuses, and what it removes is chosen later by the machine set. A status that lags behind
  machines that have come up makes it remove running machines below the floor (`C113_underreported_false`). And if it stops before it gets to a set that still has machines
  to remove, these are counted as available once more (`C113_truth_is_not_enough_false`; two sets of the same age, one refused update).
* C114 The room for a scale-up is computed from `status.replicas` (`deployment_util.go:1095`, where counting `spec.replicas` is commented out). Every run of the deployment controller
  before the machine set has made its machines hands out the surge again: ten machines for five replicas and a surge of one (`C114_not_yet_made_false`).
* C114 With `maxSurge: 0` and `maxUnavailable` = `replicas` the old set is set to zero first. The next run finds no active set and takes it for a scale-out from zero
  (`deployment_sync.go:684-686`): the new set gets its full size at once while all old machines still exist (`C114_from_zero_false`).
* C115 Validation precedes the deletion branch (`deployment.go:450-455`, `machineset.go:490-499`): a deployment or set that was made invalid can never be deleted, its finalizer stays
  (`C115_invalid_stays_false`).
* C115 A set being deleted neither deletes nor releases a machine whose labels no longer match, and does not wait for it: the machine and its VM are left behind (`C115_relabelled_false`).
* C115 `addMachineDeploymentFinalizers` returns no error (`deployment.go:580-613`), unlike its sibling for sets: after a failed read the run goes on and makes sets of a deployment that nothing protects
  (`C115_unprotected_false`).
* C116 Nothing compares running machines with the provider's VMs: a VM that vanished is noticed only through its node (`C116_vanished_false`).
* A VM deletion that the provider refuses (say, for missing permissions) asks for a pause of ten minutes, but since the run also returns an error the work queue repeats it after
  5 ms, 10 ms, 20 ms, …; sixteen requests are made within three minutes before the first pause (`C119_refused_false`, `C119_refused_partial`).
* C120 With Recreate, returning to an earlier template whose set still exists (the usual thing with `revisionHistoryLimit` > 0) creates machines of that template while the
  machines of the other one still exist (`C120_return_false`): once the set in use is at zero, `isScalingEvent` (`deployment_sync.go:673-698`) takes the deployment for one to be
  scaled up from zero, so that `oldMachinesRunning` is never asked. A pause does the same without a return (`C120_pause_false`): the run of a
  paused deployment that has no active set gives the full size to the set created last (`FindActiveOrLatest`), and asks nothing about machines of other sets.
* C121 A deployment whose `Progressing` condition says `NewMachineSetAvailable` never reports that it is stuck (`C121_available_false`, `C121_available_never`), e.g. after an increase
  of the replicas whose new machines never come up or after a return to a template whose set exists; `MachineDeploymentTimedOut` excludes this reason (`deployment_util.go:1039-1079`),
  while `requeueStuckMachineDeployment` does not, so the deployment is also put back into the queue at once, forever.
* C122 A machine whose creation is retried for longer than its creation timeout gets the token of the first attempt, which has expired (`C122_expired_token_false`); if the VM is
  created shortly before the token expires, the controller waits the whole timeout for a node that cannot join (`C122_waits_without_token_false`): `getBootstrapTokenOrCreateIfNotExist`
  (`userdata.go:107-142`) does not look at the expiry time. A refused deletion of a token is never repeated (`C122_refused_false`), and tokens of machines deleted before they join are not
  deleted (`C122_deleted_false`); both remain valid until they expire.
* C123 `Var.Set` panics on a taint without effect such as `a=b`: `parseTaint` reads the second part before it counts the parts (`taints.go:55-58`). `ReorganizeTaints` says `untainted`
  if only the value of a taint changes (`C42_word_false`). Neither is reached by the two programs: nothing binds a flag to `Var`.
* C124 `getMachineSetFraction` multiplies two `int32` (`deployment_util.go:694`): beyond 2^31 the product wraps around. Two sets of 60 000 and 40 001 machines of a deployment that is scaled to
  60 000 lose 40 000 and 0 machines instead of 24 000 and 16 000 (`C124_overflow_false`).
* C125 The guard against too many machines counts them in the same cache that misleads the machine set controller: while the watch delivers nothing, it does not freeze anything
  (`C125_same_cache_false`). It compares each set with the limit of the whole deployment and does not add up the sets (`C125_not_added_up_false`), although the option `--safety-up` speaks
  of "any machineSet/machineDeployment"; for a set without deployment the limit is `2 * replicas + safetyUp`, not the documented `replicas + safetyUp`.
* C126 A disruption budget that allows no disruption keeps a drain (not forced) from deleting its pod only while all its pods are healthy: one unhealthy pod anywhere (`CurrentHealthy <
  ExpectedPods`, `drain.go:1199`) and the pod is deleted with grace period 0 after the last refused eviction (`C126_overridden_false`). With two budgets the first one in the cache decides
  (`C126_two_budgets_false`).
* C127 The flag `--min-resync-period` is described as the lower bound of a random period (`options.go:82`, `90`), but is passed to the informers as it is
  (`controllermanager.go:236-255`, `app.go:243-260`): all caches resync after exactly twelve hours. Resyncs do not look at machines again, because updates without a change of
  the generation are skipped (`machine.go:63-66`).
* C128: a machine set whose revision annotation is not a number is never given a new node template or configuration as long as its size stays the same: the difference is found, copied into the local object and then dropped.
* C55 A negative `maxSurge` passes validation. With one that cancels the size, scaling a deployment with several active sets empties all of them, and the same scaling is seen
  again in every further reconcile (`C55_negative_surge_false`).
* C129 The machine set controller reads the size of a set from the API server (`machineset.go:472`) but the machines from its cache (514). When a deployment is scaled in by naming
  machines, it may see the new size without the marks and delete the oldest machines instead (`C129_late_cache_false`); and since the marks are written before the size
  (`deployment.go:522-548`), a run in between replaces the marked machines, whose replacements are deleted again (`C129_run_between_false`).
* C130 The limit of one replacement at a time counts every machine of the deployment that is neither running nor unknown (`machine_util.go:1574-1592`), whatever the reason: a
  machine whose VM cannot be deleted, or one that never joins, keeps all unhealthy machines of the deployment from being replaced (`C130_held`).
* C131 The number of evictions is limited by the drain timeout divided by twenty seconds (`machine_util.go:1065`), and by default equals it (two hours, 360). After that many sleeps of
  twenty seconds the deadline of the drain's context (`drain.go:220`) has come, so the deletion that should follow refused evictions (`drain.go:662-666`, 1036-1043) is never accepted
  (`C131_never_deleted_false`). If a single pod with volumes is left, its visit is answered with success (`drain.go:707-711`), and the drain succeeds although the pod runs on
  (`C131_unnoticed_false`). One eviction less would leave time for the deletion (`C131_deleted_in_time`).
* C132 A forced deletion tolerates failing drains but not volume attachments that cannot be deleted: their deletion errors are only logged, and the step is repeated as long as
  one without a deletion timestamp exists (`machine_util.go:1257-1271`), without the time limit that drains have (`C132_volumes_false`).
* C134 A deployment whose current set has an unreadable revision annotation is rolled back one generation too far (deployment_util.go:264-278 takes the second greatest of the readable ones).
* C135 (`C135_orphan_false`, `C135_name_taken_false`): two deployments with overlapping selectors compete for machine sets without controller; a machine set of another owner under the name a
  deployment intends to use keeps it from creating its set in that run; the next run tries another name (the collision count is raised, C81).
* C136 A freeze need not end: machines that hang in deletion count like machines in service, so a set of three with eight hanging machines stays frozen without a
  machine in service (default options); the options for freezing and unfreezing are not compared with each other, and with a larger margin a small set stays frozen for ever.
* C137: `minReadySeconds` has no effect. A machine counts as available as soon as it is Running (deployment_machineset_util.go:205-223), so a rolling update with maxUnavailable 0
  removes the last machine that has been ready long enough.
* C137: a failed deletion of a machine is only logged (machineset.go:354, 444) and never becomes a ReplicaFailure; a refused creation gets the reason FailedDelete, or none, if
  machines being deleted make up the number wanted.
* C51: the strategy type has a documented default (RollingUpdate), but a deployment without type is rejected; maxSurge and maxUnavailable may both be 0 in spite of the documentation.
* C138: `NewISNewReplicas` compares the machines that exist (including those being deleted) with replicas + maxSurge also when no rollout is going on; a set whose size somebody reduced
  by hand then stays too small until they are gone.
* C139 (docs/development/machine_error_codes.md): GetMachineStatus with OutOfRange ("multiple VMs found", automatic retry required) is handled like the codes without automatic retry (machine_util.go:503-543 and 973-1010 list Unknown, DeadlineExceeded, Aborted, Unavailable only). InitializeMachine with NotFound ("Skip Initialization and Continue") is recorded as a failed creation with CrashLoopBackOff (machine.go:655-697 skips for Unimplemented only). A code without automatic retry still makes the run return an error, so the work queue repeats it after 5 ms.
* C140 (drain.go:1099-1121 with 434-436): when the context of the drain ends while a pod is waited for, the interrupted reading makes the pod count as gone, so a drain that ran out of time reports its last pods as evicted.
* C141 (machine.go:582-597, machine_util.go:666-697, 973-1010): if InitializeMachine fails and the node joins nevertheless, the health check makes the machine Running, whatever taints the node has; from then on GetMachineStatus is not called any more and the VM is never initialised, contrary to docs/proposals/initialize-machine.md:141-148. With a driver without GetMachineStatus the second run adopts the node label and makes the machine Pending.
* C142 (deployment_util.go:1009-1014): `MachineDeploymentComplete` compares only numbers from statuses of machine sets. It asks neither whether old sets are still to have machines (`Spec.Replicas`) nor whether the sets have observed their last change (`Status.ObservedGeneration`), so a rollout can be reported as complete while a machine of another template exists.
* C144 (deployment_rolling.go:190-193, 199-202): `reconcileOldMachineSets` drops errors (`return false, nil`): a rolling update whose calls to scale old machine sets down fail ends without an error, so that the queue forgets the deployment instead of trying again with growing delays; it goes on to the clean-up as if nothing had been scaled.
* C146 (machineset.go:352-355, 445-448, 562-565): errors of `terminateMachines` are only logged. When the API server refuses to delete machines, the run ends like a successful one; unless something else
  happens to the set, the next attempt comes with the timer of ten minutes and not with the back-off of the queue (`C146_deletions_false`).
