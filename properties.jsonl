{"id": "C01", "title": "Slow-start creation accounting", "statement": "When a MachineSet needs `count` new machines, the creation routine issues at most `count` create calls, in rounds of size 1, 2, 4, ...; it stops after the first round in which any call fails, so with k successful calls in total at most 2k+1 calls are ever issued; the returned number equals the number of calls that succeeded; and if no call fails exactly `count` calls are issued and `count` is returned.", "quantifier": "every count, every initial batch size and every assignment of success/failure to the individual calls", "why_tests_cant": "The bound relates arbitrary failure patterns and arbitrary counts; tests sample a handful of failure positions.", "anchors": ["pkg/controller/machineset.go:slowStartBatch", "pkg/controller/machineset.go:manageReplicas"]}
{"id": "C02", "title": "One MachineSet reconcile moves towards the desired count and never past it", "statement": "For a non-frozen MachineSet, one reconcile creates only if fewer live machines than desired exist, deletes live machines only if more exist, never both, never more than 100 of either, never past the desired count; if all API calls succeed the distance to the desired count shrinks by min(100, distance), so repeated reconciles with an up-to-date cache reach exactly the desired count in ceil(distance/100) rounds.", "quantifier": "all desired counts, all machine populations, all call outcomes; all numbers of rounds", "why_tests_cant": "Needs all populations and iteration to a fixpoint.", "anchors": ["pkg/controller/machineset.go:manageReplicas", "pkg/controller/controller_utils.go:BurstReplicas"]}
{"id": "C03", "title": "Scale-down removes the least valuable machines", "statement": "When a MachineSet scales down by d, no machine that is kept is strictly preferable for deletion (lower machine-priority annotation; then earlier lifecycle phase in the documented order; then older creation time) to a machine that is deleted, and exactly d distinct machines of the set are chosen, whatever (unstable) sorting order the library picks.", "quantifier": "all lists of machines, all annotations, phases and timestamps, all d, every sort permutation consistent with the comparison", "why_tests_cant": "sort.Sort is unstable and the comparison is a three-level lexicographic order with parsing; tests cannot cover all tie patterns.", "anchors": ["pkg/controller/machineset.go:getMachinesToDelete", "pkg/controller/controller_utils.go:ActiveMachines.Less"]}
{"id": "C04", "title": "A frozen MachineSet never creates machines", "statement": "While a MachineSet carries the freeze label and is not being deleted, reconciling it never creates a machine, while failed machines and machines marked for deletion are still terminated and surplus machines still removed.", "quantifier": "all replica counts, machine lists, call outcomes", "why_tests_cant": "Universal negative over all reconciles.", "anchors": ["pkg/controller/machineset.go:manageReplicas"]}
{"id": "C05", "title": "Failed and deletion-marked machines are always replaced, never counted", "statement": "Every claimed machine that is Failed, or marked for deletion by priority 1 or by the trigger-deletion annotation, is sent to termination in every reconcile of a live MachineSet, does not count towards the desired replicas, and is never among the survivors; machines that are healthy and not marked are only ever terminated because of surplus.", "quantifier": "all machine lists and desired counts", "why_tests_cant": "Partition property over arbitrary populations.", "anchors": ["pkg/controller/machineset.go:manageReplicas", "pkg/util/provider/machineutils/utils.go:IsMachineFailed", "pkg/util/provider/machineutils/utils.go:IsMachineTriggeredForDeletion"]}
{"id": "C06", "title": "Ownership claims are exclusive and never stolen", "statement": "A controller never modifies or claims an object controlled by another controller UID; it adopts only unowned, non-deleting objects whose labels match its selector while it is itself not being deleted (checked against the live object); it releases owned objects that no longer match; at every point of every interleaving of several controllers working from stale caches, an object has at most one controlling owner.", "quantifier": "all selectors, labels, owners, deletion states, stale caches and interleavings of any number of controllers", "why_tests_cant": "Interleavings of stale-cache claims are unbounded.", "anchors": ["pkg/controller/controller_ref_manager.go:ClaimObject", "pkg/controller/controller_ref_manager.go:ClaimMachines", "pkg/controller/controller_ref_manager.go:AdoptMachine", "pkg/controller/controller_ref_manager.go:ReleaseMachine", "pkg/controller/controller_ref_manager.go:CanAdopt"]}
{"id": "C07", "title": "A MachineSet or MachineDeployment object disappears only after its dependents", "statement": "When a MachineSet (MachineDeployment) is deleted, the deletion finalizer is removed only in a reconcile that sees no machine (machine set) of it left, and until then every remaining dependent is told to delete; a finalizer is never added to an object already being deleted.", "quantifier": "all dependent populations and reconcile sequences", "why_tests_cant": "Order of events over arbitrary histories.", "anchors": ["pkg/controller/machineset.go:reconcileClusterMachineSet", "pkg/controller/deployment.go:reconcileClusterMachineDeployment", "pkg/controller/machineset.go:deleteMachineSetFinalizers"]}
{"id": "C08", "title": "In-flight expectations count each operation exactly once", "statement": "After n creations or a set D of deletions are announced for a key (a new announcement replaces the previous one), the key is reported satisfied exactly when at least n creations have been observed since, respectively each member of D has been observed deleted since (repeated or unrelated deletion events count nothing), or the record is older than five minutes, or no record exists.", "quantifier": "all interleavings of announce/observe events over any number of keys", "why_tests_cant": "Counter and set bookkeeping over arbitrary event sequences.", "anchors": ["pkg/controller/controller_utils.go:ContExpectations", "pkg/controller/controller_utils.go:UIDTrackingContExpectations"]}
{"id": "C09", "title": "Rolling-update budgets resolve sanely", "statement": "For every non-negative maxSurge/maxUnavailable (numbers or percentages) and replica count, surge is rounded up and unavailability rounded down, they are never both zero, the effective maxUnavailable never exceeds the replica count, and the minimum number of available machines enforced is exactly replicas minus effective maxUnavailable and never negative.", "quantifier": "all non-negative integers and percentages and all replica counts", "why_tests_cant": "Unbounded arithmetic; off-by-one at rounding boundaries.", "anchors": ["pkg/controller/deployment_util.go:ResolveFenceposts", "pkg/controller/deployment_util.go:MaxUnavailable", "pkg/controller/deployment_util.go:MinAvailable", "pkg/controller/deployment_util.go:MaxSurge"]}
{"id": "C10", "title": "Rolling update never exceeds the surge limit", "statement": "During a rolling update every scale-up of the new machine set keeps the total number of desired machines over all machine sets of the deployment at most replicas + maxSurge and the new set at most `replicas`; scale-downs never raise it. Hence over any sequence of rollout steps the total never exceeds max(initial total, replicas + maxSurge).", "quantifier": "all numbers of old sets, sizes, budgets and step sequences", "why_tests_cant": "Inductive invariant over unbounded rollouts.", "anchors": ["pkg/controller/deployment_util.go:NewISNewReplicas", "pkg/controller/deployment_rolling.go:reconcileNewMachineSet"]}
{"id": "C11", "title": "Rolling update never drops below the availability floor", "statement": "Scaling down old machine sets in a rolling update (unhealthy clean-up plus budgeted scale-down) never makes the number of machines guaranteed available fall below replicas - maxUnavailable: after every rollout step in which it was above, it still is; if it was already below, no available machine is removed.", "quantifier": "all numbers and sizes of machine sets, all availability patterns, all step sequences", "why_tests_cant": "Inductive invariant; boundary conditions between clean-up and scale-down budgets.", "anchors": ["pkg/controller/deployment_rolling.go:reconcileOldMachineSets", "pkg/controller/deployment_rolling.go:cleanupUnhealthyReplicas", "pkg/controller/deployment_rolling.go:scaleDownOldMachineSetsForRollingUpdate"]}
{"id": "C12", "title": "A rolling update always makes progress to completion", "statement": "If machines created by machine sets become available and removed machines disappear, repeated rollout steps end with the new set at `replicas` and every old set at zero, from every starting distribution and for every non-degenerate budget.", "quantifier": "all starting distributions and budgets", "why_tests_cant": "Liveness: needs a well-founded measure over all states.", "anchors": ["pkg/controller/deployment_rolling.go:rolloutRolling"]}
{"id": "C13", "title": "Scaling a deployment in mid-rollout distributes replicas within bounds", "statement": "Scaling a deployment with several active machine sets gives each set a non-negative size, changes every set in the direction of the overall change, and makes the total equal to replicas + surge (replicas when no surge applies).", "quantifier": "all sizes, replica counts and recorded annotations", "why_tests_cant": "Rounding/leftover arithmetic over arbitrary lists.", "anchors": ["pkg/controller/deployment_sync.go:scale", "pkg/controller/deployment_util.go:GetProportion", "pkg/controller/deployment_util.go:getMachineSetFraction"]}
{"id": "C14", "title": "Recreate strategy never mixes old and new machines", "statement": "Under the Recreate strategy the new machine set is scaled above zero (or created with replicas) only when no old machine set wants replicas and no machine of an old set still exists.", "quantifier": "all machine maps, all phases of old machines, all step sequences", "why_tests_cant": "Safety over all schedules.", "anchors": ["pkg/controller/deployment_recreate.go:rolloutRecreate", "pkg/controller/deployment_recreate.go:oldMachinesRunning"]}
{"id": "C15", "title": "Revisions identify history uniquely and grow", "statement": "Whenever the current template's machine set is (re)activated it gets a revision strictly greater than the revision of every old machine set; revisions never decrease; the previous revision is kept in the history annotation.", "quantifier": "all revision annotations (including malformed) and all sequences of template changes", "why_tests_cant": "Monotonicity over arbitrary histories.", "anchors": ["pkg/controller/deployment_util.go:MaxRevision", "pkg/controller/deployment_util.go:SetNewMachineSetAnnotations", "pkg/controller/deployment_sync.go:getNewMachineSet"]}
{"id": "C16", "title": "Template equality ignores exactly the hash label", "statement": "A machine set is recognised as carrying the deployment's template if and only if the two templates are identical after removal of the machine-template-hash label (and apart from node template, machine configuration and class kind, which are applied in place).", "quantifier": "all label maps and template bodies, both argument orders", "why_tests_cant": "Must hold for every pair of maps; asymmetric implementations pass tests.", "anchors": ["pkg/controller/deployment_util.go:EqualIgnoreHash", "pkg/controller/deployment_util.go:FindNewMachineSet"]}
{"id": "C17", "title": "Rollback restores the chosen revision", "statement": "Rolling back to revision r (or to the last revision when r = 0) makes the deployment template equal to the template of the machine set with that revision, minus the hash label, if that template differs from the current one; if no such revision exists the template is untouched; in all cases the rollback request is cleared.", "quantifier": "all sets of machine sets, revisions and templates", "why_tests_cant": "Selection over arbitrary lists and label maps.", "anchors": ["pkg/controller/deployment_rollback.go:rollback", "pkg/controller/deployment_rollback.go:rollbackToTemplate", "pkg/controller/deployment_util.go:LastRevision"]}
{"id": "C18", "title": "History clean-up keeps the newest revisions and never deletes live sets", "statement": "Cleaning up old machine sets deletes only sets with zero desired, zero observed replicas, fully observed and not already deleting; it deletes at most (old - limit) sets, only among the oldest (old - limit) by creation time, and never removes more than that.", "quantifier": "all lists of old sets and history limits", "why_tests_cant": "Ordering property over arbitrary lists and unstable sort.", "anchors": ["pkg/controller/deployment_sync.go:cleanupMachineDeployment"]}
{"id": "C19", "title": "Reported status adds up", "statement": "A MachineDeployment's reported replica, updated, ready, available and unavailable counts are the sums over its machine sets with unavailable = max(0, total desired - available); a MachineSet's reported counts satisfy ready <= available <= replicas and fullyLabeled <= replicas.", "quantifier": "all machine and machine set lists", "why_tests_cant": "Universal arithmetic over lists.", "anchors": ["pkg/controller/deployment_sync.go:calculateDeploymentStatus", "pkg/controller/deployment_machineset_util.go:calculateMachineSetStatus"]}
{"id": "C20", "title": "Status conditions behave like a map with transition times", "statement": "Setting a condition leaves exactly one condition of that type with the new status and reason, leaves all other types untouched, and keeps the last transition time unless the status changed; removing deletes all of that type; an equal status and reason leaves the list untouched.", "quantifier": "all condition lists and sequences of set/remove", "why_tests_cant": "Invariant over arbitrary operation sequences.", "anchors": ["pkg/controller/deployment_util.go:SetMachineDeploymentCondition", "pkg/controller/deployment_util.go:RemoveMachineDeploymentCondition", "pkg/controller/deployment_machineset_util.go:SetCondition"]}
{"id": "C21", "title": "Overshooting machine sets are frozen and released with hysteresis", "statement": "A machine set is frozen only when it has at least the overshoot threshold of machines and released only when it has at most threshold minus the safety margin or when asked to by the unfreeze annotation; with a positive margin no machine count makes the safety loop freeze and unfreeze alternately without the count changing.", "quantifier": "all counts, limits, margins, label/condition states, histories of counts", "why_tests_cant": "Hysteresis over arbitrary histories.", "anchors": ["pkg/controller/machine_safety.go:checkAndFreezeORUnfreezeMachineSets"]}
{"id": "C22", "title": "The machine finalizer outlives the VM", "statement": "The controller removes its finalizer from a Machine being deleted only if, during this termination, the cloud provider has confirmed that the VM is deleted or not found, and the Node object was then deleted, not found, or never known - for every interleaving with crashes, restarts, API failures and provider failures between any two writes.", "quantifier": "all sequences of reconciles, provider answers, API failures and crash points", "why_tests_cant": "Crash points and histories are unbounded.", "anchors": ["pkg/util/provider/machinecontroller/machine.go:triggerDeletionFlow", "pkg/util/provider/machinecontroller/machine_util.go:deleteVM", "pkg/util/provider/machinecontroller/machine_util.go:deleteNodeObject", "pkg/util/provider/machinecontroller/machine_util.go:deleteMachineFinalizers"]}
{"id": "C23", "title": "Provider error text cannot skip a termination step", "statement": "The step executed next in a machine's termination is never later than the step the previous reconcile decided on, whatever text a provider or API error message embedded in the status contains.", "quantifier": "all error messages (arbitrary strings)", "why_tests_cant": "Arbitrary strings; tests use benign messages.", "anchors": ["pkg/util/provider/machinecontroller/machine.go:triggerDeletionFlow", "pkg/util/provider/machinecontroller/machine_util.go:drainNode", "pkg/util/provider/machinecontroller/machine_util.go:deleteVM", "pkg/util/provider/machineutils/utils.go"]}
{"id": "C24", "title": "Termination completes when the environment cooperates", "statement": "From every machine state with the finalizer present, if provider and API calls succeed (or report not-found) and volume attachments eventually vanish, a bounded number of termination reconciles removes the finalizer; and no reconcile that makes a step loses the progress of earlier steps.", "quantifier": "all starting statuses (arbitrary description text) and environments", "why_tests_cant": "Liveness from arbitrary starting states.", "anchors": ["pkg/util/provider/machinecontroller/machine.go:triggerDeletionFlow", "pkg/util/provider/machinecontroller/machine_util.go:machineStatusUpdate"]}
{"id": "C25", "title": "Finalizer is persisted before a VM is created", "statement": "A VM creation request is sent to the provider only for a machine whose stored object already carries the machine-controller-manager finalizer, is not being deleted as far as the cache shows, has a valid class carrying its own finalizer, and while the controller is not frozen.", "quantifier": "all machine states, cache states and reconcile sequences", "why_tests_cant": "Ordering across crash points.", "anchors": ["pkg/util/provider/machinecontroller/machine.go:reconcileClusterMachine", "pkg/util/provider/machinecontroller/machine.go:triggerCreationFlow", "pkg/util/provider/machinecontroller/machine_util.go:addMachineFinalizers", "pkg/util/provider/machinecontroller/machine_util.go:ValidateMachineClass"]}
{"id": "C26", "title": "A machine never gets two VMs", "statement": "If the provider's status query is truthful, over any sequence of reconciles, crashes and failed status writes at most one VM exists per machine at any time: a VM is created only when the provider reports none and none was recorded, and an existing VM is adopted.", "quantifier": "all crash points, retry sequences and provider responses", "why_tests_cant": "Crash between create and record cannot be exhaustively tested.", "anchors": ["pkg/util/provider/machinecontroller/machine.go:triggerCreationFlow", "pkg/util/provider/machinecontroller/machine.go:updateLabels"]}
{"id": "C27", "title": "Orphan collection deletes only orphans", "statement": "The safety loop deletes a VM only if no machine object of the reported name exists or that machine records a different provider id and is past creation; a VM recorded as the provider id of the machine with its name is never deleted, lookup failures never cause deletion, and every VM with no machine is deleted when no errors occur.", "quantifier": "all VM maps, machine populations and lookup results", "why_tests_cant": "Universal over populations.", "anchors": ["pkg/util/provider/machinecontroller/machine_safety.go:checkMachineClass", "pkg/util/provider/machinecontroller/machine_safety.go:checkMachineClasses"]}
{"id": "C28", "title": "Controller freezes only during a sustained API-server outage", "statement": "Machine creation and health handling stop only if the API servers have been continuously unreachable for longer than the configured timeout; once they are reachable again all machines marked Unknown are reset before handling resumes.", "quantifier": "all histories of reachability observations and times", "why_tests_cant": "Histories of outages are unbounded.", "anchors": ["pkg/util/provider/machinecontroller/machine_safety.go:reconcileClusterMachineSafetyAPIServer"]}
{"id": "C29", "title": "Health transitions follow the timeouts", "statement": "A machine becomes Failed for bad health only after it has been Unknown for at least the health timeout, and for not joining only after being Pending for at least the creation timeout; a running machine whose node is unhealthy or gone becomes Unknown; a machine becomes Running only if its node is healthy; an expired timeout is acted upon in the next undisturbed check.", "quantifier": "all node conditions, phases and observation times", "why_tests_cant": "Timed state machine over all histories.", "anchors": ["pkg/util/provider/machinecontroller/machine_util.go:reconcileMachineHealth", "pkg/util/provider/machinecontroller/machine_util.go:isHealthy"]}
{"id": "C30", "title": "Permit keys grant mutual exclusion", "statement": "For each key at most the registered number of holders exist at any time, in every interleaving of register, try, release and stale-entry clean-up.", "quantifier": "all interleavings of any number of goroutines", "why_tests_cant": "Interleavings are unbounded and the race window is tiny.", "anchors": ["pkg/util/permits/permits.go:TryPermit", "pkg/util/permits/permits.go:ReleasePermit", "pkg/util/permits/permits.go:cleanupStalePermitEntries"]}
{"id": "C31", "title": "At most one unhealthy machine per deployment is replaced at a time", "statement": "A health-timed-out machine is marked Failed only if no other machine of its deployment is in a phase other than Running or Unknown as seen by the cache, so concurrent workers never mark two machines of one deployment Failed together while the cache is up to date.", "quantifier": "all machine populations and worker interleavings", "why_tests_cant": "Interleavings of workers.", "anchors": ["pkg/util/provider/machinecontroller/machine_util.go:canMarkMachineFailed", "pkg/util/provider/machinecontroller/machine_util.go:tryMarkingMachineFailed"]}
{"id": "C32", "title": "Provider status errors survive the textual round trip", "statement": "Encoding a status code and message as an error string and decoding it returns the same code and message.", "quantifier": "all codes and all messages", "why_tests_cant": "Arbitrary strings including brackets.", "anchors": ["pkg/util/provider/machinecodes/status/status.go:FromError", "pkg/util/provider/machinecodes/status/status.go:Error", "pkg/util/provider/machinecodes/codes/codes.go:StringToCode"]}
{"id": "C33", "title": "Node labels and annotations converge to the machine template without touching foreign keys", "statement": "After a sync every key of the template is present on the node with the template's value, every key applied earlier but no longer in the template is gone, every other key is unchanged; if the node already is in that state and nothing was withdrawn no update is reported; syncing twice equals syncing once.", "quantifier": "all node, template and last-applied maps", "why_tests_cant": "Three-way merge over arbitrary maps.", "anchors": ["pkg/util/provider/machinecontroller/machine_util.go:SyncMachineLabels", "pkg/util/provider/machinecontroller/machine_util.go:SyncMachineAnnotations"]}
{"id": "C34", "title": "Node taints converge to the machine template without touching foreign taints", "statement": "The same three-way merge holds for taints identified by key and effect; no two taints with the same key and effect result.", "quantifier": "all taint lists", "why_tests_cant": "Three-way merge over arbitrary lists with identity by key+effect.", "anchors": ["pkg/util/provider/machinecontroller/machine_util.go:SyncMachineTaints"]}
{"id": "C35", "title": "Drain touches exactly the evictable pods of the node", "statement": "A drain evicts or deletes exactly the pods bound to the node that are neither mirror pods nor managed by an existing DaemonSet, each of them exactly once per list, split exactly into pods with and without persistent volumes.", "quantifier": "all pod populations", "why_tests_cant": "Universal filter/partition property.", "anchors": ["pkg/util/provider/drain/drain.go:getPodsForDeletion", "pkg/util/provider/drain/drain.go:filterPodsWithPv"]}
{"id": "C36", "title": "Every pod handed to drain yields exactly one result", "statement": "The drain of pods with volumes reports exactly one result per pod (success or error) so the drain terminates and never blocks or double-reports, for every retry budget, force flag, timeout point and API outcome.", "quantifier": "all pod lists, retry counts, outcomes, cancellation points", "why_tests_cant": "Scheduling of failures and retries is unbounded.", "anchors": ["pkg/util/provider/drain/drain.go:evictPodsWithPv", "pkg/util/provider/drain/drain.go:evictPodsWithPVInternal", "pkg/util/provider/drain/drain.go:evictPods"]}
{"id": "C37", "title": "Eviction is honoured before force deletion", "statement": "Without force, a pod is deleted directly only after the configured number of eviction attempts was refused (too-many-requests or other error) or when the server does not support eviction; a pod is never evicted more often than the retry budget.", "quantifier": "all outcome sequences and retry budgets", "why_tests_cant": "Retry sequences are unbounded.", "anchors": ["pkg/util/provider/drain/drain.go:evictPodWithoutPVInternal", "pkg/util/provider/drain/drain.go:evictPodsWithPv"]}
{"id": "C38", "title": "Shared volumes are never waited for", "statement": "When draining, the detach wait list of a pod contains exactly the volumes of that pod that no other drained pod uses.", "quantifier": "all pod to volume maps", "why_tests_cant": "Universal over maps.", "anchors": ["pkg/util/provider/drain/drain.go:filterSharedPVs"]}
{"id": "C39", "title": "Machine class outlives the machines using it", "statement": "The finalizer on a machine class is added when a machine uses it, kept while any machine references it, and removed only once the class is being deleted or unused with no machine referencing it; the same for the secrets a class references.", "quantifier": "all machine/class/secret populations and event sequences", "why_tests_cant": "Order over arbitrary histories.", "anchors": ["pkg/util/provider/machinecontroller/machineclass.go:reconcileClusterMachineClass", "pkg/util/provider/machinecontroller/secret.go:reconcileClusterSecret"]}
{"id": "C40", "title": "Finalizer edits preserve other controllers' finalizers", "statement": "Adding or removing the controller's own finalizer on machines, classes, secrets, machine sets and deployments leaves every finalizer set by others in place.", "quantifier": "all finalizer lists, stale caches and concurrent edits", "why_tests_cant": "Lost-update races.", "anchors": ["pkg/util/provider/machinecontroller/machine_util.go:addMachineFinalizers", "pkg/util/provider/machinecontroller/machineclass.go:updateMachineClassFinalizers", "pkg/util/provider/machinecontroller/secret.go:updateSecretFinalizers", "pkg/controller/machineset.go:updateMachineSetFinalizers", "pkg/controller/deployment.go:updateMachineDeploymentFinalizers"]}
{"id": "C41", "title": "Node conditions are updated like a map", "statement": "Adding a node condition leaves exactly one condition of that type carrying the new status/reason/message, leaves all other types alone, preserves the transition time if status and reason are unchanged, and does nothing for a condition without type or status.", "quantifier": "all condition lists", "why_tests_cant": "Universal over lists.", "anchors": ["pkg/util/nodeops/conditions.go:CloneAndAddCondition"]}
{"id": "C42", "title": "Taint edits act on exactly one key and effect", "statement": "Adding/updating a taint leaves exactly the given taint for its key and effect and preserves the others in order; removing removes all with that key and effect and nothing else; the returned changed flag is true iff the list changed.", "quantifier": "all taint lists", "why_tests_cant": "Universal over lists.", "anchors": ["pkg/util/taints/taints.go:AddOrUpdateTaint", "pkg/util/taints/taints.go:RemoveTaint", "pkg/util/taints/taints.go:TaintSetDiff"]}
{"id": "C43", "title": "Trigger-deletion list round trip", "statement": "Writing a list of machine names to the deployment's trigger-deletion annotation and reading it back yields the same set of names.", "quantifier": "all lists of names", "why_tests_cant": "Arbitrary strings.", "anchors": ["pkg/util/annotations/annotations.go:GetMachineNamesTriggeredForDeletion", "pkg/util/annotations/annotations.go:CreateMachinesTriggeredForDeletionAnnotValue"]}
{"id": "C44", "title": "Machine status writes are not lost", "statement": "A status update that changes phase, operation type, state or error code is always written; an update is suppressed only when the old and new descriptions are within edit distance 25 percent of each other and both operations are recent.", "quantifier": "all statuses, descriptions and times", "why_tests_cant": "Edit distance over arbitrary strings.", "anchors": ["pkg/util/provider/machinecontroller/machine_util.go:isMachineStatusSimilar", "pkg/util/strings/string.go:Levenshtein", "pkg/util/strings/string.go:StringSimilarityRatio"]}
{"id": "C45", "title": "Each machine has its own bootstrap token", "statement": "Two machines with different names never share a bootstrap-token secret, and the placeholder in user data is fully replaced.", "quantifier": "all pairs of machine names, all user data", "why_tests_cant": "Pairs of arbitrary strings.", "anchors": ["pkg/util/provider/machinecontroller/userdata.go:getTokenIDAndSecretName", "pkg/util/provider/machinecontroller/userdata.go:addBootstrapTokenToUserData"]}
{"id": "C46", "title": "Only machines requested for deletion are terminated", "statement": "The termination flow (drain, VM deletion, node deletion) is run only for machine objects that carry a deletion timestamp.", "quantifier": "all histories of enqueueing, deletion and re-creation under the same name", "why_tests_cant": "Needs particular histories (re-creation under the same name while a delayed queue item exists).", "anchors": ["pkg/util/provider/machinecontroller/machine.go:reconcileClusterMachineTermination", "pkg/util/provider/machinecontroller/machine.go:deleteMachine", "pkg/util/provider/machinecontroller/machine.go:addMachine"]}
{"id": "C47", "title": "Work items are never silently lost before the retry limit", "statement": "A key whose reconcile fails is retried at least fifteen times with rate limiting before being dropped, its failure count is reset by a success, and a key is never processed by two workers at once.", "quantifier": "all outcome sequences and worker interleavings", "why_tests_cant": "Interleavings.", "anchors": ["pkg/util/worker/worker.go:worker"]}
{"id": "C48", "title": "Detach wait ends only when every volume is gone", "statement": "Waiting for detachment returns success only when none of the pod's volumes is reported as attached to the node any more.", "quantifier": "all volume ids, attached lists and polling histories", "why_tests_cant": "Arbitrary ids used as patterns; histories.", "anchors": ["pkg/util/provider/drain/drain.go:waitForDetach"]}
{"id": "C49", "title": "Deployment changes reach existing machines", "statement": "Class, node template and configuration changes of a machine set are propagated to each of its machines: after a reconcile whose updates succeed, machines agree with the set; a failed update is retried by later reconciles.", "quantifier": "all populations, failure points and retries", "why_tests_cant": "Failure points with a mutable shared cache.", "anchors": ["pkg/controller/machineset_util.go:syncMachinesNodeTemplates", "pkg/controller/machineset_util.go:syncMachinesConfig", "pkg/controller/machineset_util.go:syncMachinesClassKind"]}
{"id": "C50", "title": "Progress deadline reporting is exact", "statement": "A deployment is reported as timed out exactly when its rollout is incomplete, no progress was observed for longer than the deadline since the last progress update, and a deadline is set; progress or completion clears it.", "quantifier": "all statuses and times", "why_tests_cant": "Timed predicate over all statuses.", "anchors": ["pkg/controller/deployment_util.go:MachineDeploymentTimedOut", "pkg/controller/deployment_progress.go:syncRolloutStatus"]}
{"id": "C51", "title": "Rejected objects have no effect", "statement": "A MachineSet, MachineDeployment or Machine whose spec is invalid (negative replicas, selector not matching the template labels, missing class reference, unknown strategy, unparsable budgets) is never acted upon; every accepted spec satisfies these conditions.", "quantifier": "all specs", "why_tests_cant": "Universal over specs.", "anchors": ["pkg/apis/machine/validation/machinedeployment.go", "pkg/apis/machine/validation/machineset.go", "pkg/apis/machine/validation/machine.go"]}
{"id": "C52", "title": "Node condition change detection is exact", "statement": "A change in node conditions is reported exactly when some condition type appears, disappears or changes its status.", "quantifier": "all condition lists", "why_tests_cant": "Universal over lists.", "anchors": ["pkg/util/provider/machinecontroller/machine_util.go:nodeConditionsHaveChanged"]}
{"id": "C53", "title": "Deployment-driven machine deletion marks exactly the named machines", "statement": "Machines named in the deployment's trigger-deletion annotation get deletion priority, names of vanished or already terminating machines are removed from the annotation, and no other machine's priority changes.", "quantifier": "all annotations and machine populations", "why_tests_cant": "Universal over populations.", "anchors": ["pkg/controller/deployment.go:setMachinePriorityAnnotationAndUpdateTriggeredForDeletion"]}
{"id": "C54", "title": "A machine chosen for removal is eventually deleted", "statement": "Once a MachineSet reconcile has decided to remove a machine, the deletion request is repeated by later reconciles until it reaches the API server, even if individual delete calls fail.", "quantifier": "all populations, all sequences of delete-call outcomes", "why_tests_cant": "Needs arbitrary histories of failed and successful API calls.", "anchors": ["pkg/controller/machineset.go:terminateMachines", "pkg/controller/machineset.go:prepareMachineForDeletion", "pkg/controller/machineset.go:manageReplicas"]}
{"id": "C55", "title": "A scaling request is handled once", "statement": "After a successful scaling of a rolling deployment with several active machine sets the controller sees no further scaling request in the resulting machine sets until the user changes `replicas`; a later change of `replicas` is always seen.", "quantifier": "all populations, annotations and replica counts", "why_tests_cant": "Fixed-point property of an edit-and-detect loop over arbitrary lists.", "anchors": ["pkg/controller/deployment_sync.go:isScalingEvent", "pkg/controller/deployment_sync.go:scale", "pkg/controller/deployment_util.go:SetReplicasAnnotations"]}
{"id": "C56", "title": "A request to unfreeze is carried out", "statement": "When a user puts the unfreeze annotation on a machine deployment or machine set, its machine sets are released and the annotation removed, even if some API calls fail on the way and the controller retries.", "quantifier": "all deployments, sets, failure points", "why_tests_cant": "Needs every failure point of a multi-object write sequence.", "anchors": ["pkg/controller/machine_safety.go:unfreezeMachineDeploymentsWithUnfreezeAnnotation", "pkg/controller/machine_safety.go:unfreezeMachineSetsWithUnfreezeAnnotation"]}
{"id": "C57", "title": "The provider's last known state is persisted", "statement": "Whatever last known state a provider call returns is stored in the machine's status, so that the next call for this machine receives it even after a restart.", "quantifier": "all statuses, provider answers and times", "why_tests_cant": "The write is skipped depending on the similarity of free-form texts and the age of the status.", "anchors": ["pkg/util/provider/machinecontroller/machine_util.go:machineStatusUpdate", "pkg/util/provider/machinecontroller/machine_util.go:isMachineStatusSimilar"]}
{"id": "C58", "title": "A node is drained before its VM is deleted", "statement": "The provider is asked to delete a machine's VM only after the drain of its node succeeded, was forced (timeout, force label, unhealthy node), or no node is known for the machine.", "quantifier": "all interleavings of reconciles, any error texts, restarts and stale caches", "why_tests_cant": "The step reached is recorded in a free-form text together with provider errors.", "anchors": ["pkg/util/provider/machinecontroller/machine.go:triggerDeletionFlow", "pkg/util/provider/machinecontroller/machine_util.go:drainNode", "pkg/util/provider/machinecontroller/machine_util.go:deleteVM"]}
{"id": "C59", "title": "A creation without failures completes", "statement": "A new machine whose provider and API calls succeed gets its finalizer, exactly one VM (an existing one is adopted), that VM's node name and provider id recorded, and becomes Pending within three reconciles.", "quantifier": "all machines without a node label, all providers", "why_tests_cant": "Liveness over repeated reconciles with arbitrary starting state.", "anchors": ["pkg/util/provider/machinecontroller/machine.go:reconcileClusterMachine", "pkg/util/provider/machinecontroller/machine.go:triggerCreationFlow", "pkg/util/provider/machinecontroller/machine.go:updateLabels"]}
{"id": "C60", "title": "A recorded provider id is never lost", "statement": "Once a machine records the provider id of its VM, no reconcile of the machine controller changes or erases it.", "quantifier": "all machine objects and provider answers", "why_tests_cant": "Depends on combinations of labels, annotations, phases and answers.", "anchors": ["pkg/util/provider/machinecontroller/machine.go:updateLabels", "pkg/util/provider/machinecontroller/machine.go:triggerCreationFlow"]}
{"id": "C61", "title": "No VM is left when its machine object is gone", "statement": "When a machine object has been removed completely, no VM created for it exists any more.", "quantifier": "all interleavings of the creation and termination workers", "why_tests_cant": "The two work queues process the same machine concurrently.", "anchors": ["pkg/util/provider/machinecontroller/machine.go:triggerCreationFlow", "pkg/util/provider/machinecontroller/machine.go:triggerDeletionFlow", "pkg/util/provider/machinecontroller/machine.go:reconcileClusterMachineKey"]}
{"id": "C62", "title": "Nodes without a machine are marked", "statement": "The safety loop marks every node that no machine claims and that is older than the creation timeout as not managed by MCM, and removes the mark from every node claimed by exactly one machine; nothing else about a node changes.", "quantifier": "all populations of nodes and machines, all API failures", "why_tests_cant": "Universal over populations and failure points.", "anchors": ["pkg/util/provider/machinecontroller/machine_safety.go:AnnotateNodesUnmanagedByMCM", "pkg/util/provider/machinecontroller/machine_safety.go:reconcileClusterMachineSafetyOrphanVMs"]}
{"id": "C63", "title": "Watch events lead to the right work", "statement": "No watch event crashes the controller; a machine that appears or whose specification changes is put into exactly one of the two machine queues; a node that disappears or whose conditions change wakes its machine.", "quantifier": "all events, including tombstones of missed deletions, and all caches", "why_tests_cant": "Tombstones occur only after interrupted watches.", "anchors": ["pkg/util/provider/machinecontroller/machine.go:addMachine", "pkg/util/provider/machinecontroller/machine.go:updateNodeToMachine", "pkg/util/provider/machinecontroller/machine.go:deleteNodeToMachine", "pkg/util/provider/machinecontroller/machine_safety.go:deleteMachineToSafety"]}
{"id": "C64", "title": "A node marked for deletion has its machine deleted", "statement": "When a node carries the annotation node.machine.sapcloud.io/trigger-deletion-by-mcm=true, deletion of its machine is requested, and of no other machine.", "quantifier": "all events and caches", "why_tests_cant": "Universal over event kinds and caches.", "anchors": ["pkg/util/provider/machinecontroller/machine.go:updateNodeToMachine", "pkg/util/provider/machinecontroller/machine.go:addNodeToMachine"]}
{"id": "C65", "title": "Nodes of old machine sets are avoided during a rolling update", "statement": "During a rolling update every node of an old machine set carries the taint deployment.machine.sapcloud.io/prefer-no-schedule (PreferNoSchedule), a rollback removes it from the nodes of the set rolled back to, the nodes of the current set do not carry it after the update, and no other taint changes.", "quantifier": "all populations, failures and orders of events", "why_tests_cant": "Errors are only logged, so the effect depends on which requests fail and in which order nodes appear.", "anchors": ["pkg/controller/deployment_rolling.go:taintNodesBackingMachineSets", "pkg/controller/deployment_rollback.go:removeTaintNodesBackingMachineSet"]}
{"id": "C66", "title": "Nodes are protected from the autoscaler exactly during a rolling update", "statement": "If configured, all nodes of a deployment carry the scale-down-disabled annotation while its rolling update is going on; after it the annotations of this controller are removed, annotations users put on nodes themselves are kept, and nothing else about a node changes.", "quantifier": "all populations, annotations and failures", "why_tests_cant": "Universal over annotations and histories.", "anchors": ["pkg/controller/deployment_rolling.go:annotateNodesBackingMachineSets", "pkg/controller/deployment_rolling.go:removeAutoscalerAnnotationsIfRequired", "pkg/controller/deployment_rolling.go:machineSetsScaledToZero"]}
{"id": "C67", "title": "Machines are handled only with a complete class", "statement": "A machine is created, checked or deleted only with a machine class that exists, carries the finalizer and has a complete node template, and with the data of all secrets the class refers to.", "quantifier": "all classes, secrets and caches", "why_tests_cant": "Universal over combinations of missing objects.", "anchors": ["pkg/util/provider/machinecontroller/machine_util.go:ValidateMachineClass", "pkg/util/provider/machinecontroller/machine_util.go:getSecretData", "pkg/util/provider/machinecontroller/machine_util.go:validateNodeTemplate"]}
{"id": "C68", "title": "A failed machine is never put back into service", "statement": "A machine that was marked Failed keeps this phase until it is terminated.", "quantifier": "all node conditions and observation histories", "why_tests_cant": "Universal over histories.", "anchors": ["pkg/util/provider/machinecontroller/machine_util.go:reconcileMachineHealth"]}
{"id": "C69", "title": "A drain that reports success has removed the pods", "statement": "A drain succeeds only if every pod to be drained was accepted for eviction or deletion and has ended, or the node is gone.", "quantifier": "all pod populations, answers, timeouts and polling histories", "why_tests_cant": "Universal over failures, timeouts and histories.", "anchors": ["pkg/util/provider/drain/drain.go:evictPodsWithPv", "pkg/util/provider/drain/drain.go:waitForDelete", "pkg/util/provider/drain/drain.go:evictPodWithoutPVInternal"]}
{"id": "C70", "title": "Pods with volumes are drained one after another, by priority", "statement": "While the volumes of one evicted pod are waited for no other pod with volumes is asked to leave, and a pod is asked only after all such pods of higher priority.", "quantifier": "all pod lists, retry budgets and answers", "why_tests_cant": "Orders over unbounded retries.", "anchors": ["pkg/util/provider/drain/drain.go:evictPodsWithPVInternal", "pkg/util/provider/drain/drain.go:sortPodsByPriority"]}
{"id": "C71", "title": "A node is cordoned before its pods are evicted", "statement": "No pod is evicted from a node that is still schedulable.", "quantifier": "all answers of the server", "why_tests_cant": "Depends on failures.", "anchors": ["pkg/util/provider/drain/drain.go:RunCordonOrUncordon", "pkg/util/provider/drain/drain.go:RunDrain"]}
{"id": "C72", "title": "The wait for reattachment ends exactly when all volumes were attached elsewhere", "statement": "Waiting for reattachment succeeds if and only if each volume of the pod was reported as attached to another node before the timeout.", "quantifier": "all event sequences", "why_tests_cant": "Event orders are unbounded.", "anchors": ["pkg/util/provider/drain/drain.go:waitForReattach", "pkg/util/provider/drain/drain.go:isDesiredReattachment"]}
{"id": "C73", "title": "Volume attachment events reach every drain in progress", "statement": "Every event is delivered to every registered drain in order, and no order of registrations, removals and events crashes the controller.", "quantifier": "all operation sequences", "why_tests_cant": "Interleavings.", "anchors": ["pkg/util/provider/drain/volume_attachment.go:dispatch", "pkg/util/provider/drain/volume_attachment.go:AddWorker", "pkg/util/provider/drain/volume_attachment.go:DeleteWorker"]}
{"id": "C74", "title": "Pausing a deployment stops its rollout", "statement": "While a deployment is paused no machine set is created, removed or given another template and no machines move between templates; only the requested number of machines is followed.", "quantifier": "all deployments, sets, failures", "why_tests_cant": "Universal over states and failures; tests look at single runs.", "anchors": ["pkg/controller/deployment.go:reconcileClusterMachineDeployment", "pkg/controller/deployment_sync.go:sync", "pkg/controller/deployment_sync.go:scale"]}
{"id": "C75", "title": "Machine sets are created only for a template no set has", "statement": "A run creates at most one machine set, with exactly the template of the deployment, and only if no machine set has that template; it never removes a set or changes its template except for the fields meant to be changed in place.", "quantifier": "all deployments, sets, strategies and failures", "why_tests_cant": "Universal over decisions and failures.", "anchors": ["pkg/controller/deployment.go:reconcileClusterMachineDeployment", "pkg/controller/deployment_sync.go:getNewMachineSet"]}
{"id": "C76", "title": "Deleting a deployment deletes its sets and nothing else", "statement": "A deployment being deleted marks all its machine sets for deletion, changes no size, creates nothing, and gives up its finalizer only when no set is left.", "quantifier": "all deployments, sets and failures", "why_tests_cant": "Universal over states and failures.", "anchors": ["pkg/controller/deployment.go:reconcileClusterMachineDeployment", "pkg/controller/deployment.go:terminateMachineSets"]}
{"id": "C77", "title": "Pods are forced off a node only when that is due", "statement": "A drain is forced exactly if the machine is labelled for forced deletion, its drain timeout has passed, or its node has been broken for more than five minutes; a forced drain never holds up the deletion, a graceful one that fails is repeated.", "quantifier": "all machines, times and answers", "why_tests_cant": "Combines several clocks, labels and failures.", "anchors": ["pkg/util/provider/machinecontroller/machine_util.go:drainNode"]}
{"id": "C78", "title": "A VM that comes up under a node of another machine is removed", "statement": "If a created VM reports a node that already exists and belongs to somebody else, the VM is deleted again and is never recorded in the machine object.", "quantifier": "all machines, nodes and answers", "why_tests_cant": "Needs rare provider behaviour and failing calls.", "anchors": ["pkg/util/provider/machinecontroller/machine.go:triggerCreationFlow"]}
{"id": "C79", "title": "A creation that keeps failing ends in the failed phase", "statement": "A machine whose creation is refused is in CrashLoopBackOff until its creation timeout and failed from then on, with the provider's message in its status, and a failed machine gets no VM.", "quantifier": "all machines, times and answers", "why_tests_cant": "Time-dependent.", "anchors": ["pkg/util/provider/machinecontroller/machine_util.go:machineCreateErrorHandler", "pkg/util/provider/machinecontroller/machine_util.go:getCreateFailurePhase", "pkg/util/provider/machinecontroller/machine.go:reconcileClusterMachine"]}
{"id": "C80", "title": "Name collisions of machine sets are overcome", "statement": "When the name derived from a template is taken by another machine set, the deployment's collision count is raised until a free name is found; with k names in use that takes at most 6k+1 collisions, whatever calls fail in between, as long as the count stays below 256.", "quantifier": "all templates, all printed forms of them, all sets of names in use and all histories of retries", "why_tests_cant": "Hash collisions are rare and their number depends on the hash function.", "anchors": ["pkg/controller/deployment_sync.go:getNewMachineSet", "pkg/controller/controller_utils.go:ComputeHash"]}
{"id": "C81", "title": "Every template has a machine set of its own", "statement": "A deployment has at most one machine set per template, sets of different templates never select the same machines, sets of different deployments never want the same name, and a set that exists under the wanted name is used only if it belongs to the deployment and has its template.", "quantifier": "all deployments, templates, caches and call outcomes", "why_tests_cant": "Needs slow caches and hash collisions.", "anchors": ["pkg/controller/deployment_sync.go:getNewMachineSet", "pkg/controller/deployment_util.go:EqualIgnoreHash"]}
{"id": "C82", "title": "Adopting a machine set loses no machine", "statement": "When a machine set without a hash label is adopted by a deployment, its selector is narrowed only after all of its machines carry the label, so that no machine of the set is released.", "quantifier": "all machine sets, machines and call outcomes", "why_tests_cant": "Adoption of sets with failed machines and of sets that cannot reach their size is not tested.", "anchors": ["pkg/controller/deployment_sync.go:addHashKeyToISAndMachines", "pkg/controller/deployment_util.go:LabelMachinesWithHash"]}
{"id": "C83", "title": "A node about to be drained says so, and why", "statement": "Before a machine's node is drained the node gets the condition Terminating with status True; the reason is Unhealthy if the machine had failed and ScaleDown otherwise, other conditions are untouched, and the reason does not change during the termination.", "quantifier": "all machines, nodes, caches and call outcomes", "why_tests_cant": "The order of phase changes and node updates over several reconciles decides.", "anchors": ["pkg/util/provider/machinecontroller/machine_util.go:UpdateNodeTerminationCondition", "pkg/util/nodeops/conditions.go:AddOrUpdateConditionsOnNode"]}
{"id": "C84", "title": "What happens to a machine wakes the machine sets concerned", "statement": "Every watch event about a machine puts the machine set that controls it, and one that just lost it, into the queue; an orphan is offered to all sets that select it; no other set is woken, and a creation is counted exactly once per machine that appears.", "quantifier": "all events, caches and owner references", "why_tests_cant": "Needs merged watch events, tombstones and invalid selectors.", "anchors": ["pkg/controller/machineset.go:addMachineToMachineSet", "pkg/controller/machineset.go:updateMachineToMachineSet", "pkg/controller/machineset.go:deleteMachineToMachineSet"]}
{"id": "C85", "title": "What happens to a machine set or its machines wakes the deployments concerned", "statement": "Every change of a machine set wakes the deployment that controls it, and one that just lost it; a set without controller is offered to all deployments that select it; a Recreate deployment is woken when its last machine is gone.", "quantifier": "all events, caches, owner references and call outcomes", "why_tests_cant": "The handler is tested on its own, not its registration; failing reads are not tested.", "anchors": ["pkg/controller/deployment.go:updateMachineSetToDeployment", "pkg/controller/controller.go:NewController"]}
{"id": "C86", "title": "Machines are made as the template says and belong to their set", "statement": "Every machine a machine set creates has the labels, annotations, finalizers and spec of the template, is controlled by the set alone, is kept by the set without a further write if the set selects its template, has a name beginning with the set's name, and counts as a replica of the set.", "quantifier": "all templates, sets, names given by the API server and runs", "why_tests_cant": "The template's annotations decide what later runs do with the machines.", "anchors": ["pkg/controller/controller_utils.go:GetMachineFromTemplate", "pkg/controller/controller_utils.go:createMachines", "pkg/controller/machineset.go:manageReplicas"]}
{"id": "C87", "title": "Updates end and tell the truth", "statement": "Every update of a status or of finalizers ends after a bounded number of calls whatever the API server answers; it reports success only if the wanted value is stored; it changes nothing else.", "quantifier": "all answers of the API server, at every attempt, and all objects read", "why_tests_cant": "Permanently refused writes and answers that differ from attempt to attempt are not tried.", "anchors": ["pkg/controller/machineset.go:updateMachineStatus", "pkg/controller/machineset.go:updateMachineSetFinalizers", "pkg/controller/deployment.go:updateMachineDeploymentFinalizers", "pkg/controller/deployment_machineset_util.go:updateMachineSetStatus", "pkg/controller/machineset_util.go:UpdateISWithRetries"]}
{"id": "C88", "title": "Secrets are looked at when classes begin or cease to use them", "statement": "Whenever a machine class begins or ceases to name a secret, the controller looks at that secret; it looks at no other; a look puts the finalizer on secrets in use and takes it from others; every secret once seen is looked at again within ten minutes.", "quantifier": "all classes, references, events and failures", "why_tests_cant": "Classes with only one kind of reference and deletions the watch missed are not tried.", "anchors": ["pkg/util/provider/machinecontroller/secret.go:machineClassToSecretUpdate", "pkg/util/provider/machinecontroller/secret.go:reconcileClusterSecretKey"]}
{"id": "C89", "title": "Classes are looked at when machines begin or cease to use them", "statement": "Whenever a machine begins or ceases to use a machine class, the controller looks at the class, one worker at a time; machines are looked at once their class is held; every class is looked at again within ten minutes.", "quantifier": "all machines, classes, events, failures and interleavings of workers", "why_tests_cant": "Needs two workers on one class and missed watch events.", "anchors": ["pkg/util/provider/machinecontroller/machineclass.go:machineToMachineClassAdd", "pkg/util/provider/machinecontroller/machineclass.go:reconcileClusterMachineClassKey"]}
{"id": "C90", "title": "The phase of a machine follows the documented diagram", "statement": "Between any two successive versions of a machine its phase stays, follows an arrow of the documented phase diagram, or becomes Terminating because the machine is being deleted.", "quantifier": "all machines and all interleavings of the machine, termination, machine set and safety controllers", "why_tests_cant": "Needs whole lives of machines with all writers of the phase interleaved.", "anchors": ["docs/FAQ.md:What are the different phases of a machine", "pkg/util/provider/machinecontroller/machine.go:reconcileClusterMachine", "pkg/controller/machineset.go:prepareMachineForDeletion"]}
{"id": "C91", "title": "Terminating is final", "statement": "A machine in phase Terminating is being deleted and stays in this phase until it is gone.", "quantifier": "all machines and all interleavings of the controllers", "why_tests_cant": "Needs failing deletions and stale caches between several controllers.", "anchors": ["pkg/util/provider/machinecontroller/machine.go:triggerDeletionFlow", "pkg/util/provider/machinecontroller/machine_safety.go:reconcileClusterMachineSafetyAPIServer", "pkg/controller/machineset.go:updateMachineStatus"]}
{"id": "C92", "title": "Machines become Running", "statement": "A machine without a recorded VM, whether new, crash looping or failed, is Running with exactly one VM, whose node and provider id it carries, after four runs of the machine controller in which no call fails and the node is healthy and free of the critical-components taint, and it stays so.", "quantifier": "all machines, whether or not the VM exists already, all sequences of such runs", "why_tests_cant": "Follows a machine through finalizer, creation, labels and health checks for every starting state.", "anchors": ["pkg/util/provider/machinecontroller/machine.go:reconcileClusterMachine", "pkg/util/provider/machinecontroller/machine_util.go:reconcileMachineHealth"]}
{"id": "C93", "title": "Evictions follow the drain settings", "statement": "During a drain that is not forced, a pod is asked to leave every twenty seconds, at most as often as maxEvictRetries says and not beyond drainTimeout, where a machine's own settings win over the flags. If only drainTimeout is set for a machine, evictions go on for that whole time.", "quantifier": "for all flags, machine configurations and pods", "why_tests_cant": "The settings interact: which one wins depends on their sizes, and tests use one combination.", "anchors": ["pkg/util/provider/machinecontroller/machine_util.go: drainNode, getEffectiveDrainTimeout, getEffectiveMaxEvictRetries", "pkg/util/provider/drain/drain.go: evictPodWithoutPVInternal, evictPodsWithPv", "docs/FAQ.md: How does maxEvictRetries configuration work with drainTimeout configuration?"]}
{"id": "C94", "title": "Health settings mean what is documented", "statement": "A machine counts as unhealthy exactly if its node is not ready or one of the conditions listed for it is set; it is declared failed only after its own health or creation timeout, or that of the flags if it has none, and never because of the health timeout if disableHealthTimeout is set.", "quantifier": "for all flags, machine configurations, lists of names, node conditions and times", "why_tests_cant": "Lists are parsed from text, and each setting has a fallback; tests use the defaults.", "anchors": ["pkg/util/provider/machinecontroller/machine_util.go: isHealthy, getEffectiveHealthTimeout, getEffectiveCreationTimeout, getEffectiveNodeConditions, reconcileMachineHealth", "pkg/apis/machine/v1alpha1/shared_types.go: MachineConfiguration"]}
{"id": "C95", "title": "Deleting a machine touches only its own node", "statement": "The deletion of a machine cordons, drains and deletes no node but the one that runs on the machine's VM; so the machine is found by the name its node carries, and nodes carry the names of their machines.", "quantifier": "all interleavings of creations, deletions, registrations and label writes of any number of machines and nodes, with lagging caches", "why_tests_cant": "Needs two machines that meet at one node name over time.", "anchors": ["pkg/util/provider/machinecontroller/machine_util.go: syncMachineNameToNode, getNodeName, fetchMatchingNodeName, updateMachineNodeLabel, drainNode, deleteNodeObject", "pkg/util/provider/machinecontroller/machine.go: updateLabels"]}
{"id": "C96", "title": "Forced deletion detaches the node's volumes before the VM goes", "statement": "After a forced drain all volume attachments of the machine's node, and no others, are deleted before the VM is deleted; this stage ends.", "quantifier": "all attachments, lists, answers to requests and numbers of runs", "why_tests_cant": "Depends on attachments of several nodes and on requests that fail again and again.", "anchors": ["pkg/util/provider/machinecontroller/machine_util.go: deleteNodeVolAttachments, getLiveVolumeAttachmentsForNode, deleteVolumeAttachmentsForNode"]}
{"id": "C97", "title": "The controllers together reach the desired fleet from any population", "statement": "From any population of machines of a set (new, pending, running, unknown, failed, crash looping, marked for deletion, being deleted in any phase, too many or too few) the machine set controller, the machine controller and the termination, in any order and as long as no call fails and the caches are current, make exactly the desired number of machines, each of them Running with exactly one VM; no deleted machine and no VM is left behind, and then nothing changes any more.", "quantifier": "all populations and all interleavings of runs, any number of machines", "why_tests_cant": "Convergence of three controllers with one another; tests look at one run of one controller.", "anchors": ["pkg/controller/machineset.go: manageReplicas, prepareMachineForDeletion, terminateMachines", "pkg/util/provider/machinecontroller/machine.go: reconcileClusterMachine, triggerCreationFlow, triggerDeletionFlow", "pkg/util/provider/machinecontroller/machine_util.go: reconcileMachineHealth"]}
{"id": "C98", "title": "A deployment's status keeps up with its machine sets and comes to rest", "statement": "After a run of the deployment controller whose status write is accepted, the status shows the observed generation and the replica, updated, ready, available and unavailable counts of the machine sets, and lists exactly the failed machines the sets report, as they report them. While machine sets and specification stay the same the status is not written again (once more when the progress deadline passes).", "quantifier": "all deployments, stored statuses, machine sets with any conditions and failed machines, any number of runs at any times", "why_tests_cant": "The comparison that decides about a write ignores most fields of failed machines and mixes pointer, length and deep comparison; tests check single calls, not that every later run stays quiet or that no stale entry survives", "anchors": ["pkg/controller/deployment_util.go:1187-1222", "pkg/controller/deployment_progress.go:40-120", "pkg/controller/deployment_sync.go:606-665"]}
{"id": "C99", "title": "The metrics show the objects that exist", "statement": "After a scrape there is a series for every machine, machine set and machine deployment that exists, showing its current counts, parameters, conditions, phase and failed machines; there is no series for anything that does not exist; the totals are the numbers of objects; and a scrape never ends the process.", "quantifier": "all populations of machines, sets and deployments with any contents, any sequence of scrapes", "why_tests_cant": "Tests of the collectors check that series are emitted for one object; they do not look at what stays behind after objects change or disappear, nor at objects with absent optional fields", "anchors": ["pkg/controller/metrics.go:40-299", "pkg/util/provider/machinecontroller/metrics.go:25-123"]}
{"id": "C100", "title": "The counter of stale machines misses none and counts none twice", "statement": "mcm_machine_stale_machines_total shows, right after each scrape, the number of machines deleted because they had been unhealthy for too long.", "quantifier": "all interleavings of deletions and scrapes", "why_tests_cant": "The counter is shared by all workers and reset at each scrape; tests cover one increment", "anchors": ["pkg/controller/metrics.go:19-53", "pkg/controller/machineset.go:664-694"]}
{"id": "C101", "title": "A rollout comes to its end", "statement": "From any state of a rolling update (any old sets of any sizes, the set of the current template existing or not, machines in any phase, failed, being created or being deleted) the deployment controller, the machine set controller and the machine controllers, in any order and undisturbed, reach a state in which exactly the desired number of machines exists, all of the current template and Running with one VM each, with no machine of an old template and no VM left behind, and machine sets that are being deleted are gone; and then nothing changes any more.", "quantifier": "all states of all sets and machines, all sizes, all interleavings of runs of all controllers, with the deployment controller seeing arbitrarily stale statuses and having calls fail in between", "why_tests_cant": "Progress of one controller depends on what the others report, over many rounds; tests run single reconciliations of one controller against fixed objects", "anchors": ["pkg/controller/deployment.go:425-551", "pkg/controller/deployment_rolling.go:38-329", "pkg/controller/machineset.go:333-587", "pkg/util/provider/machinecontroller/machine.go:171-292"]}
{"id": "C102", "title": "Any history of edits is overcome", "statement": "Whatever was done to a machine deployment before (templates, replicas, limits and strategy changed at any moment, in the middle of rollouts and of scalings, pauses, rollbacks, machine sets deleted, failing calls, stale statuses), once it asks for a rolling update and is left alone, the controllers reach exactly the desired number of machines, all of the current template and Running with one VM each, and no other machine or VM.", "quantifier": "all histories of edits and runs of all controllers, all sizes, all interleavings afterwards", "why_tests_cant": "The number of histories is unbounded, and what a run does depends on bookkeeping annotations that earlier runs, possibly cut short, left behind; tests start from objects written down by hand", "anchors": ["pkg/controller/deployment.go:425-551", "pkg/controller/deployment_sync.go:402-489", "pkg/controller/deployment_sync.go:673-698", "pkg/controller/deployment_util.go:650-700", "pkg/controller/deployment_rolling.go:38-329", "pkg/controller/deployment_rollback.go:36-116"]}
{"id": "C103", "title": "A Recreate deployment comes to what it asks for", "statement": "A machine deployment whose strategy is Recreate, whatever else was edited at any time, never has two machine sets that want machines, and once it is left alone the controllers bring the old sets to zero, wait for their machines, and reach exactly the desired number of machines, all of the current template and Running with one VM each, and no other machine or VM.", "quantifier": "all histories of edits and runs of all controllers, all sizes, all interleavings, all failures of calls before the last ones", "why_tests_cant": "The strategy works in several runs that wait for each other through stored sizes, statuses and bookkeeping annotations; a request that makes a run take another path for ever shows only in unbounded executions", "anchors": ["pkg/controller/deployment_recreate.go:35-153", "pkg/controller/deployment_sync.go:402-489", "pkg/controller/deployment_sync.go:673-698", "pkg/controller/deployment.go:511-551", "pkg/controller/deployment_rollback.go:40-93"]}
{"id": "C104", "title": "No object is ever forgotten by the controllers", "statement": "An object that a controller has once taken up \u2013 a machine, a machine under termination, a machine class, a secret, a machine deployment or a machine set \u2013 stays queued, waiting or in progress for as long as it exists, whatever calls fail in between: it is never silently dropped.", "quantifier": "all interleavings of events, timers, workers and runs, any number of objects, all patterns of failures", "why_tests_cant": "A dropped key shows only after a particular number of failures in a row with particular timers pending; there is no error at that moment, just silence afterwards", "anchors": ["pkg/util/worker/worker.go:37-68", "pkg/controller/deployment.go:426-457", "pkg/controller/machineset.go:470-586", "pkg/util/provider/machinecontroller/machine.go:138-169", "pkg/util/provider/machinecontroller/machine.go:240-292", "pkg/util/provider/machinecontroller/machineclass.go:70-97", "pkg/util/provider/machinecontroller/secret.go:25-82"]}
{"id": "C105", "title": "A run of the machine set controller stays within its set", "statement": "A whole run of the machine set controller \u2013 finalizer, claiming, propagation of the template, creation and deletion, status \u2013 deletes only machines of its own set, creates at most what its set misses, works only on a set that is protected by its finalizer, gives up the finalizer only when no machine of the set is left, creates nothing for a set that is being deleted but deletes all its machines, reports exactly its own machines, and the trouble of one machine does not keep it from serving the others.", "quantifier": "all machine sets, all machines in the cache, all outcomes of all calls", "why_tests_cant": "The guarantees of the parts hold under assumptions on the machines they are given; whether the run as a whole establishes them for mixed caches with orphans, foreign machines, refused patches and partial failures is a statement about all combinations", "anchors": ["pkg/controller/machineset.go:457-587", "pkg/controller/machineset.go:589-604", "pkg/controller/machineset.go:744-766", "pkg/controller/controller_ref_manager.go:97-160"]}
{"id": "C106", "title": "A machine set does not overshoot because its cache is behind", "statement": "Whatever the machine cache shows, a machine set does not get more machines in service than it wants by its own doing, and does not lose machines below the wanted number by its own doing: the deviation that a run can cause is at most the number of machines about which the cache is wrong.", "quantifier": "all caches, all stored machines, all outcomes of calls, all interleavings of runs, deliveries of the watch and foreign changes", "why_tests_cant": "The effect depends on how far the watch is behind when a run begins; a test with a fake client has a cache that is never behind", "anchors": ["pkg/controller/machineset.go:333-452", "pkg/controller/machineset.go:514-541", "pkg/controller/machineset.go:665-737"]}
{"id": "C107", "title": "The collection of orphan VMs spares machines being made or in service and leaves no others", "statement": "Run beside the creation and deletion of machines, in any interleaving and with a cache that lags, the collection of orphan VMs never deletes a VM of a machine that is being made or the recorded VM of a machine; and once a machine has its VM recorded, or is gone, the next pass without failures removes every other VM of its name, including one that was created after its object had gone.", "quantifier": "all interleavings of passes, creations, writes, deliveries of the watch and restarts, all provider answers", "why_tests_cant": "The races are between a list request, a look-up in a lagging cache and a delete request on one side and creations on the other; a unit test runs the pass on its own", "anchors": ["pkg/util/provider/machinecontroller/machine_safety.go:226-300", "pkg/util/provider/machinecontroller/machine.go:171-238", "pkg/util/provider/machinecontroller/machine.go:446-653"]}
{"id": "C108", "title": "The status of a machine shows the operation and the timeout that belong to its phase", "statement": "In every version of a Machine the last operation, its state and the timeout flag fit the phase: e.g. Pending goes with a Create that is being processed and a running timeout, CrashLoopBackOff with a Create that failed, Unknown with a HealthCheck being processed, Terminating with a Delete; and the timeout flag is set exactly while there is a timeout at the end of which the machine is given up.", "quantifier": "all histories of a machine, with any interleaving of machine controller, termination, machine set controller and safety controller, any failures and provider answers", "why_tests_cant": "The status is written at some twenty places in three controllers, some of which keep parts of the previous status; tests compare single writes", "anchors": ["pkg/util/provider/machinecontroller/machine.go:535-622", "pkg/util/provider/machinecontroller/machine_util.go:503-543", "pkg/util/provider/machinecontroller/machine_util.go:640-784", "pkg/util/provider/machinecontroller/machine_util.go:902-1429", "pkg/util/provider/machinecontroller/machine_safety.go:72-96", "pkg/controller/machineset.go:695-711"]}
{"id": "C109", "title": "Nothing is reconciled on caches that are not filled yet", "statement": "Whenever a reconciler of one of the two processes reads a cache (machines, sets, deployments, classes, secrets, nodes, pods, volumes, disruption budgets, attachments), the first list of that kind has been received before; in particular the collection of orphan VMs, which starts by itself, never takes a machine cache that is not filled for an empty one.", "quantifier": "all executions of both processes: any order in which lists arrive, any version of the target cluster, any number of workers", "why_tests_cant": "Fake informers are filled before the tests start; nothing tests `Run`", "anchors": ["pkg/controller/controller.go:194-231", "pkg/util/provider/machinecontroller/controller.go:272-323", "pkg/util/provider/cache/cache.go:23-43", "pkg/util/provider/drain/drain.go:242-245", "pkg/util/provider/machinecontroller/machine_safety.go:226-300"]}
{"id": "C110", "title": "The health endpoint tells whether the process works, and only the leader works", "statement": "Machines are reconciled only by a process that holds the lease and has found its resources, and not after it has lost the lease; the process ends if the resources it needs are not there; /healthz says OK only if the process can reconcile.", "quantifier": "all executions of both processes, all answers of the API server, all values of the flags", "why_tests_cant": "The functions `Run`, `StartControllers` and `startHTTP` are not tested, and the failures do not show in any return value", "anchors": ["cmd/machine-controller-manager/app/controllermanager.go:76-285", "cmd/machine-controller-manager/app/controllermanager.go:292-372", "pkg/util/provider/app/app.go:74-393", "pkg/handlers/health.go:13-41", "cmd/machine-controller-manager/app/options/options.go:108-112"]}
{"id": "C111", "title": "A failing request at the start has no lasting effect", "statement": "Whether the machine controller follows the attachments of volumes depends on the API of the cluster, not on whether a single request at the start of the process failed.", "quantifier": "all answers of the discovery API, all later waits for the re-attachment of volumes", "why_tests_cant": "The fake client has no discovery failures, and the drain tests pass the handler in directly", "anchors": ["pkg/util/k8sutils/helper.go:24-62", "pkg/util/provider/machinecontroller/controller.go:195-207", "pkg/util/provider/drain/drain.go:937-986"]}
{"id": "C112", "title": "At most one process works at a time, and another one takes over", "statement": "Among the processes of one program at most one leads at any time; when it ends, any other can take over when the time of a lease has passed.", "quantifier": "any number of processes, all interleavings of their requests, lost and late answers, crashes and restarts, all times that are accepted", "why_tests_cant": "Two leaders need two processes, late answers and the right moments; nothing tests the election", "anchors": ["cmd/machine-controller-manager/app/controllermanager.go:160-199", "pkg/util/provider/app/app.go:157-196", "pkg/util/client/leaderelectionconfig/config.go:31-72"]}
{"id": "C113", "title": "A rolling update leaves enough machines serving, at every moment", "statement": "During a rolling update of any number of old sets, at every moment of every execution of the deployment, set and machine controllers at least replicas - maxUnavailable machines are Running and not being deleted (or as many as were when the update began, if fewer), as long as the machines themselves stay healthy.", "quantifier": "all executions: any number of old sets and machines, runs in any order, statuses seen late, calls failing at any point, absolute and percentage budgets", "why_tests_cant": "Tests check the sizes after one step with statuses filled in by hand; the machines that actually serve depend on the interleaving of three controllers", "anchors": ["pkg/controller/deployment_rolling.go:144-291", "pkg/controller/machineset.go:333-455", "pkg/controller/machineset.go:645-655", "pkg/controller/controller_utils.go:734-790", "pkg/controller/deployment_machineset_util.go:92-150"]}
{"id": "C114", "title": "A rolling update never has more machines than allowed, at any moment", "statement": "During a rolling update of any number of old sets, at every moment of every execution of the deployment, set and machine controllers there are at most replicas + maxSurge machines (or as many as there were or were wanted when the update began, if more).", "quantifier": "all executions: any number of old sets and machines, runs in any order, statuses seen late, calls failing at any point, absolute and percentage budgets", "why_tests_cant": "Tests check one computed size with statuses filled in by hand; how many machines exist depends on the interleaving of three controllers", "anchors": ["pkg/controller/deployment_rolling.go:126-142", "pkg/controller/deployment_util.go:1085-1111", "pkg/controller/deployment_sync.go:402-415", "pkg/controller/deployment_sync.go:673-698", "pkg/controller/machineset.go:333-455", "pkg/controller/deployment_machineset_util.go:92-150"]}
{"id": "C115", "title": "A deleted machine deployment goes last, after its sets, their machines and the VMs; undisturbed all of it goes", "statement": "In every execution of all controllers together, a machine deployment whose deletion was requested stays until its machine sets are gone, a set until its machines are gone, a machine until its VM is gone; and if nothing is in the way, all of them do go, from any state the machines may be in.", "quantifier": "all executions: any number of sets and machines in any phase, runs in any order, failed calls, crashes between writes, outdated caches, deletions by anybody at any time", "why_tests_cant": "Tests delete one object with the caches filled by hand; the order of disappearance and the end of the cascade are properties of long interleavings of four controllers", "anchors": ["pkg/controller/deployment.go:414-613", "pkg/controller/machineset.go:457-604", "pkg/controller/machineset.go:665-793", "pkg/controller/controller_ref_manager.go:60-115", "pkg/util/provider/machinecontroller/machine.go:171-292", "pkg/util/provider/machinecontroller/machine.go:699-761"]}
{"id": "C116", "title": "Whatever went wrong before, undisturbed controllers make the desired population of machines", "statement": "After any disturbances - provider calls that failed with or without effect, lost, refused or repeated writes, crashes anywhere, unhealthy nodes, machines deleted, marked, edited or created by users - no VM is without its machine and no machine has two VMs; and once the controllers are left undisturbed, exactly the desired number of machines exist, all Running with one VM each, and all others are gone with their VMs.", "quantifier": "all executions: any number of machines in any phase, any interleaving of disturbed runs of the machine set controller, the machine controller, the termination, the safety controller and users, followed by any fair undisturbed execution", "why_tests_cant": "Tests inject one failure into one reconcile; that every combination of failures leaves a state from which the controllers recover is a property of all executions", "anchors": ["pkg/util/provider/machinecontroller/machine.go:171-292", "pkg/util/provider/machinecontroller/machine.go:446-697", "pkg/util/provider/machinecontroller/machine.go:699-761", "pkg/controller/machineset.go:333-452", "pkg/controller/machineset.go:660-737", "pkg/util/provider/machinecontroller/machine_safety.go:64-103"]}
{"id": "C117", "title": "Whatever went wrong before, a deleted deployment goes with everything below it", "statement": "However many calls fail, requests get lost or are refused and runs stop half way in any controller, and whatever users delete, edit or reset in between: as long as a VM exists its machine exists, as long as a machine exists its machine set exists, and as long as a set exists its deployment exists; and once the deletion of the deployment is requested, foreign finalizers are gone and the controllers are undisturbed, all of it goes.", "quantifier": "all executions: any number of sets and machines in any phase, any interleaving of disturbed runs of the deployment controller, the machine set controller, the machine controller, the termination and other parties, followed by any fair undisturbed execution", "why_tests_cant": "A test tears down one deployment with one failure at one place; that no combination of failures leaves something behind or blocks the deletion for ever is a property of all executions", "anchors": ["pkg/controller/deployment.go:425-551", "pkg/controller/machineset.go:457-587", "pkg/controller/machineset.go:660-737", "pkg/util/provider/machinecontroller/machine.go:171-292", "pkg/util/provider/machinecontroller/machine.go:699-761"]}
{"id": "C118", "title": "Whatever was done to a deployment and whatever went wrong with its machines, it comes to what it asks for", "statement": "After any past - any edits of the deployment, sets scaled or deleted by hand, adopted, released or frozen, rollbacks, pauses, failing, lost and refused calls of every controller, crashes anywhere, unhealthy nodes, machines deleted, created or edited by users, wrong and stale statuses - a deployment that is left alone comes to exactly the desired number of machines, all of its current template, all Running with one VM each, with no other machine or VM left, and it stays so. At no time is there a VM without a machine or a second VM for a living machine.", "quantifier": "all executions: any number of machine sets and machines in any phase, any interleaving of edits, disturbances and runs of all controllers, followed by any fair undisturbed execution", "why_tests_cant": "Tests roll out one change without disturbance; that every combination of changes and failures leaves a state from which the controllers together reach the goal is a property of all executions", "anchors": ["pkg/controller/deployment.go:425-551", "pkg/controller/deployment_rolling.go:44-127", "pkg/controller/deployment_recreate.go:30-63", "pkg/controller/machineset.go:333-452", "pkg/controller/machineset.go:457-587", "pkg/util/provider/machinecontroller/machine.go:171-292", "pkg/util/provider/machinecontroller/machine.go:446-697"]}
{"id": "C119", "title": "The machine controller comes back in time, and not too often", "statement": "After every run for a machine the next one follows within ten minutes, whatever calls failed; within a minute while a timeout is running; within five seconds while the deletion of the machine can go on, or after an error of the provider that is expected to go away; after 200 ms if another writer got in between. Requests that the provider refuses for other reasons are not repeated at once: the creation of a VM not before three minutes, its deletion not before ten minutes.", "quantifier": "all machines, all outcomes of all calls, all provider errors, all failure counts of the work queue, all sequences of refused requests", "why_tests_cant": "The time to the next run comes from three places - the step, the error it returns and the failure count of the work queue - and unit tests of a step look at its return value only", "anchors": ["pkg/util/provider/machinecontroller/machine.go:138-292", "pkg/util/provider/machinecontroller/machine.go:446-761", "pkg/util/provider/machinecontroller/machine_util.go:503-575", "pkg/util/provider/machinecontroller/machine_util.go:618-806", "pkg/util/provider/machinecontroller/machine_util.go:919-1429", "pkg/util/provider/machineutils/utils.go:86-93", "pkg/util/worker/worker.go:37-68"]}
{"id": "C120", "title": "With Recreate, machines of two sets never exist at the same time", "statement": "At every moment in the life of a machine deployment that always had the strategy Recreate, all machines (and VMs) that exist belong to one machine set, and therefore to one template; a set is given a size only when no machine of any other set is left.", "quantifier": "For all histories of runs of the three controllers with any outcomes of calls and any edits of template, size and other fields, pauses and resumptions, from the creation of the deployment on; without rollbacks", "why_tests_cant": "The claim is about every moment of interleavings of three controllers, the user and stale caches; a test sees a few interleavings, usually only the end of a rollout.", "anchors": ["pkg/controller/deployment_recreate.go:35-153", "pkg/controller/deployment_sync.go:402-489", "pkg/controller/deployment_sync.go:673-698", "pkg/controller/deployment.go:379-409"]}
{"id": "C121", "title": "A stuck rollout is reported soon after its deadline", "statement": "If a rollout with a progress deadline is not finished and nothing changes any more, then no later than one second and the latency of the queue after the deadline (counted from the first run that sees this state) the stored status of the deployment has the condition Progressing with status False and reason ProgressDeadlineExceeded, and keeps it as long as nothing changes. It never gets it earlier than the deadline after the last update of the condition.", "quantifier": "For all deployments, sets, stored statuses, deadlines and all infinite sequences of runs that come no later than asked for plus a slack; early runs and any other times included", "why_tests_cant": "The report depends on the controller putting the deployment back into its queue in time after every run, which concerns unbounded sequences of runs and the clock; tests call the functions once with a fixed time.", "anchors": ["pkg/controller/deployment_progress.go:40-121", "pkg/controller/deployment_progress.go:154-200", "pkg/controller/deployment_util.go:1009-1079"]}
{"id": "C122", "title": "Bootstrap tokens of a machine expire and go away with the join", "statement": "Every bootstrap token made for a machine, and every token ever given to one of its VMs, stops being accepted at most the creation timeout after an attempt to create the machine; once all attempts are older than the timeout no valid token remains. A token given to a VM is valid while the machine is expected to join, and a machine that has joined has no token any more.", "quantifier": "For all interleavings of runs of the machine controller (from any stored version), of other writers, of the clock and of the cluster's token cleaner, and for all failures of requests", "why_tests_cant": "Whether a valid token remains depends on the order of retries, joins, failures and outdated caches over the whole life of a machine; tests call the functions once with a fresh token.", "anchors": ["pkg/util/provider/machinecontroller/userdata.go:107-152", "pkg/util/provider/machinecontroller/machine.go:446-500", "pkg/util/provider/machinecontroller/machine_util.go:669-678"]}
{"id": "C123", "title": "Taints are read as they are written", "statement": "A list of taints printed in the notation key=value:effect is read back unchanged. Reading a list of taints to add and remove never fails otherwise than with an error, and gives taints with known effects, valid names and at most one per key and effect. Adding and removing in one step gives exactly the taints to add and the old ones not replaced, less those named by a removal.", "quantifier": "For all lists of taints, all texts and all validation functions whose valid names and values do not contain the separators", "why_tests_cant": "The space of texts is unbounded and the interesting ones are malformed; the tests read five texts.", "anchors": ["pkg/util/taints/taints.go:46-155", "pkg/util/taints/taints.go:158-232"]}
{"id": "C124", "title": "Floating point does not change a decision", "statement": "The sizes computed from percentages (maxSurge, maxUnavailable), the shares of the machine sets when a deployment is scaled during a rollout, the comparison of error texts and the number of eviction attempts of a drain, which the code computes with 64-bit floating point numbers, are those that exact arithmetic gives.", "quantifier": "For all percentages and sizes with a product below 2^53, all shares whose products are 32-bit numbers, all texts below 2^47 bytes, all drain timeouts below 26 days", "why_tests_cant": "A rounding error in the last bit decides only for particular arguments among billions; tests try a few round numbers.", "anchors": ["pkg/controller/deployment_util.go:648-699", "pkg/controller/deployment_util.go:1167-1186", "pkg/util/strings/string.go:10-14", "pkg/util/provider/machinecontroller/machine_util.go:1065"]}
{"id": "C125", "title": "The overshooting guard bounds what an outdated cache can do", "statement": "If the safety controller comes to a machine set after at most R runs of the machine set controller, and the cache is then behind by at most L machines, the number of machines of the set stays below its (greatest) freezing limit plus L plus R times what one run may create, however outdated the cache was in those runs. A frozen set gets no further machine.", "quantifier": "For all executions: runs of both controllers in any order, any outcomes of calls, any caches, any machines, any edits of sizes up to a maximum", "why_tests_cant": "The guard matters only when several runs decide on outdated caches; tests run each controller alone on a current one.", "anchors": ["pkg/controller/machine_safety.go:38-72", "pkg/controller/machine_safety.go:199-279", "pkg/controller/machineset.go:333-452"]}
{"id": "C126", "title": "A drain respects disruption budgets that allow no disruption", "statement": "The eviction of a pod is given up because of a disruption budget only if the pod has a budget that, by its present specification, permits no disruption even with all its pods healthy. Such a budget is recognised, and the pod is then neither deleted nor evicted by a drain that is not forced; its failure is reported.", "quantifier": "For all budgets and their states, all pods, all answers of the server, all numbers of evictions", "why_tests_cant": "The outcome depends on the status of the budget at the moment of each refusal, on pods elsewhere, and on the order of a cache; the tests of the drain run without budgets.", "anchors": ["pkg/util/provider/drain/drain.go:731-748", "pkg/util/provider/drain/drain.go:1055-1067", "pkg/util/provider/drain/drain.go:1178-1200"]}
{"id": "C127", "title": "A resync of the caches makes up for what was missed", "statement": "At the end of every resync period (twelve hours by default) each machine set, deployment and machine class in the cache is put into its queue, each machine whose node is annotated for deletion is deleted, and each machine whose conditions differ from its node's is looked at; nothing else happens, in particular no expectation changes. So a machine set that was given up after sixteen failures is looked at again after at most one period.", "quantifier": "For all contents of the caches, all queues that can be reached, all executions with resyncs", "why_tests_cant": "The tests call handlers with hand-made changes; none waits for twelve hours, and what does not happen in a resync depends on early returns in a dozen handlers.", "anchors": ["pkg/controller/controller.go:108-147", "pkg/util/provider/machinecontroller/controller.go:145-195", "pkg/controller/machineset.go:139-159", "pkg/controller/machineset.go:208-215", "pkg/controller/deployment.go:62-67", "pkg/controller/deployment.go:145-153", "pkg/util/provider/machinecontroller/machine.go:54-73"]}
{"id": "C128", "title": "An edit in place reaches machines and nodes and replaces no machine", "statement": "Changing the node template, the machine configuration, the class kind, the annotations or minReadySeconds of a deployment changes no size, creates and deletes no machine set and costs at most one extra run of the controller. The change gets into the machine set of the template with the next run that gets through, into all its active machines after three runs of the machine set controller that get through, and into each of their nodes with the next sync of the node, where what the earlier template had brought and the new one lacks is removed; later runs do not undo it.", "quantifier": "For all deployments, machine sets, machines and nodes, all failures of calls, all interleavings of the three controllers", "why_tests_cant": "The tests look at one of the three controllers each, with one object; that an edit passes through all three, and that sizes are not touched on the way, depends on what is written and compared in each of them.", "anchors": ["pkg/controller/deployment_sync.go:230-290", "pkg/controller/deployment_util.go:344-480", "pkg/controller/deployment.go:425-551", "pkg/controller/machineset_util.go:85-205", "pkg/controller/machineset.go:524-539", "pkg/util/provider/machinecontroller/machine_util.go:271-347"]}
{"id": "C129", "title": "Scaling in by naming machines deletes the named machines and no others", "statement": "When the size of a deployment is lowered by k and k of its machines are named in the annotation for triggered deletion, as the cluster autoscaler does it, exactly the named machines are deleted: no other machine in service is deleted to get to the new size, and none is created in place of the named ones.", "quantifier": "For all machines, names and sizes, all failures of calls, all interleavings of the deployment controller, the machine set controller, the machine controller and the watch", "why_tests_cant": "The marks and the size are written one after another by one controller and read by another one through different channels; which machines are deleted depends on when it looks.", "anchors": ["pkg/controller/deployment.go:612-671", "pkg/controller/deployment_sync.go:402-417", "pkg/controller/machineset.go:333-452", "pkg/controller/machineset.go:472-514", "pkg/util/annotations/annotations.go:75-88"]}
{"id": "C130", "title": "The unhealthy machines of a deployment are all replaced, one after the other", "statement": "Machines of a deployment that stay unhealthy for longer than their timeout are replaced one at a time until all machines are running, in whatever order the controllers act; other machines of the deployment do not keep an unhealthy one from being replaced sooner or later.", "quantifier": "For all numbers of machines, all phases they are in, all orders of steps", "why_tests_cant": "A test can follow one order of events for a few machines; that there is no deadlock and no endless sequence of replacements is a statement about all of them.", "anchors": ["pkg/util/provider/machinecontroller/machine_util.go:1554-1602", "pkg/util/provider/machinecontroller/machine_util.go:1640-1669", "pkg/controller/machineset.go:333-452"]}
{"id": "C131", "title": "A drain ends soon after its timeout, and deletes what it cannot evict", "statement": "A drain ends at the latest 25 seconds after its drain timeout and a forced drain within its own timeout of a minute, however long requests, pods and volumes take; and a pod whose eviction is refused until the number of evictions is used up is deleted by the drain.", "quantifier": "All pods, budgets, answers, durations of requests, grace periods, volume behaviours and settings of timeouts and evictions", "why_tests_cant": "A test uses answers that come at once and short timeouts; how sleeps, request durations, the context's deadline and the retry limit combine is a statement about all of them.", "anchors": ["pkg/util/provider/drain/drain.go:218-248", "pkg/util/provider/drain/drain.go:628-821", "pkg/util/provider/drain/drain.go:861-986", "pkg/util/provider/drain/drain.go:1025-1121", "pkg/util/provider/machinecontroller/machine_util.go:1065"]}
{"id": "C132", "title": "A failing drain does not keep a machine from being deleted for ever", "statement": "As long as the drain of its node fails, the VM of a machine being deleted is not deleted; but once the machine's drain timeout has passed, it is labelled for forced deletion, or its node has been unhealthy for more than five minutes, the machine is gone after eight further reconciles, even if all drains fail.", "quantifier": "All machines being deleted, in any status; all runs of reconciles, with any outcomes of drains and node updates", "why_tests_cant": "A test runs one step of the deletion with one failing drain; that the failures are borne until the timeout and not after it, from every status, is a statement about whole runs.", "anchors": ["pkg/util/provider/machinecontroller/machine_util.go:1036-1235", "pkg/util/provider/machinecontroller/machine_util.go:1238-1299", "pkg/util/provider/machinecontroller/machine.go:699-761"]}
{"id": "C133", "title": "What has been reached is left alone", "statement": "Once the machine set of a deployment's template has the deployment's size and all other sets have size zero, further runs of the deployment controller keep it so, do not write the deployment and change sets at most once for the current set's metadata, once for its replica annotations and once for each old set removed; a machine set that has what it wants sends no requests after at most two status updates; and a running machine whose node keeps its good conditions is neither written nor recreated.", "quantifier": "All deployments, sets and machines in such states (revisions of old sets below 2^63-1), all answers of the API server, any number of runs between reports of the machine set controller and removals of deleted sets", "why_tests_cant": "A test sees that one run changes nothing in one state; that the number of changes is bounded over all runs, so that controllers do not write for ever and wake each other, is a statement about unbounded sequences of runs.", "anchors": ["pkg/controller/deployment.go:414-551", "pkg/controller/deployment_sync.go:196-393", "pkg/controller/machineset.go:457-587", "pkg/controller/deployment_machineset_util.go:39-160", "pkg/util/provider/machinecontroller/machine.go:171-238", "pkg/util/provider/machinecontroller/machine_util.go:616-806"]}
{"id": "C134", "title": "Undoing an undo restores the template", "statement": "Rolling a deployment back to its last revision gives it the template of the machine set that was current before; doing so again, after any runs of the controllers in between, returns it to the template it had at first: the same machine set is current again, with the same in-place fields, and no size is changed by the rollbacks themselves.", "quantifier": "All deployments and histories whose templates differ in more than labels and whose revisions are numbers below the int64 limit, all runs (with any outcomes), reports and removals of other sets between the two rollbacks", "why_tests_cant": "A test rolls back once in one history; that the revision bookkeeping makes rollback its own inverse depends on renumbering in every run in between.", "anchors": ["pkg/controller/deployment_rollback.go:40-140", "pkg/controller/deployment_util.go:234-338", "pkg/controller/deployment_sync.go:196-393", "pkg/controller/deployment.go:414-551"]}
{"id": "C135", "title": "Deployments keep out of each other's way", "statement": "A run of the deployment controller for one MachineDeployment leaves every machine set of another owner exactly as it was, and also every set without an owner that it may not adopt; the only set it adds has a free name, the deployment's template and the deployment as its controller, and is added only to a deployment that is neither paused nor being deleted. Hence any number of steps that concern other deployments and their sets \u2013 runs, edits, creations and deletions \u2013 makes no difference to a deployment and its sets.", "quantifier": "All deployments, selectors (overlapping or not), collections of machine sets with unique names, outcomes of all calls, and all sequences of steps", "why_tests_cant": "Tests of the controller hold one deployment; that none of the listings, claims and writes of a run reach beyond the deployment has to be shown for every content of the namespace and every failure.", "anchors": ["pkg/controller/deployment.go:350-410", "pkg/controller/deployment.go:414-551", "pkg/controller/controller_ref_manager.go:75-131", "pkg/controller/controller_ref_manager.go:325-397", "pkg/controller/deployment_sync.go:305-375"]}
{"id": "C136", "title": "A freeze is temporary", "statement": "A machine set frozen because it had too many machines does not stay frozen: the machine set controller removes the excess also from a frozen set, the overshooting safety controller releases every set of which enough is gone, and the machine set controller then brings each set to exactly the number of machines wanted, all in service, without any set being frozen again. This takes at most as many rounds as the excess takes at a hundred machines a round, one round for each set, and as many as the sizes take at a hundred a round.", "quantifier": "All numbers of machine sets and deployments, sizes, limits with a margin for unfreezing between one and what is added for the limit, populations of machines in any phases, and all frozen or unfrozen beginnings", "why_tests_cant": "Each test freezes or releases one set once with fixed counts, and the machine set controller is tested apart from the safety controller; that the two together always end in an unfrozen set of the wanted size is a liveness statement about their interplay.", "anchors": ["pkg/controller/machineset.go:333-452", "pkg/controller/machine_safety.go:38-72", "pkg/controller/machine_safety.go:199-279", "pkg/controller/machine_safety.go:344-408"]}
{"id": "C137", "title": "The status means what the API documentation says", "statement": "After a run of the machine set controller the set shows ReplicaFailure exactly if one of the creations asked for in that run was refused, with the reason FailedCreate; its replicas are its machines that are not terminated; its available machines are those that have been ready for minReadySeconds, so that a rolling update waits so long before it removes old machines.", "quantifier": "All machine sets, populations of machines in any phases and with any times of becoming ready, answers to the creations, conditions already in the status, and positions at which the run ends", "why_tests_cant": "Tests of the status compare counts for a handful of fixed machines with what the code computes; none takes the sentences of the API types as the specification, so a documented field without any effect is not noticed.", "anchors": ["pkg/apis/machine/v1alpha1/machineset_types.go:25-137", "pkg/apis/machine/v1alpha1/machinedeployment_types.go:30-260", "pkg/controller/deployment_machineset_util.go:92-159", "pkg/controller/deployment_machineset_util.go:205-223", "pkg/controller/machineset.go:333-452", "pkg/controller/machineset.go:480-570"]}
{"id": "C138", "title": "The budgets of a rolling update matter only during a rolling update", "statement": "While no rollout is going on (only the set of the present template is to have machines), a change of the size of a deployment is passed on to that set in one run and completely, whatever maxSurge and maxUnavailable are: two deployments that differ in these only are scaled alike. No run touches another set, and whatever fails the size stays between the present and the wanted one.", "quantifier": "All deployments, strategies, budgets, sizes, numbers of empty old sets, annotations, outcomes of the calls, paused or not", "why_tests_cant": "Tests of scaling use fixed budgets; that a parameter has no influence compares two runs for all values of it.", "anchors": ["docs/FAQ.md:107-113", "pkg/controller/deployment.go:425-551", "pkg/controller/deployment_sync.go:402-565", "pkg/controller/deployment_sync.go:673-698", "pkg/controller/deployment_rolling.go:48-142", "pkg/controller/deployment_recreate.go:35-153", "pkg/controller/deployment_util.go:1085-1111"]}
{"id": "C139", "title": "A driver's error codes are treated as the contract for drivers says", "statement": "The contract for drivers lists for each method the error codes and whether an automatic retry is required. Whatever the message: after a code with automatic retry the machine is handled again within the short retry period, after the others the medium (creation, status) or long one (deletion) is asked for; only 'not found' and 'not implemented' in the answer to GetMachineStatus lead to CreateMachine, only 'uninitialized' to InitializeMachine, and every other code leaves the provider alone; in the termination 'not found' counts as done.", "quantifier": "All codes with a name, messages with matching brackets, machines at the step in question, outcomes of status updates", "why_tests_cant": "Tests use a few codes per method with one message each; the contract is about every row of the tables and every message.", "anchors": ["docs/development/machine_error_codes.md:127-143", "docs/development/machine_error_codes.md:194-200", "docs/development/machine_error_codes.md:250-263", "docs/development/machine_error_codes.md:313-328", "pkg/util/provider/machinecontroller/machine_util.go:503-543", "pkg/util/provider/machinecontroller/machine_util.go:973-1010", "pkg/util/provider/machinecontroller/machine_util.go:1313-1346", "pkg/util/provider/machinecontroller/machine.go:468-580", "pkg/util/provider/machinecontroller/machine.go:655-697"]}
{"id": "C140", "title": "A drain gives pods and volumes their time, and notices when they are gone", "statement": "Unless the time of the drain is up, a drain gives up the detachment of the volumes of a pod only grace period plus detach timeout after the successful request, the attachment elsewhere only the reattach timeout after the detachment, and a pod without volumes only after its grace period (at most the drain timeout) plus thirty seconds. Detachments and ends of pods are noticed within five seconds plus the duration of a reading. A pod that has not gone is not reported as evicted.", "quantifier": "All drains: pods, order, numbers of rounds, timeouts, grace periods, answers and their durations, as long as pods and node can be read", "why_tests_cant": "The time granted depends on clocks and many settings; tests shorten the intervals and use one pod, and cannot show that no run gives up early.", "anchors": ["pkg/util/provider/drain/drain.go:768-816", "pkg/util/provider/drain/drain.go:861-986", "pkg/util/provider/drain/drain.go:1025-1121"]}
{"id": "C141", "title": "A VM is initialised before its machine is waited for or used", "statement": "If the driver answers truthfully, a machine that is not being deleted is Pending, Running or Unknown only if its VM exists and is initialised. As long as the driver reports the VM as not initialised, every run of the machine controller that gets as far as the driver calls InitializeMachine.", "quantifier": "All executions from a new machine: runs with stored or outdated versions, lost writes, failing calls at any point, writes by other controllers and users, any times", "why_tests_cant": "A failed initialisation is followed by other runs, in which health checks and adoption of the VM compete with the repetition; tests run one reconciliation with a fake driver whose VMs have no nodes.", "anchors": ["pkg/util/provider/machinecontroller/machine.go:446-623", "pkg/util/provider/machinecontroller/machine.go:655-697", "pkg/util/provider/machinecontroller/machine_util.go:666-697", "docs/proposals/initialize-machine.md:141-148"]}
{"id": "C142", "title": "A rollout that is reported as complete is complete, and every rollout that ends is reported", "statement": "When the machine sets have reported their machines, a MachineDeployment takes its rollout for complete exactly if there are as many machines as wanted, every one Running, and every one from the machine set of the current template. A deployment that is left alone reaches a state in which the rollout is complete and is reported so for ever.", "quantifier": "All numbers of machine sets, templates, sizes and machines; all histories of edits and all fair executions of the three controllers after them", "why_tests_cant": "Completeness is decided from sums of counters of statuses that other controllers write at other times; tests compare hand-written statuses.", "anchors": ["pkg/controller/deployment_util.go:1003-1014", "pkg/controller/deployment_sync.go:607-665", "pkg/controller/deployment_progress.go:40-107", "pkg/controller/deployment_machineset_util.go:92-160"]}
{"id": "C143", "title": "Old machine sets beyond the revision history limit go away", "statement": "A MachineDeployment with a revision history limit \u2013 with rolling updates, or with the strategy Recreate all the time \u2013, left alone after any history of edits, reaches a state from which on it has, besides the current machine set, at most as many machine sets as the limit says; none beyond these is left in deletion either.", "quantifier": "All histories of edits, deletions and failures; all numbers of sets and machines, all limits that are not negative; all fair executions of the three controllers in which again and again a run of the deployment controller sees everything up to date and its calls succeed", "why_tests_cant": "The clean-up skips sets with machines, unobserved changes or a deletion in progress, and runs only when the status says the rollout is complete; whether it gets there in the end depends on all three controllers over unbounded time.", "anchors": ["pkg/controller/deployment_sync.go:570-604", "pkg/controller/deployment_rolling.go:108-124", "pkg/controller/deployment_util.go:1003-1014", "pkg/controller/machineset.go:535-549", "docs/documents/apis.md:452-465"]}
{"id": "C144", "title": "A run of a rolling update that could not scale a machine set says so", "statement": "When a run of a rolling update cannot store the new size of a machine set, it ends with an error, so that the queue tries again soon; and a run reports that it scaled old machine sets down exactly if it did.", "quantifier": "All sizes and statuses of machine sets, surge and unavailability settings, all outcomes of all calls and all sorting orders", "why_tests_cant": "Which call fails, among many, cannot be enumerated; the tests of this function have no failing calls.", "anchors": ["pkg/controller/deployment_rolling.go:48-124", "pkg/controller/deployment_rolling.go:126-210", "pkg/controller/deployment_rolling.go:212-292", "pkg/controller/deployment_sync.go:530-565"]}
{"id": "C145", "title": "With Recreate, and when sizes change, a run that reports no error has done its work", "statement": "A run of the strategy Recreate reports an error exactly if a call that it had to make failed. If it reports none, no old machine set has a size any more; as long as old ones had a size or machines, the set of the current template is untouched, and otherwise it is there with the size of the deployment. A run that follows a change of the size, with either strategy, and that reports no error has stored what it would have stored if all calls had succeeded.", "quantifier": "All sizes and statuses of machine sets, all machines, all outcomes of all calls and all sorting orders", "why_tests_cant": "Which call fails, among many, cannot be enumerated; the strategy Recreate has no tests with failing calls.", "anchors": ["pkg/controller/deployment_recreate.go:35-153", "pkg/controller/deployment_sync.go:402-489", "pkg/controller/deployment_sync.go:530-565"]}
{"id": "C146", "title": "A run of the machine set controller that falls short says so", "statement": "A run of the machine set controller that ends without an error has made every create call that was due (up to a hundred), none of them refused, and every delete call that was due was accepted; it comes back by itself. If a call to create or delete a machine is refused, the run ends with an error, so that the queue tries again soon.", "quantifier": "All machine sets, neither deleted nor frozen where machines are to be created; all caches, all outcomes of all calls", "why_tests_cant": "The tests of this controller have no failing calls; errors are dropped in several places of the code, and only an exact account of the ending shows which ones matter.", "anchors": ["pkg/controller/machineset.go:333-452", "pkg/controller/machineset.go:457-587", "pkg/controller/machineset.go:665-737"]}
