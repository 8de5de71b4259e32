{
 "claims": [
  {
   "property": "C01",
   "status": "proved",
   "theorems": [
    "MCM.SlowStart.C01_slowStart_accounting",
    "MCM.SlowStart.C01_slowStart_waste",
    "MCM.SlowStart.C01_slowStart_rounds"
   ],
   "note": "All counts, batch sizes and outcome patterns."
  },
  {
   "property": "C02",
   "status": "proved",
   "theorems": [
    "MCM.MachineSet.C02_reconcile_bounds",
    "MCM.MachineSet.C02_never_past_desired",
    "MCM.MachineSet.C02_round_progress",
    "MCM.MachineSet.C02_converges",
    "MCM.MachineSet.C02_stale_cache_overshoots"
   ],
   "note": "Convergence under an up-to-date cache as the property says; C02_stale_cache_overshoots shows the cache hypothesis is necessary."
  },
  {
   "property": "C03",
   "status": "proved",
   "theorems": [
    "MCM.MachineSet.C03_comparison_is_strict_weak_order",
    "MCM.MachineSet.C03_victims_are_least_valuable",
    "MCM.MachineSet.C03_sort_exists"
   ],
   "note": "For every sorting permutation."
  },
  {
   "property": "C04",
   "status": "proved",
   "theorems": [
    "MCM.MachineSet.C04_frozen_never_creates",
    "MCM.MachineSet.C04_unfrozen_creates"
   ],
   "note": ""
  },
  {
   "property": "C05",
   "status": "proved",
   "theorems": [
    "MCM.MachineSet.C05_stale_always_terminated",
    "MCM.MachineSet.C05_only_live_count"
   ],
   "note": ""
  },
  {
   "property": "C54",
   "status": "partial",
   "theorems": [
    "MCM.MachineSet.C54_failed_delete_is_not_retried_false",
    "MCM.MachineSet.C54_marked_machine_retried_partial"
   ],
   "note": "The full property is false of the code: a Failed machine whose delete call fails has already been set to Terminating and is then skipped by every later reconcile. Proved for machines marked by annotation."
  },
  {
   "property": "C06",
   "status": "partial",
   "theorems": [
    "MCM.Claim.C06_claim_decisions",
    "MCM.Claim.C06_foreign_objects_untouched",
    "MCM.Claim.C06_adoption_after_live_check",
    "MCM.Claim.C06_at_most_one_controller",
    "MCM.Claim.C06_never_stolen_partial",
    "MCM.Claim.C06_stale_adoption_steals_false",
    "MCM.Claim.C06_release_does_not_release_false",
    "MCM.Claim.C06_strategic_patch"
   ],
   "note": "Claim decisions and the at-most-one-controller invariant are proved for all interleavings. Two clauses are false of the code because patches are JSON merge patches: a stale adoption replaces the other controller, and a release patch leaves the object owned."
  },
  {
   "property": "C07",
   "status": "partial",
   "theorems": [
    "MCM.Deletion.C07_machineSet_finalizer_partial",
    "MCM.Deletion.C07_deployment_finalizer_partial",
    "MCM.Deletion.C07_machineSet_terminates_all",
    "MCM.Deletion.C07_deployment_terminates_all",
    "MCM.Deletion.C07_machineSet_history_partial",
    "MCM.Deletion.C07_deployment_history_partial",
    "MCM.Deletion.C07_unmatched_machine_is_left_behind_false"
   ],
   "note": "Proved for dependents whose labels match the selector; controlled machines that stopped matching are left behind (witness)."
  },
  {
   "property": "C08",
   "status": "proved",
   "theorems": [
    "MCM.Expectations.C08_creations",
    "MCM.Expectations.C08_deletions",
    "MCM.Expectations.C08_nothing_announced",
    "MCM.Expectations.C08_cases"
   ],
   "note": "All histories over any number of keys."
  },
  {
   "property": "C09",
   "status": "proved",
   "theorems": [
    "MCM.Rolling.C09_fenceposts",
    "MCM.Rolling.C09_never_both_zero",
    "MCM.Rolling.C09_floor",
    "MCM.Rolling.C09_negative_budget_raises_floor",
    "MCM.Rolling.C09_unreadable"
   ],
   "note": "For all budgets written as non-negative numbers or percentages (parsed from the manifest string). Negative numbers pass validation; C09_negative_budget_raises_floor shows what they do."
  },
  {
   "property": "C10",
   "status": "partial",
   "theorems": [
    "MCM.Rolling.C10_step_within_surge_partial",
    "MCM.Rolling.C10_history_within_surge_partial",
    "MCM.Rolling.C10_creation_within_surge_partial",
    "MCM.Rolling.C10_step_bound",
    "MCM.Rolling.C10_history_bound",
    "MCM.Rolling.C10_lagging_status_overshoots_false",
    "MCM.Dispatch.C10_first_run_exceeds_surge_false"
   ],
   "note": "Proved for all step sequences in which reported replicas are not behind desired ones; false otherwise (witness): the scale-up subtracts reported, not desired, machines; already the run that creates the new set hands out the surge twice. In any case the limit is exceeded by at most the number of machines by which the reports are behind (C10_step_bound, C10_history_bound)."
  },
  {
   "property": "C11",
   "status": "partial",
   "theorems": [
    "MCM.Rolling.C11_floor_partial",
    "MCM.Rolling.C11_floor_bound",
    "MCM.Rolling.C11_shrinking_new_set_false"
   ],
   "note": "Proved when no set reports more available machines than desired; false otherwise (witness). In any case the floor is missed by at most the number of machines reported available beyond what their sets are to have (C11_floor_bound)."
  },
  {
   "property": "C12",
   "status": "proved",
   "theorems": [
    "MCM.Rolling.C12_never_regresses",
    "MCM.Rolling.C12_rollout_completes"
   ],
   "note": "All distributions, budgets, failures, stale views and sort orders."
  },
  {
   "property": "C13",
   "status": "partial",
   "theorems": [
    "MCM.Scale.C13_scale_in_bounds_partial",
    "MCM.Scale.C13_scale_in_total_partial",
    "MCM.Scale.C13_scale_to_zero",
    "MCM.Scale.C13_scale_out_partial",
    "MCM.Scale.C13_saturated",
    "MCM.Scale.C13_leftover_lost_false",
    "MCM.Scale.C13_empty_new_set_not_scaled_false",
    "MCM.Scale.C13_set_grows_on_scale_in_false"
   ],
   "note": "Bounds, direction and totals proved under stated conditions; witnesses show the three ways the full statement fails (leftover clamped, empty new set not scaled, outdated recorded limit)."
  },
  {
   "property": "C55",
   "status": "partial",
   "theorems": [
    "MCM.Scale.C55_scaling_handled_once_partial",
    "MCM.Scale.C55_negative_surge_false"
   ],
   "note": "Rolling deployments with several active sets, all calls successful, size plus surge positive; with a negative surge, which validation accepts, scaling empties all sets and is seen again (witness)."
  },
  {
   "property": "C14",
   "status": "partial",
   "theorems": [
    "MCM.Recreate.C14_rollout_waits",
    "MCM.Recreate.C14_never_mixed_partial",
    "MCM.Recreate.C14_return_to_old_template_mixes_false"
   ],
   "note": "Proved for all histories in which the template is never changed back to one that still has a machine set. Changing back mixes old and new machines: scale-up from zero is detected before the Recreate logic (witness)."
  },
  {
   "property": "C15",
   "status": "partial",
   "theorems": [
    "MCM.Revision.C15_never_decreases",
    "MCM.Revision.C15_new_revision_greatest_partial",
    "MCM.Revision.C15_created_revision",
    "MCM.Revision.C15_history_kept",
    "MCM.Revision.C15_revisions_unique",
    "MCM.Revision.C15_malformed_revision_false",
    "MCM.Revision.C15_overflow_false",
    "MCM.Revision.C15_history_lists_current_revision_false"
   ],
   "note": "Monotone for all inputs; greatest and unique over all executions for readable revisions below 2^63. A malformed annotation on the current set blocks it (witness)."
  },
  {
   "property": "C16",
   "status": "partial",
   "theorems": [
    "MCM.Template.C16_same_recognised",
    "MCM.Template.C16_recognised_iff_partial",
    "MCM.Template.C16_deployment_first_partial",
    "MCM.Template.C16_deployment_first_exact",
    "MCM.Template.C16_find_new_partial",
    "MCM.Template.C16_old_or_new",
    "MCM.Template.C16_in_place_fields",
    "MCM.Template.C16_deployment_first_false",
    "MCM.Template.C16_empty_value_false"
   ],
   "note": "Exact in the order used to find the current set, for labels without empty values; with the deployment first only when the label counts differ. Witnesses for both failures."
  },
  {
   "property": "C17",
   "status": "partial",
   "theorems": [
    "MCM.Rollback.C17_all_or_nothing",
    "MCM.Rollback.C17_request_cleared",
    "MCM.Rollback.C17_unknown_revision",
    "MCM.Rollback.C17_rollback_partial",
    "MCM.Rollback.C17_last_revision",
    "MCM.Rollback.C17_annotations",
    "MCM.Rollback.C17_set_becomes_current",
    "MCM.Rollback.C17_added_label_false",
    "MCM.Rollback.C17_in_place_fields_not_restored_false"
   ],
   "note": "Proved except where the template comparison of C16 is inexact (witnesses: deployment with one more label; in-place fields)."
  },
  {
   "property": "C18",
   "status": "proved",
   "theorems": [
    "MCM.Rollback.C18_cleanup",
    "MCM.Rollback.C18_cleanup_complete",
    "MCM.Dispatch.C18_run",
    "MCM.Rollback.C18_negative_limit_panics_false"
   ],
   "note": "All limits; a negative limit makes the controller panic once the sets run out (witness)."
  },
  {
   "property": "C19",
   "status": "proved",
   "theorems": [
    "MCM.Status.C19_machineSet_counts",
    "MCM.Status.C19_deployment_counts",
    "MCM.Status.C19_available_condition",
    "MCM.Status.C19_replica_failure_reported",
    "MCM.Status.C19_failed_machines_listed",
    "MCM.Status.C19_written",
    "MCM.Status.C19_deployment_failure"
   ],
   "note": "All machine lists; no int32 overflow."
  },
  {
   "property": "C20",
   "status": "partial",
   "theorems": [
    "MCM.Status.C20_set_condition",
    "MCM.Status.C20_set_machineSet_condition",
    "MCM.Status.C20_remove_condition",
    "MCM.Status.C20_one_condition_per_type",
    "MCM.Status.C20_machineSet_transition_time_false"
   ],
   "note": "Fully proved for deployments; MachineSet conditions do not keep the transition time (witness)."
  },
  {
   "property": "C50",
   "status": "partial",
   "theorems": [
    "MCM.Status.C50_progress_condition",
    "MCM.Status.C50_timeout_justified",
    "MCM.Status.C50_deadline_is_checked",
    "MCM.Status.C50_paused",
    "MCM.Status.C50_return_to_old_template_never_times_out_false",
    "MCM.Status.C50_busy_requeue_false"
   ],
   "note": "A reported time-out is always justified, over all histories; the converse fails after returning to an earlier template (witness)."
  },
  {
   "property": "C21",
   "status": "proved",
   "theorems": [
    "MCM.Freeze.C21_run",
    "MCM.Freeze.C21_hysteresis",
    "MCM.Freeze.C21_converges",
    "MCM.Freeze.C21_deployment_follows",
    "MCM.Freeze.C21_zero_margin_false",
    "MCM.Freeze.C21_recreate_panics_false"
   ],
   "note": "All views, failures and histories. Witnesses: zero margin flaps; a Recreate deployment makes the loop panic."
  },
  {
   "property": "C56",
   "status": "partial",
   "theorems": [
    "MCM.Freeze.C56_set_request",
    "MCM.Freeze.C56_deployment_request",
    "MCM.Freeze.C56_request_lost_false"
   ],
   "note": "Without failing calls the request on a set or a deployment is carried out; a failing call after the annotation is removed from the deployment loses the request (witness)."
  },
  {
   "property": "C32",
   "status": "partial",
   "theorems": [
    "MCM.Codes.C32_round_trip_partial",
    "MCM.Codes.C32_round_trip_iff",
    "MCM.Codes.C32_code_never_wrong",
    "MCM.Codes.C32_unclosed_bracket_false",
    "MCM.Codes.C32_stray_bracket_false",
    "MCM.Codes.C32_unnamed_code_false",
    "MCM.Codes.C32_foreign_text_false"
   ],
   "note": "For the named codes: recovered if and only if the message's brackets are balanced, also inside wrapped text; a decoded code is never a wrong one. Witnesses for unbalanced messages, unnamed codes and foreign texts."
  },
  {
   "property": "C44",
   "status": "proved",
   "theorems": [
    "MCM.Similar.C44_levenshtein",
    "MCM.Similar.C44_important_written",
    "MCM.Similar.C44_suppressed_only",
    "MCM.Similar.C44_forced"
   ],
   "note": "The string distance is the edit distance; a suppressed write differs only in a similar description; a write is never suppressed once 30 minutes have passed."
  },
  {
   "property": "C57",
   "status": "partial",
   "theorems": [
    "MCM.Similar.C57_last_known_state_dropped_false",
    "MCM.Similar.C57_last_known_state_partial",
    "MCM.Outcome.C57_after_deletion_partial",
    "MCM.Outcome.C57_after_creation_partial",
    "MCM.Outcome.C57_failed_deletion_forgets_false"
   ],
   "note": "False of the code: the state is dropped whenever the rest of the status is similar (witness). Proved when the status write is not suppressed. What a call hands back is in the status sent; a failed deletion without state erases the earlier one (witness)."
  },
  {
   "property": "C22",
   "status": "proved",
   "theorems": [
    "MCM.Termination.C22_finalizer_outlives_vm",
    "MCM.Termination.C22_confirmation"
   ],
   "note": "All interleavings of reconciles on any cached version, with lost or delayed writes and other controllers' writes."
  },
  {
   "property": "C23",
   "status": "proved",
   "theorems": [
    "MCM.Termination.C23_decode",
    "MCM.Termination.C23_error_text_cannot_skip"
   ],
   "note": "Whatever the error texts contain, the recorded step advances only past a completed step."
  },
  {
   "property": "C24",
   "status": "partial",
   "theorems": [
    "MCM.Termination.C24_progress",
    "MCM.Termination.C24_completes",
    "MCM.Termination.C24_completes_safely",
    "MCM.Termination.C24_no_regress_partial",
    "MCM.Termination.C24_error_text_regresses_false"
   ],
   "note": "Completes within eight cooperative reconciles more than the similarity tolerance apart; a provider error text quoting an earlier step sends the termination back (witness)."
  },
  {
   "property": "C58",
   "status": "proved",
   "theorems": [
    "MCM.Termination.C58_drain_before_deletion"
   ],
   "note": "Same interleavings as C22."
  },
  {
   "property": "C25",
   "status": "partial",
   "theorems": [
    "MCM.Creation.C25_finalizer_before_vm",
    "MCM.Creation.C25_finalizer_gone_false"
   ],
   "note": "Proved of the version of the object the reconcile works on; with a stale cache the stored object may have lost its finalizer by then (witness)."
  },
  {
   "property": "C26",
   "status": "partial",
   "theorems": [
    "MCM.Creation.C26_at_most_one",
    "MCM.Creation.C26_creates_only_if_none",
    "MCM.Creation.C26_adopts",
    "MCM.Creation.C26_unimplemented_false",
    "MCM.Creation.C26_foreign_text_false"
   ],
   "note": "Proved for truthful providers with well-formed status errors; false for providers without GetMachineStatus and for foreign error texts (witnesses)."
  },
  {
   "property": "C59",
   "status": "partial",
   "theorems": [
    "MCM.Creation.C59_creation_completes",
    "MCM.Creation.C59_lost_vm_stuck_false"
   ],
   "note": "Proved for machines without a node label; a machine with label but lost VM and no provider id repeats the same update forever (witness)."
  },
  {
   "property": "C60",
   "status": "partial",
   "theorems": [
    "MCM.Creation.C60_provider_id_kept_partial",
    "MCM.Creation.C60_provider_id_erased_false"
   ],
   "note": "Proved while label and priority annotation are present; without the annotation a NotFound answer erases the id (witness)."
  },
  {
   "property": "C61",
   "status": "partial",
   "theorems": [
    "MCM.Creation.C61_no_vm_without_object_partial",
    "MCM.Creation.C61_vm_left_behind_false"
   ],
   "note": "False in the code: a creation in flight during the termination leaves a VM (witness). Proved if the creation worker does not act after the deletion request."
  },
  {
   "property": "C46",
   "status": "partial",
   "theorems": [
    "MCM.TermQueue.C46_only_requested_partial",
    "MCM.TermQueue.C46_recreated_machine_false",
    "MCM.Termination.C46_vm_deleted_unrequested_false",
    "MCM.Termination.C46_panic_false"
   ],
   "note": "Proved as long as a name is not used again; false for re-created names (witness), whose VM is then deleted or whose drain panics."
  },
  {
   "property": "C27",
   "status": "partial",
   "theorems": [
    "MCM.Orphan.C27_deletes_only",
    "MCM.Orphan.C27_only_orphans",
    "MCM.Orphan.C27_recorded_kept",
    "MCM.Orphan.C27_behind_kept",
    "MCM.Orphan.C27_complete",
    "MCM.Orphan.C27_behind_cache_false",
    "MCM.Orphan.C27_failing_class_blocks_false"
   ],
   "note": "Proved relative to the machines in the cache; a cache missing an existing machine loses its VM, and a failing class blocks the others (witnesses)."
  },
  {
   "property": "C28",
   "status": "partial",
   "theorems": [
    "MCM.ApiFreeze.C28_freeze_needs_old_outage",
    "MCM.ApiFreeze.C28_sustained_partial",
    "MCM.ApiFreeze.C28_two_blips_false",
    "MCM.ApiFreeze.C28_freezes",
    "MCM.ApiFreeze.C28_reset_before_resuming",
    "MCM.ApiFreeze.C28_resumes",
    "MCM.ApiFreeze.C28_stopped_forever_false",
    "MCM.Lifecycle.C28_frozen_writes_nothing"
   ],
   "note": "False in the code: two short outages are taken for one long one, and sixteen failing resets stop the loop for good (witnesses). Proved without such blips."
  },
  {
   "property": "C33",
   "status": "partial",
   "theorems": [
    "MCM.NodeSync.C33_update_is_merge",
    "MCM.NodeSync.C33_nothing_iff",
    "MCM.NodeSync.C33_settles",
    "MCM.NodeSync.C33_converges",
    "MCM.NodeSync.C33_corrupt_record_false"
   ],
   "note": "Three-way merge proved over all histories of templates and foreign edits; an undecodable record blocks the sync for good (witness)."
  },
  {
   "property": "C34",
   "status": "partial",
   "theorems": [
    "MCM.NodeSync.C34_taints_unique",
    "MCM.NodeSync.C34_time_added_false",
    "MCM.NodeSync.C33_update_is_merge",
    "MCM.NodeSync.C33_settles",
    "MCM.NodeSync.C33_converges"
   ],
   "note": "The theorems of C33 cover taints too; a template taint with timeAdded is rewritten forever (witness)."
  },
  {
   "property": "C41",
   "status": "proved",
   "theorems": [
    "MCM.Conditions.C41_add",
    "MCM.Conditions.C41_transition",
    "MCM.Conditions.C41_empty"
   ],
   "note": ""
  },
  {
   "property": "C42",
   "status": "proved",
   "theorems": [
    "MCM.Taints.C42_add_exactly_one",
    "MCM.Taints.C42_add_others_kept",
    "MCM.Taints.C42_add_flag",
    "MCM.Taints.C42_remove",
    "MCM.Taints.C42_diff",
    "MCM.Taints.C42_add_on_node",
    "MCM.Taints.C42_remove_off_node"
   ],
   "note": ""
  },
  {
   "property": "C47",
   "status": "proved",
   "theorems": [
    "MCM.Worker.C47_no_concurrent_runs",
    "MCM.Worker.C47_retried",
    "MCM.Worker.C47_success_resets",
    "MCM.Worker.C47_no_lost_wakeup",
    "MCM.Worker.C47_added_is_queued"
   ],
   "note": "All interleavings of adds, retries and workers."
  },
  {
   "property": "C52",
   "status": "proved",
   "theorems": [
    "MCM.Conditions.C52_exact"
   ],
   "note": ""
  },
  {
   "property": "C62",
   "status": "partial",
   "theorems": [
    "MCM.Orphan.C62_nodes_settled_partial",
    "MCM.Orphan.C62_nothing_else_changes",
    "MCM.Orphan.C62_reported",
    "MCM.Orphan.C62_failing_node_blocks_false"
   ],
   "note": "Proved if no update fails; one node that cannot be updated blocks those behind it (witness)."
  },
  {
   "property": "C63",
   "status": "partial",
   "theorems": [
    "MCM.Events.C63_no_crash_partial",
    "MCM.Events.C63_tombstone_crash_false",
    "MCM.Events.C63_machine_routed",
    "MCM.Events.C63_node_loss_noticed",
    "MCM.Events.C63_condition_change_noticed",
    "MCM.Events.C63_essential_taint_noticed",
    "MCM.Events.C63_deletion_noticed",
    "MCM.Events.C63_out_of_range"
   ],
   "note": "A missed machine deletion (tombstone) crashes the safety handler (witness); every other event is handled."
  },
  {
   "property": "C64",
   "status": "partial",
   "theorems": [
    "MCM.Events.C64_delete_requested_iff",
    "MCM.Events.C64_added_node_false"
   ],
   "note": "Proved for update events; a node already annotated when first seen is ignored until its next update (witness)."
  },
  {
   "property": "C43",
   "status": "proved",
   "theorems": [
    "MCM.Trigger.C43_round_trip",
    "MCM.Trigger.C43_value_round_trip"
   ],
   "note": ""
  },
  {
   "property": "C53",
   "status": "partial",
   "theorems": [
    "MCM.Trigger.C53_only_named",
    "MCM.Trigger.C53_marks_named",
    "MCM.Trigger.C53_succeeds",
    "MCM.Trigger.C53_foreign_machine_false",
    "MCM.Trigger.C53_unseen_machine_dropped_false",
    "MCM.Trigger.C53_blank_dropped_false"
   ],
   "note": "Proved of the machines in the cache; machines of other deployments can be marked, names not in the cache or with blanks are dropped (witnesses)."
  },
  {
   "property": "C65",
   "status": "partial",
   "theorems": [
    "MCM.RolloutNodes.C65_old_nodes_tainted_partial",
    "MCM.RolloutNodes.C65_nothing_else",
    "MCM.RolloutNodes.C65_marked",
    "MCM.RolloutNodes.C65_unmarked",
    "MCM.RolloutNodes.C65_rollback_untaints",
    "MCM.RolloutNodes.C65_failed_taint_not_retried_false",
    "MCM.RolloutNodes.C65_late_node_false",
    "MCM.RolloutNodes.C65_one_failed_read_false",
    "MCM.RolloutNodes.C65_reverted_set_keeps_taint_false",
    "MCM.RolloutNodes.C65_failed_untaint_not_retried_false"
   ],
   "note": "Proved for sets not yet marked when the requests succeed; failures and late nodes are never retried, and a set that becomes current again by a template edit keeps its taints (witnesses)."
  },
  {
   "property": "C66",
   "status": "partial",
   "theorems": [
    "MCM.RolloutNodes.C66_protected_during_rollout_partial",
    "MCM.RolloutNodes.C66_released_after_rollout",
    "MCM.RolloutNodes.C66_unmarked_nodes_kept",
    "MCM.RolloutNodes.C66_user_annotation_lost_false",
    "MCM.RolloutNodes.C66_unready_old_set_false"
   ],
   "note": "Proved while an old set has ready machines; a user's own annotation is lost, and old sets without ready machines count as scaled to zero (witnesses)."
  },
  {
   "property": "C39",
   "status": "partial",
   "theorems": [
    "MCM.Finalizers.C39_decision",
    "MCM.Finalizers.C39_class_outlives_machines_partial",
    "MCM.Finalizers.C39_as_long_as_used_partial",
    "MCM.Finalizers.C39_settles",
    "MCM.Finalizers.C39_new_machine_false",
    "MCM.Finalizers.C39_secret",
    "MCM.Finalizers.C39_foreign_namespace_false",
    "MCM.Finalizers.C39_other_namespace_not_held_false"
   ],
   "note": "Proved when the reconciles see all machines; with an old machine cache the finalizer is removed from a class in use; secrets are matched by name only (witnesses)."
  },
  {
   "property": "C40",
   "status": "partial",
   "theorems": [
    "MCM.Finalizers.C40_machine",
    "MCM.Finalizers.C40_machine_own",
    "MCM.Finalizers.C40_machine_version",
    "MCM.Finalizers.C40_latest_partial",
    "MCM.Finalizers.C40_lost_finalizer_false"
   ],
   "note": "Proved for machines; for classes, secrets, machine sets and deployments only when the cached finalizers are the stored ones (witness)."
  },
  {
   "property": "C67",
   "status": "partial",
   "theorems": [
    "MCM.Finalizers.C67_accepted",
    "MCM.Finalizers.C67_data",
    "MCM.Finalizers.C67_missing_secret_false"
   ],
   "note": "Class and template proved; a missing secret is treated as empty (witness)."
  },
  {
   "property": "C49",
   "status": "partial",
   "theorems": [
    "MCM.SyncMachines.C49_never_undone",
    "MCM.SyncMachines.C49_pass",
    "MCM.SyncMachines.C49_converges",
    "MCM.SyncMachines.C49_failed_not_retried_false",
    "MCM.SyncMachines.C49_success_without_change_false",
    "MCM.SyncMachines.C49_two_changes_false"
   ],
   "note": "Convergence proved for rounds in which the watch delivers; a failed update changes the cached object and is not retried (witness)."
  },
  {
   "property": "C30",
   "status": "partial",
   "theorems": [
    "MCM.Permits.C30_kept_for_timeout",
    "MCM.Permits.C30_exclusion_partial",
    "MCM.Permits.C30_exclusion_calm_partial",
    "MCM.Permits.C30_held_not_stale_partial",
    "MCM.Permits.C30_no_lost_permit_partial",
    "MCM.Permits.C30_janitor_false",
    "MCM.Permits.C30_janitor_holder_false",
    "MCM.Permits.C30_use_not_recorded_false",
    "MCM.Permits.C30_close_panics_false"
   ],
   "note": "Proved for all interleavings in which the janitor drops no key in use; the janitor can do that (witnesses)."
  },
  {
   "property": "C45",
   "status": "partial",
   "theorems": [
    "MCM.UserData.C45_placeholder_gone",
    "MCM.UserData.C45_rest_unchanged",
    "MCM.UserData.C45_placeholders_fit",
    "MCM.UserData.C45_filled",
    "MCM.UserData.C45_both_forms_false",
    "MCM.UserData.C45_same_secret_partial",
    "MCM.UserData.C45_shared_false",
    "MCM.UserData.C45_token_taken_away_false",
    "MCM.UserData.C45_short_name_false",
    "MCM.UserData.C45_token_stable",
    "MCM.Lifecycle.C45_deleted_on_joining",
    "MCM.UserData.C45_accepted"
   ],
   "note": "Placeholders are proved replaced unless both forms occur; the token depends on three characters of the name only (witnesses)."
  },
  {
   "property": "C29",
   "status": "partial",
   "theorems": [
    "MCM.Health.C29_failed_after_timeout",
    "MCM.Health.C29_running_only_if_healthy",
    "MCM.Health.C29_healthy_runs",
    "MCM.Health.C29_unhealthy_unknown_partial",
    "MCM.Health.C29_expired_acted_upon_partial",
    "MCM.Health.C29_continuously",
    "MCM.Health.C29_no_conditions_false",
    "MCM.Health.C29_no_ready_false",
    "MCM.Health.C29_flapping_false"
   ],
   "note": "Timeouts and health proved; a node without a Ready condition counts as healthy, and flapping restarts the timeout (witnesses)."
  },
  {
   "property": "C68",
   "status": "partial",
   "theorems": [
    "MCM.Health.C68_failed_revived_false",
    "MCM.Health.C68_failed_stays_partial"
   ],
   "note": "A failed machine whose node reports healthy again is put back to Running (witness)."
  },
  {
   "property": "C31",
   "status": "partial",
   "theorems": [
    "MCM.Health.C31_test",
    "MCM.Health.C31_one_at_a_time_partial",
    "MCM.Health.C31_slow_cache_false",
    "MCM.Health.C31_no_label_false",
    "MCM.Health.C31_gap_false"
   ],
   "note": "Proved while the cache delivers in the waiting time; otherwise two machines fail together (witnesses)."
  },
  {
   "property": "C51",
   "status": "partial",
   "theorems": [
    "MCM.Validation.C51_accepted_deployment",
    "MCM.Validation.C51_accepted_set",
    "MCM.Validation.C51_accepted_machine",
    "MCM.Validation.C51_no_effect",
    "MCM.Validation.C51_budgets_readable",
    "MCM.Validation.C51_selects",
    "MCM.Validation.C51_selector_matches_partial",
    "MCM.Validation.C51_handled_partial",
    "MCM.Validation.C51_selector_empty_value_false",
    "MCM.Validation.C51_selector_expressions_false",
    "MCM.Validation.C51_no_selector_false",
    "MCM.Validation.C51_negative_budget_false",
    "MCM.Validation.C51_in_place_false",
    "MCM.Validation.C51_default_type_false",
    "MCM.Validation.C51_both_zero_false"
   ],
   "note": "Rejection has no effect; accepted selectors need not match the template, budgets may be negative or both zero, the documented default of the strategy type is not applied, InPlaceUpdate is accepted but not handled (witnesses)."
  },
  {
   "property": "C35",
   "status": "partial",
   "theorems": [
    "MCM.Drain.C35_exactly",
    "MCM.Drain.C35_options",
    "MCM.Drain.C35_split",
    "MCM.Drain.C35_orphaned_false"
   ],
   "note": "Exact for all populations; whether the daemon set exists is not looked at (witness)."
  },
  {
   "property": "C36",
   "status": "partial",
   "theorems": [
    "MCM.Drain.C36_one_result_partial",
    "MCM.Drain.C36_ends_partial",
    "MCM.Drain.C36_no_evictions_false",
    "MCM.Drain.C36_priority_false"
   ],
   "note": "Proved for every positive number of evictions; with zero (drain timeout below twenty seconds) the drain blocks for ever, and a missing priority panics (witnesses)."
  },
  {
   "property": "C37",
   "status": "proved",
   "theorems": [
    "MCM.Drain.C37_with_volumes",
    "MCM.Drain.C37_budget_with_volumes",
    "MCM.Drain.C37_without_volumes",
    "MCM.Drain.C37_budget_without_volumes",
    "MCM.Drain.C37_attempted",
    "MCM.Drain.C37_served",
    "MCM.Drain.C37_no_discovery",
    "MCM.Drain.C37_forced"
   ],
   "note": "For all answers and budgets."
  },
  {
   "property": "C69",
   "status": "partial",
   "theorems": [
    "MCM.Drain.C69_with_volumes_partial",
    "MCM.Drain.C69_timeout_false",
    "MCM.Drain.C69_wait_partial",
    "MCM.Drain.C69_wait_ends",
    "MCM.Drain.C69_error_false",
    "MCM.Drain.C69_without_volumes",
    "MCM.Drain.C69_not_awaited_false",
    "MCM.Drain.C69_without_volumes_success"
   ],
   "note": "Proved without timeouts and read errors; a timeout counts as success, a read error as the end of a pod, and pods with untracked volumes are not awaited (witnesses)."
  },
  {
   "property": "C70",
   "status": "proved",
   "theorems": [
    "MCM.Drain.C70_one_at_a_time",
    "MCM.Drain.C70_priority"
   ],
   "note": "For all answers, budgets and pod lists."
  },
  {
   "property": "C71",
   "status": "partial",
   "theorems": [
    "MCM.Drain.C71_cordoned_partial",
    "MCM.Drain.C71_held_up_only_by_refusal",
    "MCM.Drain.C71_read_error_false"
   ],
   "note": "A read error is taken for a missing node (witness)."
  },
  {
   "property": "C38",
   "status": "partial",
   "theorems": [
    "MCM.Drain.C38_awaited",
    "MCM.Drain.C38_shared_not_awaited",
    "MCM.Drain.C38_others_awaited_partial",
    "MCM.Drain.C38_twice_false"
   ],
   "note": "Shared volumes are never waited for; a volume mounted twice by one pod looks shared (witness)."
  },
  {
   "property": "C48",
   "status": "partial",
   "theorems": [
    "MCM.Drain.C48_detached_partial",
    "MCM.Drain.C48_ends",
    "MCM.Drain.C48_identifiers",
    "MCM.Drain.C48_brackets_false",
    "MCM.Drain.C48_foreign_false",
    "MCM.Drain.C48_driver_error_false"
   ],
   "note": "Proved for identifiers of ordinary characters and dots; identifiers are used as patterns (witnesses)."
  },
  {
   "property": "C72",
   "status": "partial",
   "theorems": [
    "MCM.Drain.C72_moved",
    "MCM.Drain.C72_ends",
    "MCM.Drain.C72_no_handler_false",
    "MCM.Drain.C72_inline_false"
   ],
   "note": "Both directions proved; inline volumes panic, without handler the full timeout passes (witnesses)."
  },
  {
   "property": "C73",
   "status": "partial",
   "theorems": [
    "MCM.Drain.C73_no_crash_partial",
    "MCM.Drain.C73_delivered",
    "MCM.Drain.C73_inline_false",
    "MCM.Drain.C73_lost_false"
   ],
   "note": "Proved for events of persistent volumes and channels with room (witnesses otherwise)."
  },
  {
   "property": "C74",
   "status": "partial",
   "theorems": [
    "MCM.Dispatch.C74_paused_keeps_sets_partial",
    "MCM.Dispatch.C74_paused_scales_partial",
    "MCM.Dispatch.C74_pausing_creates_machines_false",
    "MCM.Dispatch.C74_pausing_deletes_machines_false",
    "MCM.Dispatch.C74_pausing_propagates_in_place_false"
   ],
   "note": "Sets and templates are kept for all failures, and outside of a rollout only the size is followed. Paused during a rollout, the controller still fills up to the surge limit or removes the last old machines, and in-place fields still propagate (witnesses; paused_rollout_tops_up is the general form)."
  },
  {
   "property": "C75",
   "status": "proved",
   "theorems": [
    "MCM.Dispatch.C75_created_only_for_new_template"
   ],
   "note": "For all decisions of a run and all failures."
  },
  {
   "property": "C76",
   "status": "partial",
   "theorems": [
    "MCM.Dispatch.C76_deleting_only_marks",
    "MCM.Dispatch.C76_deleting_marks_all",
    "MCM.Dispatch.C76_invalid_never_deleted_false"
   ],
   "note": "Proved for valid deployments; an invalid one, or one with an empty selector, is never deleted."
  },
  {
   "property": "C77",
   "status": "proved",
   "theorems": [
    "MCM.Outcome.C77_forced_exactly",
    "MCM.Outcome.C77_force_goes_on",
    "MCM.Outcome.C77_graceful_waits",
    "MCM.Outcome.C77_graceful_goes_on"
   ],
   "note": "For all machines, times and answers."
  },
  {
   "property": "C78",
   "status": "partial",
   "theorems": [
    "MCM.Outcome.C78_stale_node_vm_deleted",
    "MCM.Outcome.C78_adopted_later_false"
   ],
   "note": "Proved for the reconcile that creates the VM; if that deletion fails the next reconcile records the VM after all (witness)."
  },
  {
   "property": "C79",
   "status": "partial",
   "theorems": [
    "MCM.Outcome.C79_failed_creation",
    "MCM.Outcome.C79_timeout_is_written",
    "MCM.Outcome.C79_failed_still_creates_false"
   ],
   "note": "Phases and message exact; a failed machine without provider id still asks for a VM (witness)."
  },
  {
   "property": "C80",
   "status": "proved",
   "theorems": [
    "MCM.Hash.C80_collisions_bounded",
    "MCM.Hash.C80_set_found",
    "MCM.Hash.C80_hash_changes"
   ],
   "note": "For collision counts below 256 (42 names in use when starting from zero)."
  },
  {
   "property": "C81",
   "status": "partial",
   "theorems": [
    "MCM.Hash.C81_names_disjoint",
    "MCM.Hash.C81_name_shape",
    "MCM.Hash.C81_selectors_disjoint",
    "MCM.Hash.C81_selects_own",
    "MCM.Hash.C81_nothing_taken_over",
    "MCM.Hash.C81_slow_cache",
    "MCM.Hash.C81_one_per_template_partial",
    "MCM.Hash.C81_two_sets_false",
    "MCM.Hash.C81_right_template_partial",
    "MCM.Hash.C81_wrong_template_false"
   ],
   "note": "Names, selectors and ownership proved; a slow cache together with an in-place change makes two sets of one template, and an added label together with a collision is taken for the old template (witnesses)."
  },
  {
   "property": "C82",
   "status": "partial",
   "theorems": [
    "MCM.Adopt.C82_active_kept_partial",
    "MCM.Adopt.C82_all_kept_partial",
    "MCM.Adopt.C82_selector_last",
    "MCM.Adopt.C82_failed_call",
    "MCM.Adopt.C82_new_machines",
    "MCM.Adopt.C82_failed_machine_false",
    "MCM.Adopt.C82_released_false",
    "MCM.Adopt.C82_blocked_false",
    "MCM.Adopt.C82_crash_false"
   ],
   "note": "Active machines are never lost, and no machine is lost while the set does not have too many; a failed machine that was already replaced is released (witness), a set that cannot reach its size blocks its deployment, a set deleted meanwhile crashes the controller."
  },
  {
   "property": "C83",
   "status": "partial",
   "theorems": [
    "MCM.NodeReason.C83_announced",
    "MCM.NodeReason.C83_reason_stays",
    "MCM.NodeReason.C83_drained_terminating",
    "MCM.NodeReason.C83_unhealthy_never_given_false",
    "MCM.NodeReason.C83_intended_reason",
    "MCM.NodeReason.C83_conflict_not_retried_false"
   ],
   "note": "The condition and its stability are proved; the reason Unhealthy is never given, because the update runs only in phase Terminating, and write conflicts are not retried (witnesses)."
  },
  {
   "property": "C84",
   "status": "partial",
   "theorems": [
    "MCM.Wake.C84_owner_woken",
    "MCM.Wake.C84_former_owner_woken_partial",
    "MCM.Wake.C84_orphan_offered_partial",
    "MCM.Wake.C84_only_concerned",
    "MCM.Wake.C84_creation_counted",
    "MCM.Wake.C84_former_owner_deleting_false",
    "MCM.Wake.C84_invalid_selector_false"
   ],
   "note": "Controllers are always woken; former owners of machines being deleted are not, and one invalid selector keeps orphans from all sets (witnesses)."
  },
  {
   "property": "C85",
   "status": "partial",
   "theorems": [
    "MCM.Wake.C85_owner_woken_partial",
    "MCM.Wake.C85_former_owner_woken_partial",
    "MCM.Wake.C85_orphan_offered_partial",
    "MCM.Wake.C85_failed_read_false",
    "MCM.Wake.C85_machine_deletion_unnoticed_false"
   ],
   "note": "Proved when the deployment can be read; otherwise the event is lost, and the handler for deleted machines is not registered (witnesses)."
  },
  {
   "property": "C86",
   "status": "partial",
   "theorems": [
    "MCM.Make.C86_faithful",
    "MCM.Make.C86_asked_iff",
    "MCM.Make.C86_kept",
    "MCM.Make.C86_name",
    "MCM.Make.C86_marked_template_false"
   ],
   "note": "All proved except that the machines count: with the lowest priority in the template's annotations every run deletes the machines of the last one and makes new ones (witness, for all runs)."
  },
  {
   "property": "C87",
   "status": "partial",
   "theorems": [
    "MCM.Retry.C87_set_finalizers",
    "MCM.Retry.C87_set_finalizers_retried",
    "MCM.Retry.C87_set_status",
    "MCM.Retry.C87_cached_update",
    "MCM.Retry.C87_cached_update_retried",
    "MCM.Retry.C87_cached_update_unnecessary",
    "MCM.Retry.C87_machine_status_sent",
    "MCM.Retry.C87_machine_status_left_out",
    "MCM.Retry.C87_machine_status_ends_partial",
    "MCM.Retry.C87_refused_status_blocks_false",
    "MCM.Retry.C87_compared_with_cache_false",
    "MCM.Retry.C87_deployment_finalizers_partial",
    "MCM.Retry.C87_refused_finalizers_false"
   ],
   "note": "Proved for sets and cached updates; the updates of a machine's status and of a deployment's finalizers go on for ever when refused and block the worker, and a status is compared with the cached machine (witnesses)."
  },
  {
   "property": "C88",
   "status": "partial",
   "theorems": [
    "MCM.RefWake.C88_class_appears_partial",
    "MCM.RefWake.C88_class_changes_partial",
    "MCM.RefWake.C88_only_named",
    "MCM.RefWake.C88_credentials_only_false",
    "MCM.RefWake.C88_first_reference_false",
    "MCM.RefWake.C88_missed_deletion_false",
    "MCM.RefWake.C88_looked_at_again",
    "MCM.RefWake.C88_corrected"
   ],
   "note": "Proved for classes that had and have a SecretRef; classes with only a CredentialsSecretRef, first and last references, and missed deletions wake nobody (witnesses) and are left to the look every ten minutes."
  },
  {
   "property": "C89",
   "status": "partial",
   "theorems": [
    "MCM.RefWake.C89_machine_appears_partial",
    "MCM.RefWake.C89_looked_at_again",
    "MCM.RefWake.C89_machines_woken",
    "MCM.RefWake.C89_class_changed_false",
    "MCM.RefWake.C89_two_workers_false"
   ],
   "note": "Proved for machines that appear or are seen to disappear; a changed class and missed deletions wake nobody, and a class has two keys, so two workers can work on it (witnesses)."
  },
  {
   "property": "C90",
   "status": "partial",
   "theorems": [
    "MCM.Lifecycle.C90_always",
    "MCM.Lifecycle.C90_documented_partial",
    "MCM.Lifecycle.C90_reasons",
    "MCM.Lifecycle.C90_undocumented_false",
    "MCM.Lifecycle.C90_erased_id_false"
   ],
   "note": "Proved up to four further changes, each of which happens (witnesses): no phase to Failed, CrashLoopBackOff to Running, Failed to Running, Failed to CrashLoopBackOff; with an erased provider id a running machine becomes crash looping (witness)."
  },
  {
   "property": "C91",
   "status": "partial",
   "theorems": [
    "MCM.Lifecycle.C91_terminating_final_partial",
    "MCM.Lifecycle.C91_delete_failed_false",
    "MCM.Lifecycle.C91_reset_false",
    "MCM.Lifecycle.C91_reused_name_false"
   ],
   "note": "Proved if deletion requests are answered, names are not used again and the safety controller's cache is up to date; each exception has a witness."
  },
  {
   "property": "C92",
   "status": "proved",
   "theorems": [
    "MCM.Lifecycle.C92_becomes_running"
   ],
   "note": ""
  },
  {
   "property": "C93",
   "status": "partial",
   "theorems": [
    "MCM.Settings.C93_within_both",
    "MCM.Settings.C93_documented_partial",
    "MCM.Settings.C93_long_timeout_false",
    "MCM.Settings.C93_short_timeout_false"
   ],
   "note": "Both limits hold and are used up; the FAQ's promise holds unless only a long drain timeout is set (then pods are deleted after the flag's number of evictions, two hours by default). Timeouts below twenty seconds leave no eviction, and the drain of a pod with volumes never ends."
  },
  {
   "property": "C94",
   "status": "partial",
   "theorems": [
    "MCM.Settings.C94_conditions",
    "MCM.Settings.C94_timeouts",
    "MCM.Settings.C94_timeouts_acted_upon",
    "MCM.Settings.C94_blank_false",
    "MCM.Settings.C94_unknown_false",
    "MCM.Settings.C94_disable_false"
   ],
   "note": "Proved for lists separated by commas. A blank after a comma disables a condition, a condition in unknown state counts as set, and disableHealthTimeout has no effect."
  },
  {
   "property": "C95",
   "status": "partial",
   "theorems": [
    "MCM.OwnNode.C95_only_own_partial",
    "MCM.OwnNode.C95_one_object",
    "MCM.OwnNode.C95_found_partial",
    "MCM.OwnNode.C95_named",
    "MCM.OwnNode.C95_reused_name_false"
   ],
   "note": "Proved if the provider never gives a node name twice. A name used again by the VM of another machine makes the deletion of the first machine drain and delete the node of the second."
  },
  {
   "property": "C96",
   "status": "partial",
   "theorems": [
    "MCM.Attach.C96_only_own",
    "MCM.Attach.C96_all",
    "MCM.Attach.C96_waits",
    "MCM.Attach.C96_marked",
    "MCM.Attach.C96_proceeds",
    "MCM.Attach.C96_stuck_false",
    "MCM.Attach.C96_left_behind_false"
   ],
   "note": "Safety is proved in full. An attachment whose deletion is refused again and again blocks a forced deletion for ever; attachments are left behind if the node reports no attached volumes."
  },
  {
   "property": "C97",
   "status": "proved",
   "theorems": [
    "MCM.Fleet.C97_converges",
    "MCM.Fleet.C97_stays",
    "MCM.Fleet.C97_possible",
    "MCM.Fleet.C97_drain_sees"
   ],
   "note": "Undisturbed runs: no call fails, caches are current, the provider tells the truth, the termination of every machine is retried more than 30 minutes after its last status write at least once per epoch (soon repeated runs are allowed besides)."
  },
  {
   "property": "C98",
   "status": "partial",
   "theorems": [
    "MCM.DepStatus.C98_current_partial",
    "MCM.DepStatus.C98_current_paused",
    "MCM.DepStatus.C98_rests",
    "MCM.DepStatus.C98_rests_no_deadline",
    "MCM.DepStatus.C98_paused_rests",
    "MCM.DepStatus.C98_paused_false",
    "MCM.DepStatus.C98_details_false",
    "MCM.DepStatus.C98_twice_false"
   ],
   "note": "Counts, names and descriptions are current after every accepted run, and at most two writes follow any change however often the controller runs. Missing because false of the code: provider id, owner, state and time of a listed failed machine can stay out of date for ever; a machine reported by two sets hides a stale entry; a paused deployment without failed machines is written at every run (same content)."
  },
  {
   "property": "C99",
   "status": "partial",
   "theorems": [
    "MCM.Metrics.C99_machines_partial",
    "MCM.Metrics.C99_objects_partial",
    "MCM.Metrics.C99_survives_partial",
    "MCM.Metrics.C99_crash_false",
    "MCM.Metrics.C99_gone_false",
    "MCM.Metrics.C99_info_false",
    "MCM.Metrics.C99_phase_false",
    "MCM.Metrics.C99_replicas_false",
    "MCM.Metrics.C99_percent_false",
    "MCM.Metrics.C99_optional_false"
   ],
   "note": "Existing objects are shown with their current values and the totals are right. Missing because false of the code: series of gone objects, old info series and removed optional fields stay for ever; status_replicas of a set shows its ready replicas; percentages are shown as 0; several phases share the number of Pending; a deployment without rolling update parameters ends the process at the next scrape (exactly characterised)."
  },
  {
   "property": "C100",
   "status": "partial",
   "theorems": [
    "MCM.Metrics.C100_counter",
    "MCM.Metrics.C100_machines_partial",
    "MCM.Metrics.C100_twice_false"
   ],
   "note": "No deletion is lost or counted twice over any interleaving. Counted are deletions, not machines: with a cache that does not show the deletion yet a machine is counted again."
  },
  {
   "property": "C101",
   "status": "proved",
   "theorems": [
    "MCM.World.C101_rollout_ends",
    "MCM.World.C101_stays",
    "MCM.World.C101_removed",
    "MCM.World.C101_possible"
   ],
   "note": "Quantified over the start state and over all interleavings; the only requirement is that every set and every machine is served and one run of the deployment controller sees current data in every round. The bound on the number of rounds is explicit. Sets of size zero may be deleted by the history clean-up at any moment and old sets may be in deletion from the start; they are removed with their machines. Start states with a pending change of replicas, or whose current set is being deleted, are covered by C102."
  },
  {
   "property": "C102",
   "status": "partial",
   "theorems": [
    "MCM.World.C102_after_any_history",
    "MCM.World.C102_eventually",
    "MCM.World.C102_possible",
    "MCM.World.C102_reachable",
    "MCM.World.C102_limit_zero_false",
    "MCM.World.C102_in_place_false"
   ],
   "note": "Proved for all histories in which a deployment is not scaled up from zero before its sets have size zero; without that restriction it is false (C102_limit_zero_false: a deployment of one replica gets a set of 2147483647 machines, by a division by zero). Machine sets are removed by the history clean-up and may be deleted by hand at any moment, also the current one. Adopted, released and frozen sets in the past: C118."
  },
  {
   "property": "C103",
   "status": "partial",
   "theorems": [
    "MCM.World.C103_recreate_ends_partial",
    "MCM.World.C103_stays_partial",
    "MCM.World.C103_eventually_partial",
    "MCM.World.C103_always_recreate",
    "MCM.World.C103_reachable",
    "MCM.World.C103_stuck",
    "MCM.World.C103_two_sets_stuck_false",
    "MCM.World.C103_rollback_mixes_false"
   ],
   "note": "Proved for deployments that always had the strategy Recreate and were never rolled back, and for any history as long as no scaling request is pending while several sets want machines. Otherwise it is false: a strategy change in the middle of a rolling update together with a change of the replicas is never taken up (C103_two_sets_stuck_false), and a rollback creates the set of a template that is given up, at full size (C103_rollback_mixes_false). Machine sets are removed by the history clean-up and may be deleted by hand. Adopted, released and frozen sets in the past: C118."
  },
  {
   "property": "C104",
   "status": "partial",
   "theorems": [
    "MCM.Loop.C104_forgotten_only",
    "MCM.Loop.C104_never_forgotten",
    "MCM.Loop.C104_retried_until",
    "MCM.Loop.C104_machine",
    "MCM.Loop.C104_termination",
    "MCM.Loop.C104_termination_unread",
    "MCM.Loop.C104_others_unread",
    "MCM.Loop.C104_class",
    "MCM.Loop.C104_secret",
    "MCM.Loop.C104_deployment",
    "MCM.Loop.C104_deployment_unread",
    "MCM.Loop.C104_set_partial",
    "MCM.Loop.C104_set_forgotten_false"
   ],
   "note": "Machines, terminations, classes and secrets found in the cache and deployments that can be read are never dropped. False for machine sets (C104_set_forgotten_false): a run asks for the next one only at its very end, so after sixteen failures in a row (about 164 seconds) nothing is queued any more; proved is that this is the only way (C104_set_partial). The resync of the caches brings the key back after at most twelve hours (C127)."
  },
  {
   "property": "C105",
   "status": "partial",
   "theorems": [
    "MCM.SetRun.C105_only_own_machines",
    "MCM.SetRun.C105_creates_what_is_missing",
    "MCM.SetRun.C105_protected_before_work",
    "MCM.SetRun.C105_deleting_set",
    "MCM.SetRun.C105_finalizer_outlives_machines",
    "MCM.SetRun.C105_deleting_set_deletes_all",
    "MCM.SetRun.C105_reports_own_machines",
    "MCM.SetRun.C105_serves",
    "MCM.SetRun.C105_served_comes_back",
    "MCM.SetRun.C105_as_in_fleet",
    "MCM.SetRun.C105_others_do_not_matter",
    "MCM.SetRun.C105_one_machine_blocks_false"
   ],
   "note": "All but the last part is proved. The last part is false (C105_one_machine_blocks_false): as long as the update of one machine of the set is refused, no run creates or deletes machines of the set or reports its status, and the run does not ask for another one."
  },
  {
   "property": "C106",
   "status": "partial",
   "theorems": [
    "MCM.Lag.C106_excess_is_what_is_unseen",
    "MCM.Lag.C106_deficit_is_what_is_outdated",
    "MCM.Lag.C106_never_too_many_partial",
    "MCM.Lag.C106_never_too_few_partial",
    "MCM.Lag.C106_unbounded_excess_false",
    "MCM.Lag.C106_too_few_false"
   ],
   "note": "Proved for each run: the excess is at most the number of machines in service that the cache does not show, the deficit at most the number that it shows wrongly. For executions the first part is false (C106_unbounded_excess_false: for every n an execution without failures leads to n machines of a set that wants one; C106_too_few_false: two runs delete two machines of which one was too many); proved under the hypothesis that runs begin when the cache shows the machines in service (resp. shows none wrongly)."
  },
  {
   "property": "C107",
   "status": "partial",
   "theorems": [
    "MCM.Collector.C107_spares_machines_partial",
    "MCM.Collector.C107_recorded_stays_partial",
    "MCM.Collector.C107_collects",
    "MCM.Collector.C107_nothing_left",
    "MCM.Collector.C107_given_up_false"
   ],
   "note": "The second half is proved. The first half is proved for machines whose creation was never given up (Failed or Terminating without a provider id); for those it is false (C107_given_up_false: a Failed machine is put back into creation by the next error of the provider, becomes Pending, and a pass that looked at it before deletes its VM). Assumed: names are not reused, the informer's first list is not outdated (otherwise C27_behind_cache_false), nobody but the machine controller writes provider ids."
  },
  {
   "property": "C108",
   "status": "partial",
   "theorems": [
    "MCM.Lifecycle.C108_status_fits",
    "MCM.Lifecycle.C108_timeout_shown",
    "MCM.Lifecycle.C108_health_timeout_hidden_false"
   ],
   "note": "Operation, state and flag fit the phase in all histories, and the flag is set exactly for Pending. False is that the flag shows every timeout: machines in Unknown are failed when the health timeout has passed, and the flag is not set (C108_health_timeout_hidden_false)."
  },
  {
   "property": "C109",
   "status": "partial",
   "theorems": [
    "MCM.Startup.C109_manager",
    "MCM.Startup.C109_controller_partial",
    "MCM.Startup.C109_controller_budgets_partial",
    "MCM.Startup.C109_budgets_false"
   ],
   "note": "Holds for the manager, and for the machine controller from Kubernetes 1.21 on; before, for all kinds but disruption budgets, which are read without ever being filled (C109_budgets_false)."
  },
  {
   "property": "C110",
   "status": "partial",
   "theorems": [
    "MCM.Startup.C110_order",
    "MCM.Startup.C110_always_ok_partial",
    "MCM.Startup.C110_missing_kind",
    "MCM.Startup.C110_no_workers",
    "MCM.Startup.C110_ok_means_partial",
    "MCM.Startup.C110_nothing_there",
    "MCM.Startup.C110_ok_without_workers_false",
    "MCM.Startup.C110_missing_resource_false"
   ],
   "note": "The order (lease, resources, caches, workers; nothing after the end) holds in all executions, and the process ends if none of its resources is there. False is that OK means anything: the endpoint never says anything else (C110_always_ok_partial), also with no workers (C110_ok_without_workers_false) or with a resource missing, for which the manager waits for ever (C110_missing_resource_false)."
  },
  {
   "property": "C111",
   "status": "partial",
   "theorems": [
    "MCM.Startup.C111_handler",
    "MCM.Startup.C111_one_failure_false"
   ],
   "note": "When there is a handler is characterised completely; false is that a failing request has no lasting effect: all waits for re-attachment then last their full time (C111_one_failure_false)."
  },
  {
   "property": "C112",
   "status": "partial",
   "theorems": [
    "MCM.Election.C112_one_leader_partial",
    "MCM.Election.C112_takeover",
    "MCM.Election.C112_same_host_false",
    "MCM.Election.C112_slow_answer_false",
    "MCM.Election.C112_times_false"
   ],
   "note": "One leader if host names differ and the longest time of an answer, the retry period and the deadline together are less than the lease (defaults: answers within two seconds). False for equal host names, which are the only identity (C112_same_host_false), for slower answers (C112_slow_answer_false), and for times that the library accepts and nothing else checks (C112_times_false)."
  },
  {
   "property": "C113",
   "status": "partial",
   "theorems": [
    "MCM.World.C113_floor_partial",
    "MCM.World.C113_stays_up_partial",
    "MCM.World.C113_report_exact",
    "MCM.World.C113_truth_is_not_enough_false",
    "MCM.World.C113_underreported_false"
   ],
   "note": "Holds in all executions, with the history clean-up, in which no run sees a set with more available machines than it is to have or than serve, and the statuses seen add up to the floor or are exact. Both conditions are needed: with exact statuses but a set that has machines to remove, one of three machines is left (C113_truth_is_not_enough_false); with statuses that are too low, running machines are cleaned up as unhealthy (C113_underreported_false)."
  },
  {
   "property": "C114",
   "status": "partial",
   "theorems": [
    "MCM.World.C114_living_partial",
    "MCM.World.C114_machines_partial",
    "MCM.World.C114_report_exact",
    "MCM.World.C114_not_yet_made_false",
    "MCM.World.C114_first_run_false",
    "MCM.World.C114_from_zero_false"
   ],
   "note": "Holds in all executions in which the set of the current template exists, not all sets are to be empty, and no run of the deployment controller sees a set that is reported to have fewer machines than it has or is to have (or the reports already add up to the ceiling); with machines being deleted counted, also no machine is broken. Each condition is needed even if every status seen is exact: machines that are wanted but not made yet are handed out again (C114_not_yet_made_false), the run that creates the new set hands out the surge twice (C114_first_run_false), and with maxSurge 0 and maxUnavailable = replicas the step through zero is taken for a scale-out from zero, which doubles the machines (C114_from_zero_false)."
  },
  {
   "property": "C115",
   "status": "partial",
   "theorems": [
    "MCM.Teardown.C115_goes_last_partial",
    "MCM.Teardown.C115_all_go_partial",
    "MCM.Teardown.C115_possible",
    "MCM.Teardown.C115_invalid_stays_false",
    "MCM.Teardown.C115_missing_in_cache_false",
    "MCM.Teardown.C115_relabelled_false",
    "MCM.Teardown.C115_unprotected_false"
   ],
   "note": "The order holds in all executions in which the caches miss no existing set or machine, labels do not change and sets are made only by a deployment that has the finalizer; undisturbed, everything is gone after twelve epochs. Each condition is needed: an invalid deployment is never torn down (C115_invalid_stays_false), a machine missing in the cache is overlooked (C115_missing_in_cache_false), a relabelled machine is left behind with its VM (C115_relabelled_false), and a failure to add the deployment's finalizer is ignored (C115_unprotected_false)."
  },
  {
   "property": "C116",
   "status": "partial",
   "theorems": [
    "MCM.Recovery.C116_no_vm_lost_partial",
    "MCM.Recovery.C116_recovers_partial",
    "MCM.Recovery.C116_possible",
    "MCM.Recovery.C116_unimplemented_false",
    "MCM.Recovery.C116_vanished_false"
   ],
   "note": "Any disturbed execution leaves at most one VM per machine and no VM without a machine, and any undisturbed execution of 2k+13 epochs from there (at most 100k machines) reaches the desired population. Conditions that are needed: the provider implements GetMachineStatus (C116_unimplemented_false), VMs do not vanish by themselves while their node looks healthy (C116_vanished_false), creation and termination of one machine do not overlap (C61_vm_left_behind_false)."
  },
  {
   "property": "C117",
   "status": "partial",
   "theorems": [
    "MCM.Teardown.C117_goes_last_partial",
    "MCM.Teardown.C117_recovers_partial",
    "MCM.Teardown.C117_possible",
    "MCM.Teardown.C117_foreign_finalizer_false"
   ],
   "note": "Objects go last-to-first in every disturbed execution, and twelve undisturbed epochs remove everything. Conditions that are needed: those of C115 on caches, labels and validity (C115_missing_in_cache_false, C115_unprotected_false, C115_relabelled_false, C115_invalid_stays_false), a provider that implements GetMachineStatus (C116_unimplemented_false), no finalizers of others left (C117_foreign_finalizer_false)."
  },
  {
   "property": "C118",
   "status": "partial",
   "theorems": [
    "MCM.Turmoil.C118_no_vm_lost_partial",
    "MCM.Turmoil.C118_after_any_past_partial",
    "MCM.Turmoil.C118_eventually_partial",
    "MCM.Turmoil.C118_recreate_partial",
    "MCM.Turmoil.C118_recreate_eventually_partial",
    "MCM.Turmoil.C118_possible",
    "MCM.Turmoil.C118_adopted_without_limit_false"
   ],
   "note": "Proved for both strategies and all pasts, with sets scaled, deleted, adopted or released by users, frozen meanwhile, and removed by the history clean-up. An adopted set needs the hash label and, if it is to have machines, a recorded limit that is not zero (otherwise false: C118_adopted_without_limit_false). Conditions that are needed: a deployment of size zero is not scaled up while it has machines (C102_limit_zero_false); for Recreate, no scaling request pending while several sets want machines (C103_two_sets_stuck_false); the conditions of C116 on the provider."
  },
  {
   "property": "C119",
   "status": "partial",
   "theorems": [
    "MCM.Pace.C119_live_within",
    "MCM.Pace.C119_creation_error",
    "MCM.Pace.C119_timeout_noticed",
    "MCM.Pace.C119_term_within",
    "MCM.Pace.C119_conflict",
    "MCM.Pace.C119_volumes",
    "MCM.Pace.C119_last",
    "MCM.Pace.C119_checks",
    "MCM.Pace.C119_term_refused",
    "MCM.Pace.C119_refused_partial",
    "MCM.Pace.C119_refused_false"
   ],
   "note": "Everything but the last clause is proved: a refused deletion of a VM asks for a pause of ten minutes, but also returns an error, and the work queue repeats it after 5 ms, 10 ms, ... (C119_refused_false); only one attempt in sixteen is followed by the pause (C119_refused_partial)."
  },
  {
   "property": "C120",
   "status": "partial",
   "theorems": [
    "MCM.World.C120_one_set_partial",
    "MCM.World.C120_waits_partial",
    "MCM.World.C120_return_false",
    "MCM.World.C120_stale_false",
    "MCM.World.C120_pause_false"
   ],
   "note": "Proved for all histories in which a template does not come back while its old set still exists and another one is in use (otherwise false: C120_return_false, isScalingEvent takes the deployment for one to be scaled up from zero) and in which the machine cache knows of at least one machine of every set that has some (otherwise false: C120_stale_false). The deployment may be paused and resumed at any time, but no run of the paused deployment may fall between the end of the old set and the creation of the new one (otherwise false: C120_pause_false, a paused deployment without active set scales the set created last, whatever machines exist). Rollbacks are excluded (see C103_rollback_mixes_false)."
  },
  {
   "property": "C121",
   "status": "partial",
   "theorems": [
    "MCM.Stuck.C121_reported_partial",
    "MCM.Stuck.C121_flaky_partial",
    "MCM.Stuck.C121_not_early",
    "MCM.Stuck.C121_available_never",
    "MCM.Stuck.C121_available_false"
   ],
   "note": "Proved in full for all deployments whose Progressing condition does not say that the new machine set is available. For those it is false: C121_available_false, and C121_available_never shows that without progress such a rollout is never reported. If at most m runs in a row cannot write the status, the bound grows accordingly (C121_flaky_partial)."
  },
  {
   "property": "C122",
   "status": "partial",
   "theorems": [
    "MCM.Tokens.C122_every_token_expires",
    "MCM.Tokens.C122_no_lasting_token",
    "MCM.Tokens.C122_first_attempt_partial",
    "MCM.Tokens.C122_calls",
    "MCM.Tokens.C122_joined_partial",
    "MCM.Tokens.C122_expired_token_false",
    "MCM.Tokens.C122_waits_without_token_false",
    "MCM.Tokens.C122_refused_false",
    "MCM.Tokens.C122_stale_false",
    "MCM.Tokens.C122_deleted_false"
   ],
   "note": "That tokens expire is proved in full. That the token given lasts while the machine is expected to join is proved for first attempts and false for later ones: C122_expired_token_false, C122_waits_without_token_false. That a machine that has joined has no token is proved for runs that start from the stored object and granted deletions, and false otherwise: C122_refused_false, C122_stale_false; tokens of machines deleted before they join stay: C122_deleted_false."
  },
  {
   "property": "C123",
   "status": "partial",
   "theorems": [
    "MCM.Taints.C123_round_trip",
    "MCM.Taints.C123_parse_total",
    "MCM.Taints.C123_parse_valid",
    "MCM.Taints.C42_reorganize",
    "MCM.Taints.C42_reorganize_errors",
    "MCM.Taints.C42_word_false",
    "MCM.Taints.C123_set_panics_false"
   ],
   "note": "Proved for reading, printing and reorganizing, apart from two false parts: the flag's Set panics on a taint without effect (C123_set_panics_false), and the word summing up a change is wrong if only a value changes (C42_word_false)."
  },
  {
   "property": "C124",
   "status": "partial",
   "theorems": [
    "MCM.Float64.C124_rounding",
    "MCM.Float64.C124_percent",
    "MCM.Float64.C124_share",
    "MCM.Float64.C124_fraction_partial",
    "MCM.Float64.C124_proportion_partial",
    "MCM.Float64.C124_overflow_false",
    "MCM.Float64.C124_similar",
    "MCM.Float64.C124_attempts"
   ],
   "note": "The binary64 operations are modelled as rounding to nearest, ties to even, on rationals, without overflow and subnormal numbers (not reached). False for large deployments: the product of the size of a set and that of the deployment is a 32-bit number and wraps around (C124_overflow_false)."
  },
  {
   "property": "C125",
   "status": "partial",
   "theorems": [
    "MCM.Guard.C125_excess_is_bounded_partial",
    "MCM.Guard.C125_frozen_at_once",
    "MCM.Guard.C125_same_cache_false",
    "MCM.Guard.C125_not_added_up_false"
   ],
   "note": "The unrestricted claim (the number of machines is bounded whatever the cache shows) is false: both controllers read the same cache (C125_same_cache_false). The machines of a deployment are not added up over its sets (C125_not_added_up_false). The bound lets sizes be edited up to a maximum and assumes that nobody asks to unfreeze."
  },
  {
   "property": "C126",
   "status": "partial",
   "theorems": [
    "MCM.Budget.C126_given_up_only_if",
    "MCM.Budget.C126_recognised_partial",
    "MCM.Budget.C126_kept_with_volumes_partial",
    "MCM.Budget.C126_kept_without_volumes_partial",
    "MCM.Budget.C126_overridden_false",
    "MCM.Budget.C126_unhealthy_false",
    "MCM.Budget.C126_two_budgets_false"
   ],
   "note": "Recognised only if the budget is the only one of the pod and all its pods are healthy: with an unhealthy pod anywhere the pod is deleted after the last eviction (C126_overridden_false, C126_unhealthy_false), and with two budgets the order of the cache decides (C126_two_budgets_false). The status of budgets is computed by Kubernetes; the formula is part of the specification."
  },
  {
   "property": "C127",
   "status": "proved",
   "theorems": [
    "MCM.Resync.C127_manager",
    "MCM.Resync.C127_classes",
    "MCM.Resync.C127_annotated",
    "MCM.Resync.C127_conditions",
    "MCM.Resync.C127_nothing_else",
    "MCM.Resync.C127_set_found_again",
    "MCM.Resync.C127_forgotten_and_found"
   ],
   "note": ""
  },
  {
   "property": "C128",
   "status": "partial",
   "theorems": [
    "MCM.InPlace.C128_no_replacement",
    "MCM.InPlace.C128_one_more_run_partial",
    "MCM.InPlace.C128_reaches_set_partial",
    "MCM.InPlace.C128_reaches_machines_partial",
    "MCM.InPlace.C128_reaches_nodes_partial",
    "MCM.InPlace.C128_unreadable_revision_false",
    "MCM.InPlace.C128_old_sets_false"
   ],
   "note": "Missing, because not so: a machine set whose revision annotation is not a number does not get the edit (C128_unreadable_revision_false), machines of old sets do not get it (C128_old_sets_false), failed updates of machines are not repeated until the cache is refreshed (C49_failed_not_retried_false). C128_no_replacement is without restriction; C128_one_more_run_partial is for deployments that are not being rolled back, since a rollback changes the template itself."
  },
  {
   "property": "C129",
   "status": "partial",
   "theorems": [
    "MCM.ScaleIn.C129_only_named_partial",
    "MCM.ScaleIn.C129_named_go",
    "MCM.ScaleIn.C129_late_cache_false",
    "MCM.ScaleIn.C129_run_between_false",
    "MCM.ScaleIn.C129_named_fails_false"
   ],
   "note": "Proved when the machine set controller sees all machines as they are and does not run between the first mark and the scaling of the set, and named machines do not fail before. Each of the three restrictions is needed: the machine cache may not show the marks while the size, read from the API server, is the new one (C129_late_cache_false); a run between marks and scaling replaces the marked machines (C129_run_between_false); a named machine that fails is replaced (C129_named_fails_false)."
  },
  {
   "property": "C130",
   "status": "partial",
   "theorems": [
    "MCM.InTurn.C130_in_turn_partial",
    "MCM.InTurn.C130_held",
    "MCM.InTurn.C130_stuck_machine_false"
   ],
   "note": "Proved when nothing more goes wrong: every order of steps ends, and it ends with all machines running. The last clause is false: a machine of the deployment that is neither running nor unknown, for example one whose VM cannot be deleted or that never joins, keeps all unhealthy machines from being replaced as long as it stays so (C130_held, C130_stuck_machine_false)."
  },
  {
   "property": "C131",
   "status": "partial",
   "theorems": [
    "MCM.DrainClock.C131_ends_partial",
    "MCM.DrainClock.C131_forced",
    "MCM.DrainClock.C131_later_false",
    "MCM.DrainClock.C131_deleted_in_time",
    "MCM.DrainClock.C131_never_deleted_false",
    "MCM.DrainClock.C131_unnoticed_false",
    "MCM.DrainClock.C131_never_ends_false"
   ],
   "note": "The bound of 25 seconds (attained up to a millisecond) holds if at least one eviction is made; with a drain timeout below twenty seconds the drain of pods with volumes never ends. The last clause is false with the default settings: the limit on evictions is the timeout divided by twenty seconds, so the deadline has come when the pod would be deleted; for a single pod with volumes the drain even reports success. It holds if the refused evictions end before the deadline (C131_deleted_in_time)."
  },
  {
   "property": "C132",
   "status": "partial",
   "theorems": [
    "MCM.Termination.C132_completes_partial",
    "MCM.Termination.C132_held",
    "MCM.Termination.C132_error_text_false",
    "MCM.Termination.C132_volumes_false"
   ],
   "note": "For reconciles more than half an hour apart, a provider and API server that otherwise cooperate, and error texts without the texts of steps (with one the deletion goes back to that step, C132_error_text_false). A forced deletion also waits, without limit, for volume attachments that cannot be deleted (C132_volumes_false)."
  },
  {
   "property": "C133",
   "status": "proved",
   "theorems": [
    "MCM.Rest.C133_deployment",
    "MCM.Rest.C133_set",
    "MCM.Rest.C133_set_status",
    "MCM.Rest.C133_machine"
   ],
   "note": "Status updates of the deployment itself are C98's subject (a paused deployment goes on writing its status). The run of the machine set lists the unchanged result of the propagation as its only act; no request belongs to it."
  },
  {
   "property": "C134",
   "status": "partial",
   "theorems": [
    "MCM.Undo.C134_undo_partial",
    "MCM.Undo.C134_undo_undo_partial",
    "MCM.Undo.C134_gone_false",
    "MCM.Undo.C134_unreadable_false"
   ],
   "note": "Partial because the unrestricted statement is false: the set that was undone may be cleaned up in between, an unreadable revision of the current set makes the undo skip a generation, templates that differ only in labels may be taken for each other (C17_added_label_false), and revisions overflow (C15_overflow_false)."
  },
  {
   "property": "C135",
   "status": "partial",
   "theorems": [
    "MCM.DepRun.C135_others_untouched",
    "MCM.DepRun.C135_foreign_untouched",
    "MCM.DepRun.C135_only_own_added",
    "MCM.DepRun.C135_refused",
    "MCM.DepRun.C135_finalizer",
    "MCM.DepRun.C135_no_interference_partial",
    "MCM.DepRun.C135_machines_of_others",
    "MCM.DepRun.C135_names_apart",
    "MCM.DepRun.C135_orphan_false",
    "MCM.DepRun.C135_name_taken_false"
   ],
   "note": "The single-run theorems are unrestricted. The one about sequences is partial because the unrestricted statement is false: a set without controller goes to the deployment that comes first, and a set of another owner with the intended name keeps a deployment from creating its own. Machines named by the trigger annotation are C53 (C53_foreign_machine_false)."
  },
  {
   "property": "C136",
   "status": "partial",
   "theorems": [
    "MCM.Thaw.C136_freeze_ends_partial",
    "MCM.Thaw.C136_sets_kept",
    "MCM.Thaw.C136_rounds_exist",
    "MCM.Thaw.C136_margin_false",
    "MCM.Thaw.C136_stuck_false",
    "MCM.Thaw.C136_greedy_false"
   ],
   "note": "Undisturbed rounds: each set is treated by the machine set controller with an up-to-date cache and successful calls, machines being deleted leave, then the safety controller runs. Partial because the unrestricted statement is false: with a margin larger than the amount added for the limit (options are not compared), with machines that hang in deletion (they count as present), and for a set that asks for more than its deployment may have in all, the freeze lasts for ever."
  },
  {
   "property": "C137",
   "status": "partial",
   "theorems": [
    "MCM.Meaning.C137_creation_failures",
    "MCM.Meaning.C137_creation_failures_known",
    "MCM.Meaning.C137_reason_partial",
    "MCM.Meaning.C137_replicas_partial",
    "MCM.Meaning.C137_available_partial",
    "MCM.Meaning.C137_reason_false",
    "MCM.Meaning.C137_deletion_failure_false",
    "MCM.Meaning.C137_terminated_counted_false",
    "MCM.Meaning.C137_min_ready_false"
   ],
   "note": "That failed creations are reported is proved without restriction. Partial because the rest is false of the code: while machines are being deleted a refused creation is reported as FailedDelete, failed deletions are never reported, terminating machines count as replicas, and minReadySeconds has no effect (a rolling update removes the only machine ready long enough as soon as another is Running)."
  },
  {
   "property": "C138",
   "status": "partial",
   "theorems": [
    "MCM.Outside.C138_between",
    "MCM.Outside.C138_scaling",
    "MCM.Outside.C138_budgets_do_not_matter",
    "MCM.Outside.C138_corrected_partial",
    "MCM.Outside.C138_hand_edit_false",
    "MCM.Outside.C138_negative_surge_false"
   ],
   "note": "For changes of the size of the deployment, and while it is paused, proved without restriction on the budgets. Partial because a difference that does not come from the deployment (somebody changed the size of the set) is corrected by the rollout code, where the surge does matter: with more machines than the size (some being deleted), or with a negative surge, the set keeps its size (witnesses)."
  },
  {
   "property": "C139",
   "status": "partial",
   "theorems": [
    "MCM.Contract.C139_create",
    "MCM.Contract.C139_status_creates",
    "MCM.Contract.C139_status_partial",
    "MCM.Contract.C139_initialize_partial",
    "MCM.Contract.C139_status_termination_partial",
    "MCM.Contract.C139_delete",
    "MCM.Contract.C139_out_of_range_false",
    "MCM.Contract.C139_initialize_not_found_false",
    "MCM.Contract.C139_queue_false"
   ],
   "note": "CreateMachine, DeleteMachine and what is asked of the provider are proved for all rows. Partial because OutOfRange ('multiple VMs found') of GetMachineStatus is to be retried but gets the medium period, because InitializeMachine's 'not found' is not skipped but puts the machine into CrashLoopBackOff, and because an error makes the work queue repeat the run after 5 ms whether or not a retry is required (witnesses)."
  },
  {
   "property": "C140",
   "status": "partial",
   "theorems": [
    "MCM.Patience.C140_patient",
    "MCM.Patience.C140_detachment_noticed",
    "MCM.Patience.C140_end_noticed",
    "MCM.Patience.C140_deadline_false"
   ],
   "note": "Everything but the last sentence is proved. The last sentence is false: if the drain's time is up before the pod's, the reading that is interrupted fails, a failed reading returns an object with another UID, and the pod is reported as evicted although it never went (C140_deadline_false, for all such pods)."
  },
  {
   "property": "C141",
   "status": "partial",
   "theorems": [
    "MCM.Initial.C141_pending",
    "MCM.Initial.C141_running_partial",
    "MCM.Initial.C141_tried_again",
    "MCM.Initial.C141_never_again",
    "MCM.Initial.C141_running_false",
    "MCM.Initial.C141_blind_false"
   ],
   "note": "Pending and the repetition are proved in full for drivers with GetMachineStatus. Running and Unknown need that no node is healthy before its VM is initialised: otherwise the health check makes a machine in CrashLoopBackOff Running, and from then on no run calls the driver, so the VM is never initialised (C141_running_false, C141_never_again). With a driver that does not implement GetMachineStatus, which the contract permits, the run after a failed initialisation makes the machine Pending (C141_blind_false)."
  },
  {
   "property": "C142",
   "status": "partial",
   "theorems": [
    "MCM.World.C142_complete_iff_partial",
    "MCM.World.C142_eventually",
    "MCM.World.C142_recreate",
    "MCM.World.C142_unseen_false"
   ],
   "note": "The equivalence needs reports that are up to date: MachineDeploymentComplete looks only at statuses, neither at the sizes of old sets nor at whether the sets have observed them. A template changed back before the set of the other template has reported its first machine gives a rollout reported as complete with one machine too many, of another template (C142_unseen_false)."
  },
  {
   "property": "C143",
   "status": "proved",
   "theorems": [
    "MCM.World.C143_history_limit",
    "MCM.World.C143_recreate",
    "MCM.World.C143_possible"
   ],
   "note": ""
  },
  {
   "property": "C144",
   "status": "partial",
   "theorems": [
    "MCM.Rolling.C144_error_iff",
    "MCM.Rolling.C144_hindered_partial",
    "MCM.Rolling.C144_reported",
    "MCM.Rolling.C144_old_false"
   ],
   "note": "Errors of the set of the current template are returned. Errors while old machine sets are scaled down are dropped: reconcileOldMachineSets returns (false, nil), so that the run ends without an error, and also without reporting the sets it did scale down (C144_old_false). The exact condition for an error is C144_error_iff."
  },
  {
   "property": "C145",
   "status": "proved",
   "theorems": [
    "MCM.Recreate.C145_error_iff",
    "MCM.Recreate.C145_silent_is_done",
    "MCM.Recreate.C145_scaling_is_done",
    "MCM.Recreate.C145_scaling_error"
   ],
   "note": "In contrast to C144: here errors of scaling old machine sets are returned."
  },
  {
   "property": "C146",
   "status": "partial",
   "theorems": [
    "MCM.SetRun.C146_silent_made_all_partial",
    "MCM.SetRun.C146_refused_is_told",
    "MCM.SetRun.C146_deletions_false"
   ],
   "note": "Proved for creations, without restriction. False for deletions: errors of terminateMachines are only logged, also while the set is being deleted, so that such a run ends like a successful one and is repeated after ten minutes only (C146_deletions_false)."
  }
 ]
}