import Verif.Model.Events
import Verif.Props.Conditions
/-!
C63: watch events are handled without a crash and lead to the work they call for. C64: a node annotated for deletion takes its
machine with it.
-/
namespace MCM.Events

/-- the machine that claims the node, if there is exactly one -/
def MachineOf (cache : List Mach) (node : String) (m : Mach) : Prop := (cache.filter fun m => m.node = some node) = [m]

/-- C63: The only event that crashes the controller is the deletion of a machine that the informer missed and learns of by a
re-list. The full statement, that no event does, is refuted below. -/
theorem C63_no_crash_partial (cache : List Mach) (ok : Bool) (e : Event) :
    handle cache ok e = none ↔ ∃ m, e = .machineDelete (.tombstone m) := by
  cases e with
  | machineDelete o => cases o <;> simp [handle, deleteToSafety]
  | nodeDelete o => cases o <;> simp [handle]
  | machineAdd m => simp [handle]
  | machineUpdate o n => simp [handle]
  | nodeAdd n => simp [handle]
  | nodeUpdate o n => simp [handle]

/-- C63, false part: after an interrupted watch a deleted machine is reported as a tombstone, and the handler of the safety
controller crashes on it -/
theorem C63_tombstone_crash_false : ¬ ∀ cache ok e, handle cache ok e ≠ none :=
  fun h => h [] true (.machineDelete (.tombstone { name := "m" })) rfl

/-- C63: A machine that appears, or whose specification changes, is put into exactly one of the two queues: the one for
termination if its deletion was requested, else the other. -/
theorem C63_machine_routed (cache : List Mach) (ok : Bool) (old m : Mach) (e : Event)
    (he : e = .machineAdd m ∨ (e = .machineUpdate old m ∧ old.generation ≠ m.generation)) :
    ∃ l, handle cache ok e = some l ∧ (Action.termination m.name ∈ l ↔ m.deleting = true) ∧ (Action.machine m.name ∈ l ↔ m.deleting = false) := by
  rcases he with rfl | ⟨rfl, hg⟩
  · refine ⟨_, rfl, ?_⟩
    unfold machineToClass addMachine
    cases m.deleting <;> split <;> simp
  · refine ⟨_, rfl, ?_⟩
    unfold updateMachine updateToSafety addMachine
    rw [if_neg hg]
    cases m.deleting <;> (repeat' split) <;> simp_all

/-- C63: A machine whose status tells of several VMs (code OutOfRange) and did not before makes the safety controller look for orphans; no other change of a machine does. -/
theorem C63_out_of_range (cache : List Mach) (ok : Bool) (old m : Mach) :
    ∃ l, handle cache ok (.machineUpdate old m) = some l ∧ (Action.orphan ∈ l ↔ (old.outOfRange = false ∧ m.outOfRange = true)) := by
  refine ⟨_, rfl, ?_⟩
  have h1 : Action.orphan ∉ updateMachine old m := by
    unfold updateMachine addMachine
    repeat' split
    all_goals simp
  have h2 : Action.orphan ∈ updateToSafety old m ↔ (old.outOfRange = false ∧ m.outOfRange = true) := by
    unfold updateToSafety
    cases old.outOfRange <;> cases m.outOfRange <;> simp
  rw [List.mem_append, ← h2]
  exact ⟨fun h => h.resolve_left h1, .inr⟩

/-- C63: When the node of a machine disappears, the machine is put into its queue (unless it is being deleted), also if the event
itself was missed. -/
theorem C63_node_loss_noticed (cache : List Mach) (ok : Bool) (n : Node) (m : Mach) (h : MachineOf cache n.name m) (hd : m.deleting = false)
    (o : Gone Node) (ho : o = .object n ∨ o = .tombstone n) : handle cache ok (.nodeDelete o) = some [.machine m.name] := by
  have : deleteNode cache n = [.machine m.name] := by
    unfold deleteNode
    rw [show (cache.filter fun m => m.node = some n.name) = [m] from h]
    dsimp only
    rw [if_neg (by rw [hd]; simp)]
  rcases ho with rfl | rfl <;> (show some (deleteNode cache n) = _; rw [this])

/-- two lists of conditions agree: the same types with the same status -/
def SameConditions (a b : List Conditions.Cond) : Prop :=
  ∀ t s, (∃ c ∈ a, c.type = t ∧ c.status = s) ↔ ∃ c ∈ b, c.type = t ∧ c.status = s

/-- C63: When the conditions of a node stop agreeing with those recorded for its machine, the machine is put into its queue, unless
it is crash-looping or terminating (or the node is marked as not managed). -/
theorem C63_condition_change_noticed (cache : List Mach) (ok : Bool) (n : Node) (m : Mach) (h : MachineOf cache n.name m)
    (hm : n.annotations.has "node.machine.sapcloud.io/not-managed-by-mcm" = false) (hp : m.phase ≠ .crashLoopBackOff ∧ m.phase ≠ .terminating)
    (h1 : (m.conditions.map (·.type)).Nodup) (hc : ¬ SameConditions m.conditions n.conditions) :
    handle cache ok (.nodeAdd n) = some [.machine m.name] ∧
    ∀ old : Node, (n.annotations.get triggerDeletionKey = "true" → m.deleting = true ∨ ok = true) →
      ∃ l, handle cache ok (.nodeUpdate old n) = some l ∧ Action.machine m.name ∈ l := by
  have hch : Conditions.haveChanged m.conditions n.conditions = true := by
    cases hv : Conditions.haveChanged m.conditions n.conditions with
    | true => rfl
    | false => exact absurd ((Conditions.C52_exact _ _ h1).1 hv) hc
  have hadd : addNode cache n = [.machine m.name] := by
    unfold addNode
    rw [show n.annotations.has notManaged = false from hm, show (cache.filter fun m => m.node = some n.name) = [m] from h]
    dsimp only
    rw [if_neg (by simp), if_pos ⟨hp.1, hp.2, hch⟩]
  refine ⟨by show some _ = _; rw [hadd], fun old ho => ⟨_, rfl, ?_⟩⟩
  unfold updateNode
  rw [show (cache.filter fun m => m.node = some n.name) = [m] from h]
  dsimp only
  rw [if_neg ?_]
  · split
    · exact List.mem_append_right _ List.mem_cons_self
    · rw [hadd]; exact List.mem_append_right _ List.mem_cons_self
  · rintro ⟨⟨ht, hnd⟩, hok⟩
    rcases ho ht with h | h
    · exact hnd h
    · exact hok h

/-- C63: When the taint for missing essential components is put on the node of a machine or taken off it, the machine is put into
its queue, even if it is crash-looping or the node is marked as not managed. -/
theorem C63_essential_taint_noticed (cache : List Mach) (ok : Bool) (old n : Node) (m : Mach) (h : MachineOf cache n.name m)
    (ht : ¬ ("node.gardener.cloud/critical-components-not-ready" ∈ old.taintKeys ↔ "node.gardener.cloud/critical-components-not-ready" ∈ n.taintKeys))
    (ho : n.annotations.get triggerDeletionKey = "true" → m.deleting = true ∨ ok = true) :
    ∃ l, handle cache ok (.nodeUpdate old n) = some l ∧ Action.machine m.name ∈ l := by
  refine ⟨_, rfl, ?_⟩
  unfold updateNode
  rw [show (cache.filter fun m => m.node = some n.name) = [m] from h]
  dsimp only
  rw [if_neg, if_pos]
  · exact List.mem_append_right _ List.mem_cons_self
  · exact fun he => ht (iff_of_eq he)
  · rintro ⟨⟨h1, hnd⟩, hok⟩
    rcases ho h1 with h | h
    · exact hnd h
    · exact hok h

example : handle [{ name := "m", node := some "n", phase := .crashLoopBackOff }] true
    (.nodeUpdate { name := "n", taintKeys := [essentialTaint] } { name := "n" }) = some [.machine "m"] := by decide +kernel

/-- C63: A deleted machine whose event arrives wakes everything that waits for its end: the termination queue, its class (when it is a
MachineClass) and the search for orphaned VMs. -/
theorem C63_deletion_noticed (cache : List Mach) (ok : Bool) (m : Mach) :
    ∃ l, handle cache ok (.machineDelete (.object m)) = some l ∧ Action.termination m.name ∈ l ∧ Action.orphan ∈ l ∧
      ∀ c, Action.machineClass c ∈ l ↔ (m.classKind = "MachineClass" ∧ c = m.className) := by
  refine ⟨_, rfl, ?_⟩
  unfold machineToClassDelete machineToClass deleteMachine
  split <;> simp_all

/-- C64: Every update event of a node annotated with trigger-deletion "true" leads to a request to delete its machine, unless one
was made already; no other event makes such a request, and never for another machine. -/
theorem C64_delete_requested_iff (cache : List Mach) (ok : Bool) (e : Event) (name : String) :
    (∃ l, handle cache ok e = some l ∧ Action.deleteMachine name ∈ l) ↔
    ∃ old n m, e = .nodeUpdate old n ∧ MachineOf cache n.name m ∧ m.name = name ∧ n.annotations.get triggerDeletionKey = "true" ∧
      m.deleting = false := by
  have hadd : ∀ n, Action.deleteMachine name ∉ addNode cache n := by
    intro n h
    unfold addNode at h
    repeat' split at h
    all_goals simp at h
  constructor
  · rintro ⟨l, hl, hm⟩
    cases e with
    | machineAdd m =>
      cases hl
      unfold machineToClass addMachine at hm
      revert hm
      split <;> split <;> simp
    | machineUpdate o m =>
      cases hl
      unfold updateMachine updateToSafety addMachine at hm
      revert hm
      repeat' split
      all_goals simp
    | machineDelete o =>
      cases o with
      | tombstone m => cases hl
      | object m =>
        cases hl
        unfold machineToClassDelete machineToClass deleteMachine at hm
        revert hm
        dsimp only
        split <;> simp
    | nodeAdd n => cases hl; exact absurd hm (hadd n)
    | nodeDelete o =>
      have : ∀ n, Action.deleteMachine name ∉ deleteNode cache n := by
        intro n h
        unfold deleteNode at h
        repeat' split at h
        all_goals simp at h
      cases o <;> (cases hl; exact absurd hm (this _))
    | nodeUpdate old n =>
      cases hl
      unfold updateNode at hm
      split at hm
      · rename_i m hf
        dsimp only at hm
        refine ⟨old, n, m, rfl, hf, ?_⟩
        have key : Action.deleteMachine name ∈ (if n.annotations.get triggerDeletionKey = "true" ∧ ¬ m.deleting = true then [Action.deleteMachine m.name] else []) := by
          split at hm
          · exact hm
          · split at hm
            · rcases List.mem_append.1 hm with h | h
              · exact h
              · simp at h
            · rcases List.mem_append.1 hm with h | h
              · exact h
              · exact absurd h (hadd n)
        split at key
        · rename_i ht
          refine ⟨by simpa using (List.mem_singleton.1 key).symm, ht.1, by simpa using ht.2⟩
        · cases key
      · cases hm
  · rintro ⟨old, n, m, rfl, hf, rfl, ht, hd⟩
    refine ⟨_, rfl, ?_⟩
    unfold updateNode
    rw [show (cache.filter fun m => m.node = some n.name) = [m] from hf]
    dsimp only
    have htr : n.annotations.get triggerDeletionKey = "true" ∧ ¬ m.deleting = true := ⟨ht, by rw [hd]; simp⟩
    rw [if_pos htr]
    split
    · exact List.mem_cons_self
    · split
      · exact List.mem_append_left _ List.mem_cons_self
      · exact List.mem_append_left _ List.mem_cons_self

example : handle [{ name := "m", node := some "n" }] true
    (.nodeUpdate { name := "n" } { name := "n", annotations := [(triggerDeletionKey, "true")] }) = some [.deleteMachine "m"] := by decide +kernel

/-- C64, false part: a node that already carries the annotation when the controller starts (or starts anew) is reported as added,
and nothing is requested until its next update -/
theorem C64_added_node_false : ¬ ∀ (cache : List Mach) (n : Node) (m : Mach), MachineOf cache n.name m → m.deleting = false →
    n.annotations.get triggerDeletionKey = "true" → ∃ l, handle cache true (.nodeAdd n) = some l ∧ Action.deleteMachine m.name ∈ l := by
  intro h
  obtain ⟨l, hl, hm⟩ := h [{ name := "m", node := some "n" }] { name := "n", annotations := [(triggerDeletionKey, "true")] }
    { name := "m", node := some "n" } (by unfold MachineOf; decide +kernel) rfl (by decide +kernel)
  rw [show handle [{ name := "m", node := some "n" }] true (.nodeAdd { name := "n", annotations := [(triggerDeletionKey, "true")] }) = some []
    from by decide +kernel] at hl
  cases hl
  cases hm

end MCM.Events
