import Verif.Props.Termination
import Verif.Props.Creation
/-!
# C77 – when a drain is forced;  C78 – a VM that shows up under another machine's node is removed again;  C79 – creations that keep failing;  C57 – what is
stored of the provider's state
-/
namespace MCM.Outcome
open MCM MCM.Similar MCM.Codes

/-! ## C77 -/

section
open MCM.Termination

/-- the condition has shown a problem for more than five minutes -/
def BadForLong (now : Int) (c : Option NCond) : Prop := ∃ x, c = some x ∧ x.healthy = false ∧ now > x.since + 300000000000

/-- reasons for which pods may be deleted without waiting for their graceful end: the user said so, the time for the drain is used up, or the node is broken -/
def MayForce (now : Int) (v : Obj) : Prop :=
  v.forceLabel = true ∨ (∃ ts, v.deleting = some ts ∧ now > ts + v.drainTimeout) ∨ BadForLong now v.ready ∨ BadForLong now v.readonly

theorem forced_iff (e : Env) (v : Obj) (ts : Int) (hd : v.deleting = some ts) : forced e v ts = true ↔ MayForce e.now v := by
  unfold forced unhealthyLong MayForce BadForLong notReadyLimit
  rw [Bool.or_eq_true, Bool.or_eq_true, Bool.or_eq_true, hd]
  have hc : ∀ c : NCond, ((!c.healthy && decide (e.now - c.since > 5 * 60 * 1000000000)) = true ↔ c.healthy = false ∧ e.now > c.since + 300000000000) := by
    intro c
    rw [Bool.and_eq_true, Bool.not_eq_true', decide_eq_true_eq]
    constructor
    · rintro ⟨h1, h2⟩; exact ⟨h1, by omega⟩
    · rintro ⟨h1, h2⟩; exact ⟨h1, by omega⟩
  have ht : (decide (e.now - v.drainTimeout - ts > 0) = true ↔ ∃ t, some ts = some t ∧ e.now > t + v.drainTimeout) := by
    rw [decide_eq_true_eq]
    constructor
    · intro h; exact ⟨ts, rfl, by omega⟩
    · rintro ⟨t, h1, h2⟩; cases h1; omega
  rw [ht]
  have hr : ∀ c : Option NCond, ((match c with | some c => !c.healthy && decide (e.now - c.since > 5 * 60 * 1000000000) | none => false) = true ↔
      ∃ x, c = some x ∧ x.healthy = false ∧ e.now > x.since + 300000000000) := by
    intro c
    cases c with
    | none => simp
    | some x => simp only [hc, Option.some.injEq, exists_eq_left']
  have h1 := hr v.ready
  have h2 := hr v.readonly
  constructor
  · rintro (((h | h) | h) | h)
    · exact .inr (.inr (.inl (h1.1 h)))
    · exact .inr (.inr (.inr (h2.1 h)))
    · exact .inl h
    · exact .inr (.inl h)
  · rintro (h | h | h | h)
    · exact .inl (.inr h)
    · exact .inr h
    · exact .inl (.inl (.inl (h1.2 h)))
    · exact .inl (.inl (.inr (h2.2 h)))

/-- only the drain step drains -/
theorem drained_step (e : Env) (v : Obj) (f : Bool) (err : Option String) (h : Event.drained f err ∈ (flow e v).events) :
    ∃ ts, v.deleting = some ts ∧ f = forced e v ts ∧ err = e.drainErr := by
  unfold flow at h
  split at h
  · simp at h
  split at h
  · simp [setTerminating] at h
  split at h
  · unfold getVMStep at h
    split at h
    · simp at h
    · split at h <;> simp at h
  · unfold drainStep at h
    split at h
    · simp at h
    · split at h
      · simp at h
      · rename_i ts hts
        split at h
        · simp at h
        · simp only [List.mem_singleton, Event.drained.injEq] at h
          exact ⟨ts, hts, h.1, h.2⟩
  · unfold volStep at h
    split at h
    · simp at h
    · simp at h
    · simp at h
    · split at h <;> simp at h
  · simp [vmStep] at h
  · unfold nodeStep at h
    split at h <;> simp at h
  · simp [finStep] at h
  · simp [setTerminating] at h

/-- **C77**: a drain is forced exactly if the machine is labelled for forced deletion, its drain timeout has passed since the deletion was requested, or its node has been not ready,
or its file system read-only, for more than five minutes. -/
theorem C77_forced_exactly (e : Env) (v : Obj) (f : Bool) (err : Option String) (h : Event.drained f err ∈ (flow e v).events) :
    f = true ↔ MayForce e.now v := by
  obtain ⟨ts, hts, rfl, _⟩ := drained_step e v f err h
  exact forced_iff e v ts hts

/-- **C77**: a machine for which force is due is drained by force in its drain step whatever the API server answers, and the termination goes on from there: a failing drain does not
hold it up. -/
theorem C77_force_goes_on (e : Env) (v : Obj) (hf : v.finalizer = true) (hp : v.st.phase = .terminating) (hd : decode v.st.desc = some .drain)
    (hn : v.node ≠ "") (ts : Int) (hts : v.deleting = some ts) (hm : MayForce e.now v) :
    Event.drained true e.drainErr ∈ (flow e v).events
    ∧ ∃ st, (flow e v).write = some (.status true st) ∧ st.state = "Processing" := by
  have hforce := (forced_iff e v ts hts).2 hm
  unfold flow
  rw [if_neg (by simp [hf]), if_neg (by simp [hp]), hd]
  dsimp only
  unfold drainStep
  rw [if_neg hn, hts]
  dsimp only
  rw [hforce]
  cases e.condErr <;> (refine ⟨by simp, _, rfl, ?_⟩; cases e.drainErr <;> rfl)

/-- the same without force: an unsuccessful drain is repeated, the machine stays at this step -/
theorem C77_graceful_waits (e : Env) (v : Obj) (hf : v.finalizer = true) (hp : v.st.phase = .terminating) (hd : decode v.st.desc = some .drain)
    (hn : v.node ≠ "") (ts : Int) (hts : v.deleting = some ts) (hm : ¬ MayForce e.now v) (text : String) (herr : e.condErr = some text ∨ e.drainErr = some text) :
    ∃ st, (flow e v).write = some (.status true st) ∧ st.state = "Failed" := by
  have hforce : forced e v ts = false := by
    cases h : forced e v ts with
    | false => rfl
    | true => exact absurd ((forced_iff e v ts hts).1 h) hm
  unfold flow
  rw [if_neg (by simp [hf]), if_neg (by simp [hp]), hd]
  dsimp only
  unfold drainStep
  rw [if_neg hn, hts]
  dsimp only
  rw [hforce]
  cases hc : e.condErr with
  | some t => exact ⟨_, rfl, rfl⟩
  | none =>
    rcases herr with herr | herr
    · rw [hc] at herr; cases herr
    · rw [herr]; exact ⟨_, rfl, rfl⟩

/-- a graceful drain that reports success leads straight to the deletion of the VM; waiting for volume attachments to go is left to forced drains -/
theorem C77_graceful_goes_on (e : Env) (v : Obj) (hf : v.finalizer = true) (hp : v.st.phase = .terminating) (hd : decode v.st.desc = some .drain)
    (hn : v.node ≠ "") (ts : Int) (hts : v.deleting = some ts) (hm : ¬ MayForce e.now v) (hc : e.condErr = none) (herr : e.drainErr = none) :
    ∃ st, (flow e v).write = some (.status true st) ∧ decode st.desc = some .vm := by
  have hforce : forced e v ts = false := by
    cases h : forced e v ts with
    | false => rfl
    | true => exact absurd ((forced_iff e v ts hts).1 h) hm
  unfold flow
  rw [if_neg (by simp [hf]), if_neg (by simp [hp]), hd]
  dsimp only
  unfold drainStep
  rw [if_neg hn, hts]
  dsimp only
  rw [hforce, hc, herr]
  have : decode (drainResult false none).1 = some .vm := by decide +kernel
  exact ⟨_, rfl, this⟩

private def dying : Obj :=
  { deleting := some 0, node := "node-1", drainTimeout := 100, st := { phase := .terminating, desc := "Initiate node drain" } }
example : (flow { now := 50, drainErr := some "pdb" } dying).events = [.drained false (some "pdb")] := by decide +kernel
example : (flow { now := 101, drainErr := some "pdb" } dying).events = [.drained true (some "pdb")] := by decide +kernel
example : (flow { now := 1, condErr := some "conflict" } { dying with forceLabel := true }).events = [.drained true none] := by decide +kernel
example : MayForce 300000000001 { dying with drainTimeout := 10^15, ready := some ⟨false, 0⟩ } := by
  right; right; left; exact ⟨_, rfl, rfl, by decide⟩

/-! ## C57 – the provider's state during deletion -/

/-- **C57** (partial): the state returned with the answer to a VM deletion is what the status written afterwards carries. -/
theorem C57_after_deletion_partial (e : Env) (v : Obj) (ts : Option Int) (ans : DelAns) (h : Event.deleteVM ts ans ∈ (flow e v).events) :
    ∃ st, (flow e v).write = some (.status true st) ∧ st.lastKnownState = ans.lks := by
  unfold flow at h ⊢
  split at h
  · simp at h
  split at h
  · simp [setTerminating] at h
  rename_i h1 h2
  rw [if_neg h1, if_neg h2]
  split at h
  · unfold getVMStep at h
    split at h
    · simp at h
    · split at h <;> simp at h
  · unfold drainStep at h
    split at h
    · simp at h
    · split at h
      · simp at h
      · split at h <;> simp at h
  · unfold volStep at h
    split at h
    · simp at h
    · simp at h
    · simp at h
    · split at h <;> simp at h
  · simp only [vmStep, List.mem_singleton, Event.deleteVM.injEq] at h
    exact ⟨_, rfl, by rw [h.2]⟩
  · unfold nodeStep at h
    split at h <;> simp at h
  · simp [finStep] at h
  · simp [setTerminating] at h

/-- A deletion that fails without handing back a state – e.g. a lost connection – erases the state known before. -/
theorem C57_failed_deletion_forgets_false :
    let v : Obj := { deleting := some 0, st := { phase := .terminating, desc := "Initiate VM deletion", lastKnownState := "disk detached" } }
    ∃ st, (flow { delVM := { err := some "machine codes error: code = [Unavailable] message = [timeout]" } } v).write = some (.status true st)
      ∧ st.lastKnownState = "" :=
  ⟨_, rfl, rfl⟩

end

/-! ## C78, C79 -/

section
open MCM.Creation

/-- everything the reconcile needs before it asks the provider to create a VM is in place, and it gets that far -/
structure AtCreate (e : Env) (v : Obj) : Prop where
  ready : Ready e v
  noNode : v.node = none
  none : SaysNone e.status

theorem atCreate_eq {e : Env} {v : Obj} (h : AtCreate e v) : reconcile e v = createStep e v := by
  obtain ⟨text, resp, c, m, hs, hf, hc⟩ := h.none
  rw [reconcile_ready h.ready]
  unfold creation
  rw [if_neg (by simp [h.ready.user])]
  dsimp only
  rw [hs]
  dsimp only
  rw [hf]
  rcases hc with rfl | rfl <;> (dsimp only; rw [h.noNode])

theorem withStatus_is {e : Env} {v : Obj} {new : MStatus} {r : Nat} {b : Bool} {ev : List Event} {o : Obj}
    (h : (withStatus e v new r b ev none).wrote = some o) : o = { v with st := new } := by
  have hs : (statusUpdate e.now e.statusRes v.st new).1 = none ∨ (statusUpdate e.now e.statusRes v.st new).1 = some new := by
    unfold statusUpdate
    split
    · exact .inl rfl
    · split
      · exact .inr rfl
      · exact .inl rfl
      · exact .inl rfl
  unfold withStatus at h
  split at h <;> rename_i st _ heq <;> (rw [heq] at hs; simp only at hs; rcases hs with rfl | rfl <;> simp at h; exact h.symm)

theorem withStatus_ok {e : Env} {v : Obj} {new : MStatus} {r : Nat} {b : Bool} {ev : List Event} (hr : e.statusRes = .ok) (hs : isSimilar e.now new v.st = false) :
    (withStatus e v new r b ev none).wrote = some { v with st := new } := by
  have : statusUpdate e.now e.statusRes v.st new = (some new, shortRetry, false) := by
    unfold statusUpdate
    rw [hs, hr]; rfl
  unfold withStatus
  rw [this]
  rfl

/-- **C78**: if the VM that was created reports a node that exists already and is not the machine's own, the same reconcile asks the provider to delete exactly this VM, does not record it
in the object, and marks the machine as failed (unless that is what its status says already). -/
theorem C78_stale_node_vm_deleted (e : Env) (v : Obj) (h : AtCreate e v) (node pid : String) (hc : e.create = .ok node pid) (hn : node ∈ e.nodes)
    (hne : node ≠ v.name) :
    Event.delete pid e.delStale ∈ (reconcile e v).events
    ∧ (∀ o, (reconcile e v).wrote = some o → o.node = v.node ∧ o.pid = v.pid ∧ o.st.phase = .failed)
    ∧ (e.statusRes = .ok → v.st.phase ≠ .failed → (reconcile e v).wrote ≠ none) := by
  rw [atCreate_eq h]
  unfold createStep
  dsimp only
  rw [hc]
  dsimp only
  rw [if_pos ⟨hn, hne⟩]
  refine ⟨by rw [withStatus_events]; simp, ?_, ?_⟩
  · intro o ho
    rw [withStatus_is ho]
    exact ⟨rfl, rfl, rfl⟩
  · intro hr hp
    rw [withStatus_ok hr]
    · simp
    · unfold isSimilar
      split
      · rfl
      · have : ((staleStatus e v).phase == v.st.phase) = false := by
          simp [staleStatus]; exact fun h => hp h.symm
        simp [this]

/-- If the deletion of that VM fails, the next reconcile – the machine is failed, but has no provider id – finds the VM and records it after all, together with the node of
the other machine. -/
theorem C78_adopted_later_false :
    let v : Obj := { finalizer := true, st := { phase := .failed } }
    ∃ o, (reconcile { status := .ok "other" "prov:///vm-1", nodes := ["other"] } v).wrote = some o ∧ o.node = some "other" ∧ o.pid = "prov:///vm-1" :=
  (C26_adopts { status := .ok "other" "prov:///vm-1", nodes := ["other"] } _ "other" "prov:///vm-1"
    ⟨rfl, rfl, rfl, rfl, rfl, rfl, rfl, rfl, rfl, .inl rfl⟩ rfl).2 (.inl rfl) rfl

/-- A machine that is failed already still asks for a VM as long as it has no provider id. -/
theorem C79_failed_still_creates_false : creates demoEnv { finalizer := true, st := { phase := .failed } } = true :=
  creates_of_none ⟨rfl, rfl, rfl, rfl, rfl, rfl, rfl, rfl, rfl, .inl rfl⟩ rfl rfl (.inl notFound_decodes)

/-- **C79**: a creation refused by the provider leaves the machine in CrashLoopBackOff as long as its creation timeout has not passed, and failed afterwards; the message of the provider is
in the status. (A status similar to the stored one is not written again, see C44.) -/
theorem C79_failed_creation (e : Env) (v : Obj) (h : AtCreate e v) (text lks : String) (hc : e.create = .err text lks) (o : Obj) (ho : (reconcile e v).wrote = some o) :
    (o.st.phase = .failed ↔ e.now > v.created + v.creationTimeout) ∧ (o.st.phase = .crashLoopBackOff ↔ e.now ≤ v.created + v.creationTimeout)
    ∧ o.st.desc = "Cloud provider message - " ++ text ∧ o.node = v.node ∧ o.pid = v.pid := by
  rw [atCreate_eq h] at ho
  unfold createStep at ho
  dsimp only at ho
  rw [hc] at ho
  dsimp only at ho
  unfold createError at ho
  dsimp only at ho
  rw [withStatus_is ho]
  dsimp only
  unfold failurePhase
  split
  · exact ⟨⟨fun _ => by omega, fun _ => rfl⟩, ⟨fun h => (nomatch h), fun _ => by omega⟩, rfl, rfl, rfl⟩
  · exact ⟨⟨fun h => (nomatch h), fun _ => by omega⟩, ⟨fun _ => by omega, fun _ => rfl⟩, rfl, rfl, rfl⟩

/-- **C79**: the change to failed is never swallowed: once the timeout has passed, the first refused creation writes it if the write is accepted. -/
theorem C79_timeout_is_written (e : Env) (v : Obj) (h : AtCreate e v) (text lks : String) (hc : e.create = .err text lks) (hr : e.statusRes = .ok)
    (hp : v.st.phase ≠ .failed) (ht : e.now > v.created + v.creationTimeout) :
    ∃ o, (reconcile e v).wrote = some o ∧ o.st.phase = .failed := by
  have hf : failurePhase e v = .failed := by unfold failurePhase; rw [if_pos (by omega)]
  rw [atCreate_eq h]
  unfold createStep
  dsimp only
  rw [hc]
  dsimp only
  unfold createError
  dsimp only
  rw [withStatus_ok hr]
  · exact ⟨_, rfl, hf⟩
  · unfold isSimilar
    dsimp only
    rw [hf]
    split
    · rfl
    · have : (Phase.failed == v.st.phase) = false := by
        simp; exact fun h => hp h.symm
      simp [this]

/-- **C57** (partial): a state handed back with a refused creation is in the status written afterwards. -/
theorem C57_after_creation_partial (e : Env) (v : Obj) (h : AtCreate e v) (text lks : String) (hc : e.create = .err text lks) (hl : lks ≠ "") (o : Obj)
    (ho : (reconcile e v).wrote = some o) : o.st.lastKnownState = lks := by
  rw [atCreate_eq h] at ho
  unfold createStep at ho
  dsimp only at ho
  rw [hc] at ho
  dsimp only at ho
  unfold createError at ho
  dsimp only at ho
  rw [withStatus_is ho]
  dsimp only
  rw [if_pos hl]

theorem demo_at : AtCreate { demoEnv with create := .ok "other" "prov:///vm-1", nodes := ["other"] } { finalizer := true } :=
  ⟨⟨rfl, rfl, rfl, rfl, rfl, rfl, rfl, rfl, rfl, .inl rfl⟩, rfl, ⟨_, _, _, _, rfl, notFound_decodes, .inl rfl⟩⟩
example : Event.delete "prov:///vm-1" none ∈ (reconcile { demoEnv with create := .ok "other" "prov:///vm-1", nodes := ["other"] } { finalizer := true }).events :=
  (C78_stale_node_vm_deleted _ _ demo_at "other" "prov:///vm-1" rfl (by simp) (by decide)).1
example : AtCreate { demoEnv with create := .err "quota" "" } { finalizer := true } :=
  ⟨⟨rfl, rfl, rfl, rfl, rfl, rfl, rfl, rfl, rfl, .inl rfl⟩, rfl, ⟨_, _, _, _, rfl, notFound_decodes, .inl rfl⟩⟩

end
end MCM.Outcome
