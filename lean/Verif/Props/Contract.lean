import Verif.Props.Outcome
import Verif.Props.Termination
import Verif.Props.Codes
import Verif.Model.Pace
/-!
# C139 – a driver's answers are treated as the contract for drivers says

docs/development/machine_error_codes.md:127-143, 194-200, 250-263, 313-328: for each method the error codes, the recovery and whether an automatic retry is required.
-/
namespace MCM.Contract
open MCM MCM.Similar MCM.Codes

/-! ## The tables -/

/-- the methods of a driver that take part in the life of one machine -/
inductive Method
  | create | initialize | delete | status
deriving DecidableEq

/-- column "Auto Retry Required"; `none`: the code does not occur in the table of the method -/
def autoRetry : Method → Code → Option Bool
  | .create, .unknown | .create, .deadlineExceeded | .create, .aborted | .create, .unavailable => some true
  | .create, .canceled | .create, .invalidArgument | .create, .alreadyExists | .create, .permissionDenied | .create, .resourceExhausted | .create, .failedPrecondition
  | .create, .outOfRange | .create, .unimplemented | .create, .internal | .create, .unauthenticated => some false
  | .initialize, .internal | .initialize, .uninitialized => some true
  | .initialize, .notFound | .initialize, .unimplemented => some false
  | .delete, .unknown | .delete, .deadlineExceeded | .delete, .aborted | .delete, .unavailable => some true
  | .delete, .canceled | .delete, .invalidArgument | .delete, .permissionDenied | .delete, .failedPrecondition | .delete, .unimplemented | .delete, .internal
  | .delete, .unauthenticated => some false
  | .status, .unknown | .status, .deadlineExceeded | .status, .outOfRange | .status, .unavailable => some true
  | .status, .canceled | .status, .invalidArgument | .status, .notFound | .status, .permissionDenied | .status, .failedPrecondition | .status, .unimplemented | .status, .internal
  | .status, .unauthenticated | .status, .uninitialized => some false
  | _, _ => none

/-- an error that says what the driver meant: a code with a name, and a message whose brackets match (C32) -/
structure Says (text : String) (c : Code) (msg : String) : Prop where
  text : text = render c msg
  named : Named c
  balanced : Balanced msg.toList

theorem Says.read {text : String} {c : Code} {msg : String} (h : Says text c msg) : fromError text = some (c, msg) := by
  rw [h.text]
  exact (C32_round_trip_iff c h.named msg).2 h.balanced

/-! ## Creation -/

theorem withStatus_retry (e : Creation.Env) (v : Creation.Obj) (new : MStatus) (r : Nat) (ev : List Creation.Event) (before : Option Creation.Obj) :
    (Creation.withStatus e v new r true ev before).err = true ∧ (Creation.withStatus e v new r true ev before).events = ev ∧
    ((Creation.withStatus e v new r true ev before).retry = r ∨ (Creation.withStatus e v new r true ev before).retry ≤ shortRetry) ∧
    (e.statusRes = .ok → (Creation.withStatus e v new r true ev before).retry = r) := by
  unfold Creation.withStatus statusUpdate
  split
  · rename_i h
    split at h
    · cases h
    · split at h
      · cases h
      · cases h; exact ⟨rfl, rfl, .inr (by simp [conflictRetry, shortRetry]), fun h' => by simp_all⟩
      · cases h; exact ⟨rfl, rfl, .inr (by simp [shortRetry]), fun h' => by simp_all⟩
  · exact ⟨rfl, rfl, .inl rfl, fun _ => rfl⟩

theorem createError_says {e : Creation.Env} {v : Creation.Obj} {text : String} {c : Code} {msg : String} (h : Says text c msg) (lks : String) (ev : List Creation.Event) :
    (Creation.createError e v text lks ev).err = true ∧ (Creation.createError e v text lks ev).events = ev ∧
    ((c = .unknown ∨ c = .deadlineExceeded ∨ c = .aborted ∨ c = .unavailable) → (Creation.createError e v text lks ev).retry ≤ shortRetry) ∧
    (¬ (c = .unknown ∨ c = .deadlineExceeded ∨ c = .aborted ∨ c = .unavailable) → e.statusRes = .ok → (Creation.createError e v text lks ev).retry = mediumRetry) := by
  unfold Creation.createError
  rw [h.read]
  dsimp only
  refine ⟨(withStatus_retry ..).1, (withStatus_retry ..).2.1, fun hc => ?_, fun hc hs => ?_⟩
  · have hr : (if (match some (c, msg) with | some (.unknown, _) | some (.deadlineExceeded, _) | some (.aborted, _) | some (.unavailable, _) => true | _ => false) = true then shortRetry else mediumRetry)
        = shortRetry := by rcases hc with rfl | rfl | rfl | rfl <;> rfl
    rcases (withStatus_retry e v _ _ ev none).2.2.1 with h1 | h1
    · rw [h1]
      exact Nat.le_of_eq hr
    · exact h1
  · rw [(withStatus_retry e v _ _ ev none).2.2.2 hs]
    cases c <;> first | rfl | (exfalso; apply hc; simp)

/-- CreateMachine: it is called once in a run; after a code with automatic retry the machine is handled again within the short retry period; after the other codes of the table it is
asked for after the medium one. -/
theorem C139_create {e : Creation.Env} {v : Creation.Obj} (h : Outcome.AtCreate e v) {text lks : String} (hc : e.create = .err text lks) {c : Code} {msg : String} (hs : Says text c msg) :
    (Creation.reconcile e v).err = true ∧ (Creation.reconcile e v).events = [.getStatus e.status, .create v e.create] ∧
    (autoRetry .create c = some true → (Creation.reconcile e v).retry ≤ shortRetry) ∧
    (autoRetry .create c = some false → e.statusRes = .ok → (Creation.reconcile e v).retry = mediumRetry) := by
  rw [Outcome.atCreate_eq h]
  unfold Creation.createStep
  dsimp only
  rw [hc]
  dsimp only
  obtain ⟨h1, h2, h3, h4⟩ := createError_says (e := e) (v := v) hs lks [.getStatus e.status, .create v (.err text lks)]
  refine ⟨h1, h2, fun ha => h3 ?_, fun ha => h4 ?_⟩
  · cases c <;> first | (cases ha; done) | simp
  · cases c <;> first | (cases ha; done) | simp

/-- the calls of a run that change something at the provider -/
def changes (l : List Creation.Event) : List Creation.Event := l.filter fun | .getStatus _ => false | _ => true

/-- GetMachineStatus during the creation: only "not found" and "not implemented" lead to a new VM. -/
theorem C139_status_creates {e : Creation.Env} {v : Creation.Obj} (h : Creation.Ready e v) {text : String} {resp : Option (String × String)} (he : e.status = .err text resp) {c : Code}
    {msg : String} (hs : Says text c msg) (hn : v.node = none) : Creation.creates e v = true ↔ c = .notFound ∨ c = .unimplemented := by
  constructor
  · intro hc
    obtain ⟨_, text', resp', c', m', h1, h2, h3⟩ := Creation.C26_creates_only_if_none e v hc
    rw [he] at h1
    cases h1
    rw [hs.read] at h2
    cases h2
    exact h3
  · intro hc
    exact Creation.creates_of_none h hn he (by
      rw [hs.read]
      rcases hc with rfl | rfl
      · exact .inl rfl
      · exact .inr rfl)

/-- All other codes but "uninitialized" leave the provider alone; the codes with automatic retry except OutOfRange lead to a run within the short retry period. -/
theorem C139_status_partial {e : Creation.Env} {v : Creation.Obj} (h : Creation.Ready e v) {text : String} {resp : Option (String × String)} (he : e.status = .err text resp) {c : Code}
    {msg : String} (hs : Says text c msg) (h1 : c ≠ .notFound) (h2 : c ≠ .unimplemented) (h3 : c ≠ .uninitialized) :
    (Creation.reconcile e v).err = true ∧ changes (Creation.reconcile e v).events = [] ∧
    (autoRetry .status c = some true → c ≠ .outOfRange → (Creation.reconcile e v).retry ≤ shortRetry) ∧
    (autoRetry .status c = some false → e.statusRes = .ok → (Creation.reconcile e v).retry = mediumRetry) := by
  rw [Creation.reconcile_ready h]
  have hcr : Creation.creation e v = Creation.createError e v text "" [.getStatus e.status] := by
    unfold Creation.creation
    rw [if_neg (by simp [h.user])]
    dsimp only
    rw [he]
    dsimp only
    rw [hs.read]
    cases c <;> first | rfl | contradiction
  rw [hcr]
  obtain ⟨k1, k2, k3, k4⟩ := createError_says (e := e) (v := v) hs "" [.getStatus e.status]
  refine ⟨k1, by rw [k2]; rfl, fun ha hne => k3 ?_, fun ha => k4 ?_⟩
  · cases c <;> first | (cases ha; done) | contradiction | simp
  · cases c <;> first | (cases ha; done) | contradiction | simp

/-! ## Initialisation -/

theorem initVM_says {e : Creation.Env} {o : Creation.Obj} {text : String} (hi : e.init = some text) {c : Code} {msg : String} (hs : Says text c msg) (ev : List Creation.Event)
    (wrote : Option Creation.Obj) :
    (Creation.initVM e o ev wrote).err = true ∧ (Creation.initVM e o ev wrote).events = ev ++ [.init o e.init] ∧ (Creation.initVM e o ev wrote).retry ≤ shortRetry ∧
    (c = .unimplemented → (Creation.initVM e o ev wrote).wrote = wrote) := by
  unfold Creation.initVM
  dsimp only
  rw [hi]
  dsimp only
  rw [hs.read]
  dsimp only
  split
  · exact ⟨rfl, rfl, Nat.le_refl _, fun _ => rfl⟩
  · rename_i hne
    refine ⟨(withStatus_retry ..).1, (withStatus_retry ..).2.1, ?_, fun hc => absurd hc hne⟩
    rcases (withStatus_retry e o _ shortRetry (ev ++ [.init o (some text)]) wrote).2.2.1 with h1 | h1
    · exact Nat.le_of_eq h1
    · exact h1

/-- InitializeMachine: it is called for a VM that the driver reports as not initialised, and no VM is created; after every error the machine is handled again within the short retry
period; if the driver does not implement it, no failure is recorded. -/
theorem C139_initialize_partial {e : Creation.Env} {v : Creation.Obj} (h : Creation.Ready e v) {text m0 node pid : String} (he : e.status = .err text (some (node, pid)))
    (h0 : Says text .uninitialized m0) {itext : String} (hi : e.init = some itext) {c : Code} {msg : String} (hs : Says itext c msg) :
    (Creation.reconcile e v).err = true ∧ (∃ o, changes (Creation.reconcile e v).events = [.init o e.init]) ∧ (Creation.reconcile e v).retry ≤ shortRetry ∧
    (c = .unimplemented → ∀ o, (Creation.reconcile e v).wrote = some o → o.st = v.st) := by
  rw [Creation.reconcile_ready h]
  have hcr : Creation.creation e v = Creation.record e v node pid true [.getStatus e.status] := by
    unfold Creation.creation
    rw [if_neg (by simp [h.user])]
    dsimp only
    rw [he]
    dsimp only
    rw [h0.read]
  rw [hcr]
  unfold Creation.record
  dsimp only
  rw [if_pos rfl]
  generalize hw : (if (Creation.needsLabels v && e.labelRes == .ok) = true then some (Creation.labelled v node pid) else none) = wrote
  obtain ⟨k1, k2, k3, k4⟩ := initVM_says (o := wrote.getD v) hi hs [.getStatus e.status] wrote
  refine ⟨k1, ⟨wrote.getD v, by rw [k2]; rfl⟩, k3, fun hc o ho => ?_⟩
  rw [k4 hc] at ho
  rw [← hw] at ho
  split at ho
  · cases ho; rfl
  · cases ho

/-! ## Termination -/

/-- GetMachineStatus during the termination of a machine whose node is not known: "not found", "not implemented" and "uninitialized" lead on to the drain; with the codes with automatic
retry except OutOfRange the step is repeated after the short retry period, with the others after the medium one. -/
theorem C139_status_termination_partial {e : Termination.Env} {v : Termination.Obj} (hf : v.finalizer = true) (hp : v.st.phase = .terminating)
    (hd : Termination.decode v.st.desc = some .getVM) (hn : v.node = "") (hl : e.nodeByLabel = none) {text : String} (he : e.getStatus = .error text) {c : Code} {msg : String}
    (hs : Says text c msg) :
    ∃ s, (Termination.flow e v).write = some (.status true s) ∧
      (c = .notFound ∨ c = .unimplemented ∨ c = .uninitialized → Termination.decode s.desc = some .drain) ∧
      (autoRetry .status c = some true → c ≠ .outOfRange → Termination.decode s.desc = some .getVM ∧ (Termination.flow e v).retry = shortRetry) ∧
      (autoRetry .status c = some false → c ≠ .notFound → c ≠ .unimplemented → c ≠ .uninitialized → (Termination.flow e v).retry = mediumRetry) := by
  have hfl : Termination.flow e v =
      { write := some (.status true (Termination.stepStatus e v (Termination.getVMError text).1 (Termination.getVMError text).2.1)), retry := (Termination.getVMError text).2.2 } := by
    unfold Termination.flow
    rw [if_neg (by simp [hf]), if_neg (by simp [hp]), hd]
    dsimp only
    unfold Termination.getVMStep Termination.nodeName
    rw [if_neg (by simp [hn]), hl]
    dsimp only
    rw [he]
  rw [hfl]
  refine ⟨_, rfl, fun hc => ?_, fun ha hne => ?_, fun ha h1 h2 h3 => ?_⟩
  · show Termination.decode (Termination.getVMError text).1 = _
    unfold Termination.getVMError
    rw [hs.read]
    rcases hc with rfl | rfl | rfl <;> dsimp only <;> decide +kernel
  · show Termination.decode (Termination.getVMError text).1 = _ ∧ (Termination.getVMError text).2.2 = _
    unfold Termination.getVMError
    rw [hs.read]
    cases c <;> first | (cases ha; done) | contradiction | exact ⟨by dsimp only; decide +kernel, rfl⟩
  · show (Termination.getVMError text).2.2 = _
    unfold Termination.getVMError
    rw [hs.read]
    cases c <;> first | (cases ha; done) | contradiction | rfl

/-- DeleteMachine: "not found" is as good as success; with the codes with automatic retry it is called again after the short retry period, with the others of the table after the long
one. (That no other error leads on is C22 and C23.) -/
theorem C139_delete {e : Termination.Env} {v : Termination.Obj} (hf : v.finalizer = true) (hp : v.st.phase = .terminating) (hd : Termination.decode v.st.desc = some .vm)
    {text : String} (he : e.delVM.err = some text) {c : Code} {msg : String} (hs : Says text c msg) :
    ∃ s, (Termination.flow e v).write = some (.status true s) ∧ (c = .notFound → Termination.decode s.desc = some .node) ∧
      (autoRetry .delete c = some true → (Termination.flow e v).retry = shortRetry) ∧ (autoRetry .delete c = some false → (Termination.flow e v).retry = longRetry) := by
  have hfl : Termination.flow e v = Termination.vmStep e v := by
    unfold Termination.flow
    rw [if_neg (by simp [hf]), if_neg (by simp [hp]), hd]
  rw [hfl]
  unfold Termination.vmStep
  rw [he]
  refine ⟨_, rfl, fun hc => ?_, fun ha => ?_, fun ha => ?_⟩
  · show Termination.decode (Termination.deleteVMResult (some text)).1 = _
    unfold Termination.deleteVMResult
    dsimp only
    rw [hs.read, hc]
    dsimp only
    decide +kernel
  · show (Termination.deleteVMResult (some text)).2.2 = _
    unfold Termination.deleteVMResult
    dsimp only
    rw [hs.read]
    cases c <;> first | (cases ha; done) | rfl
  · show (Termination.deleteVMResult (some text)).2.2 = _
    unfold Termination.deleteVMResult
    dsimp only
    rw [hs.read]
    cases c <;> first | (cases ha; done) | rfl

/-! ## Where the code does something else -/

theorem says (c : Code) (hc : Named c) : Says (render c "x") c "x" := ⟨rfl, hc, by
  constructor
  · intro p hp
    rw [List.count_eq_zero_of_not_mem fun hm => ?_]
    · exact Nat.zero_le _
    · have := hp.subset hm
      revert this; decide
  · decide⟩

/-- "Multiple VMs found" (OutOfRange) in the answer to GetMachineStatus is to be retried automatically, but is treated like the codes that are not: after three minutes. -/
theorem C139_out_of_range_false : ∃ (e : Creation.Env) (v : Creation.Obj), Creation.Ready e v ∧ e.status = .err (render .outOfRange "x") none ∧ autoRetry .status .outOfRange = some true ∧
    (Creation.reconcile e v).retry = mediumRetry := by
  have hr : Creation.Ready { status := .err (render .outOfRange "x") none } { finalizer := true } := ⟨rfl, rfl, rfl, rfl, rfl, rfl, rfl, rfl, rfl, .inl rfl⟩
  refine ⟨_, _, hr, rfl, rfl, ?_⟩
  rw [Creation.reconcile_ready hr]
  have : Creation.creation { status := .err (render .outOfRange "x") none } { finalizer := true } =
      Creation.createError { status := .err (render .outOfRange "x") none } { finalizer := true } (render .outOfRange "x") "" [.getStatus (.err (render .outOfRange "x") none)] := by
    unfold Creation.creation
    rw [if_neg (by simp)]
    dsimp only
    rw [(says .outOfRange trivial).read]
  rw [this]
  exact (createError_says (says .outOfRange trivial) "" _).2.2.2 (by simp) rfl

/-- If InitializeMachine answers that the VM is not found, initialisation is to be skipped; instead the machine goes to CrashLoopBackOff. -/
theorem C139_initialize_not_found_false : ∃ (e : Creation.Env) (v : Creation.Obj), Creation.Ready e v ∧ e.status = .err (render .uninitialized "x") (some ("n", "p")) ∧
    e.init = some (render .notFound "x") ∧ autoRetry .initialize .notFound = some false ∧
    (Creation.reconcile e v).wrote.map (fun o => (o.st.phase, o.st.state)) = some (.crashLoopBackOff, "Failed") := by
  have hr : Creation.Ready { status := .err (render .uninitialized "x") (some ("n", "p")), init := some (render .notFound "x") } { finalizer := true } :=
    ⟨rfl, rfl, rfl, rfl, rfl, rfl, rfl, rfl, rfl, .inl rfl⟩
  refine ⟨_, _, hr, rfl, rfl, rfl, ?_⟩
  rw [Creation.reconcile_ready hr]
  unfold Creation.creation
  rw [if_neg (by simp)]
  dsimp only
  rw [(says .uninitialized trivial).read]
  dsimp only
  unfold Creation.record
  dsimp only
  rw [if_pos rfl]
  unfold Creation.initVM
  dsimp only
  rw [(says .notFound trivial).read]
  decide +kernel

/-- A period asked for is not the period that passes: after the first error the work queue brings the machine back after 5 ms, whether the code asks for an automatic retry or not. -/
theorem C139_queue_false (r : Nat) (h : 5 ≤ r) : Pace.wait 0 r true 0 = 5 := by
  unfold Pace.wait Pace.backoff Worker.maxRetries
  rw [if_pos ⟨rfl, by decide⟩]
  simp only [Nat.pow_zero, Nat.mul_one]
  omega

/-! ## Examples -/

example : Outcome.AtCreate { status := .err (render .notFound "x") none, create := .err (render .unavailable "x") "" } { finalizer := true } :=
  ⟨⟨rfl, rfl, rfl, rfl, rfl, rfl, rfl, rfl, rfl, .inl rfl⟩, rfl, ⟨_, _, _, _, rfl, (says .notFound trivial).read, .inl rfl⟩⟩

example : Termination.decode Termination.TStep.vm.text = some .vm ∧ Termination.decode Termination.TStep.getVM.text = some .getVM := by decide +kernel

end MCM.Contract
