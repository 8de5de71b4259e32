import Verif.Model.Pace
import Verif.Props.Creation
import Verif.Props.Termination
/-!
C119: how soon the machine controller comes back to a machine. Times are in milliseconds.
-/
namespace MCM.Pace
open MCM MCM.Similar MCM.Codes

/-! ### Specification -/

/-- the provider's error is one that is expected to go away -/
def Transient (text : String) : Prop :=
  ∃ c m, fromError text = some (c, m) ∧ (c = .unknown ∨ c = .deadlineExceeded ∨ c = .aborted ∨ c = .unavailable)

/-- the provider says that there is no such VM -/
def Gone (text : String) : Prop := ∃ m, fromError text = some (.notFound, m)

/-- the provider's answer about the VM lets the termination go on -/
def GoOn (text : String) : Prop :=
  ∃ c m, fromError text = some (c, m) ∧ (c = .notFound ∨ c = .unimplemented ∨ c = .uninitialized)

/-- The object says that its VM is to be deleted next. -/
structure AtVM (v : Termination.Obj) : Prop where
  fin : v.finalizer = true
  phase : v.st.phase = .terminating
  desc : Termination.decode v.st.desc = some .vm

/-- A run in which the provider refuses to delete the VM for a reason that is not expected to go away, and which records that. -/
structure Refused (c : ClassCheck) (e : Termination.Env) (v : Termination.Obj) (res : ApiRes) (text : String) : Prop where
  cls : c = .ok
  at_ : AtVM v
  ans : e.delVM.err = some text
  hard : ¬ Transient text ∧ ¬ Gone text
  wrote : res = .ok

/-! ### Lemmas -/

theorem checks_delay (e : Env) (r : Nat) (h : e.checks = some r) : r = 200 ∨ r = 5000 := by
  unfold Env.checks at h
  cases h1 : healthDelay e.health e.healthRes e.markErr with
  | some x =>
    rw [h1, show ∀ y, (some x).or y = some x from fun _ => rfl] at h
    injection h with h
    subst h
    unfold healthDelay at h1
    split at h1 <;> try cases h1
    · exact .inr rfl
    · split at h1 <;> cases h1; exact .inr rfl
    · split
      · exact .inl rfl
      · exact .inr rfl
  | none =>
    rw [h1, Option.none_or] at h
    cases h2 : nameDelay e.name e.nameRes with
    | some x =>
      rw [h2, show ∀ y, (some x).or y = some x from fun _ => rfl] at h
      injection h with h
      subst h
      unfold nameDelay at h2
      split at h2 <;> try cases h2
      · exact .inr rfl
      · split at h2 <;> cases h2
        · exact .inl rfl
        · exact .inr rfl
    | none =>
      rw [h2, Option.none_or] at h
      unfold templateDelay at h
      split at h <;> try cases h
      · exact .inr rfl
      · exact .inr rfl
      · split
        · exact .inl rfl
        · exact .inr rfl

/-- the retry periods of a run -/
def Usual (r : Nat) : Prop := r = 200 ∨ r = 5000 ∨ r = 180000 ∨ r = 600000

theorem usual_short : Usual shortRetry := .inr (.inl rfl)
theorem usual_medium : Usual mediumRetry := .inr (.inr (.inl rfl))
theorem usual_long : Usual longRetry := .inr (.inr (.inr rfl))

theorem statusUpdate_delay (now : Int) (res : ApiRes) (cur new : MStatus) : Usual (statusUpdate now res cur new).2.1 := by
  unfold statusUpdate
  split
  · exact usual_short
  · cases res
    · exact usual_short
    · exact .inl rfl
    · exact usual_short

theorem withStatus_delay (e : Creation.Env) (v : Creation.Obj) (new : MStatus) (r : Nat) (b : Bool) (ev : List Creation.Event) (o : Option Creation.Obj)
    (h : Usual r) : Usual (Creation.withStatus e v new r b ev o).retry := by
  unfold Creation.withStatus
  have h1 := statusUpdate_delay e.now e.statusRes v.st new
  cases hs : statusUpdate e.now e.statusRes v.st new with
  | mk st p =>
    cases p with
    | mk x y =>
      rw [hs] at h1
      cases y
      · exact h
      · exact h1

theorem createError_delay (e : Creation.Env) (v : Creation.Obj) (t l : String) (ev : List Creation.Event) :
    Usual (Creation.createError e v t l ev).retry := by
  unfold Creation.createError
  apply withStatus_delay
  have hb : ∀ b : Bool, Usual (if b = true then shortRetry else mediumRetry) := by
    intro b
    cases b
    · exact usual_medium
    · exact usual_short
  exact hb _

theorem initVM_delay (e : Creation.Env) (c : Creation.Obj) (ev : List Creation.Event) (o : Option Creation.Obj) :
    Usual (Creation.initVM e c ev o).retry := by
  unfold Creation.initVM
  dsimp only
  split
  · exact usual_short
  · split
    · exact usual_long
    · split
      · exact usual_short
      · exact withStatus_delay _ _ _ _ _ _ _ usual_short

theorem record_delay (e : Creation.Env) (v : Creation.Obj) (n p : String) (u : Bool) (ev : List Creation.Event) :
    Usual (Creation.record e v n p u ev).retry := by
  unfold Creation.record
  dsimp only
  split
  · exact initVM_delay _ _ _ _
  · split
    · exact usual_short
    · split
      · exact usual_short
      · exact usual_long

theorem creation_delay (e : Creation.Env) (v : Creation.Obj) (hp : (Creation.creation e v).panic = false) :
    Usual (Creation.creation e v).retry := by
  unfold Creation.creation at hp ⊢
  split
  · exact usual_short
  · rename_i hu
    rw [if_neg hu] at hp
    dsimp only at hp ⊢
    cases hs : e.status with
    | ok node pid => exact record_delay _ _ _ _ _ _
    | err text resp =>
      rw [hs] at hp
      dsimp only at hp ⊢
      cases hf : fromError text with
      | none => exact usual_medium
      | some q =>
        obtain ⟨code, m⟩ := q
        rw [hf] at hp
        dsimp only at hp ⊢
        have hc : Usual (match v.node with
            | none => Creation.createStep e v
            | some n => Creation.record e v n "" false [.getStatus (.err text resp)]).retry := by
          cases v.node with
          | some n => exact record_delay _ _ _ _ _ _
          | none =>
            dsimp only
            unfold Creation.createStep
            dsimp only
            split
            · exact createError_delay _ _ _ _ _
            · split
              · exact withStatus_delay _ _ _ _ _ _ _ usual_short
              · exact record_delay _ _ _ _ _ _
        cases code
        case notFound => exact hc
        case unimplemented => exact hc
        case uninitialized =>
          cases resp with
          | none => cases hp
          | some q => exact record_delay _ _ _ _ _ _
        all_goals exact createError_delay _ _ _ _ _

theorem reconcile_delay (e : Creation.Env) (v : Creation.Obj) (hd : v.deleting = false) (hp : (Creation.reconcile e v).panic = false)
    (hh : ∀ r, e.health = some r → Usual r) : Usual (Creation.reconcile e v).retry := by
  unfold Creation.reconcile at hp ⊢
  rw [if_neg (by rw [hd]; decide)] at hp ⊢
  split
  · exact usual_long
  · rename_i h1
    rw [if_neg h1] at hp
    split
    · exact usual_short
    · rename_i h2
      rw [if_neg h2] at hp
      split
      · exact usual_short
      · rename_i h3
        rw [if_neg h3] at hp
        split
        · rename_i h4
          cases h5 : e.health with
          | none => rw [h5] at h4; cases h4.2.2
          | some r => exact hh r h5
        · rename_i h4
          rw [if_neg h4] at hp
          split
          · rename_i h5
            rw [if_pos h5] at hp
            exact creation_delay e v hp
          · exact usual_long

/-! ### Machines not being deleted -/

/-- C119: A run for a machine that is not being deleted, unless it crashes the process, asks for the next run, after 200 ms, 5 s, a minute, 3 min or 10 min; whatever
calls fail, the machine is looked at again within ten minutes. -/
theorem C119_live_within (e : Env) (v : Creation.Obj) (hd : v.deleting = false) (hp : (Creation.reconcile e.full v).panic = false) :
    live e v ≠ [] ∧ ∀ d ∈ live e v, d = 200 ∨ d = 5000 ∨ d = 60000 ∨ d = 180000 ∨ d = 600000 := by
  have h := reconcile_delay e.full v hd hp (fun r hr => (checks_delay e r hr).elim .inl (fun h => .inr (.inl h)))
  unfold live
  rw [if_neg (by rw [hd, hp]; decide)]
  refine ⟨by simp, fun d hm => ?_⟩
  rcases List.mem_append.1 hm with hm | hm
  · split at hm
    · exact .inr (.inr (.inl (List.mem_singleton.1 hm)))
    · cases hm
  · rw [List.mem_singleton.1 hm]
    rcases h with h | h | h | h
    · exact .inl h
    · exact .inr (.inl h)
    · exact .inr (.inr (.inr (.inl h)))
    · exact .inr (.inr (.inr (.inr h)))

/-- a healthy machine with a VM: ten minutes -/
example : live {} { finalizer := true, node := some "n", pid := "p", st := { phase := .running } } = [600000] := by decide

/-- The machine has no VM yet and the run gets as far as the request for it. -/
structure Asks (e : Env) (v : Creation.Obj) : Prop where
  here : v.deleting = false ∧ e.base.frozen = false ∧ e.base.valid = true ∧ e.base.classFound = true ∧ e.base.classFinalizer = true ∧ e.base.templateOk = true
  fin : v.finalizer = true
  noVM : v.pid = "" ∧ v.node = none
  data : e.base.userData = true
  none_ : ∃ text resp m, e.base.status = .err text resp ∧ fromError text = some (.notFound, m)

theorem asks_reconcile {e : Env} {v : Creation.Obj} (h : Asks e v) : Creation.reconcile e.full v = Creation.createStep e.full v := by
  obtain ⟨h1, h2, h3, h4, h5, h6⟩ := h.here
  obtain ⟨text, resp, m, hs, hf⟩ := h.none_
  unfold Creation.reconcile
  have e1 : (e.full.frozen || !e.full.valid || !e.full.classFound) = false := by
    show (e.base.frozen || !e.base.valid || !e.base.classFound) = false
    rw [h2, h3, h4]; rfl
  have e2 : (!e.full.classFinalizer || !e.full.templateOk) = false := by
    show (!e.base.classFinalizer || !e.base.templateOk) = false
    rw [h5, h6]; rfl
  rw [if_neg (by rw [h1]; decide), e1, if_neg (by decide), e2, if_neg (by decide), if_neg (by rw [h.fin]; decide),
    if_neg (by rw [h.noVM.2]; simp), if_pos (.inl h.noVM.1)]
  unfold Creation.creation
  rw [if_neg (by show ¬ (!e.base.userData) = true; rw [h.data]; decide)]
  dsimp only
  rw [show e.full.status = .err text resp from hs]
  dsimp only
  rw [hf]
  dsimp only
  rw [h.noVM.2]

/-- C119: When the provider does not create a VM, the next request comes after five seconds if its error is one expected to go away, and after three minutes
otherwise (as long as the outcome could be recorded); no failures add up to more frequent requests. -/
theorem C119_creation_error (e : Env) (v : Creation.Obj) (h : Asks e v) (text lks : String) (hc : e.base.create = .err text lks)
    (hr : e.base.statusRes = .ok) : (Transient text → live e v = [5000]) ∧ (¬ Transient text → live e v = [180000]) := by
  have hre := asks_reconcile h
  have hcs : Creation.createStep e.full v = Creation.createError e.full v text lks [.getStatus e.full.status, .create v e.full.create] := by
    unfold Creation.createStep
    dsimp only
    rw [show e.full.create = .err text lks from hc]
  rw [hcs] at hre
  have hat : atHealth e.base v = false := by
    unfold atHealth
    rw [h.noVM.2]
    simp
  have hs : ∀ new, (statusUpdate e.full.now e.full.statusRes v.st new).2.2 = false := by
    intro new
    rw [show e.full.statusRes = .ok from hr]
    unfold statusUpdate
    split <;> rfl
  have hw : ∀ new r b ev o, (Creation.withStatus e.full v new r b ev o).retry = r ∧ (Creation.withStatus e.full v new r b ev o).panic = false := by
    intro new r b ev o
    have h1 := hs new
    unfold Creation.withStatus
    cases hq : statusUpdate e.full.now e.full.statusRes v.st new with
    | mk st p =>
      cases p with
      | mk x y =>
        rw [hq] at h1
        have h1 : y = false := h1
        subst h1
        exact ⟨rfl, rfl⟩
  have hl : ∀ r, (Creation.createError e.full v text lks [.getStatus e.full.status, .create v e.full.create]).retry = r →
      (Creation.createError e.full v text lks [.getStatus e.full.status, .create v e.full.create]).panic = false → live e v = [r] := by
    intro r h1 h2
    unfold live
    rw [hre, h2, h.here.1, if_neg (by decide), hat, if_neg (by simp), h1]
    rfl
  refine ⟨fun ht => ?_, fun ht => ?_⟩
  · obtain ⟨c, m, hf, hcode⟩ := ht
    apply hl
    · unfold Creation.createError
      rw [(hw _ _ _ _ _).1, hf]
      rcases hcode with rfl | rfl | rfl | rfl <;> rfl
    · unfold Creation.createError
      exact (hw _ _ _ _ _).2
  · apply hl
    · unfold Creation.createError
      rw [(hw _ _ _ _ _).1]
      cases hf : fromError text with
      | none => rfl
      | some q =>
        obtain ⟨c, m⟩ := q
        cases c
        case unknown => exact absurd ⟨_, m, hf, .inl rfl⟩ ht
        case deadlineExceeded => exact absurd ⟨_, m, hf, .inr (.inl rfl)⟩ ht
        case aborted => exact absurd ⟨_, m, hf, .inr (.inr (.inl rfl))⟩ ht
        case unavailable => exact absurd ⟨_, m, hf, .inr (.inr (.inr rfl))⟩ ht
        all_goals rfl
    · unfold Creation.createError
      exact (hw _ _ _ _ _).2

theorem quota_decodes : fromError (render .resourceExhausted "quota") = some (.resourceExhausted, "quota") :=
  (C32_round_trip_iff .resourceExhausted trivial _).2 ⟨fun p hp => by
    rw [List.count_eq_zero.2 (fun h => absurd (hp.subset h) (by decide))]; exact Nat.zero_le _, by decide⟩

/-- a VM refused for lack of quota: three minutes -/
example : live { base := { status := .err (render .notFound "gone") none, create := .err (render .resourceExhausted "quota") "" } } { finalizer := true } =
    [180000] :=
  (C119_creation_error _ _ ⟨⟨rfl, rfl, rfl, rfl, rfl, rfl⟩, rfl, ⟨rfl, rfl⟩, rfl, _, _, _, rfl, Creation.notFound_decodes⟩ _ _ rfl rfl).2
    (fun ⟨c, m, hf, hc⟩ => by
      rw [quota_decodes] at hf
      cases hf
      rcases hc with hc | hc | hc | hc <;> cases hc)

/-- C119: A machine that is pending or unknown, and whose timeout has not passed yet, is looked at again within a minute: the run after the timeout comes at most a
minute after it. (Times of the health check are in nanoseconds.) -/
theorem C119_timeout_noticed (e : Env) (v : Creation.Obj) (m : Health.Machine) (look : Health.NodeLookup) (now limit : Int)
    (hh : e.health = Health.check now m look) (ha : atHealth e.base v = true) (hp : (Creation.reconcile e.full v).panic = false)
    (hs : Health.check now m look = .recheck)
    (hl : limit = m.since + (if m.phase = .pending then m.creationTimeout else m.healthTimeout)) :
    now ≤ limit ∧ ∃ d ∈ live e v, now + d * 1000000 ≤ limit + 60 * 1000000000 := by
  have ht : Health.timeouts now m = .recheck := by
    unfold Health.check at hs
    split at hs
    · cases hs
    · split at hs
      · cases hs
      · exact hs
    · split at hs
      · split at hs
        · cases hs
        · split at hs
          · cases hs
          · exact hs
      · split at hs
        · cases hs
        · split at hs
          · cases hs
          · exact hs
  have hn : now ≤ limit := by
    unfold Health.timeouts at ht
    rw [hl]
    split at ht
    · rename_i h1
      rw [if_pos h1]
      split at ht
      · cases ht
      · omega
    · rename_i h1
      rw [if_neg h1]
      split at ht
      · split at ht
        · cases ht
        · omega
      · cases ht
  refine ⟨hn, 60000, ?_, by omega⟩
  have hd : v.deleting = false := by
    unfold atHealth at ha
    cases hv : v.deleting with
    | false => rfl
    | true => rw [hv] at ha; simp at ha
  unfold live
  rw [if_neg (by rw [hd, hp]; decide), if_pos ⟨ha, by rw [hh, hs]⟩]
  exact List.mem_append_left _ (List.mem_singleton.2 rfl)

/-- a machine that has been pending for a minute and may be so for twenty -/
example : Health.check (60 * 1000000000) { phase := .pending, since := 0, conds := [], creationTimeout := 20 * 60 * 1000000000, healthTimeout := 0, bad := [] } .notFound =
    .recheck ∧ atHealth {} { finalizer := true, node := some "n", pid := "p", st := { phase := .pending } } = true ∧
    live { health := .recheck } { finalizer := true, node := some "n", pid := "p", st := { phase := .pending } } = [60000, 600000] := by decide +kernel

/-! ### Machines that have their VM -/

/-- the health check neither fails nor writes -/
def QuietHealth (e : Env) : Prop := e.health = .nothing ∨ e.health = .recheck ∨ (e.health = .tryFail ∧ e.markErr = false)

/-- the annotation of the node with the machine's name is there, was added, or there is no node -/
def QuietName (e : Env) : Prop := e.name = .notFound ∨ e.name = .found none ∨ ((∃ n, e.name = .found (some n)) ∧ e.nameRes = .ok)

/-- the node has the labels, annotations and taints of the template, or there is no node -/
def QuietTemplate (e : Env) : Prop := e.template = .notFound ∨ e.template = .found .nothing

/-- the first check with something to write meets a conflict -/
inductive Conflicts (e : Env) : Prop
  | health (hs : ∃ a b c, e.health = .status a b c) (hr : e.healthRes = .conflict) : Conflicts e
  | name (hh : QuietHealth e) (hn : ∃ n, e.name = .found (some n)) (hr : e.nameRes = .conflict) : Conflicts e
  | template (hh : QuietHealth e) (hn : QuietName e) (ht : ∃ d, e.template = .found (.update d)) (hr : e.templateRes = .conflict) : Conflicts e

theorem reconcile_checks (e : Env) (v : Creation.Obj) (ha : atHealth e.base v = true) (hp : v.pid ≠ "") (hc : v.st.phase ≠ .crashLoopBackOff) :
    Creation.reconcile e.full v = match e.checks with | some r => { retry := r } | none => { retry := longRetry, err := false } := by
  unfold atHealth at ha
  simp only [Bool.and_eq_true, Bool.not_eq_true', bne_iff_ne, ne_eq] at ha
  obtain ⟨⟨⟨⟨⟨⟨⟨⟨h1, h2⟩, h3⟩, h4⟩, h5⟩, h6⟩, h7⟩, h8⟩, h9⟩ := ha
  unfold Creation.reconcile Env.full
  dsimp only
  rw [h1, h2, h3, h4, h5, h6, h7, if_neg (by decide), if_neg (by decide), if_neg (by decide), if_neg (by decide)]
  cases hk : e.checks with
  | none => rw [if_neg (by simp), if_neg (by simp [hp, h9, hc])]
  | some r => rw [if_pos ⟨h8, h9, rfl⟩]; rfl

/-- C119: A machine that has its VM is looked at again after 200 ms exactly if a write met a conflict, and after ten minutes and without an error exactly if there was nothing to do; otherwise after
five seconds. -/
theorem C119_checks (e : Env) (v : Creation.Obj) (ha : atHealth e.base v = true) (hp : v.pid ≠ "") (hc : v.st.phase ≠ .crashLoopBackOff) :
    ((Creation.reconcile e.full v).retry = 200 ↔ Conflicts e) ∧ ((Creation.reconcile e.full v).err = false ↔ QuietHealth e ∧ QuietName e ∧ QuietTemplate e) ∧
    (¬ Conflicts e → ¬ (QuietHealth e ∧ QuietName e ∧ QuietTemplate e) → (Creation.reconcile e.full v).retry = 5000) ∧
    ((Creation.reconcile e.full v).err = false → (Creation.reconcile e.full v).retry = 600000) := by
  rw [reconcile_checks e v ha hp hc]
  have key : (e.checks = some 200 ∧ Conflicts e ∧ ¬ (QuietHealth e ∧ QuietName e ∧ QuietTemplate e)) ∨
      (e.checks = some 5000 ∧ ¬ Conflicts e ∧ ¬ (QuietHealth e ∧ QuietName e ∧ QuietTemplate e)) ∨
      (e.checks = none ∧ ¬ Conflicts e ∧ QuietHealth e ∧ QuietName e ∧ QuietTemplate e) := by
    unfold Env.checks
    have hH : (healthDelay e.health e.healthRes e.markErr = none ∧ QuietHealth e ∧ ¬ ∃ a b c, e.health = .status a b c) ∨
        (healthDelay e.health e.healthRes e.markErr = some 200 ∧ ¬ QuietHealth e ∧ (∃ a b c, e.health = .status a b c) ∧ e.healthRes = .conflict) ∨
        (healthDelay e.health e.healthRes e.markErr = some 5000 ∧ ¬ QuietHealth e ∧ ¬ ((∃ a b c, e.health = .status a b c) ∧ e.healthRes = .conflict)) := by
      unfold QuietHealth healthDelay
      cases e.health with
      | error => exact .inr (.inr ⟨rfl, by simp, by simp⟩)
      | nothing => exact .inl ⟨rfl, .inl rfl, by simp⟩
      | recheck => exact .inl ⟨rfl, .inr (.inl rfl), by simp⟩
      | tryFail => cases e.markErr with
        | true => exact .inr (.inr ⟨rfl, by simp, by simp⟩)
        | false => exact .inl ⟨rfl, .inr (.inr ⟨rfl, rfl⟩), by simp⟩
      | status a b c =>
        by_cases hr : e.healthRes = .conflict
        · exact .inr (.inl ⟨by simp [hr, conflictRetry], by simp, ⟨a, b, c, rfl⟩, hr⟩)
        · exact .inr (.inr ⟨by simp [hr, shortRetry], by simp, fun h => hr h.2⟩)
    have hN : (nameDelay e.name e.nameRes = none ∧ QuietName e ∧ ¬ ((∃ n, e.name = .found (some n)) ∧ e.nameRes = .conflict)) ∨
        (nameDelay e.name e.nameRes = some 200 ∧ ¬ QuietName e ∧ (∃ n, e.name = .found (some n)) ∧ e.nameRes = .conflict) ∨
        (nameDelay e.name e.nameRes = some 5000 ∧ ¬ QuietName e ∧ ¬ ((∃ n, e.name = .found (some n)) ∧ e.nameRes = .conflict)) := by
      unfold QuietName nameDelay
      cases e.name with
      | fail => exact .inr (.inr ⟨rfl, by simp, by simp⟩)
      | notFound => exact .inl ⟨rfl, .inl rfl, by simp⟩
      | found o => cases o with
        | none => exact .inl ⟨rfl, .inr (.inl rfl), by simp⟩
        | some n => cases e.nameRes with
          | ok => exact .inl ⟨rfl, .inr (.inr ⟨⟨n, rfl⟩, rfl⟩), by simp⟩
          | conflict => exact .inr (.inl ⟨rfl, by simp, ⟨n, rfl⟩, rfl⟩)
          | fail => exact .inr (.inr ⟨rfl, by simp, by simp⟩)
    have hT : (templateDelay e.template e.templateRes = none ∧ QuietTemplate e ∧ ¬ ((∃ d, e.template = .found (.update d)) ∧ e.templateRes = .conflict)) ∨
        (templateDelay e.template e.templateRes = some 200 ∧ ¬ QuietTemplate e ∧ (∃ d, e.template = .found (.update d)) ∧ e.templateRes = .conflict) ∨
        (templateDelay e.template e.templateRes = some 5000 ∧ ¬ QuietTemplate e ∧ ¬ ((∃ d, e.template = .found (.update d)) ∧ e.templateRes = .conflict)) := by
      unfold QuietTemplate templateDelay
      cases e.template with
      | fail => exact .inr (.inr ⟨rfl, by simp, by simp⟩)
      | notFound => exact .inl ⟨rfl, .inl rfl, by simp⟩
      | found o => cases o with
        | error => exact .inr (.inr ⟨rfl, by simp, by simp⟩)
        | nothing => exact .inl ⟨rfl, .inr rfl, by simp⟩
        | update d =>
          by_cases hr : e.templateRes = .conflict
          · exact .inr (.inl ⟨by simp [hr, conflictRetry], by simp, ⟨d, rfl⟩, hr⟩)
          · exact .inr (.inr ⟨by simp [hr, shortRetry], by simp, fun h => hr h.2⟩)
    have hcf : Conflicts e ↔ ((∃ a b c, e.health = .status a b c) ∧ e.healthRes = .conflict) ∨ (QuietHealth e ∧ (∃ n, e.name = .found (some n)) ∧ e.nameRes = .conflict) ∨
        (QuietHealth e ∧ QuietName e ∧ (∃ d, e.template = .found (.update d)) ∧ e.templateRes = .conflict) := by
      constructor
      · rintro (⟨h, k⟩ | ⟨h, k, l⟩ | ⟨h, k, l, m⟩)
        · exact .inl ⟨h, k⟩
        · exact .inr (.inl ⟨h, k, l⟩)
        · exact .inr (.inr ⟨h, k, l, m⟩)
      · rintro (⟨h, k⟩ | ⟨h, k, l⟩ | ⟨h, k, l, m⟩)
        · exact .health h k
        · exact .name h k l
        · exact .template h k l m
    rw [hcf]
    rcases hH with ⟨h1, h2, h3⟩ | ⟨h1, h2, h3⟩ | ⟨h1, h2, h3⟩
    · rcases hN with ⟨n1, n2, n3⟩ | ⟨n1, n2, n3⟩ | ⟨n1, n2, n3⟩
      · rcases hT with ⟨t1, t2, t3⟩ | ⟨t1, t2, t3⟩ | ⟨t1, t2, t3⟩
        · rw [h1, n1, t1]; exact .inr (.inr ⟨rfl, by grind, h2, n2, t2⟩)
        · rw [h1, n1, t1]; exact .inl ⟨rfl, by grind, by grind⟩
        · rw [h1, n1, t1]; exact .inr (.inl ⟨rfl, by grind, by grind⟩)
      · rw [h1, n1]; exact .inl ⟨rfl, by grind, by grind⟩
      · rw [h1, n1]; exact .inr (.inl ⟨rfl, by grind, by grind⟩)
    · rw [h1]; exact .inl ⟨rfl, by grind, by grind⟩
    · rw [h1]; exact .inr (.inl ⟨rfl, by grind, by grind⟩)
  rcases key with ⟨h1, h2, h3⟩ | ⟨h1, h2, h3⟩ | ⟨h1, h2, h3⟩
  · rw [h1]; exact ⟨iff_of_true rfl h2, iff_of_false (by simp) h3, fun h => absurd h2 h, fun h => nomatch h⟩
  · rw [h1]; exact ⟨iff_of_false (by simp) h2, iff_of_false (by simp) h3, fun _ _ => rfl, fun h => nomatch h⟩
  · rw [h1]; exact ⟨iff_of_false (by simp [longRetry]) h2, iff_of_true rfl h3, fun _ h => absurd h3 h, fun _ => rfl⟩

/-- a running machine cannot be marked as failed because of an error -/
example : atHealth {} { finalizer := true, node := some "n", pid := "p", st := { phase := .running } } = true ∧
    (Creation.reconcile (Env.full { health := .tryFail, markErr := true }) { finalizer := true, node := some "n", pid := "p", st := { phase := .running } }).retry = 5000 := by decide +kernel

/-! ### Machines being deleted -/

/-- a run of the termination may wait longer than five seconds only for these reasons -/
inductive LongWait (c : ClassCheck) (e : Termination.Env) (v : Termination.Obj) : Prop
  /-- the class is missing -/
  | noClass : c = .missing → LongWait c e v
  /-- the machine does not carry the finalizer, or its removal was just requested -/
  | noFinalizer : v.finalizer = false → LongWait c e v
  | last : Termination.decode v.st.desc = some .fin → LongWait c e v
  /-- the provider cannot tell about the VM -/
  | status (text : String) : Termination.decode v.st.desc = some .getVM → Termination.nodeName e = .error text → ¬ Transient text → ¬ GoOn text → LongWait c e v
  /-- the provider refuses to delete the VM -/
  | refused (text : String) : Termination.decode v.st.desc = some .vm → e.delVM.err = some text → ¬ Transient text → ¬ Gone text → LongWait c e v

theorem getVMError_delay (text : String) :
    ((Termination.getVMError text).2.2 = 5000 ∧ (Transient text ∨ GoOn text)) ∨
    (((Termination.getVMError text).2.2 = 180000 ∨ (Termination.getVMError text).2.2 = 600000) ∧ ¬ Transient text ∧ ¬ GoOn text) := by
  unfold Termination.getVMError
  cases hf : fromError text with
  | none =>
    exact .inr ⟨.inr rfl, fun ⟨c, m, h, _⟩ => (by rw [hf] at h; cases h), fun ⟨c, m, h, _⟩ => (by rw [hf] at h; cases h)⟩
  | some q =>
    obtain ⟨c, m⟩ := q
    cases c
    case unknown => exact .inl ⟨rfl, .inl ⟨_, m, hf, .inl rfl⟩⟩
    case deadlineExceeded => exact .inl ⟨rfl, .inl ⟨_, m, hf, .inr (.inl rfl)⟩⟩
    case aborted => exact .inl ⟨rfl, .inl ⟨_, m, hf, .inr (.inr (.inl rfl))⟩⟩
    case unavailable => exact .inl ⟨rfl, .inl ⟨_, m, hf, .inr (.inr (.inr rfl))⟩⟩
    case notFound => exact .inl ⟨rfl, .inr ⟨_, m, hf, .inl rfl⟩⟩
    case unimplemented => exact .inl ⟨rfl, .inr ⟨_, m, hf, .inr (.inl rfl)⟩⟩
    case uninitialized => exact .inl ⟨rfl, .inr ⟨_, m, hf, .inr (.inr rfl)⟩⟩
    all_goals
      refine .inr ⟨.inl rfl, fun ⟨c, m', h, hc⟩ => ?_, fun ⟨c, m', h, hc⟩ => ?_⟩
      · rw [hf] at h
        cases h
        rcases hc with hc | hc | hc | hc <;> cases hc
      · rw [hf] at h
        cases h
        rcases hc with hc | hc | hc <;> cases hc

theorem deleteVMResult_delay (text : String) :
    ((Termination.deleteVMResult (some text)).2.2 = 5000 ∧ (Transient text ∨ Gone text)) ∨
    ((Termination.deleteVMResult (some text)).2.2 = 600000 ∧ ¬ Transient text ∧ ¬ Gone text) := by
  unfold Termination.deleteVMResult
  dsimp only
  cases hf : fromError text with
  | none =>
    exact .inr ⟨rfl, fun ⟨c, m, h, _⟩ => (by rw [hf] at h; cases h), fun ⟨m, h⟩ => (by rw [hf] at h; cases h)⟩
  | some q =>
    obtain ⟨c, m⟩ := q
    cases c
    case unknown => exact .inl ⟨rfl, .inl ⟨_, m, hf, .inl rfl⟩⟩
    case deadlineExceeded => exact .inl ⟨rfl, .inl ⟨_, m, hf, .inr (.inl rfl)⟩⟩
    case aborted => exact .inl ⟨rfl, .inl ⟨_, m, hf, .inr (.inr (.inl rfl))⟩⟩
    case unavailable => exact .inl ⟨rfl, .inl ⟨_, m, hf, .inr (.inr (.inr rfl))⟩⟩
    case notFound => exact .inl ⟨rfl, .inr ⟨m, hf⟩⟩
    all_goals
      refine .inr ⟨rfl, fun ⟨c, m', h, hc⟩ => ?_, fun ⟨m', h⟩ => ?_⟩
      · rw [hf] at h
        cases h
        rcases hc with hc | hc | hc | hc <;> cases hc
      · rw [hf] at h
        cases h

/-- the delays of the flow, before the answer to its write is known -/
theorem flow_delay (c : ClassCheck) (e : Termination.Env) (v : Termination.Obj) :
    (Termination.flow e v).retry ≤ 5000 ∨ ((Termination.flow e v).retry ≤ 600000 ∧ LongWait c e v) := by
  unfold Termination.flow
  split
  · rename_i h
    exact .inr ⟨Nat.le_refl _, .noFinalizer (by cases hv : v.finalizer <;> simp_all)⟩
  · split
    · exact .inl (Nat.le_refl _)
    · split
      · rename_i hd
        unfold Termination.getVMStep
        split
        · exact .inl (Nat.le_refl _)
        · split
          · exact .inl (Nat.le_refl _)
          · rename_i text hn
            rcases getVMError_delay text with ⟨h, _⟩ | ⟨h, h1, h2⟩
            · exact .inl (Nat.le_of_eq h)
            · exact .inr ⟨by show (Termination.getVMError text).2.2 ≤ _; rcases h with h | h <;> omega, .status text hd hn h1 h2⟩
      · unfold Termination.drainStep
        repeat' split
        all_goals first | exact .inl (Nat.le_refl _) | exact .inl (Nat.zero_le _)
      · unfold Termination.volStep
        repeat' split
        all_goals first | exact .inl (Nat.le_refl _) | exact .inl (Nat.zero_le _)
      · rename_i hd
        cases ha : e.delVM.err with
        | none =>
          refine .inl ?_
          show (Termination.deleteVMResult e.delVM.err).2.2 ≤ 5000
          rw [ha]
          exact Nat.le_refl _
        | some text =>
          rcases deleteVMResult_delay text with ⟨h, _⟩ | ⟨h, h1, h2⟩
          · refine .inl ?_
            show (Termination.deleteVMResult e.delVM.err).2.2 ≤ 5000
            rw [ha, h]
            exact Nat.le_refl _
          · refine .inr ⟨?_, .refused text hd ha h1 h2⟩
            show (Termination.deleteVMResult e.delVM.err).2.2 ≤ 600000
            rw [ha, h]
            exact Nat.le_refl _
      · unfold Termination.nodeStep
        split
        · exact .inl (Nat.le_refl _)
        · exact .inl (Nat.le_refl _)
      · rename_i hd
        exact .inr ⟨Nat.le_refl _, .last hd⟩
      · exact .inl (Nat.le_refl _)

theorem settle_delay (e : Termination.Env) (v : Termination.Obj) (o : Termination.Out) (res : ApiRes) :
    (settle e v o res).1 ≤ 5000 ∨ (settle e v o res).1 = o.retry := by
  unfold settle
  split
  · exact .inr rfl
  · rename_i s hw
    cases hq : statusUpdate e.now res v.st s with
    | mk st p =>
      cases p with
      | mk x y =>
        cases y
        · exact .inr rfl
        · refine .inl ?_
          show x ≤ 5000
          unfold statusUpdate at hq
          split at hq
          · cases hq
          · cases res <;> cases hq
            · exact (by decide : (200 : Nat) ≤ 5000)
            · exact Nat.le_refl _
  · split
    · exact .inl (by decide)
    · exact .inr rfl
  · split
    · exact .inr rfl
    · exact .inl (Nat.le_refl _)

theorem wait_le (f asked : Nat) (err : Bool) (bucket : Nat) : wait f asked err bucket ≤ asked := by
  unfold wait
  split
  · exact Nat.min_le_left _ _
  · exact Nat.le_refl _

/-- C119: A run for a machine being deleted, unless it crashes the process, is followed by the next within ten minutes, whatever calls fail and whatever the work
queue has counted; within five seconds if the termination can go on or the error is expected to go away: a longer time is left only when the class is missing,
the finalizer is missing or being removed, or the provider gives an answer that is not expected to change. -/
theorem C119_term_within (c : ClassCheck) (e : Termination.Env) (v : Termination.Obj) (label res : ApiRes) (r : Nat) (err : Bool) (f bucket : Nat)
    (h : term c e v label res = some (r, err)) : wait f r err bucket ≤ 600000 ∧ (5000 < wait f r err bucket → LongWait c e v) := by
  have hk : r ≤ 5000 ∨ (r ≤ 600000 ∧ LongWait c e v) := by
    unfold term at h
    cases hc : c.delay with
    | some x =>
      rw [hc] at h
      cases h
      cases c <;> cases hc
      · exact .inr ⟨Nat.le_refl _, .noClass rfl⟩
      · exact .inl (Nat.le_refl _)
      · exact .inl (Nat.le_refl _)
    | none =>
      rw [hc] at h
      dsimp only at h
      split at h
      · cases h
        exact .inl (Nat.le_refl _)
      · split at h
        · cases h
        · have hr : (settle e v (Termination.flow e v) res).1 = r := by injection h with h; rw [h]
          rcases settle_delay e v (Termination.flow e v) res with h1 | h1
          · exact .inl (hr ▸ h1)
          · rw [hr] at h1
            rw [h1]
            exact flow_delay c e v
  have hw := wait_le f r err bucket
  rcases hk with h1 | ⟨h1, h2⟩
  · exact ⟨by omega, fun _ => by omega⟩
  · exact ⟨by omega, fun _ => h2⟩

/-- a VM deleted: the next step after five seconds at most -/
example : term .ok {} { finalizer := true, st := { desc := "Initiate VM deletion", phase := .terminating } } .ok .ok = some (5000, true) := by decide +kernel

/-- C119: A status that was changed by another in the meantime is tried again after 200 ms. -/
theorem C119_conflict (e : Termination.Env) (v : Termination.Obj) (label : ApiRes) (checked : Bool) (s : MStatus)
    (hl : Termination.labelOf e v = none) (hp : (Termination.flow e v).panic = false) (hw : (Termination.flow e v).write = some (.status checked s))
    (hs : isSimilar e.now s v.st = false) : term .ok e v label .conflict = some (200, true) := by
  unfold term
  rw [show ClassCheck.delay .ok = none from rfl, hl]
  dsimp only
  rw [if_neg (by simp), hp, if_neg (by decide)]
  unfold settle
  rw [hw]
  cases checked
  · rfl
  · dsimp only
    unfold statusUpdate
    rw [hs, if_neg (by decide)]
    rfl

/-- a machine whose deletion begins -/
example : term .ok {} { finalizer := true } .ok .conflict = some (200, true) :=
  C119_conflict {} { finalizer := true } .ok false _ rfl rfl rfl (by decide +kernel)

theorem refused_term {c : ClassCheck} {e : Termination.Env} {v : Termination.Obj} {label res : ApiRes} {text : String} (h : Refused c e v res text) :
    term c e v label res = some (600000, true) := by
  have hl : Termination.labelOf e v = none := by
    unfold Termination.labelOf
    rw [h.at_.desc]
    simp
  have hf : Termination.flow e v = Termination.vmStep e v := by
    unfold Termination.flow
    rw [if_neg (by rw [h.at_.fin]; decide), if_neg (by simp [h.at_.phase]), h.at_.desc]
  have hd : (Termination.deleteVMResult e.delVM.err).2.2 = 600000 := by
    rw [h.ans]
    rcases deleteVMResult_delay text with ⟨_, h1⟩ | ⟨h1, _⟩
    · rcases h1 with h1 | h1
      · exact absurd h1 h.hard.1
      · exact absurd h1 h.hard.2
    · exact h1
  unfold term
  rw [h.cls, show ClassCheck.delay .ok = none from rfl, hl, hf]
  dsimp only
  rw [if_neg (by simp), if_neg (show ¬ (Termination.vmStep e v).panic = true from by show ¬ false = true; decide), h.wrote]
  unfold settle
  rw [show (Termination.vmStep e v).write = some (.status true { Termination.stepStatus e v (Termination.deleteVMResult e.delVM.err).1
    (Termination.deleteVMResult e.delVM.err).2.1 with lastKnownState := e.delVM.lks }) from rfl]
  dsimp only
  have hs : ∀ new, (statusUpdate e.now .ok v.st new).2.2 = false := by
    intro new
    unfold statusUpdate
    split <;> rfl
  generalize hn : ({ Termination.stepStatus e v (Termination.deleteVMResult e.delVM.err).1 (Termination.deleteVMResult e.delVM.err).2.1 with
    lastKnownState := e.delVM.lks } : MStatus) = new
  have h1 := hs new
  cases hq : statusUpdate e.now .ok v.st new with
  | mk st p =>
    cases p with
    | mk x y =>
      rw [hq] at h1
      have h1 : y = false := h1
      subst h1
      show some ((Termination.vmStep e v).retry, (Termination.vmStep e v).err) = _
      rw [show (Termination.vmStep e v).retry = (Termination.deleteVMResult e.delVM.err).2.2 from rfl, hd]
      rfl

/-- A run of a sequence: the state of the class, the outside world, the object seen, the answers to the writes, the provider's error, and the delay of the limiter
common to all keys. -/
structure Run where
  c : ClassCheck := .ok
  e : Termination.Env
  v : Termination.Obj
  label : ApiRes := .ok
  res : ApiRes := .ok
  text : String
  bucket : Nat := 0

/-- what the queue is told by a run -/
def Run.told (x : Run) : Nat × Bool × Nat :=
  match term x.c x.e x.v x.label x.res with
  | some (r, err) => (r, err, x.bucket)
  | none => (0, false, x.bucket)

theorem refused_told {x : Run} (h : Refused x.c x.e x.v x.res x.text) : x.told = (600000, true, x.bucket) := by
  unfold Run.told
  rw [refused_term h]

theorem backoff_small {f : Nat} (h : f < 15) : backoff f = 5 * 2 ^ f := by
  have : 2 ^ f ≤ 2 ^ 14 := Nat.pow_le_pow_right (by decide) (by omega)
  unfold backoff
  omega

theorem refused_elapsed : ∀ (l : List Run) (f : Nat), f ≤ 15 → (∀ x ∈ l, Refused x.c x.e x.v x.res x.text) →
    (f + l.length) / 16 * 763835 ≤ elapsed f (l.map Run.told) + 5 * (2 ^ f - 1) := by
  intro l
  induction l with
  | nil =>
    intro f hf _
    have : (f + 0) / 16 = 0 := by omega
    rw [List.length_nil, this, Nat.zero_mul]
    exact Nat.zero_le _
  | cons x l ih =>
    intro f hf h
    rw [List.map_cons, refused_told (h x List.mem_cons_self)]
    show _ ≤ wait f 600000 true x.bucket + elapsed (failuresAfter f true) (l.map Run.told) + 5 * (2 ^ f - 1)
    rw [List.length_cons]
    by_cases h15 : f < 15
    · have hw : 5 * 2 ^ f ≤ wait f 600000 true x.bucket := by
        have hb := backoff_small h15
        have h2 : 2 ^ f ≤ 2 ^ 14 := Nat.pow_le_pow_right (by decide) (by omega)
        unfold wait
        rw [if_pos ⟨rfl, h15⟩, hb]
        omega
      have hfa : failuresAfter f true = f + 1 := by unfold failuresAfter; rw [if_pos ⟨rfl, h15⟩]
      have := ih (f + 1) (by omega) (fun y hy => h y (List.mem_cons_of_mem _ hy))
      rw [hfa]
      have hp : 0 < 2 ^ f := Nat.pow_pos (by decide)
      rw [Nat.pow_succ] at this
      have e1 : f + (l.length + 1) = f + 1 + l.length := by omega
      rw [e1]
      omega
    · have hf15 : f = 15 := by omega
      subst hf15
      have hw : wait 15 600000 true x.bucket = 600000 := by
        unfold wait
        rw [if_neg (fun hh => absurd hh.2 (by decide))]
      have hfa : failuresAfter 15 true = 0 := by
        unfold failuresAfter
        rw [if_neg (fun hh => absurd hh.2 (by decide))]
      have := ih 0 (by omega) (fun y hy => h y (List.mem_cons_of_mem _ hy))
      rw [hw, hfa]
      have e1 : (15 + (l.length + 1)) / 16 = (0 + l.length) / 16 + 1 := by omega
      have e2 : (2 : Nat) ^ 15 = 32768 := by decide
      rw [e1, e2, Nat.add_mul]
      rw [Nat.pow_zero, Nat.sub_self, Nat.mul_zero, Nat.add_zero] at this
      have key : ∀ a b : Nat, b ≤ a → b + 1 * 763835 ≤ 600000 + a + 5 * (32768 - 1) := fun a b h => by omega
      exact key _ _ this

/-- C119: If the provider refuses again and again to delete a VM, for a reason that is not expected to go away, then of every sixteen attempts one is followed by a
pause of ten minutes: n attempts take at least n/16 times 763.8 s, beginning with no failures counted. -/
theorem C119_refused_partial (l : List Run) (h : ∀ x ∈ l, Refused x.c x.e x.v x.res x.text) : l.length / 16 * 763835 ≤ elapsed 0 (l.map Run.told) := by
  have := refused_elapsed l 0 (by decide) h
  rw [Nat.zero_add, Nat.pow_zero] at this
  exact this

theorem denied_decodes : fromError (render .permissionDenied "denied") = some (.permissionDenied, "denied") :=
  (C32_round_trip_iff .permissionDenied trivial _).2 ⟨fun p hp => by
    rw [List.count_eq_zero.2 (fun h => absurd (hp.subset h) (by decide))]; exact Nat.zero_le _, by decide⟩

/-- C119: If the class cannot be used, or the label of the node cannot be written, the run of a machine being deleted ends with an error: the work queue repeats it after 5 ms, 10 ms, ... -/
theorem C119_term_refused (c : ClassCheck) (e : Termination.Env) (v : Termination.Obj) (label res : ApiRes) (h : c ≠ .ok ∨ ((Termination.labelOf e v).isSome ∧ label ≠ .ok)) :
    ∃ r, term c e v label res = some (r, true) := by
  unfold term
  cases c with
  | ok =>
    rcases h with h | h
    · exact absurd rfl h
    · exact ⟨shortRetry, by rw [show ClassCheck.delay .ok = none from rfl]; dsimp only; rw [if_pos h]⟩
  | missing => exact ⟨_, rfl⟩
  | noFinalizer => exact ⟨_, rfl⟩
  | badTemplate => exact ⟨_, rfl⟩

/-- a machine whose VM is to be deleted -/
def demoObj : Termination.Obj := { finalizer := true, st := { desc := "Initiate VM deletion", phase := .terminating } }

theorem demo_refused : Refused .ok { delVM := { err := some (render .permissionDenied "denied") } } demoObj .ok (render .permissionDenied "denied") := by
  refine ⟨rfl, ⟨rfl, rfl, by decide +kernel⟩, rfl, ⟨fun ⟨c, m, h, hc⟩ => ?_, fun ⟨m, h⟩ => ?_⟩, rfl⟩
  · rw [denied_decodes] at h
    cases h
    rcases hc with hc | hc | hc | hc <;> cases hc
  · rw [denied_decodes] at h
    cases h

/-- sixteen refusals in a row: the bound is attained -/
example : elapsed 0 ((List.replicate 16 (600000, true, 0))) = 763835 := by decide +kernel

/-- C119: While volumes are still attached, the machine controller looks every five seconds, however long that takes: such a run is not counted as a failure. -/
theorem C119_volumes (e : Termination.Env) (v : Termination.Obj) (label res : ApiRes) (hf : v.finalizer = true) (hp : v.st.phase = .terminating)
    (hd : Termination.decode v.st.desc = some .vols) (hn : e.nodeGet = .found true) (hv : e.liveVols = some true) :
    term .ok e v label res = some (5000, false) ∧ ∀ f bucket, wait f 5000 false bucket = 5000 ∧ failuresAfter f false = 0 := by
  refine ⟨?_, fun f bucket => ⟨by unfold wait; simp, by unfold failuresAfter; simp⟩⟩
  have hl : (Termination.labelOf e v).isSome = false := by unfold Termination.labelOf; simp [hd]
  have hflow : Termination.flow e v = { retry := shortRetry, err := false } := by
    unfold Termination.flow
    rw [hd, hf, hp]
    simp only [Bool.not_true, Bool.false_eq_true, if_false, ne_eq, not_true_eq_false]
    unfold Termination.volStep
    rw [hn, hv]
  unfold term
  rw [show ClassCheck.delay .ok = none from rfl]
  dsimp only
  rw [hl, hflow]
  rfl

/-- C119: The run that removes the finalizer, with which the machine is gone, is a success; the failures counted are forgotten. If the removal does not arrive, it is
repeated at once. -/
theorem C119_last (e : Termination.Env) (v : Termination.Obj) (label res : ApiRes) (hf : v.finalizer = true) (hp : v.st.phase = .terminating)
    (hd : Termination.decode v.st.desc = some .fin) :
    term .ok e v label res = some (if res = .ok then (600000, false) else (5000, true)) ∧ (res ≠ .ok → wait 0 5000 true 0 = 5) ∧ ∀ f, failuresAfter f false = 0 := by
  refine ⟨?_, fun _ => by decide, fun f => by unfold failuresAfter; simp⟩
  have hl : (Termination.labelOf e v).isSome = false := by unfold Termination.labelOf; simp [hd]
  have hflow : Termination.flow e v = Termination.finStep := by
    unfold Termination.flow
    rw [hd, hf, hp]
    simp only [Bool.not_true, Bool.false_eq_true, if_false, ne_eq, not_true_eq_false]
  unfold term
  rw [show ClassCheck.delay .ok = none from rfl]
  dsimp only
  rw [hl, hflow]
  cases res <;> rfl

example : term .ok { nodeGet := .found true, liveVols := some true } { demoObj with st := { desc := "Delete Volume Attachments", phase := .terminating } } .ok .ok = some (5000, false) := by
  decide +kernel
example : term .ok {} { demoObj with st := { desc := "Initiate machine object finalizer removal", phase := .terminating } } .ok .conflict = some (5000, true) := by decide +kernel

/-- C119, what is false: the wait after a refusal is not ten minutes (`LongRetry`), as the flow asks for. The run ends with an error, and the work queue repeats it
five milliseconds later. -/
theorem C119_refused_false : ∃ x : Run, Refused x.c x.e x.v x.res x.text ∧ x.told.1 = 600000 ∧ elapsed 0 [x.told] = 5 :=
  ⟨{ e := { delVM := { err := some (render .permissionDenied "denied") } }, v := demoObj, text := render .permissionDenied "denied" }, demo_refused,
    by rw [refused_told demo_refused], by rw [refused_told demo_refused]; decide⟩

end MCM.Pace
