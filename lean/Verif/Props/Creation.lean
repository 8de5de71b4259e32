import Verif.Model.Creation
import Verif.Props.Codes
/-!
C25: finalizer before VM. C26: never two VMs. C59: the creation completes. C60: a recorded provider id stays.
C61: a VM does not outlive its machine object.
-/
namespace MCM.Creation
open MCM MCM.Similar MCM.Codes

/-! ### Specification -/

/-- a request to create a VM for `req` was sent -/
def Requested (out : Out) (req : Obj) : Prop := ∃ ans, Event.create req ans ∈ out.events

/-- the provider says there is no VM, or that it cannot tell -/
def SaysNone (ans : StatusAns) : Prop :=
  ∃ text resp c m, ans = .err text resp ∧ fromError text = some (c, m) ∧ (c = .notFound ∨ c = .unimplemented)

/-- A truthful provider: it reports only VMs that exist; its errors are well-formed status errors; it implements the call and
says NotFound only if there is no VM. -/
def Truthful (vms : List VM) : StatusAns → Prop
  | .ok node pid => ⟨node, pid⟩ ∈ vms
  | .err text _ => ∃ c m, Named c ∧ text = render c m ∧ c ≠ .unimplemented ∧ (c = .notFound → vms = [])

/-! ### Lemmas -/

theorem withStatus_events (e : Env) (v : Obj) (new : MStatus) (r : Nat) (b : Bool) (ev : List Event) (o : Option Obj) :
    (withStatus e v new r b ev o).events = ev := by
  unfold withStatus
  split <;> rfl

theorem createError_events (e : Env) (v : Obj) (t l : String) (ev : List Event) : (createError e v t l ev).events = ev := by
  unfold createError
  exact withStatus_events ..

theorem initVM_events (e : Env) (c : Obj) (ev : List Event) (o : Option Obj) : (initVM e c ev o).events = ev ++ [.init c e.init] := by
  unfold initVM
  dsimp only
  split
  · rfl
  · split
    · rfl
    · split
      · rfl
      · exact withStatus_events ..

/-- `record` asks for no VM -/
theorem record_events (e : Env) (v : Obj) (n p : String) (u : Bool) (ev : List Event) :
    (record e v n p u ev).events = ev ∨ ∃ c, (record e v n p u ev).events = ev ++ [.init c e.init] := by
  unfold record
  dsimp only
  split
  · exact .inr ⟨_, initVM_events ..⟩
  · left
    split
    · rfl
    · split <;> rfl

theorem createStep_requests {e : Env} {v req : Obj} (h : Requested (createStep e v) req) : req = v := by
  obtain ⟨ans, h⟩ := h
  unfold createStep at h
  dsimp only at h
  split at h
  · rw [createError_events] at h
    simp only [List.mem_cons, reduceCtorEq, Event.create.injEq, List.not_mem_nil, or_false, false_or] at h
    exact h.1
  · split at h
    · rw [withStatus_events] at h
      simp only [List.cons_append, List.nil_append, List.mem_cons, reduceCtorEq, Event.create.injEq, List.not_mem_nil, or_false,
        false_or] at h
      exact h.1
    · rcases record_events e v _ _ true [.getStatus e.status, .create v e.create] with h' | ⟨c, h'⟩
      · rw [h'] at h
        simp only [List.mem_cons, reduceCtorEq, Event.create.injEq, List.not_mem_nil, or_false, false_or] at h
        exact h.1
      · rw [h'] at h
        simp only [List.cons_append, List.nil_append, List.mem_cons, reduceCtorEq, Event.create.injEq, List.not_mem_nil, or_false,
          false_or] at h
        exact h.1

theorem creation_requests {e : Env} {v req : Obj} (h : Requested (creation e v) req) :
    req = v ∧ v.node = none ∧ SaysNone e.status := by
  have nope : ∀ out : Out, out.events = [.getStatus e.status] → ¬ Requested out req := by
    rintro out ho ⟨ans, hm⟩
    rw [ho] at hm
    simp at hm
  have nope' : ∀ (n p : String) (u : Bool), ¬ Requested (record e v n p u [.getStatus e.status]) req := by
    rintro n p u ⟨ans, hm⟩
    rcases record_events e v n p u [.getStatus e.status] with h' | ⟨c, h'⟩ <;> rw [h'] at hm <;> simp at hm
  unfold creation at h
  split at h
  · obtain ⟨ans, hm⟩ := h; cases hm
  · dsimp only at h
    split at h
    · exact absurd h (nope' _ _ _)
    · rename_i text resp hs
      split at h
      · exact absurd h (nope _ rfl)
      · rename_i c m hf
        split at h
        · split at h
          · exact ⟨createStep_requests h, ‹_›, _, _, _, _, hs, hf, .inl rfl⟩
          · exact absurd h (nope' _ _ _)
        · split at h
          · exact ⟨createStep_requests h, ‹_›, _, _, _, _, hs, hf, .inr rfl⟩
          · exact absurd h (nope' _ _ _)
        · split at h
          · exact absurd h (nope _ rfl)
          · exact absurd h (nope' _ _ _)
        · exact absurd h (nope _ (createError_events ..))

/-! ### C25 -/

/-- C25: A request to create a VM is sent only for a stored version of the object that carries the finalizer and is not being
deleted, whose class is found and carries its own finalizer, and if the controller was not frozen when the reconcile began. -/
theorem C25_finalizer_before_vm (e : Env) (v req : Obj) (h : Requested (reconcile e v) req) :
    req = v ∧ v.finalizer = true ∧ v.deleting = false ∧ e.classFound = true ∧ e.classFinalizer = true ∧ e.valid = true ∧
      e.frozen = false := by
  have none' : ∀ out : Out, out.events = [] → ¬ Requested out req := by
    rintro out ho ⟨ans, hm⟩; rw [ho] at hm; cases hm
  unfold reconcile at h
  split at h
  · exact absurd h (none' _ rfl)
  · rename_i hd
    split at h
    · exact absurd h (none' _ rfl)
    · rename_i h1
      split at h
      · exact absurd h (none' _ rfl)
      · rename_i h2
        split at h
        · exact absurd h (none' _ rfl)
        · rename_i h3
          split at h
          · exact absurd h (none' _ rfl)
          · split at h
            · simp only [Bool.or_eq_true, Bool.not_eq_true', not_or, Bool.not_eq_false, Bool.not_eq_true] at hd h1 h2 h3
              exact ⟨(creation_requests h).1, h3, hd, h1.2, h2.1, h1.1.2, h1.1.1⟩
            · exact absurd h (none' _ rfl)

theorem requests_iff (e : Env) (v : Obj) : creates e v = true ↔ ∃ req, Requested (reconcile e v) req := by
  unfold creates Requested
  rw [List.any_eq_true]
  constructor
  · rintro ⟨x, hx, h⟩
    cases x with
    | create req ans => exact ⟨req, ans, hx⟩
    | _ => cases h
  · rintro ⟨req, ans, hx⟩
    exact ⟨_, hx, rfl⟩

theorem reconcile_requests {e : Env} {v req : Obj} (h : Requested (reconcile e v) req) : v.node = none ∧ SaysNone e.status := by
  have none' : ∀ out : Out, out.events = [] → ¬ Requested out req := by
    rintro out ho ⟨ans, hm⟩; rw [ho] at hm; cases hm
  unfold reconcile at h
  iterate 5
    split at h
    · exact absurd h (none' _ rfl)
  split at h
  · exact (creation_requests h).2
  · exact absurd h (none' _ rfl)

theorem notFound_decodes : fromError (render .notFound "gone") = some (.notFound, "gone") :=
  (C32_round_trip_iff .notFound trivial _).2 ⟨fun p hp => by
    rw [List.count_eq_zero.2 (fun h => absurd (hp.subset h) (by decide))]; exact Nat.zero_le _, by decide⟩

/-- an ordinary first creation -/
def demoEnv : Env := { status := .err (render .notFound "gone") none, create := .ok "node-1" "prov:///vm-1" }
/-! ### C26 -/

/-- C26: A VM is requested only if the provider says there is none (or cannot tell) and the object has no node label. -/
theorem C26_creates_only_if_none (e : Env) (v : Obj) (h : creates e v = true) : v.node = none ∧ SaysNone e.status :=
  let ⟨_, hr⟩ := (requests_iff e v).1 h
  reconcile_requests hr

/-- C26: With a truthful provider at most one VM exists for the machine at any time, in every interleaving of reconciles of any
stored versions, failing or crashing creations, vanishing VMs and writes by anyone. -/
theorem C26_at_most_one (w0 w : World) (h0 : w0.vms.length ≤ 1) (hb : w0.busy = none) (h : Reach Truthful w0 w) : w.vms.length ≤ 1 := by
  suffices hi : w.vms.length ≤ 1 ∧ (w.busy ≠ none → w.vms = []) from hi.1
  induction h with
  | refl => exact ⟨h0, fun h => absurd hb h⟩
  | step _ hs ih =>
    obtain ⟨i1, i2⟩ := ih
    cases hs with
    | query => exact ⟨i1, i2⟩
    | missing e v hbusy hv hans hc =>
      refine ⟨i1, fun _ => ?_⟩
      obtain ⟨_, text, resp, c, m, hst, hf, hcode⟩ := C26_creates_only_if_none e v hc
      rw [hst] at hans
      obtain ⟨c', m', hn, ht, hu, hnf⟩ := hans
      rw [ht] at hf
      have := C32_code_never_wrong c' hn m' c m hf
      subst this
      rcases hcode with h | h
      · exact hnf h
      · exact absurd h hu
    | created e v vm hbusy =>
      have : _ = [] := i2 (by rw [hbusy]; simp)
      exact ⟨by show (_ :: _ : List VM).length ≤ 1; rw [this]; simp, fun h => absurd rfl h⟩
    | failed e v vm hbusy =>
      have : _ = [] := i2 (by rw [hbusy]; simp)
      refine ⟨?_, fun h => absurd rfl h⟩
      show (vm.toList ++ _ : List VM).length ≤ 1
      rw [this]
      cases vm <;> simp
    | vanish vms hsub =>
      refine ⟨Nat.le_trans hsub.length_le i1, fun h => ?_⟩
      have h2 := i2 h
      rw [h2] at hsub
      exact List.sublist_nil.1 hsub
    | other o => exact ⟨i1, i2⟩

/-- a truthful answer leading to a creation -/
example : Truthful [] demoEnv.status := ⟨.notFound, "gone", trivial, rfl, by decide, fun _ => rfl⟩

/-- the conditions under which a reconcile reaches the creation flow -/
structure Ready (e : Env) (v : Obj) : Prop where
  alive : v.deleting = false
  fin : v.finalizer = true
  running : e.frozen = false
  valid : e.valid = true
  cls : e.classFound = true
  clsFin : e.classFinalizer = true
  tmpl : e.templateOk = true
  health : e.health = none
  user : e.userData = true
  need : v.pid = "" ∨ v.st.phase = .empty ∨ v.st.phase = .crashLoopBackOff

theorem reconcile_ready {e : Env} {v : Obj} (h : Ready e v) : reconcile e v = creation e v := by
  unfold reconcile
  rw [if_neg (by simp [h.alive]), if_neg (by simp [h.running, h.valid, h.cls]), if_neg (by simp [h.clsFin, h.tmpl]),
    if_neg (by simp [h.fin]), if_neg (by simp [h.health]), if_pos h.need]

/-- C26: An existing VM is adopted: none is created, and if the object lacks its node label or provider id, the update that
records them is made. -/
theorem C26_adopts (e : Env) (v : Obj) (node pid : String) (h : Ready e v) (hs : e.status = .ok node pid) :
    creates e v = false ∧ (v.node = none ∨ v.pid = "" → e.labelRes = .ok →
      ∃ o, (reconcile e v).wrote = some o ∧ o.node = some node ∧ o.pid = pid) := by
  constructor
  · cases hc : creates e v with
    | false => rfl
    | true =>
      obtain ⟨_, _, _, _, _, h2, _⟩ := C26_creates_only_if_none e v hc
      rw [hs] at h2; cases h2
  · intro hn hl
    rw [reconcile_ready h]
    unfold creation
    rw [if_neg (by simp [h.user])]
    dsimp only
    rw [hs]
    dsimp only
    have hneed : needsLabels v = true := by
      unfold needsLabels
      rcases hn with hn | hn <;> rw [hn] <;> simp
    unfold record
    dsimp only
    rw [if_neg (by simp), if_pos hneed, hneed, hl]
    exact ⟨_, rfl, rfl, rfl⟩

example : Ready { status := .ok "node-1" "prov:///vm-1" } { finalizer := true } :=
  ⟨rfl, rfl, rfl, rfl, rfl, rfl, rfl, rfl, rfl, .inl rfl⟩

theorem unimplemented_decodes : fromError (render .unimplemented "-") = some (.unimplemented, "-") :=
  (C32_round_trip_iff .unimplemented trivial _).2 ⟨fun p hp => by
    rw [List.count_eq_zero.2 (fun h => absurd (hp.subset h) (by decide))]; exact Nat.zero_le _, by decide⟩

theorem creates_of_none {e : Env} {v : Obj} (h : Ready e v) (hn : v.node = none) {text : String} {resp : Option (String × String)}
    {m : String} (hs : e.status = .err text resp)
    (hf : fromError text = some (.notFound, m) ∨ fromError text = some (.unimplemented, m)) : creates e v = true := by
  have : reconcile e v = createStep e v := by
    rw [reconcile_ready h]
    unfold creation
    rw [if_neg (by simp [h.user])]
    dsimp only
    rw [hs]
    dsimp only
    rcases hf with hf | hf <;> rw [hf] <;> dsimp only <;> rw [hn]
  rw [requests_iff, this]
  refine ⟨v, e.create, ?_⟩
  unfold createStep
  dsimp only
  split
  · rw [createError_events]; simp
  · split
    · rw [withStatus_events]; simp
    · rcases record_events e v _ _ true [.getStatus e.status, .create v e.create] with h' | ⟨c, h'⟩ <;>
        rw [h'] <;> simp

/-- the hypothesis of `C25_finalizer_before_vm` and of `C26_creates_only_if_none` is met -/
theorem demo_creates : creates demoEnv { finalizer := true } = true :=
  creates_of_none ⟨rfl, rfl, rfl, rfl, rfl, rfl, rfl, rfl, rfl, .inl rfl⟩ rfl rfl (.inl notFound_decodes)

/-- C26 fails for providers that do not implement `GetMachineStatus`: if the update recording the first VM fails, a second VM is
created. -/
theorem C26_unimplemented_false :
    ∃ w, Reach (fun _ ans => ans = .err (render .unimplemented "-") none) { hist := [{ finalizer := true }] } w ∧
      w.vms.length = 2 := by
  let e : Env := { status := .err (render .unimplemented "-") none, create := .ok "node-1" "prov:///vm-1", labelRes := .fail }
  let v : Obj := { finalizer := true }
  have hc : creates e v = true :=
    creates_of_none ⟨rfl, rfl, rfl, rfl, rfl, rfl, rfl, rfl, rfl, .inl rfl⟩ rfl rfl (.inr unimplemented_decodes)
  have s1 : Reach (fun _ ans => ans = .err (render .unimplemented "-") none) { hist := [v] } _ :=
    .step .refl (.missing e v rfl (by simp) rfl hc)
  have s2 := s1.step (.created e v ⟨"node-1", "prov:///vm-1"⟩ rfl)
  have s3 := s2.step (.missing e v rfl (by simp) rfl hc)
  have s4 := s3.step (.created e v ⟨"node-2", "prov:///vm-2"⟩ rfl)
  exact ⟨_, s4, rfl⟩

/-- C26 fails for error texts that are not status errors: a proxy's message with a bracketed "NotFound" is taken for "no VM", and
a second VM is created beside the existing one. -/
theorem C26_foreign_text_false : creates { status := .err "proxy [NotFound] while calling [vm api]" none } { finalizer := true } = true :=
  creates_of_none ⟨rfl, rfl, rfl, rfl, rfl, rfl, rfl, rfl, rfl, .inl rfl⟩ rfl rfl (.inl C32_foreign_text_false)

/-! ### C60 -/

theorem withStatus_wrote {e : Env} {v : Obj} {new : MStatus} {r : Nat} {b : Bool} {ev : List Event} {before : Option Obj} {o : Obj}
    (h : (withStatus e v new r b ev before).wrote = some o) : (∃ s, o = { v with st := s }) ∨ before = some o := by
  unfold withStatus at h
  split at h <;>
  · rename_i st _ _
    dsimp only at h
    cases st with
    | none => exact .inr h
    | some s => simp at h; exact .inl ⟨s, h.symm⟩

theorem initVM_wrote {e : Env} {c : Obj} {ev : List Event} {before : Option Obj} {o : Obj}
    (h : (initVM e c ev before).wrote = some o) : (∃ s, o = { c with st := s }) ∨ before = some o := by
  unfold initVM at h
  dsimp only at h
  split at h
  · exact .inr h
  · split at h
    · exact .inr h
    · split at h
      · exact .inr h
      · exact withStatus_wrote h

theorem record_wrote {e : Env} {v : Obj} {n p : String} {u : Bool} {ev : List Event} {o : Obj}
    (h : (record e v n p u ev).wrote = some o) (hn : needsLabels v = false) : ∃ s, o = { v with st := s } := by
  unfold record at h
  dsimp only at h
  rw [hn] at h
  split at h
  · rcases initVM_wrote h with h | h
    · exact h
    · cases h
  · rw [if_neg (by simp)] at h
    split at h
    · split at h
      · cases h; exact ⟨_, rfl⟩
      · cases h
    · cases h

/-- C60: A reconcile of an object that carries node label, priority annotation and provider id leaves all three as they are,
whatever the provider answers. -/
theorem C60_provider_id_kept_partial (e : Env) (v o : Obj) (hn : v.node ≠ none) (hp : v.prio ≠ none) (hi : v.pid ≠ "")
    (h : (reconcile e v).wrote = some o) : o.pid = v.pid ∧ o.node = v.node ∧ o.prio = v.prio := by
  have hneed : needsLabels v = false := by
    unfold needsLabels
    simp [hi]
    exact ⟨by cases hv : v.node <;> simp_all, by cases hv : v.prio <;> simp_all⟩
  have fin : (∃ s, o = { v with st := s }) → o.pid = v.pid ∧ o.node = v.node ∧ o.prio = v.prio := by
    rintro ⟨s, rfl⟩; exact ⟨rfl, rfl, rfl⟩
  unfold reconcile at h
  split at h
  · cases h
  · split at h
    · cases h
    · split at h
      · cases h
      · split at h
        · dsimp only at h
          split at h
          · cases h; exact ⟨rfl, rfl, rfl⟩
          · cases h
        · split at h
          · cases h
          · split at h
            · unfold creation at h
              split at h
              · cases h
              · dsimp only at h
                split at h
                · exact fin (record_wrote h hneed)
                · split at h
                  · cases h
                  · split at h
                    · split at h
                      · rename_i hv; exact absurd hv hn
                      · exact fin (record_wrote h hneed)
                    · split at h
                      · rename_i hv; exact absurd hv hn
                      · exact fin (record_wrote h hneed)
                    · split at h
                      · cases h
                      · exact fin (record_wrote h hneed)
                    · unfold createError at h
                      rcases withStatus_wrote h with h | h
                      · exact fin h
                      · cases h
            · cases h

/-- C60 fails: the provider id of a machine whose priority annotation was removed is erased when the provider does not find its VM. -/
theorem C60_provider_id_erased_false :
    let v : Obj := { finalizer := true, node := some "node-1", pid := "prov:///vm-1" }
    ∃ o, (reconcile { status := .err (render .notFound "gone") none } v).wrote = some o ∧ o.pid = "" := by
  intro v
  refine ⟨labelled v "node-1" "", ?_, rfl⟩
  rw [reconcile_ready ⟨rfl, rfl, rfl, rfl, rfl, rfl, rfl, rfl, rfl, .inr (.inl rfl)⟩]
  unfold creation
  rw [if_neg (by decide)]
  dsimp only
  rw [notFound_decodes]
  rfl

/-! ### C59 -/

/-- nothing stands in the way of a creation -/
structure Coop (e : Env) (vm : VM) (v : Obj) : Prop where
  running : e.frozen = false
  valid : e.valid = true
  cls : e.classFound = true
  clsFin : e.classFinalizer = true
  tmpl : e.templateOk = true
  health : e.health = none
  user : e.userData = true
  label : e.labelRes = .ok
  status : e.statusRes = .ok
  fin : e.finRes = .ok
  init : e.init = none
  fresh : vm.node ∉ e.nodes ∨ vm.node = v.name
  pid : vm.pid ≠ ""

/-- the machine has its VM, knows it and waits for the node -/
def Created (s : List VM × Obj) : Prop :=
  ∃ vm, s.1 = [vm] ∧ s.2.node = some vm.node ∧ s.2.pid = vm.pid ∧ s.2.pid ≠ "" ∧ s.2.prio ≠ none ∧ s.2.finalizer = true ∧
    s.2.st.phase = .pending ∧ s.2.st.timeoutActive = true

/-- how far a creation has come: 3 no finalizer, 2 nothing recorded, 1 recorded but not yet pending, 0 pending -/
inductive Stage (vms : List VM) (v : Obj) : Nat → Prop
  | bare : v.finalizer = false → v.node = none → v.pid = "" → vms.length ≤ 1 → (∀ x ∈ vms, x.pid ≠ "") →
      (v.st.phase = .empty ∨ v.st.phase = .crashLoopBackOff) → Stage vms v 3
  | unrecorded : v.finalizer = true → v.node = none → v.pid = "" → vms.length ≤ 1 → (∀ x ∈ vms, x.pid ≠ "") →
      (v.st.phase = .empty ∨ v.st.phase = .crashLoopBackOff) → Stage vms v 2
  | recorded (vm : VM) : v.finalizer = true → v.node = some vm.node → v.pid = vm.pid → vm.pid ≠ "" → v.prio ≠ none → vms = [vm] →
      (v.st.phase = .empty ∨ v.st.phase = .crashLoopBackOff) → Stage vms v 1
  | pending (vm : VM) : v.finalizer = true → v.node = some vm.node → v.pid = vm.pid → vm.pid ≠ "" → v.prio ≠ none → vms = [vm] →
      v.st.phase = .pending → v.st.timeoutActive = true → Stage vms v 0

theorem prio_set (v : Obj) (n p : String) : (labelled v n p).prio ≠ none := by
  unfold labelled
  dsimp only
  split
  · simp
  · rename_i h
    intro hn
    rw [hn] at h
    exact h rfl

theorem noVM_decodes : fromError (render .notFound "no such VM") = some (.notFound, "no such VM") :=
  (C32_round_trip_iff .notFound trivial _).2 ⟨fun p hp => by
    rw [List.count_eq_zero.2 (fun h => absurd (hp.subset h) (by decide))]; exact Nat.zero_le _, by decide⟩

/-- the environment of `run` -/
def answered (e : Env) (vm : VM) (vms : List VM) : Env :=
  { e with
    status := match vms with
      | x :: _ => .ok x.node x.pid
      | [] => .err (render .notFound "no such VM") none
    create := .ok vm.node vm.pid }

theorem run_eq (e : Env) (vm : VM) (s : List VM × Obj) : run e vm s =
    (if creates (answered e vm s.1) s.2 then vm :: s.1 else s.1, (reconcile (answered e vm s.1) s.2).wrote.getD s.2) := rfl

theorem ready_of {e : Env} {vm : VM} {vms : List VM} {v : Obj} (hc : Coop e vm v) (hd : v.deleting = false)
    (hf : v.finalizer = true) (hn : v.pid = "" ∨ v.st.phase = .empty ∨ v.st.phase = .crashLoopBackOff) : Ready (answered e vm vms) v :=
  ⟨hd, hf, hc.running, hc.valid, hc.cls, hc.clsFin, hc.tmpl, hc.health, hc.user, hn⟩

theorem needs_none {v : Obj} (h : v.node = none) : needsLabels v = true := by unfold needsLabels; rw [h]; rfl

theorem run_stage {e : Env} {vm : VM} {vms : List VM} {v : Obj} (hc : Coop e vm v) (hd : v.deleting = false) {k : Nat}
    (h : Stage vms v k) : Stage (run e vm (vms, v)).1 (run e vm (vms, v)).2 (k - 1) ∧ (run e vm (vms, v)).2.deleting = false ∧
      (run e vm (vms, v)).2.name = v.name := by
  rw [run_eq]
  cases h with
  | bare h1 h2 h3 h4 h5 h6 =>
    have hr : reconcile (answered e vm vms) v = { wrote := some { v with finalizer := true }, retry := shortRetry } := by
      unfold reconcile
      rw [if_neg (by simp [hd]), if_neg (by simp [answered, hc.running, hc.valid, hc.cls]),
        if_neg (by simp [answered, hc.clsFin, hc.tmpl]), if_pos (by simp [h1]),
        if_pos (show (answered e vm vms).finRes = .ok from hc.fin)]
    have hcr : creates (answered e vm vms) v = false := by unfold creates; rw [hr]; rfl
    dsimp only
    rw [hr, hcr]
    exact ⟨.unrecorded rfl h2 h3 h4 h5 h6, hd, rfl⟩
  | unrecorded h1 h2 h3 h4 h5 h6 =>
    have hrd := ready_of (vms := vms) hc hd h1 (.inr h6)
    dsimp only
    match vms, h4, h5 with
    | [], _, _ =>
      have hcr : creates (answered e vm []) v = true := creates_of_none hrd h2 rfl (.inl noVM_decodes)
      have hr : (reconcile (answered e vm []) v).wrote = some (labelled v vm.node vm.pid) := by
        rw [reconcile_ready hrd]
        unfold creation
        rw [if_neg (by simp [hrd.user])]
        dsimp only
        rw [show (answered e vm []).status = .err (render .notFound "no such VM") none from rfl]
        dsimp only
        rw [noVM_decodes]
        dsimp only
        rw [h2]
        dsimp only
        unfold createStep
        rw [show (answered e vm []).create = .ok vm.node vm.pid from rfl]
        dsimp only
        rw [if_neg (by rintro ⟨k1, k2⟩; rcases hc.fresh with h | h; exact h k1; exact k2 h)]
        unfold record
        dsimp only
        rw [needs_none h2, if_pos rfl, show (answered e vm []).labelRes = .ok from hc.label]
        unfold initVM
        dsimp only
        rw [show (answered e vm []).init = none from hc.init]
        rfl
      rw [hcr, hr]
      exact ⟨.recorded vm h1 rfl rfl hc.pid (prio_set _ _ _) rfl h6, hd, rfl⟩
    | [x], _, h5 =>
      obtain ⟨k1, k2⟩ := C26_adopts (answered e vm [x]) v x.node x.pid hrd rfl
      have hr : (reconcile (answered e vm [x]) v).wrote = some (labelled v x.node x.pid) := by
        rw [reconcile_ready hrd]
        unfold creation
        rw [if_neg (by simp [hrd.user])]
        dsimp only
        rw [show (answered e vm [x]).status = .ok x.node x.pid from rfl]
        dsimp only
        unfold record
        dsimp only
        rw [needs_none h2, if_neg (by simp), if_pos rfl, show (answered e vm [x]).labelRes = .ok from hc.label]
        rfl
      rw [k1, hr]
      exact ⟨.recorded x h1 rfl rfl (h5 x (by simp)) (prio_set _ _ _) rfl h6, hd, rfl⟩
    | _ :: _ :: _, h4, _ => simp at h4
  | recorded x h1 h2 h3 h4 h5 h6 h7 =>
    subst h6
    have hrd := ready_of (vms := [x]) hc hd h1 (.inr h7)
    obtain ⟨k1, _⟩ := C26_adopts (answered e vm [x]) v x.node x.pid hrd rfl
    have hneed : needsLabels v = false := by
      unfold needsLabels
      rw [h2, h3]
      simp [h4]
      cases hv : v.prio <;> simp_all
    have hr : (reconcile (answered e vm [x]) v).wrote = some { v with st := pendingStatus (answered e vm [x]) v } := by
      rw [reconcile_ready hrd]
      unfold creation
      rw [if_neg (by simp [hrd.user])]
      dsimp only
      rw [show (answered e vm [x]).status = .ok x.node x.pid from rfl]
      dsimp only
      unfold record
      dsimp only
      rw [hneed, if_neg (by simp), if_neg (by simp), if_pos h7, if_pos (show (answered e vm [x]).statusRes = .ok from hc.status)]
    dsimp only
    rw [k1, hr]
    exact ⟨.pending x h1 h2 h3 h4 h5 rfl rfl rfl, hd, rfl⟩
  | pending x h1 h2 h3 h4 h5 h6 h7 h8 =>
    subst h6
    have hr : reconcile (answered e vm [x]) v = { retry := longRetry, err := false } := by
      unfold reconcile
      rw [if_neg (by simp [hd]), if_neg (by simp [answered, hc.running, hc.valid, hc.cls]),
        if_neg (by simp [answered, hc.clsFin, hc.tmpl]), if_neg (by simp [h1]), if_neg (by simp [answered, hc.health]),
        if_neg (by rw [h7, h3]; simp [h4])]
    have hcr : creates (answered e vm [x]) v = false := by unfold creates; rw [hr]; rfl
    dsimp only
    rw [hr, hcr]
    exact ⟨.pending x h1 h2 h3 h4 h5 rfl h7 h8, hd, rfl⟩

/-- C59: A new machine – whether its VM already exists at the provider or not – has its finalizer, exactly one VM, that VM's node
and provider id recorded, and is Pending, after three reconciles in which no call fails, and stays so. -/
theorem C59_creation_completes (es : List (Env × VM)) (vms : List VM) (v : Obj) (hn : v.node = none) (hp : v.pid = "")
    (hph : v.st.phase = .empty ∨ v.st.phase = .crashLoopBackOff) (hd : v.deleting = false) (hv : vms.length ≤ 1)
    (hx : ∀ x ∈ vms, x.pid ≠ "") (hc : ∀ p ∈ es, Coop p.1 p.2 v) (hl : 3 ≤ es.length) :
    Created (es.foldl (fun s p => run p.1 p.2 s) (vms, v)) := by
  have gen : ∀ (es : List (Env × VM)) (k : Nat) (s : List VM × Obj), Stage s.1 s.2 k → s.2.deleting = false →
      (∀ p ∈ es, Coop p.1 p.2 s.2) →
      Stage (es.foldl (fun s p => run p.1 p.2 s) s).1 (es.foldl (fun s p => run p.1 p.2 s) s).2 (k - es.length) := by
    intro es
    induction es with
    | nil => intro k s h _ _; exact h
    | cons p es ih =>
      intro k s h hd hc
      obtain ⟨h1, h2, h3⟩ := run_stage (hc p (by simp)) hd h
      have := ih (k - 1) _ h1 h2 (fun q hq => by
        have := hc q (List.mem_cons_of_mem _ hq)
        exact ⟨this.running, this.valid, this.cls, this.clsFin, this.tmpl, this.health, this.user, this.label, this.status,
          this.fin, this.init, by rw [h3]; exact this.fresh, this.pid⟩)
      rw [List.length_cons, Nat.add_comm, ← Nat.sub_sub]
      exact this
  have start : ∃ k, k ≤ 3 ∧ Stage vms v k := by
    cases hf : v.finalizer with
    | false => exact ⟨3, Nat.le_refl _, .bare hf hn hp hv hx hph⟩
    | true => exact ⟨2, by omega, .unrecorded hf hn hp hv hx hph⟩
  obtain ⟨k, hk, hs⟩ := start
  have h := gen es k (vms, v) hs hd hc
  rw [show k - es.length = 0 by omega] at h
  cases h with
  | pending x h1 h2 h3 h4 h5 h6 h7 h8 => exact ⟨x, h6, h2, h3, by rw [h3]; exact h4, h5, h1, h7, h8⟩

example : Coop {} ⟨"node-1", "prov:///vm-1"⟩ {} :=
  ⟨rfl, rfl, rfl, rfl, rfl, rfl, rfl, rfl, rfl, rfl, rfl, .inl (by simp), by decide⟩

/-- C59 fails for a machine with a node label but neither provider id nor phase, whose VM is gone: every reconcile repeats the
same update, and the machine never becomes Pending. -/
theorem C59_lost_vm_stuck_false (vm : VM) :
    let v : Obj := { finalizer := true, node := some "node-1", prio := some "3" }
    run {} vm ([], v) = ([], v) := by
  intro v
  have hrd : Ready (answered {} vm []) v := ⟨rfl, rfl, rfl, rfl, rfl, rfl, rfl, rfl, rfl, .inl rfl⟩
  have hcr : creates (answered {} vm []) v = false := by
    cases hc : creates (answered {} vm []) v with
    | false => rfl
    | true => have := (C26_creates_only_if_none _ _ hc).1; cases this
  rw [run_eq]
  dsimp only
  rw [hcr, reconcile_ready hrd]
  unfold creation
  rw [if_neg (by simp)]
  dsimp only
  rw [show (answered {} vm []).status = .err (render .notFound "no such VM") none from rfl]
  dsimp only
  rw [noVM_decodes]
  rfl

/-! ### C61 -/

/-- C61: If the creation worker never acts once the deletion of the object has been requested, no VM is left when the object is
gone. -/
theorem C61_no_vm_without_object_partial (w0 w : Life) (hc : w0.confirmed = false)
    (h : LReach (fun w => ∃ o, w.obj = some o ∧ o.deleting = false) w0 w) (hg : w.obj = none) (hw : w0.obj ≠ none) : w.vms = [] := by
  suffices hi : (w.confirmed = true → w.vms = [] ∧ ∀ o, w.obj = some o → o.deleting = true) ∧ (w.obj = none → w.confirmed = true) from
    (hi.1 (hi.2 hg)).1
  clear hg
  induction h with
  | refl => exact ⟨(fun h => by rw [hc] at h; cases h), fun h => absurd h hw⟩
  | step _ hs ih =>
    obtain ⟨i1, i2⟩ := ih
    cases hs with
    | missing e v hg _ _ _ _ => exact ⟨i1, i2⟩
    | created e v vm hg _ =>
      obtain ⟨o, ho, hd⟩ := hg
      refine ⟨fun h => ?_, i2⟩
      have := (i1 h).2 o ho
      rw [hd] at this; cases this
    | write o o' ho hd =>
      refine ⟨fun h => ⟨(i1 h).1, fun x hx => ?_⟩, fun h => (nomatch h)⟩
      cases hx
      rw [hd]; exact (i1 h).2 o ho
    | delete o ho =>
      refine ⟨fun h => ⟨(i1 h).1, fun x hx => ?_⟩, fun h => (nomatch h)⟩
      cases hx; rfl
    | confirm o ho hd =>
      refine ⟨fun _ => ⟨rfl, fun x hx => ?_⟩, fun _ => rfl⟩
      have : o = x := Option.some.inj (ho.symm.trans hx)
      rw [← this]; exact hd
    | remove o ho hcf => exact ⟨fun h => ⟨(i1 h).1, fun x hx => (nomatch hx)⟩, fun _ => hcf⟩

/-- C61 fails in the code: a creation that is on its way when the object is deleted leaves a VM behind. The creation reconcile has
seen NotFound; the object is deleted, the termination finds no VM and removes the finalizer; then the VM is created. -/
theorem C61_vm_left_behind_false :
    ∃ w, LReach (fun _ => True) { obj := some { finalizer := true }, hist := [{ finalizer := true }] } w ∧
      w.obj = none ∧ w.busy = none ∧ w.vms = [⟨"node-1", "prov:///vm-1"⟩] := by
  have s1 : LReach (fun _ => True) { obj := some { finalizer := true }, hist := [{ finalizer := true }] } _ :=
    .step .refl (.missing demoEnv { finalizer := true } trivial rfl (by simp) demo_creates (fun _ _ _ _ _ => rfl))
  have s2 := s1.step (.delete { finalizer := true } rfl)
  have s3 := s2.step (.confirm _ rfl rfl)
  have s4 := s3.step (.remove _ rfl rfl)
  have s5 := s4.step (.created demoEnv { finalizer := true } (some ⟨"node-1", "prov:///vm-1"⟩) trivial rfl)
  exact ⟨_, s5, rfl, rfl, rfl⟩

/-- the hypotheses of `C61_no_vm_without_object_partial` are met by a whole life -/
example : ∃ w, LReach (fun w => ∃ o, w.obj = some o ∧ o.deleting = false)
    { obj := some { finalizer := true }, hist := [{ finalizer := true }] } w ∧ w.obj = none := by
  have s1 : LReach (fun w : Life => ∃ o, w.obj = some o ∧ o.deleting = false)
      { obj := some { finalizer := true }, hist := [{ finalizer := true }] } _ :=
    .step .refl (.missing demoEnv { finalizer := true } ⟨_, rfl, rfl⟩ rfl (by simp) demo_creates (fun _ _ _ _ _ => rfl))
  have s2 := s1.step (.created demoEnv { finalizer := true } (some ⟨"node-1", "prov:///vm-1"⟩) ⟨_, rfl, rfl⟩ rfl)
  have s3 := s2.step (.delete { finalizer := true } rfl)
  have s4 := s3.step (.confirm _ rfl rfl)
  have s5 := s4.step (.remove _ rfl rfl)
  exact ⟨_, s5, rfl⟩

/-- C25 holds only of the cached version: a VM may be requested after the finalizer has been removed again. -/
theorem C25_finalizer_gone_false :
    ∃ w, LReach (fun _ => True) { obj := some { finalizer := true }, hist := [{ finalizer := true }] } w ∧ w.obj = none ∧
      ∃ e v, w.busy = some (e, v) ∧ creates e v = true := by
  have s1 : LReach (fun _ => True) { obj := some { finalizer := true }, hist := [{ finalizer := true }] } _ :=
    .step .refl (.delete { finalizer := true } rfl)
  have s2 := s1.step (.confirm _ rfl rfl)
  have s3 := s2.step (.remove _ rfl rfl)
  have s4 := s3.step (.missing demoEnv { finalizer := true } trivial rfl (by simp) demo_creates (fun _ _ _ _ _ => rfl))
  exact ⟨_, s4, rfl, _, _, rfl, demo_creates⟩

end MCM.Creation
