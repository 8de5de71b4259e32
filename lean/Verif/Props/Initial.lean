import Verif.Model.Initial
import Verif.Props.Tokens
import Verif.Props.Contract
/-!
# C141 – a VM is initialised before its machine is waited for and used

docs/proposals/initialize-machine.md, docs/development/machine_error_codes.md:194-200: "Initialization is reattempted in next reconcile cycle".
-/
namespace MCM.Initial
open MCM MCM.Lifecycle

/-! ## Specification -/

/-- there is a VM and it is initialised -/
def Ready (vm : Option VM) : Prop := ∃ x, vm = some x ∧ x.ready = true

/-- the stored machine -/
def S.Stored (s : S) (cur : Obj) : Prop := s.hist.head? = some cur

/-! ## What the calls of a run do -/

theorem fold_get (raw : Bool) (left vm : Option VM) (a : Creation.StatusAns) : [Creation.Event.getStatus a].foldl (effect raw left) vm = vm := rfl

theorem createError_events (e : Creation.Env) (v : Creation.Obj) (t l : String) (ev : List Creation.Event) : (Creation.createError e v t l ev).events = ev := by
  unfold Creation.createError Creation.withStatus
  dsimp only
  split <;> rfl

theorem initVM_events (e : Creation.Env) (c : Creation.Obj) (ev : List Creation.Event) (w : Option Creation.Obj) : (Creation.initVM e c ev w).events = ev ++ [.init c e.init] := by
  unfold Creation.initVM
  dsimp only
  split
  · rename_i h; rw [h]
  · rename_i h
    rw [h]
    split
    · rfl
    · split
      · rfl
      · unfold Creation.withStatus; split <;> rfl

theorem record_events (e : Creation.Env) (v : Creation.Obj) (n p : String) (ev : List Creation.Event) :
    (Creation.record e v n p false ev).events = ev ∧ ∃ c, (Creation.record e v n p true ev).events = ev ++ [.init c e.init] := by
  unfold Creation.record
  dsimp only
  constructor
  · rw [if_neg (by decide)]
    split
    · rfl
    · split <;> rfl
  · rw [if_pos rfl]
    exact ⟨_, initVM_events ..⟩

theorem effect_init_some (raw : Bool) (left : Option VM) (vm : Option VM) (c : Creation.Obj) (i : Option String) :
    (vm ≠ none → effect raw left vm (.init c i) ≠ none) ∧ (Ready vm → Ready (effect raw left vm (.init c i))) := by
  cases i with
  | none =>
    cases vm with
    | none => exact ⟨fun h => absurd rfl h, fun ⟨_, h, _⟩ => nomatch h⟩
    | some x => exact ⟨fun _ => nofun, fun _ => ⟨_, rfl, rfl⟩⟩
  | some t => exact ⟨id, id⟩

/-- the creation flow with a driver that answers truthfully -/
inductive Flow (e : Creation.Env) (v : Creation.Obj) (vm : Option VM) : Creation.Out → Prop
  | none (o : Creation.Out) : o.wrote = none → (∀ raw left, o.events.foldl (effect raw left) vm = vm) → Flow e v vm o
  | found (x : VM) : vm = some x → x.ready = true → Flow e v vm (Creation.record e v x.node x.pid false [.getStatus e.status])
  | raw (x : VM) : vm = some x → x.ready = false → Flow e v vm (Creation.record e v x.node x.pid true [.getStatus e.status])
  | create : vm = Option.none → v.node = Option.none → Flow e v vm (Creation.createStep e v)
  | lost (n : String) : vm = Option.none → v.node = some n → Flow e v vm (Creation.record e v n "" false [.getStatus e.status])
  | error (t : String) : Flow e v vm (Creation.createError e v t "" [.getStatus e.status])

theorem creation_flow {opts : Opts} (hb : opts.blind = false) {e : Creation.Env} {v : Creation.Obj} {vm : Option VM} (ha : Answers opts vm e.status) : Flow e v vm (Creation.creation e v) := by
  unfold Creation.creation
  split
  · exact .none _ rfl fun _ _ => rfl
  · dsimp only
    cases hs : e.status with
    | ok n p =>
      rw [hs] at ha
      cases ha
      rename_i x hx
      dsimp only
      rw [← hs]
      exact .found x rfl hx
    | err text resp =>
      rw [hs] at ha
      cases ha with
      | raw hx hf =>
        rename_i x msg
        dsimp only
        rw [hf]
        dsimp only
        rw [← hs]
        exact .raw x rfl hx
      | missing hf =>
        dsimp only
        rw [hf]
        dsimp only
        cases hn : v.node with
        | none => exact .create rfl hn
        | some n => dsimp only; rw [← hs]; exact .lost n rfl hn
      | trouble hf =>
        dsimp only
        cases hc : Codes.fromError text with
        | none => exact .none _ rfl fun _ _ => rfl
        | some x =>
          obtain ⟨c, m⟩ := x
          obtain ⟨h1, h2, h3⟩ := hf c m hc
          dsimp only
          cases c <;> first | contradiction | (dsimp only; rw [← hs]; exact .error text)
      | blind hbl => rw [hb] at hbl; cases hbl

theorem flow_mono {e : Creation.Env} {v : Creation.Obj} {vm : Option VM} {o : Creation.Out} (h : Flow e v vm o) (raw : Bool) (left : Option VM) :
    (vm ≠ none → o.events.foldl (effect raw left) vm ≠ none) ∧ (Ready vm → Ready (o.events.foldl (effect raw left) vm)) := by
  cases h with
  | none _ hw he => rw [he]; exact ⟨id, id⟩
  | found x h1 h2 => rw [(record_events ..).1]; exact ⟨id, id⟩
  | raw x h1 h2 =>
    obtain ⟨c, hc⟩ := (record_events e v x.node x.pid [.getStatus e.status]).2
    rw [hc]
    exact effect_init_some raw left vm c e.init
  | create h1 h2 => exact ⟨fun h => absurd h1 h, fun ⟨_, h, _⟩ => by rw [h1] at h; cases h⟩
  | lost n h1 h2 => rw [(record_events ..).1]; exact ⟨id, id⟩
  | error t => rw [createError_events]; exact ⟨id, id⟩

/-- the phases of a machine that has been created -/
def Waits : Phase → Prop
  | .pending | .running | .unknown => True
  | _ => False

theorem not_waits {e : Creation.Env} {v : Creation.Obj} : ¬ Waits (Creation.failurePhase e v) := by
  rcases failurePhase_cases e v with h | h <;> rw [h] <;> exact id

theorem flow_wrote {e : Creation.Env} {v : Creation.Obj} {vm : Option VM} {o : Creation.Out} (h : Flow e v vm o) (hn : v.node ≠ none → vm ≠ none) (raw : Bool) (left : Option VM)
    {w : Creation.Obj} (hw : o.wrote = some w) :
    (w.st.phase = v.st.phase ∨ ¬ Waits w.st.phase ∨ (w.st.phase = .pending ∧ Ready (o.events.foldl (effect raw left) vm))) ∧
    (w.node ≠ none → v.node ≠ none ∨ o.events.foldl (effect raw left) vm ≠ none) := by
  have hinit : ∀ {c : Creation.Obj} {ev : List Creation.Event} {before : Option Creation.Obj} {w : Creation.Obj}, (Creation.initVM e c ev before).wrote = some w → c.st = v.st →
      (∀ b, before = some b → b.st = v.st) → w.st.phase = v.st.phase ∨ ¬ Waits w.st.phase := by
    intro c ev before w h1 h2 h3
    rcases initVM_exact h1 with ⟨s, rfl, hs⟩ | h
    · right; rcases hs with h | h <;> dsimp only <;> rw [h] <;> exact id
    · left; rw [h3 w h]
  have hrec : ∀ {n p : String} {ev : List Creation.Event} {w : Creation.Obj}, (Creation.record e v n p true ev).wrote = some w → w.st.phase = v.st.phase ∨ ¬ Waits w.st.phase := by
    intro n p ev w h1
    unfold Creation.record at h1
    dsimp only at h1
    rw [if_pos rfl] at h1
    refine hinit h1 ?_ ?_
    · split <;> rfl
    · intro b hb
      split at hb
      · cases hb; rfl
      · cases hb
  cases h with
  | none _ h1 h2 => rw [h1] at hw; cases hw
  | found x h1 h2 =>
    rw [(record_events ..).1]
    have hr : Ready vm := ⟨x, h1, h2⟩
    refine ⟨?_, fun _ => .inr (by rw [fold_get, h1]; nofun)⟩
    unfold Creation.record at hw
    dsimp only at hw
    rw [if_neg (by decide)] at hw
    split at hw
    · split at hw
      · cases hw; exact .inl rfl
      · cases hw
    · split at hw
      · dsimp only at hw
        split at hw
        · cases hw; exact .inr (.inr ⟨rfl, hr⟩)
        · cases hw
      · cases hw
  | raw x h1 h2 =>
    refine ⟨(hrec hw).imp id .inl, fun _ => .inr ?_⟩
    obtain ⟨c, hc⟩ := (record_events e v x.node x.pid [.getStatus e.status]).2
    rw [hc]
    exact (effect_init_some raw left vm c e.init).1 (by rw [h1]; nofun)
  | create h1 h2 =>
    unfold Creation.createStep at hw ⊢
    dsimp only at hw ⊢
    split at hw
    · rename_i t l hc
      rw [createError_events]
      unfold Creation.createError at hw
      rcases withStatus_exact hw with rfl | h
      · exact ⟨.inr (.inl not_waits), fun h => absurd h2 h⟩
      · cases h
    · rename_i n p hc
      split at hw
      · rename_i hst
        rcases withStatus_exact hw with rfl | h
        · exact ⟨.inr (.inl id), fun h => absurd h2 h⟩
        · cases h
      · rename_i hst
        rw [if_neg hst]
        obtain ⟨c, hc'⟩ := (record_events e v n p [.getStatus e.status, .create v e.create]).2
        rw [hc] at hc'
        refine ⟨(hrec hw).imp id .inl, fun _ => .inr ?_⟩
        rw [hc]
        rw [hc']
        exact (effect_init_some raw left _ c e.init).1 nofun
  | lost n h1 h2 => exact absurd h1 (hn (by rw [h2]; nofun))
  | error t =>
    rw [createError_events]
    unfold Creation.createError at hw
    rcases withStatus_exact hw with rfl | h
    · exact ⟨.inr (.inl not_waits), .inl⟩
    · cases h

/-- the same for a whole run after the health check -/
theorem rest_mono {opts : Opts} (hb : opts.blind = false) {e : Creation.Env} {v : Creation.Obj} {vm : Option VM} (ha : Answers opts vm e.status) (raw : Bool)
    (left : Option VM) :
    (vm ≠ none → (Creation.reconcile e v).events.foldl (effect raw left) vm ≠ none) ∧ (Ready vm → Ready ((Creation.reconcile e v).events.foldl (effect raw left) vm)) := by
  unfold Creation.reconcile
  split
  · exact ⟨id, id⟩
  · split
    · exact ⟨id, id⟩
    · split
      · exact ⟨id, id⟩
      · split
        · exact ⟨id, id⟩
        · split
          · exact ⟨id, id⟩
          · split
            · exact flow_mono (creation_flow hb ha) raw left
            · exact ⟨id, id⟩

theorem rest_wrote {opts : Opts} (hb : opts.blind = false) {e : Creation.Env} {v : Creation.Obj} {vm : Option VM} (ha : Answers opts vm e.status) (hn : v.node ≠ none → vm ≠ none) (raw : Bool)
    (left : Option VM) {w : Creation.Obj} (hw : (Creation.reconcile e v).wrote = some w) :
    (w.st.phase = v.st.phase ∨ ¬ Waits w.st.phase ∨ (w.st.phase = .pending ∧ Ready ((Creation.reconcile e v).events.foldl (effect raw left) vm))) ∧
    (w.node ≠ none → v.node ≠ none ∨ (Creation.reconcile e v).events.foldl (effect raw left) vm ≠ none) := by
  unfold Creation.reconcile at hw ⊢
  split at hw
  · cases hw
  · rename_i h1
    rw [if_neg h1]
    split at hw
    · cases hw
    · rename_i h2
      rw [if_neg h2]
      split at hw
      · cases hw
      · rename_i h3
        rw [if_neg h3]
        split at hw
        · dsimp only at hw
          split at hw
          · cases hw; exact ⟨.inl rfl, .inl⟩
          · cases hw
        · rename_i h4
          rw [if_neg h4]
          split at hw
          · cases hw
          · rename_i h5
            rw [if_neg h5]
            split at hw
            · rename_i h6
              rw [if_pos h6]
              exact flow_wrote (creation_flow hb ha) hn raw left hw
            · cases hw

theorem calls_mono {opts : Opts} (hb : opts.blind = false) {e : Env} {v : Obj} {vm : Option VM} (ha : Answers opts vm e.c.status) (raw : Bool) (left : Option VM) :
    (vm ≠ none → (calls e v).foldl (effect raw left) vm ≠ none) ∧ (Ready vm → Ready ((calls e v).foldl (effect raw left) vm)) := by
  unfold calls
  split
  · exact ⟨id, id⟩
  · exact rest_mono (e := { e.c with health := none }) hb ha raw left

/-! ## The health check -/

theorem timeouts_not_running (now : Int) (m : Health.Machine) (p : Health.Phase) (conds : List Conditions.Cond) (t : Bool) (h : Health.timeouts now m = .status (some p) conds t) : p = .failed := by
  unfold Health.timeouts at h
  split at h
  · split at h
    · cases h; rfl
    · cases h
  · split at h
    · split at h <;> cases h
    · cases h

/-- a health check makes a machine running only if the node is healthy, unknown only if it was running -/
theorem check_phase (now : Int) (m : Health.Machine) (l : Health.NodeLookup) (p : Health.Phase) (conds : List Conditions.Cond) (t : Bool) (h : Health.check now m l = .status (some p) conds t) :
    (p = .running ∧ ∃ n, l = .found n ∧ Health.isHealthy m.bad (Health.seen m n) = true) ∨ (p = .unknown ∧ m.phase = .running) ∨ p = .failed := by
  unfold Health.check at h
  split at h
  · cases h
  · split at h
    · rename_i h1; cases h; exact .inr (.inl ⟨rfl, h1.2⟩)
    · exact .inr (.inr (timeouts_not_running now m p conds t h))
  · rename_i n
    split at h
    · rename_i hh
      split at h
      · cases h; exact .inl ⟨rfl, n, rfl, hh⟩
      · split at h
        · cases h
        · exact .inr (.inr (timeouts_not_running now m p conds t h))
    · split at h
      · rename_i h1; cases h; exact .inr (.inl ⟨rfl, h1⟩)
      · split at h
        · cases h
        · exact .inr (.inr (timeouts_not_running now m p conds t h))

theorem run_alive {e : Env} {v o : Obj} (h : Lifecycle.run e v = some o) : v.deleting = false := by
  have hrest : ∀ {o}, Lifecycle.rest e v = some o → v.deleting = false := by
    intro o h
    unfold Lifecycle.rest at h
    obtain ⟨w, hw, _⟩ := Option.map_eq_some_iff.1 h
    exact (Lifecycle.reconcile_spec hw).1
  unfold Lifecycle.run at h
  split at h
  · rename_i hg
    have := hg.1
    unfold gate at this
    cases hd : v.deleting with
    | false => rfl
    | true => rw [hd] at this; simp at this
  · exact hrest h

/-- the phases for which an initialised VM is promised -/
def Promised (opts : Opts) (p : Phase) : Prop := p = .pending ∨ (opts.early = false ∧ (p = .running ∨ p = .unknown))

theorem Promised.waits {opts : Opts} {p : Phase} (h : Promised opts p) : Waits p := by
  rcases h with rfl | ⟨_, rfl | rfl⟩ <;> trivial

/-- what a run with the stored version writes -/
theorem run_wrote {opts : Opts} (hb : opts.blind = false) {e : Env} {v o : Obj} {vm : Option VM} (ha : Answers opts vm e.c.status)
    (hj : opts.early = false → (∀ x, vm = some x → x.ready = false) → ∀ n, e.node = .found n → Health.isHealthy v.bad (Health.seen (asHealth v) n) = false)
    (hp : Promised opts v.st.phase → Ready vm) (hn : v.node ≠ none → vm ≠ none) (raw : Bool) (left : Option VM) (h : Lifecycle.run e v = some o) :
    (Promised opts o.st.phase → Ready ((calls e v).foldl (effect raw left) vm)) ∧ (o.node ≠ none → (calls e v).foldl (effect raw left) vm ≠ none) := by
  have hm := calls_mono (v := v) hb ha raw left
  have hrest : ends e v = false → Lifecycle.rest e v = some o →
      (Promised opts o.st.phase → Ready ((calls e v).foldl (effect raw left) vm)) ∧ (o.node ≠ none → (calls e v).foldl (effect raw left) vm ≠ none) := by
    intro he hr
    unfold Lifecycle.rest at hr
    obtain ⟨w, hw, rfl⟩ := Option.map_eq_some_iff.1 hr
    have := rest_wrote (e := { e.c with health := none }) hb ha hn raw left hw
    have hc : calls e v = (Creation.reconcile { e.c with health := none } v.toObj).events := by unfold calls; rw [he]; rfl
    rw [← hc] at this
    refine ⟨fun hpr => ?_, fun ho => ?_⟩
    · rcases this.1 with h1 | h1 | ⟨_, h1⟩
      · exact hm.2 (hp (h1 ▸ hpr))
      · exact absurd hpr.waits h1
      · exact h1
    · rcases this.2 ho with h1 | h1
      · exact hm.1 (hn h1)
      · exact h1
  have hmark : ∀ (p : Option Health.Phase) (conds : List Conditions.Cond), (∀ q, p = some q → Promised opts (ofHealth q) → Ready vm) →
      (Promised opts (healthWrite e v p conds).st.phase → Ready ((calls e v).foldl (effect raw left) vm)) ∧
      ((healthWrite e v p conds).node ≠ none → (calls e v).foldl (effect raw left) vm ≠ none) := by
    intro p conds hq
    cases p with
    | none => exact ⟨fun h => hm.2 (hp h), fun h => hm.1 (hn h)⟩
    | some q => exact ⟨fun h => hm.2 (hq q rfl h), fun h => hm.1 (hn h)⟩
  have hfail : ¬ Promised opts (ofHealth .failed) := by rintro (h | ⟨_, h | h⟩) <;> cases h
  unfold Lifecycle.run at h
  split at h
  · rename_i hg
    have hends : ∀ x, Health.check e.c.now (asHealth v) e.node = x → ends e v = match x with | .recheck => e.sync | .nothing => e.sync | _ => true := by
      intro x hx
      unfold ends
      rw [hx, decide_eq_true hg, Bool.true_and]
      cases x <;> rfl
    split at h
    · cases h
    · rename_i p conds t hc
      split at h
      · cases h
        refine hmark p conds fun q hq hpr => ?_
        subst hq
        rcases check_phase _ _ _ _ _ _ hc with ⟨rfl, n, hl, hh⟩ | ⟨rfl, hr⟩ | rfl
        · rcases hpr with h | ⟨he, _⟩
          · cases h
          · apply Classical.byContradiction
            intro hnr
            have := hj he (fun x hx => by
              cases hxr : x.ready with
              | false => rfl
              | true => exact absurd ⟨x, hx, hxr⟩ hnr) n hl
            rw [show (asHealth v).bad = v.bad from rfl] at hh
            rw [hh] at this
            cases this
        · refine hp ?_
          rcases hpr with h | ⟨he, _⟩
          · cases h
          · exact .inr ⟨he, .inl (ofHealth_phase hr)⟩
        · exact absurd hpr hfail
      · cases h
    · split at h
      · cases h
        exact hmark (some .failed) v.conds fun q hq hpr => absurd (by cases hq; exact hpr) hfail
      · cases h
    · rename_i hc
      split at h
      · cases h
      · rename_i hs
        exact hrest (by rw [hends _ hc]; simpa using hs) h
    · rename_i hc
      split at h
      · cases h
      · rename_i hs
        exact hrest (by rw [hends _ hc]; simpa using hs) h
  · rename_i hg
    exact hrest (by unfold ends; rw [decide_eq_false hg, Bool.false_and]) h

/-! ## The invariant -/

/-- what is promised of the stored machine -/
def Good (opts : Opts) (s : S) : Prop :=
  ∀ cur, s.Stored cur → cur.deleting = false → (Promised opts cur.st.phase → Ready s.vm) ∧ (cur.node ≠ none → s.vm ≠ none)

theorem good_step {opts : Opts} (hb : opts.blind = false) {s s' : S} (hg : Good opts s) (h : Step opts s s') : Good opts s' := by
  cases h with
  | run e v raw lands left hv hl ha hj =>
    have hm := calls_mono (v := v) hb ha raw left
    have hkeep : Good opts { hist := s.hist, vm := (calls e v).foldl (effect raw left) s.vm } := fun cur hc hd =>
      ⟨fun h => hm.2 ((hg cur hc hd).1 h), fun h => hm.1 ((hg cur hc hd).2 h)⟩
    cases lands with
    | false => exact hkeep
    | true =>
      cases hr : Lifecycle.run e v with
      | none => exact hkeep
      | some o =>
        intro cur hc hd
        cases hc
        have := hg v (hl rfl) (run_alive hr)
        exact run_wrote hb ha hj this.1 this.2 raw left hr
  | write hs hf =>
    rename_i cur new old
    intro c hc hd
    cases hc
    have hcur : s.Stored cur := by unfold S.Stored; rw [hs]; rfl
    cases hf with
    | dying h1 h2 => rw [h2] at hd; cases hd
    | delete => cases hd
    | reset now h1 =>
      have := hg cur hcur hd
      refine ⟨fun hp => this.1 ?_, this.2⟩
      rcases hp with hp | ⟨he, _⟩
      · cases hp
      · exact .inr ⟨he, .inr h1⟩
    | edit h1 h2 h3 h4 h5 h6 =>
      have := hg cur hcur (h2 ▸ hd)
      rw [h1, h4]
      exact this
    | wild h => cases h
  | gone hs hd =>
    rename_i cur old
    intro c hc hd'
    have hcur : s.Stored cur := by unfold S.Stored; rw [hs]; rfl
    obtain rfl : cur = c := Option.some.inj (hcur.symm.trans hc)
    rw [hd] at hd'
    cases hd'

theorem good_reach {opts : Opts} (hb : opts.blind = false) {s : S} (h : Reach opts s) : Good opts s := by
  induction h with
  | new ho =>
    intro cur hc hd
    cases hc
    refine ⟨fun hp => ?_, fun hn => absurd ho.2.2.1 hn⟩
    rw [ho.1] at hp
    rcases hp with h | ⟨_, h | h⟩ <;> cases h
  | step _ hs ih => exact good_step hb ih hs

/-! ## Theorems -/

/-- A machine is waited for (`Pending`) only when its VM is initialised, whatever runs are made with whatever old versions, and whoever else writes. -/
theorem C141_pending (early : Bool) (s : S) (h : Reach { early := early } s) (cur : Obj) (hc : s.Stored cur) (hd : cur.deleting = false) (hp : cur.st.phase = .pending) : Ready s.vm :=
  (good_reach rfl h cur hc hd).1 (.inl hp)

/-- If no node is healthy before its VM is initialised, the VM of a machine that is `Running` or `Unknown` is initialised. -/
theorem C141_running_partial (s : S) (h : Reach {} s) (cur : Obj) (hc : s.Stored cur) (hd : cur.deleting = false) (hp : cur.st.phase = .running ∨ cur.st.phase = .unknown) : Ready s.vm :=
  (good_reach rfl h cur hc hd).1 (.inr ⟨rfl, hp⟩)

/-- While the VM is not initialised, every run that gets past the health check, and can prepare the user data, calls `InitializeMachine` when the driver says so, and nothing else; if that
succeeds the VM is initialised. -/
theorem C141_tried_again (e : Env) (v : Obj) (hr : Creation.Ready { e.c with health := none } v.toObj) (he : ends e v = false) {text msg n p : String} (hs : e.c.status = .err text (some (n, p)))
    (hf : Codes.fromError text = some (.uninitialized, msg)) : 
    (∃ c, calls e v = [.getStatus e.c.status, .init c e.c.init]) ∧ (e.c.init = none → ∀ raw left x, Ready ((calls e v).foldl (effect raw left) (some x))) := by
  suffices h : ∃ c, calls e v = [.getStatus e.c.status, .init c e.c.init] by
    refine ⟨h, fun hi raw left x => ?_⟩
    obtain ⟨c, hc⟩ := h
    rw [hc, hi]
    exact ⟨_, rfl, rfl⟩
  unfold calls
  rw [he, if_neg (by decide), Creation.reconcile_ready hr]
  unfold Creation.creation
  rw [if_neg (by rw [hr.user]; decide)]
  dsimp only
  rw [hs]
  dsimp only
  rw [hf]
  exact (record_events { e.c with health := none } v.toObj n p [.getStatus (.err text (some (n, p)))]).2

/-- No run calls the driver for a machine that has its provider id and whose phase is neither empty nor `CrashLoopBackOff`. -/
theorem C141_never_again (e : Env) (v : Obj) (hp : v.pid ≠ "") (h1 : v.st.phase ≠ .empty) (h2 : v.st.phase ≠ .crashLoopBackOff) : calls e v = [] := by
  unfold calls
  split
  · rfl
  · unfold Creation.reconcile
    split
    · rfl
    · split
      · rfl
      · split
        · rfl
        · split
          · rfl
          · split
            · rfl
            · rw [if_neg (fun h => h.elim hp fun h => h.elim h1 h2)]

/-! ## Witnesses -/

/-- one run on the stored version -/
def S.play (s : S) (e : Env) : S :=
  match s.hist with
  | [] => s
  | v :: old => { hist := (Lifecycle.run e v).toList ++ v :: old, vm := (calls e v).foldl (effect true none) s.vm }

theorem play_step {opts : Opts} {s : S} {e : Env} {v : Obj} {old : List Obj} (hs : s.hist = v :: old) (ha : Answers opts s.vm e.c.status)
    (hj : opts.early = false → ∀ n, e.node ≠ .found n) (h : Reach opts s) : Reach opts (s.play e) := by
  have := Step.run (opts := opts) (s := s) e v true true none (by rw [hs]; exact List.mem_cons_self ..) (fun _ => by rw [hs]; rfl) ha (fun he _ n hn => absurd hn (hj he n))
  unfold S.play
  rw [hs]
  dsimp only
  rw [hs] at this
  exact .step h this

theorem start_answers (opts : Opts) : Answers opts none Lifecycle.start.c.status := .trouble fun c m h => by
  have : Codes.fromError "" = none := by decide +kernel
  rw [this] at h
  cases h

/-- a driver's answers -/
def rawText : String := "machine codes error: code = [Uninitialized] message = [not yet]"
def blindText : String := "machine codes error: code = [Unimplemented] message = [no status]"

/-- C141 fails: the initialisation fails, the node joins nevertheless; the machine is `Running`, and no run ever initialises its VM. -/
theorem C141_running_false : ∃ s cur, Reach { early := true } s ∧ s.Stored cur ∧ cur.deleting = false ∧ cur.st.phase = .running ∧ s.vm = some ⟨"n", "p", false⟩ ∧ ∀ e, calls e cur = [] := by
  let e2 : Env := { c := { now := 1 * minute, status := noVM, create := .ok "n" "p", init := noInit } }
  let e3 : Env := { c := { now := 2 * minute, status := .err rawText (some ("n", "p")) }, node := readyNode }
  let s0 : S := { hist := [({} : Obj)] }
  have h0 : Reach { early := true } s0 := .new ⟨rfl, rfl, rfl, rfl, rfl⟩
  have h1 : Reach { early := true } (s0.play Lifecycle.start) := play_step rfl (start_answers _) (fun h => nomatch h) h0
  have h2 : Reach { early := true } ((s0.play Lifecycle.start).play e2) := play_step rfl (.missing (msg := "no such VM") (by decide +kernel)) (fun h => nomatch h) h1
  have hv : ((s0.play Lifecycle.start).play e2).vm = some ⟨"n", "p", false⟩ := by decide +kernel
  have h3 : Reach { early := true } (((s0.play Lifecycle.start).play e2).play e3) := by
    cases hh : ((s0.play Lifecycle.start).play e2).hist with
    | nil =>
      have : ((s0.play Lifecycle.start).play e2).hist.isEmpty = false := by decide +kernel
      rw [hh] at this; cases this
    | cons v old => exact play_step hh (by rw [hv]; exact .raw (msg := "not yet") rfl (by decide +kernel)) (fun h => nomatch h) h2
  cases hh : (((s0.play Lifecycle.start).play e2).play e3).hist.head? with
  | none =>
    have : (((s0.play Lifecycle.start).play e2).play e3).hist.head?.isSome = true := by decide +kernel
    rw [hh] at this; cases this
  | some cur =>
    have hm : (((s0.play Lifecycle.start).play e2).play e3).hist.head?.map (fun o => (o.deleting, o.st.phase, o.pid)) = some (false, .running, "p") := by decide +kernel
    rw [hh] at hm
    simp only [Option.map_some, Option.some.injEq, Prod.mk.injEq] at hm
    obtain ⟨k1, k2, k3⟩ := hm
    exact ⟨_, cur, h3, hh, k1, k2, by decide +kernel, fun e => C141_never_again e cur (by rw [k3]; decide) (by rw [k2]; decide) (by rw [k2]; decide)⟩

/-- C141 fails also with a driver that does not implement `GetMachineStatus` (which the contract allows): after a failed initialisation the next run goes on as if it had succeeded. -/
theorem C141_blind_false : ∃ s cur, Reach { blind := true } s ∧ s.Stored cur ∧ cur.deleting = false ∧ cur.st.phase = .pending ∧ s.vm = some ⟨"n", "p", false⟩ ∧ ∀ e, calls e cur = [] := by
  let e2 : Env := { c := { now := 1 * minute, status := .err blindText none, create := .ok "n" "p", init := noInit } }
  let e3 : Env := { c := { now := 2 * minute, status := .err blindText none } }
  let s0 : S := { hist := [({} : Obj)] }
  have hbl : ∀ vm, Answers { blind := true } vm (.err blindText none) := fun _ => .blind (msg := "no status") rfl (by decide +kernel)
  have h0 : Reach { blind := true } s0 := .new ⟨rfl, rfl, rfl, rfl, rfl⟩
  have h1 : Reach { blind := true } (s0.play Lifecycle.start) := play_step rfl (start_answers _) (fun _ _ => nofun) h0
  have h2 : Reach { blind := true } ((s0.play Lifecycle.start).play e2) := play_step rfl (hbl _) (fun _ _ => nofun) h1
  have h3 : Reach { blind := true } (((s0.play Lifecycle.start).play e2).play e3) := by
    cases hh : ((s0.play Lifecycle.start).play e2).hist with
    | nil =>
      have : ((s0.play Lifecycle.start).play e2).hist.isEmpty = false := by decide +kernel
      rw [hh] at this; cases this
    | cons v old => exact play_step hh (hbl _) (fun _ _ => nofun) h2
  cases hh : (((s0.play Lifecycle.start).play e2).play e3).hist.head? with
  | none =>
    have : (((s0.play Lifecycle.start).play e2).play e3).hist.head?.isSome = true := by decide +kernel
    rw [hh] at this; cases this
  | some cur =>
    have hm : (((s0.play Lifecycle.start).play e2).play e3).hist.head?.map (fun o => (o.deleting, o.st.phase, o.pid)) = some (false, .pending, "p") := by decide +kernel
    rw [hh] at hm
    simp only [Option.map_some, Option.some.injEq, Prod.mk.injEq] at hm
    obtain ⟨k1, k2, k3⟩ := hm
    exact ⟨_, cur, h3, hh, k1, k2, by decide +kernel, fun e => C141_never_again e cur (by rw [k3]; decide) (by rw [k2]; decide) (by rw [k2]; decide)⟩

/-- the ordinary case: a failed initialisation is repeated, succeeds, and then the machine is waited for -/
example : let s := ((({ hist := [({} : Obj)] } : S).play Lifecycle.start).play
      { c := { now := 1 * minute, status := noVM, create := .ok "n" "p", init := noInit } }).play { c := { now := 2 * minute, status := .err rawText (some ("n", "p")) } }
    s.vm = some ⟨"n", "p", true⟩ ∧ (s.play { c := { now := 3 * minute, status := .ok "n" "p" } }).hist.head?.map (fun o => o.st.phase) = some .pending := by decide +kernel

end MCM.Initial
