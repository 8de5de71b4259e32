import Verif.Model.Lifecycle
import Verif.Props.Creation
import Verif.Props.Health
/-!
C90: the phase of a machine changes only as documented in /repo/docs/FAQ.md:220-240 and docs/images/machine_phase_transition.png.
C91: a machine that is terminating stays so.
-/
namespace MCM.Lifecycle
open MCM MCM.Similar MCM.Codes

/-! ### The documented graph -/

/-- the arrows of docs/images/machine_phase_transition.png, apart from those to `Terminating` -/
def documented : List (Phase × Phase) :=
  [(.empty, .crashLoopBackOff), (.empty, .pending), (.crashLoopBackOff, .crashLoopBackOff), (.crashLoopBackOff, .pending),
   (.crashLoopBackOff, .failed), (.pending, .running), (.pending, .failed), (.running, .unknown), (.unknown, .running), (.unknown, .failed)]

/-- A change between two versions of a machine follows the diagram: the phase is the same, or there is an arrow, or the machine is being
deleted and terminating. -/
def AsDocumented (old new : Obj) : Prop :=
  new.st.phase = old.st.phase ∨ (old.st.phase, new.st.phase) ∈ documented ∨ (new.st.phase = .terminating ∧ new.deleting = true)

/-! ### What the creation flow writes -/

/-- the states in which the creation flow is entered, machine.go:226 -/
def Creating (v : Creation.Obj) : Prop := v.pid = "" ∨ v.st.phase = .empty ∨ v.st.phase = .crashLoopBackOff

/-- a node label comes with a provider id and a priority -/
def Known (v : Creation.Obj) : Prop := v.node ≠ none → v.pid ≠ "" ∧ v.prio ≠ none

/-- a write leaves no node label without provider id and priority, and does not erase the provider id -/
def Kept (v o : Creation.Obj) : Prop := Known o ∧ (v.pid ≠ "" → o.pid ≠ "")

/-- what a run writes: nothing to the status; or a failure; or the end of a creation -/
def Wrote (v o : Creation.Obj) : Prop :=
  o.deleting = v.deleting ∧
  (o.st = v.st ∨ ((o.st.phase = .failed ∨ o.st.phase = .crashLoopBackOff) ∧ Creating v) ∨
   (o.st.phase = .pending ∧ (v.st.phase = .empty ∨ v.st.phase = .crashLoopBackOff) ∧ v.pid ≠ "" ∧ o.pid = v.pid))

theorem failurePhase_cases (e : Creation.Env) (v : Creation.Obj) :
    Creation.failurePhase e v = .failed ∨ Creation.failurePhase e v = .crashLoopBackOff := by
  unfold Creation.failurePhase
  split
  · exact .inl rfl
  · exact .inr rfl

theorem withStatus_exact {e : Creation.Env} {v : Creation.Obj} {new : MStatus} {r : Nat} {b : Bool} {ev : List Creation.Event}
    {before : Option Creation.Obj} {o : Creation.Obj}
    (h : (Creation.withStatus e v new r b ev before).wrote = some o) : o = { v with st := new } ∨ before = some o := by
  have hs : ∀ s, (statusUpdate e.now e.statusRes v.st new).1 = some s → s = new := by
    intro s hs
    unfold statusUpdate at hs
    split at hs
    · cases hs
    · split at hs
      · cases hs; rfl
      · cases hs
      · cases hs
  unfold Creation.withStatus at h
  split at h <;>
  · rename_i st _ heq
    dsimp only at h
    cases st with
    | none => exact .inr h
    | some s => simp at h; rw [hs s (by rw [heq])] at h; exact .inl h.symm

theorem initVM_exact {e : Creation.Env} {c : Creation.Obj} {ev : List Creation.Event} {before : Option Creation.Obj} {o : Creation.Obj}
    (h : (Creation.initVM e c ev before).wrote = some o) :
    (∃ s, o = { c with st := s } ∧ (s.phase = .failed ∨ s.phase = .crashLoopBackOff)) ∨ before = some o := by
  unfold Creation.initVM at h
  dsimp only at h
  split at h
  · exact .inr h
  · split at h
    · exact .inr h
    · split at h
      · exact .inr h
      · rcases withStatus_exact h with h | h
        · exact .inl ⟨_, h, failurePhase_cases e c⟩
        · exact .inr h

/-- the label update keeps what `Known` says, if the provider id is not empty or nothing needs to be written -/
theorem known_labelled (v : Creation.Obj) (n p : String) (hp : p ≠ "") (s : MStatus) : Kept v { Creation.labelled v n p with st := s } :=
  ⟨fun _ => ⟨hp, Creation.prio_set v n p⟩, fun _ => hp⟩

theorem record_spec {e : Creation.Env} {v : Creation.Obj} {n p : String} {u : Bool} {ev : List Creation.Event} {o : Creation.Obj}
    (hc : Creating v) (h : (Creation.record e v n p u ev).wrote = some o) :
    Wrote v o ∧ (Known v → (p ≠ "" ∨ Creation.needsLabels v = false) → Kept v o) := by
  have hl : ∀ x, (if (Creation.needsLabels v && e.labelRes == .ok) = true then some (Creation.labelled v n p) else none) = some x →
      x = Creation.labelled v n p ∧ Creation.needsLabels v = true := by
    intro x hx
    split at hx
    · rename_i hb
      rw [Bool.and_eq_true] at hb
      cases hx; exact ⟨rfl, hb.1⟩
    · cases hx
  unfold Creation.record at h
  dsimp only at h
  split at h
  · rcases initVM_exact h with ⟨s, rfl, hs⟩ | h
    · cases hw : (if (Creation.needsLabels v && e.labelRes == .ok) = true then some (Creation.labelled v n p) else none) with
      | none => exact ⟨⟨rfl, .inr (.inl ⟨hs, hc⟩)⟩, fun hk _ => ⟨hk, id⟩⟩
      | some x =>
        obtain ⟨rfl, hn⟩ := hl x hw
        refine ⟨⟨rfl, .inr (.inl ⟨hs, hc⟩)⟩, fun _ hp => ?_⟩
        rcases hp with hp | hp
        · exact known_labelled v n p hp _
        · rw [hn] at hp; cases hp
    · obtain ⟨rfl, hn⟩ := hl o h
      refine ⟨⟨rfl, .inl rfl⟩, fun _ hp => ?_⟩
      rcases hp with hp | hp
      · exact known_labelled v n p hp _
      · rw [hn] at hp; cases hp
  · split at h
    · obtain ⟨rfl, hn⟩ := hl o h
      refine ⟨⟨rfl, .inl rfl⟩, fun _ hp => ?_⟩
      rcases hp with hp | hp
      · exact known_labelled v n p hp _
      · rw [hn] at hp; cases hp
    · rename_i hn
      split at h
      · rename_i hph
        dsimp only at h
        split at h
        · cases h
          refine ⟨⟨rfl, .inr (.inr ⟨rfl, hph, ?_, rfl⟩)⟩, fun hk _ => ⟨hk, id⟩⟩
          intro hp
          apply hn
          unfold Creation.needsLabels
          rw [hp]; simp
        · cases h
      · cases h

theorem createError_spec {e : Creation.Env} {v : Creation.Obj} {t l : String} {ev : List Creation.Event} {o : Creation.Obj}
    (hc : Creating v) (h : (Creation.createError e v t l ev).wrote = some o) : Wrote v o ∧ (Known v → Kept v o) := by
  unfold Creation.createError at h
  rcases withStatus_exact h with h | h
  · subst h
    exact ⟨⟨rfl, .inr (.inl ⟨failurePhase_cases e v, hc⟩)⟩, fun hk => ⟨hk, id⟩⟩
  · cases h

theorem createStep_spec {e : Creation.Env} {v : Creation.Obj} {o : Creation.Obj} (hc : Creating v)
    (h : (Creation.createStep e v).wrote = some o) : Wrote v o ∧ (Proper e → Known v → Kept v o) := by
  unfold Creation.createStep at h
  dsimp only at h
  split at h
  · have := createError_spec hc h
    exact ⟨this.1, fun _ => this.2⟩
  · rename_i node pid he
    split at h
    · rcases withStatus_exact h with h | h
      · subst h
        exact ⟨⟨rfl, .inr (.inl ⟨.inl rfl, hc⟩)⟩, fun _ hk => ⟨hk, id⟩⟩
      · cases h
    · have := record_spec hc h
      exact ⟨this.1, fun hp hk => this.2 hk (.inl (hp.2.2 node pid he).2)⟩

theorem known_needs {v : Creation.Obj} (hk : Known v) {n : String} (hn : v.node = some n) : Creation.needsLabels v = false := by
  have := hk (by rw [hn]; simp)
  unfold Creation.needsLabels
  rw [hn]
  cases hp : v.prio with
  | none => exact absurd hp this.2
  | some p => simp [this.1]

theorem creation_spec {e : Creation.Env} {v : Creation.Obj} {o : Creation.Obj} (hc : Creating v)
    (h : (Creation.creation e v).wrote = some o) : Wrote v o ∧ (Proper e → Known v → Kept v o) := by
  unfold Creation.creation at h
  split at h
  · cases h
  · dsimp only at h
    split at h
    · rename_i node pid he
      have := record_spec hc h
      exact ⟨this.1, fun hp hk => this.2 hk (.inl (hp.1 node pid he).2)⟩
    · rename_i text resp he
      split at h
      · cases h
      · split at h
        · split at h
          · exact createStep_spec hc h
          · rename_i n hn
            have := record_spec hc h
            exact ⟨this.1, fun _ hk => this.2 hk (.inr (known_needs hk hn))⟩
        · split at h
          · exact createStep_spec hc h
          · rename_i n hn
            have := record_spec hc h
            exact ⟨this.1, fun _ hk => this.2 hk (.inr (known_needs hk hn))⟩
        · split at h
          · cases h
          · rename_i node pid
            have := record_spec hc h
            exact ⟨this.1, fun hp hk => this.2 hk (.inl (hp.2.1 text node pid he).2)⟩
        · have := createError_spec hc h
          exact ⟨this.1, fun _ => this.2⟩

theorem reconcile_spec {e : Creation.Env} {v : Creation.Obj} {o : Creation.Obj} (h : (Creation.reconcile e v).wrote = some o) :
    v.deleting = false ∧ Wrote v o ∧ (Proper e → Known v → Kept v o) := by
  unfold Creation.reconcile at h
  split at h
  · cases h
  · rename_i hd
    refine ⟨by cases hv : v.deleting <;> simp_all, ?_⟩
    split at h
    · cases h
    · split at h
      · cases h
      · split at h
        · dsimp only at h
          split at h
          · cases h; exact ⟨⟨rfl, .inl rfl⟩, fun _ hk => ⟨hk, id⟩⟩
          · cases h
        · split at h
          · cases h
          · split at h
            · rename_i hc
              exact creation_spec hc h
            · cases h

/-! ### What a run of the machine controller writes -/

theorem ofHealth_phase {p : Phase} (h : healthPhase p = .running) : p = .running := by
  cases p <;> first | rfl | cases h
theorem ofHealth_pending {p : Phase} (h : healthPhase p = .pending) : p = .pending := by
  cases p <;> first | rfl | cases h
theorem ofHealth_unknown {p : Phase} (h : healthPhase p = .unknown) : p = .unknown := by
  cases p <;> first | rfl | cases h

/-- the phases a health check writes, and from which -/
theorem check_spec (now : Int) (m : Health.Machine) (n : Health.NodeLookup) :
    (∀ p conds t, Health.check now m n = .status (some p) conds t →
      (p = .running ∧ m.phase ≠ .running) ∨ (p = .unknown ∧ m.phase = .running) ∨ (p = .failed ∧ m.phase = .pending)) ∧
    (Health.check now m n = .tryFail → m.phase = .unknown) := by
  have ht : (∀ p conds t, Health.timeouts now m = .status (some p) conds t →
      (p = .running ∧ m.phase ≠ .running) ∨ (p = .unknown ∧ m.phase = .running) ∨ (p = .failed ∧ m.phase = .pending)) ∧
      (Health.timeouts now m = .tryFail → m.phase = .unknown) := by
    rcases Health.timeouts_cases now m with h | h | ⟨h, hp, _⟩ | ⟨h, hp, _⟩ <;> rw [h]
    · exact ⟨nofun, nofun⟩
    · exact ⟨nofun, nofun⟩
    · refine ⟨fun p c t he => ?_, nofun⟩
      cases he; exact .inr (.inr ⟨rfl, hp⟩)
    · exact ⟨nofun, fun _ => hp⟩
  unfold Health.check
  split
  · exact ⟨nofun, nofun⟩
  · split
    · rename_i h
      refine ⟨fun p c t he => ?_, nofun⟩
      cases he; exact .inr (.inl ⟨rfl, h.2⟩)
    · exact ht
  · split
    · split
      · rename_i h
        refine ⟨fun p c t he => ?_, nofun⟩
        cases he; exact .inl ⟨rfl, h.1⟩
      · split
        · exact ⟨nofun, nofun⟩
        · exact ht
    · split
      · rename_i h
        refine ⟨fun p c t he => ?_, nofun⟩
        cases he; exact .inr (.inl ⟨rfl, h⟩)
      · split
        · exact ⟨nofun, nofun⟩
        · exact ht

theorem healthWrite_same (e : Env) (v : Obj) (p : Option Health.Phase) (conds : List Conditions.Cond) :
    (healthWrite e v p conds).deleting = v.deleting ∧ (healthWrite e v p conds).node = v.node ∧
    (healthWrite e v p conds).pid = v.pid ∧ (healthWrite e v p conds).prio = v.prio ∧
    (healthWrite e v p conds).st.phase = (p.map ofHealth).getD v.st.phase := by
  cases p <;> exact ⟨rfl, rfl, rfl, rfl, rfl⟩

/-- what a run of the machine controller does to the phase -/
def Changed (v o : Obj) : Prop :=
  o.st.phase = v.st.phase ∨
  ((o.st.phase = .failed ∨ o.st.phase = .crashLoopBackOff) ∧ Creating v.toObj) ∨
  (o.st.phase = .pending ∧ (v.st.phase = .empty ∨ v.st.phase = .crashLoopBackOff) ∧ v.pid ≠ "" ∧ o.pid = v.pid) ∨
  (o.st.phase = .running ∧ v.st.phase ≠ .empty ∧ v.node ≠ none) ∨
  (o.st.phase = .unknown ∧ v.st.phase = .running) ∨
  (o.st.phase = .failed ∧ (v.st.phase = .pending ∨ v.st.phase = .unknown))

theorem rest_spec {e : Env} {v o : Obj} (h : rest e v = some o) :
    v.deleting = false ∧ o.deleting = false ∧ Changed v o ∧ (Proper e.c → Known v.toObj → Kept v.toObj o.toObj) ∧
    (o.st.phase = v.st.phase → o.st = v.st ∨ Creating v.toObj) := by
  unfold rest at h
  cases hr : (Creation.reconcile { e.c with health := none } v.toObj).wrote with
  | none => rw [hr] at h; cases h
  | some x =>
    rw [hr] at h
    cases h
    have := reconcile_spec hr
    refine ⟨this.1, by rw [← this.1]; exact this.2.1.1, ?_, fun hp hk => this.2.2 hp hk, ?_⟩
    · rcases this.2.1.2 with h | h | h
      · exact .inl (congrArg MStatus.phase h)
      · exact .inr (.inl h)
      · exact .inr (.inr (.inl h))
    · intro _
      rcases this.2.1.2 with h | h | h
      · exact .inl h
      · exact .inr h.2
      · exact .inr (.inr h.2.1)

theorem run_spec {e : Env} {v o : Obj} (h : run e v = some o) :
    v.deleting = false ∧ o.deleting = false ∧ Changed v o ∧ (Proper e.c → Known v.toObj → Kept v.toObj o.toObj) := by
  have hrest : ∀ {o : Obj}, rest e v = some o → v.deleting = false ∧ o.deleting = false ∧ Changed v o ∧ (Proper e.c → Known v.toObj → Kept v.toObj o.toObj) :=
    fun h => ⟨(rest_spec h).1, (rest_spec h).2.1, (rest_spec h).2.2.1, (rest_spec h).2.2.2.1⟩
  unfold run at h
  split at h
  · rename_i hg
    obtain ⟨hg, hn, hp⟩ := hg
    have hd : v.deleting = false := by
      unfold gate at hg
      simp only [Bool.and_eq_true, Bool.not_eq_true'] at hg
      exact hg.1.1.1.1.1.1
    have hnode : v.node ≠ none := by
      intro h0; rw [h0] at hn; exact hn rfl
    have hs := check_spec e.c.now (asHealth v) e.node
    split at h
    · cases h
    · rename_i p conds t hc
      split at h
      · cases h
        have hw := healthWrite_same e v p conds
        refine ⟨hd, by rw [hw.1]; exact hd, ?_, fun _ hk => ?_⟩
        · cases p with
          | none => exact .inl hw.2.2.2.2
          | some p =>
            rcases hs.1 p conds t hc with ⟨rfl, _⟩ | ⟨rfl, hm⟩ | ⟨rfl, hm⟩
            · exact .inr (.inr (.inr (.inl ⟨hw.2.2.2.2, hp, hnode⟩)))
            · exact .inr (.inr (.inr (.inr (.inl ⟨hw.2.2.2.2, ofHealth_phase hm⟩))))
            · exact .inr (.inr (.inr (.inr (.inr ⟨hw.2.2.2.2, .inl (ofHealth_pending hm)⟩))))
        · unfold Kept Known
          rw [hw.2.1, hw.2.2.1, hw.2.2.2.1]
          exact ⟨hk, id⟩
      · cases h
    · rename_i hc
      split at h
      · cases h
        have hw := healthWrite_same e v (some .failed) v.conds
        refine ⟨hd, by rw [hw.1]; exact hd, ?_, fun _ hk => ?_⟩
        · exact .inr (.inr (.inr (.inr (.inr ⟨hw.2.2.2.2, .inr (ofHealth_unknown (hs.2 hc))⟩))))
        · unfold Kept Known
          rw [hw.2.1, hw.2.2.1, hw.2.2.2.1]
          exact ⟨hk, id⟩
      · cases h
    · split at h
      · cases h
      · exact hrest h
    · split at h
      · cases h
      · exact hrest h
  · exact hrest h

/-! ### Runs of the termination -/

theorem applyWrite_phase {e : Termination.Env} {t t' : Termination.Obj} {wr : Termination.Write} (ha : Termination.applyWrite e t wr = some t')
    (hw : ∀ b s, wr = .status b s → s.phase = .terminating) : t'.st.phase = .terminating ∨ t'.st = t.st := by
  unfold Termination.applyWrite at ha
  split at ha
  · split at ha
    · cases ha
    · cases ha; exact .inl (hw _ _ rfl)
  · cases ha; exact .inl (hw _ _ rfl)
  · cases ha; exact .inr rfl

theorem getVMStep_phase (e : Termination.Env) (t : Termination.Obj) (ht : t.st.phase = .terminating) (b : Bool) (s : MStatus)
    (h : (Termination.getVMStep e t).write = some (.status b s)) : s.phase = .terminating := by
  unfold Termination.getVMStep at h
  split at h
  · cases h; exact ht
  · split at h
    · cases h; exact ht
    · cases h; exact ht

theorem drainStep_phase (e : Termination.Env) (t : Termination.Obj) (ht : t.st.phase = .terminating) (b : Bool) (s : MStatus)
    (h : (Termination.drainStep e t).write = some (.status b s)) : s.phase = .terminating := by
  unfold Termination.drainStep at h
  split at h
  · cases h; exact ht
  · split at h
    · cases h
    · split at h
      · cases h; exact ht
      · cases h; exact ht

theorem volStep_phase (e : Termination.Env) (t : Termination.Obj) (ht : t.st.phase = .terminating) (b : Bool) (s : MStatus)
    (h : (Termination.volStep e t).write = some (.status b s)) : s.phase = .terminating := by
  unfold Termination.volStep at h
  split at h
  · cases h
  · cases h; exact ht
  · cases h; exact ht
  · split at h
    · cases h
    · cases h
    · cases h; exact ht

theorem nodeStep_phase (e : Termination.Env) (t : Termination.Obj) (ht : t.st.phase = .terminating) (b : Bool) (s : MStatus)
    (h : (Termination.nodeStep e t).write = some (.status b s)) : s.phase = .terminating := by
  unfold Termination.nodeStep at h
  split at h
  · cases h; exact ht
  · cases h; exact ht

/-- the termination writes the phase `Terminating` or leaves the status alone -/
theorem flow_phase {e : Termination.Env} {t t' : Termination.Obj} {wr : Termination.Write} (hf : (Termination.flow e t).write = some wr)
    (ha : Termination.applyWrite e t wr = some t') : t'.st.phase = .terminating ∨ t'.st = t.st := by
  refine applyWrite_phase ha fun b s hs => ?_
  subst hs
  unfold Termination.flow at hf
  split at hf
  · cases hf
  · split at hf
    · cases hf; rfl
    · rename_i hp
      have hp : t.st.phase = .terminating := Decidable.byContradiction fun h => hp h
      split at hf
      · exact getVMStep_phase e t hp b s hf
      · exact drainStep_phase e t hp b s hf
      · exact volStep_phase e t hp b s hf
      · unfold Termination.vmStep at hf
        cases hf; exact hp
      · exact nodeStep_phase e t hp b s hf
      · cases hf
      · cases hf; rfl

/-! ### Histories -/

/-- the phases these controllers write -/
def Usual (p : Phase) : Prop :=
  p = .empty ∨ p = .crashLoopBackOff ∨ p = .pending ∨ p = .running ∨ p = .unknown ∨ p = .failed ∨ p = .terminating

/-- what one accepted write does to the phase, whatever else happens -/
theorem step_spec {opts : Opts} {cur new : Obj} {old : List Obj} (h : Step opts (cur :: old) (new :: cur :: old)) :
    (cur.deleting = true → new.deleting = true) ∧
    ((cur.deleting = false ∧ Changed cur new) ∨ new.st = cur.st ∨
     (new.st.phase = .terminating ∧ new.deleting = cur.deleting ∧ (cur.deleting = true ∨ opts.deleteFails = true ∨ opts.reused = true)) ∨
     (new.st.phase = .running ∧ (∃ v ∈ cur :: old, v.st.phase = .unknown) ∧ (opts.resets = true ∨ cur.st.phase = .unknown))) := by
  cases h with
  | machine e hr _ =>
    have := run_spec hr
    exact ⟨fun hd => (by rw [this.1] at hd; cases hd), .inl ⟨this.1, this.2.2.1⟩⟩
  | terminate e t t' wr hd hst hfin hdel hf ha =>
    refine ⟨id, ?_⟩
    rcases flow_phase hf ha with h | h
    · exact .inr (.inr (.inl ⟨h, rfl, hd.imp id Or.inr⟩))
    · exact .inr (.inl (h.trans hst))
  | termLabel n hd hp => exact ⟨id, .inr (.inl rfl)⟩
  | delete => exact ⟨fun _ => rfl, .inr (.inl rfl)⟩
  | announce now hd => exact ⟨id, .inr (.inr (.inl ⟨rfl, rfl, hd.imp id Or.inl⟩))⟩
  | reset v now hv hu ho => exact ⟨id, .inr (.inr (.inr ⟨rfl, ⟨v, hv, hu⟩, ho⟩))⟩
  | edit hst hd _ _ => exact ⟨fun h => hd.trans h, .inr (.inl hst)⟩

/-- every write adds one version -/
theorem step_shape {opts : Opts} {h h' : List Obj} (hs : Step opts h h') : ∃ new cur old, h = cur :: old ∧ h' = new :: cur :: old := by
  cases hs <;> exact ⟨_, _, _, rfl, rfl⟩

/-- a property of versions that new machines have and that every write preserves holds for all versions -/
theorem hist_all {opts : Opts} {P : Obj → Prop} (h0 : ∀ o, New o → P o)
    (hstep : ∀ cur new old, Step opts (cur :: old) (new :: cur :: old) → (∀ o ∈ cur :: old, P o) → P new)
    {h : List Obj} (hh : Hist opts h) : ∀ o ∈ h, P o := by
  induction hh with
  | new hn => intro o ho; rw [List.mem_singleton.1 ho]; exact h0 _ hn
  | step _ hs ih =>
    obtain ⟨new, cur, old, rfl, rfl⟩ := step_shape hs
    intro o ho
    rcases List.mem_cons.1 ho with rfl | ho
    · exact hstep _ _ _ hs ih
    · exact ih o ho

/-- two successive versions in a history are joined by a write -/
theorem hist_pair {opts : Opts} {h : List Obj} (hh : Hist opts h) : ∀ {pre : List Obj} {new cur : Obj} {old : List Obj},
    h = pre ++ new :: cur :: old → Hist opts (cur :: old) ∧ Step opts (cur :: old) (new :: cur :: old) := by
  induction hh with
  | new hn =>
    intro pre new cur old he
    cases pre with
    | nil => cases he
    | cons a pre => cases pre <;> cases he
  | step hp hs ih =>
    intro pre new cur old he
    obtain ⟨n, c, o, rfl, rfl⟩ := step_shape hs
    cases pre with
    | nil => cases he; exact ⟨hp, hs⟩
    | cons a pre =>
      injection he with _ he
      exact ih he

theorem usual_changed {v o : Obj} (h : Changed v o) (hv : Usual v.st.phase) : Usual o.st.phase := by
  unfold Usual at *
  rcases h with h | ⟨h | h, _⟩ | ⟨h, _⟩ | ⟨h, _⟩ | ⟨h, _⟩ | ⟨h, _⟩ <;> rw [h]
  · exact hv
  all_goals simp

theorem hist_usual {opts : Opts} {h : List Obj} (hh : Hist opts h) : ∀ o ∈ h, Usual o.st.phase := by
  refine hist_all (fun o ho => .inl (by rw [ho.1])) (fun cur new old hs ih => ?_) hh
  have hc := ih cur (List.mem_cons_self ..)
  rcases (step_spec hs).2 with ⟨_, h⟩ | h | ⟨h, _⟩ | ⟨h, _⟩
  · exact usual_changed h hc
  · rw [h]; exact hc
  · rw [h]; simp [Usual]
  · rw [h]; simp [Usual]

/-- Once a machine has a phase it has one for ever. -/
theorem hist_empty {opts : Opts} {h : List Obj} (hh : Hist opts h) :
    ∀ {pre : List Obj} {new cur : Obj} {old : List Obj}, h = pre ++ new :: cur :: old → new.st.phase = .empty →
      ∀ v ∈ cur :: old, v.st.phase = .empty := by
  induction hh with
  | new hn =>
    intro pre new cur old he
    cases pre with
    | nil => cases he
    | cons a pre => cases pre <;> cases he
  | step hp hs ih =>
    intro pre new cur old he hne
    obtain ⟨n, c, o, rfl, rfl⟩ := step_shape hs
    cases pre with
    | cons a pre =>
      injection he with _ he
      exact ih he hne
    | nil =>
      cases he
      have hc : cur.st.phase = .empty := by
        rcases (step_spec hs).2 with ⟨_, h⟩ | h | ⟨h, _⟩ | ⟨h, _⟩
        · rcases h with h | ⟨h | h, _⟩ | ⟨h, _⟩ | ⟨h, _⟩ | ⟨h, _⟩ | ⟨h, _⟩ <;> rw [hne] at h
          · exact h.symm
          all_goals cases h
        · rw [← h]; exact hne
        · rw [hne] at h; cases h
        · rw [hne] at h; cases h
      intro v hv
      rcases List.mem_cons.1 hv with rfl | hv
      · exact hc
      · cases old with
        | nil => cases hv
        | cons b old => exact ih (pre := []) rfl hc v hv

/-! ### C90 -/

/-- C90, for every machine and whatever else happens: no phase is ever withdrawn; a machine becomes pending only if it had no phase or was crash
looping; it becomes unknown only if it was running; it becomes running only if it had a phase. -/
theorem C90_always (opts : Opts) (pre old : List Obj) (new cur : Obj) (h : Hist opts (pre ++ new :: cur :: old))
    (hne : new.st.phase ≠ cur.st.phase) :
    new.st.phase ≠ .empty ∧
    (new.st.phase = .pending → cur.st.phase = .empty ∨ cur.st.phase = .crashLoopBackOff) ∧
    (new.st.phase = .unknown → cur.st.phase = .running) ∧
    (new.st.phase = .running → cur.st.phase ≠ .empty) := by
  obtain ⟨hh, hs⟩ := hist_pair h rfl
  rcases (step_spec hs).2 with ⟨_, h'⟩ | h' | ⟨h', _⟩ | ⟨h', ⟨v, hv, hu⟩, _⟩
  · rcases h' with h | ⟨h | h, _⟩ | ⟨h, hp, _⟩ | ⟨h, hp, _⟩ | ⟨h, hp⟩ | ⟨h, _⟩
    · exact absurd h hne
    all_goals rw [h]
    · exact ⟨nofun, nofun, nofun, nofun⟩
    · exact ⟨nofun, nofun, nofun, nofun⟩
    · exact ⟨nofun, fun _ => hp, nofun, nofun⟩
    · exact ⟨nofun, nofun, nofun, fun _ => hp⟩
    · exact ⟨nofun, nofun, fun _ => hp, nofun⟩
    · exact ⟨nofun, nofun, nofun, nofun⟩
  · exact absurd (congrArg MStatus.phase h') hne
  · rw [h']; exact ⟨nofun, nofun, nofun, nofun⟩
  · rw [h']
    refine ⟨nofun, nofun, nofun, fun _ hc => ?_⟩
    rcases List.mem_cons.1 hv with rfl | hv
    · rw [hc] at hu; cases hu
    · cases old with
      | nil => cases hv
      | cons b old =>
        have := hist_empty hh (pre := []) rfl hc v hv
        rw [hu] at this; cases this

/-- the changes that the documentation does not know -/
def undocumented : List (Phase × Phase) :=
  [(.empty, .failed), (.crashLoopBackOff, .running), (.failed, .running), (.failed, .crashLoopBackOff)]

/-- what is known of every version if nothing unusual happens -/
def Tidy (o : Obj) : Prop :=
  (o.st.phase = .terminating → o.deleting = true) ∧
  (o.deleting = false → Known o.toObj) ∧
  (o.deleting = false → o.st.phase = .pending ∨ o.st.phase = .running ∨ o.st.phase = .unknown → o.pid ≠ "")

theorem tidy_step {cur new : Obj} {old : List Obj} (hs : Step {} (cur :: old) (new :: cur :: old)) (hc : Tidy cur) : Tidy new := by
  obtain ⟨h1, h2, h3⟩ := hc
  have hss := step_spec hs
  have hterm : new.st.phase = .terminating → new.deleting = true := by
    intro hn
    rcases hss.2 with ⟨hd, h⟩ | h | ⟨_, h, hd⟩ | ⟨h, _⟩
    · rcases h with h | ⟨h | h, _⟩ | ⟨h, _⟩ | ⟨h, _⟩ | ⟨h, _⟩ | ⟨h, _⟩ <;> rw [hn] at h
      · rw [h1 h.symm] at hd; cases hd
      all_goals cases h
    · exact hss.1 (h1 (by rw [← h]; exact hn))
    · rcases hd with hd | hd | hd
      · rw [h]; exact hd
      · cases hd
      · cases hd
    · rw [hn] at h; cases h
  refine ⟨hterm, ?_, ?_⟩
  · intro hd
    cases hs with
    | machine e hr hp =>
      have := run_spec hr
      exact (this.2.2.2 (hp rfl) (h2 this.1)).1
    | terminate => exact h2 hd
    | termLabel n hdd hp => rcases hdd with hdd | hdd
                            · rw [show cur.deleting = false from hd] at hdd; cases hdd
                            · cases hdd
    | delete => cases hd
    | announce => exact h2 hd
    | reset => exact h2 hd
    | edit hst hdel _ hk =>
      have := hk rfl
      unfold Known
      rw [this.1, this.2.1, this.2.2]
      exact h2 (hdel.symm.trans hd)
  · intro hd hp
    cases hs with
    | machine e hr hpr =>
      have hr' := run_spec hr
      have hk := hr'.2.2.2 (hpr rfl) (h2 hr'.1)
      refine hk.2 ?_
      rcases hr'.2.2.1 with h | ⟨h, _⟩ | ⟨_, _, h, _⟩ | ⟨_, _, h⟩ | ⟨_, h⟩ | ⟨h, _⟩
      · exact h3 hr'.1 (by rw [← h]; exact hp)
      · rcases h with h | h <;> rw [h] at hp <;> simp at hp
      · exact h
      · exact (h2 hr'.1 h).1
      · exact h3 hr'.1 (.inr (.inl h))
      · rw [h] at hp; simp at hp
    | terminate e t t' wr hdd => rcases hdd with hdd | hdd
                                 · rw [show cur.deleting = false from hd] at hdd; cases hdd
                                 · cases hdd
    | termLabel n hdd => rcases hdd with hdd | hdd
                         · rw [show cur.deleting = false from hd] at hdd; cases hdd
                         · cases hdd
    | delete => cases hd
    | announce => rcases hp with hp | hp | hp <;> cases hp
    | reset v now hv hu ho => rcases ho with ho | ho
                              · cases ho
                              · exact h3 hd (.inr (.inr ho))
    | edit hst hdel _ hk => rw [(hk rfl).2.1]; exact h3 (hdel.symm.trans hd) (by rw [← hst]; exact hp)

theorem hist_tidy {h : List Obj} (hh : Hist {} h) : ∀ o ∈ h, Tidy o := by
  refine hist_all (fun o ho => ?_) (fun cur new old hs ih => tidy_step hs (ih cur (List.mem_cons_self ..))) hh
  obtain ⟨hst, _, hn, _, _⟩ := ho
  exact ⟨fun h => (by rw [hst] at h; cases h), fun _ h => absurd hn h, fun _ h => (by rw [hst] at h; simp at h)⟩

/-- C90, as far as it is true: if requests to delete the machine are answered, the name was not used before, nobody else writes node label,
priority and provider id, the provider gives names and ids, and the safety controller's cache is up to date, the phase changes along the
arrows of the documentation, or along one of four others. -/
theorem C90_documented_partial (pre old : List Obj) (new cur : Obj) (h : Hist {} (pre ++ new :: cur :: old)) :
    AsDocumented cur new ∨ (cur.st.phase, new.st.phase) ∈ undocumented := by
  obtain ⟨hh, hs⟩ := hist_pair h rfl
  have ht := hist_tidy hh cur (List.mem_cons_self ..)
  have hu := hist_usual hh cur (List.mem_cons_self ..)
  rcases (step_spec hs).2 with ⟨hd, h'⟩ | h' | ⟨h', hdn, hd⟩ | ⟨h', _, ho⟩
  · have hnt : cur.st.phase ≠ .terminating := fun hc => by rw [ht.1 hc] at hd; cases hd
    rcases h' with h' | ⟨h', hc⟩ | ⟨h', hp | hp, _⟩ | ⟨h', hp, hn⟩ | ⟨h', hp⟩ | ⟨h', hp | hp⟩
    · exact .inl (.inl h')
    · have hcur : cur.st.phase = .empty ∨ cur.st.phase = .crashLoopBackOff ∨ cur.st.phase = .failed := by
        rcases hc with hc | hc | hc
        · have := ht.2.2 hd
          rcases hu with hu | hu | hu | hu | hu | hu | hu
          · exact .inl hu
          · exact .inr (.inl hu)
          · exact absurd hc (this (.inl hu))
          · exact absurd hc (this (.inr (.inl hu)))
          · exact absurd hc (this (.inr (.inr hu)))
          · exact .inr (.inr hu)
          · exact absurd hu hnt
        · exact .inl hc
        · exact .inr (.inl hc)
      unfold AsDocumented
      rcases h' with h' | h' <;> rcases hcur with hcur | hcur | hcur <;> rw [h', hcur] <;> simp [documented, undocumented]
    · unfold AsDocumented; rw [h', hp]; simp [documented, undocumented]
    · unfold AsDocumented; rw [h', hp]; simp [documented, undocumented]
    · unfold AsDocumented
      rcases hu with hu | hu | hu | hu | hu | hu | hu
      · exact absurd hu hp
      · rw [h', hu]; simp [documented, undocumented]
      · rw [h', hu]; simp [documented, undocumented]
      · rw [h', hu]; simp [documented, undocumented]
      · rw [h', hu]; simp [documented, undocumented]
      · rw [h', hu]; simp [documented, undocumented]
      · exact absurd hu hnt
    · unfold AsDocumented; rw [h', hp]; simp [documented, undocumented]
    · unfold AsDocumented; rw [h', hp]; simp [documented, undocumented]
    · unfold AsDocumented; rw [h', hp]; simp [documented, undocumented]
  · exact .inl (.inl (congrArg MStatus.phase h'))
  · rcases hd with hd | hd | hd
    · exact .inl (.inr (.inr ⟨h', hdn.trans hd⟩))
    · cases hd
    · cases hd
  · rcases ho with ho | ho
    · cases ho
    · left; unfold AsDocumented; rw [h', ho]; simp [documented]

/-! ### The reasons given with the arrows -/

/-- the creation timeout has passed since the machine was created -/
def Late (e : Creation.Env) (v : Creation.Obj) : Prop := e.now - v.created > v.creationTimeout

/-- the VM that was created has the name of a node that exists already -/
def Stale (e : Creation.Env) (v : Creation.Obj) : Prop := ∃ n p, e.create = .ok n p ∧ n ∈ e.nodes ∧ n ≠ v.name

theorem failurePhase_late {e : Creation.Env} {v : Creation.Obj} (h : Creation.failurePhase e v = .failed) : Late e v := by
  unfold Creation.failurePhase at h
  split at h
  · unfold Late; omega
  · cases h

theorem initVM_failed {e : Creation.Env} {c : Creation.Obj} {ev : List Creation.Event} {before : Option Creation.Obj} {o : Creation.Obj}
    (h : (Creation.initVM e c ev before).wrote = some o) (ho : o.st.phase = .failed) : Late e c ∨ before = some o := by
  unfold Creation.initVM at h
  dsimp only at h
  split at h
  · exact .inr h
  · split at h
    · exact .inr h
    · split at h
      · exact .inr h
      · rcases withStatus_exact h with h | h
        · subst h; exact .inl (failurePhase_late ho)
        · exact .inr h

theorem record_failed {e : Creation.Env} {v : Creation.Obj} {n p : String} {u : Bool} {ev : List Creation.Event} {o : Creation.Obj}
    (h : (Creation.record e v n p u ev).wrote = some o) (ho : o.st.phase = .failed) (hv : v.st.phase ≠ .failed) : Late e v := by
  have hl : ∀ x, (if (Creation.needsLabels v && e.labelRes == .ok) = true then some (Creation.labelled v n p) else none) = some x →
      x = Creation.labelled v n p := by
    intro x hx
    split at hx
    · cases hx; rfl
    · cases hx
  unfold Creation.record at h
  dsimp only at h
  split at h
  · rcases initVM_failed h ho with h | h
    · cases hw : (if (Creation.needsLabels v && e.labelRes == .ok) = true then some (Creation.labelled v n p) else none) with
      | none => rw [hw] at h; exact h
      | some x => rw [hw, hl x hw] at h; exact h
    · rw [hl o h] at ho; exact absurd ho hv
  · split at h
    · rw [hl o h] at ho; exact absurd ho hv
    · split at h
      · dsimp only at h
        split at h
        · cases h; cases ho
        · cases h
      · cases h

theorem createError_failed {e : Creation.Env} {v : Creation.Obj} {t l : String} {ev : List Creation.Event} {o : Creation.Obj}
    (h : (Creation.createError e v t l ev).wrote = some o) (ho : o.st.phase = .failed) : Late e v := by
  unfold Creation.createError at h
  rcases withStatus_exact h with h | h
  · subst h; exact failurePhase_late ho
  · cases h

theorem createStep_failed {e : Creation.Env} {v : Creation.Obj} {o : Creation.Obj}
    (h : (Creation.createStep e v).wrote = some o) (ho : o.st.phase = .failed) (hv : v.st.phase ≠ .failed) : Late e v ∨ Stale e v := by
  unfold Creation.createStep at h
  dsimp only at h
  split at h
  · exact .inl (createError_failed h ho)
  · rename_i node pid he
    split at h
    · rename_i hs; exact .inr ⟨node, pid, he, hs⟩
    · exact .inl (record_failed h ho hv)

theorem reconcile_failed {e : Creation.Env} {v : Creation.Obj} {o : Creation.Obj}
    (h : (Creation.reconcile e v).wrote = some o) (ho : o.st.phase = .failed) (hv : v.st.phase ≠ .failed) : Late e v ∨ Stale e v := by
  unfold Creation.reconcile at h
  split at h
  · cases h
  · split at h
    · cases h
    · split at h
      · cases h
      · split at h
        · dsimp only at h
          split at h
          · cases h; exact absurd ho hv
          · cases h
        · split at h
          · cases h
          · split at h
            · unfold Creation.creation at h
              split at h
              · cases h
              · dsimp only at h
                split at h
                · exact .inl (record_failed h ho hv)
                · split at h
                  · cases h
                  · split at h
                    · split at h
                      · exact createStep_failed h ho hv
                      · exact .inl (record_failed h ho hv)
                    · split at h
                      · exact createStep_failed h ho hv
                      · exact .inl (record_failed h ho hv)
                    · split at h
                      · cases h
                      · exact .inl (record_failed h ho hv)
                    · exact .inl (createError_failed h ho)
            · cases h

theorem rest_failed {e : Env} {v o : Obj} (h : rest e v = some o) (ho : o.st.phase = .failed) (hv : v.st.phase ≠ .failed) :
    Late e.c v.toObj ∨ Stale e.c v.toObj := by
  unfold rest at h
  cases hr : (Creation.reconcile { e.c with health := none } v.toObj).wrote with
  | none => rw [hr] at h; cases h
  | some x =>
    rw [hr] at h
    cases h
    have := reconcile_failed hr ho hv
    exact this

/-- the node of a machine is healthy and, for pending machines, without the taint -/
def Joined (e : Env) (v : Obj) : Prop := ∃ n, e.node = .found n ∧ Health.isHealthy v.bad (Health.seen (asHealth v) n) = true ∧
  (v.st.phase = .pending → n.critical = false)

/-- the node of a machine is gone or not healthy -/
def Sick (e : Env) (v : Obj) : Prop := e.node = .notFound ∨ ∃ n, e.node = .found n ∧ Health.isHealthy v.bad (Health.seen (asHealth v) n) = false

theorem check_causes (e : Env) (v : Obj) :
    (∀ conds t, Health.check e.c.now (asHealth v) e.node = .status (some .running) conds t → Joined e v) ∧
    (∀ conds t, Health.check e.c.now (asHealth v) e.node = .status (some .unknown) conds t → Sick e v) ∧
    (∀ conds t, Health.check e.c.now (asHealth v) e.node = .status (some .failed) conds t → e.c.now - v.st.phaseTime > v.creationTimeout) ∧
    (Health.check e.c.now (asHealth v) e.node = .tryFail → e.c.now - v.st.phaseTime > v.healthTimeout) := by
  have ht := Health.timeouts_cases e.c.now (asHealth v)
  have hto : ∀ P1 P2 : Prop, (∀ conds t, Health.timeouts e.c.now (asHealth v) = .status (some .running) conds t → P1) ∧
      (∀ conds t, Health.timeouts e.c.now (asHealth v) = .status (some .unknown) conds t → P2) ∧
      (∀ conds t, Health.timeouts e.c.now (asHealth v) = .status (some .failed) conds t → e.c.now - v.st.phaseTime > v.creationTimeout) ∧
      (Health.timeouts e.c.now (asHealth v) = .tryFail → e.c.now - v.st.phaseTime > v.healthTimeout) := by
    intro P1 P2
    rcases ht with h | h | ⟨h, _, hp⟩ | ⟨h, _, hp⟩ <;> rw [h]
    · exact ⟨nofun, nofun, nofun, nofun⟩
    · exact ⟨nofun, nofun, nofun, nofun⟩
    · exact ⟨nofun, nofun, fun _ _ _ => hp, nofun⟩
    · exact ⟨nofun, nofun, nofun, fun _ => hp⟩
  cases hn : e.node with
  | error => unfold Health.check; exact ⟨nofun, nofun, nofun, nofun⟩
  | notFound =>
    unfold Health.check
    dsimp only
    split
    · exact ⟨nofun, fun _ _ _ => .inl hn, nofun, nofun⟩
    · exact hto _ _
  | found n =>
    unfold Health.check
    dsimp only
    cases hh : Health.isHealthy (asHealth v).bad (Health.seen (asHealth v) n) with
    | true =>
      rw [if_pos rfl]
      split
      · rename_i h
        refine ⟨fun _ _ _ => ⟨n, hn, hh, fun hp => ?_⟩, nofun, nofun, nofun⟩
        cases hc : n.critical with
        | false => rfl
        | true => exact absurd ⟨by show healthPhase v.st.phase = _; rw [hp]; rfl, hc⟩ h.2
      · split
        · exact ⟨nofun, nofun, nofun, nofun⟩
        · exact hto _ _
    | false =>
      rw [if_neg (by simp)]
      split
      · exact ⟨nofun, fun _ _ _ => .inr ⟨n, hn, hh⟩, nofun, nofun⟩
      · split
        · exact ⟨nofun, nofun, nofun, nofun⟩
        · exact hto _ _

/-- C90, the reasons written beside the arrows: a run makes a machine Running only if its node is healthy (and, coming from Pending, free of the taint);
Unknown only if its node is gone or not healthy; Failed, coming from Pending or Unknown with its VM known, only after the creation or
health timeout in that phase; Failed otherwise only after the creation timeout since the creation of the machine, or because its new
VM has the name of an existing node. -/
theorem C90_reasons (e : Env) (v o : Obj) (h : run e v = some o) (hne : o.st.phase ≠ v.st.phase) :
    (o.st.phase = .running → Joined e v) ∧ (o.st.phase = .unknown → Sick e v) ∧
    (o.st.phase = .failed → (v.st.phase = .pending ∧ e.c.now - v.st.phaseTime > v.creationTimeout) ∨
      (v.st.phase = .unknown ∧ e.c.now - v.st.phaseTime > v.healthTimeout) ∨
      (Creating v.toObj ∧ (Late e.c v.toObj ∨ Stale e.c v.toObj))) := by
  have hrest : rest e v = some o → (o.st.phase = .running → Joined e v) ∧ (o.st.phase = .unknown → Sick e v) ∧
      (o.st.phase = .failed → (v.st.phase = .pending ∧ e.c.now - v.st.phaseTime > v.creationTimeout) ∨
        (v.st.phase = .unknown ∧ e.c.now - v.st.phaseTime > v.healthTimeout) ∨
        (Creating v.toObj ∧ (Late e.c v.toObj ∨ Stale e.c v.toObj))) := by
    intro hr
    unfold rest at hr
    cases hx : (Creation.reconcile { e.c with health := none } v.toObj).wrote with
    | none => rw [hx] at hr; cases hr
    | some x =>
      have hro := hr
      rw [hx] at hr
      cases hr
      rcases (reconcile_spec hx).2.1.2 with hs | ⟨hs, hc⟩ | ⟨hs, _⟩
      · exact absurd (congrArg MStatus.phase hs) hne
      · refine ⟨fun ho => ?_, fun ho => ?_, fun ho => ?_⟩
        · rcases hs with hs | hs <;> rw [show x.st.phase = _ from ho] at hs <;> cases hs
        · rcases hs with hs | hs <;> rw [show x.st.phase = _ from ho] at hs <;> cases hs
        · exact .inr (.inr ⟨hc, rest_failed hro ho (fun hv => hne (ho.trans hv.symm))⟩)
      · refine ⟨fun ho => ?_, fun ho => ?_, fun ho => ?_⟩ <;> rw [show x.st.phase = _ from ho] at hs <;> cases hs
  unfold run at h
  split at h
  · have hc := check_causes e v
    have hs := check_spec e.c.now (asHealth v) e.node
    split at h
    · cases h
    · rename_i p conds t hk
      split at h
      · cases h
        have hw := healthWrite_same e v p conds
        cases p with
        | none => exact absurd hw.2.2.2.2 hne
        | some p =>
          rw [hw.2.2.2.2]
          rcases hs.1 p conds t hk with ⟨rfl, _⟩ | ⟨rfl, hm⟩ | ⟨rfl, hm⟩
          · exact ⟨fun _ => hc.1 _ _ hk, nofun, nofun⟩
          · exact ⟨nofun, fun _ => hc.2.1 _ _ hk, nofun⟩
          · exact ⟨nofun, nofun, fun _ => .inl ⟨ofHealth_pending hm, hc.2.2.1 _ _ hk⟩⟩
      · cases h
    · rename_i hk
      split at h
      · cases h
        have hw := healthWrite_same e v (some .failed) v.conds
        rw [hw.2.2.2.2]
        exact ⟨nofun, nofun, fun _ => .inr (.inl ⟨ofHealth_unknown (hs.2 hk), hc.2.2.2 hk⟩)⟩
      · cases h
    · split at h
      · cases h
      · exact hrest h
    · split at h
      · cases h
      · exact hrest h
  · exact hrest h

/-- C28: While the controller is frozen, no run writes to a machine: neither its phase nor its conditions, labels or provider id. -/
theorem C28_frozen_writes_nothing (e : Env) (v : Obj) (hf : e.c.frozen = true) : run e v = none := by
  have hr : rest e v = none := by
    unfold rest Creation.reconcile
    split
    · rfl
    · rw [if_pos (by show (e.c.frozen || !e.c.valid || !e.c.classFound) = true; rw [hf]; rfl)]; rfl
  unfold run
  rw [if_neg (by rintro ⟨h, _⟩; unfold gate at h; rw [hf] at h; simp at h)]
  exact hr

/-! ### C91 -/

/-- C91, as far as it is true: if requests to delete are answered, the name was not used before and the safety controller's cache is up to date,
a terminating machine is being deleted, and stays terminating. -/
theorem C91_terminating_final_partial (opts : Opts) (hd : opts.deleteFails = false) (hr : opts.reused = false) (hs : opts.resets = false)
    (pre mid post : List Obj) (old new : Obj) (h : Hist opts (pre ++ new :: mid ++ old :: post)) (ho : old.st.phase = .terminating) :
    old.deleting = true ∧ new.st.phase = .terminating := by
  have hdel : ∀ {h : List Obj}, Hist opts h → ∀ o ∈ h, o.st.phase = .terminating → o.deleting = true := by
    intro h hh
    refine hist_all (fun o ho h => by rw [ho.1] at h; cases h) (fun cur new old hst ih hn => ?_) hh
    have hc := ih cur (List.mem_cons_self ..)
    have hss := step_spec hst
    rcases hss.2 with ⟨hdf, h⟩ | h | ⟨_, h, hd'⟩ | ⟨h, _⟩
    · rcases h with h | ⟨h | h, _⟩ | ⟨h, _⟩ | ⟨h, _⟩ | ⟨h, _⟩ | ⟨h, _⟩ <;> rw [hn] at h
      · rw [hc h.symm] at hdf; cases hdf
      all_goals cases h
    · exact hss.1 (hc (by rw [← h]; exact hn))
    · rcases hd' with hd' | hd' | hd'
      · rw [h]; exact hd'
      · rw [hd] at hd'; cases hd'
      · rw [hr] at hd'; cases hd'
    · rw [hn] at h; cases h
  refine ⟨hdel h old (by simp) ho, ?_⟩
  induction mid generalizing pre new with
  | nil =>
    obtain ⟨hh, hst⟩ := hist_pair h (pre := pre) (new := new) (cur := old) (old := post) (by simp)
    have hod := hdel hh old (List.mem_cons_self ..) ho
    rcases (step_spec hst).2 with ⟨hdf, _⟩ | h | ⟨h, _⟩ | ⟨_, _, h | h⟩
    · rw [hod] at hdf; cases hdf
    · rw [h]; exact ho
    · exact h
    · rw [hs] at h; cases h
    · rw [ho] at h; cases h
  | cons m mid ih =>
    have hm := ih (pre ++ [new]) m (by simpa using h)
    obtain ⟨hh, hst⟩ := hist_pair h (pre := pre) (new := new) (cur := m) (old := mid ++ old :: post) (by simp)
    have hod := hdel hh m (List.mem_cons_self ..) hm
    rcases (step_spec hst).2 with ⟨hdf, _⟩ | h | ⟨h, _⟩ | ⟨_, _, h | h⟩
    · rw [hod] at hdf; cases hdf
    · rw [h]; exact hm
    · exact h
    · rw [hs] at h; cases h
    · rw [hm] at h; cases h

/-! ### Histories that leave the documented paths -/

/-- successive runs of the machine controller, each starting from the stored object; `none` if one of them writes nothing -/
def play : List Env → List Obj → Option (List Obj)
  | [], h => some h
  | _ :: _, [] => none
  | e :: es, cur :: old => match run e cur with
    | none => none
    | some new => play es (new :: cur :: old)

theorem play_hist {opts : Opts} : ∀ {es : List Env} {h h' : List Obj}, Hist opts h → (∀ e ∈ es, Proper e.c) → play es h = some h' → Hist opts h'
  | [], h, h', hh, _, hp => by cases hp; exact hh
  | _ :: _, [], _, _, _, hp => by cases hp
  | e :: es, cur :: old, h', hh, he, hp => by
    unfold play at hp
    split at hp
    · cases hp
    · rename_i new hr
      exact play_hist (.step hh (.machine e hr fun _ => he e (List.mem_cons_self ..))) (fun e' h => he e' (List.mem_cons_of_mem _ h)) hp

/-- `Proper`, decided -/
def properB (e : Creation.Env) : Bool :=
  (match e.status with
   | .ok n p => n ≠ "" && p ≠ ""
   | .err _ (some (n, p)) => n ≠ "" && p ≠ ""
   | .err _ none => true) &&
  (match e.create with
   | .ok n p => n ≠ "" && p ≠ ""
   | .err .. => true)

theorem proper_of {e : Creation.Env} (h : properB e = true) : Proper e := by
  unfold properB at h
  rw [Bool.and_eq_true] at h
  refine ⟨fun n p hs => ?_, fun t n p hs => ?_, fun n p hs => ?_⟩
  · rw [hs] at h; simpa using h.1
  · rw [hs] at h; simpa using h.1
  · rw [hs] at h; simpa using h.2

/-- a minute -/
def minute : Int := 60 * 1000000000

/-- the provider knows no VM -/
def noVM : Creation.StatusAns := .err "machine codes error: code = [NotFound] message = [no such VM]" none

/-- a healthy node -/
def readyNode : Health.NodeLookup := .found { conds := [{ type := "Ready", status := "True" }] }

/-- the phases of the history that starts with a new machine -/
def phases (es : List Env) : Option (List Phase) := (play es [({} : Obj)]).map fun h => h.map fun o : Obj => o.st.phase

/-- the first run adds the finalizer -/
def start : Env := { c := {} }

/-- an ordinary life: the VM is created, its labels are written, its creation is confirmed, the node joins, becomes unhealthy, recovers, and is
unhealthy for too long -/
example : phases [start,
    { c := { now := 1 * minute, status := noVM, create := .ok "n" "p", nodes := [] } },
    { c := { now := 2 * minute, status := .ok "n" "p" } },
    { c := { now := 3 * minute }, node := readyNode },
    { c := { now := 4 * minute }, node := .found { conds := [{ type := "Ready", status := "Unknown" }] } },
    { c := { now := 5 * minute }, node := readyNode },
    { c := { now := 6 * minute }, node := .notFound },
    { c := { now := 20 * minute }, node := .notFound, mark := true }] =
  some [.failed, .unknown, .running, .unknown, .running, .pending, .empty, .empty, .empty] := by decide +kernel

theorem phases_hist {opts : Opts} {es : List Env} {p : Phase} {l : List Phase} (h : phases es = some (p :: l))
    (he : es.all (fun e => properB e.c) = true) : ∃ cur old, Hist opts (cur :: old) ∧ play es [({} : Obj)] = some (cur :: old) ∧
      cur.st.phase = p ∧ old.map (fun o : Obj => o.st.phase) = l := by
  unfold phases at h
  cases hp : play es [({} : Obj)] with
  | none => rw [hp] at h; cases h
  | some x =>
    rw [hp] at h
    cases x with
    | nil => cases h
    | cons cur old =>
      simp only [Option.map_some, List.map_cons, Option.some.injEq, List.cons.injEq] at h
      refine ⟨cur, old, play_hist (.new ⟨rfl, rfl, rfl, rfl, rfl⟩) (fun e h => proper_of (List.all_eq_true.1 he e h)) hp, rfl, h⟩

theorem phases_pair {es : List Env} {p q : Phase} {l : List Phase} (h : phases es = some (q :: p :: l))
    (he : es.all (fun e => properB e.c) = true) :
    ∃ new cur old, Hist {} (new :: cur :: old) ∧ (cur.st.phase, new.st.phase) = (p, q) := by
  obtain ⟨cur, old, hh, _, hc, ho⟩ := phases_hist (opts := {}) h he
  cases old with
  | nil => cases ho
  | cons b old => injection ho with ho _; exact ⟨cur, b, old, hh, Prod.ext ho hc⟩

/-- a creation that fails, and an initialization that fails -/
def broken : Creation.CreateAns := .err "machine codes error: code = [ResourceExhausted] message = [no capacity]" ""
def noInit : Option String := some "machine codes error: code = [Internal] message = [cannot initialize]"

/-- no creation was possible for longer than the creation timeout, e.g. because the controller was not running -/
def late : List Env := [start, { c := { now := 21 * minute, status := noVM, create := broken } }]

/-- the initialization of the VM fails, but its node joins -/
def joined : List Env := [start,
  { c := { now := 1 * minute, status := noVM, create := .ok "n" "p", init := noInit } },
  { c := { now := 2 * minute }, node := readyNode }]

/-- the node joins after the machine was given up -/
def revived : List Env := [start,
  { c := { now := 1 * minute, status := noVM, create := .ok "n" "p" } },
  { c := { now := 2 * minute, status := .ok "n" "p" } },
  { c := { now := 23 * minute }, node := .notFound },
  { c := { now := 24 * minute }, node := readyNode }]

/-- the first VM has the name of an existing node, the second cannot be created -/
def again : List Env := [start,
  { c := { now := 1 * minute, status := noVM, create := .ok "n" "p", nodes := ["n"] } },
  { c := { now := 2 * minute, status := noVM, create := broken } }]

/-- C90 fails: each of the four changes happens, and none of them is documented. -/
theorem C90_undocumented_false : ∀ pq ∈ undocumented, ∃ new cur old, Hist {} (new :: cur :: old) ∧ (cur.st.phase, new.st.phase) = pq ∧
    ¬ AsDocumented cur new := by
  have key : ∀ pq ∈ undocumented, pq.2 ≠ pq.1 ∧ pq ∉ documented ∧ pq.2 ≠ .terminating := by decide
  have ex : ∀ pq ∈ undocumented, ∃ new cur old, Hist {} (new :: cur :: old) ∧ (cur.st.phase, new.st.phase) = pq := by
    intro pq h
    rcases List.mem_cons.1 h with rfl | h
    · exact phases_pair (es := late) (l := [.empty]) (by decide +kernel) (by decide +kernel)
    rcases List.mem_cons.1 h with rfl | h
    · exact phases_pair (es := joined) (l := [.empty, .empty]) (by decide +kernel) (by decide +kernel)
    rcases List.mem_cons.1 h with rfl | h
    · exact phases_pair (es := revived) (l := [.pending, .empty, .empty, .empty]) (by decide +kernel) (by decide +kernel)
    rw [List.mem_singleton.1 h]
    exact phases_pair (es := again) (l := [.empty, .empty]) (by decide +kernel) (by decide +kernel)
  intro pq h
  obtain ⟨new, cur, old, hh, hpq⟩ := ex pq h
  refine ⟨new, cur, old, hh, hpq, ?_⟩
  have hk := key pq h
  rw [← hpq] at hk
  rintro (h | h | ⟨h, _⟩)
  · exact hk.1 h
  · exact hk.2.1 h
  · exact hk.2.2 h

/-- the machine is running -/
def running : List Env := [start,
  { c := { now := 1 * minute, status := noVM, create := .ok "n" "p" } },
  { c := { now := 2 * minute, status := .ok "n" "p" } },
  { c := { now := 3 * minute }, node := readyNode }]

theorem runs_phase {opts : Opts} {e : Env} {cur new : Obj} {old : List Obj} (hh : Hist opts (cur :: old)) (hr : run e cur = some new)
    (hp : properB e.c = true) : Hist opts (new :: cur :: old) := .step hh (.machine e hr fun _ => proper_of hp)

/-- C90 fails: somebody erases the provider id of a running machine, the provider cannot be asked, and the machine is crash looping. -/
theorem C90_erased_id_false : ∃ new cur old, Hist { edits := true } (new :: cur :: old) ∧ cur.st.phase = .running ∧
    new.st.phase = .crashLoopBackOff := by
  obtain ⟨cur, old, hh, hp, hc, _⟩ := phases_hist (opts := { edits := true }) (es := running) (p := .running) (l := [.pending, .empty, .empty, .empty])
    (by decide +kernel) (by decide +kernel)
  have hcur : cur = ((play running [({} : Obj)]).getD []).headD {} := by rw [hp]; rfl
  have h1 : Hist { edits := true } ({ cur with pid := "" } :: cur :: old) := .step hh (.edit rfl rfl rfl nofun)
  let e : Env := { c := { now := 4 * minute, status := .err "machine codes error: code = [Unavailable] message = [try later]" none }, node := readyNode }
  have hr : (run e { cur with pid := "" }).map (fun o : Obj => o.st.phase) = some .crashLoopBackOff := by
    rw [hcur]; decide +kernel
  cases hn : run e { cur with pid := "" } with
  | none => rw [hn] at hr; cases hr
  | some new =>
    rw [hn] at hr
    injection hr with hr
    exact ⟨new, _, _, runs_phase h1 hn (by decide +kernel), hc, hr⟩

/-- C91 fails: the machine set controller announces a deletion although its request failed; a healthy node brings the machine back. -/
theorem C91_delete_failed_false : ∃ new cur old, Hist { deleteFails := true } (new :: cur :: old) ∧ cur.st.phase = .terminating ∧
    cur.deleting = false ∧ new.st.phase = .running := by
  obtain ⟨cur, old, hh, hp, hc, _⟩ := phases_hist (opts := { deleteFails := true }) (es := running) (p := .running) (l := [.pending, .empty, .empty, .empty])
    (by decide +kernel) (by decide +kernel)
  have hcur : cur = ((play running [({} : Obj)]).getD []).headD {} := by rw [hp]; rfl
  have h1 := Hist.step hh (.announce (4 * minute) (.inr rfl))
  let e : Env := { c := { now := 5 * minute }, node := readyNode }
  have hr := (show (run e { cur with st := { cur.st with
        desc := "Deleting machine from cloud provider", errorCode := "", state := "Processing", opType := "Delete", opTime := 4 * minute
        phase := .terminating, timeoutActive := false, phaseTime := 4 * minute } }).map (fun o : Obj => o.st.phase) = some .running by
    rw [hcur]; decide +kernel)
  have hdel : cur.deleting = false := by rw [hcur]; decide +kernel
  cases hn : run e { cur with st := { cur.st with
        desc := "Deleting machine from cloud provider", errorCode := "", state := "Processing", opType := "Delete", opTime := 4 * minute
        phase := .terminating, timeoutActive := false, phaseTime := 4 * minute } } with
  | none => rw [hn] at hr; cases hr
  | some new =>
    rw [hn] at hr
    injection hr with hr
    exact ⟨new, _, _, runs_phase h1 hn (by decide +kernel), rfl, hdel, hr⟩

/-- the machine is unknown -/
def lost : List Env := running ++ [{ c := { now := 4 * minute }, node := .notFound }]

/-- C91 fails: the safety controller, whose cache shows the machine unknown, sets a machine that is being deleted to running. -/
theorem C91_reset_false : ∃ new cur old, Hist { resets := true } (new :: cur :: old) ∧ cur.st.phase = .terminating ∧
    cur.deleting = true ∧ new.st.phase = .running := by
  obtain ⟨cur, old, hh, hp, hc, _⟩ := phases_hist (opts := { resets := true }) (es := lost) (p := .unknown) (l := [.running, .pending, .empty, .empty, .empty])
    (by decide +kernel) (by decide +kernel)
  have h1 := Hist.step (.step hh .delete) (.announce (5 * minute) (.inl rfl))
  exact ⟨_, _, _, .step h1 (.reset cur (6 * minute) (by simp) hc (.inl rfl)), rfl, rfl, rfl⟩

/-- C91 fails: a machine whose name is still in the queue of the termination is terminated although nobody asked for it. -/
theorem C91_reused_name_false : ∃ new cur old, Hist { reused := true } (new :: cur :: old) ∧ cur.st.phase = .running ∧
    new.st.phase = .terminating ∧ new.deleting = false := by
  obtain ⟨cur, old, hh, hp, hc, _⟩ := phases_hist (opts := { reused := true }) (es := running) (p := .running) (l := [.pending, .empty, .empty, .empty])
    (by decide +kernel) (by decide +kernel)
  have hcur : cur = ((play running [({} : Obj)]).getD []).headD {} := by rw [hp]; rfl
  have hdel : cur.deleting = false := by rw [hcur]; decide +kernel
  have hfin : cur.finalizer = true := by rw [hcur]; decide +kernel
  let t : Termination.Obj := { st := cur.st }
  have hf : (Termination.flow {} t).write = some (.status false (Termination.termStatus {} t)) := by
    unfold Termination.flow
    rw [if_neg (by simp [t]), if_pos (by show cur.st.phase ≠ _; rw [hc]; simp)]
    rfl
  exact ⟨_, _, _, .step hh (.terminate {} t _ _ (.inr rfl) rfl (by rw [hfin]) (by rw [hdel]; rfl) hf rfl), hc, rfl, hdel⟩

end MCM.Lifecycle
