import Verif.Props.Lifecycle
/-!
C92: a machine whose VM can be created and whose node is healthy becomes Running.
-/
namespace MCM.Lifecycle
open MCM MCM.Similar MCM.Codes

/-- A run in which no call fails and the node, once there is one, is healthy and without the taint. -/
structure Good (e : Env) (vm : Creation.VM) (v : Obj) : Prop where
  coop : Creation.Coop e.c vm v.toObj
  health : e.healthRes = .ok
  sync : e.sync = false
  node : vm.node ≠ ""
  ready : ∃ n, e.node = .found n ∧ Health.Healthy v.bad n.conds ∧ (n.conds.map (·.type)).Nodup ∧ n.critical = false

/-- the machine knows its VM -/
def Recorded (vms : List Creation.VM) (v : Obj) : Prop :=
  ∃ x, vms = [x] ∧ v.finalizer = true ∧ v.node = some x.node ∧ v.pid = x.pid ∧ x.node ≠ "" ∧ x.pid ≠ "" ∧ v.prio ≠ none

/-- nothing is recorded yet; the VM may exist -/
def Unrecorded (vms : List Creation.VM) (v : Obj) : Prop :=
  v.node = none ∧ v.pid = "" ∧ vms.length ≤ 1 ∧ ∀ x ∈ vms, x.node ≠ "" ∧ x.pid ≠ ""

/-- how many runs are needed at most -/
inductive Left (vms : List Creation.VM) (v : Obj) : Nat → Prop
  | bare : v.finalizer = false → Unrecorded vms v → Left vms v 4
  | unrecorded : v.finalizer = true → Unrecorded vms v → Left vms v 3
  | recorded : Recorded vms v → v.st.phase = .empty → Left vms v 2
  | waiting : Recorded vms v → v.st.phase ≠ .empty → v.st.phase ≠ .running → Left vms v 1
  | running : Recorded vms v → v.st.phase = .running → Left vms v 0

/-- the phase only moves forward -/
def Onward (v o : Obj) : Prop := o.st.phase = v.st.phase ∨ (o.st.phase = .pending ∧ v.st.phase = .empty) ∨ o.st.phase = .running

/-- the priority is kept, or set to its default -/
def PrioKept (v o : Obj) : Prop := o.prio = v.prio ∨ o.prio = some "3"

/-- what does not change -/
def Same (v o : Obj) : Prop := o.deleting = false ∧ o.name = v.name ∧ o.bad = v.bad ∧ (o.conds.map (·.type)).Nodup ∧
  o.created = v.created ∧ Onward v o ∧ PrioKept v o

theorem recorded_left {vms : List Creation.VM} {v : Obj} (h : Recorded vms v) : ∃ k ≤ 2, Left vms v k := by
  by_cases h0 : v.st.phase = .empty
  · exact ⟨2, Nat.le_refl _, .recorded h h0⟩
  · by_cases h1 : v.st.phase = .running
    · exact ⟨0, by omega, .running h h1⟩
    · exact ⟨1, by omega, .waiting h h0 h1⟩

theorem gate_good {e : Env} {vm : Creation.VM} {vms : List Creation.VM} {v : Obj} (hg : Good e vm v) (hd : v.deleting = false)
    (hf : v.finalizer = true) : gate (truthful e vm vms) v = true := by
  have hc := hg.coop
  unfold gate
  show (!v.deleting && !e.c.frozen && e.c.valid && e.c.classFound && e.c.classFinalizer && e.c.templateOk && v.finalizer) = true
  rw [hd, hf, hc.running, hc.valid, hc.cls, hc.clsFin, hc.tmpl]; rfl

theorem truthful_c (e : Env) (vm : Creation.VM) (vms : List Creation.VM) (h : e.c.health = none) :
    { (truthful e vm vms).c with health := none } = Creation.answered e.c vm vms := by
  unfold truthful Creation.answered
  cases vms <;> simp [h]

theorem healthy_good {e : Env} {vm : Creation.VM} {v : Obj} (hg : Good e vm v) (hn : (v.conds.map (·.type)).Nodup) :
    ∃ n, e.node = .found n ∧ n.critical = false ∧ Health.isHealthy v.bad (Health.seen (asHealth v) n) = true ∧
      ((Health.seen (asHealth v) n).map (·.type)).Nodup := by
  obtain ⟨n, h1, h2, h3, h4⟩ := hg.ready
  refine ⟨n, h1, h4, (Health.healthy_conds (asHealth v) n ⟨hn, h3⟩).2 h2, ?_⟩
  unfold Health.seen
  split
  · exact h3
  · exact hn

/-- nothing recorded: the run records the VM, creating it if need be -/
theorem unrecorded_wrote {e : Creation.Env} {vm : Creation.VM} {vms : List Creation.VM} {v : Creation.Obj} (hc : Creation.Coop e vm v)
    (hd : v.deleting = false) (hf : v.finalizer = true) (hn : v.node = none) (hp : v.pid = "") (hl : vms.length ≤ 1) :
    ∃ x, (x ∈ vms ∨ x = vm) ∧ (if Creation.creates (Creation.answered e vm vms) v then vm :: vms else vms) = [x] ∧
      (Creation.reconcile (Creation.answered e vm vms) v).wrote = some (Creation.labelled v x.node x.pid) := by
  have hrd := Creation.ready_of (vms := vms) hc hd hf (.inl hp)
  match vms, hl with
  | [], _ =>
    refine ⟨vm, .inr rfl, ?_, ?_⟩
    · rw [if_pos (Creation.creates_of_none hrd hn rfl (.inl Creation.noVM_decodes))]
    · rw [Creation.reconcile_ready hrd]
      unfold Creation.creation
      rw [if_neg (by simp [hrd.user])]
      dsimp only
      rw [show (Creation.answered e vm []).status = .err (render .notFound "no such VM") none from rfl]
      dsimp only
      rw [Creation.noVM_decodes]
      dsimp only
      rw [hn]
      dsimp only
      unfold Creation.createStep
      rw [show (Creation.answered e vm []).create = .ok vm.node vm.pid from rfl]
      dsimp only
      rw [if_neg (by rintro ⟨k1, k2⟩; rcases hc.fresh with h | h; exact h k1; exact k2 h)]
      unfold Creation.record
      dsimp only
      rw [Creation.needs_none hn, if_pos rfl, show (Creation.answered e vm []).labelRes = .ok from hc.label]
      unfold Creation.initVM
      dsimp only
      rw [show (Creation.answered e vm []).init = none from hc.init]
      rfl
  | [x], _ =>
    obtain ⟨k1, k2⟩ := Creation.C26_adopts (Creation.answered e vm [x]) v x.node x.pid hrd rfl
    refine ⟨x, .inl (by simp), by rw [k1]; rfl, ?_⟩
    rw [Creation.reconcile_ready hrd]
    unfold Creation.creation
    rw [if_neg (by simp [hrd.user])]
    dsimp only
    rw [show (Creation.answered e vm [x]).status = .ok x.node x.pid from rfl]
    dsimp only
    unfold Creation.record
    dsimp only
    rw [Creation.needs_none hn, if_neg (by simp), if_pos rfl, show (Creation.answered e vm [x]).labelRes = .ok from hc.label]
    rfl
  | _ :: _ :: _, h => simp at h

theorem recorded_needs {vms : List Creation.VM} {v : Obj} (h : Recorded vms v) : Creation.needsLabels v.toObj = false := by
  obtain ⟨x, _, _, h2, h3, _, h5, h6⟩ := h
  unfold Creation.needsLabels
  rw [h2, h3]
  simp [h5]
  cases hv : v.prio <;> simp_all

theorem live_left {e : Env} {vm : Creation.VM} {vms : List Creation.VM} {v : Obj} (hg : Good e vm v) (hd : v.deleting = false)
    (hn : (v.conds.map (·.type)).Nodup) {k : Nat} (h : Left vms v k) :
    (∃ j ≤ k - 1, Left (live e vm (vms, v)).1 (live e vm (vms, v)).2 j) ∧ Same v (live e vm (vms, v)).2 := by
  have hc := hg.coop
  have hcc := truthful_c e vm vms hc.health
  -- runs that get to the creation flow
  have viaRest : ends (truthful e vm vms) v = false → run (truthful e vm vms) v = rest (truthful e vm vms) v →
      live e vm (vms, v) = (if Creation.creates (Creation.answered e.c vm vms) v.toObj then vm :: vms else vms,
        { v with toObj := (Creation.reconcile (Creation.answered e.c vm vms) v.toObj).wrote.getD v.toObj }) := by
    intro he hr
    unfold live asks
    dsimp only
    rw [he, hr, hcc]
    unfold rest
    rw [hcc]
    cases (Creation.reconcile (Creation.answered e.c vm vms) v.toObj).wrote <;> rfl
  have noHealth : ¬ (gate (truthful e vm vms) v = true ∧ v.node.getD "" ≠ "" ∧ v.st.phase ≠ .empty) →
      ends (truthful e vm vms) v = false ∧ run (truthful e vm vms) v = rest (truthful e vm vms) v := by
    intro h
    refine ⟨?_, ?_⟩
    · unfold ends; rw [decide_eq_false h]; rfl
    · unfold run; rw [if_neg h]
  cases h with
  | bare hf hu =>
    obtain ⟨he, hr⟩ := noHealth (by rintro ⟨h, _⟩; unfold gate at h; rw [hf] at h; simp at h)
    have hw : Creation.reconcile (Creation.answered e.c vm vms) v.toObj = { wrote := some { v.toObj with finalizer := true }, retry := shortRetry } := by
      unfold Creation.reconcile
      rw [if_neg (by simp [hd]), if_neg (by simp [Creation.answered, hc.running, hc.valid, hc.cls]),
        if_neg (by simp [Creation.answered, hc.clsFin, hc.tmpl]), if_pos (by simp [hf]),
        if_pos (show (Creation.answered e.c vm vms).finRes = .ok from hc.fin)]
    have hcr : Creation.creates (Creation.answered e.c vm vms) v.toObj = false := by unfold Creation.creates; rw [hw]; rfl
    rw [viaRest he hr, hcr, hw]
    exact ⟨⟨3, by omega, .unrecorded rfl hu⟩, hd, rfl, rfl, hn, rfl, .inl rfl, .inl rfl⟩
  | unrecorded hf hu =>
    obtain ⟨hu1, hu2, hu3, hu4⟩ := hu
    obtain ⟨he, hr⟩ := noHealth (by rintro ⟨_, h, _⟩; rw [hu1] at h; exact h rfl)
    obtain ⟨x, hx, hvms, hw⟩ := unrecorded_wrote (v := v.toObj) hc hd hf hu1 hu2 hu3
    rw [viaRest he hr, hvms, hw]
    have hxx : x.node ≠ "" ∧ x.pid ≠ "" := by
      rcases hx with hx | rfl
      · exact hu4 x hx
      · exact ⟨hg.node, hc.pid⟩
    have hrec : Recorded [x] { v with toObj := Creation.labelled v.toObj x.node x.pid } :=
      ⟨x, rfl, hf, rfl, rfl, hxx.1, hxx.2, Creation.prio_set _ _ _⟩
    obtain ⟨k, hk, hl⟩ := recorded_left hrec
    refine ⟨⟨k, hk, hl⟩, hd, rfl, rfl, hn, rfl, .inl rfl, ?_⟩
    show (if v.prio.getD "" = "" then some "3" else v.prio) = v.prio ∨ (if v.prio.getD "" = "" then some "3" else v.prio) = some "3"
    split
    · exact .inr rfl
    · exact .inl rfl
  | recorded hrec hp =>
    have hneed := recorded_needs hrec
    obtain ⟨x, rfl, hf, h2, h3, h4, h5, h6⟩ := hrec
    obtain ⟨he, hr⟩ := noHealth (by rintro ⟨_, _, h⟩; exact h hp)
    have hrd := Creation.ready_of (vms := [x]) (v := v.toObj) hc hd hf (.inr (.inl hp))
    obtain ⟨k1, _⟩ := Creation.C26_adopts (Creation.answered e.c vm [x]) v.toObj x.node x.pid hrd rfl
    have hw : (Creation.reconcile (Creation.answered e.c vm [x]) v.toObj).wrote =
        some { v.toObj with st := Creation.pendingStatus (Creation.answered e.c vm [x]) v.toObj } := by
      rw [Creation.reconcile_ready hrd]
      unfold Creation.creation
      rw [if_neg (by simp [hrd.user])]
      dsimp only
      rw [show (Creation.answered e.c vm [x]).status = .ok x.node x.pid from rfl]
      dsimp only
      unfold Creation.record
      dsimp only
      rw [hneed, if_neg (by simp), if_neg (by simp), if_pos (.inl hp),
        if_pos (show (Creation.answered e.c vm [x]).statusRes = .ok from hc.status)]
    rw [viaRest he hr, k1, hw]
    refine ⟨⟨1, by omega, .waiting ⟨x, rfl, hf, h2, h3, h4, h5, h6⟩ ?_ ?_⟩, hd, rfl, rfl, hn, rfl, .inr (.inl ⟨rfl, hp⟩), .inl rfl⟩
    · show Phase.pending ≠ _; simp
    · show Phase.pending ≠ _; simp
  | waiting hrec hp hq =>
    obtain ⟨x, rfl, hf, h2, h3, h4, h5, h6⟩ := hrec
    have hcond : gate (truthful e vm [x]) v = true ∧ v.node.getD "" ≠ "" ∧ v.st.phase ≠ .empty :=
      ⟨gate_good hg hd hf, by rw [h2]; exact h4, hp⟩
    obtain ⟨n, hnode, hcrit, hheal, hnd⟩ := healthy_good hg hn
    have hchk : Health.check (truthful e vm [x]).c.now (asHealth v) (truthful e vm [x]).node =
        .status (some .running) (Health.seen (asHealth v) n) (asHealth v).creating := by
      rw [show (truthful e vm [x]).node = .found n from hnode]
      unfold Health.check
      dsimp only
      rw [if_pos (show Health.isHealthy (asHealth v).bad _ = true from hheal), if_pos]
      refine ⟨fun h => hq (ofHealth_phase h), ?_⟩
      rintro ⟨_, h⟩
      rw [hcrit] at h; cases h
    have hends : ends (truthful e vm [x]) v = true := by
      unfold ends
      rw [decide_eq_true hcond, hchk]; rfl
    have hrun : run (truthful e vm [x]) v = some (healthWrite (truthful e vm [x]) v (some .running) (Health.seen (asHealth v) n)) := by
      unfold run
      rw [if_pos hcond, hchk]
      dsimp only
      rw [if_pos (show (truthful e vm [x]).healthRes = .ok from hg.health)]
    have hl : live e vm ([x], v) = ([x], healthWrite (truthful e vm [x]) v (some .running) (Health.seen (asHealth v) n)) := by
      unfold live asks
      dsimp only
      rw [hends, hrun]; rfl
    rw [hl]
    exact ⟨⟨0, by omega, .running ⟨x, rfl, hf, h2, h3, h4, h5, h6⟩ rfl⟩, hd, rfl, rfl, hnd, rfl, .inr (.inr rfl), .inl rfl⟩
  | running hrec hp =>
    obtain ⟨x, rfl, hf, h2, h3, h4, h5, h6⟩ := hrec
    have hcond : gate (truthful e vm [x]) v = true ∧ v.node.getD "" ≠ "" ∧ v.st.phase ≠ .empty :=
      ⟨gate_good hg hd hf, by rw [h2]; exact h4, by rw [hp]; simp⟩
    obtain ⟨n, hnode, hcrit, hheal, hnd⟩ := healthy_good hg hn
    have hph : (asHealth v).phase = .running := by show healthPhase v.st.phase = _; rw [hp]; rfl
    have hchk : Health.check (truthful e vm [x]).c.now (asHealth v) (truthful e vm [x]).node =
        if Conditions.haveChanged (asHealth v).conds n.conds then .status none (Health.seen (asHealth v) n) false else .nothing := by
      rw [show (truthful e vm [x]).node = .found n from hnode]
      unfold Health.check
      dsimp only
      rw [if_pos (show Health.isHealthy (asHealth v).bad _ = true from hheal), if_neg (by rintro ⟨h, _⟩; exact h hph)]
      split
      · rfl
      · unfold Health.timeouts; rw [hph]; rfl
    cases hch : Conditions.haveChanged (asHealth v).conds n.conds with
    | true =>
      rw [hch, if_pos rfl] at hchk
      have hends : ends (truthful e vm [x]) v = true := by
        unfold ends
        rw [decide_eq_true hcond, hchk]; rfl
      have hrun : run (truthful e vm [x]) v = some (healthWrite (truthful e vm [x]) v none (Health.seen (asHealth v) n)) := by
        unfold run
        rw [if_pos hcond, hchk]
        dsimp only
        rw [if_pos (show (truthful e vm [x]).healthRes = .ok from hg.health)]
      have hl : live e vm ([x], v) = ([x], healthWrite (truthful e vm [x]) v none (Health.seen (asHealth v) n)) := by
        unfold live asks
        dsimp only
        rw [hends, hrun]; rfl
      rw [hl]
      exact ⟨⟨0, by omega, .running ⟨x, rfl, hf, h2, h3, h4, h5, h6⟩ hp⟩, hd, rfl, rfl, hnd, rfl, .inl rfl, .inl rfl⟩
    | false =>
      rw [hch, if_neg (by simp)] at hchk
      have hends : ends (truthful e vm [x]) v = false := by
        unfold ends
        rw [decide_eq_true hcond, hchk]; exact hg.sync
      have hrun : run (truthful e vm [x]) v = rest (truthful e vm [x]) v := by
        unfold run
        rw [if_pos hcond, hchk]
        dsimp only
        rw [if_neg (by show ¬ e.sync = true; rw [hg.sync]; simp)]
      have hw : Creation.reconcile (Creation.answered e.c vm [x]) v.toObj = { retry := longRetry, err := false } := by
        unfold Creation.reconcile
        rw [if_neg (by simp [hd]), if_neg (by simp [Creation.answered, hc.running, hc.valid, hc.cls]),
          if_neg (by simp [Creation.answered, hc.clsFin, hc.tmpl]), if_neg (by simp [hf]), if_neg (by simp [Creation.answered, hc.health]),
          if_neg (by rw [h3, hp]; simp [h5])]
      have hcr : Creation.creates (Creation.answered e.c vm [x]) v.toObj = false := by unfold Creation.creates; rw [hw]; rfl
      rw [viaRest hends hrun, hcr, hw]
      exact ⟨⟨0, by omega, .running ⟨x, rfl, hf, h2, h3, h4, h5, h6⟩ hp⟩, hd, rfl, rfl, hn, rfl, .inl rfl, .inl rfl⟩

/-- C92: A machine that has no VM recorded – new, crash looping or failed, whether or not its VM exists already – is Running with exactly one VM, whose
node and provider id it carries, after four runs in which no call fails and the node is healthy and free of the taint; and it stays so. -/
theorem C92_becomes_running (es : List (Env × Creation.VM)) (vms : List Creation.VM) (v : Obj) (hu : Unrecorded vms v) (hd : v.deleting = false)
    (hn : (v.conds.map (·.type)).Nodup) (hg : ∀ p ∈ es, Good p.1 p.2 v) (hl : 4 ≤ es.length) :
    ∃ vm o, es.foldl (fun s p => live p.1 p.2 s) (vms, v) = ([vm], o) ∧ o.st.phase = .running ∧ o.node = some vm.node ∧ o.pid = vm.pid ∧
      o.finalizer = true := by
  have gen : ∀ (es : List (Env × Creation.VM)) (k : Nat) (s : List Creation.VM × Obj), Left s.1 s.2 k → s.2.deleting = false →
      (s.2.conds.map (·.type)).Nodup → (∀ p ∈ es, Good p.1 p.2 s.2) → k ≤ es.length →
      Left (es.foldl (fun s p => live p.1 p.2 s) s).1 (es.foldl (fun s p => live p.1 p.2 s) s).2 0 := by
    intro es
    induction es with
    | nil => intro k s h _ _ _ hk; rw [Nat.le_zero.1 hk] at h; exact h
    | cons p es ih =>
      intro k s h hd hn hg hk
      obtain ⟨⟨j, hj, h1⟩, h2, h3, h4, h5, _⟩ := live_left (hg p (by simp)) hd hn h
      refine ih j _ h1 h2 h5 (fun q hq => ?_) (by simp at hk; omega)
      have := hg q (List.mem_cons_of_mem _ hq)
      have hc := this.coop
      refine ⟨⟨hc.running, hc.valid, hc.cls, hc.clsFin, hc.tmpl, hc.health, hc.user, hc.label, hc.status, hc.fin, hc.init, ?_, hc.pid⟩,
        this.health, this.sync, this.node, ?_⟩
      · rw [show (live p.1 p.2 s).2.name = s.2.name from h3]; exact hc.fresh
      · rw [h4]; exact this.ready
  have start : ∃ k ≤ 4, Left vms v k := by
    cases hf : v.finalizer with
    | false => exact ⟨4, Nat.le_refl _, .bare hf hu⟩
    | true => exact ⟨3, by omega, .unrecorded hf hu⟩
  obtain ⟨k, hk, hs⟩ := start
  have h := gen es k (vms, v) hs hd hn hg (by omega)
  generalize es.foldl (fun s p => live p.1 p.2 s) (vms, v) = r at h
  cases h with
  | running hr hp =>
    obtain ⟨x, h1, h2, h3, h4, _⟩ := hr
    exact ⟨x, r.2, Prod.ext h1 rfl, hp, h3, h4, h2⟩

example : Good { c := {}, node := readyNode } ⟨"node-1", "prov:///vm-1"⟩ {} :=
  ⟨⟨rfl, rfl, rfl, rfl, rfl, rfl, rfl, rfl, rfl, rfl, rfl, .inl (by simp), by decide⟩, rfl, rfl, by decide,
    _, rfl, (Health.isHealthy_iff _ _).1 (by decide), by decide, rfl⟩

end MCM.Lifecycle
