import Verif.Props.TerminationLive
/-!
C132: a drain that fails holds up the deletion of its machine until the drain timeout has passed or the deletion is forced, and not longer.
-/
namespace MCM.Termination
open MCM MCM.Similar MCM.Codes

/-! ### Specification -/

/-- The outside world cooperates, except that drains, and the marking of the node before them, may fail; their error texts are not those of steps. -/
structure Willing (e : Env) : Prop where
  coop : Coop { e with condErr := none, drainErr := none }
  text : ∀ t, e.drainErr = some t → Clean t

/-- the drain timeout has passed since the deletion, the machine carries the label `force-deletion: "True"`, or its node has been unhealthy for more than five minutes -/
def Due (e : Env) (v : Obj) : Prop :=
  v.forceLabel = true ∨ (∃ ts, v.deleting = some ts ∧ ts + v.drainTimeout < e.now) ∨
  ∃ c, (v.ready = some c ∨ v.readonly = some c) ∧ c.healthy = false ∧ c.since + notReadyLimit < e.now

/-- the drain is not forced: neither by label, nor by time, nor because the node has been unhealthy for five minutes -/
def Patient (e : Env) (v : Obj) : Prop :=
  v.forceLabel = false ∧ (∀ ts, v.deleting = some ts → e.now ≤ ts + v.drainTimeout) ∧
  (∀ c, v.ready = some c ∨ v.readonly = some c → c.healthy = true ∨ e.now ≤ c.since + notReadyLimit)

/-- the drain, or the marking of the node before it, fails -/
def Fails (e : Env) : Prop := (∃ t, e.condErr = some t) ∨ ∃ t, e.drainErr = some t

/-! ### Lemmas -/

theorem forced_of_due {e : Env} {v : Obj} {ts : Int} (h : Due e v) (hts : v.deleting = some ts) : forced e v ts = true := by
  unfold forced
  rcases h with h | ⟨ts', h, hlt⟩ | ⟨c, h, hc, hlt⟩
  · simp [h]
  rotate_left
  · have hd : (!c.healthy && decide (e.now - c.since > notReadyLimit)) = true := by
      rw [hc]; simp; omega
    have : unhealthyLong e v = true := by
      unfold unhealthyLong
      rcases h with h | h
      · rw [h]; dsimp only; rw [hd]; rfl
      · rw [h]; dsimp only; rw [hd, Bool.or_true]
    rw [this]; rfl
  · obtain rfl : ts' = ts := Option.some.inj (h.symm.trans hts)
    have : decide (e.now - v.drainTimeout - ts' > 0) = true := by simp; omega
    rw [this, Bool.or_true]

theorem not_forced_of_patient {e : Env} {v : Obj} {ts : Int} (h : Patient e v) (hts : v.deleting = some ts) : forced e v ts = false := by
  obtain ⟨h1, h2, h3⟩ := h
  have hu : unhealthyLong e v = false := by
    have key : ∀ c : NCond, (c.healthy = true ∨ e.now ≤ c.since + notReadyLimit) → (!c.healthy && decide (e.now - c.since > notReadyLimit)) = false := by
      intro c hc
      rcases hc with h | h
      · simp [h]
      · have : decide (e.now - c.since > notReadyLimit) = false := by simp; omega
        rw [this, Bool.and_false]
    unfold unhealthyLong
    cases h4 : v.ready with
    | none =>
      cases h5 : v.readonly with
      | none => rfl
      | some d => exact key d (h3 d (.inr h5))
    | some c =>
      have hk := key c (h3 c (.inl h4))
      cases h5 : v.readonly with
      | none => dsimp only; rw [hk]; rfl
      | some d => dsimp only; rw [hk, key d (h3 d (.inr h5))]; rfl
  have ht : decide (e.now - v.drainTimeout - ts > 0) = false := by
    have := h2 ts hts
    simp; omega
  unfold forced
  rw [hu, h1, ht]
  rfl

/-- outside the drain step its outcome does not matter -/
theorem run_same (e : Env) (v : Obj) (h : v.st.phase ≠ .terminating ∨ decode v.st.desc ≠ some .drain) :
    run e v = run { e with condErr := none, drainErr := none } v := by
  have hf : flow e v = flow { e with condErr := none, drainErr := none } v := by
    unfold flow
    split
    · rfl
    · split
      · rfl
      · rename_i hp
        rcases h with h | h
        · exact absurd h (by simpa using hp)
        · cases hd : decode v.st.desc with
          | none => rfl
          | some s =>
            cases s with
            | drain => exact absurd hd h
            | _ => rfl
  have ha : run.afterFlow e v = run.afterFlow { e with condErr := none, drainErr := none } v := by
    unfold run.afterFlow
    rw [hf]
    cases (flow { e with condErr := none, drainErr := none } v).write with
    | none => rfl
    | some w => cases w <;> rfl
  have hl : labelOf e v = labelOf { e with condErr := none, drainErr := none } v := rfl
  unfold run
  rw [← hl, ← ha]

theorem willing_progress {e : Env} {v : Obj} (ht : Terminating v) (hw : Willing e) (hdue : Due e v) : Progress e v (run e v) := by
  by_cases h : v.st.phase = .terminating ∧ decode v.st.desc = some .drain
  · obtain ⟨hp, hd⟩ := h
    have hl5 : left v = 5 := left_of_step ht.fin hp hd
    have hlab : labelOf e v = none := by unfold labelOf; rw [if_neg (by rw [hd]; simp)]
    have hc := hw.coop
    unfold run
    rw [if_neg (by simp [show e.classOk = true from hc.cls]), hlab]
    dsimp only
    unfold run.afterFlow flow
    rw [if_neg (by simp [ht.fin]), if_neg (by simp [hp]), hd]
    dsimp only
    unfold drainStep
    by_cases hn : v.node = ""
    · rw [if_pos hn]
      refine progress_status (s := .vm) ht hp rfl ?_ (by rw [hl5]; simp [stepLeft])
      show decode ("Skipping drain as nodeName is not a valid one for machine. " ++ TStep.vm.text) = _
      exact decode_const lit (by decide +kernel)
    · rw [if_neg hn]
      cases hts : v.deleting with
      | none => exact absurd hts ht.del
      | some ts =>
        dsimp only
        rw [forced_of_due hdue hts]
        cases e.condErr
        all_goals
          dsimp only
          refine progress_status (s := .vols) ht hp rfl ?_ (by rw [hl5]; simp [stepLeft])
          show decode (drainResult true e.drainErr).1 = _
          cases hde : e.drainErr with
          | none =>
            show decode ("Force Drain successful. " ++ TStep.vols.text) = _
            exact decode_const lit (by decide +kernel)
          | some err => exact decode_frame lit lit (by decide +kernel) (by decide +kernel) (hw.text _ hde)
  · have h' : v.st.phase ≠ .terminating ∨ decode v.st.desc ≠ some .drain := by
      by_cases hp : v.st.phase = .terminating
      · exact .inr fun hd => h ⟨hp, hd⟩
      · exact .inl hp
    rw [run_same e v h']
    have := run_progress ht hw.coop
    exact ⟨this.term, this.time, this.less⟩

/-- a reconcile changes neither the deletion timestamp nor what decides about force -/
theorem run_keeps (e : Env) (v : Obj) : (run e v).deleting = v.deleting ∧ (run e v).forceLabel = v.forceLabel ∧ (run e v).drainTimeout = v.drainTimeout ∧
    (run e v).ready = v.ready ∧ (run e v).readonly = v.readonly ∧ (run e v).name = v.name := by
  have ha : ∀ w, ((applyWrite e v w).getD v).deleting = v.deleting ∧ ((applyWrite e v w).getD v).forceLabel = v.forceLabel ∧
      ((applyWrite e v w).getD v).drainTimeout = v.drainTimeout ∧ ((applyWrite e v w).getD v).ready = v.ready ∧ ((applyWrite e v w).getD v).readonly = v.readonly ∧
      ((applyWrite e v w).getD v).name = v.name := by
    intro w
    cases w with
    | dropFinalizer => exact ⟨rfl, rfl, rfl, rfl, rfl, rfl⟩
    | status b new =>
      cases b
      · exact ⟨rfl, rfl, rfl, rfl, rfl, rfl⟩
      · unfold applyWrite
        dsimp only
        split <;> exact ⟨rfl, rfl, rfl, rfl, rfl, rfl⟩
  have hf : (run.afterFlow e v).deleting = v.deleting ∧ (run.afterFlow e v).forceLabel = v.forceLabel ∧ (run.afterFlow e v).drainTimeout = v.drainTimeout ∧
      (run.afterFlow e v).ready = v.ready ∧ (run.afterFlow e v).readonly = v.readonly ∧ (run.afterFlow e v).name = v.name := by
    unfold run.afterFlow
    cases (flow e v).write with
    | none => exact ⟨rfl, rfl, rfl, rfl, rfl, rfl⟩
    | some w => exact ha w
  unfold run
  split
  · exact ⟨rfl, rfl, rfl, rfl, rfl, rfl⟩
  · split
    · split
      · exact ⟨rfl, rfl, rfl, rfl, rfl, rfl⟩
      · exact hf
    · exact hf

theorem due_of_eq {e : Env} {v v' : Obj} (h1 : v'.deleting = v.deleting) (h2 : v'.forceLabel = v.forceLabel) (h3 : v'.drainTimeout = v.drainTimeout)
    (h4 : v'.ready = v.ready) (h5 : v'.readonly = v.readonly) (h : Due e v) : Due e v' := by
  unfold Due at *
  rw [h1, h2, h3, h4, h5]
  exact h

theorem willing_done : ∀ (es : List Env) (v : Obj), v.finalizer = false → (runs es v).finalizer = false := by
  intro es
  induction es with
  | nil => intro v h; exact h
  | cons e es ih =>
    intro v h
    refine ih (run e v) ?_
    have hl : labelOf e v = none := by unfold labelOf; rw [if_neg (by simp [h])]
    unfold run
    rw [hl]
    split
    · exact h
    · dsimp only
      unfold run.afterFlow flow
      rw [if_pos (by simp [h])]
      exact h

theorem left_pos {v : Obj} (h : v.finalizer = true) : 0 < left v ∧ left v ≤ 8 := by
  unfold left
  rw [if_neg (by simp [h])]
  split
  · omega
  · unfold stepLeft
    repeat' split
    all_goals omega

theorem willing_left : ∀ (es : List Env) (v : Obj), Terminating v → (∀ e ∈ es, Willing e) → (∀ e ∈ es, Due e v) → Paced v.st.opTime es →
    left v ≤ es.length → (runs es v).finalizer = false := by
  intro es
  induction es with
  | nil =>
    intro v ht _ _ _ hl
    have := (left_pos ht.fin).1
    simp at hl
    omega
  | cons e es ih =>
    intro v ht hc hdue hp hl
    have hr := willing_progress ht (hc e (by simp)) (hdue e (by simp))
    obtain ⟨hp1, hp2⟩ := hp
    show (runs es (run e v)).finalizer = false
    have hless : left (run e v) < left v := by
      rcases hr.less with h | ⟨_, h⟩
      · exact h
      · omega
    rcases hr.term with h | h
    · exact willing_done es _ h
    · obtain ⟨k1, k2, k3, k4, k5, _⟩ := run_keeps e v
      refine ih (run e v) h (fun x hx => hc x (by simp [hx])) (fun x hx => due_of_eq k1 k2 k3 k4 k5 (hdue x (by simp [hx]))) ?_ (by simp at hl; omega)
      cases es with
      | nil => trivial
      | cons e2 es =>
        refine ⟨?_, hp2.2⟩
        have := hp2.1
        have h3 : tolerance > 0 := by decide
        rcases hr.time with h | h <;> rw [h] <;> omega

/-! ### Theorems -/

/-- C132: Once the drain timeout has passed, the deletion is forced by label, or the node has been unhealthy for more than five minutes, a machine being deleted is gone after eight reconciles (more than 30 minutes apart), even if
every drain fails, and whatever status it had. -/
theorem C132_completes_partial (es : List Env) (v : Obj) (ht : Terminating v) (hc : ∀ e ∈ es, Willing e) (hdue : ∀ e ∈ es, Due e v) (hp : Paced v.st.opTime es)
    (hl : 8 ≤ es.length) : (runs es v).finalizer = false :=
  willing_left es v ht hc hdue hp (Nat.le_trans (left_pos ht.fin).2 hl)

/-- a machine waiting for the drain of its node -/
structure AtDrain (v : Obj) : Prop where
  term : Terminating v
  phase : v.st.phase = .terminating
  step : decode v.st.desc = some .drain
  node : v.node ≠ ""

theorem held_step {e : Env} {v : Obj} (h : AtDrain v) (hp : Patient e v) (hf : Fails e) (hc : CleanEnv e) :
    AtDrain (run e v) ∧ (∀ ts ans, Event.deleteVM ts ans ∉ (flow e v).events) := by
  have hlab : labelOf e v = none := by unfold labelOf; rw [if_neg (by rw [h.step]; simp)]
  have hflow : flow e v = drainStep e v := by
    unfold flow
    rw [if_neg (by simp [h.term.fin]), if_neg (by simp [h.phase]), h.step]
  obtain ⟨ts, hts⟩ := Option.ne_none_iff_exists'.1 h.term.del
  have hd : ∃ evs desc, drainStep e v = { events := evs, write := some (.status true (stepStatus e v desc "Failed")), retry := shortRetry } ∧
      decode desc = some .drain ∧ ∀ ts ans, Event.deleteVM ts ans ∉ evs := by
    unfold drainStep
    rw [if_neg h.node, hts]
    dsimp only
    rw [not_forced_of_patient hp hts]
    cases hce : e.condErr with
    | some t =>
      exact ⟨[], _, rfl, decode_frame lit lit (by decide +kernel) (by decide +kernel) (hc.cond _ hce), by simp⟩
    | none =>
      rcases hf with ⟨t, h'⟩ | ⟨t, h'⟩
      · rw [h'] at hce; cases hce
      · dsimp only
        rw [h']
        exact ⟨[.drained false (some t)], _, rfl, decode_frame lit lit (by decide +kernel) (by decide +kernel) (hc.drain _ h'), by simp⟩
  obtain ⟨evs, desc, hd, hdec, hev⟩ := hd
  rw [hflow, hd]
  refine ⟨?_, hev⟩
  unfold run
  rw [hlab]
  split
  · exact h
  · dsimp only
    unfold run.afterFlow
    rw [hflow, hd]
    dsimp only
    rcases write_cases e v (stepStatus e v desc "Failed") with ⟨h1, _⟩ | h1
    · rw [h1]; exact h
    · rw [h1]
      exact ⟨⟨h.term.fin, h.term.del, h.term.name, h.term.node⟩, h.phase, hdec, h.node⟩

theorem patient_of_eq {e : Env} {v v' : Obj} (h1 : v'.deleting = v.deleting) (h2 : v'.forceLabel = v.forceLabel) (h3 : v'.drainTimeout = v.drainTimeout)
    (h4 : v'.ready = v.ready) (h5 : v'.readonly = v.readonly) (h : Patient e v) : Patient e v' := by
  unfold Patient at *
  rw [h1, h2, h3, h4, h5]
  exact h

/-- C132: Before that, as long as the drain fails and the node is not unhealthy, the provider is not asked to delete the VM, and the machine stays, however many reconciles there
are. -/
theorem C132_held (es : List Env) : ∀ (v : Obj), AtDrain v → (∀ e ∈ es, Patient e v ∧ Fails e ∧ CleanEnv e) →
    (runs es v).finalizer = true ∧ ∀ pre e post, es = pre ++ e :: post → ∀ ts ans, Event.deleteVM ts ans ∉ (flow e (runs pre v)).events := by
  induction es with
  | nil => exact fun v h _ => ⟨h.term.fin, fun pre e post h => by cases pre <;> cases h⟩
  | cons e es ih =>
    intro v h he
    obtain ⟨h1, h2, h3⟩ := he e (by simp)
    obtain ⟨hs, hev⟩ := held_step h h1 h2 h3
    obtain ⟨k1, k2, k3, k4, k5, _⟩ := run_keeps e v
    obtain ⟨i1, i2⟩ := ih (run e v) hs fun x hx => ⟨patient_of_eq k1 k2 k3 k4 k5 (he x (by simp [hx])).1, (he x (by simp [hx])).2⟩
    refine ⟨i1, fun pre x post hx => ?_⟩
    cases pre with
    | nil => cases hx; exact hev
    | cons y pre => cases hx; exact i2 pre x post rfl

/-! ### Witnesses -/

/-- reconciles 31 minutes apart in which the drain fails with the given text -/
def failing (text : String) (k : Nat) : Env := { now := (k + 1) * 31 * 60 * 1000000000, nodeByLabel := some "node-1", drainErr := some text }

/-- a machine deleted at time 0, with a drain timeout of two hours -/
def twoHours : Obj := { deleting := some 0, node := "node-1", drainTimeout := 2 * 60 * 60 * 1000000000, st := { phase := .terminating, desc := TStep.drain.text, opType := "Delete" } }

/-- the drain fails in all of them: the machine is there for two hours, and gone two hours later -/
example : (runs ((List.range 3).map (failing "pdb")) twoHours).finalizer = true ∧ (runs ((List.range 8).map (failing "pdb")) twoHours).finalizer = false := by
  decide +kernel

/-- C132, false part: With the text of a step in the error of a drain, the termination goes back to that step, and the machine is not deleted. -/
theorem C132_error_text_false : ¬ ∀ (es : List Env) (v : Obj), Terminating v → (∀ e ∈ es, Coop { e with condErr := none, drainErr := none }) → (∀ e ∈ es, Due e v) →
    Paced v.st.opTime es → 8 ≤ es.length → (runs es v).finalizer = false := by
  intro h
  have := h ((List.range 8).map (failing TStep.getVM.text)) { twoHours with forceLabel := true } ⟨rfl, by decide, by unfold NameLike; decide, by unfold NameLike; decide⟩ (by
      intro e he
      obtain ⟨k, _, rfl⟩ := List.mem_map.1 he
      exact ⟨rfl, (by intro n hn; cases hn; unfold NameLike; decide), (by intro t h; cases h), rfl, rfl, (by intro h; cases h),
        (by intro t h; cases h), rfl, .inl rfl, (by intro t h; cases h)⟩) (by
      intro e he
      obtain ⟨k, _, rfl⟩ := List.mem_map.1 he
      exact .inl rfl)
    (by refine ⟨by decide, by decide, by decide, by decide, by decide, by decide, by decide, by decide, trivial⟩) (by simp)
  exact absurd this (by decide +kernel)

/-- the hypotheses of `C132_held` -/
example : AtDrain twoHours ∧ Fails (failing "pdb" 2) ∧ Patient (failing "pdb" 2) twoHours ∧ Due (failing "pdb" 3) twoHours :=
  ⟨⟨⟨rfl, by decide, by unfold NameLike; decide, by unfold NameLike; decide⟩, rfl, by decide +kernel, by decide⟩, .inr ⟨_, rfl⟩,
    ⟨rfl, (by intro ts h; cases h; decide), (by intro c h; rcases h with h | h <;> cases h)⟩, .inr (.inl ⟨0, rfl, by decide⟩)⟩

/-- reconciles in which volume attachments of the node are not yet marked for deletion -/
def attached (k : Nat) : Env := { failing "pdb" k with nodeGet := .found true, liveVols := some true }

theorem attached_paced : ∀ (n s : Nat) (last : Int), last ≤ s * 31 * 60 * 1000000000 → Paced last ((List.range' s n).map attached) := by
  intro n
  induction n with
  | zero => intro s last _; trivial
  | succ n ih =>
    intro s last h
    refine ⟨?_, ih (s + 1) _ (by simp [attached, failing])⟩
    have ht : tolerance = 30 * 60 * 1000000000 := by decide
    rw [ht]
    show last < ((s : Int) + 1) * 31 * 60 * 1000000000 - _
    omega

theorem attached_stays (e : Env) (v : Obj) (hp : v.st.phase = .terminating) (hd : decode v.st.desc = some .vols) (hf : v.finalizer = true) (hn : e.nodeGet = .found true)
    (hl : e.liveVols = some true) : run e v = v := by
  have hlab : labelOf e v = none := by unfold labelOf; rw [if_neg (by rw [hd]; simp)]
  unfold run
  rw [hlab]
  split
  · rfl
  · dsimp only
    unfold run.afterFlow flow
    rw [if_neg (by simp [hf]), if_neg (by simp [hp]), hd]
    dsimp only
    unfold volStep
    rw [hn, hl]

/-- C132, false part: For the volume attachments of the node there is no such limit: while one of them is not marked for deletion (the controller's requests to delete them may
fail, which is only logged), a forced deletion does not proceed, however long it takes. -/
theorem C132_volumes_false : ¬ ∃ n : Nat, ∀ (es : List Env) (v : Obj), Terminating v → (∀ e ∈ es, Willing { e with liveVols := some false }) → (∀ e ∈ es, Due e v) →
    Paced v.st.opTime es → n ≤ es.length → (runs es v).finalizer = false := by
  intro ⟨n, h⟩
  have := h ((List.range n).map attached) { twoHours with forceLabel := true, st := { twoHours.st with desc := TStep.vols.text } }
    ⟨rfl, by decide, by unfold NameLike; decide, by unfold NameLike; decide⟩ (by
      intro e he
      obtain ⟨k, _, rfl⟩ := List.mem_map.1 he
      exact ⟨⟨rfl, (by intro n hn; cases hn; unfold NameLike; decide), (by intro t h; cases h), rfl, rfl, (by intro h; cases h),
        (by intro t h; cases h), rfl, .inl rfl, (by intro t h; cases h)⟩, by intro t ht; cases ht; intro s; cases s <;> decide +kernel⟩) (by
      intro e he
      obtain ⟨k, _, rfl⟩ := List.mem_map.1 he
      exact .inl rfl) (by rw [List.range_eq_range']; exact attached_paced n 0 0 (by simp)) (by simp)
  have hs : ∀ (es : List Env) (v : Obj), v.st.phase = .terminating → decode v.st.desc = some .vols → v.finalizer = true →
      (∀ e ∈ es, e.nodeGet = .found true ∧ e.liveVols = some true) → runs es v = v := by
    intro es
    induction es with
    | nil => intro v _ _ _ _; rfl
    | cons e es ih =>
      intro v h1 h2 h3 h4
      show runs es (run e v) = v
      rw [attached_stays e v h1 h2 h3 (h4 e (by simp)).1 (h4 e (by simp)).2]
      exact ih v h1 h2 h3 fun x hx => h4 x (by simp [hx])
  rw [hs _ _ rfl (by decide +kernel) rfl (by
    intro e he
    obtain ⟨k, _, rfl⟩ := List.mem_map.1 he
    exact ⟨rfl, rfl⟩)] at this
  cases this

-- a node whose volumes are detached already: this is no error, and there is no delay
example (e : Env) (v : Obj) (h : e.nodeGet = .found false) : (volStep e v).err = false ∧ (volStep e v).retry = 0 := by
  unfold volStep
  rw [h]
  exact ⟨rfl, rfl⟩

end MCM.Termination
