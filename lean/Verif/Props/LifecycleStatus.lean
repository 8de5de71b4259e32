import Verif.Props.Lifecycle
/-!
C108: what the status of a machine says about its last operation and its timeout fits its phase, in every history of the machine (`Lifecycle.Hist`).
-/
namespace MCM.Lifecycle
open MCM MCM.Similar

/-! ## Specification -/

/-- how a status with the given phase looks: the operation and its state, and whether a timeout is shown as running -/
def Fits (s : MStatus) : Prop :=
  match s.phase with
  | .empty => s = {}
  | .pending => s.opType = "Create" ∧ s.state = "Processing" ∧ s.timeoutActive = true
  | .crashLoopBackOff => s.opType = "Create" ∧ s.state = "Failed" ∧ s.timeoutActive = false
  | .running => (s.opType = "Create" ∨ s.opType = "HealthCheck") ∧ s.state = "Successful" ∧ s.timeoutActive = false
  | .unknown => s.opType = "HealthCheck" ∧ s.state = "Processing" ∧ s.timeoutActive = false
  | .failed => (s.opType = "Create" ∨ s.opType = "HealthCheck") ∧ s.state = "Failed" ∧ s.timeoutActive = false
  | .terminating => s.opType = "Delete" ∧ (s.state = "Processing" ∨ s.state = "Failed") ∧ s.timeoutActive = false
  | _ => False

/-! ## Creation -/

theorem fits_failure {s : MStatus} (hp : s.phase = .failed ∨ s.phase = .crashLoopBackOff) (ho : s.opType = "Create") (hs : s.state = "Failed") (ht : s.timeoutActive = false) : Fits s := by
  unfold Fits
  rcases hp with hp | hp <;> rw [hp]
  · exact ⟨.inl ho, hs, ht⟩
  · exact ⟨ho, hs, ht⟩

theorem initVM_fits {e : Creation.Env} {c : Creation.Obj} {ev : List Creation.Event} {before : Option Creation.Obj} {o : Creation.Obj}
    (h : (Creation.initVM e c ev before).wrote = some o) : Fits o.st ∨ before = some o := by
  unfold Creation.initVM at h
  dsimp only at h
  split at h
  · exact .inr h
  · split at h
    · exact .inr h
    · split at h
      · exact .inr h
      · rcases withStatus_exact h with h | h
        · subst h; exact .inl (fits_failure (failurePhase_cases e c) rfl rfl rfl)
        · exact .inr h

theorem record_fits {e : Creation.Env} {v : Creation.Obj} {n p : String} {u : Bool} {ev : List Creation.Event} {o : Creation.Obj}
    (h : (Creation.record e v n p u ev).wrote = some o) : o.st = v.st ∨ Fits o.st := by
  have hl : ∀ x, (if (Creation.needsLabels v && e.labelRes == .ok) = true then some (Creation.labelled v n p) else none) = some x → x.st = v.st := by
    intro x hx
    split at hx
    · cases hx; rfl
    · cases hx
  unfold Creation.record at h
  dsimp only at h
  split at h
  · rcases initVM_fits h with h | h
    · exact .inr h
    · exact .inl (hl _ h)
  · split at h
    · exact .inl (hl _ h)
    · split at h
      · dsimp only at h
        split at h
        · cases h; exact .inr ⟨rfl, rfl, rfl⟩
        · cases h
      · cases h

theorem createError_fits {e : Creation.Env} {v : Creation.Obj} {t l : String} {ev : List Creation.Event} {o : Creation.Obj}
    (h : (Creation.createError e v t l ev).wrote = some o) : Fits o.st := by
  unfold Creation.createError at h
  rcases withStatus_exact h with h | h
  · subst h; exact fits_failure (failurePhase_cases e v) rfl rfl rfl
  · cases h

theorem createStep_fits {e : Creation.Env} {v : Creation.Obj} {o : Creation.Obj} (h : (Creation.createStep e v).wrote = some o) : o.st = v.st ∨ Fits o.st := by
  unfold Creation.createStep at h
  dsimp only at h
  split at h
  · exact .inr (createError_fits h)
  · split at h
    · rcases withStatus_exact h with h | h
      · subst h; exact .inr (fits_failure (.inl rfl) rfl rfl rfl)
      · cases h
    · exact record_fits h

theorem creation_fits {e : Creation.Env} {v : Creation.Obj} {o : Creation.Obj} (h : (Creation.creation e v).wrote = some o) : o.st = v.st ∨ Fits o.st := by
  unfold Creation.creation at h
  split at h
  · cases h
  · dsimp only at h
    split at h
    · exact record_fits h
    · split at h
      · cases h
      · split at h
        · split at h
          · exact createStep_fits h
          · exact record_fits h
        · split at h
          · exact createStep_fits h
          · exact record_fits h
        · split at h
          · cases h
          · exact record_fits h
        · exact .inr (createError_fits h)

theorem reconcile_fits {e : Creation.Env} {v : Creation.Obj} {o : Creation.Obj} (h : (Creation.reconcile e v).wrote = some o) : o.st = v.st ∨ Fits o.st := by
  unfold Creation.reconcile at h
  split at h
  · cases h
  · split at h
    · cases h
    · split at h
      · cases h
      · split at h
        · dsimp only at h
          split at h
          · cases h; exact .inl rfl
          · cases h
        · split at h
          · cases h
          · split at h
            · exact creation_fits h
            · cases h

theorem rest_fits {e : Env} {v o : Obj} (h : rest e v = some o) : o.st = v.st ∨ Fits o.st := by
  unfold rest at h
  cases hr : (Creation.reconcile { e.c with health := none } v.toObj).wrote with
  | none => rw [hr] at h; cases h
  | some x =>
    rw [hr] at h
    cases h
    exact reconcile_fits hr

/-! ## Health checks -/

theorem healthWrite_running (e : Env) (v : Obj) (c : List Conditions.Cond) : Fits (healthWrite e v (some .running) c).st := by
  show (_ ∨ _) ∧ _ ∧ _
  refine ⟨?_, rfl, rfl⟩
  show (if _ then _ else _) = _ ∨ (if _ then _ else _) = _
  split
  · exact .inl rfl
  · exact .inr rfl

theorem healthWrite_unknown (e : Env) (v : Obj) (c : List Conditions.Cond) : Fits (healthWrite e v (some .unknown) c).st := ⟨rfl, rfl, rfl⟩

theorem healthWrite_failed (e : Env) (v : Obj) (c : List Conditions.Cond) (hv : Fits v.st) (hp : v.st.phase = .pending ∨ v.st.phase = .unknown) :
    Fits (healthWrite e v (some .failed) c).st := by
  unfold Fits at hv
  refine ⟨?_, rfl, rfl⟩
  show v.st.opType = _ ∨ v.st.opType = _
  rcases hp with hp | hp <;> rw [hp] at hv
  · exact .inl hv.1
  · exact .inr hv.1

theorem run_fits {e : Env} {v o : Obj} (h : run e v = some o) (hv : Fits v.st) : Fits o.st := by
  have hrest : ∀ {o : Obj}, rest e v = some o → Fits o.st := by
    intro o h
    rcases rest_fits h with h | h
    · rw [h]; exact hv
    · exact h
  unfold run at h
  split at h
  · have hs := check_spec e.c.now (asHealth v) e.node
    split at h
    · cases h
    · rename_i p conds t hc
      split at h
      · cases h
        cases p with
        | none => exact hv
        | some p =>
          rcases hs.1 p conds t hc with ⟨rfl, _⟩ | ⟨rfl, _⟩ | ⟨rfl, hm⟩
          · exact healthWrite_running e v conds
          · exact healthWrite_unknown e v conds
          · exact healthWrite_failed e v conds hv (.inl (ofHealth_pending hm))
      · cases h
    · rename_i hc
      split at h
      · cases h
        exact healthWrite_failed e v v.conds hv (.inr (ofHealth_unknown (hs.2 hc)))
      · cases h
    · split at h
      · cases h
      · exact hrest h
    · split at h
      · cases h
      · exact hrest h
  · exact hrest h

/-! ## Termination -/

/-- the statuses that the steps of the termination write -/
theorem fits_step (e : Termination.Env) (t : Termination.Obj) (d s : String) (ht : t.st.phase = .terminating) (hf : Fits t.st) (hs : s = "Processing" ∨ s = "Failed") :
    Fits (Termination.stepStatus e t d s) := by
  unfold Fits at hf ⊢
  rw [ht] at hf
  have : (Termination.stepStatus e t d s).phase = .terminating := ht
  rw [this]
  exact ⟨rfl, hs, hf.2.2⟩

theorem fits_vol (e : Termination.Env) (t : Termination.Obj) (d : String) (ht : t.st.phase = .terminating) (hf : Fits t.st) : Fits (Termination.volStatus e t d) := by
  unfold Fits at hf ⊢
  rw [ht] at hf
  have : (Termination.volStatus e t d).phase = .terminating := ht
  rw [this]
  exact ⟨hf.1, .inl rfl, hf.2.2⟩

theorem getVMError_state (x : String) : (Termination.getVMError x).2.1 = "Processing" ∨ (Termination.getVMError x).2.1 = "Failed" := by
  unfold Termination.getVMError
  split
  · exact .inr rfl
  · split <;> first | exact .inl rfl | exact .inr rfl

theorem deleteVMResult_state (x : Option String) : (Termination.deleteVMResult x).2.1 = "Processing" ∨ (Termination.deleteVMResult x).2.1 = "Failed" := by
  unfold Termination.deleteVMResult
  split
  · exact .inl rfl
  · split
    · exact .inr rfl
    · split <;> first | exact .inl rfl | exact .inr rfl

theorem drainResult_state (f : Bool) (x : Option String) : (Termination.drainResult f x).2 = "Processing" ∨ (Termination.drainResult f x).2 = "Failed" := by
  unfold Termination.drainResult
  split <;> split <;> first | exact .inl rfl | exact .inr rfl

theorem deleteNodeResult_state (n : String) (x : Termination.NodeDel) : (Termination.deleteNodeResult n x).2 = "Processing" ∨ (Termination.deleteNodeResult n x).2 = "Failed" := by
  cases x <;> first | exact .inl rfl | exact .inr rfl

theorem flow_fits {e : Termination.Env} {t t' : Termination.Obj} {wr : Termination.Write} (hf : (Termination.flow e t).write = some wr)
    (ha : Termination.applyWrite e t wr = some t') (hv : Fits t.st) : Fits t'.st := by
  have key : (∀ b s, wr = .status b s → Fits s) → Fits t'.st := by
    intro h
    unfold Termination.applyWrite at ha
    split at ha
    · split at ha
      · cases ha
      · cases ha; exact h _ _ rfl
    · cases ha; exact h _ _ rfl
    · cases ha; exact hv
  apply key
  intro b s hs
  subst hs
  have hset : Fits (Termination.termStatus e t) := ⟨rfl, .inl rfl, rfl⟩
  unfold Termination.flow at hf
  split at hf
  · cases hf
  · split at hf
    · cases hf; exact hset
    · rename_i hp
      have hp : t.st.phase = .terminating := Decidable.byContradiction fun h => hp h
      split at hf
      · unfold Termination.getVMStep at hf
        split at hf
        · cases hf; exact fits_step e t _ _ hp hv (.inl rfl)
        · split at hf
          · cases hf; exact fits_step e t _ _ hp hv (.inl rfl)
          · cases hf; exact fits_step e t _ _ hp hv (getVMError_state _)
      · unfold Termination.drainStep at hf
        split at hf
        · cases hf; exact fits_step e t _ _ hp hv (.inl rfl)
        · split at hf
          · cases hf
          · split at hf
            · cases hf; exact fits_step e t _ _ hp hv (.inr rfl)
            · cases hf; exact fits_step e t _ _ hp hv (drainResult_state _ _)
      · unfold Termination.volStep at hf
        split at hf
        · cases hf
        · cases hf; exact fits_vol e t _ hp hv
        · cases hf; exact fits_vol e t _ hp hv
        · split at hf
          · cases hf
          · cases hf
          · cases hf; exact fits_vol e t _ hp hv
      · unfold Termination.vmStep at hf
        cases hf
        have h := fits_step e t (Termination.deleteVMResult e.delVM.err).1 _ hp hv (deleteVMResult_state e.delVM.err)
        unfold Fits at h ⊢
        have h1 : ∀ d x, (Termination.stepStatus e t d x).phase = .terminating := fun _ _ => hp
        rw [h1] at h
        dsimp only
        rw [h1]
        exact h
      · unfold Termination.nodeStep at hf
        split at hf
        · cases hf; exact fits_step e t _ _ hp hv (deleteNodeResult_state _ _)
        · cases hf; exact fits_step e t _ _ hp hv (.inl rfl)
      · cases hf
      · cases hf; exact hset

/-! ## C108 -/

/-- **C108**: in every history of a machine, with any failures, edits, reused names and outdated caches, every version shows the operation, its state and the timeout that belong to the phase. -/
theorem C108_status_fits (opts : Opts) (h : List Obj) (hh : Hist opts h) : ∀ o ∈ h, Fits o.st := by
  refine hist_all (fun o ho => ?_) (fun cur new old hs ih => ?_) hh
  · rw [ho.1]; exact (rfl : ({} : MStatus) = {})
  · have hc := ih cur (List.mem_cons_self ..)
    cases hs with
    | machine e hr _ => exact run_fits hr hc
    | terminate e t t' wr hd hst hfin hdel hf ha => exact flow_fits hf ha (by rw [hst]; exact hc)
    | termLabel n hd hp => exact hc
    | delete => exact hc
    | announce now hd => exact ⟨rfl, .inl rfl, rfl⟩
    | reset v now hv hu ho => exact ⟨.inr rfl, rfl, rfl⟩
    | edit hst hd _ _ => rw [hst]; exact hc

/-- in particular a timeout is shown for the machines that are waiting for their node to join, and for no others -/
theorem C108_timeout_shown (opts : Opts) (h : List Obj) (hh : Hist opts h) : ∀ o ∈ h, o.st.timeoutActive = true ↔ o.st.phase = .pending := by
  intro o ho
  have := C108_status_fits opts h hh o ho
  unfold Fits at this
  constructor
  · intro ht
    split at this
    · rw [this] at ht; cases ht
    · assumption
    all_goals first | exact this.elim | (rw [this.2.2] at ht; cases ht)
  · intro hp
    rw [hp] at this
    exact this.2.2

/-- C108 as the field is meant: the status shows whether there is a timeout at the end of which the machine is given up. It is wrong of machines that became unhealthy
(machine_util.go:709 is commented out): the machine is failed by the passing of time alone, and no timeout was shown. -/
theorem C108_health_timeout_hidden_false : ∃ (e : Env) (new cur : Obj) (old : List Obj), Hist {} (cur :: old) ∧ run e cur = some new ∧ new.st.phase = .failed ∧
    run { e with c := { e.c with now := cur.st.phaseTime } } cur = none ∧ cur.st.timeoutActive = false := by
  have hp : phases [start,
    { c := { now := 1 * minute, status := noVM, create := .ok "n" "p", nodes := [] } },
    { c := { now := 2 * minute, status := .ok "n" "p" } },
    { c := { now := 3 * minute }, node := readyNode },
    { c := { now := 6 * minute }, node := .notFound }] = some [.unknown, .running, .pending, .empty, .empty, .empty] := by decide +kernel
  obtain ⟨cur, old, hh, hpl, _, _⟩ := phases_hist (opts := {}) hp (by decide +kernel)
  let e : Env := { c := { now := 20 * minute }, node := .notFound, mark := true }
  have hr : ((play [start,
    { c := { now := 1 * minute, status := noVM, create := .ok "n" "p", nodes := [] } },
    { c := { now := 2 * minute, status := .ok "n" "p" } },
    { c := { now := 3 * minute }, node := readyNode },
    { c := { now := 6 * minute }, node := .notFound }] [({} : Obj)]).bind fun h => h.head?.map fun (cur : Obj) => ((run e cur).map fun o => o.st.phase,
        (run { e with c := { e.c with now := cur.st.phaseTime } } cur).isNone, cur.st.timeoutActive)) = some (some .failed, true, false) := by decide +kernel
  rw [hpl] at hr
  simp only [Option.bind_some, List.head?_cons, Option.map_some, Option.some.injEq, Prod.mk.injEq, Option.map_eq_some_iff, Option.isNone_iff_eq_none] at hr
  obtain ⟨⟨new, hn, hf⟩, h2, h3⟩ := hr
  exact ⟨e, new, cur, old, hh, hn, hf, h2, h3⟩

/-- a history with every phase but `CrashLoopBackOff` and `Terminating` -/
example : (play [start,
    { c := { now := 1 * minute, status := noVM, create := .ok "n" "p", nodes := [] } },
    { c := { now := 2 * minute, status := .ok "n" "p" } },
    { c := { now := 3 * minute }, node := readyNode },
    { c := { now := 6 * minute }, node := .notFound },
    { c := { now := 20 * minute }, node := .notFound, mark := true }] [({} : Obj)]).map (fun h => h.map fun o : Obj => (o.st.opType, o.st.state, o.st.timeoutActive)) =
  some [("HealthCheck", "Failed", false), ("HealthCheck", "Processing", false), ("Create", "Successful", false), ("Create", "Processing", true), ("", "", false), ("", "", false),
    ("", "", false)] := by decide +kernel

/-- C45: In a run of the machine controller the health check deletes the bootstrap token exactly if it records that the creation was successful, that is, when a machine
whose creation was not yet successful is found running. -/
theorem C45_deleted_on_joining (e : Env) (v : Obj) (p : Option Health.Phase) (conds : List Conditions.Cond) (tok : Bool)
    (h : Health.check e.c.now (asHealth v) e.node = .status p conds tok) :
    tok = true ↔ v.st.opType = "Create" ∧ v.st.state ≠ "Successful" ∧ (healthWrite e v p conds).st.phase = .running ∧ v.st.phase ≠ .running ∧
      (healthWrite e v p conds).st.opType = "Create" ∧ (healthWrite e v p conds).st.state = "Successful" := by
  have hph : ∀ q, healthPhase q = Health.Phase.running ↔ q = .running := by intro q; cases q <;> simp [healthPhase]
  have htm : ∀ q, Health.timeouts e.c.now (asHealth v) = q → q = .status p conds tok → tok = false ∧ p = some .failed := by
    intro q h1 h2
    subst h1
    unfold Health.timeouts at h2
    split at h2
    · split at h2
      · injection h2 with h2 _ h3; exact ⟨h3.symm, h2.symm⟩
      · cases h2
    · split at h2
      · split at h2 <;> cases h2
      · cases h2
  have key : (tok = false ∧ p = some .failed) ∨ (tok = false ∧ p = some .unknown) ∨ (tok = false ∧ p = none) ∨
      (tok = (asHealth v).creating ∧ p = some .running ∧ v.st.phase ≠ .running) := by
    cases hn : e.node with
    | error => rw [hn] at h; cases h
    | notFound =>
      rw [hn] at h
      unfold Health.check at h
      dsimp only at h
      split at h
      · injection h with h1 _ h3; exact .inr (.inl ⟨h3.symm, h1.symm⟩)
      · exact .inl (htm _ rfl h)
    | found n =>
      rw [hn] at h
      unfold Health.check at h
      dsimp only at h
      split at h
      · split at h
        · rename_i hc
          injection h with h1 _ h3
          exact .inr (.inr (.inr ⟨h3.symm, h1.symm, fun hv => hc.1 ((hph _).2 hv)⟩))
        · split at h
          · injection h with h1 _ h3; exact .inr (.inr (.inl ⟨h3.symm, h1.symm⟩))
          · exact .inl (htm _ rfl h)
      · split at h
        · injection h with h1 _ h3; exact .inr (.inl ⟨h3.symm, h1.symm⟩)
        · split at h
          · injection h with h1 _ h3; exact .inr (.inr (.inl ⟨h3.symm, h1.symm⟩))
          · exact .inl (htm _ rfl h)
  rcases key with ⟨rfl, rfl⟩ | ⟨rfl, rfl⟩ | ⟨rfl, rfl⟩ | ⟨rfl, rfl, hv⟩
  · exact ⟨fun h => (nomatch h), fun h => (nomatch h.2.2.1)⟩
  · exact ⟨fun h => (nomatch h), fun h => (nomatch h.2.2.1)⟩
  · exact ⟨fun h => (nomatch h), fun h => absurd h.2.2.1 h.2.2.2.1⟩
  · constructor
    · intro hc
      have hc : (decide (v.st.opType = "Create") && decide (v.st.state ≠ "Successful")) = true := hc
      have hb := Bool.and_eq_true_iff.1 hc
      refine ⟨of_decide_eq_true hb.1, of_decide_eq_true hb.2, rfl, hv, ?_, rfl⟩
      show (if (decide (v.st.opType = "Create") && decide (v.st.state ≠ "Successful")) = true then "Create" else "HealthCheck") = "Create"
      rw [if_pos hc]
    · intro hc
      show (decide (v.st.opType = "Create") && decide (v.st.state ≠ "Successful")) = true
      simp [hc.1, hc.2.1]

example : Health.check 7 (asHealth { name := "m", node := some "n", st := { opType := "Create", state := "Processing", phase := .pending } })
    (.found { conds := [{ type := "Ready", status := "True" }] }) = .status (some .running) [{ type := "Ready", status := "True" }] true := by decide

end MCM.Lifecycle
