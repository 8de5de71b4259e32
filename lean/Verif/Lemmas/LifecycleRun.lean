import Verif.Props.Fleet
/-!
What a run of the machine controller keeps: the finalizer, and a status that names no step of the termination.
-/
namespace MCM.Lifecycle
open MCM

theorem create_finalizer {e : Creation.Env} {v o : Creation.Obj} (hv : v.finalizer = true) (h : (Creation.reconcile e v).wrote = some o) :
    o.finalizer = true := by
  have hw : ∀ {new r b ev} {before : Option Creation.Obj} {c : Creation.Obj}, c.finalizer = true → (∀ x, before = some x → x.finalizer = true) →
      (Creation.withStatus e c new r b ev before).wrote = some o → o.finalizer = true := by
    intro new r b ev before c hc hb h
    rcases Creation.withStatus_wrote h with ⟨s, rfl⟩ | h
    · exact hc
    · exact hb o h
  have hr : ∀ n p u ev, (Creation.record e v n p u ev).wrote = some o → o.finalizer = true := by
    intro n p u ev h
    unfold Creation.record at h
    dsimp only at h
    have hl : ∀ x, (if (Creation.needsLabels v && e.labelRes == .ok) = true then some (Creation.labelled v n p) else none) = some x → x.finalizer = true := by
      intro x hx
      split at hx
      · cases hx; exact hv
      · cases hx
    generalize (if (Creation.needsLabels v && e.labelRes == .ok) = true then some (Creation.labelled v n p) else none) = wr at h hl
    split at h
    · rcases Creation.initVM_wrote h with ⟨s, rfl⟩ | h
      · show (wr.getD v).finalizer = true
        cases wr with
        | none => exact hv
        | some x => exact hl x rfl
      · exact hl o h
    · split at h
      · exact hl o h
      · split at h
        · dsimp only at h
          split at h
          · cases h; exact hv
          · cases h
        · cases h
  have he : ∀ t l ev, (Creation.createError e v t l ev).wrote = some o → o.finalizer = true := by
    intro t l ev h
    exact hw hv (by intro x hx; cases hx) h
  have hc : (Creation.createStep e v).wrote = some o → o.finalizer = true := by
    intro h
    unfold Creation.createStep at h
    dsimp only at h
    split at h
    · exact he _ _ _ h
    · split at h
      · exact hw hv (by intro x hx; cases hx) h
      · exact hr _ _ _ _ h
  unfold Creation.reconcile at h
  split at h
  · cases h
  split at h
  · cases h
  split at h
  · cases h
  split at h
  · rename_i hf; rw [hv] at hf; cases hf
  split at h
  · cases h
  split at h
  · unfold Creation.creation at h
    split at h
    · cases h
    dsimp only at h
    split at h
    · exact hr _ _ _ _ h
    · split at h
      · cases h
      · split at h
        · split at h
          · exact hc h
          · exact hr _ _ _ _ h
        · split at h
          · exact hc h
          · exact hr _ _ _ _ h
        · split at h
          · cases h
          · exact hr _ _ _ _ h
        · exact he _ _ _ h
  · cases h

theorem run_finalizer {e : Lifecycle.Env} {v o : Lifecycle.Obj} (hv : v.finalizer = true) (h : Lifecycle.run e v = some o) : o.finalizer = true := by
  have hh : ∀ p c, (Lifecycle.healthWrite e v p c).finalizer = true := by
    intro p c
    unfold Lifecycle.healthWrite
    cases p <;> exact hv
  have hrest : Lifecycle.rest e v = some o → o.finalizer = true := by
    intro h
    unfold Lifecycle.rest at h
    cases hc : (Creation.reconcile { e.c with health := none } v.toObj).wrote with
    | none => rw [hc] at h; cases h
    | some x => rw [hc] at h; cases h; exact create_finalizer hv hc
  unfold Lifecycle.run at h
  split at h
  · split at h
    · cases h
    · split at h
      · cases h; exact hh _ _
      · cases h
    · split at h
      · cases h; exact hh _ _
      · cases h
    · split at h
      · cases h
      · exact hrest h
    · split at h
      · cases h
      · exact hrest h
  · exact hrest h

theorem run_desc {e : Lifecycle.Env} {v o : Lifecycle.Obj} (h : Lifecycle.run e v = some o) (hv : v.st.phase = .terminating → Termination.decode v.st.desc = none)
    (ho : o.st.phase = .terminating) : Termination.decode o.st.desc = none := by
  have same : o.st = v.st → Termination.decode o.st.desc = none := by
    intro h; rw [h] at ho ⊢; exact hv ho
  have hh : ∀ p c, o = Lifecycle.healthWrite e v p c → Termination.decode o.st.desc = none := by
    intro p c h
    unfold Lifecycle.healthWrite at h
    cases p with
    | none => exact same (by rw [h])
    | some p =>
      have hd : o.st.desc = "" := by rw [h]
      rw [hd]; decide +kernel
  have hrest : Lifecycle.rest e v = some o → Termination.decode o.st.desc = none := by
    intro h
    unfold Lifecycle.rest at h
    cases hc : (Creation.reconcile { e.c with health := none } v.toObj).wrote with
    | none => rw [hc] at h; cases h
    | some x =>
      rw [hc] at h
      cases h
      rcases (Lifecycle.reconcile_spec hc).2.1.2 with h | ⟨h | h, _⟩ | ⟨h, _⟩
      · exact same h
      all_goals exact absurd (ho.symm.trans h) (by decide)
  unfold Lifecycle.run at h
  split at h
  · split at h
    · cases h
    · split at h
      · cases h; exact hh _ _ rfl
      · cases h
    · split at h
      · cases h; exact hh _ _ rfl
      · cases h
    · split at h
      · cases h
      · exact hrest h
    · split at h
      · cases h
      · exact hrest h
  · exact hrest h

theorem asks_finalizer {e : Lifecycle.Env} {v : Lifecycle.Obj} (h : Lifecycle.asks e v = true) : v.finalizer = true := by
  unfold Lifecycle.asks at h
  rw [Bool.and_eq_true] at h
  obtain ⟨req, hr⟩ := (Creation.requests_iff _ _).1 h.2
  exact (Creation.C25_finalizer_before_vm _ _ req hr).2.1

end MCM.Lifecycle
