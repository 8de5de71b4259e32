import Verif.Model.TermQueue
import Verif.Props.TerminationLive
/-!
C46: only machines requested for deletion are terminated.
-/
namespace MCM.TermQueue
open MCM

/-- the name has never been used -/
def NeverUsed (w : World) : Prop := ∀ x ∈ w.hist, x = none

def Ok (x : Option Inst) : Prop := ∀ i, x = some i → i.deleting = true

/-- the name's object is being deleted or gone at position `j` -/
def Ending (h : List (Option Inst)) (j : Nat) : Prop :=
  (∃ i, h[j]? = some (some i) ∧ i.deleting = true) ∨ (h[j]? = some none ∧ ∃ j' < j, ∃ i, h[j']? = some (some i))

structure Inv (w : World) : Prop where
  pos : w.pos < w.hist.length
  shape : ∀ j, Ending w.hist j → ∀ k, j ≤ k → ∀ x, w.hist[k]? = some x → Ok x
  queued : w.queued = true → ∃ j, j ≤ w.pos ∧ Ending w.hist j
  log : ∀ i ∈ w.log, i.deleting = true

theorem live_get {w : World} {i : Inst} (h : w.live = some i) : w.hist[w.hist.length - 1]? = some (some i) := by
  unfold World.live at h
  rw [List.getLast?_eq_getElem?] at h
  cases hg : w.hist[w.hist.length - 1]? with
  | none => rw [hg] at h; cases h
  | some x => rw [hg] at h; cases x with
    | none => cases h
    | some j => cases h; rfl

theorem Ending.append {h : List (Option Inst)} {j : Nat} (he : Ending h j) (x : Option Inst) : Ending (h ++ [x]) j := by
  have lt : ∀ {k : Nat} {y : Option Inst}, h[k]? = some y → (h ++ [x])[k]? = some y := by
    intro k y hy
    rw [List.getElem?_append_left (List.getElem?_eq_some_iff.1 hy).1]; exact hy
  rcases he with ⟨i, h1, h2⟩ | ⟨h1, j', hj, i, h2⟩
  · exact .inl ⟨i, lt h1, h2⟩
  · exact .inr ⟨lt h1, j', hj, i, lt h2⟩

/-- appending a state `x` that is fine whenever the name is ending -/
theorem inv_append {w : World} (hi : Inv w) (x : Option Inst) (h1 : (∃ j, Ending w.hist j) → Ok x) :
    Inv { w with hist := w.hist ++ [x] } where
  pos := by
    have := hi.pos
    show w.pos < (w.hist ++ [x]).length
    rw [List.length_append]; omega
  shape := by
    intro j hj k hjk y hy
    dsimp only at hj hy
    by_cases hk : k < w.hist.length
    · rw [List.getElem?_append_left hk] at hy
      refine hi.shape j ?_ k hjk y hy
      have hjl : j < w.hist.length := by omega
      rcases hj with ⟨i, h, hd⟩ | ⟨h, j', hj', i, h'⟩
      · rw [List.getElem?_append_left hjl] at h; exact .inl ⟨i, h, hd⟩
      · rw [List.getElem?_append_left hjl] at h
        rw [List.getElem?_append_left (by omega)] at h'
        exact .inr ⟨h, j', hj', i, h'⟩
    · have hkl : k = w.hist.length := by
        have := (List.getElem?_eq_some_iff.1 hy).1
        rw [List.length_append] at this; simp at this; omega
      subst hkl
      rw [List.getElem?_append_right (Nat.le_refl _), Nat.sub_self] at hy
      cases hy
      by_cases hjl : j < w.hist.length
      · apply h1
        refine ⟨j, ?_⟩
        rcases hj with ⟨i, h, hd⟩ | ⟨h, j', hj', i, h'⟩
        · rw [List.getElem?_append_left hjl] at h; exact .inl ⟨i, h, hd⟩
        · rw [List.getElem?_append_left hjl] at h
          rw [List.getElem?_append_left (by omega)] at h'
          exact .inr ⟨h, j', hj', i, h'⟩
      · have : j = w.hist.length := by omega
        subst this
        rcases hj with ⟨i, h, hd⟩ | ⟨h, _⟩
        · rw [List.getElem?_append_right (Nat.le_refl _), Nat.sub_self] at h
          cases h
          intro i' hi'; cases hi'; exact hd
        · rw [List.getElem?_append_right (Nat.le_refl _), Nat.sub_self] at h
          cases h
          intro i' hi'; cases hi'
  queued := fun hq => let ⟨j, hj, he⟩ := hi.queued hq; ⟨j, hj, he.append x⟩
  log := hi.log

theorem join_eq {α : Type} {x : Option (Option α)} {a : α} (h : x.join = some a) : x = some (some a) := by
  cases x with
  | none => cases h
  | some y => cases y with
    | none => cases h
    | some b => cases h; rfl

/-- a key is queued for an ending name only -/
theorem enqueues_ending {w : World} {gen : Bool} {p : Nat} (hp : w.pos < p) (hl : p < w.hist.length)
    (h : enqueues gen w.cache (w.hist[p]?).join = true) : Ending w.hist p := by
  unfold World.cache at h
  cases hn : (w.hist[p]?).join with
  | some n =>
    rw [hn] at h
    have hd : n.deleting = true := by
      cases ho : (w.hist[w.pos]?).join with
      | none => rw [ho] at h; exact h
      | some o => rw [ho] at h; unfold enqueues at h; simp at h; exact h.2
    exact .inl ⟨n, join_eq hn, hd⟩
  | none =>
    rw [hn] at h
    cases ho : (w.hist[w.pos]?).join with
    | none => rw [ho] at h; cases h
    | some o =>
      refine .inr ⟨?_, w.pos, hp, o, join_eq ho⟩
      rw [List.getElem?_eq_getElem hl] at hn ⊢
      cases hv : w.hist[p] with
      | none => rfl
      | some y => rw [hv] at hn; cases hn

theorem inv_step {w w' : World} (hi : Inv w) (hs : Step NeverUsed w w') : Inv w' := by
  have ok_live : ∀ i, w.live = some i → (∃ j, Ending w.hist j) → i.deleting = true := by
    intro i hl ⟨j, hj⟩
    have hjl : j < w.hist.length := by
      rcases hj with ⟨_, h, _⟩ | ⟨h, _⟩ <;> exact (List.getElem?_eq_some_iff.1 h).1
    exact hi.shape j hj _ (by omega) _ (live_get hl) i rfl
  cases hs with
  | create uid hg _ =>
    refine inv_append hi _ ?_
    rintro ⟨j, ⟨i, h, _⟩ | ⟨_, j', _, i, h⟩⟩ <;> exact absurd (hg _ (List.mem_of_getElem? h)) (by simp)
  | update i hl =>
    exact inv_append hi _ (fun h j hj => by cases hj; exact ok_live i hl h)
  | request i hl => exact inv_append hi _ (fun _ j hj => by cases hj; rfl)
  | remove i hl => exact inv_append hi _ (fun _ j hj => (nomatch hj))
  | observe gen p h1 h2 =>
    refine ⟨h2, hi.shape, fun hq => ?_, hi.log⟩
    dsimp only at hq ⊢
    rw [Bool.or_eq_true] at hq
    rcases hq with hq | hq
    · obtain ⟨j, hj, he⟩ := hi.queued hq
      exact ⟨j, by omega, he⟩
    · exact ⟨p, Nat.le_refl _, enqueues_ending h1 h2 hq⟩
  | restart =>
    refine ⟨by have := hi.pos; show w.hist.length - 1 < w.hist.length; omega, hi.shape, fun hq => ?_, hi.log⟩
    dsimp only at hq ⊢
    cases hl : w.live with
    | none => rw [hl] at hq; cases hq
    | some i =>
      rw [hl] at hq
      have hd : i.deleting = true := hq
      exact ⟨_, Nat.le_refl _, .inl ⟨i, live_get hl, hd⟩⟩
  | work classOk hq =>
    unfold World.work
    cases hc : w.cache with
    | none => exact ⟨hi.pos, hi.shape, fun h => (nomatch h), hi.log⟩
    | some i =>
      refine ⟨hi.pos, hi.shape, hi.queued, fun j hj => ?_⟩
      dsimp only at hj
      have hd : i.deleting = true := by
        unfold World.cache at hc
        obtain ⟨j, hj, he⟩ := hi.queued hq
        exact hi.shape j he w.pos hj _ (join_eq hc) i rfl
      split at hj
      · rcases List.mem_cons.1 hj with h | h
        · rw [h]; exact hd
        · exact hi.log j h
      · exact hi.log j hj

/-- C46: As long as a name is used for one machine only, every machine given to the termination flow carries a deletion
timestamp – for all histories of writes, deletions, cache lags, re-lists, restarts and retries. -/
theorem C46_only_requested_partial (w : World) (h : Reach NeverUsed w) : ∀ i ∈ w.log, i.deleting = true := by
  suffices hi : Inv w from hi.log
  induction h with
  | init =>
    refine ⟨by decide, fun j hj k _ x hx => ?_, fun h => (nomatch h), fun i hi => (nomatch hi)⟩
    have : x = none := by
      match k, hx with
      | 0, hx => cases hx; rfl
      | k + 1, hx => cases hx
    subst this
    exact fun i hi => (nomatch hi)
  | step _ hs ih => exact inv_step ih hs

/-- a machine is created, deleted, and terminated, without its name being used again -/
example : ∃ w, Reach NeverUsed w ∧ w.log = [⟨1, true⟩] := by
  have s1 : Reach NeverUsed _ := .step .init (.create 1 (fun x hx => by simpa using hx) rfl)
  have s2 := s1.step (.request ⟨1, false⟩ rfl)
  have s3 := s2.step (.observe true 1 (by decide) (by decide))
  have s4 := s3.step (.observe true 2 (by decide) (by decide))
  have s5 := s4.step (.work true rfl)
  exact ⟨_, s5, rfl⟩

/-- C46 fails when a name is used again: the key of the old machine (added again after its removal, machine.go:287, and by the
delete event) is still queued when the new machine of that name arrives, and the new machine is terminated. -/
theorem C46_recreated_machine_false : ∃ w, Reach (fun _ => True) w ∧ ⟨2, false⟩ ∈ w.log := by
  have s1 : Reach (fun _ => True) _ := .step .init (.create 1 trivial rfl)
  have s2 := s1.step (.observe true 1 (by decide) (by decide))
  have s3 := s2.step (.request ⟨1, false⟩ rfl)
  have s4 := s3.step (.observe true 2 (by decide) (by decide))
  have s5 := s4.step (.work true rfl)
  have s6 := s5.step (.remove ⟨1, true⟩ rfl)
  have s7 := s6.step (.observe true 3 (by decide) (by decide))
  have s8 := s7.step (.create 2 trivial rfl)
  have s9 := s8.step (.observe true 4 (by decide) (by decide))
  have s10 := s9.step (.work true rfl)
  exact ⟨_, s10, by decide⟩

end MCM.TermQueue

namespace MCM.Termination
open MCM MCM.Similar MCM.Codes

/-- answers of a provider that does not know the VM yet; each reconcile an hour after the last -/
def unknownVM (k : Nat) : Env := { now := (k + 1) * 2 * tolerance, getStatus := .error (render .notFound "gone") }

theorem gone_decodes : fromError (render .notFound "gone") = some (.notFound, "gone") :=
  (C32_round_trip_iff .notFound trivial _).2 ⟨fun p hp => by
    rw [List.count_eq_zero.2 (fun h => absurd (hp.subset h) (by decide))]; exact Nat.zero_le _, by decide⟩

theorem run_writes {e : Env} {v : Obj} {new : MStatus} {b : Bool} (hc : e.classOk = true) (hl : labelOf e v = none)
    (hw : (flow e v).write = some (.status b new)) (ht : v.st.opTime < e.now - tolerance) : run e v = { v with st := new } := by
  unfold run
  rw [if_neg (by simp [hc]), hl]
  dsimp only
  unfold run.afterFlow
  rw [hw]
  dsimp only
  cases b with
  | false => rfl
  | true => rw [applyWrite, similar_old ht]; rfl

def stepOut (e : Env) (v : Obj) : TStep → Out
  | .getVM => getVMStep e v
  | .drain => drainStep e v
  | .vols => volStep e v
  | .vm => vmStep e v
  | .node => nodeStep e v
  | .fin => finStep

theorem flow_at {e : Env} {v : Obj} (hf : v.finalizer = true) (hp : v.st.phase = .terminating) {s : TStep}
    (hd : decode v.st.desc = some s) : flow e v = stepOut e v s := by
  unfold flow
  rw [if_neg (by simp [hf]), if_neg (by simp [hp]), hd]
  cases s <;> rfl

theorem label_at {e : Env} {v : Obj} {s : TStep} (hd : decode v.st.desc = some s) (hs : s ≠ .getVM) : labelOf e v = none := by
  unfold labelOf; rw [if_neg (by rw [hd]; simp [hs])]

/-- C46, consequence: the flow itself does not look at the deletion timestamp. From a fresh machine without one it goes on to ask
the provider for the deletion of its VM. -/
theorem C46_vm_deleted_unrequested_false :
    ∃ w ans, Reach { hist := [{ deleting := none }] } w ∧ Event.deleteVM none ans ∈ w.trace := by
  let v0 : Obj := { deleting := none }
  let v1 : Obj := { v0 with st := termStatus (unknownVM 0) v0 }
  have r0 : run (unknownVM 0) v0 = v1 := run_writes (b := false) rfl rfl rfl (by decide)
  have d1 : decode v1.st.desc = some .getVM := decode_text .getVM
  let v2 : Obj := { v1 with st := stepStatus (unknownVM 1) v1 ("VM was not found at provider. Moving forward to node drain. " ++ TStep.drain.text) "Processing" }
  have r1 : run (unknownVM 1) v1 = v2 := by
    refine run_writes (b := true) rfl ?_ ?_ (by decide)
    · unfold labelOf; rw [d1]; rfl
    · rw [flow_at rfl rfl d1]
      show (getVMStep _ _).write = _
      unfold getVMStep
      rw [if_neg (by decide), show nodeName (unknownVM 1) = .error (render .notFound "gone") from rfl]
      dsimp only
      have hg : getVMError (render .notFound "gone") =
          ("VM was not found at provider. Moving forward to node drain. " ++ TStep.drain.text, "Processing", shortRetry) := by
        unfold getVMError
        rw [gone_decodes]
      rw [hg]
  have d2 : decode v2.st.desc = some .drain := decode_const lit (by decide +kernel)
  let v3 : Obj := { v2 with st := stepStatus (unknownVM 2) v2 ("Skipping drain as nodeName is not a valid one for machine. " ++ TStep.vm.text) "Processing" }
  have r2 : run (unknownVM 2) v2 = v3 := by
    refine run_writes (b := true) rfl (label_at d2 (by decide)) ?_ (by decide)
    rw [flow_at rfl rfl d2]
    rfl
  have d3 : decode v3.st.desc = some .vm := decode_const lit (by decide +kernel)
  obtain ⟨w, b, hr, hb, _⟩ := runs_reach [unknownVM 0, unknownVM 1, unknownVM 2] { hist := [v0] } 0 v0 rfl rfl
  have hv : runs [unknownVM 0, unknownVM 1, unknownVM 2] v0 = v3 := by
    unfold runs
    rw [List.foldl_cons, r0, List.foldl_cons, r1, List.foldl_cons, r2, List.foldl_nil]
  rw [hv] at hb
  refine ⟨_, (unknownVM 3).delVM, hr.step (.act (unknownVM 3) b v3 hb (label_at d3 (by decide))), ?_⟩
  refine List.mem_append_right _ ?_
  rw [flow_at rfl rfl d3]
  exact List.mem_singleton.2 rfl

/-- C46, consequence: if such a machine has a node, the drain dereferences the missing timestamp, and the controller panics. -/
theorem C46_panic_false (e : Env) :
    (flow e { deleting := none, node := "node-1", st := { phase := .terminating, desc := TStep.drain.text } }).panic = true := by
  unfold flow
  rw [if_neg (by decide), if_neg (by decide)]
  dsimp only
  rw [decode_text .drain]
  rfl

end MCM.Termination
