import Verif.Model.Deletion
import Verif.Props.Claim
/-!
# C07 – a MachineSet / MachineDeployment disappears only after its dependents
-/
namespace MCM.Deletion
open MCM MCM.Claim

/-! ## Independent specification -/

/-- the cached dependents of the object: controlled by it and matching its selector -/
def Dependent (uid : String) (sel : SMap → Bool) (o : Obj) : Prop := ControlledBy o uid ∧ sel o.labels = true

/-- the write takes our finalizer away -/
def Removes (a : Act) : Prop := ∃ fs, a = .writeFinalizers fs ∧ "machine.sapcloud.io/machine-controller-manager" ∉ fs
/-- the write may add our finalizer -/
def Adds (a : Act) : Prop := ∃ fs, a = .writeFinalizers fs ∧ "machine.sapcloud.io/machine-controller-manager" ∈ fs

/-- the type shared by the two reconcile functions -/
abbrev Rec := FObj → Env → (SMap → Bool) → Option Ctrl → (Obj → Option ApiErr) → Option (List Obj) → List Act

/-! ## Lemmas -/

theorem addFin_adds (o : FObj) (a : Act) (h : a ∈ addFin o) : Adds a := by
  unfold addFin at h; split at h
  · simp at h
  · simp at h; subst h; exact ⟨_, rfl, by simp [finalizerName]⟩

theorem delFin_removes (o : FObj) (a : Act) (h : a ∈ delFin o) : Removes a := by
  unfold delFin at h; split at h
  · simp at h; subst h; exact ⟨_, rfl, by simp [finalizerName]⟩
  · simp at h

theorem not_both (a : Act) (h1 : Adds a) (h2 : Removes a) : False := by
  obtain ⟨fs, rfl, h1⟩ := h1; obtain ⟨fs', h, h2⟩ := h2; simp at h; subst h; exact h2 h1

theorem claimed_nil (uid : String) (sel live ans) (ms : List Obj) (hv : ∀ o ∈ ms, OneController o)
    (h : (claimAll ⟨uid, true⟩ sel live ans none ms).1.isEmpty = true) : ∀ o ∈ ms, ¬ Dependent uid sel o := by
  intro o ho hd
  have := (C06_claim_decisions ⟨uid, true⟩ sel live ans ms hv).1 o
  have h2 := this.2 ⟨ho, Or.inl hd⟩
  simp at h; rw [h] at h2; simp at h2

theorem claimed_deleting (uid : String) (sel live ans) (ms : List Obj) (hv : ∀ o ∈ ms, OneController o) (o : Obj) :
    o ∈ (claimAll ⟨uid, true⟩ sel live ans none ms).1 ↔ o ∈ ms ∧ Dependent uid sel o := by
  rw [(C06_claim_decisions ⟨uid, true⟩ sel live ans ms hv).1 o]
  constructor
  · rintro ⟨h, hd | hd⟩
    · exact ⟨h, hd⟩
    · have := hd.1.2.2.2.1; simp at this
  · rintro ⟨h, hd⟩; exact ⟨h, Or.inl hd⟩

/-- what both reconcile functions guarantee about single writes -/
def GoodRec (rec : Rec) : Prop :=
  ∀ view env sel live ans cache, (∀ ms, cache = some ms → ∀ o ∈ ms, OneController o) →
    ∀ a ∈ rec view env sel live ans cache,
      (Removes a → view.deleting = true ∧ ∃ ms, cache = some ms ∧ ∀ o ∈ ms, ¬ Dependent view.uid sel o)
      ∧ (Adds a → view.deleting = false)

theorem a1_good (view : FObj) (a : Act) (h : a ∈ (if view.deleting then [] else addFin view)) :
    Adds a ∧ view.deleting = false := by
  split at h
  · simp at h
  · rename_i hd; exact ⟨addFin_adds _ _ h, by simpa using hd⟩

theorem goodSet : GoodRec reconcileSet := by
  intro view env sel live ans cache hv a ha
  unfold reconcileSet at ha
  generalize ha1 : (if view.deleting = true then [] else addFin view) = a1 at ha
  have hA : a ∈ a1 → (Removes a → view.deleting = true ∧ ∃ ms, cache = some ms ∧ ∀ o ∈ ms, ¬ Dependent view.uid sel o)
      ∧ (Adds a → view.deleting = false) := by
    intro h; rw [← ha1] at h
    have := a1_good view a h
    exact ⟨fun hr => (not_both a this.1 hr).elim, fun _ => this.2⟩
  have hO : ∀ x, (x = .others ∨ ∃ l, x = .terminate l) → a = x →
      (Removes a → view.deleting = true ∧ ∃ ms, cache = some ms ∧ ∀ o ∈ ms, ¬ Dependent view.uid sel o)
      ∧ (Adds a → view.deleting = false) := by
    intro x hx hax
    subst hax
    rcases hx with rfl | ⟨l, rfl⟩ <;> exact ⟨fun ⟨_, h, _⟩ => by simp at h, fun ⟨_, h, _⟩ => by simp at h⟩
  split at ha
  · simp at ha
  dsimp only at ha
  split at ha
  · exact hA ha
  split at ha
  · exact hA ha
  split at ha
  · exact hA ha
  rename_i ms
  split at ha
  · exact hA ha
  split at ha
  · simp at ha; rcases ha with ha | ha
    · exact hA ha
    · exact hO _ (Or.inl rfl) ha
  split at ha
  · simp at ha; rcases ha with ha | ha
    · exact hA ha
    · exact hO _ (Or.inl rfl) ha
  rename_i hdel
  simp at hdel
  split at ha
  · rename_i hemp
    simp only [List.mem_append] at ha
    rcases ha with (ha | ha) | ha
    · exact hA ha
    · have hr := delFin_removes _ _ ha
      refine ⟨fun _ => ⟨hdel, ms, rfl, ?_⟩, fun had => (not_both a had hr).elim⟩
      rw [hdel] at hemp
      exact claimed_nil _ _ _ _ _ (hv ms rfl) hemp
    · split at ha <;> simp at ha
      exact hO _ (Or.inl rfl) ha
  split at ha
  · simp at ha; rcases ha with ha | ha | ha
    · exact hA ha
    · exact hO _ (Or.inr ⟨_, rfl⟩) ha
    · exact hO _ (Or.inl rfl) ha
  · simp at ha; rcases ha with ha | ha
    · exact hA ha
    · exact hO _ (Or.inl rfl) ha

theorem goodDeployment : GoodRec reconcileDeployment := by
  intro view env sel live ans cache hv a ha
  unfold reconcileDeployment at ha
  generalize ha1 : (if view.deleting = true then [] else addFin view) = a1 at ha
  have hA : a ∈ a1 → (Removes a → view.deleting = true ∧ ∃ ms, cache = some ms ∧ ∀ o ∈ ms, ¬ Dependent view.uid sel o)
      ∧ (Adds a → view.deleting = false) := by
    intro h; rw [← ha1] at h
    have := a1_good view a h
    exact ⟨fun hr => (not_both a this.1 hr).elim, fun _ => this.2⟩
  have hO : ∀ x, (x = .others ∨ ∃ l, x = .terminate l) → a = x →
      (Removes a → view.deleting = true ∧ ∃ ms, cache = some ms ∧ ∀ o ∈ ms, ¬ Dependent view.uid sel o)
      ∧ (Adds a → view.deleting = false) := by
    intro x hx hax
    subst hax
    rcases hx with rfl | ⟨l, rfl⟩ <;> exact ⟨fun ⟨_, h, _⟩ => by simp at h, fun ⟨_, h, _⟩ => by simp at h⟩
  split at ha
  · simp at ha
  dsimp only at ha
  split at ha
  · simp at ha; rcases ha with ha | ha
    · exact hA ha
    · exact hO _ (Or.inl rfl) ha
  split at ha
  · exact hA ha
  rename_i ms
  split at ha
  · exact hA ha
  split at ha
  · exact hA ha
  split at ha
  · rename_i hdel
    split at ha
    · exact hA ha
    split at ha
    · rename_i hemp
      simp only [List.mem_append] at ha
      rcases ha with ha | ha
      · exact hA ha
      · have hr := delFin_removes _ _ ha
        refine ⟨fun _ => ⟨hdel, ms, rfl, ?_⟩, fun had => (not_both a had hr).elim⟩
        rw [hdel] at hemp
        exact claimed_nil _ _ _ _ _ (hv ms rfl) hemp
    · simp at ha; rcases ha with ha | ha | ha
      · exact hA ha
      · exact hO _ (Or.inr ⟨_, rfl⟩) ha
      · exact hO _ (Or.inl rfl) ha
  · simp at ha; rcases ha with ha | ha
    · exact hA ha
    · exact hO _ (Or.inl rfl) ha

/-! ## C07 -/

/-- MachineSet: a reconcile writes a finalizer list without our finalizer only if it read the set as being deleted and
its cache holds no dependent machine; it writes one with our finalizer only if it read the set as not being deleted.
**Partial**: machines the set controls whose labels no longer match are not counted
(`C07_unmatched_machine_is_left_behind_false`). -/
theorem C07_machineSet_finalizer_partial (view : FObj) (env : Env) (sel : SMap → Bool) (live : Option Ctrl)
    (ans : Obj → Option ApiErr) (cache : Option (List Obj)) (hv : ∀ ms, cache = some ms → ∀ o ∈ ms, OneController o)
    (a : Act) (ha : a ∈ reconcileSet view env sel live ans cache) :
    (Removes a → view.deleting = true ∧ ∃ ms, cache = some ms ∧ ∀ o ∈ ms, ¬ Dependent view.uid sel o)
    ∧ (Adds a → view.deleting = false) := goodSet view env sel live ans cache hv a ha

/-- MachineDeployment: the same. -/
theorem C07_deployment_finalizer_partial (view : FObj) (env : Env) (sel : SMap → Bool) (live : Option Ctrl)
    (ans : Obj → Option ApiErr) (cache : Option (List Obj)) (hv : ∀ ms, cache = some ms → ∀ o ∈ ms, OneController o)
    (a : Act) (ha : a ∈ reconcileDeployment view env sel live ans cache) :
    (Removes a → view.deleting = true ∧ ∃ ms, cache = some ms ∧ ∀ o ∈ ms, ¬ Dependent view.uid sel o)
    ∧ (Adds a → view.deleting = false) := goodDeployment view env sel live ans cache hv a ha

example : ∃ a ∈ reconcileSet ⟨"u", true, [finalizerName, "x"]⟩ {} (fun _ => true) none (fun _ => none)
    (some [{ name := "m", uid := "1", owners := [⟨"v", true⟩] }]), Removes a :=
  ⟨.writeFinalizers ["x"], by decide, ["x"], rfl, by decide⟩

/-- Until the machines are gone, a deleted MachineSet's undisturbed reconcile tells every dependent machine in the cache
(and nothing else) to delete, and leaves the finalizer alone. -/
theorem C07_machineSet_terminates_all (view : FObj) (env : Env) (sel : SMap → Bool) (live : Option Ctrl)
    (ans : Obj → Option ApiErr) (ms : List Obj) (hv : ∀ o ∈ ms, OneController o)
    (hd : view.deleting = true) (hf : "machine.sapcloud.io/machine-controller-manager" ∈ view.finalizers)
    (hval : env.valid = true) (hsel : env.selectorOk = true) (hsync : env.syncOk = true)
    (hex : ∃ o ∈ ms, Dependent view.uid sel o) :
    ∃ l, reconcileSet view env sel live ans (some ms) = [.terminate l, .others] ∧
      ∀ o, o ∈ l ↔ o ∈ ms ∧ Dependent view.uid sel o := by
  have hc := claimed_deleting view.uid sel live ans ms hv
  obtain ⟨o, ho, hdep⟩ := hex
  have hne : (claimAll ⟨view.uid, true⟩ sel live ans none ms).1.isEmpty = false := by
    cases h : (claimAll ⟨view.uid, true⟩ sel live ans none ms).1 with
    | nil => have := (hc o).2 ⟨ho, hdep⟩; rw [h] at this; simp at this
    | cons => rfl
  have herr : ∀ memo l, (claimAll ⟨view.uid, true⟩ sel live ans memo l).2.1 = false := by
    intro memo l
    induction l generalizing memo with
    | nil => rfl
    | cons x xs ih =>
      simp only [claimAll]
      rw [ih]
      unfold claimObject
      (repeat' split) <;> simp_all
  refine ⟨(claimAll ⟨view.uid, true⟩ sel live ans none ms).1, ?_, hc⟩
  have hf' : finalizerName ∈ view.finalizers := hf
  simp [reconcileSet, hval, hd, hsel, hsync, herr, hne, hf']

/-- The same for a deleted MachineDeployment and its machine sets that are not already being deleted. -/
theorem C07_deployment_terminates_all (view : FObj) (env : Env) (sel : SMap → Bool) (live : Option Ctrl)
    (ans : Obj → Option ApiErr) (ms : List Obj) (hv : ∀ o ∈ ms, OneController o)
    (hd : view.deleting = true) (hf : "machine.sapcloud.io/machine-controller-manager" ∈ view.finalizers)
    (hval : env.valid = true) (hsel : env.selectorOk = true) (hsync : env.syncOk = true)
    (hex : ∃ o ∈ ms, Dependent view.uid sel o) :
    ∃ l, reconcileDeployment view env sel live ans (some ms) = [.terminate l, .others] ∧
      ∀ o, o ∈ l ↔ o ∈ ms ∧ Dependent view.uid sel o ∧ o.deleting = false := by
  have hc := claimed_deleting view.uid sel live ans ms hv
  obtain ⟨o, ho, hdep⟩ := hex
  have hne : (claimAll ⟨view.uid, true⟩ sel live ans none ms).1.isEmpty = false := by
    cases h : (claimAll ⟨view.uid, true⟩ sel live ans none ms).1 with
    | nil => have := (hc o).2 ⟨ho, hdep⟩; rw [h] at this; simp at this
    | cons => rfl
  have herr : ∀ memo l, (claimAll ⟨view.uid, true⟩ sel live ans memo l).2.1 = false := by
    intro memo l
    induction l generalizing memo with
    | nil => rfl
    | cons x xs ih =>
      simp only [claimAll]
      rw [ih]
      unfold claimObject
      (repeat' split) <;> simp_all
  refine ⟨(claimAll ⟨view.uid, true⟩ sel live ans none ms).1.filter (fun o => !o.deleting), ?_, ?_⟩
  · have hf' : finalizerName ∈ view.finalizers := hf
    simp [reconcileDeployment, hval, hd, hsel, hsync, herr, hne, hf']
  · intro o; rw [List.mem_filter, hc]; simp [and_assoc]

example : ∃ o ∈ [({ name := "m", uid := "1", labels := [("a","b")], owners := [⟨"u", true⟩] } : Obj)],
    Dependent "u" (fun l => l.get "a" = "b") o :=
  ⟨_, List.mem_singleton.2 rfl, by simp [ControlledBy], by decide⟩

/-! ### Histories -/

/-- the reconcile events of a history that could have taken the finalizer away: view deleting, no dependents in cache -/
def SawNone : Ev → Prop
  | .reconcile view _ sel _ _ cache _ => view.deleting = true ∧ ∃ ms, cache = some ms ∧ ∀ o ∈ ms, ¬ Dependent view.uid sel o
  | _ => False

/-- lister caches only hold objects the API server accepted -/
def CachesOk : Ev → Prop
  | .reconcile _ _ _ _ _ cache _ => ∀ ms, cache = some ms → ∀ o ∈ ms, OneController o
  | _ => True

def HasFin (s : Option FObj) : Prop := ∃ o, s = some o ∧ finalizerName ∈ o.finalizers

theorem applyFinWrite_keeps (s : Option FObj) (fs : List String) (h : HasFin s) (hf : finalizerName ∈ fs) :
    HasFin (applyFinWrite s fs) := by
  obtain ⟨o, rfl, ho⟩ := h
  unfold applyFinWrite
  simp only
  split
  · exact ⟨o, rfl, ho⟩
  split
  · rename_i h; simp at h; rw [h.2] at hf; simp at hf
  · exact ⟨_, rfl, hf⟩

theorem applyActs_keeps (as : List Act) : ∀ s, HasFin s → (∀ a ∈ as, ¬ Removes a) → HasFin (applyActs s as) := by
  induction as with
  | nil => intro s h _; exact h
  | cons a as ih =>
    intro s h hr
    have hr' : ∀ a ∈ as, ¬ Removes a := fun x hx => hr x (by simp [hx])
    cases a with
    | writeFinalizers fs =>
      refine ih _ (applyFinWrite_keeps s fs h ?_) hr'
      have := hr (.writeFinalizers fs) (by simp)
      by_cases hm : finalizerName ∈ fs
      · exact hm
      · exact absurd ⟨fs, rfl, hm⟩ this
    | terminate _ => exact ih s h hr'
    | others => exact ih s h hr'

theorem history_generic (rec : Rec) (hrec : GoodRec rec) (evs : List Ev) (hc : ∀ e ∈ evs, CachesOk e)
    (s : Option FObj) (hs : HasFin s) (hno : ∀ e ∈ evs, ¬ SawNone e) : HasFin (evs.foldl (stepEv rec) s) := by
  induction evs generalizing s with
  | nil => exact hs
  | cons e evs ih =>
    refine ih (fun x hx => hc x (by simp [hx])) (stepEv rec s e) ?_ (fun x hx => hno x (by simp [hx]))
    have hce := hc e (by simp)
    have hne := hno e (by simp)
    cases e with
    | reconcile view env sel live ans cache k =>
      refine applyActs_keeps _ s hs ?_
      intro a ha hr
      have ha' := List.mem_of_mem_take ha
      exact hne ((hrec view env sel live ans cache hce a ha').1 hr)
    | requestDelete =>
      obtain ⟨o, rfl, ho⟩ := hs
      simp only [stepEv]
      split
      · rename_i h; simp at h; rw [h] at ho; simp at ho
      · exact ⟨_, rfl, ho⟩
    | foreign fs =>
      obtain ⟨o, rfl, ho⟩ := hs
      simp only [stepEv]
      split
      · rename_i h
        refine applyFinWrite_keeps _ _ ⟨o, rfl, ho⟩ ?_
        simp only [beq_iff_eq] at h
        have : o.finalizers.contains finalizerName = true := by simpa using ho
        rw [this] at h; simpa using h.symm
      · exact ⟨o, rfl, ho⟩

/-- Over any history of reconciles (outdated views and caches, crashes between writes), deletion requests and foreign
finalizer edits, a MachineSet that carried our finalizer has disappeared (or lost it) only if some reconcile read it as
being deleted and saw no dependent machine in its cache. **Partial** as above. -/
theorem C07_machineSet_history_partial (evs : List Ev) (hc : ∀ e ∈ evs, CachesOk e) (o : FObj)
    (ho : "machine.sapcloud.io/machine-controller-manager" ∈ o.finalizers)
    (hgone : evs.foldl (stepEv reconcileSet) (some o) = none) :
    ∃ e ∈ evs, SawNone e := by
  by_cases h : ∃ e ∈ evs, SawNone e
  · exact h
  · obtain ⟨o', h', _⟩ := history_generic reconcileSet goodSet evs hc (some o) ⟨o, rfl, ho⟩
      (fun e he hn => h ⟨e, he, hn⟩)
    rw [hgone] at h'; simp at h'

/-- The same for MachineDeployments. -/
theorem C07_deployment_history_partial (evs : List Ev) (hc : ∀ e ∈ evs, CachesOk e) (o : FObj)
    (ho : "machine.sapcloud.io/machine-controller-manager" ∈ o.finalizers)
    (hgone : evs.foldl (stepEv reconcileDeployment) (some o) = none) :
    ∃ e ∈ evs, SawNone e := by
  by_cases h : ∃ e ∈ evs, SawNone e
  · exact h
  · obtain ⟨o', h', _⟩ := history_generic reconcileDeployment goodDeployment evs hc (some o) ⟨o, rfl, ho⟩
      (fun e he hn => h ⟨e, he, hn⟩)
    rw [hgone] at h'; simp at h'

/-- such a history exists: deletion is requested, one reconcile, the object is gone -/
example : [Ev.requestDelete, Ev.reconcile ⟨"u", true, [finalizerName]⟩ {} (fun _ => true) none (fun _ => none) (some []) 5].foldl
    (stepEv reconcileSet) (some ⟨"u", false, [finalizerName]⟩) = none := by decide

/-- **The full property fails**: a machine controlled by the deleted MachineSet whose labels no longer match its selector
is neither terminated nor waited for; the finalizer is removed while it exists. -/
theorem C07_unmatched_machine_is_left_behind_false :
    ∃ (view : FObj) (sel : SMap → Bool) (m : Obj), ControlledBy m view.uid ∧ view.deleting = true ∧
      ∃ a ∈ reconcileSet view {} sel (some ⟨view.uid, true⟩) (fun _ => none) (some [m]), Removes a :=
  ⟨⟨"u", true, [finalizerName]⟩, fun l => l.get "a" = "b", { name := "m", uid := "1", owners := [⟨"u", true⟩] },
    by simp [ControlledBy], rfl, .writeFinalizers [], by decide, [], rfl, by simp⟩

end MCM.Deletion
