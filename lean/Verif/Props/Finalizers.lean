import Verif.Model.Finalizers
import Verif.Lemmas.SMap
/-!
C39: machine classes and secrets outlive their users. C40: finalizers of others stay. C67: machines are handled only with a complete class.
-/
namespace MCM.Finalizers

/-! ### C40 -/

theorem mem_withOwn (own : String) (l : List String) (f : String) : f ∈ withOwn own l ↔ f = own ∨ f ∈ l := by
  unfold withOwn
  by_cases h : own ∈ l
  · rw [if_pos (by simpa using h), List.mem_eraseDups]
    exact ⟨.inr, fun h' => h'.elim (fun e => e ▸ h) id⟩
  · rw [if_neg (by simpa using h), List.mem_cons, List.mem_eraseDups]

theorem mem_without (own : String) (l : List String) (f : String) : f ∈ without own l ↔ f ≠ own ∧ f ∈ l := by
  unfold without
  rw [List.mem_filter, List.mem_eraseDups]
  exact ⟨fun h => ⟨by simpa using h.2, h.1⟩, fun h => ⟨h.2, by simpa using h.1⟩⟩

theorem wanted_spec (own : String) (e : Edit) (cached : Obj) (l : List String) (h : wanted own e cached = some l) (f : String) :
    (f ≠ own → (f ∈ l ↔ f ∈ cached.finalizers)) ∧ (own ∈ l ↔ e = .add) := by
  unfold wanted at h
  cases e with
  | add =>
    dsimp only at h
    split at h
    · cases h
    · cases h
      exact ⟨fun hf => by rw [mem_withOwn]; exact ⟨fun h => h.resolve_left hf, .inr⟩, by rw [mem_withOwn]; simp⟩
  | remove =>
    dsimp only at h
    split at h
    · cases h
      exact ⟨fun hf => by rw [mem_without]; exact ⟨fun h => h.2, fun h => ⟨hf, h⟩⟩, by rw [mem_without]; simp⟩
    · cases h

/-- C40: Editing the finalizer of a machine leaves all other finalizers of the stored machine in place, even if the cached copy is
old. (`hver`: the same version is the same object.) -/
theorem C40_machine (own : String) (e : Edit) (cached stored : Obj) (hver : cached.version = stored.version → cached = stored) (f : String) (hf : f ≠ own) :
    f ∈ (editCached own e cached stored).finalizers ↔ f ∈ stored.finalizers := by
  unfold editCached
  cases h : wanted own e cached with
  | none => exact Iff.rfl
  | some l =>
    dsimp only
    split
    · rename_i hv
      rw [((wanted_spec own e cached l h f).1 hf), hver hv]
    · exact Iff.rfl

/-- C40: An edit of a machine takes effect only if the copy it was made from is the present one, and leaves a later version: of two edits made from one copy at most one
takes effect. -/
theorem C40_machine_version (own : String) (e : Edit) (cached stored : Obj) (h : editCached own e cached stored ≠ stored) :
    cached.version = stored.version ∧ stored.version < (editCached own e cached stored).version := by
  unfold editCached at h ⊢
  cases hw : wanted own e cached with
  | none => rw [hw] at h; exact absurd rfl h
  | some l =>
    rw [hw] at h
    dsimp only at h ⊢
    split
    · rename_i hv
      exact ⟨hv, Nat.lt_succ_self _⟩
    · rename_i hv
      rw [if_neg hv] at h
      exact absurd rfl h

example : editCached "f" .add ⟨3, []⟩ ⟨3, []⟩ ≠ ⟨3, []⟩ := by decide

/-- C40: If the edit is accepted, the own finalizer is there exactly if it was to be added. -/
theorem C40_machine_own (own : String) (e : Edit) (stored : Obj) :
    own ∈ (editCached own e stored stored).finalizers ↔ e = .add := by
  unfold editCached
  cases h : wanted own e stored with
  | none =>
    unfold wanted at h
    dsimp only
    cases e with
    | add =>
      dsimp only at h
      split at h
      · rename_i hc; simpa using hc
      · cases h
    | remove =>
      dsimp only at h
      split at h
      · cases h
      · rename_i hc; simpa using hc
  | some l =>
    dsimp only
    rw [if_pos rfl]
    exact (wanted_spec own e stored l h own).2

/-- C40: For classes, secrets, machine sets and deployments this holds if the cached copy has the finalizers of the stored object. The
full statement omits this condition; it is refuted below. -/
theorem C40_latest_partial (own : String) (e : Edit) (cached stored : Obj) (ok : Bool) (f : String) (hf : f ≠ own)
    (hsame : f ∈ cached.finalizers ↔ f ∈ stored.finalizers) :
    f ∈ (editLatest own e cached stored ok).finalizers ↔ f ∈ stored.finalizers := by
  unfold editLatest
  cases h : wanted own e cached with
  | none => exact Iff.rfl
  | some l =>
    dsimp only
    split
    · rw [((wanted_spec own e cached l h f).1 hf), hsame]
    · exact Iff.rfl

/-- C40, false part: The latest object is read just before it is written, so that no conflict arises, but with the finalizers of the
cached copy: a finalizer someone else added since is lost. -/
theorem C40_lost_finalizer_false : ¬ ∀ (own : String) (e : Edit) (cached stored : Obj) (ok : Bool) (f : String), f ≠ own →
    f ∈ stored.finalizers → f ∈ (editLatest own e cached stored ok).finalizers := by
  intro h
  exact absurd (h "own" .remove ⟨0, ["own"]⟩ ⟨1, ["own", "other"]⟩ true "other" (by decide) (by decide)) (by decide)

example : (editLatest "own" .add ⟨3, ["a", "b"]⟩ ⟨3, ["a", "b"]⟩ true).finalizers = ["own", "a", "b"] := by decide

/-! ### C39 -/

/-- a machine refers to the class -/
def Used (machines : List Mach) (cls : String) : Prop := ∃ m ∈ machines, m.kind = "MachineClass" ∧ m.cls = cls

theorem machinesFor_ne_nil (machines : List Mach) (cls : String) : machinesFor machines cls ≠ [] ↔ Used machines cls := by
  unfold machinesFor Used
  rw [ne_eq, List.filter_eq_nil_iff]
  simp

/-- C39: The decision, in terms of the cached objects: the finalizer is added exactly if a machine uses the class, it is missing and the
class is not being deleted; it is removed exactly if no machine uses the class and it is there. -/
theorem C39_decision (machines : List Mach) (c : Class) :
    ((∃ w, reconcileClass machines c = .edit .add w) ↔ Used machines c.name ∧ c.deleting = false ∧ "machine.sapcloud.io/machine-controller-manager" ∉ c.obj.finalizers) ∧
    ((∃ w, reconcileClass machines c = .edit .remove w) ↔ ¬ Used machines c.name ∧ "machine.sapcloud.io/machine-controller-manager" ∈ c.obj.finalizers) := by
  rw [show "machine.sapcloud.io/machine-controller-manager" = mcmFinalizer from rfl]
  rw [← machinesFor_ne_nil]
  unfold reconcileClass
  dsimp only
  by_cases h1 : machinesFor machines c.name = [] <;> by_cases h2 : c.deleting = false <;> by_cases h3 : mcmFinalizer ∈ c.obj.finalizers <;>
    simp_all

/-- the class exists and carries the finalizer -/
def Held (w : World) : Prop := ∃ c, w.cls = some c ∧ "machine.sapcloud.io/machine-controller-manager" ∈ c.obj.finalizers

theorem reconcile_held (w : World) (cached : Class) (machines : List Mach) (ok : Bool) (c : Class) (hc : w.cls = some c)
    (hf : mcmFinalizer ∈ c.obj.finalizers) (hno : ∀ ws, reconcileClass machines cached ≠ .edit .remove ws) : Held (w.reconcile cached machines ok) := by
  unfold World.reconcile
  rw [hc]
  cases hd : reconcileClass machines cached with
  | nothing => exact ⟨c, hc, hf⟩
  | retry _ => exact ⟨c, hc, hf⟩
  | edit e ws =>
    cases e with
    | remove => exact absurd hd (hno ws)
    | add =>
      dsimp only
      have hin : mcmFinalizer ∈ (editLatest mcmFinalizer .add cached.obj c.obj ok).finalizers := by
        unfold editLatest
        cases hw : wanted mcmFinalizer .add cached.obj with
        | none => exact hf
        | some l =>
          dsimp only
          split
          · exact (wanted_spec _ _ _ _ hw mcmFinalizer).2.2 rfl
          · exact hf
      rw [if_neg (fun h => by rw [h.2] at hin; cases hin)]
      exact ⟨_, rfl, hin⟩

/-- C39: While a machine refers to a class, the class stays and keeps its finalizer, whatever anyone does — deletion of the class
included — as long as the reconciles see the machines that exist. The full statement is without this condition (`complete`); it is
refuted below. -/
theorem C39_class_outlives_machines_partial (w w' : World) (h : Step true w w') (hh : Held w) (c : Class) (hc : w.cls = some c)
    (hu : Used w'.machines c.name) : Held w' := by
  obtain ⟨c', hc', hf⟩ := hh
  rw [hc] at hc'
  cases hc'
  cases h with
  | reconcile cached machines ok hname hcomp =>
    refine reconcile_held w cached machines ok c hc hf (fun ws hd => ?_)
    have h2 := (C39_decision machines cached).2.1 ⟨ws, hd⟩
    apply h2.1
    rw [hname c hc]
    have hm : (w.reconcile cached machines ok).machines = w.machines := by
      unfold World.reconcile
      split <;> rfl
    obtain ⟨m, hm', hk⟩ := hu
    rw [hm] at hm'
    exact ⟨m, hcomp rfl m hm', hk⟩
  | create m => exact ⟨c, hc, hf⟩
  | remove m => exact ⟨c, hc, hf⟩
  | delete c' hc' =>
    rw [hc] at hc'
    cases hc'
    refine ⟨{ c with deleting := true }, ?_, hf⟩
    exact if_neg (fun h => by rw [h] at hf; cases hf)
  | other c' l hc' hl =>
    rw [hc] at hc'
    cases hc'
    refine ⟨{ c with obj := { version := c.obj.version + 1, finalizers := l } }, ?_, hl.1 hf⟩
    exact if_neg (fun h => by rw [h.2] at hl; exact absurd (hl.1 hf) (by simp))

/-- an execution in which, after every step, some machine refers to the class of this name, and reconciles see the machines that exist -/
inductive InUse (name : String) : World → World → Prop
  | refl (w : World) : InUse name w w
  | step {w w' w'' : World} : InUse name w w' → Step true w' w'' → Used w''.machines name → InUse name w w''

theorem step_name {w w' : World} (h : Step true w w') {c c' : Class} (hc : w.cls = some c) (hc' : w'.cls = some c') : c'.name = c.name := by
  cases h with
  | reconcile cached machines ok _ _ =>
    unfold World.reconcile at hc'
    rw [hc] at hc'
    cases hd : reconcileClass machines cached with
    | nothing => rw [hd] at hc'; exact congrArg Class.name (Option.some.inj (hc'.symm.trans hc))
    | retry _ => rw [hd] at hc'; exact congrArg Class.name (Option.some.inj (hc'.symm.trans hc))
    | edit e ws =>
      rw [hd] at hc'
      dsimp only at hc'
      split at hc'
      · cases hc'
      · cases hc'; rfl
  | create m => exact congrArg Class.name (Option.some.inj (hc'.symm.trans hc))
  | remove m => exact congrArg Class.name (Option.some.inj (hc'.symm.trans hc))
  | delete d hd =>
    obtain rfl : c = d := Option.some.inj (hc.symm.trans hd)
    dsimp only at hc'
    split at hc'
    · cases hc'
    · cases hc'; rfl
  | other d l hd _ =>
    obtain rfl : c = d := Option.some.inj (hc.symm.trans hd)
    dsimp only at hc'
    split at hc'
    · cases hc'
    · cases hc'; rfl

/-- C39: So a class that carries the finalizer stays, and keeps it, for as long as machines refer to it, one and the same or others in turn. (Partial as above.) -/
theorem C39_as_long_as_used_partial (w w' : World) (c : Class) (hc : w.cls = some c) (hf : "machine.sapcloud.io/machine-controller-manager" ∈ c.obj.finalizers)
    (h : InUse c.name w w') : ∃ c', w'.cls = some c' ∧ c'.name = c.name ∧ "machine.sapcloud.io/machine-controller-manager" ∈ c'.obj.finalizers := by
  induction h with
  | refl => exact ⟨c, hc, rfl, hf⟩
  | step _ hs hu ih =>
    obtain ⟨c1, h1, h2, h3⟩ := ih
    obtain ⟨c2, k1, k2⟩ := C39_class_outlives_machines_partial _ _ hs ⟨c1, h1, h3⟩ c1 h1 (by rw [h2]; exact hu)
    exact ⟨c2, k1, (step_name hs h1 k1).trans h2, k2⟩

-- a machine comes, the class is deleted, the first machine goes, the class is looked at: it is still there
example : ∃ w', InUse "c" ⟨some ⟨"c", false, ⟨1, [mcmFinalizer]⟩⟩, [⟨"m", "MachineClass", "c"⟩]⟩ w' ∧ w'.machines = [⟨"n", "MachineClass", "c"⟩] ∧ w'.cls = some ⟨"c", true, ⟨1, [mcmFinalizer]⟩⟩ := by
  refine ⟨_, .step (.step (.step (.step (.refl _) (.create ⟨"n", "MachineClass", "c"⟩) ?_) (.delete _ rfl) ?_) (.remove ⟨"m", "MachineClass", "c"⟩) ?_)
    (.reconcile ⟨"c", true, ⟨1, [mcmFinalizer]⟩⟩ [⟨"n", "MachineClass", "c"⟩] true (fun c h => by cases h; rfl) (fun _ m hm => hm)) ?_, ?_, ?_⟩
  · exact ⟨⟨"n", "MachineClass", "c"⟩, by decide, rfl, rfl⟩
  · exact ⟨⟨"n", "MachineClass", "c"⟩, by decide, rfl, rfl⟩
  · exact ⟨⟨"n", "MachineClass", "c"⟩, by decide, rfl, rfl⟩
  · exact ⟨⟨"n", "MachineClass", "c"⟩, by decide, rfl, rfl⟩
  · decide
  · decide

/-- C39: A reconcile with an up to date cache of an unused class takes the finalizer away, of a used one gives it the finalizer; so a
class that is deleted disappears when its last machine is gone. -/
theorem C39_settles (w : World) (c : Class) (hc : w.cls = some c) :
    (¬ Used w.machines c.name → ∀ c', (w.reconcile c w.machines true).cls = some c' → "machine.sapcloud.io/machine-controller-manager" ∉ c'.obj.finalizers) ∧
    (¬ Used w.machines c.name → c.deleting = true → (∀ f ∈ c.obj.finalizers, f = "machine.sapcloud.io/machine-controller-manager") → c.obj.finalizers ≠ [] → (w.reconcile c w.machines true).cls = none) ∧
    (Used w.machines c.name → c.deleting = false → Held (w.reconcile c w.machines true)) := by
  have hd := C39_decision w.machines c
  rw [show "machine.sapcloud.io/machine-controller-manager" = mcmFinalizer from rfl] at hd ⊢
  refine ⟨fun hu c' h' hf => ?_, fun hu hdel hall hne => ?_, fun hu hdel => ?_⟩
  · unfold World.reconcile at h'
    rw [hc] at h'
    by_cases hin : mcmFinalizer ∈ c.obj.finalizers
    · obtain ⟨ws, hw⟩ := hd.2.2 ⟨hu, hin⟩
      rw [hw] at h'
      dsimp only at h'
      have ho : mcmFinalizer ∉ (editLatest mcmFinalizer .remove c.obj c.obj true).finalizers := by
        unfold editLatest wanted
        dsimp only
        rw [if_pos (by simpa using hin)]
        dsimp only
        rw [if_pos rfl]
        dsimp only
        rw [mem_without]
        simp
      split at h'
      · cases h'
      · cases h'
        exact ho hf
    · have hn : reconcileClass w.machines c = .nothing := by
        unfold reconcileClass
        have this : machinesFor w.machines c.name = [] := Decidable.not_not.1 fun h => hu ((machinesFor_ne_nil _ _).1 h)
        dsimp only
        rw [this]
        simp [hin]
      rw [hn] at h'
      dsimp only at h'
      rw [hc] at h'
      cases h'
      exact hin hf
  · obtain ⟨ws, hw⟩ := hd.2.2 ⟨hu, by
      obtain ⟨f, l, hl⟩ := List.exists_cons_of_ne_nil hne
      have := hall f (by rw [hl]; exact List.mem_cons_self)
      rw [hl, this]
      exact List.mem_cons_self⟩
    unfold World.reconcile
    rw [hc, hw]
    dsimp only
    have hin : mcmFinalizer ∈ c.obj.finalizers := ((hd.2.1 ⟨ws, hw⟩).2)
    have ho : (editLatest mcmFinalizer .remove c.obj c.obj true).finalizers = [] := by
      unfold editLatest wanted
      dsimp only
      rw [if_pos (by simpa using hin)]
      dsimp only
      rw [if_pos rfl]
      dsimp only
      rw [List.eq_nil_iff_forall_not_mem]
      intro f hf
      rw [mem_without] at hf
      exact hf.1 (hall f hf.2)
    rw [if_pos ⟨hdel, ho⟩]
  · by_cases hin : mcmFinalizer ∈ c.obj.finalizers
    · refine reconcile_held w c w.machines true c hc hin (fun ws hw => ?_)
      exact (hd.2.1 ⟨ws, hw⟩).1 hu
    · obtain ⟨ws, hw⟩ := hd.1.2 ⟨hu, hdel, hin⟩
      unfold World.reconcile
      rw [hc, hw]
      dsimp only
      have ho : mcmFinalizer ∈ (editLatest mcmFinalizer .add c.obj c.obj true).finalizers := by
        unfold editLatest wanted
        dsimp only
        rw [if_neg (by simpa using hin)]
        dsimp only
        rw [if_pos rfl]
        dsimp only
        rw [mem_withOwn]
        exact .inl rfl
      rw [if_neg (fun h => by rw [h.2] at ho; cases ho)]
      exact ⟨_, rfl, ho⟩

/-- C39, false part: With a cache that does not show a new machine yet, the finalizer is taken away from a class in use, which can then be
deleted for good while the VM of the machine exists. -/
theorem C39_new_machine_false : ¬ ∀ (w w' : World), Step false w w' → Held w → ∀ c, w.cls = some c → Used w'.machines c.name → w'.cls ≠ none := by
  intro h
  exact h { cls := some { name := "c", deleting := true, obj := ⟨0, [mcmFinalizer]⟩ }, machines := [{ name := "m", cls := "c" }] } _
    (Step.reconcile { name := "c", deleting := true, obj := ⟨0, [mcmFinalizer]⟩ } [] true (fun c hc => by cases hc; rfl) (fun hc => by cases hc))
    ⟨_, rfl, by decide⟩ _ rfl ⟨_, List.mem_singleton.2 rfl, rfl, rfl⟩ (by decide)

/-- a class refers to this secret -/
def Refers (classes : List ClassRefs) (ns name : String) : Prop := ∃ c ∈ classes, c.secretRef = some (ns, name) ∨ c.credentialsRef = some (ns, name)

theorem secretUsed_iff (classes : List ClassRefs) (name : String) : secretUsed classes name = true ↔ ∃ ns, Refers classes ns name := by
  unfold secretUsed Refers
  rw [List.any_eq_true]
  constructor
  · rintro ⟨c, hc, h⟩
    rw [Bool.or_eq_true] at h
    rcases h with h | h
    · cases hr : c.secretRef with
      | none => rw [hr] at h; cases h
      | some r => rw [hr] at h; exact ⟨r.1, c, hc, .inl (by have : r.2 = name := by simpa using h
                                                            rw [hr, ← this])⟩
    · cases hr : c.credentialsRef with
      | none => rw [hr] at h; cases h
      | some r => rw [hr] at h; exact ⟨r.1, c, hc, .inr (by have : r.2 = name := by simpa using h
                                                            rw [hr, ← this])⟩
  · rintro ⟨ns, c, hc, h | h⟩
    · exact ⟨c, hc, by simp [h]⟩
    · exact ⟨c, hc, by simp [h]⟩

/-- C39: A secret of the controller's namespace to which a class refers gets the finalizer and never loses it; it loses it only when no
class refers to a secret of this name in any namespace. -/
theorem C39_secret (ns : String) (classes : List ClassRefs) (name : String) (cached : Obj) :
    (Refers classes ns name → reconcileSecret ns classes ns name cached ≠ some .remove ∧
      ("machine.sapcloud.io/machine-controller" ∉ cached.finalizers → reconcileSecret ns classes ns name cached = some .add)) ∧
    ((¬ ∃ n, Refers classes n name) → "machine.sapcloud.io/machine-controller" ∈ cached.finalizers → reconcileSecret ns classes ns name cached = some .remove) := by
  rw [show "machine.sapcloud.io/machine-controller" = mcFinalizer from rfl]
  unfold reconcileSecret
  rw [if_neg (fun h => h rfl)]
  refine ⟨fun h => ?_, fun h hin => ?_⟩
  · rw [if_pos ((secretUsed_iff classes name).2 ⟨ns, h⟩)]
    refine ⟨by split <;> simp, fun hf => if_neg (by simpa using hf)⟩
  · rw [if_neg (fun hu => h ((secretUsed_iff classes name).1 hu)), if_pos (by simpa using hin)]

/-- C39, false part: Namespaces are ignored: a secret is held because a class refers to a secret of the same name elsewhere. -/
theorem C39_foreign_namespace_false : ¬ ∀ (ns : String) (classes : List ClassRefs) (name : String) (cached : Obj),
    reconcileSecret ns classes ns name cached = some .add → Refers classes ns name := by
  intro h
  obtain ⟨c, hc, h'⟩ := h "a" [{ secretRef := some ("b", "s") }] "s" ⟨0, []⟩ (by decide)
  have := List.mem_singleton.1 hc
  subst this
  revert h'
  decide

/-- C39, false part: and secrets referred to in other namespaces are not held. -/
theorem C39_other_namespace_not_held_false : ¬ ∀ (ns ns' : String) (classes : List ClassRefs) (name : String) (cached : Obj),
    Refers classes ns' name → "machine.sapcloud.io/machine-controller" ∉ cached.finalizers → reconcileSecret ns classes ns' name cached = some .add := by
  intro h
  have := h "a" "b" [{ secretRef := some ("b", "s") }] "s" ⟨0, []⟩ ⟨_, List.mem_singleton.2 rfl, .inl rfl⟩ (by decide)
  revert this
  decide

example : reconcileClass [{ name := "m", cls := "c" }] { name := "c", obj := ⟨0, []⟩ } = .edit .add ["m"] := by decide
example : reconcileClass [{ name := "m", cls := "c" }] { name := "c", deleting := true, obj := ⟨0, [mcmFinalizer]⟩ } = .retry ["m"] := by decide

/-! ### C67 -/

/-- C67: A class is accepted for a machine only if it exists, carries the finalizer and its node template is complete. -/
theorem C67_accepted (cls : Lookup FullClass) (secret : String × String → Lookup SMap) (d : SMap) (h : validate cls secret = .ok d) :
    ∃ c, cls = .found c ∧ "machine.sapcloud.io/machine-controller-manager" ∈ c.finalizers ∧
      ∀ t, c.template = some t → "cpu" ∈ t.capacity ∧ "gpu" ∈ t.capacity ∧ "memory" ∈ t.capacity ∧ t.instanceType ≠ "" ∧ t.region ≠ "" ∧ t.zone ≠ "" := by
  rw [show "machine.sapcloud.io/machine-controller-manager" = mcmFinalizer from rfl]
  unfold validate at h
  split at h
  · rename_i c
    split at h
    · split at h
      · cases h
      · rename_i hf
        split at h
        · cases h
        · rename_i ht
          refine ⟨c, rfl, by simpa using hf, fun t he => ?_⟩
          rw [he] at ht
          simpa [templateValid, and_assoc, not_or] using ht
    · rename_i a ha
      cases ha' : secretData secret [c.refs.secretRef, c.refs.credentialsRef] [] with
      | ok d' => exact absurd ha' (ha d')
      | refused => rw [ha'] at h; cases h
      | crash => rw [ha'] at h; cases h
  · cases h

theorem lookup_mergeData (a b : SMap) (k : String) : List.lookup k (mergeData a b) = (List.lookup k b).or (List.lookup k a) := by
  unfold mergeData
  induction b with
  | nil => rfl
  | cons e b ih =>
    obtain ⟨x, y⟩ := e
    rw [List.foldr_cons, List.lookup_cons]
    by_cases hk : k = x
    · subst hk
      rw [lookup_set_eq]
      simp
    · rw [lookup_set_ne _ _ _ _ hk, ih]
      have : (k == x) = false := by simpa using hk
      rw [this]

/-- C67: When both secrets are found, the data handed to the provider are those of the credentials secret, and of the other one where the
former has no entry. -/
theorem C67_data (c : FullClass) (secret : String × String → Lookup SMap) (d : SMap) (h : validate (.found c) secret = .ok d)
    (r1 r2 : String × String) (d1 d2 : SMap) (hr1 : c.refs.secretRef = some r1) (hr2 : c.refs.credentialsRef = some r2)
    (h1 : secret r1 = .found d1) (h2 : secret r2 = .found d2) (k : String) :
    List.lookup k d = (List.lookup k d2).or (List.lookup k d1) := by
  unfold validate at h
  dsimp only at h
  have hs : secretData secret [c.refs.secretRef, c.refs.credentialsRef] [] = .ok (mergeData (mergeData [] d1) d2) := by
    rw [hr1, hr2]
    rw [secretData, h1]
    dsimp only
    rw [secretData, h2]
    rfl
  rw [hs] at h
  dsimp only at h
  split at h
  · cases h
  · split at h
    · cases h
    · cases h
      rw [lookup_mergeData, lookup_mergeData]
      simp

/-- C67, false part: A secret that does not exist is taken for one without data: the provider is called without credentials. -/
theorem C67_missing_secret_false : ¬ ∀ (c : FullClass) (secret : String × String → Lookup SMap) (d : SMap) (r : String × String),
    validate (.found c) secret = .ok d → c.refs.credentialsRef = some r → ∃ d', secret r = .found d' := by
  intro h
  obtain ⟨d', hd⟩ := h { finalizers := [mcmFinalizer], refs := { secretRef := some ("n", "u"), credentialsRef := some ("n", "s") } } (fun r => if r.2 = "u" then .found [("userData", "x")] else .notFound) [("userData", "x")] ("n", "s") (by decide) rfl
  exact absurd hd (by simp)

example : validate (.found { finalizers := [mcmFinalizer], refs := { secretRef := some ("n", "s"), credentialsRef := some ("n", "t") }, template := some { capacity := ["cpu", "memory", "gpu"], instanceType := "i", region := "r", zone := "z" } })
    (fun r => if r.2 = "s" then .found [("userData", "u"), ("key", "a")] else .found [("key", "b")]) = .ok [("key", "b"), ("userData", "u")] := by decide

end MCM.Finalizers
