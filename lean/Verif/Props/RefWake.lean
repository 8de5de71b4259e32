import Verif.Model.RefWake
import Verif.Props.Finalizers
/-!
C88: secrets are looked at when a class begins or ceases to use them. C89: classes are looked at when machines begin or cease to use them.
-/
namespace MCM.RefWake
open MCM.Finalizers

/-- the class refers to the secret with this key -/
def Names (c : ClassRefs) (k : Key) : Prop := c.secretRef = some (k.ns, k.name) ∨ c.credentialsRef = some (k.ns, k.name)

theorem mem_enqueueRefs (l : List (Option (String × String))) (k : Key) : k ∈ enqueueRefs l ↔ some (k.ns, k.name) ∈ l := by
  unfold enqueueRefs
  rw [List.mem_filterMap]
  constructor
  · rintro ⟨r, hr, h⟩
    cases r with
    | none => cases h
    | some r => cases h; exact hr
  · intro h; exact ⟨_, h, rfl⟩

theorem mem_classAdded (c : ClassRefs) (k : Key) : k ∈ classAdded c ↔ c.secretRef.isSome = true ∧ Names c k := by
  unfold classAdded Names
  cases h : c.secretRef with
  | none => simp
  | some r => simp [mem_enqueueRefs, eq_comm]

/-- C88, partial: when a class with a `SecretRef` appears, or is seen to disappear, all secrets it names are looked at. -/
theorem C88_class_appears_partial (c : ClassRefs) (h : c.secretRef.isSome = true) (k : Key) (hk : Names c k) :
    k ∈ classAdded c ∧ k ∈ classDeleted (.seen c) :=
  ⟨(mem_classAdded c k).2 ⟨h, hk⟩, (mem_classAdded c k).2 ⟨h, hk⟩⟩

theorem mem_enqueueIfChanged (o n : Option (String × String)) (k : Key) :
    k ∈ enqueueIfChanged o n ↔ o ≠ n ∧ (o = some (k.ns, k.name) ∨ n = some (k.ns, k.name)) := by
  unfold enqueueIfChanged
  by_cases h : o = n
  · simp [h]
  · rw [if_neg h, mem_enqueueRefs]
    simp [h, eq_comm]

theorem same_of_not_mem (o n : Option (String × String)) (k : Key) (h : k ∉ enqueueIfChanged o n) : o = some (k.ns, k.name) ↔ n = some (k.ns, k.name) := by
  rw [mem_enqueueIfChanged] at h
  by_cases he : o = n
  · rw [he]
  · constructor
    · intro ho; exact absurd ⟨he, .inl ho⟩ h
    · intro hn; exact absurd ⟨he, .inr hn⟩ h

/-- C88, partial: when a class changes that had and has a `SecretRef`, the secrets it names no longer and those it names now are looked at. -/
theorem C88_class_changes_partial (old new : ClassRefs) (ho : old.secretRef.isSome = true) (hn : new.secretRef.isSome = true) (k : Key)
    (h : ¬ (Names old k ↔ Names new k)) : k ∈ classUpdated old new := by
  obtain ⟨a, ha⟩ := Option.isSome_iff_exists.1 ho
  obtain ⟨b, hb⟩ := Option.isSome_iff_exists.1 hn
  unfold classUpdated
  rw [ha, hb]
  dsimp only
  apply Decidable.byContradiction
  intro hk
  rw [List.mem_append, not_or] at hk
  apply h
  unfold Names
  rw [ha, hb]
  exact or_congr (same_of_not_mem _ _ _ hk.1) (same_of_not_mem _ _ _ hk.2)

/-- C88: No handler of classes makes the controller look at a secret the class does not and did not name. -/
theorem C88_only_named (old new : ClassRefs) (g : Gone ClassRefs) (k : Key) :
    (k ∈ classAdded new → Names new k) ∧ (k ∈ classUpdated old new → Names old k ∨ Names new k) ∧
    (k ∈ classDeleted g → ∃ c, (g = .seen c ∨ g = .tombstone c) ∧ Names c k) := by
  refine ⟨fun h => ((mem_classAdded _ _).1 h).2, fun h => ?_, fun h => ?_⟩
  · unfold classUpdated at h
    split at h
    · rename_i a b ha hb
      rw [List.mem_append, mem_enqueueIfChanged, mem_enqueueIfChanged, ← ha, ← hb] at h
      rcases h with ⟨_, h | h⟩ | ⟨_, h | h⟩
      · exact .inl (.inl h)
      · exact .inr (.inl h)
      · exact .inl (.inr h)
      · exact .inr (.inr h)
    · cases h
  · cases g with
    | seen c => exact ⟨c, .inl rfl, ((mem_classAdded _ _).1 h).2⟩
    | tombstone c => cases h

/-- C88, false: A class that names only a `CredentialsSecretRef` makes nobody look at that secret: not when it appears, not when it disappears, not when it changes. -/
theorem C88_credentials_only_false (r r' : Option (String × String)) :
    classAdded { credentialsRef := r } = [] ∧ classDeleted (.seen { credentialsRef := r }) = [] ∧
    classUpdated { credentialsRef := r } { credentialsRef := r' } = [] := ⟨rfl, rfl, rfl⟩

/-- C88, false: Nor does a class that gets its first `SecretRef`, or loses it. -/
theorem C88_first_reference_false (old new : ClassRefs) (h : old.secretRef = none ∨ new.secretRef = none) : classUpdated old new = [] := by
  unfold classUpdated
  rcases h with h | h <;> rw [h] <;> cases old.secretRef <;> rfl

/-- C88, false: Nor does a class whose deletion the watch missed. -/
theorem C88_missed_deletion_false : ∃ c k, Names c k ∧ k ∉ classDeleted (.tombstone c) :=
  ⟨{ secretRef := some ("n", "s") }, ⟨"n", "s"⟩, .inl rfl, by simp [classDeleted]⟩

/-- C88: However, a secret of the controller's namespace that was looked at once is looked at again ten minutes later at the latest, whatever fails, as long as it can be read; and only then or
if reading it fails. -/
theorem C88_looked_at_again (ns : String) (classes : Option (List ClassRefs)) (k : Key) (secret : Cached Obj) (ok : Bool) :
    ((secretPass ns classes k secret ok).after = some 600 ↔ k.ns = ns ∧ ∃ o, secret = .present o) ∧
    ((secretPass ns classes k secret ok).after = none → (secretPass ns classes k secret ok).err = true → secret = .error) := by
  unfold secretPass
  by_cases hn : k.ns = ns
  · rw [if_neg (fun h => h hn)]
    cases secret with
    | error => simp
    | absent => simp
    | present o =>
      dsimp only
      cases classes with
      | none => simp [hn]
      | some cs =>
        dsimp only
        cases reconcileSecret ns cs k.ns k.name o with
        | none => simp [hn]
        | some e => cases ok <;> simp [hn]
  · rw [if_pos hn]; simp [hn]

/-- the secret after the pass's edit: `Finalizers.editLatest` on the secret as cached and stored -/
def afterPass (p : Pass) (o : Obj) : Obj :=
  match p.edit with
  | none => o
  | some e => editLatest mcFinalizer e o o true

/-- C88: A look at a secret with up-to-date caches and successful calls leaves it with the finalizer if a class of the namespace names it, and without if no class names a secret of its name. -/
theorem C88_corrected (ns : String) (cs : List ClassRefs) (name : String) (o : Obj) :
    ((∃ c ∈ cs, Names c ⟨ns, name⟩) → "machine.sapcloud.io/machine-controller" ∈ (afterPass (secretPass ns (some cs) ⟨ns, name⟩ (.present o) true) o).finalizers) ∧
    ((∀ c ∈ cs, ∀ n, ¬ Names c ⟨n, name⟩) → "machine.sapcloud.io/machine-controller" ∉ (afterPass (secretPass ns (some cs) ⟨ns, name⟩ (.present o) true) o).finalizers) := by
  rw [show "machine.sapcloud.io/machine-controller" = mcFinalizer from rfl]
  have hu : secretUsed cs name = true ↔ ∃ c ∈ cs, ∃ n, Names c ⟨n, name⟩ := by
    unfold secretUsed
    rw [List.any_eq_true]
    constructor
    · rintro ⟨c, hc, h⟩
      rw [Bool.or_eq_true, Option.any_eq_true, Option.any_eq_true] at h
      rcases h with ⟨r, hr, h⟩ | ⟨r, hr, h⟩
      · exact ⟨c, hc, r.1, .inl (by rw [hr, ← of_decide_eq_true h])⟩
      · exact ⟨c, hc, r.1, .inr (by rw [hr, ← of_decide_eq_true h])⟩
    · rintro ⟨c, hc, n, h⟩
      refine ⟨c, hc, ?_⟩
      rw [Bool.or_eq_true]
      rcases h with h | h
      · exact .inl (by rw [h]; simp)
      · exact .inr (by rw [h]; simp)
  unfold secretPass reconcileSecret
  simp only [ne_eq, not_true_eq_false, if_false]
  refine ⟨fun h => ?_, fun h => ?_⟩
  · obtain ⟨c, hc, hn⟩ := h
    rw [if_pos (hu.2 ⟨c, hc, ns, hn⟩)]
    by_cases hf : o.finalizers.contains mcFinalizer = true
    · rw [if_pos hf]
      simpa [afterPass] using hf
    · rw [if_neg hf]
      simp only [if_true, afterPass, editLatest, wanted, if_neg hf, withOwn]
      exact List.mem_cons_self
  · rw [if_neg (fun hx => by obtain ⟨c, hc, n, hn⟩ := hu.1 hx; exact h c hc n hn)]
    by_cases hf : o.finalizers.contains mcFinalizer = true
    · rw [if_pos hf]
      simp only [if_true, afterPass, editLatest, wanted, if_pos hf, without]
      intro hm
      exact absurd (List.mem_filter.1 hm).2 (by simp)
    · rw [if_neg hf]
      simpa [afterPass] using hf

/-! ## C89 -/

/-- C89, partial: when a machine of a class appears, or is seen to disappear, its class is looked at. -/
theorem C89_machine_appears_partial (m : Mach) (h : m.kind = "MachineClass") :
    (∃ k ∈ machineAdded m, k.name = m.cls) ∧ ∃ k ∈ machineDeleted (.seen m), k.name = m.cls := by
  have h1 : ∃ k ∈ machineAdded m, k.name = m.cls := by
    unfold machineAdded
    rw [if_pos h]
    exact ⟨⟨"", m.cls⟩, List.mem_singleton.2 rfl, rfl⟩
  exact ⟨h1, h1⟩

/-- C89: A class that was looked at once is looked at again: after ten minutes, or after five seconds if something failed or machines keep it from being deleted; only
a class the cache no longer has is forgotten. -/
theorem C89_looked_at_again (machines : Option (List Mach)) (k : Key) (cls : String → Cached Class) (ok : Bool) :
    (∀ c, cls k.name = .present c → (classPass machines k cls ok).1.after = some 600 ∨
      (classPass machines k cls ok).1.after = some 5 ∧ (machines = none ∨ ok = false ∨ c.deleting = true)) ∧
    (cls k.name = .absent → classPass machines k cls ok = ({}, [])) := by
  refine ⟨fun c h => ?_, fun h => by unfold classPass; rw [h]⟩
  unfold classPass
  rw [h]
  dsimp only
  cases machines with
  | none => exact .inr ⟨rfl, .inl rfl⟩
  | some ms =>
    dsimp only
    cases hr : reconcileClass ms c with
    | nothing => exact .inl rfl
    | edit e w =>
      cases ok with
      | true => exact .inl rfl
      | false => exact .inr ⟨rfl, .inr (.inl rfl)⟩
    | retry w =>
      refine .inr ⟨rfl, .inr (.inr ?_)⟩
      unfold reconcileClass at hr
      dsimp only at hr
      split at hr
      · split at hr <;> cases hr
      · rename_i h1
        split at hr
        · rename_i h2
          cases hd : c.deleting with
          | true => rfl
          | false => exact absurd ⟨hd, h2⟩ h1
        · split at hr <;> cases hr

/-- C89: When the finalizer is put on a class, all machines of the class are looked at; also when they keep a class from being deleted. -/
theorem C89_machines_woken (ms : List Mach) (k : Key) (cls : String → Cached Class) (c : Class) (h : cls k.name = .present c) (ok : Bool)
    (hd : (classPass (some ms) k cls ok).1.edit = some .add ∨ c.deleting = true) (m : Mach) (hm : m ∈ ms) (hk : m.kind = "MachineClass") (hc : m.cls = c.name) :
    m.name ∈ (classPass (some ms) k cls ok).2 := by
  have hmf : m ∈ machinesFor ms c.name := List.mem_filter.2 ⟨hm, by simp [hk, hc]⟩
  have hne : machinesFor ms c.name ≠ [] := List.ne_nil_of_mem hmf
  unfold classPass at hd ⊢
  rw [h] at hd ⊢
  dsimp only at hd ⊢
  cases hdel : c.deleting with
  | true =>
    have : reconcileClass ms c = .retry ((machinesFor ms c.name).map (·.name)) := by
      unfold reconcileClass
      dsimp only
      rw [if_neg (by simp [hdel]), if_pos hne]
    rw [this]
    exact List.mem_map.2 ⟨m, hmf, rfl⟩
  | false =>
    rw [hdel] at hd
    rcases hd with hd | hd
    · by_cases hf : c.obj.finalizers.contains mcmFinalizer = true
      · have : reconcileClass ms c = .nothing := by
          unfold reconcileClass
          dsimp only
          rw [if_pos ⟨hdel, hne⟩, if_pos hf]
        rw [this] at hd; cases hd
      · have : reconcileClass ms c = .edit .add ((machinesFor ms c.name).map (·.name)) := by
          unfold reconcileClass
          dsimp only
          rw [if_pos ⟨hdel, hne⟩, if_neg hf]
        rw [this] at hd ⊢
        dsimp only at hd ⊢
        cases ok with
        | true => exact List.mem_map.2 ⟨m, hmf, rfl⟩
        | false => cases hd
    · cases hd

/-- C89, false: A machine whose class is changed makes nobody look at the new class or the old one, nor does one whose deletion the watch missed. -/
theorem C89_class_changed_false (m m' : Mach) : machineUpdated m m' = [] ∧ machineDeleted (.tombstone m) = [] := ⟨rfl, rfl⟩

/-- C89, false: One class has two keys, by events of its own and by those of its machines. The queue keeps two workers from working on one key, so two workers can work on one class. Here the
first decides, without a machine in sight, to remove the finalizer; then a machine appears, and the second, who sees it, has nothing to do; then the first writes. The machine's class has no finalizer, and is gone
if it was being deleted meanwhile. -/
theorem C89_two_workers_false : ∃ (c : Class) (m : Mach) (k1 k2 : Key), k1 ≠ k2 ∧ k1 ∈ classEvent "ns" c.name ∧ k2 ∈ machineAdded m ∧ m.cls = c.name ∧
    (∃ w, reconcileClass [] c = .edit .remove w) ∧
    (∀ cls : String → Cached Class, cls c.name = .present c → (classPass (some [m]) k2 cls true).1.edit = none) ∧
    ((World.mk (some c) [m]).reconcile c [m] true).cls = some c ∧
    (∃ c', ((World.mk (some c) [m]).reconcile c [] true).cls = some c' ∧ "machine.sapcloud.io/machine-controller-manager" ∉ c'.obj.finalizers) :=
  ⟨{ name := "c", obj := ⟨0, [mcmFinalizer]⟩ }, { name := "m", cls := "c" }, ⟨"ns", "c"⟩, ⟨"", "c"⟩, by decide, by simp [classEvent], by simp [machineAdded], rfl,
    ⟨_, rfl⟩, fun cls h => by
      unfold classPass
      have h' : cls "c" = .present { name := "c", obj := ⟨0, [mcmFinalizer]⟩ } := h
      rw [h']
      rfl, rfl, _, rfl, by decide⟩

example : classUpdated { secretRef := some ("n", "a"), credentialsRef := some ("n", "x") } { secretRef := some ("n", "b"), credentialsRef := some ("n", "x") } = [⟨"n", "a"⟩, ⟨"n", "b"⟩] := by decide

example : classPass (some [{ name := "m", cls := "c" }]) ⟨"", "c"⟩ (fun _ => .present { name := "c", obj := ⟨0, []⟩ }) true = ({ edit := some .add, after := some 600 }, ["m"]) := by decide

end MCM.RefWake
