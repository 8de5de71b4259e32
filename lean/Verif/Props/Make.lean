import Verif.Model.Make
import Verif.Lemmas.SMap
import Verif.Props.MachineSet
/-!
C86: machines are made as the template says, and belong to their set.
-/
namespace MCM.Make
open MCM

/-- a list of pairs that represents a map -/
def IsMap (m : SMap) : Prop := (m.map Prod.fst).Nodup

/-- the same map -/
def SameMap (a b : SMap) : Prop := ∀ k, List.lookup k a = List.lookup k b

theorem copy_aux (m acc : SMap) (h : IsMap m) (k : String) :
    List.lookup k (m.foldl (fun acc e => SMap.set acc e.1 e.2) acc) = (List.lookup k m).orElse fun _ => List.lookup k acc := by
  induction m generalizing acc with
  | nil => rfl
  | cons e m ih =>
    have hm : IsMap m := (List.nodup_cons.1 h).2
    have he : e.1 ∉ m.map Prod.fst := (List.nodup_cons.1 h).1
    rw [List.foldl_cons, ih _ hm]
    by_cases hk : k = e.1
    · subst hk
      have hn : List.lookup e.1 m = none := by
        cases hl : List.lookup e.1 m with
        | none => rfl
        | some v => exact absurd (List.mem_map.2 ⟨_, mem_of_lookup m e.1 v hl, rfl⟩) he
      rw [hn, lookup_set_eq]
      simp [List.lookup]
    · rw [lookup_set_ne _ _ _ _ hk]
      have : (k == e.1) = false := by simpa using hk
      simp [List.lookup, this]

theorem copyMap_same (m : SMap) (h : IsMap m) : SameMap (copyMap m) m := by
  intro k
  unfold copyMap
  rw [copy_aux m [] h k]
  cases List.lookup k m <;> rfl

/-- C86: The machine asked for has the template's labels, annotations, finalizers and spec, and its only owner is the set, as controller. -/
theorem C86_faithful (s : Set') (n : New) (h : make s = some n) (hl : IsMap s.template.labels) (ha : IsMap s.template.annotations) :
    SameMap n.labels s.template.labels ∧ SameMap n.annotations s.template.annotations ∧ n.finalizers = s.template.finalizers ∧ n.spec = s.template.spec ∧
    ∃ r, n.owners = [r] ∧ r.kind = "MachineSet" ∧ r.name = s.name ∧ r.uid = s.uid ∧ r.controller = true := by
  unfold make at h
  split at h
  · cases h
  · split at h
    · cases h
    · cases h
      exact ⟨copyMap_same _ hl, copyMap_same _ ha, rfl, rfl, _, rfl, rfl, rfl, rfl, rfl⟩

theorem copyMap_empty (m : SMap) (h : IsMap m) : copyMap m = [] ↔ m = [] := by
  constructor
  · intro hc
    cases m with
    | nil => rfl
    | cons e m =>
      have := copyMap_same _ h e.1
      rw [hc] at this
      simp [List.lookup] at this
  · rintro rfl; rfl

/-- C86: A machine is asked for exactly if the template has labels. -/
theorem C86_asked_iff (s : Set') (hl : IsMap s.template.labels) : (make s).isSome = true ↔ s.template.labels ≠ [] := by
  unfold make
  rw [if_neg (by simp [refOk, refOf])]
  by_cases he : s.template.labels = []
  · rw [if_pos (by simp [fromTemplate, (copyMap_empty _ hl).2 he])]
    simp [he]
  · have : copyMap s.template.labels ≠ [] := fun h => he ((copyMap_empty _ hl).1 h)
    rw [if_neg (by simp [fromTemplate, this])]
    simp [he]

/-- C86: If the set selects its template, it keeps the machines it made, without a further write; whatever name and uid they get. -/
theorem C86_kept (s : Set') (n : New) (h : make s = some n) (hl : IsMap s.template.labels)
    (hsel : ∀ k v, List.lookup k s.selector = some v → List.lookup k s.template.labels = some v) (hm : IsMap s.selector)
    (live : Option Claim.Ctrl) (err : Claim.Obj → Option Claim.ApiErr) (memo : Option Bool) (name uid : String) :
    let r := Claim.claimObject ⟨s.uid, false⟩ (fun l => s.selector.all fun e => List.lookup e.1 l == some e.2) live err memo (n.obj name uid)
    r.claimed = true ∧ r.err = false ∧ r.effs = [] := by
  intro r
  unfold make at h
  split at h
  · cases h
  · split at h
    · cases h
    · cases h
      have hmatch : (s.selector.all fun e => List.lookup e.1 (copyMap s.template.labels) == some e.2) = true := by
        rw [List.all_eq_true]
        intro e he
        rw [copyMap_same _ hl e.1, hsel e.1 e.2 (lookup_of_mem _ _ _ hm he)]
        simp
      have : r = ⟨true, false, [], memo⟩ := by
        show Claim.claimObject _ _ _ _ _ _ = _
        unfold Claim.claimObject
        rw [show Claim.controllerOf (New.obj (fromTemplate s (refOf s)) name uid) = some s.uid from rfl]
        dsimp only
        rw [if_neg (by simp)]
        rw [show (New.obj (fromTemplate s (refOf s)) name uid).labels = copyMap s.template.labels from rfl, if_pos hmatch]
      rw [this]
      exact ⟨rfl, rfl, rfl⟩

/-- C86: Names begin with the name of the set and leave room within the limit. -/
theorem C86_name (s : Set') (n : New) (h : make s = some n) (hlen : s.name.length ≤ 253) :
    (n.generateName = s.name ∨ n.generateName = s.name ++ "-") ∧ n.generateName.length ≤ 253 := by
  unfold make at h
  split at h
  · cases h
  · split at h
    · cases h
    · cases h
      show (prefixOf s.name = _ ∨ prefixOf s.name = _) ∧ (prefixOf s.name).length ≤ 253
      unfold prefixOf
      split
      · rename_i hp; exact ⟨.inr rfl, hp⟩
      · exact ⟨.inl rfl, hlen⟩

/-- the machines are made from a template that marks them for deletion -/
def AllMarked (w : List Machine) : Prop := ∀ m ∈ w, List.lookup "machinepriority.machine.sapcloud.io" m.annotations = some "1"

theorem marked_not_live (w : List Machine) (h : AllMarked w) : MachineSet.specLiveCount w = 0 := by
  rw [MachineSet.specLiveCount_eq, List.length_eq_zero_iff, List.filter_eq_nil_iff]
  intro m hm
  have := h m hm
  simp [MachineSet.isLive, MachineSet.isStale, isMachineTriggeredForDeletion, machinePriorityKey, SMap.get, this]

/-- C86, false: If the template has the annotation that gives machines the lowest priority, every machine is deleted as soon as it was made: in every run all machines of
the set are terminated and as many as desired (or a hundred) are made, for ever, and the set never has a machine that counts. -/
theorem C86_marked_template_false (s : Set') (n : New) (h : make s = some n) (hl : IsMap s.template.labels) (ha : IsMap s.template.annotations)
    (hp : List.lookup "machinepriority.machine.sapcloud.io" s.template.annotations = some "1") :
    (∀ name, AllMarked [n.machine name]) ∧
    ∀ (w : List Machine) (ms : MachineSet.MSet) (srt : List Machine → List Machine) (createOut : Nat → MachineSet.CreateOutcome), AllMarked w → (∀ l, (srt l).Perm l) →
      (∀ i, (createOut i).err = .none) → ms.freezeLabel ≠ "True" →
      (MachineSet.manageReplicas srt createOut w ms).issued = min 100 ms.replicas ∧ (∀ m ∈ w, m ∈ (MachineSet.manageReplicas srt createOut w ms).staleTerminated) ∧
      ∀ o (names : List String), AllMarked (MachineSet.apply o (MachineSet.manageReplicas srt createOut w ms) (names.map n.machine) w) := by
  have hmark : ∀ name, List.lookup "machinepriority.machine.sapcloud.io" (n.machine name).annotations = some "1" := by
    intro name
    obtain ⟨_, h2, _⟩ := C86_faithful s n h hl ha
    show List.lookup _ n.annotations = _
    rw [h2, hp]
  refine ⟨fun name m hm => ?_, fun w ms srt createOut hw hs hok hf => ⟨?_, ?_, ?_⟩⟩
  · rw [List.mem_singleton.1 hm]; exact hmark name
  · rw [(MachineSet.C05_only_live_count srt createOut hs w ms hf hok).1, marked_not_live w hw]; rfl
  · intro m hm
    rw [(MachineSet.C05_stale_always_terminated srt createOut hs w ms).1]
    refine ⟨hm, ?_⟩
    rw [← MachineSet.isStale_iff]
    simp [MachineSet.isStale, isMachineTriggeredForDeletion, machinePriorityKey, SMap.get, hw m hm]
  · intro o names
    have hterm : ∀ targets w, AllMarked w → AllMarked (MachineSet.terminateMachines o targets w) := by
      intro targets w hw m hm
      unfold MachineSet.terminateMachines at hm
      obtain ⟨a, ha', rfl⟩ := List.mem_map.1 hm
      split
      · unfold MachineSet.prepareMachineForDeletion
        split
        · exact hw a ha'
        · dsimp only
          split <;> split <;> exact hw a ha'
      · exact hw a ha'
    unfold MachineSet.apply
    intro m hm
    rcases List.mem_append.1 hm with hm | hm
    · exact hterm _ _ (hterm _ _ hw) m hm
    · obtain ⟨name, _, rfl⟩ := List.mem_map.1 hm
      exact hmark name

example : make { name := "w", uid := "1", template := { labels := [("a", "1"), ("b", "2")], annotations := [("x", "y")], finalizers := ["f"], spec := "s" }, selector := [("a", "1")] } =
    some { generateName := "w-", labels := [("b", "2"), ("a", "1")], annotations := [("x", "y")], finalizers := ["f"], owners := [⟨"MachineSet", "w", "1", true⟩], spec := "s" } := by
  decide

example : ∃ n, make { name := "w", uid := "1", template := { labels := [("a", "1")], annotations := [("machinepriority.machine.sapcloud.io", "1")] } } = some n ∧
    AllMarked [n.machine "w-x"] := by
  refine ⟨_, rfl, fun m hm => ?_⟩
  rw [List.mem_singleton.1 hm]
  decide

end MCM.Make
