import Verif.Model.Resync
import Verif.Props.Loop
import Verif.Props.Events
/-!
C127: what a resync of the caches makes up for.
-/
namespace MCM.Resync
open MCM MCM.Loop

/-! ## The manager -/

theorem updateMachine_same (sets : List Wake.Obj) (m : Wake.Obj) : Wake.updateMachine sets m m = [] := by
  unfold Wake.updateMachine; rw [if_pos rfl]

theorem updateSet_same (deps : List Wake.Obj) (get : String → Option Wake.Obj) (s : Wake.Obj) : Wake.updateSet deps get s s = [] := by
  unfold Wake.updateSet; rw [if_pos rfl]

/-- **C127**: a resync of the manager's caches puts every machine set and every deployment into its queue, and does nothing else. In particular it observes no creation and no
deletion of machines that were observed before: the expectations stay as they are. -/
theorem C127_manager (c : Manager) (a : Wake.Action) :
    a ∈ manager c ↔ (∃ s ∈ c.sets, a = .set s.name) ∨ ∃ d ∈ c.deps, a = .deployment d.name := by
  unfold manager updateDeployment
  simp only [updateMachine_same, updateSet_same, Wake.setEvent, List.mem_append, List.mem_flatMap, List.append_nil, List.mem_singleton]
  constructor
  · rintro ((⟨_, _, h⟩ | h) | h)
    · cases h
    · exact Or.inl h
    · exact Or.inr h
  · rintro (h | h)
    · exact Or.inl (Or.inr h)
    · exact Or.inr h

/-- one machine, two sets, one deployment -/
def someManager : Manager := { machines := [{ name := "m", uid := "1", owners := [{ kind := "MachineSet", name := "s", uid := "2", controller := true }] }]
                               sets := [{ name := "s", uid := "2" }, { name := "t", uid := "3" }], deps := [{ name := "d", uid := "4" }], get := fun _ => none }

example : manager someManager = [.set "s", .set "t", .deployment "d"] := by decide +kernel

/-! ## The machine controller -/

/-- the machine with the label of this node, if it is the only one -/
abbrev MachineOf := Events.MachineOf

/-- **C127**: a resync of the machine controller's caches puts every class into its queue. -/
theorem C127_classes (ok : Bool) (c : Worker) (k : Class) (h : k ∈ c.classes) : Did.cls ⟨k.ns, k.name⟩ ∈ worker ok c := by
  unfold worker
  refine List.mem_append_left _ (List.mem_append_left _ (List.mem_flatMap.2 ⟨k, h, List.mem_append_right _ ?_⟩))
  exact List.mem_singleton.2 rfl

/-- **C127**: a node annotated with trigger-deletion that no event was reported for (C64_added_node_false) is taken care of in the next resync: exactly the machines of annotated
nodes are deleted. -/
theorem C127_annotated (ok : Bool) (c : Worker) (name : String) :
    Did.act (.deleteMachine name) ∈ worker ok c ↔
      ∃ n ∈ c.nodes, ∃ m, MachineOf c.machines n.name m ∧ m.name = name ∧ n.annotations.get triggerDeletionKey = "true" ∧ m.deleting = false := by
  have hiff := fun e => Events.C64_delete_requested_iff c.machines ok e name
  unfold worker
  simp only [List.mem_append, List.mem_flatMap, List.mem_map]
  constructor
  · rintro ((⟨k, _, ⟨_, _, h⟩ | ⟨_, _, h⟩⟩ | ⟨m, _, a, ha, h⟩) | ⟨n, hn, a, ha, h⟩)
    · cases h
    · cases h
    · cases h
      cases hh : Events.handle c.machines ok (.machineUpdate m m) with
      | none => rw [hh] at ha; cases ha
      | some l =>
        rw [hh] at ha
        obtain ⟨_, _, _, he, _⟩ := (hiff _).1 ⟨l, hh, ha⟩
        cases he
    · cases h
      cases hh : Events.handle c.machines ok (.nodeUpdate n n) with
      | none => rw [hh] at ha; cases ha
      | some l =>
        rw [hh] at ha
        obtain ⟨o, n', m, he, hr⟩ := (hiff _).1 ⟨l, hh, ha⟩
        cases he
        exact ⟨n, hn, m, hr⟩
  · rintro ⟨n, hn, m, hr⟩
    obtain ⟨l, hl, ha⟩ := (hiff (.nodeUpdate n n)).2 ⟨n, n, m, rfl, hr⟩
    exact Or.inr ⟨n, hn, _, by rw [hl]; exact ha, rfl⟩

/-- **C127**: a machine whose conditions do not agree with those of its node is put into its queue in the next resync. -/
theorem C127_conditions (ok : Bool) (c : Worker) (n : Events.Node) (hn : n ∈ c.nodes) (m : Events.Mach) (h : MachineOf c.machines n.name m)
    (hm : n.annotations.has "node.machine.sapcloud.io/not-managed-by-mcm" = false) (hp : m.phase ≠ .crashLoopBackOff ∧ m.phase ≠ .terminating)
    (h1 : (m.conditions.map (·.type)).Nodup) (hc : ¬ Events.SameConditions m.conditions n.conditions)
    (ho : n.annotations.get triggerDeletionKey = "true" → m.deleting = true ∨ ok = true) : Did.act (.machine m.name) ∈ worker ok c := by
  obtain ⟨l, hl, ha⟩ := (Events.C63_condition_change_noticed c.machines ok n m h hm hp h1 hc).2 n ho
  unfold worker
  refine List.mem_append_right _ (List.mem_flatMap.2 ⟨n, hn, List.mem_map.2 ⟨_, ?_, rfl⟩⟩)
  rw [hl]
  exact ha

/-- **C127**: nothing else happens in a resync: no class but those in the cache is looked at, no secret, no termination, no search for orphans, and no machine but those whose
conditions differ from their node's. In particular a resync does not look at machines and secrets again; these are not forgotten in the first place (C104). -/
theorem C127_nothing_else (ok : Bool) (c : Worker) (d : Did) (h : d ∈ worker ok c) :
    (∃ k ∈ c.classes, d = .cls ⟨k.ns, k.name⟩) ∨
    (∃ n ∈ c.nodes, ∃ m, MachineOf c.machines n.name m ∧ (d = .act (.deleteMachine m.name) ∨
      (d = .act (.machine m.name) ∧ (m.phase ≠ .crashLoopBackOff ∧ m.phase ≠ .terminating) ∧
        ((m.conditions.map (·.type)).Nodup → ¬ Events.SameConditions m.conditions n.conditions)))) := by
  unfold worker at h
  simp only [List.mem_append, List.mem_flatMap, List.mem_map] at h
  rcases h with (⟨k, hk, ⟨s, hs, rfl⟩ | ⟨s, hs, rfl⟩⟩ | ⟨m, _, a, ha, rfl⟩) | ⟨n, hn, a, ha, rfl⟩
  · exfalso
    unfold RefWake.classUpdated at hs
    split at hs
    · rename_i x y hx hy
      rw [hx] at hy
      cases hy
      unfold RefWake.enqueueIfChanged at hs
      rw [if_pos rfl, if_pos rfl] at hs
      cases hs
    · cases hs
  · refine Or.inl ⟨k, hk, ?_⟩
    rw [List.mem_singleton.1 hs]
  · exfalso
    have : Events.handle c.machines ok (.machineUpdate m m) = some [] := by
      show some _ = _
      unfold Events.updateMachine Events.updateToSafety
      rw [if_pos rfl, if_neg (fun h => h.1 h.2)]
      rfl
    rw [this] at ha
    cases ha
  · refine Or.inr ⟨n, hn, ?_⟩
    have hadd : ∀ m, Events.MachineOf c.machines n.name m → a ∈ Events.addNode c.machines n → a = .machine m.name ∧ (m.phase ≠ .crashLoopBackOff ∧ m.phase ≠ .terminating) ∧
        ((m.conditions.map (·.type)).Nodup → ¬ Events.SameConditions m.conditions n.conditions) := by
      intro m hm h
      unfold Events.addNode at h
      split at h
      · cases h
      · rw [show (c.machines.filter fun m => m.node = some n.name) = [m] from hm] at h
        dsimp only at h
        split at h
        · rename_i hc
          refine ⟨List.mem_singleton.1 h, ⟨hc.1, hc.2.1⟩, fun h1 hs => ?_⟩
          have := (Conditions.C52_exact _ _ h1).2 hs
          rw [this] at hc
          exact absurd hc.2.2 (by simp)
        · cases h
    replace ha : a ∈ Events.updateNode c.machines ok n n := ha
    unfold Events.updateNode at ha
    split at ha
    · rename_i m hf
      refine ⟨m, hf, ?_⟩
      have hreq : a ∈ (if n.annotations.get triggerDeletionKey = "true" ∧ ¬ m.deleting = true then [Events.Action.deleteMachine m.name] else []) → a = .deleteMachine m.name := by
        intro h
        split at h
        · exact List.mem_singleton.1 h
        · cases h
      dsimp only at ha
      split at ha
      · exact Or.inl (by rw [hreq ha])
      · rw [if_neg (fun h => h rfl)] at ha
        rcases List.mem_append.1 ha with h | h
        · exact Or.inl (by rw [hreq h])
        · obtain ⟨rfl, h2, h3⟩ := hadd m hf h
          exact Or.inr ⟨rfl, h2, h3⟩
    · cases ha

example : worker true { machines := [{ name := "m", node := some "n" }], nodes := [{ name := "n", annotations := [(triggerDeletionKey, "true")] }],
                        classes := [{ ns := "ns", name := "c", refs := { secretRef := some ("ns", "s") } }], secrets := [⟨"ns", "s"⟩] } =
    [.cls ⟨"ns", "c"⟩, .act (.deleteMachine "m")] := by decide +kernel

/-! ## Machine sets that were forgotten -/

theorem addAll_dirty (ks : List String) : ∀ (s : Loop.S) (k : String), k ∈ ks ∨ k ∈ s.q.dirty → k ∈ (addAll s ks).q.dirty := by
  induction ks with
  | nil => intro s k h; rcases h with h | h; cases h; exact h
  | cons x xs ih =>
    intro s k h
    refine ih { s with q := s.q.add x } k ?_
    rcases h with h | h
    · rcases List.mem_cons.1 h with rfl | h
      · exact Or.inr (add_self _ _)
      · exact Or.inl h
    · exact Or.inr (add_dirty _ _ _ h)

theorem addAll_steps (may : String → SetRun.Ending → Prop) (ks : List String) : ∀ s, Steps may s (addAll s ks) := by
  induction ks with
  | nil => exact fun s => Steps.refl
  | cons x xs ih => exact fun s => Steps.trans (Steps.tail Steps.refl (Step.add x)) (ih _)

theorem setKeys_mem (c : Manager) (s : Wake.Obj) (h : s ∈ c.sets) : s.name ∈ setKeys (manager c) := by
  unfold setKeys
  exact List.mem_filterMap.2 ⟨.set s.name, (C127_manager c _).2 (Or.inl ⟨s, h, rfl⟩), rfl⟩

/-- an execution of the queue of the machine sets with a clock, in which the caches are resynced: between any moment and the end of the period that begins there comes a resync,
at which the cache has the given set -/
structure Resynced (may : String → SetRun.Ending → Prop) (p : Nat) (set : String) where
  st : Nat → Loop.S
  time : Nat → Nat
  start : st 0 = {}
  next : ∀ i, Steps may (st i) (st (i + 1))
  mono : ∀ i, time i ≤ time (i + 1)
  /-- the next resync -/
  resync : ∀ i, ∃ j, i ≤ j ∧ time (j + 1) ≤ time i + p ∧ ∃ c : Manager, (∃ s ∈ c.sets, s.name = set) ∧ st (j + 1) = addAll (st j) (setKeys (manager c))

/-- **C127**: whatever fails (C104_set_forgotten_false), from every moment on it takes at most one period until a run for a machine set that exists is going on or due. -/
theorem C127_set_found_again (may : String → SetRun.Ending → Prop) (set : String) (x : Resynced may period set) (i : Nat) :
    ∃ j, i ≤ j ∧ x.time j ≤ x.time i + 12 * 60 * 60 ∧ Kept (x.st j) set := by
  obtain ⟨j, hj, ht, c, ⟨s, hs, rfl⟩, he⟩ := x.resync i
  refine ⟨j + 1, Nat.le_succ_of_le hj, ht, Or.inr (Or.inl ?_)⟩
  rw [he]
  exact addAll_dirty _ _ _ (Or.inl (setKeys_mem c s hs))

/-- resyncs and nothing else -/
def onlyResyncs (c : Manager) : Nat → Loop.S
  | 0 => {}
  | n + 1 => addAll (onlyResyncs c n) (setKeys (manager c))

-- there are such executions
example : Resynced exampleMay period "s" :=
  { st := onlyResyncs someManager, time := fun n => n * period, start := rfl, next := fun _ => addAll_steps _ _ _
    mono := fun i => Nat.mul_le_mul_right _ (Nat.le_succ i)
    resync := fun i => ⟨i, Nat.le_refl _, by show (i + 1) * period ≤ i * period + period; rw [Nat.succ_mul]; exact Nat.le_refl _,
      someManager, ⟨_, List.mem_cons_self, rfl⟩, rfl⟩ }

/-- **C127**: also right after the sixteen failures of C104_set_forgotten_false: a resync is a step of the controller, and the set is kept afterwards. -/
theorem C127_forgotten_and_found : ∃ s, Reachable exampleMay s ∧ ¬ Kept s "set" ∧
    ∀ c : Manager, (∃ o ∈ c.sets, o.name = "set") → Steps exampleMay s (addAll s (setKeys (manager c))) ∧ Kept (addAll s (setKeys (manager c))) "set" := by
  obtain ⟨s, hr, _, _, hn⟩ := C104_set_forgotten_false
  refine ⟨s, hr, hn.1, fun c ⟨o, ho, he⟩ => ⟨addAll_steps _ _ _, Or.inr (Or.inl (addAll_dirty _ _ _ (Or.inl ?_)))⟩⟩
  rw [← he]
  exact setKeys_mem c o ho

end MCM.Resync
