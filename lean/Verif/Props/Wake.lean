import Verif.Model.Wake
/-!
C84: what happens to a machine wakes the machine sets concerned. C85: what happens to a machine set or its machines wakes the deployments concerned.
-/
namespace MCM.Wake
open MCM

/-- `o` is controlled by `c`, an object of this kind that `get` finds -/
def ControlledBy (kind : String) (get : String → Option Obj) (o c : Obj) : Prop :=
  ∃ r, o.owners.find? (·.controller) = some r ∧ r.kind = kind ∧ get r.name = some c ∧ c.uid = r.uid

/-- no owner reference of `o` is a controlling one -/
def Orphan (o : Obj) : Prop := ∀ r ∈ o.owners, r.controller = false

/-- the labels satisfy the non-empty, valid selector -/
def Wants (c : Obj) (labels : SMap) : Prop := c.selector.valid = true ∧ c.selector.labels ≠ [] ∧ ∀ e ∈ c.selector.labels, List.lookup e.1 labels = some e.2

theorem owner_iff (kind : String) (get : String → Option Obj) (o c : Obj) : owner kind get o = some c ↔ ControlledBy kind get o c := by
  unfold owner ControlledBy controllerOf
  cases h : o.owners.find? (·.controller) with
  | none => simp
  | some r =>
    simp only [Option.bind_some, Option.some.injEq, exists_eq_left']
    unfold resolve
    by_cases hk : r.kind = kind
    · rw [if_neg (by simpa using hk)]
      cases hg : get r.name with
      | none => simp
      | some d =>
        by_cases hu : d.uid = r.uid
        · simp only [hu]
          constructor
          · intro h; simp at h; subst h; exact ⟨hk, rfl, hu⟩
          · rintro ⟨_, h, _⟩; simp at h; subst h; simp
        · constructor
          · intro h; simp [hu] at h
          · rintro ⟨_, h, h'⟩; simp at h; subst h; exact absurd h' hu
    · constructor
      · intro h; simp [hk] at h
      · rintro ⟨h, _⟩; exact absurd h hk

theorem orphan_iff (o : Obj) : Orphan o ↔ controllerOf o = none := by
  unfold Orphan controllerOf
  rw [List.find?_eq_none]
  simp

theorem resolve_of (kind : String) (get : String → Option Obj) (o c : Obj) (h : ControlledBy kind get o c) :
    ∃ r, controllerOf o = some r ∧ resolve kind get r = some c := by
  have := (owner_iff kind get o c).2 h
  unfold owner at this
  cases hc : controllerOf o with
  | none => rw [hc] at this; cases this
  | some r => rw [hc] at this; exact ⟨r, rfl, this⟩

theorem matching_mem (cache : List Obj) (labels : SMap) (c : Obj) (hc : c ∈ cache) (hv : ∀ d ∈ cache, d.selector.valid = true) (hw : Wants c labels) :
    c ∈ matching cache labels := by
  obtain ⟨_, h1, h2⟩ := hw
  have hl : labels ≠ [] := by
    intro he
    obtain ⟨e, l, he'⟩ : ∃ e l, c.selector.labels = e :: l := by
      cases h : c.selector.labels with
      | nil => exact absurd h h1
      | cons e l => exact ⟨e, l, rfl⟩
    have := h2 e (by rw [he']; exact List.mem_cons_self)
    rw [he] at this
    cases this
  unfold matching
  rw [if_neg (by simpa using hl), if_neg (by simp; exact fun d hd => hv d hd), List.mem_filter]
  refine ⟨hc, ?_⟩
  unfold Sel.selects
  rw [Bool.and_eq_true, List.all_eq_true]
  exact ⟨by simpa using h1, fun e he => by simpa using h2 e he⟩

theorem matching_wants (cache : List Obj) (labels : SMap) (c : Obj) (h : c ∈ matching cache labels) : c ∈ cache ∧ Wants c labels := by
  unfold matching at h
  split at h
  · exact absurd h List.not_mem_nil
  · split at h
    · exact absurd h List.not_mem_nil
    · rename_i hv
      rw [List.mem_filter] at h
      refine ⟨h.1, ?_⟩
      have h2 := h.2
      unfold Sel.selects at h2
      rw [Bool.and_eq_true, List.all_eq_true] at h2
      refine ⟨?_, by simpa using h2.1, fun e he => by simpa using h2.2 e he⟩
      simp only [Bool.not_eq_true, List.any_eq_false, Bool.not_eq_true', Bool.not_eq_false] at hv
      exact hv c h.1

/-! ## C84 -/

/-- events about a machine -/
inductive Event
  | added (m : Obj)
  | updated (old new : Obj)
  | deleted (g : Gone)

def handle (sets : List Obj) : Event → List Action
  | .added m => addMachine sets m
  | .updated old new => updateMachine sets old new
  | .deleted g => deleteMachine sets g

/-- the machine as it is known after the event (as last seen, if it is gone), when the event reports a change -/
inductive About : Event → Obj → Prop
  | added (m : Obj) : About (.added m) m
  | updated (old new : Obj) : new.version ≠ old.version → About (.updated old new) new
  | deleted (g : Gone) : About (.deleted g) g.obj

theorem mem_deleteMachine (sets : List Obj) (g : Gone) (s : Obj) (h : ControlledBy "MachineSet" (lookup sets) g.obj s) :
    deleteMachine sets g = [.deleted s.name g.obj.name, .set s.name] := by
  unfold deleteMachine
  rw [(owner_iff _ _ _ _).2 h]

/-- C84: Whatever happens to a machine, the set that controls it is woken. -/
theorem C84_owner_woken (sets : List Obj) (ev : Event) (m s : Obj) (ha : About ev m) (h : ControlledBy "MachineSet" (lookup sets) m s) :
    Action.set s.name ∈ handle sets ev := by
  have hd : ∀ g : Gone, g.obj = m → Action.set s.name ∈ deleteMachine sets g := by
    intro g hg
    rw [mem_deleteMachine sets g s (by rw [hg]; exact h)]
    exact List.mem_cons_of_mem _ List.mem_cons_self
  obtain ⟨r, h1, h2⟩ := resolve_of _ _ _ _ h
  cases ha with
  | deleted g => exact hd g rfl
  | added =>
    change _ ∈ addMachine sets m
    unfold addMachine
    split
    · exact hd (.seen m) rfl
    · rw [h1]
      dsimp only
      rw [h2]
      exact List.mem_cons_of_mem _ List.mem_cons_self
  | updated old _ hv =>
    change _ ∈ updateMachine sets old m
    unfold updateMachine
    rw [if_neg hv]
    split
    · exact List.mem_append_left _ (hd (.seen m) rfl)
    · apply List.mem_append_right
      rw [h1]
      dsimp only
      rw [h2]
      exact List.mem_singleton.2 rfl

/-- C84: A set that loses a machine to another owner or to nobody is woken, unless the machine is being deleted and kept its labels (see below). -/
theorem C84_former_owner_woken_partial (sets : List Obj) (old new s : Obj) (hv : new.version ≠ old.version)
    (h : ControlledBy "MachineSet" (lookup sets) old s) (hn : new.owners.find? (·.controller) ≠ old.owners.find? (·.controller))
    (hd : new.deleting = false ∨ new.labels ≠ old.labels) : Action.set s.name ∈ updateMachine sets old new := by
  unfold updateMachine
  rw [if_neg hv]
  split
  · rename_i hdel
    rcases hd with hd | hd
    · rw [hd] at hdel; cases hdel
    · apply List.mem_append_right
      rw [if_pos hd, mem_deleteMachine sets (.seen old) s h]
      exact List.mem_cons_of_mem _ List.mem_cons_self
  · apply List.mem_append_left
    unfold former
    rw [if_pos (show controllerOf new ≠ controllerOf old from hn), (owner_iff _ _ _ _).2 h]
    exact List.mem_singleton.2 rfl

/-- C84: A machine without controller is offered to every set that selects it, when it appears and when its labels or owners change. -/
theorem C84_orphan_offered_partial (sets : List Obj) (m s : Obj) (hd : m.deleting = false) (ho : Orphan m) (hs : s ∈ sets)
    (hvalid : ∀ t ∈ sets, t.selector.valid = true) (hw : Wants s m.labels) :
    Action.set s.name ∈ addMachine sets m ∧
    ∀ old, m.version ≠ old.version → (m.labels ≠ old.labels ∨ ¬ Orphan old) → Action.set s.name ∈ updateMachine sets old m := by
  have hm : Action.set s.name ∈ (matching sets m.labels).map fun s => Action.set s.name :=
    List.mem_map.2 ⟨s, matching_mem sets m.labels s hs hvalid hw, rfl⟩
  have ho' := (orphan_iff m).1 ho
  constructor
  · unfold addMachine
    rw [if_neg (by simp [hd]), ho']
    exact hm
  · intro old hv hc
    unfold updateMachine
    rw [if_neg hv, if_neg (by simp [hd])]
    apply List.mem_append_right
    rw [ho']
    dsimp only
    rw [if_pos]
    · exact hm
    · rcases hc with hc | hc
      · exact .inl hc
      · refine .inr fun he => hc ((orphan_iff old).2 he.symm)

/-- C84: No other set is woken: only the controller of the machine, before or now, or a set that selects an orphan. -/
theorem C84_only_concerned (sets : List Obj) (ev : Event) (n : String) (h : Action.set n ∈ handle sets ev) :
    ∃ s, s.name = n ∧ ((∃ m, ControlledBy "MachineSet" (lookup sets) m s ∧ (About ev m ∨ ∃ new, ev = .updated m new)) ∨
      (∃ m, About ev m ∧ Orphan m ∧ s ∈ sets ∧ Wants s m.labels)) := by
  have hdel : ∀ g : Gone, Action.set n ∈ deleteMachine sets g → ∃ s, s.name = n ∧ ControlledBy "MachineSet" (lookup sets) g.obj s := by
    intro g hg
    unfold deleteMachine at hg
    cases ho : owner "MachineSet" (lookup sets) g.obj with
    | none => rw [ho] at hg; exact absurd hg List.not_mem_nil
    | some s =>
      rw [ho] at hg
      refine ⟨s, ?_, (owner_iff _ _ _ _).1 ho⟩
      simp at hg
      exact hg.symm
  have hmatch : ∀ m : Obj, Action.set n ∈ (matching sets m.labels).map (fun s => Action.set s.name) → ∃ s, s.name = n ∧ s ∈ sets ∧ Wants s m.labels := by
    intro m hm
    obtain ⟨s, hs, he⟩ := List.mem_map.1 hm
    obtain ⟨a, b⟩ := matching_wants _ _ _ hs
    exact ⟨s, by simpa using he, a, b⟩
  cases ev with
  | deleted g =>
    obtain ⟨s, h1, h2⟩ := hdel g h
    exact ⟨s, h1, .inl ⟨g.obj, h2, .inl (.deleted g)⟩⟩
  | added m =>
    change _ ∈ addMachine sets m at h
    unfold addMachine at h
    split at h
    · obtain ⟨s, h1, h2⟩ := hdel (.seen m) h
      exact ⟨s, h1, .inl ⟨m, h2, .inl (.added m)⟩⟩
    · cases hc : controllerOf m with
      | none =>
        rw [hc] at h
        obtain ⟨s, h1, h2, h3⟩ := hmatch m h
        exact ⟨s, h1, .inr ⟨m, .added m, (orphan_iff m).2 hc, h2, h3⟩⟩
      | some r =>
        rw [hc] at h
        dsimp only at h
        cases hr : resolve "MachineSet" (lookup sets) r with
        | none => rw [hr] at h; exact absurd h List.not_mem_nil
        | some s =>
          rw [hr] at h
          refine ⟨s, ?_, .inl ⟨m, (owner_iff _ _ _ _).1 (by unfold owner; rw [hc]; exact hr), .inl (.added m)⟩⟩
          simp at h
          exact h.symm
  | updated old new =>
    change _ ∈ updateMachine sets old new at h
    unfold updateMachine at h
    split at h
    · exact absurd h List.not_mem_nil
    · rename_i hv
      split at h
      · rcases List.mem_append.1 h with h | h
        · obtain ⟨s, h1, h2⟩ := hdel (.seen new) h
          exact ⟨s, h1, .inl ⟨new, h2, .inl (.updated old new hv)⟩⟩
        · split at h
          · obtain ⟨s, h1, h2⟩ := hdel (.seen old) h
            exact ⟨s, h1, .inl ⟨old, h2, .inr ⟨new, rfl⟩⟩⟩
          · exact absurd h List.not_mem_nil
      · rcases List.mem_append.1 h with h | h
        · unfold former at h
          split at h
          · cases ho : owner "MachineSet" (lookup sets) old with
            | none => rw [ho] at h; exact absurd h List.not_mem_nil
            | some s =>
              rw [ho] at h
              refine ⟨s, ?_, .inl ⟨old, (owner_iff _ _ _ _).1 ho, .inr ⟨new, rfl⟩⟩⟩
              simp at h
              exact h.symm
          · exact absurd h List.not_mem_nil
        · cases hc : controllerOf new with
          | none =>
            rw [hc] at h
            dsimp only at h
            split at h
            · obtain ⟨s, h1, h2, h3⟩ := hmatch new h
              exact ⟨s, h1, .inr ⟨new, .updated old new hv, (orphan_iff new).2 hc, h2, h3⟩⟩
            · exact absurd h List.not_mem_nil
          | some r =>
            rw [hc] at h
            dsimp only at h
            cases hr : resolve "MachineSet" (lookup sets) r with
            | none => rw [hr] at h; exact absurd h List.not_mem_nil
            | some s =>
              rw [hr] at h
              refine ⟨s, ?_, .inl ⟨new, (owner_iff _ _ _ _).1 (by unfold owner; rw [hc]; exact hr), .inl (.updated old new hv)⟩⟩
              simp at h
              exact h.symm

/-- C84: A creation is counted exactly for a machine that appears, is not being deleted and has a known owner. -/
theorem C84_creation_counted (sets : List Obj) (ev : Event) (n : String) :
    Action.created n ∈ handle sets ev ↔ ∃ m s, ev = .added m ∧ m.deleting = false ∧ ControlledBy "MachineSet" (lookup sets) m s ∧ s.name = n := by
  have hdel : ∀ g : Gone, Action.created n ∉ deleteMachine sets g := by
    intro g hg
    unfold deleteMachine at hg
    split at hg <;> simp at hg
  constructor
  · intro h
    cases ev with
    | deleted g => exact absurd h (hdel g)
    | updated old new =>
      exfalso
      change _ ∈ updateMachine sets old new at h
      unfold updateMachine at h
      split at h
      · exact absurd h List.not_mem_nil
      · split at h
        · rcases List.mem_append.1 h with h | h
          · exact hdel _ h
          · split at h
            · exact hdel _ h
            · exact absurd h List.not_mem_nil
        · rcases List.mem_append.1 h with h | h
          · unfold former at h
            split at h
            · simp at h
            · exact absurd h List.not_mem_nil
          · split at h
            · simp at h
            · split at h
              · simp at h
              · exact absurd h List.not_mem_nil
    | added m =>
      change _ ∈ addMachine sets m at h
      unfold addMachine at h
      split at h
      · exact absurd h (hdel _)
      · rename_i hd
        cases hc : controllerOf m with
        | none => rw [hc] at h; simp at h
        | some r =>
          rw [hc] at h
          dsimp only at h
          cases hr : resolve "MachineSet" (lookup sets) r with
          | none => rw [hr] at h; exact absurd h List.not_mem_nil
          | some s =>
            rw [hr] at h
            refine ⟨m, s, rfl, by simpa using hd, (owner_iff _ _ _ _).1 (by unfold owner; rw [hc]; exact hr), ?_⟩
            simp at h
            exact h.symm
  · rintro ⟨m, s, rfl, hd, hs, rfl⟩
    obtain ⟨r, h1, h2⟩ := resolve_of _ _ _ _ hs
    change _ ∈ addMachine sets m
    unfold addMachine
    rw [if_neg (by simp [hd]), h1]
    dsimp only
    rw [h2]
    exact List.mem_cons_self

/-- C84, false part: A set that lost a machine which is being deleted, with both changes reported at once, is not woken. -/
theorem C84_former_owner_deleting_false :
    ∃ sets old new s, ControlledBy "MachineSet" (lookup sets) old s ∧ new.version ≠ old.version ∧
      new.owners.find? (·.controller) ≠ old.owners.find? (·.controller) ∧ updateMachine sets old new = [] := by
  refine ⟨[{ name := "s", uid := "1" }], { name := "m", owners := [⟨"MachineSet", "s", "1", true⟩] }, { name := "m", version := 1, deleting := true },
    { name := "s", uid := "1" }, ⟨_, rfl, rfl, rfl, rfl⟩, by decide, by decide, by decide⟩

/-- C84, false part: One set with an invalid selector keeps orphans from all sets. -/
theorem C84_invalid_selector_false (sets : List Obj) (m bad : Obj) (hd : m.deleting = false) (ho : Orphan m) (hb : bad ∈ sets) (hbad : bad.selector.valid = false) :
    addMachine sets m = [] := by
  unfold addMachine
  rw [if_neg (by simp [hd]), (orphan_iff m).1 ho]
  unfold matching
  dsimp only
  split
  · rfl
  · rw [if_pos]
    · rfl
    · rw [List.any_eq_true]
      exact ⟨bad, hb, by simp [hbad]⟩

example : ∃ sets m s, Orphan m ∧ s ∈ sets ∧ Wants s m.labels ∧ (∀ t ∈ sets, t.selector.valid = true) ∧ addMachine sets m = [.set "s"] :=
  ⟨[{ name := "s", selector := { labels := [("a", "1")] } }, { name := "t", selector := { labels := [("a", "2")] } }], { name := "m", labels := [("a", "1")] },
    { name := "s", selector := { labels := [("a", "1")] } }, by simp [Orphan], by simp, by simp [Wants, List.lookup], by simp, by decide⟩

/-! ## C85 -/

/-- C85: What happens to a machine set wakes the deployment that controls it, if the deployment can be read. -/
theorem C85_owner_woken_partial (deps : List Obj) (get : String → Option Obj) (s d : Obj) (h : ControlledBy "MachineDeployment" get s d) :
    .deployment d.name ∈ addSet deps get s ∧ (∀ g : Gone, g.obj = s → .deployment d.name ∈ deleteSet get g) ∧
    ∀ old, s.version ≠ old.version → .deployment d.name ∈ updateSet deps get old s := by
  have hd : ∀ g : Gone, g.obj = s → .deployment d.name ∈ deleteSet get g := by
    intro g hg
    unfold deleteSet
    rw [hg, (owner_iff _ _ _ _).2 h]
    exact List.mem_singleton.2 rfl
  obtain ⟨r, h1, h2⟩ := resolve_of _ _ _ _ h
  refine ⟨?_, hd, fun old hv => ?_⟩
  · unfold addSet
    split
    · exact hd (.seen s) rfl
    · rw [h1]
      dsimp only
      rw [h2]
      exact List.mem_singleton.2 rfl
  · unfold updateSet
    rw [if_neg hv]
    apply List.mem_append_right
    rw [h1]
    dsimp only
    rw [h2]
    exact List.mem_singleton.2 rfl

/-- C85: A deployment that loses a set is woken. -/
theorem C85_former_owner_woken_partial (deps : List Obj) (get : String → Option Obj) (old new d : Obj) (hv : new.version ≠ old.version)
    (h : ControlledBy "MachineDeployment" get old d) (hn : new.owners.find? (·.controller) ≠ old.owners.find? (·.controller)) :
    .deployment d.name ∈ updateSet deps get old new := by
  unfold updateSet
  rw [if_neg hv]
  apply List.mem_append_left
  unfold former
  rw [if_pos (show controllerOf new ≠ controllerOf old from hn), (owner_iff _ _ _ _).2 h]
  exact List.mem_singleton.2 rfl

/-- C85: A set without controller is offered to every deployment that selects it. -/
theorem C85_orphan_offered_partial (deps : List Obj) (get : String → Option Obj) (s d : Obj) (hdel : s.deleting = false) (ho : Orphan s) (hd : d ∈ deps)
    (hvalid : ∀ t ∈ deps, t.selector.valid = true) (hw : Wants d s.labels) :
    .deployment d.name ∈ addSet deps get s ∧
    ∀ old, s.version ≠ old.version → (s.labels ≠ old.labels ∨ ¬ Orphan old) → .deployment d.name ∈ updateSet deps get old s := by
  have hm : Action.deployment d.name ∈ (matching deps s.labels).map fun d => Action.deployment d.name :=
    List.mem_map.2 ⟨d, matching_mem deps s.labels d hd hvalid hw, rfl⟩
  have ho' := (orphan_iff s).1 ho
  constructor
  · unfold addSet
    rw [if_neg (by simp [hdel]), ho']
    exact hm
  · intro old hv hc
    unfold updateSet
    rw [if_neg hv]
    apply List.mem_append_right
    rw [ho']
    dsimp only
    rw [if_pos]
    · exact hm
    · rcases hc with hc | hc
      · exact .inl hc
      · exact .inr fun he => hc ((orphan_iff old).2 he.symm)

/-- C85, false part: The deployment is read from the API server in the handler, and if that fails nobody is woken and nothing is retried, whatever happened to the set. -/
theorem C85_failed_read_false (deps : List Obj) (get : String → Option Obj) (s : Obj) (r : Ref) (hr : s.owners.find? (·.controller) = some r) (hg : get r.name = none) :
    addSet deps get s = [] ∧ deleteSet get (.seen s) = [] ∧
    ∀ old, old.owners.find? (·.controller) = some r → updateSet deps get old s = [] := by
  have hres : resolve "MachineDeployment" get r = none := by unfold resolve; rw [hg]; split <;> rfl
  have hc : controllerOf s = some r := hr
  have ho : owner "MachineDeployment" get s = none := by unfold owner; rw [hc]; exact hres
  have hdel : deleteSet get (.seen s) = [] := by
    unfold deleteSet
    rw [show (Gone.seen s).obj = s from rfl, ho]
    rfl
  refine ⟨?_, hdel, fun old hold => ?_⟩
  · unfold addSet
    split
    · exact hdel
    · rw [hc]
      dsimp only
      rw [hres]
      rfl
  · unfold updateSet
    split
    · rfl
    · have hco : controllerOf old = some r := hold
      unfold former
      rw [hc, hco, if_neg (by simp)]
      dsimp only
      rw [hres]
      rfl

/-- C85, false part: The deletion of a machine wakes no deployment. The handler written for Recreate deployments, which wait for the last machine to go, is not
registered; it would wake them. -/
theorem C85_machine_deletion_unnoticed_false (g : Gone) : machineDeleted g = [] ∧
    ∀ getSet get machines s d, ControlledBy "MachineSet" getSet g.obj s → ControlledBy "MachineDeployment" get s d → d.recreate = true → machines d = 0 →
      machineDeletedIntended getSet get machines g = [.deployment d.name] := by
  constructor
  · cases g <;> rfl
  · intro getSet get machines s d h1 h2 h3 h4
    unfold machineDeletedIntended
    rw [(owner_iff _ _ _ _).2 h1, Option.bind_some, (owner_iff _ _ _ _).2 h2]
    dsimp only
    rw [if_pos ⟨h3, h4⟩]

example : ∃ (get : String → Option Obj) (s d : Obj), ControlledBy "MachineDeployment" get s d ∧ updateSet [d] get { s with version := 0 } s = [.deployment "d"] :=
  ⟨fun _ => some { name := "d", uid := "1" }, { name := "s", version := 3, owners := [⟨"Other", "x", "0", false⟩, ⟨"MachineDeployment", "d", "1", true⟩] }, { name := "d", uid := "1" },
    ⟨⟨"MachineDeployment", "d", "1", true⟩, rfl, rfl, rfl, rfl⟩, by decide⟩

end MCM.Wake
