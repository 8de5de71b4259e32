import Verif.Model.Metrics
/-!
**C99** The metrics show the objects that exist. Full statement: after a scrape there is a series for every machine, machine set and machine
deployment that exists, it shows the object's current fields, and no series for anything else; a scrape never ends the process.

What is missing (`_partial`): series of objects that are gone stay for ever (`C99_gone_false`); so do old info series (`C99_info_false`) and the values
of optional fields that were removed (`C99_optional_false`); `status_replicas` of a machine set shows its ready replicas (`C99_replicas_false`); percentages
show as 0 (`C99_percent_false`); several phases share the number of Pending (`C99_phase_false`); and a deployment that leaves out the optional
parameters of its strategy ends the process at the next scrape (`C99_crash_false`).

**C100** The counter of stale machines counts every stale machine once.
-/
namespace MCM.Metrics
open MCM

/-! ### Specification -/

/-- The labels that identify an object -/
def ident (name ns : String) : List (String × String) := [("name", name), ("namespace", ns)]

/-- No two objects share name and namespace -/
def DistinctBy {α : Type} (f : α → String × String) (l : List α) : Prop := ∀ a ∈ l, ∀ b ∈ l, f a = f b → a = b

/-- No two conditions share their type -/
def OneEach (cs : List C) : Prop := ∀ a ∈ cs, ∀ b ∈ cs, a.1 = b.1 → a = b

/-- The number of a condition's status -/
def CondNumber (status : String) (n : Int) : Prop := (status = "True" → n = 1) ∧ (status = "False" → n = 0) ∧ (status = "Unknown" → n = 2)

/-! ### Lemmas -/

theorem apply_cons (s : Store) (w : Key × Int) (ws : List (Key × Int)) : s.apply (w :: ws) = (s.set w.1 w.2).apply ws := rfl

theorem apply_not : ∀ (ws : List (Key × Int)) (s : Store) (k : Key), (∀ w ∈ ws, w.1 ≠ k) → s.apply ws k = s k
  | [], _, _, _ => rfl
  | w :: ws, s, k, h => by
    rw [apply_cons, apply_not ws _ k fun x hx => h x (List.mem_cons_of_mem _ hx)]
    have : ¬ k = w.1 := fun e => h w List.mem_cons_self e.symm
    simp [Store.set, this]

theorem apply_mem : ∀ (ws : List (Key × Int)) (s : Store) (k : Key) (v : Int), (k, v) ∈ ws → (∀ v', (k, v') ∈ ws → v' = v) → s.apply ws k = some v
  | [], _, _, _, h, _ => absurd h List.not_mem_nil
  | w :: ws, s, k, v, h, hu => by
    rw [apply_cons]
    by_cases hin : ∃ v', (k, v') ∈ ws
    · obtain ⟨v', hv⟩ := hin
      have : v' = v := hu v' (List.mem_cons_of_mem _ hv)
      exact apply_mem ws _ k v (this ▸ hv) fun x hx => hu x (List.mem_cons_of_mem _ hx)
    · rw [apply_not]
      · rcases List.mem_cons.1 h with h | h
        · rw [← h]; simp [Store.set]
        · exact absurd ⟨v, h⟩ hin
      · intro x hx he
        exact hin ⟨x.2, he ▸ hx⟩

theorem condCode_number (st : String) : CondNumber st (condCode st) := by
  unfold CondNumber condCode
  refine ⟨?_, ?_, ?_⟩ <;> intro h <;> subst h <;> decide

/-- All keys of an object's writes carry its name and namespace. -/
theorem Mach.keys (m : Mach) : ∀ w ∈ m.writes, w.1.labels.take 2 = ident m.name m.ns := by
  intro w hw
  unfold Mach.writes at hw
  simp only [List.cons_append, List.mem_cons, List.mem_append, condWrites, List.mem_map, List.not_mem_nil, or_false] at hw
  rcases hw with rfl | ⟨c, _, rfl⟩ | rfl <;> rfl

theorem MSet.keys (s : MSet) : ∀ w ∈ s.writes, w.1.labels.take 2 = ident s.name s.ns ∧ w.1.metric ∈ ["machine_set_info",
    "machine_set_info_spec_replicas", "machine_set_info_spec_min_ready_seconds", "machine_set_status_condition", "machine_set_failed_machines",
    "machine_set_status_available_replicas", "machine_set_status_fully_labelled_replicas", "machine_set_status_ready_replicas",
    "machine_set_status_replicas"] := by
  intro w hw
  unfold MSet.writes at hw
  simp only [List.cons_append, List.mem_cons, List.mem_append, condWrites, List.mem_map, List.not_mem_nil, or_false, List.nil_append, or_assoc] at hw
  rcases hw with rfl | rfl | rfl | ⟨c, _, rfl⟩ | ⟨c, _, rfl⟩ | rfl | rfl | rfl | rfl <;> refine ⟨rfl, ?_⟩ <;>
    simp [MSet.info, MSet.key, failedKey]

theorem ident_inj {a b c d : String} (h : ident a b = ident c d) : (a, b) = (c, d) := by
  simp [ident] at h
  simp [h.1, h.2]

/-- A write of one object decides the value after all objects have been written. -/
theorem flat_mem {α : Type} (f : α → List (Key × Int)) (id : α → String × String) (l : List α) (hd : DistinctBy id l)
    (hk : ∀ a ∈ l, ∀ w ∈ f a, w.1.labels.take 2 = ident (id a).1 (id a).2) (s : Store) (a : α) (ha : a ∈ l) (k : Key) (v : Int)
    (hm : (k, v) ∈ f a) (hu : ∀ v', (k, v') ∈ f a → v' = v) : s.apply (l.flatMap f) k = some v := by
  apply apply_mem
  · exact List.mem_flatMap.2 ⟨a, ha, hm⟩
  · intro v' hv'
    obtain ⟨b, hb, hbv⟩ := List.mem_flatMap.1 hv'
    have h1 := hk a ha _ hm
    have h2 := hk b hb _ hbv
    have := hd a ha b hb (ident_inj (h1.symm.trans h2))
    exact hu v' (this ▸ hbv)

/-! ### Machines -/

/-- **C99**, machines: after a scrape the number of machines, the frozen flag, and for every machine its info series, the number of its phase and of
its conditions are shown. -/
theorem C99_machines_partial (s : Store) (ms : List Mach) (frozen : Bool) (hd : DistinctBy (fun m => (m.name, m.ns)) ms) :
    let r := scrapeMachines s ms frozen
    r.2.1 = ms.length ∧ (r.2.2 = 1 ↔ frozen = true) ∧
    ∀ m ∈ ms,
      (∃ n, r.1 ⟨"machine_current_status_phase", ident m.name m.ns⟩ = some n ∧ (n = -4 ↔ m.phase = .terminating) ∧ (n = -3 ↔ m.phase = .failed) ∧
        (n = -2 ↔ m.phase = .crashLoopBackOff) ∧ (n = -1 ↔ m.phase = .unknown) ∧ (n = 1 ↔ m.phase = .running) ∧ (m.phase = .pending → n = 0)) ∧
      r.1 ⟨"machine_info", ident m.name m.ns ++ [("createdAt", toString m.created), ("spec_provider_id", m.pid), ("spec_class_api_group", m.group),
        ("spec_class_kind", m.kind), ("spec_class_name", m.cls)]⟩ = some 1 ∧
      (OneEach m.conds → ∀ c ∈ m.conds, ∃ n, r.1 ⟨"machine_status_condition", ident m.name m.ns ++ [("condition", c.1)]⟩ = some n ∧
        CondNumber c.2 n) := by
  intro r
  refine ⟨rfl, ?_, ?_⟩
  · show (if frozen then (1 : Int) else 0) = 1 ↔ _
    cases frozen <;> decide
  intro m hm
  have key := fun k v => flat_mem Mach.writes (fun m => (m.name, m.ns)) ms hd (fun a _ w hw => a.keys w hw) s m hm k v
  refine ⟨⟨phaseCode m.phase, ?_, ?_⟩, ?_, ?_⟩
  · apply key
    · simp [Mach.writes, Mach.phaseKey, who, ident]
    · intro v' hv'
      simp only [Mach.writes, condWrites, Mach.info, Mach.phaseKey, who, ident, List.cons_append, List.mem_cons, List.mem_append, List.mem_map,
        List.not_mem_nil, or_false, Prod.mk.injEq, Key.mk.injEq] at hv'
      rcases hv' with ⟨⟨h, _⟩, _⟩ | ⟨c, _, ⟨h, _⟩, _⟩ | ⟨_, h⟩
      · exact absurd h (by decide)
      · exact absurd h (by decide)
      · exact h
  · cases m.phase <;> decide
  · apply key
    · simp [Mach.writes, Mach.info, who, ident]
    · intro v' hv'
      simp only [Mach.writes, condWrites, Mach.info, Mach.phaseKey, who, ident, List.cons_append, List.mem_cons, List.mem_append, List.mem_map,
        List.not_mem_nil, or_false, Prod.mk.injEq, Key.mk.injEq] at hv'
      rcases hv' with ⟨_, h⟩ | ⟨c, _, ⟨h, _⟩, _⟩ | ⟨⟨h, _⟩, _⟩
      · exact h
      · exact absurd h (by decide)
      · exact absurd h (by decide)
  · intro ho c hc
    refine ⟨condCode c.2, ?_, condCode_number c.2⟩
    apply key
    · simp only [Mach.writes, condWrites, List.cons_append, List.mem_cons, List.mem_append, List.mem_map]
      exact Or.inr (Or.inl ⟨c, hc, rfl⟩)
    · intro v' hv'
      simp only [Mach.writes, condWrites, Mach.info, Mach.phaseKey, who, ident, List.cons_append, List.mem_cons, List.mem_append, List.mem_map,
        List.not_mem_nil, or_false, Prod.mk.injEq, Key.mk.injEq, List.nil_append] at hv'
      rcases hv' with ⟨⟨h, _⟩, _⟩ | ⟨c2, hc2, ⟨_, h2⟩, h⟩ | ⟨⟨h, _⟩, _⟩
      · exact absurd h (by decide)
      · simp at h2
        rw [← h, ho c2 hc2 c hc h2]
      · exact absurd h (by decide)

/-- **C99 is false as stated**: once a machine is gone, its series stay as they were, whatever is scraped afterwards. -/
theorem C99_gone_false (s : Store) (ms : List Mach) (frozen : Bool) (hd : DistinctBy (fun m => (m.name, m.ns)) ms) (m : Mach) (hm : m ∈ ms)
    (later : List (List Mach)) (hl : ∀ p ∈ later, ∀ x ∈ p, (x.name, x.ns) ≠ (m.name, m.ns)) :
    (later.foldl (fun s p => (scrapeMachines s p frozen).1) (scrapeMachines s ms frozen).1) ⟨"machine_current_status_phase", ident m.name m.ns⟩ =
      some (phaseCode m.phase) := by
  have hfirst : (scrapeMachines s ms frozen).1 ⟨"machine_current_status_phase", ident m.name m.ns⟩ = some (phaseCode m.phase) := by
    apply flat_mem Mach.writes (fun m => (m.name, m.ns)) ms hd (fun a _ w hw => a.keys w hw) s m hm
    · simp [Mach.writes, Mach.phaseKey, who, ident]
    · intro v' hv'
      simp only [Mach.writes, condWrites, Mach.info, Mach.phaseKey, who, ident, List.cons_append, List.mem_cons, List.mem_append, List.mem_map,
        List.not_mem_nil, or_false, Prod.mk.injEq, Key.mk.injEq] at hv'
      rcases hv' with ⟨⟨h, _⟩, _⟩ | ⟨c, _, ⟨h, _⟩, _⟩ | ⟨_, h⟩
      · exact absurd h (by decide)
      · exact absurd h (by decide)
      · exact h
  have : ∀ (later : List (List Mach)) (t : Store), (∀ p ∈ later, ∀ x ∈ p, (x.name, x.ns) ≠ (m.name, m.ns)) →
      t ⟨"machine_current_status_phase", ident m.name m.ns⟩ = some (phaseCode m.phase) →
      (later.foldl (fun s p => (scrapeMachines s p frozen).1) t) ⟨"machine_current_status_phase", ident m.name m.ns⟩ = some (phaseCode m.phase) := by
    intro later
    induction later with
    | nil => intro t _ h; exact h
    | cons p ps ih =>
      intro t hp h
      apply ih _ fun q hq => hp q (List.mem_cons_of_mem _ hq)
      show t.apply (p.flatMap Mach.writes) _ = _
      rw [apply_not, h]
      intro w hw he
      obtain ⟨x, hx, hxw⟩ := List.mem_flatMap.1 hw
      have := x.keys w hxw
      rw [he] at this
      exact hp p List.mem_cons_self x hx (ident_inj this).symm
  exact this later _ hl hfirst

/-- **C99 is false as stated**: a machine that gets its provider id between two scrapes has two info series. -/
theorem C99_info_false : ∃ (m m' : Mach) (s : Store), m.name = m'.name ∧ m.info ≠ m'.info ∧ s m.info = none ∧
    let t := (scrapeMachines (scrapeMachines s [m] false).1 [m'] false).1
    t m.info = some 1 ∧ t m'.info = some 1 :=
  ⟨{ name := "m" }, { name := "m", pid := "p" }, fun _ => none, rfl, by decide, rfl, by decide +kernel, by decide +kernel⟩

/-- **C99 is false as stated**: an Available machine and a machine in an in-place update are shown like a pending one. -/
theorem C99_phase_false (s : Store) (frozen : Bool) (p : Phase)
    (hp : p ∈ [Phase.empty, .pending, .available, .inPlaceUpdating, .inPlaceUpdateSuccessful, .inPlaceUpdateFailed]) :
    (scrapeMachines s [{ name := "m", phase := p }] frozen).1 ⟨"machine_current_status_phase", ident "m" "ns"⟩ = some 0 := by
  simp only [List.mem_cons, List.not_mem_nil, or_false] at hp
  rcases hp with rfl | rfl | rfl | rfl | rfl | rfl <;>
    simp [scrapeMachines, Mach.writes, condWrites, Store.apply, Store.set, Mach.phaseKey, phaseCode, who, ident]

/-! ### Machine sets and deployments -/

/-- The strategy parameters a scrape reads are present -/
def Complete (d : MDep) : Prop := d.strategy = "RollingUpdate" → ∃ su u, d.rolling = some (some su, some u)

theorem rollingWrites_some (d : MDep) : (∃ r, d.rollingWrites = some r) ↔ Complete d := by
  unfold MDep.rollingWrites Complete
  by_cases h : d.strategy = "RollingUpdate"
  · rw [if_pos h]
    constructor
    · rintro ⟨r, hr⟩ _
      rcases hd : d.rolling with _ | ⟨_ | su, _ | u⟩
      · rw [hd] at hr; exact absurd hr (by simp)
      · rw [hd] at hr; exact absurd hr (by simp)
      · rw [hd] at hr; exact absurd hr (by simp)
      · rw [hd] at hr; exact absurd hr (by simp)
      · exact ⟨su, u, rfl⟩
    · intro hc
      obtain ⟨su, u, hd⟩ := hc h
      exact ⟨_, by rw [hd]⟩
  · rw [if_neg h]
    exact ⟨fun _ hh => absurd hh h, fun _ => ⟨[], rfl⟩⟩

theorem depWrites_some : ∀ (ds : List MDep), (∃ r, depWrites ds = some r) ↔ ∀ d ∈ ds, Complete d
  | [] => ⟨fun _ d hd => absurd hd List.not_mem_nil, fun _ => ⟨[], rfl⟩⟩
  | d :: ds => by
    have ih := depWrites_some ds
    have hd := rollingWrites_some d
    unfold depWrites MDep.writes
    constructor
    · rintro ⟨r, hr⟩
      cases h1 : d.rollingWrites with
      | none => rw [h1] at hr; simp at hr
      | some w =>
        cases h2 : depWrites ds with
        | none => rw [h1, h2] at hr; simp at hr
        | some w2 =>
          intro x hx
          rcases List.mem_cons.1 hx with rfl | hx
          · exact hd.1 ⟨w, h1⟩
          · exact ih.1 ⟨w2, h2⟩ x hx
    · intro h
      obtain ⟨w, h1⟩ := hd.2 (h d List.mem_cons_self)
      obtain ⟨w2, h2⟩ := ih.2 fun x hx => h x (List.mem_cons_of_mem _ hx)
      exact ⟨_, by rw [h1, h2]; rfl⟩

/-- **C99**, exactly when a scrape is survived: every deployment with strategy RollingUpdate sets both parameters. -/
theorem C99_survives_partial (s : Store) (sets : List MSet) (deps : List MDep) :
    scrape s sets deps ≠ none ↔ ∀ d ∈ deps, d.strategy = "RollingUpdate" → ∃ su u, d.rolling = some (some su, some u) := by
  refine Iff.trans ?_ (depWrites_some deps)
  unfold scrape
  cases depWrites deps with
  | none => simp
  | some w => simp

/-- **C99 is false as stated**: a deployment that leaves out `rollingUpdate`, or one of its two optional parameters, ends the process at the next
scrape, whatever else exists. -/
theorem C99_crash_false (s : Store) (sets : List MSet) (deps : List MDep) (d : MDep) (hd : d ∈ deps) (hs : d.strategy = "RollingUpdate")
    (hr : d.rolling = none ∨ (∃ u, d.rolling = some (none, u)) ∨ ∃ su, d.rolling = some (su, none)) : scrape s sets deps = none := by
  cases h : scrape s sets deps with
  | none => rfl
  | some x =>
    obtain ⟨su, u, hx⟩ := (C99_survives_partial s sets deps).1 (by rw [h]; simp) d hd hs
    rcases hr with hr | ⟨_, hr⟩ | ⟨_, hr⟩ <;> rw [hr] at hx <;> simp at hx

theorem MSet.func (s : MSet) (ho : OneEach s.conds) : ∀ k v v', (k, v) ∈ s.writes → (k, v') ∈ s.writes → v' = v := by
  intro k v v' h h'
  simp only [MSet.writes, List.cons_append, List.mem_cons, List.mem_append, condWrites, List.mem_map, List.not_mem_nil, or_false, List.nil_append,
    or_assoc, Prod.mk.injEq] at h h'
  rcases h with ⟨rfl, rfl⟩ | ⟨rfl, rfl⟩ | ⟨rfl, rfl⟩ | ⟨c, hc, rfl, rfl⟩ | ⟨f, _, rfl, rfl⟩ | ⟨rfl, rfl⟩ | ⟨rfl, rfl⟩ | ⟨rfl, rfl⟩ | ⟨rfl, rfl⟩ <;>
  rcases h' with ⟨hk, hv⟩ | ⟨hk, hv⟩ | ⟨hk, hv⟩ | ⟨c', hc', hk, hv⟩ | ⟨f', _, hk, hv⟩ | ⟨hk, hv⟩ | ⟨hk, hv⟩ | ⟨hk, hv⟩ | ⟨hk, hv⟩ <;>
  first
  | exact hv
  | exact hv.symm
  | (simp only [Key.mk.injEq, true_and, who, List.cons_append, List.nil_append, List.cons.injEq, Prod.mk.injEq, and_true] at hk
     rw [← hv, ho c' hc' c hc hk])
  | exact absurd (congrArg Key.metric hk) (by simp [MSet.info, MSet.key, failedKey])

theorem MDep.mem_writes {d : MDep} {w : List (Key × Int)} (hw : d.writes = some w) (k : Key) (v : Int) (h : (k, v) ∈ w) :
    (k = d.info ∧ v = 1) ∨ (k = d.key "machine_deployment_info_spec_paused" ∧ v = if d.paused then 1 else 0) ∨
    (k = d.key "machine_deployment_info_spec_replicas" ∧ v = d.spec) ∨ (k = d.key "machine_deployment_info_spec_min_ready_seconds" ∧ v = d.minReady) ∨
    (k = d.key "machine_deployment_info_spec_rolling_update_max_surge" ∧ d.strategy = "RollingUpdate" ∧
      ∃ x y, d.rolling = some (some x, some y) ∧ v = intValue x) ∨
    (k = d.key "machine_deployment_info_spec_rolling_update_max_unavailable" ∧ d.strategy = "RollingUpdate" ∧
      ∃ x y, d.rolling = some (some x, some y) ∧ v = intValue y) ∨
    (k = d.key "machine_deployment_info_spec_revision_history_limit" ∧ d.history = some v) ∨
    (k = d.key "machine_deployment_info_spec_progress_deadline_seconds" ∧ d.deadline = some v) ∨
    (k = d.key "machine_deployment_info_spec_rollback_to_revision" ∧ d.rollbackTo = some v) ∨
    (∃ c ∈ d.conds, k = ⟨"machine_deployment_status_condition", who d.name d.ns ++ [("condition", c.1)]⟩ ∧ v = condCode c.2) ∨
    (∃ f ∈ d.failed, k = failedKey "machine_deployment_failed_machines" d.name d.ns f ∧ v = 1) ∨
    (k = d.key "machine_deployment_status_available_replicas" ∧ v = d.available) ∨
    (k = d.key "machine_deployment_status_unavailable_replicas" ∧ v = d.unavailable) ∨
    (k = d.key "machine_deployment_status_ready_replicas" ∧ v = d.ready) ∨
    (k = d.key "machine_deployment_status_updated_replicas" ∧ v = d.updated) ∨
    (k = d.key "machine_deployment_status_replicas" ∧ v = d.replicas) ∨
    (k = d.key "machine_deployment_status_collision_count" ∧ d.collisions = some v) := by
  have hopt : ∀ m o, (k, v) ∈ d.optional m o → k = d.key m ∧ o = some v := by
    intro m o ho
    unfold MDep.optional at ho
    cases o with
    | none => simp at ho
    | some n =>
      simp only [Option.toList, List.map_cons, List.map_nil, List.mem_cons, List.not_mem_nil, or_false, Prod.mk.injEq] at ho
      exact ⟨ho.1, by rw [ho.2]⟩
  unfold MDep.writes at hw
  obtain ⟨r, hr, rfl⟩ := Option.map_eq_some_iff.1 hw
  rcases List.mem_append.1 h with h | h
  · rcases List.mem_append.1 h with h | h
    · simp only [MDep.before, List.mem_cons, List.not_mem_nil, or_false, Prod.mk.injEq] at h
      rcases h with h | h | h | h
      · exact Or.inl h
      · exact Or.inr (Or.inl h)
      · exact Or.inr (Or.inr (Or.inl h))
      · exact Or.inr (Or.inr (Or.inr (Or.inl h)))
    · unfold MDep.rollingWrites at hr
      by_cases hs : d.strategy = "RollingUpdate"
      · rw [if_pos hs] at hr
        obtain ⟨x, y, hxy⟩ := (rollingWrites_some d).1 ⟨r, by unfold MDep.rollingWrites; rw [if_pos hs]; exact hr⟩ hs
        rw [hxy] at hr
        simp only [Option.some.injEq] at hr
        rw [← hr] at h
        simp only [List.mem_cons, List.not_mem_nil, or_false, Prod.mk.injEq] at h
        rcases h with h | h
        · exact Or.inr (Or.inr (Or.inr (Or.inr (Or.inl ⟨h.1, hs, x, y, hxy, h.2⟩))))
        · exact Or.inr (Or.inr (Or.inr (Or.inr (Or.inr (Or.inl ⟨h.1, hs, x, y, hxy, h.2⟩)))))
      · rw [if_neg hs] at hr
        simp only [Option.some.injEq] at hr
        rw [← hr] at h
        simp at h
  · unfold MDep.rest at h
    simp only [List.mem_append, or_assoc] at h
    refine Or.inr (Or.inr (Or.inr (Or.inr (Or.inr (Or.inr ?_)))))
    rcases h with h | h | h | h | h | h | h
    · exact Or.inl (hopt _ _ h)
    · exact Or.inr (Or.inl (hopt _ _ h))
    · exact Or.inr (Or.inr (Or.inl (hopt _ _ h)))
    · obtain ⟨c, hc, he⟩ := List.mem_map.1 h
      rw [Prod.mk.injEq] at he
      exact Or.inr (Or.inr (Or.inr (Or.inl ⟨c, hc, he.1.symm, he.2.symm⟩)))
    · obtain ⟨c, hc, he⟩ := List.mem_map.1 h
      rw [Prod.mk.injEq] at he
      exact Or.inr (Or.inr (Or.inr (Or.inr (Or.inl ⟨c, hc, he.1.symm, he.2.symm⟩))))
    · simp only [List.mem_cons, List.not_mem_nil, or_false, Prod.mk.injEq] at h
      refine Or.inr (Or.inr (Or.inr (Or.inr (Or.inr ?_))))
      rcases h with h | h | h | h | h
      · exact Or.inl h
      · exact Or.inr (Or.inl h)
      · exact Or.inr (Or.inr (Or.inl h))
      · exact Or.inr (Or.inr (Or.inr (Or.inl h)))
      · exact Or.inr (Or.inr (Or.inr (Or.inr (Or.inl h))))
    · exact Or.inr (Or.inr (Or.inr (Or.inr (Or.inr (Or.inr (Or.inr (Or.inr (Or.inr (Or.inr (hopt _ _ h))))))))))

theorem MDep.func {d : MDep} {w : List (Key × Int)} (hw : d.writes = some w) (ho : OneEach d.conds) :
    ∀ k v v', (k, v) ∈ w → (k, v') ∈ w → v' = v := by
  intro k v v' h h'
  rcases MDep.mem_writes hw k v h with ⟨hk, hv⟩ | ⟨hk, hv⟩ | ⟨hk, hv⟩ | ⟨hk, hv⟩ | ⟨hk, _, x, y, hx, hv⟩ | ⟨hk, _, x, y, hx, hv⟩ | ⟨hk, hv⟩ | ⟨hk, hv⟩ |
      ⟨hk, hv⟩ | ⟨c, hc, hk, hv⟩ | ⟨f, _, hk, hv⟩ | ⟨hk, hv⟩ | ⟨hk, hv⟩ | ⟨hk, hv⟩ | ⟨hk, hv⟩ | ⟨hk, hv⟩ | ⟨hk, hv⟩ <;>
  rcases MDep.mem_writes hw k v' h' with ⟨hk', hv'⟩ | ⟨hk', hv'⟩ | ⟨hk', hv'⟩ | ⟨hk', hv'⟩ | ⟨hk', _, x', y', hx', hv'⟩ | ⟨hk', _, x', y', hx', hv'⟩ |
      ⟨hk', hv'⟩ | ⟨hk', hv'⟩ | ⟨hk', hv'⟩ | ⟨c', hc', hk', hv'⟩ | ⟨f', _, hk', hv'⟩ | ⟨hk', hv'⟩ | ⟨hk', hv'⟩ | ⟨hk', hv'⟩ | ⟨hk', hv'⟩ | ⟨hk', hv'⟩ |
      ⟨hk', hv'⟩ <;>
  first
  | exact hv'.trans hv.symm
  | exact Option.some.inj (hv'.symm.trans hv)
  | (have e := congrArg Key.metric (hk.symm.trans hk'); simp [MDep.info, MDep.key, failedKey] at e; done)
  | (have e := Option.some.inj (hx.symm.trans hx'); simp only [Prod.mk.injEq, Option.some.injEq] at e; rw [hv, hv', e.1]; done)
  | (have e := Option.some.inj (hx.symm.trans hx'); simp only [Prod.mk.injEq, Option.some.injEq] at e; rw [hv, hv', e.2]; done)
  | (have hk2 := hk'.symm.trans hk
     simp only [Key.mk.injEq, true_and, who, List.cons_append, List.nil_append, List.cons.injEq, Prod.mk.injEq, and_true] at hk2
     rw [hv, hv', ho c' hc' c hc hk2])

theorem MDep.keys {d : MDep} {w : List (Key × Int)} (hw : d.writes = some w) : ∀ x ∈ w, x.1.labels.take 2 = ident d.name d.ns ∧
    x.1.metric ∉ ["machine_set_info", "machine_set_info_spec_replicas", "machine_set_info_spec_min_ready_seconds", "machine_set_status_condition",
      "machine_set_failed_machines", "machine_set_status_available_replicas", "machine_set_status_fully_labelled_replicas",
      "machine_set_status_ready_replicas", "machine_set_status_replicas"] := by
  intro x hx
  rcases MDep.mem_writes hw x.1 x.2 hx with ⟨hk, _⟩ | ⟨hk, _⟩ | ⟨hk, _⟩ | ⟨hk, _⟩ | ⟨hk, _⟩ | ⟨hk, _⟩ | ⟨hk, _⟩ | ⟨hk, _⟩ | ⟨hk, _⟩ | ⟨c, _, hk, _⟩ |
      ⟨f, _, hk, _⟩ | ⟨hk, _⟩ | ⟨hk, _⟩ | ⟨hk, _⟩ | ⟨hk, _⟩ | ⟨hk, _⟩ | ⟨hk, _⟩ <;> rw [hk] <;> refine ⟨rfl, ?_⟩ <;>
    simp [MDep.info, MDep.key, failedKey]

theorem depWrites_flat : ∀ (ds : List MDep) (w : List (Key × Int)), depWrites ds = some w →
    w = ds.flatMap (fun d => d.writes.getD []) ∧ ∀ d ∈ ds, ∃ x, d.writes = some x
  | [], w, h => by
    simp only [depWrites, Option.some.injEq] at h
    exact ⟨h.symm, fun _ hd => absurd hd List.not_mem_nil⟩
  | d :: ds, w, h => by
    unfold depWrites at h
    obtain ⟨a, ha, h⟩ := Option.bind_eq_some_iff.1 h
    obtain ⟨b, hb, rfl⟩ := Option.map_eq_some_iff.1 h
    obtain ⟨h1, h2⟩ := depWrites_flat ds b hb
    refine ⟨by rw [List.flatMap_cons, ← h1, ha]; rfl, ?_⟩
    intro x hx
    rcases List.mem_cons.1 hx with rfl | hx
    · exact ⟨a, ha⟩
    · exact h2 x hx

/-- What is shown of a machine set -/
structure SetShown (t : Store) (x : MSet) : Prop where
  info : t ⟨"machine_set_info", ident x.name x.ns ++ [("createdAt", toString x.created), ("spec_machine_class_api_group", x.group), ("spec_machine_class_kind", x.kind),
    ("spec_machine_class_name", x.cls)]⟩ = some 1
  spec : t ⟨"machine_set_info_spec_replicas", ident x.name x.ns⟩ = some x.spec
  minReady : t ⟨"machine_set_info_spec_min_ready_seconds", ident x.name x.ns⟩ = some x.minReady
  available : t ⟨"machine_set_status_available_replicas", ident x.name x.ns⟩ = some x.available
  fullyLabeled : t ⟨"machine_set_status_fully_labelled_replicas", ident x.name x.ns⟩ = some x.fullyLabeled
  ready : t ⟨"machine_set_status_ready_replicas", ident x.name x.ns⟩ = some x.ready
  conds : ∀ c ∈ x.conds, ∃ n, t ⟨"machine_set_status_condition", ident x.name x.ns ++ [("condition", c.1)]⟩ = some n ∧ CondNumber c.2 n
  failed : ∀ f ∈ x.failed, t ⟨"machine_set_failed_machines", ident x.name x.ns ++ [("failed_machine_name", f.name),
    ("failed_machine_provider_id", f.pid), ("failed_machine_last_operation_state", f.state),
    ("failed_machine_last_operation_machine_operation_type", f.type), ("failed_machine_owner_ref", f.owner)]⟩ = some 1

/-- What is shown of a machine deployment -/
structure DepShown (t : Store) (d : MDep) : Prop where
  info : t ⟨"machine_deployment_info", ident d.name d.ns ++ [("createdAt", toString d.created), ("spec_strategy_type", d.strategy)]⟩ = some 1
  paused : t ⟨"machine_deployment_info_spec_paused", ident d.name d.ns⟩ = some (if d.paused = true then 1 else 0)
  spec : t ⟨"machine_deployment_info_spec_replicas", ident d.name d.ns⟩ = some d.spec
  minReady : t ⟨"machine_deployment_info_spec_min_ready_seconds", ident d.name d.ns⟩ = some d.minReady
  surge : ∀ n u, d.strategy = "RollingUpdate" → d.rolling = some (some (.int n), u) →
    t ⟨"machine_deployment_info_spec_rolling_update_max_surge", ident d.name d.ns⟩ = some n
  unavailableMax : ∀ n u, d.strategy = "RollingUpdate" → d.rolling = some (u, some (.int n)) →
    t ⟨"machine_deployment_info_spec_rolling_update_max_unavailable", ident d.name d.ns⟩ = some n
  history : ∀ n, d.history = some n → t ⟨"machine_deployment_info_spec_revision_history_limit", ident d.name d.ns⟩ = some n
  deadline : ∀ n, d.deadline = some n → t ⟨"machine_deployment_info_spec_progress_deadline_seconds", ident d.name d.ns⟩ = some n
  rollbackTo : ∀ n, d.rollbackTo = some n → t ⟨"machine_deployment_info_spec_rollback_to_revision", ident d.name d.ns⟩ = some n
  collisions : ∀ n, d.collisions = some n → t ⟨"machine_deployment_status_collision_count", ident d.name d.ns⟩ = some n
  replicas : t ⟨"machine_deployment_status_replicas", ident d.name d.ns⟩ = some d.replicas
  updated : t ⟨"machine_deployment_status_updated_replicas", ident d.name d.ns⟩ = some d.updated
  ready : t ⟨"machine_deployment_status_ready_replicas", ident d.name d.ns⟩ = some d.ready
  available : t ⟨"machine_deployment_status_available_replicas", ident d.name d.ns⟩ = some d.available
  unavailable : t ⟨"machine_deployment_status_unavailable_replicas", ident d.name d.ns⟩ = some d.unavailable
  conds : ∀ c ∈ d.conds, ∃ n, t ⟨"machine_deployment_status_condition", ident d.name d.ns ++ [("condition", c.1)]⟩ = some n ∧ CondNumber c.2 n
  failed : ∀ f ∈ d.failed, t ⟨"machine_deployment_failed_machines", ident d.name d.ns ++ [("failed_machine_name", f.name),
    ("failed_machine_provider_id", f.pid), ("failed_machine_last_operation_state", f.state),
    ("failed_machine_last_operation_machine_operation_type", f.type), ("failed_machine_owner_ref", f.owner)]⟩ = some 1

/-- The value a machine set writes is the value shown. -/
theorem set_value (s t : Store) (sets : List MSet) (deps : List MDep) (a b : Nat) (h : scrape s sets deps = some (t, a, b))
    (hd : DistinctBy (fun x => (x.name, x.ns)) sets) (x : MSet) (hx : x ∈ sets) (ho : OneEach x.conds) (k : Key) (v : Int) (hm : (k, v) ∈ x.writes) :
    t k = some v := by
  unfold scrape at h
  obtain ⟨w, hw, he⟩ := Option.map_eq_some_iff.1 h
  obtain ⟨h1, h2⟩ := depWrites_flat deps w hw
  rw [Prod.mk.injEq] at he
  rw [← he.1, apply_not]
  · exact flat_mem MSet.writes (fun x => (x.name, x.ns)) sets hd (fun a _ w hw => (a.keys w hw).1) s x hx k v hm
      (fun v' hv' => x.func ho k v v' hm hv')
  · intro y hy hyk
    rw [h1] at hy
    obtain ⟨d, hdm, hyd⟩ := List.mem_flatMap.1 hy
    obtain ⟨z, hz⟩ := h2 d hdm
    rw [hz] at hyd
    have := (MDep.keys hz y hyd).2
    rw [hyk] at this
    exact this (x.keys _ hm).2

/-- The value a deployment writes is the value shown. -/
theorem dep_value (s t : Store) (sets : List MSet) (deps : List MDep) (a b : Nat) (h : scrape s sets deps = some (t, a, b))
    (hd : DistinctBy (fun x => (x.name, x.ns)) deps) (d : MDep) (hx : d ∈ deps) (ho : OneEach d.conds) :
    ∃ w, d.writes = some w ∧ ∀ k v, (k, v) ∈ w → t k = some v := by
  unfold scrape at h
  obtain ⟨w, hw, he⟩ := Option.map_eq_some_iff.1 h
  obtain ⟨h1, h2⟩ := depWrites_flat deps w hw
  rw [Prod.mk.injEq] at he
  obtain ⟨z, hz⟩ := h2 d hx
  refine ⟨z, hz, ?_⟩
  intro k v hm
  rw [← he.1, h1]
  refine flat_mem (fun d => d.writes.getD []) (fun x => (x.name, x.ns)) deps hd ?_ _ d hx k v (by rw [hz]; exact hm)
    (fun v' hv' => MDep.func hz ho k v v' hm (by rw [hz] at hv'; exact hv'))
  intro e he y hy
  obtain ⟨ze, hze⟩ := h2 e he
  rw [hze] at hy
  exact (MDep.keys hze y hy).1

/-- **C99**, machine sets and deployments: a scrape that is survived shows the numbers of objects, and of every object its current counts,
parameters, conditions and failed machines. -/
theorem C99_objects_partial (s t : Store) (sets : List MSet) (deps : List MDep) (a b : Nat) (h : scrape s sets deps = some (t, a, b))
    (hs : DistinctBy (fun x => (x.name, x.ns)) sets) (hd : DistinctBy (fun x => (x.name, x.ns)) deps) :
    a = sets.length ∧ b = deps.length ∧ (∀ x ∈ sets, OneEach x.conds → SetShown t x) ∧ ∀ d ∈ deps, OneEach d.conds → DepShown t d := by
  refine ⟨?_, ?_, ?_, ?_⟩
  · unfold scrape at h
    obtain ⟨w, _, he⟩ := Option.map_eq_some_iff.1 h
    simp only [Prod.mk.injEq] at he
    exact he.2.1.symm
  · unfold scrape at h
    obtain ⟨w, _, he⟩ := Option.map_eq_some_iff.1 h
    simp only [Prod.mk.injEq] at he
    exact he.2.2.symm
  · intro x hx ho
    have key := set_value s t sets deps a b h hs x hx ho
    refine ⟨?_, ?_, ?_, ?_, ?_, ?_, ?_, ?_⟩
    · exact key _ _ (by simp [MSet.writes, MSet.info, who, ident])
    · exact key _ _ (by simp [MSet.writes, MSet.key, who, ident])
    · exact key _ _ (by simp [MSet.writes, MSet.key, who, ident])
    · exact key _ _ (by simp [MSet.writes, MSet.key, who, ident])
    · exact key _ _ (by simp [MSet.writes, MSet.key, who, ident])
    · exact key _ _ (by simp [MSet.writes, MSet.key, who, ident])
    · intro c hc
      refine ⟨condCode c.2, key _ _ ?_, condCode_number _⟩
      simp only [MSet.writes, condWrites, List.mem_append, List.mem_map]
      exact Or.inl (Or.inl (Or.inr ⟨c, hc, rfl⟩))
    · intro f hf
      refine key _ _ ?_
      simp only [MSet.writes, List.mem_append, List.mem_map]
      exact Or.inl (Or.inr ⟨f, hf, rfl⟩)
  · intro d hdm ho
    obtain ⟨w, hw, key⟩ := dep_value s t sets deps a b h hd d hdm ho
    obtain ⟨r, hr, rfl⟩ := Option.map_eq_some_iff.1 hw
    have hroll : ∀ x y, d.strategy = "RollingUpdate" → d.rolling = some (some x, some y) →
        r = [(d.key "machine_deployment_info_spec_rolling_update_max_surge", intValue x),
          (d.key "machine_deployment_info_spec_rolling_update_max_unavailable", intValue y)] := by
      intro x y h1 h2
      unfold MDep.rollingWrites at hr
      rw [if_pos h1, h2] at hr
      exact (Option.some.inj hr).symm
    have hboth := (rollingWrites_some d).1 ⟨r, hr⟩
    refine ⟨?_, ?_, ?_, ?_, ?_, ?_, ?_, ?_, ?_, ?_, ?_, ?_, ?_, ?_, ?_, ?_, ?_⟩
    · exact key _ _ (by simp [MDep.before, MDep.info, who, ident])
    · exact key _ _ (by simp [MDep.before, MDep.key, who, ident])
    · exact key _ _ (by simp [MDep.before, MDep.key, who, ident])
    · exact key _ _ (by simp [MDep.before, MDep.key, who, ident])
    · intro n u h1 h2
      obtain ⟨x, y, hxy⟩ := hboth h1
      have hx : x = .int n := by rw [h2] at hxy; simp at hxy; exact hxy.1.symm
      subst hx
      exact key _ _ (by rw [hroll _ y h1 hxy]; simp [MDep.key, who, ident, intValue])
    · intro n u h1 h2
      obtain ⟨x, y, hxy⟩ := hboth h1
      have hy : y = .int n := by rw [h2] at hxy; simp at hxy; exact hxy.2.symm
      subst hy
      exact key _ _ (by rw [hroll x _ h1 hxy]; simp [MDep.key, who, ident, intValue])
    · intro n hn
      exact key _ _ (by simp [MDep.rest, MDep.optional, hn, MDep.key, who, ident])
    · intro n hn
      exact key _ _ (by simp [MDep.rest, MDep.optional, hn, MDep.key, who, ident])
    · intro n hn
      exact key _ _ (by simp [MDep.rest, MDep.optional, hn, MDep.key, who, ident])
    · intro n hn
      exact key _ _ (by simp [MDep.rest, MDep.optional, hn, MDep.key, who, ident])
    · exact key _ _ (by simp [MDep.rest, MDep.key, who, ident])
    · exact key _ _ (by simp [MDep.rest, MDep.key, who, ident])
    · exact key _ _ (by simp [MDep.rest, MDep.key, who, ident])
    · exact key _ _ (by simp [MDep.rest, MDep.key, who, ident])
    · exact key _ _ (by simp [MDep.rest, MDep.key, who, ident])
    · intro c hc
      refine ⟨condCode c.2, key _ _ ?_, condCode_number _⟩
      simp only [MDep.rest, condWrites, List.mem_append, List.mem_map]
      exact Or.inr (Or.inl (Or.inl (Or.inl (Or.inr ⟨c, hc, rfl⟩))))
    · intro f hf
      refine key _ _ ?_
      simp only [MDep.rest, List.mem_append, List.mem_map]
      exact Or.inr (Or.inl (Or.inl (Or.inr ⟨f, hf, rfl⟩)))

/-- **C99 is false as stated**: the series `status_replicas` of a machine set shows its ready replicas. -/
theorem C99_replicas_false (s t : Store) (sets : List MSet) (deps : List MDep) (a b : Nat) (h : scrape s sets deps = some (t, a, b))
    (hs : DistinctBy (fun x => (x.name, x.ns)) sets) (x : MSet) (hx : x ∈ sets) (ho : OneEach x.conds) :
    t ⟨"machine_set_status_replicas", ident x.name x.ns⟩ = some x.ready :=
  set_value s t sets deps a b h hs x hx ho _ _ (by simp [MSet.writes, MSet.key, who, ident])

theorem digitsVal_percent (cs : List Char) (h : '%' ∈ cs) : digitsVal cs = none := by
  cases cs with
  | nil => rfl
  | cons c cs =>
    show (if (c :: cs).all Char.isDigit then _ else none) = none
    rw [if_neg]
    intro ha
    have := List.all_eq_true.1 ha '%' h
    exact absurd this (by decide)

theorem intValue_percent (p : String) (h : '%' ∈ p.toList) : intValue (.str p) = 0 := by
  have : atoi p = none := by
    unfold atoi
    split
    · rename_i ds he
      rw [he] at h
      rw [digitsVal_percent ds (by rcases List.mem_cons.1 h with h | h; exact absurd h (by decide); exact h)]; rfl
    · rename_i ds he
      rw [he] at h
      rw [digitsVal_percent ds (by rcases List.mem_cons.1 h with h | h; exact absurd h (by decide); exact h)]; rfl
    · rw [digitsVal_percent _ h]; rfl
  show (atoi p).getD 0 = 0
  rw [this]; rfl

/-- **C99 is false as stated**: a surge given as a percentage is shown as 0, whatever the percentage. -/
theorem C99_percent_false (s t : Store) (sets : List MSet) (deps : List MDep) (a b : Nat) (h : scrape s sets deps = some (t, a, b))
    (hd : DistinctBy (fun x => (x.name, x.ns)) deps) (d : MDep) (hdm : d ∈ deps) (ho : OneEach d.conds) (p : String) (u : Option Rolling.IntOrStr)
    (hs : d.strategy = "RollingUpdate") (hr : d.rolling = some (some (.str p), u)) (hp : '%' ∈ p.toList) :
    t ⟨"machine_deployment_info_spec_rolling_update_max_surge", ident d.name d.ns⟩ = some 0 := by
  obtain ⟨w, hw, key⟩ := dep_value s t sets deps a b h hd d hdm ho
  obtain ⟨r, hrw, rfl⟩ := Option.map_eq_some_iff.1 hw
  obtain ⟨x, y, hxy⟩ := (rollingWrites_some d).1 ⟨r, hrw⟩ hs
  have hx : x = .str p := by rw [hr] at hxy; simp at hxy; exact hxy.1.symm
  subst hx
  unfold MDep.rollingWrites at hrw
  rw [if_pos hs, hxy] at hrw
  have hrr := (Option.some.inj hrw).symm
  apply key
  rw [hrr, intValue_percent p hp]
  simp [MDep.key, who, ident]

/-- **C99 is false as stated**: a deadline that was removed from a deployment is still shown. -/
theorem C99_optional_false : ∃ (d d' : MDep) (t u : Store) (n : Int), d.name = d'.name ∧ d'.deadline = none ∧
    scrape (fun _ => none) [] [d] = some (t, 0, 1) ∧ scrape t [] [d'] = some (u, 0, 1) ∧
    u ⟨"machine_deployment_info_spec_progress_deadline_seconds", ident d.name d.ns⟩ = some n := by
  refine ⟨{ name := "d", strategy := "Recreate", deadline := some 600 }, { name := "d", strategy := "Recreate" }, _, _, 600, rfl, rfl, rfl, rfl, ?_⟩
  decide +kernel

/-- Both scrapes above are survived and the hypotheses of the theorems hold for a set and a deployment with content. -/
example : ∃ t, scrape (fun _ => none) [{ name := "s", ready := 1, replicas := 3, conds := [("ReplicaFailure", "True")] }]
      [{ name := "d", rolling := some (some (.str "20%"), some (.int 1)) }] = some (t, 1, 1) ∧
    t ⟨"machine_set_status_replicas", ident "s" "ns"⟩ = some 1 ∧ t ⟨"machine_set_status_condition", ident "s" "ns" ++ [("condition", "ReplicaFailure")]⟩ = some 1 ∧
    t ⟨"machine_deployment_info_spec_rolling_update_max_surge", ident "d" "ns"⟩ = some 0 ∧
    t ⟨"machine_deployment_info_spec_rolling_update_max_unavailable", ident "d" "ns"⟩ = some 1 :=
  ⟨_, rfl, by decide +kernel, by decide +kernel, by decide +kernel, by decide +kernel⟩

example : DistinctBy (fun m : Mach => (m.name, m.ns)) [{ name := "a" }, { name := "b" }] := by unfold DistinctBy; decide

/-! ### C100: the counter -/

/-- A stale machine was deleted: not marked before, deletion accepted, phase Failed after a health check -/
def removed : Ev → Option String
  | .delete n false true true true => some n
  | _ => none

/-- The machines removed as stale, one entry per deletion -/
def removals (es : List Ev) : List String := es.filterMap removed

theorem step_total (s : Stale) (e : Ev) : (s.step e).shown + (s.step e).pending = s.shown + s.pending + (removed e).toList.length := by
  cases e with
  | scrape => rfl
  | delete n m a f h => cases m <;> cases a <;> cases f <;> cases h <;> simp [Stale.step, removed] <;> omega

/-- **C100**: over any interleaving of deletions and scrapes no deletion is lost and none is counted twice; right after a scrape the counter
shows exactly the number of deletions of stale machines so far; and the counter never falls. -/
theorem C100_counter (es : List Ev) :
    let s := es.foldl Stale.step {}
    s.shown + s.pending = (removals es).length ∧
    (∀ e', (s.step .scrape).shown = (removals es).length ∧ s.shown ≤ (s.step e').shown) := by
  have h : ∀ (es : List Ev) (s : Stale), (es.foldl Stale.step s).shown + (es.foldl Stale.step s).pending = s.shown + s.pending + (removals es).length := by
    intro es
    induction es with
    | nil => intro s; rfl
    | cons e es ih =>
      intro s
      rw [List.foldl_cons, ih, step_total]
      unfold removals
      rw [List.filterMap_cons]
      cases removed e <;> simp <;> omega
  intro s
  have h0 : s.shown + s.pending = (removals es).length := by
    have := h es {}
    simpa using this
  refine ⟨h0, fun e' => ⟨h0, ?_⟩⟩
  cases e' with
  | scrape => exact Nat.le_add_right _ _
  | delete n m a f h => cases m <;> cases a <;> cases f <;> cases h <;> exact Nat.le_refl _

/-- **C100** for machines instead of deletions holds if no machine is deleted twice ... -/
theorem C100_machines_partial (es : List Ev) (h : (removals es).Nodup) :
    ((es.foldl Stale.step {}).step .scrape).shown = (removals es).eraseDups.length := by
  rw [((C100_counter es).2 .scrape).1]
  have : ∀ l : List String, l.Nodup → l.eraseDups = l := by
    intro l
    induction l with
    | nil => intro _; rfl
    | cons a l ih =>
      intro hn
      rw [List.nodup_cons] at hn
      rw [List.eraseDups_cons]
      have hf : l.filter (fun b => !b == a) = l := by
        rw [List.filter_eq_self]
        intro b hb
        have : b ≠ a := fun e => hn.1 (e ▸ hb)
        simpa using this
      rw [hf, ih hn.2]
  rw [this _ h]

/-- ... and **is false as stated**: with a cache that does not show the deletion yet, the second run counts the machine again. -/
theorem C100_twice_false : ∃ es : List Ev, (removals es).eraseDups.length = 1 ∧ ((es.foldl Stale.step {}).step .scrape).shown = 2 :=
  ⟨[.delete "m" false true true true, .delete "m" false true true true], by decide +kernel, by decide +kernel⟩

example : (removals [.delete "a" false true true true, .scrape, .delete "b" false true false true, .delete "c" false true true true]) = ["a", "c"] := by
  decide

end MCM.Metrics
