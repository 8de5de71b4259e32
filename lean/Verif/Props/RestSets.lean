import Verif.Props.SetRun
import Verif.Props.Conditions
import Verif.Model.Lifecycle
/-!
C133 for machine sets and machines.
-/
namespace MCM.Rest
open MCM MCM.SetRun

/-! ### Machine sets -/

/-- the machines of the set -/
def mine (s : SetObj) (cache : List Mach) : List Mach := cache.filter fun m => s.sel m.labels && decide (⟨s.uid, true⟩ ∈ m.owners)

/-- The set has what it wants: every machine is its own and selected, or somebody else's, or neither; its own follow its template, none is failed or marked for
deletion, and the active ones are as many as wanted. -/
structure Served (s : SetObj) (cache : List Mach) : Prop where
  alive : s.deleting = false
  guarded : s.finalizer = true
  one : ∀ m ∈ cache, Claim.OneController m.obj
  sorted : ∀ m ∈ cache, (s.sel m.labels = true ∧ ⟨s.uid, true⟩ ∈ m.owners) ∨ (s.sel m.labels = false ∧ ⟨s.uid, true⟩ ∉ m.owners) ∨
    ∃ u, u ≠ s.uid ∧ ⟨u, true⟩ ∈ m.owners
  follow : ∀ m ∈ mine s cache, m.cached.spec = s.want
  well : ∀ m ∈ mine s cache, m.phase ≠ .failed ∧ List.lookup machinePriorityKey m.annotations ≠ some "1" ∧ List.lookup triggerDeletionKey m.annotations ≠ some "true"
  enough : ((mine s cache).filter fun m => m.phase ≠ .terminating).length = s.replicas

/-- the status tells how many machines there are, and of no failure -/
structure Told (s : SetObj) (ms : List Mach) : Prop where
  seen : s.observed = s.generation
  replicas : s.status.replicas = ms.length
  labelled : s.status.fullyLabeled = (ms.filter fun m => m.fullyLabeled).length
  ready : s.status.ready = (ms.filter fun m => m.phase = .running).length
  available : s.status.available = (ms.filter fun m => m.phase = .running ∨ m.phase = .available).length
  failed : s.status.failed = none ∨ s.status.ready ≠ s.status.replicas
  conds : ∀ c ∈ s.status.conds, c.type ≠ "ReplicaFailure"

theorem claimObject_rest {s : SetObj} {m : Mach} (h1 : Claim.OneController m.obj)
    (h : (s.sel m.labels = true ∧ ⟨s.uid, true⟩ ∈ m.owners) ∨ (s.sel m.labels = false ∧ ⟨s.uid, true⟩ ∉ m.owners) ∨ ∃ u, u ≠ s.uid ∧ ⟨u, true⟩ ∈ m.owners)
    (live : Option Claim.Ctrl) (patch : Claim.Obj → Option Claim.ApiErr) (memo : Option Bool) :
    Claim.claimObject ⟨s.uid, s.deleting⟩ s.sel live patch memo m.obj = ⟨s.sel m.labels && decide (⟨s.uid, true⟩ ∈ m.owners), false, [], memo⟩ := by
  have key := Claim.controllerOf_some m.obj h1
  unfold Claim.claimObject
  rcases h with ⟨ha, hb⟩ | ⟨ha, hb⟩ | ⟨u, hu, hb⟩
  · rw [(key s.uid).2 hb]
    dsimp only
    rw [if_neg (by simp), if_pos (show s.sel m.obj.labels = true from ha), ha, decide_eq_true hb]
    rfl
  · cases hc : Claim.controllerOf m.obj with
    | none =>
      dsimp only
      rw [if_pos (by rw [show s.sel m.obj.labels = false from ha]; simp), ha]
      rfl
    | some u =>
      dsimp only
      rw [if_pos (fun hu => by subst hu; exact hb ((key _).1 hc)), ha]
      rfl
  · rw [(key u).2 hb]
    dsimp only
    have hne : ⟨s.uid, true⟩ ∉ m.owners := fun hx => hu (Option.some.inj (((key u).2 hb).symm.trans ((key s.uid).2 hx)))
    rw [if_pos hu, decide_eq_false hne, Bool.and_false]

theorem claimAll_rest {s : SetObj} {cache : List Mach} (h1 : ∀ m ∈ cache, Claim.OneController m.obj)
    (h : ∀ m ∈ cache, (s.sel m.labels = true ∧ ⟨s.uid, true⟩ ∈ m.owners) ∨ (s.sel m.labels = false ∧ ⟨s.uid, true⟩ ∉ m.owners) ∨ ∃ u, u ≠ s.uid ∧ ⟨u, true⟩ ∈ m.owners)
    (live : Option Claim.Ctrl) (patch : Claim.Obj → Option Claim.ApiErr) (memo : Option Bool) :
    Claim.claimAll ⟨s.uid, s.deleting⟩ s.sel live patch memo (cache.map Mach.obj) = ((mine s cache).map Mach.obj, false, []) := by
  induction cache with
  | nil => rfl
  | cons m l ih =>
    rw [List.map_cons, Claim.claimAll]
    have ih := ih (fun x hx => h1 x (List.mem_cons_of_mem _ hx)) (fun x hx => h x (List.mem_cons_of_mem _ hx))
    rw [claimObject_rest (h1 m (by simp)) (h m (by simp))]
    dsimp only
    rw [ih]
    unfold mine
    rw [List.filter_cons]
    dsimp only
    split <;> rfl

theorem claimed_rest {s : SetObj} {cache : List Mach} (hs : Served s cache) (e : Env) : claimed e s cache = mine s cache := by
  unfold claimed claim
  rw [claimAll_rest hs.one hs.sorted]
  unfold mine
  refine List.filter_congr fun m hm => ?_
  rw [Bool.eq_iff_iff]
  dsimp only
  rw [List.contains_iff_mem, List.mem_map]
  constructor
  · rintro ⟨x, hx, hxm⟩
    have hp := (List.mem_filter.1 hx).2
    rw [show m.labels = m.obj.labels from rfl, show m.owners = m.obj.owners from rfl, ← hxm]
    exact hp
  · intro hp
    exact ⟨m, List.mem_filter.2 ⟨hm, hp⟩, rfl⟩

theorem sync_rest' (f : SyncMachines.Field) (want : SyncMachines.Spec) (att : String → List SyncMachines.Attempt) :
    ∀ ms : List SyncMachines.Mach, (∀ m ∈ ms, m.cached.spec = want) → SyncMachines.sync f want att ms = (ms, true)
  | [], _ => rfl
  | m :: ms, h => by
    have ih := sync_rest' f want att ms fun x hx => h x (List.mem_cons_of_mem _ hx)
    have : SyncMachines.syncOne f want (att m.name) m = (m, true) := by
      unfold SyncMachines.syncOne
      rw [h m (by simp), if_pos rfl]
      split <;> rfl
    rw [SyncMachines.sync, this]
    dsimp only
    rw [ih]
    rfl

theorem propagate_rest {s : SetObj} {cache : List Mach} (hs : Served s cache) (att : SyncMachines.Field → String → List SyncMachines.Attempt) :
    SyncMachines.reconcile s.want att ((mine s cache).map Mach.sync) = ((mine s cache).map Mach.sync, true) := by
  have h : ∀ m ∈ (mine s cache).map Mach.sync, m.cached.spec = s.want := by
    intro m hm
    obtain ⟨x, hx, rfl⟩ := List.mem_map.1 hm
    exact hs.follow x hx
  unfold SyncMachines.reconcile
  rw [sync_rest' _ _ _ _ h]
  dsimp only
  rw [if_pos rfl, sync_rest' _ _ _ _ h]
  dsimp only
  rw [if_pos rfl, sync_rest' _ _ _ _ h]

theorem replicas_rest {s : SetObj} {cache : List Mach} (hs : Served s cache) (e : Env) : replicas e s (mine s cache) = { acts := [] } := by
  unfold replicas
  rw [if_pos (by rw [hs.alive]; rfl)]
  have hst : ((mine s cache).map Mach.view).filter MachineSet.isStale = [] := by
    rw [List.filter_eq_nil_iff]
    intro m hm
    obtain ⟨x, hx, rfl⟩ := List.mem_map.1 hm
    rw [MachineSet.isStale_iff]
    have := hs.well x hx
    unfold MachineSet.SpecStale
    rintro (h | h | h)
    · exact this.1 h
    · exact this.2.1 h
    · exact this.2.2 h
  have hlive : (((mine s cache).map Mach.view).filter MachineSet.isLive).length = s.replicas := by
    rw [← hs.enough, List.filter_map, List.length_map]
    refine congrArg List.length (List.filter_congr fun m hm => ?_)
    have h1 : MachineSet.isStale m.view = false := by
      have := List.filter_eq_nil_iff.1 hst m.view (List.mem_map.2 ⟨m, hm, rfl⟩)
      simpa using this
    have h2 := (hs.well m hm).1
    rw [Bool.eq_iff_iff]
    show (!MachineSet.isStale m.view && isMachineActive m.view) = true ↔ _
    rw [h1]
    simp [isMachineActive, Mach.view, h2]
  unfold MachineSet.manageReplicas
  dsimp only
  rw [hlive, hst, if_neg (by omega), if_neg (by omega)]
  rfl

theorem run_rest {s : SetObj} {cache : List Mach} (hs : Served s cache) (e : Env) (hv : e.valid = true) (hsel : e.selectorOk = true) :
    run e s cache = report e s (mine s cache) [.propagate ((mine s cache).map Mach.sync)] false := by
  have hnf : needsFinalizer s = false := by unfold needsFinalizer; rw [hs.guarded]; simp
  unfold run
  rw [if_neg (by simp [hv]), if_neg (by simp [hnf]), if_neg (by simp [hsel])]
  dsimp only
  rw [claimed_rest hs]
  have hc : claim e s cache = ((mine s cache).map Mach.obj, false, []) := claimAll_rest hs.one hs.sorted _ _ _
  rw [hc]
  dsimp only
  rw [if_neg (by simp)]
  unfold serve
  rw [propagate_rest hs]
  dsimp only
  rw [if_neg (by simp), replicas_rest hs]
  dsimp only
  rw [if_neg (by simp)]
  unfold protect
  rw [hnf]
  rfl

theorem counted_ready (ms : List Mach) : ((ms.map Mach.counted).filter fun m => Status.isAvailable m && Status.isReady m).length =
    (ms.filter fun m => m.phase = .running).length := by
  rw [List.filter_map, List.length_map]
  refine congrArg List.length (List.filter_congr fun m _ => ?_)
  rw [Bool.eq_iff_iff]
  simp [Status.isAvailable, Status.isReady, Mach.counted]
  exact .inr

theorem counted_available (ms : List Mach) : ((ms.map Mach.counted).filter Status.isAvailable).length =
    (ms.filter fun m => m.phase = .running ∨ m.phase = .available).length := by
  rw [List.filter_map, List.length_map]
  refine congrArg List.length (List.filter_congr fun m _ => ?_)
  rw [Bool.eq_iff_iff]
  simp [Status.isAvailable, Mach.counted, or_comm]

theorem counted_labelled (ms : List Mach) : ((ms.map Mach.counted).filter (·.fullyLabeled)).length = (ms.filter fun m => m.fullyLabeled).length := by
  rw [List.filter_map, List.length_map]
  rfl

theorem counted_failed {ms : List Mach} (h : ∀ m ∈ ms, m.opFailed = false) : ((ms.map Mach.counted).filter (·.opFailed)).map (·.name) = [] := by
  rw [List.filter_eq_nil_iff.2]
  · rfl
  · intro m hm
    obtain ⟨x, hx, rfl⟩ := List.mem_map.1 hm
    show ¬ x.opFailed = true
    rw [h x hx]; simp

theorem calc_rest (now spec : Int) (cur : Status.SetStatus) {ms : List Mach} (h : ∀ m ∈ ms, m.opFailed = false) :
    Status.calcSet now spec cur (ms.map Mach.counted) false =
      { replicas := ms.length
        fullyLabeled := (ms.filter fun m => m.fullyLabeled).length
        ready := (ms.filter fun m => m.phase = .running).length
        available := (ms.filter fun m => m.phase = .running ∨ m.phase = .available).length
        failed := if ((ms.filter fun m => m.phase = .running).length : Int) = cur.replicas then none else cur.failed
        conds := if (Status.getCond cur.conds Status.replicaFailure).isSome then Status.removeCond cur.conds Status.replicaFailure else cur.conds } := by
  unfold Status.calcSet
  dsimp only
  rw [counted_ready, counted_available, counted_labelled, counted_failed h, List.length_map]
  simp

theorem getCond_none {cs : List Status.Cond} (h : ∀ c ∈ cs, c.type ≠ "ReplicaFailure") : Status.getCond cs Status.replicaFailure = none := by
  unfold Status.getCond
  rw [List.find?_eq_none]
  intro c hc
  have := h c hc
  simpa [Status.replicaFailure] using this

theorem report_told {s : SetObj} {ms : List Mach} (ht : Told s ms) (h : ∀ m ∈ ms, m.opFailed = false) (e : Env) (done : List Act) :
    report e s ms done false = ⟨done, { again := true, ok := true }⟩ := by
  unfold report
  dsimp only
  rw [calc_rest e.now s.replicas s.status h, if_neg]
  · rfl
  · unfold Status.setWriteNeeded
    rw [getCond_none ht.conds]
    have hf : (if ((ms.filter fun m => m.phase = .running).length : Int) = s.status.replicas then none else s.status.failed) = s.status.failed := by
      rcases ht.failed with h1 | h1
      · rw [h1]; split <;> rfl
      · rw [ht.ready] at h1; exact if_neg h1
    dsimp only
    rw [hf, ht.seen, ← ht.replicas, ← ht.labelled, ← ht.ready, ← ht.available]
    simp

/-- the set after a run whose status was accepted -/
def accept (s : SetObj) : List Act → SetObj
  | [] => s
  | .status st :: l => accept { s with status := st, observed := s.generation } l
  | _ :: l => accept s l

theorem served_status {s : SetObj} {cache : List Mach} (hs : Served s cache) (st : Status.SetStatus) (o : Int) :
    Served { s with status := st, observed := o } cache := ⟨hs.alive, hs.guarded, hs.one, hs.sorted, hs.follow, hs.well, hs.enough⟩

/-- what is stored after a run -/
theorem accept_rest {s : SetObj} {cache : List Mach} (hs : Served s cache) (e : Env) (hv : e.valid = true)
    (hsel : e.selectorOk = true) :
    accept s (run e s cache).acts = { s with status := Status.calcSet e.now s.replicas s.status ((mine s cache).map Mach.counted) false, observed := s.generation } := by
  rw [run_rest hs e hv hsel]
  unfold report
  dsimp only
  cases hw : Status.setWriteNeeded s.status (Status.calcSet e.now s.replicas s.status ((mine s cache).map Mach.counted) false) s.generation s.observed with
  | true =>
    rw [if_pos rfl]
    split <;> rfl
  | false =>
    rw [if_neg (by simp)]
    show s = _
    unfold Status.setWriteNeeded at hw
    simp only [Bool.not_eq_false', Bool.and_eq_true, decide_eq_true_eq] at hw
    obtain ⟨⟨⟨⟨⟨⟨h1, h2⟩, h3⟩, h4⟩, h5⟩, h6⟩, h7⟩ := hw
    have hst : ∀ a b : Status.SetStatus, a.replicas = b.replicas → a.fullyLabeled = b.fullyLabeled → a.ready = b.ready → a.available = b.available →
        a.conds = b.conds → a.failed = b.failed → b = a := by
      rintro ⟨⟩ ⟨⟩ h1 h2 h3 h4 h5 h6
      dsimp only at *
      rw [h1, h2, h3, h4, h5, h6]
    have hset : ∀ st o, st = s.status → o = s.observed → s = { s with status := st, observed := o } := by rintro _ _ rfl rfl; rfl
    exact hset _ _ (hst _ _ h1 h2 h3 h4 h6 h7) h5

/-- C133: A machine set that has what it wants and whose status says so is left alone: no finalizer, owner, machine or status is written, no machine is created or
deleted, whatever the API server would have answered; the run is repeated later. -/
theorem C133_set {s : SetObj} {cache : List Mach} (hs : Served s cache) (ht : Told s (mine s cache)) (h : ∀ m ∈ mine s cache, m.opFailed = false) (e : Env)
    (hv : e.valid = true) (hsel : e.selectorOk = true) :
    (run e s cache).acts = [.propagate ((mine s cache).map Mach.sync)] ∧ (run e s cache).ending = { again := true, ok := true } := by
  rw [run_rest hs e hv hsel, report_told ht h]
  exact ⟨rfl, rfl⟩

/-- C133: A machine set that has what it wants has a status that says so after two accepted updates, whatever was in the status before. -/
theorem C133_set_status {s : SetObj} {cache : List Mach} (hs : Served s cache) (h : ∀ m ∈ mine s cache, m.opFailed = false) (e e' : Env)
    (hv : e.valid = true ∧ e'.valid = true) (hsel : e.selectorOk = true ∧ e'.selectorOk = true) :
    let s' := accept s (run e s cache).acts
    Told (accept s' (run e' s' cache).acts) (mine s cache) := by
  intro s'
  have h1 : s' = _ := accept_rest hs e hv.1 hsel.1
  have hs' : Served s' cache := by rw [h1]; exact served_status hs _ _
  have hm : mine s' cache = mine s cache := by rw [h1]; rfl
  rw [accept_rest hs' e' hv.2 hsel.2, hm, calc_rest _ _ _ h]
  have hst : s'.status = Status.calcSet e.now s.replicas s.status ((mine s cache).map Mach.counted) false := by rw [h1]
  rw [calc_rest e.now s.replicas s.status h] at hst
  refine ⟨rfl, rfl, rfl, rfl, rfl, ?_, ?_⟩
  · dsimp only
    rw [hst]
    dsimp only
    split
    · exact .inl rfl
    · rename_i hne; exact .inr hne
  · dsimp only
    rw [hst]
    dsimp only
    intro c hc
    have hnone : ∀ cs : List Status.Cond, ∀ c ∈ (if (Status.getCond cs Status.replicaFailure).isSome then Status.removeCond cs Status.replicaFailure else cs),
        c.type ≠ "ReplicaFailure" := by
      intro cs c hc
      split at hc
      · have := (List.mem_filter.1 hc).2
        simpa [Status.replicaFailure] using this
      · rename_i hn
        rw [Option.not_isSome_iff_eq_none] at hn
        unfold Status.getCond at hn
        have := List.find?_eq_none.1 hn c hc
        simpa [Status.replicaFailure] using this
    exact hnone _ c hc

/-- two running machines, one that is being deleted and one of another set; the status is old and tells of a failure -/
def exSet : SetObj := {
  uid := "u", replicas := 2, sel := fun l => l.get "a" == "b", want := ⟨"t", "c", "k"⟩, generation := 3, observed := 2,
  status := { replicas := 1, failed := some ["x"], conds := [⟨"ReplicaFailure", "True", "FailedCreate", 0, 0⟩] } }
def exCache : List Mach := [
  { name := "m1", labels := [("a", "b")], owners := [⟨"u", true⟩], stored := ⟨1, ⟨"t", "c", "k"⟩⟩, cached := ⟨1, ⟨"t", "c", "k"⟩⟩ },
  { name := "m2", labels := [("a", "b")], owners := [⟨"u", true⟩], stored := ⟨1, ⟨"t", "c", "k"⟩⟩, cached := ⟨1, ⟨"t", "c", "k"⟩⟩ },
  { name := "m3", labels := [("a", "b")], owners := [⟨"u", true⟩], deleting := true, phase := .terminating, stored := ⟨1, ⟨"t", "c", "k"⟩⟩, cached := ⟨1, ⟨"t", "c", "k"⟩⟩ },
  { name := "m4", labels := [("a", "b")], owners := [⟨"v", true⟩], stored := ⟨1, ⟨"t", "c", "k"⟩⟩, cached := ⟨1, ⟨"t", "c", "k"⟩⟩ }]

theorem exServed : Served exSet exCache := by
  refine ⟨rfl, rfl, by unfold Claim.OneController; decide, ?_, by decide +kernel, by decide +kernel, by decide +kernel⟩
  intro m hm
  simp only [exCache, List.mem_cons, List.not_mem_nil, or_false] at hm
  rcases hm with rfl | rfl | rfl | rfl
  · exact .inl (by decide)
  · exact .inl (by decide)
  · exact .inl (by decide)
  · exact .inr (.inr ⟨"v", by decide, by decide⟩)

/-- the first run writes the status and keeps the list of failures, which the second would drop if all machines were ready -/
example : ((run {} exSet exCache).acts.length, (accept exSet (run {} exSet exCache).acts).status.replicas, (accept exSet (run {} exSet exCache).acts).status.ready,
    (accept exSet (run {} exSet exCache).acts).status.conds.length, (accept exSet (run {} exSet exCache).acts).status.failed) = (2, 3, 2, 0, some ["x"]) := by decide +kernel

example : Told (accept (accept exSet (run {} exSet exCache).acts) (run {} (accept exSet (run {} exSet exCache).acts) exCache).acts) (mine exSet exCache) :=
  C133_set_status exServed (by decide +kernel) {} {} ⟨rfl, rfl⟩ ⟨rfl, rfl⟩

/-! ### Machines -/

/-- C133: A running machine with its VM, whose node has the conditions that the machine's status reports, which are good, is left alone: no run of the machine
controller writes it or asks the provider for a VM, however much later and whatever the heartbeats, reasons and messages of the conditions. -/
theorem C133_machine (e : Lifecycle.Env) (v : Lifecycle.Obj) (hf : v.finalizer = true) (hp : v.st.phase = .running) (hid : v.pid ≠ "")
    (n : Health.Node) (hn : e.node = .found n) (hu : (v.conds.map (·.type)).Nodup) (hne : v.conds ≠ [])
    (hsame : ∀ t s, Conditions.HasStatus v.conds t s ↔ Conditions.HasStatus n.conds t s)
    (hgood : ∀ c ∈ v.conds, (c.type = "Ready" → c.status = "True") ∧ (c.type ∈ v.bad → c.status = "False")) :
    Lifecycle.run e v = none ∧ Lifecycle.asks e v = false := by
  have hch : Conditions.haveChanged v.conds n.conds = false := (Conditions.C52_exact v.conds n.conds hu).2 hsame
  have hcheck : Health.check e.c.now (Lifecycle.asHealth v) e.node = .nothing := by
    rw [hn, Health.check]
    have hseen : Health.seen (Lifecycle.asHealth v) n = v.conds := by unfold Health.seen; exact if_neg (by simp [Lifecycle.asHealth, hch])
    rw [hseen, if_pos, if_neg, if_neg]
    · unfold Health.timeouts Lifecycle.asHealth; rw [hp]; rfl
    · simp [Lifecycle.asHealth, hch]
    · simp [Lifecycle.asHealth, hp, Lifecycle.healthPhase]
    · unfold Health.isHealthy
      rw [if_neg (by simpa using hne), List.all_eq_true]
      intro c hc
      obtain ⟨h1, h2⟩ := hgood c hc
      rw [Bool.and_eq_true, List.all_eq_true]
      refine ⟨?_, fun b hb => ?_⟩
      · by_cases ht : c.type = "Ready"
        · simp [ht, h1 ht]
        · simp [ht]
      · by_cases ht : c.type = b
        · simp [h2 (by rw [ht]; exact hb)]
        · simp [ht]
  have hrec : (Creation.reconcile { e.c with health := none } v.toObj).wrote = none ∧ (Creation.reconcile { e.c with health := none } v.toObj).events = [] := by
    unfold Creation.reconcile
    rw [hf]
    split
    · exact ⟨rfl, rfl⟩
    split
    · exact ⟨rfl, rfl⟩
    split
    · exact ⟨rfl, rfl⟩
    rw [if_neg (by simp), if_neg (by simp), if_neg (by rw [hp]; simp [hid])]
    exact ⟨rfl, rfl⟩
  have hrest : Lifecycle.rest e v = none := by unfold Lifecycle.rest; rw [hrec.1]; rfl
  refine ⟨?_, ?_⟩
  · unfold Lifecycle.run
    rw [hcheck, hrest]
    split
    · dsimp only; split <;> rfl
    · rfl
  · unfold Lifecycle.asks Creation.creates
    rw [hrec.2]
    simp

/-- a month later, with a new heartbeat and message -/
example (e : Lifecycle.Env) (h : e.node = .found { conds := [{ type := "Ready", status := "True", message := "kubelet is posting ready status", heartbeat := 2592000 }] }) :
    let v : Lifecycle.Obj := {
      pid := "aws:///i-1", node := some "ip-1", finalizer := true, st := { phase := .running }, bad := ["KernelDeadlock"],
      conds := [{ type := "Ready", status := "True" }] }
    Lifecycle.run e v = none ∧ Lifecycle.asks e v = false := by
  refine C133_machine e _ rfl rfl (by decide) _ h (by decide) (by decide) ?_ (by decide)
  intro t s
  simp [Conditions.HasStatus]

end MCM.Rest
