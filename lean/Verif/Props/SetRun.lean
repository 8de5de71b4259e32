import Verif.Model.SetRun
import Verif.Props.Claim
import Verif.Props.MachineSet
import Verif.Model.Fleet
/-!
C105: what a run of the machine set controller may do, and what stops it.
-/
namespace MCM.SetRun
open MCM MCM.Claim

/-! ## Specification -/

/-- the machine belongs to the set: it has the labels asked for and is controlled by the set, or nobody controls it and the set takes it over in this run -/
def Own (s : SetObj) (acts : List Act) (m : Mach) : Prop :=
  s.sel m.labels = true ∧ (ControlledBy m.obj s.uid ∨ (Orphan m.obj ∧ m.deleting = false ∧ .claim (.adopt m.obj) ∈ acts))

/-! ## The parts of a run -/

/-- the conditions under which a run gets to the number of machines -/
structure Served (e : Env) (s : SetObj) (cache : List Mach) : Prop where
  valid : e.valid = true
  selector : e.selectorOk = true
  protected_ : needsFinalizer s = true → e.addOk = true
  claimed : (claim e s cache).2.1 = false
  synced : (SyncMachines.reconcile s.want e.att ((SetRun.claimed e s cache).map Mach.sync)).2 = true

/-- what a run that got there does -/
def served (e : Env) (s : SetObj) (cache : List Mach) : List Act :=
  protect s ++ (claim e s cache).2.2.map .claim ++ [.propagate (SyncMachines.reconcile s.want e.att ((claimed e s cache).map Mach.sync)).1]
    ++ (replicas e s (claimed e s cache)).acts

/-- the status that such a run calculates -/
def newStatus (e : Env) (s : SetObj) (cache : List Mach) : Status.SetStatus :=
  Status.calcSet e.now s.replicas s.status ((claimed e s cache).map Mach.counted) (replicas e s (claimed e s cache)).err

theorem run_cases (e : Env) (s : SetObj) (cache : List Mach) :
    (Served e s cache ∧ ((run e s cache).acts = served e s cache
      ∨ (run e s cache).acts = served e s cache ++ [.status (newStatus e s cache)]))
    ∨ (¬ Served e s cache ∧ (run e s cache).ending.again = false
        ∧ ∀ a ∈ (run e s cache).acts, (a = .addFinalizer ∧ needsFinalizer s = true) ∨ (∃ f, a = .claim f ∧ f ∈ (claim e s cache).2.2) ∨ ∃ l, a = .propagate l) := by
  unfold run
  have hpro : ∀ a ∈ protect s, a = .addFinalizer ∧ needsFinalizer s = true := by
    intro a ha
    unfold protect at ha
    split at ha
    · rename_i h; exact ⟨List.mem_singleton.1 ha, h⟩
    · exact (nomatch ha)
  cases hv : e.valid with
  | false => exact .inr ⟨fun h => by rw [h.valid] at hv; exact (nomatch hv), rfl, fun a ha => (nomatch ha)⟩
  | true =>
    simp only [Bool.not_true, Bool.false_eq_true, if_false]
    cases hf : (needsFinalizer s && !e.addOk) with
    | true =>
      simp only [if_true]
      refine .inr ⟨fun h => ?_, trivial, fun a ha => .inl (hpro a ha)⟩
      rw [Bool.and_eq_true] at hf
      rw [h.protected_ hf.1] at hf
      exact (nomatch hf.2)
    | false =>
      simp only [Bool.false_eq_true, if_false]
      cases hsel : e.selectorOk with
      | false => exact .inr ⟨fun h => by rw [h.selector] at hsel; exact (nomatch hsel), rfl, fun a ha => .inl (hpro a ha)⟩
      | true =>
        simp only [Bool.not_true, Bool.false_eq_true, if_false]
        have hcl : ∀ a ∈ protect s ++ (claim e s cache).2.2.map Act.claim,
            (a = .addFinalizer ∧ needsFinalizer s = true) ∨ (∃ f, a = .claim f ∧ f ∈ (claim e s cache).2.2) ∨ ∃ l, a = .propagate l := by
          intro a ha
          rcases List.mem_append.1 ha with ha | ha
          · exact .inl (hpro a ha)
          · obtain ⟨f, hf, he⟩ := List.mem_map.1 ha
            exact .inr (.inl ⟨f, he.symm, hf⟩)
        cases hc : (claim e s cache).2.1 with
        | true =>
          simp only [if_true]
          exact .inr ⟨fun h => by rw [h.claimed] at hc; exact (nomatch hc), trivial, hcl⟩
        | false =>
          simp only [Bool.false_eq_true, if_false]
          unfold serve
          dsimp only
          cases hy : (SyncMachines.reconcile s.want e.att ((claimed e s cache).map Mach.sync)).2 with
          | false =>
            simp only [Bool.not_false, if_true]
            refine .inr ⟨fun h => by rw [h.synced] at hy; exact (nomatch hy), trivial, fun a ha => ?_⟩
            rcases List.mem_append.1 ha with ha | ha
            · exact hcl a ha
            · exact .inr (.inr ⟨_, List.mem_singleton.1 ha⟩)
          | true =>
            simp only [Bool.not_true, Bool.false_eq_true, if_false]
            left
            refine ⟨⟨hv, hsel, fun hn => ?_, hc, hy⟩, ?_⟩
            · rw [hn] at hf
              cases ho : e.addOk with
              | true => rfl
              | false => rw [ho] at hf; exact (nomatch hf)
            · split
              · left; rfl
              · unfold report
                dsimp only
                split
                · split <;> (right; rfl)
                · left; rfl

/-- a call that concerns machines, the finalizer's removal or the status is made only by runs that got there -/
theorem work (e : Env) (s : SetObj) (cache : List Mach) (a : Act) (ha : a ∈ (run e s cache).acts)
    (h1 : a ≠ .addFinalizer) (h2 : ∀ f, a ≠ .claim f) (h3 : ∀ l, a ≠ .propagate l) :
    Served e s cache ∧ (a ∈ (replicas e s (claimed e s cache)).acts ∨ a = .status (newStatus e s cache)) := by
  rcases run_cases e s cache with ⟨hs, h⟩ | ⟨_, _, h⟩
  · refine ⟨hs, ?_⟩
    have hin : a ∈ served e s cache ∨ a = .status (newStatus e s cache) := by
      rcases h with h | h
      · rw [h] at ha; exact .inl ha
      · rw [h] at ha
        rcases List.mem_append.1 ha with ha | ha
        · exact .inl ha
        · exact .inr (List.mem_singleton.1 ha)
    rcases hin with hin | hin
    · unfold served at hin
      rcases List.mem_append.1 hin with hin | hin
      · rcases List.mem_append.1 hin with hin | hin
        · rcases List.mem_append.1 hin with hin | hin
          · unfold protect at hin
            split at hin
            · exact absurd (List.mem_singleton.1 hin) h1
            · exact (nomatch hin)
          · obtain ⟨f, _, he⟩ := List.mem_map.1 hin
            exact absurd he.symm (h2 f)
        · exact absurd (List.mem_singleton.1 hin) (h3 _)
      · exact .inl hin
    · exact .inr hin
  · rcases h a ha with ⟨h, _⟩ | ⟨f, h, _⟩ | ⟨l, h⟩
    · exact absurd h h1
    · exact absurd h (h2 f)
    · exact absurd h (h3 l)

theorem served_claims {e : Env} {s : SetObj} {cache : List Mach} (hs : Served e s cache) (f : Eff) (hf : f ∈ (claim e s cache).2.2) :
    Act.claim f ∈ (run e s cache).acts := by
  have hin : Act.claim f ∈ served e s cache := by
    unfold served
    refine List.mem_append_left _ (List.mem_append_left _ (List.mem_append_right _ ?_))
    exact List.mem_map_of_mem hf
  rcases run_cases e s cache with ⟨_, h | h⟩ | ⟨h, _⟩
  · rw [h]; exact hin
  · rw [h]; exact List.mem_append_left _ hin
  · exact absurd hs h

/-- the claimed machines are those that belong to the set, in a run that gets there -/
theorem claimed_own {e : Env} {s : SetObj} {cache : List Mach} (hv : ∀ m ∈ cache, OneController m.obj) (hs : Served e s cache) (m : Mach)
    (hm : m ∈ claimed e s cache) : m ∈ cache ∧ Own s (run e s cache).acts m := by
  unfold claimed at hm
  obtain ⟨hc, hm⟩ := List.mem_filter.1 hm
  have hm : m.obj ∈ (claim e s cache).1 := by simpa using hm
  have hd := C06_claim_decisions ⟨s.uid, s.deleting⟩ s.sel e.live e.patch (cache.map Mach.obj) (fun o ho => by
    obtain ⟨x, hx, he⟩ := List.mem_map.1 ho; rw [← he]; exact hv x hx)
  dsimp only at hd
  obtain ⟨h1, _, h3⟩ := hd
  refine ⟨hc, ?_⟩
  rcases ((h1 m.obj).1 hm).2 with ⟨ha, hb⟩ | ⟨ha, _⟩
  · exact ⟨hb, .inl ha⟩
  · refine ⟨ha.2.2.1, .inr ⟨ha.1, ha.2.1, ?_⟩⟩
    exact served_claims hs _ ((h3 m.obj).2 ⟨List.mem_map_of_mem hc, ha⟩)

/-- a machine with the right labels that the set controls is claimed -/
theorem claimed_of {e : Env} {s : SetObj} {cache : List Mach} (hv : ∀ m ∈ cache, OneController m.obj) (m : Mach) (hm : m ∈ cache)
    (hl : s.sel m.labels = true) (hc : ControlledBy m.obj s.uid) : m ∈ claimed e s cache := by
  unfold claimed
  refine List.mem_filter.2 ⟨hm, ?_⟩
  have hd := C06_claim_decisions ⟨s.uid, s.deleting⟩ s.sel e.live e.patch (cache.map Mach.obj) (fun o ho => by
    obtain ⟨x, hx, he⟩ := List.mem_map.1 ho; rw [← he]; exact hv x hx)
  dsimp only at hd
  have : m.obj ∈ (claim e s cache).1 := (hd.1 m.obj).2 ⟨List.mem_map_of_mem hm, .inl ⟨hc, hl⟩⟩
  simpa using this

theorem mem_dels (l : List Machine) (a : Act) : a ∈ dels l ↔ ∃ m ∈ l, m.deleting = false ∧ a = .delete m.name := by
  unfold dels
  simp only [List.mem_map, List.mem_filter, Bool.not_eq_true']
  constructor
  · rintro ⟨m, ⟨h1, h2⟩, h3⟩; exact ⟨m, h1, h2, h3.symm⟩
  · rintro ⟨m, h1, h2, h3⟩; exact ⟨m, ⟨h1, h2⟩, h3.symm⟩

theorem replicas_delete {e : Env} (hp : ∀ l, (e.srt l).Perm l) (s : SetObj) (ms : List Mach) (n : String) (h : .delete n ∈ (replicas e s ms).acts) :
    ∃ m ∈ ms, m.name = n ∧ m.deleting = false := by
  have hof : ∀ l : List Machine, (∀ x ∈ l, x ∈ ms.map Mach.view) → .delete n ∈ dels l → ∃ m ∈ ms, m.name = n ∧ m.deleting = false := by
    intro l hl h
    obtain ⟨x, hx, hd, he⟩ := (mem_dels l _).1 h
    obtain ⟨m, hm, hmx⟩ := List.mem_map.1 (hl x hx)
    refine ⟨m, hm, ?_, ?_⟩
    · injection he with he
      rw [he, ← hmx]; rfl
    · rw [← hmx] at hd; exact hd
  unfold replicas at h
  split at h
  · have h : Act.delete n ∈ manage (MachineSet.manageReplicas e.srt e.createOut (ms.map Mach.view) { replicas := s.replicas, freezeLabel := s.freezeLabel }) := h
    unfold manage at h
    rcases List.mem_append.1 h with h | h
    · rcases List.mem_append.1 h with h | h
      · rw [MachineSet.staleTerminated_eq] at h
        exact hof _ (fun x hx => (List.mem_filter.1 hx).1) h
      · obtain ⟨r, _, hr⟩ := List.mem_map.1 h
        exact (nomatch hr)
    · obtain ⟨K, hK⟩ := MachineSet.victims_perm e.srt e.createOut (ms.map Mach.view) { replicas := s.replicas, freezeLabel := s.freezeLabel } hp
      exact hof _ (fun x hx => (List.mem_filter.1 (hK.mem_iff.1 (List.mem_append_left _ hx))).1) h
  · split at h
    · split at h
      · have := List.mem_singleton.1 h; exact (nomatch this)
      · exact (nomatch h)
    · split at h
      · exact hof _ (fun x hx => hx) h
      · exact (nomatch h)

/-! ## C105 -/

/-- **C105**: only machines that belong to the set and are not yet being deleted are deleted by a run, whatever the other objects in the cache and whatever fails. -/
theorem C105_only_own_machines (e : Env) (hp : ∀ l, (e.srt l).Perm l) (s : SetObj) (cache : List Mach) (hv : ∀ m ∈ cache, OneController m.obj) (n : String)
    (h : .delete n ∈ (run e s cache).acts) : ∃ m ∈ cache, m.name = n ∧ m.deleting = false ∧ Own s (run e s cache).acts m := by
  obtain ⟨hs, hw⟩ := work e s cache _ h (fun h => (nomatch h)) (fun f h => (nomatch h)) (fun l h => (nomatch h))
  rcases hw with hw | hw
  · obtain ⟨m, hm, hn, hd⟩ := replicas_delete hp s _ n hw
    obtain ⟨hc, ho⟩ := claimed_own hv hs m hm
    exact ⟨m, hc, hn, hd, ho⟩
  · exact (nomatch hw)

theorem replicas_create {e : Env} (hp : ∀ l, (e.srt l).Perm l) (s : SetObj) (ms : List Mach) (n : Nat) (h : .create n ∈ (replicas e s ms).acts) :
    s.deleting = false ∧ s.freezeLabel ≠ "True" ∧ n + MachineSet.specLiveCount (ms.map Mach.view) ≤ s.replicas := by
  unfold replicas at h
  split at h
  · rename_i hd
    have hd : s.deleting = false := by simpa using hd
    have h : Act.create n ∈ manage (MachineSet.manageReplicas e.srt e.createOut (ms.map Mach.view) { replicas := s.replicas, freezeLabel := s.freezeLabel }) := h
    unfold manage at h
    have hno : ∀ l, Act.create n ∉ dels l := fun l h => by
      obtain ⟨_, _, _, he⟩ := (mem_dels l _).1 h; exact (nomatch he)
    have hr : ∃ r, (MachineSet.manageReplicas e.srt e.createOut (ms.map Mach.view) { replicas := s.replicas, freezeLabel := s.freezeLabel }).creation = some r ∧ r.issued = n := by
      rcases List.mem_append.1 h with h | h
      · rcases List.mem_append.1 h with h | h
        · exact absurd h (hno _)
        · obtain ⟨r, hr, he⟩ := List.mem_map.1 h
          injection he with he
          exact ⟨r, by simpa using hr, he⟩
      · exact absurd h (hno _)
    obtain ⟨r, hr, hn⟩ := hr
    obtain ⟨hb, _⟩ := MachineSet.C02_reconcile_bounds e.srt e.createOut hp (ms.map Mach.view) { replicas := s.replicas, freezeLabel := s.freezeLabel }
    have hlt : (MachineSet.specLiveCount (ms.map Mach.view)) < s.replicas ∧ s.freezeLabel ≠ "True" := by
      rw [MachineSet.specLiveCount_eq]
      rcases MachineSet.manageReplicas_cases e.srt e.createOut (ms.map Mach.view) { replicas := s.replicas, freezeLabel := s.freezeLabel } with
        ⟨_, _, h⟩ | ⟨h1, h2, h⟩ | ⟨_, h⟩ | ⟨_, h⟩
      · rw [h] at hr; exact (nomatch hr)
      · exact ⟨h1, fun he => h2 ⟨he, rfl⟩⟩
      · rw [h] at hr; exact (nomatch hr)
      · rw [h] at hr; exact (nomatch hr)
    refine ⟨hd, hlt.2, ?_⟩
    have hi : (MachineSet.manageReplicas e.srt e.createOut (ms.map Mach.view) { replicas := s.replicas, freezeLabel := s.freezeLabel }).issued = r.issued := by
      unfold MachineSet.Outcome.issued
      rw [hr]
    have hb : r.issued ≤ min 100 (s.replicas - MachineSet.specLiveCount (ms.map Mach.view)) := by rw [← hi]; exact hb
    omega
  · split at h
    · split at h
      · have := List.mem_singleton.1 h; exact (nomatch this)
      · exact (nomatch h)
    · split at h
      · obtain ⟨_, _, _, he⟩ := (mem_dels _ _).1 h; exact (nomatch he)
      · exact (nomatch h)

/-- **C105**: machines are created only for a set that is neither being deleted nor frozen, and never more than are missing among the machines that belong to it. -/
theorem C105_creates_what_is_missing (e : Env) (hp : ∀ l, (e.srt l).Perm l) (s : SetObj) (cache : List Mach) (hv : ∀ m ∈ cache, OneController m.obj) (n : Nat)
    (h : .create n ∈ (run e s cache).acts) :
    s.deleting = false ∧ s.freezeLabel ≠ "True"
    ∧ n + (cache.filter fun m => s.sel m.labels && m.owners.contains ⟨s.uid, true⟩ && MachineSet.isLive m.view).length ≤ s.replicas := by
  obtain ⟨hs, hw⟩ := work e s cache _ h (fun h => (nomatch h)) (fun f h => (nomatch h)) (fun l h => (nomatch h))
  rcases hw with hw | hw
  · obtain ⟨h1, h2, h3⟩ := replicas_create hp s _ n hw
    refine ⟨h1, h2, ?_⟩
    rw [MachineSet.specLiveCount_eq, List.filter_map, List.length_map] at h3
    have hle : (cache.filter fun m => s.sel m.labels && m.owners.contains ⟨s.uid, true⟩ && MachineSet.isLive m.view).length
        ≤ ((claimed e s cache).filter (MachineSet.isLive ∘ Mach.view)).length := by
      unfold claimed
      rw [List.filter_filter, ← List.countP_eq_length_filter, ← List.countP_eq_length_filter]
      apply List.countP_mono_left
      intro m hm hx
      simp only [Bool.and_eq_true] at hx
      have hc : ControlledBy m.obj s.uid := by simpa [ControlledBy, Mach.obj] using hx.1.2
      have := claimed_of (e := e) hv m hm hx.1.1 hc
      unfold claimed at this
      simp only [Bool.and_eq_true]
      exact ⟨hx.2, (List.mem_filter.1 this).2⟩
    omega
  · exact (nomatch hw)

/-- **C105**: before a run creates or deletes machines of a living set, the set is protected by its finalizer: it had it, or the run begins with adding it and this
is accepted. -/
theorem C105_protected_before_work (e : Env) (s : SetObj) (cache : List Mach) (hd : s.deleting = false) (a : Act)
    (ha : (∃ n, a = .create n) ∨ ∃ n, a = .delete n) (h : a ∈ (run e s cache).acts) :
    s.finalizer = true ∨ ((run e s cache).acts.head? = some .addFinalizer ∧ e.addOk = true) := by
  have hw := work e s cache a h (by rcases ha with ⟨n, rfl⟩ | ⟨n, rfl⟩ <;> exact fun h => (nomatch h))
    (by rcases ha with ⟨n, rfl⟩ | ⟨n, rfl⟩ <;> exact fun f h => (nomatch h)) (by rcases ha with ⟨n, rfl⟩ | ⟨n, rfl⟩ <;> exact fun l h => (nomatch h))
  cases hf : s.finalizer with
  | true => exact .inl rfl
  | false =>
    have hn : needsFinalizer s = true := by unfold needsFinalizer; rw [hd, hf]; rfl
    refine .inr ⟨?_, hw.1.protected_ hn⟩
    have hh : ∀ l, (served e s cache ++ l).head? = some .addFinalizer := by
      intro l
      unfold served protect
      rw [hn]
      rfl
    rcases run_cases e s cache with ⟨_, h | h⟩ | ⟨hns, _⟩
    · rw [h]; simpa using hh []
    · rw [h]; exact hh _
    · exact absurd hw.1 hns

/-- **C105**: a run for a set that is being deleted creates nothing and neither takes over nor releases a machine. -/
theorem C105_deleting_set (e : Env) (hp : ∀ l, (e.srt l).Perm l) (s : SetObj) (cache : List Mach) (hv : ∀ m ∈ cache, OneController m.obj)
    (hd : s.deleting = true) :
    (∀ n, .create n ∉ (run e s cache).acts) ∧ (∀ o, .claim (.adopt o) ∉ (run e s cache).acts) ∧ ∀ o, .claim (.release o) ∉ (run e s cache).acts := by
  have hdec := C06_claim_decisions ⟨s.uid, s.deleting⟩ s.sel e.live e.patch (cache.map Mach.obj) (fun o ho => by
    obtain ⟨x, hx, he⟩ := List.mem_map.1 ho; rw [← he]; exact hv x hx)
  dsimp only at hdec
  obtain ⟨_, h2, h3⟩ := hdec
  have hclaims : ∀ f, .claim f ∈ (run e s cache).acts → f ∈ (claim e s cache).2.2 := by
    intro f hf
    rcases run_cases e s cache with ⟨_, h⟩ | ⟨_, _, h⟩
    · have hin : .claim f ∈ served e s cache := by
        rcases h with h | h
        · rw [h] at hf; exact hf
        · rw [h] at hf
          rcases List.mem_append.1 hf with hf | hf
          · exact hf
          · have := List.mem_singleton.1 hf; exact (nomatch this)
      unfold served at hin
      rcases List.mem_append.1 hin with hin | hin
      · rcases List.mem_append.1 hin with hin | hin
        · rcases List.mem_append.1 hin with hin | hin
          · unfold protect at hin
            split at hin
            · have := List.mem_singleton.1 hin; exact (nomatch this)
            · exact (nomatch hin)
          · obtain ⟨g, hg, he⟩ := List.mem_map.1 hin
            injection he with he
            rw [← he]; exact hg
        · have := List.mem_singleton.1 hin; exact (nomatch this)
      · exfalso
        unfold replicas at hin
        have hno : ∀ l, Act.claim f ∉ dels l := fun l h => by
          obtain ⟨_, _, _, he⟩ := (mem_dels l _).1 h; exact (nomatch he)
        rw [hd] at hin
        simp only [Bool.not_true, Bool.false_eq_true, if_false] at hin
        split at hin
        · split at hin
          · have := List.mem_singleton.1 hin; exact (nomatch this)
          · exact (nomatch hin)
        · split at hin
          · exact hno _ hin
          · exact (nomatch hin)
    · rcases h _ hf with ⟨h, _⟩ | ⟨g, h, hg⟩ | ⟨l, h⟩
      · exact (nomatch h)
      · injection h with h
        rw [h]; exact hg
      · exact (nomatch h)
  refine ⟨fun n hn => ?_, fun o ho => ?_, fun o ho => ?_⟩
  · obtain ⟨hd', _⟩ := C105_creates_what_is_missing e hp s cache hv n hn
    rw [hd] at hd'; exact (nomatch hd')
  · have := ((h3 o).1 (hclaims _ ho)).2.2.2.2.1
    rw [show (⟨s.uid, s.deleting⟩ : Ctrl).deleting = true from hd] at this
    exact (nomatch this)
  · have := ((h2 o).1 (hclaims _ ho)).2.2.2
    rw [show (⟨s.uid, s.deleting⟩ : Ctrl).deleting = true from hd] at this
    exact (nomatch this)

/-- **C105**: the finalizer is removed only from a set that is being deleted and of which the cache shows no machine any more. -/
theorem C105_finalizer_outlives_machines (e : Env) (s : SetObj) (cache : List Mach) (hv : ∀ m ∈ cache, OneController m.obj)
    (h : .removeFinalizer ∈ (run e s cache).acts) :
    s.deleting = true ∧ ∀ m ∈ cache, ¬ (s.sel m.labels = true ∧ ControlledBy m.obj s.uid) := by
  obtain ⟨_, hw⟩ := work e s cache _ h (fun h => (nomatch h)) (fun f h => (nomatch h)) (fun l h => (nomatch h))
  rcases hw with hw | hw
  · have hno : ∀ l, Act.removeFinalizer ∉ dels l := fun l h => by
      obtain ⟨_, _, _, he⟩ := (mem_dels l _).1 h; exact (nomatch he)
    unfold replicas at hw
    split at hw
    · exfalso
      have hw : Act.removeFinalizer ∈ manage (MachineSet.manageReplicas e.srt e.createOut ((claimed e s cache).map Mach.view) { replicas := s.replicas, freezeLabel := s.freezeLabel }) := hw
      unfold manage at hw
      rcases List.mem_append.1 hw with hw | hw
      · rcases List.mem_append.1 hw with hw | hw
        · exact hno _ hw
        · obtain ⟨_, _, he⟩ := List.mem_map.1 hw; exact (nomatch he)
      · exact hno _ hw
    · rename_i hd
      split at hw
      · rename_i hemp
        refine ⟨by simpa using hd, fun m hm hx => ?_⟩
        have := claimed_of (e := e) hv m hm hx.1 hx.2
        rw [List.isEmpty_iff.1 hemp] at this
        exact (nomatch this)
      · split at hw
        · exact absurd hw (hno _)
        · exact (nomatch hw)
  · exact (nomatch hw)

/-- **C105**: a run for a set that is being deleted, and that gets past claiming and propagation, asks for the deletion of every machine of the set that is left. -/
theorem C105_deleting_set_deletes_all (e : Env) (s : SetObj) (cache : List Mach) (hv : ∀ m ∈ cache, OneController m.obj) (hs : Served e s cache)
    (hd : s.deleting = true) (hf : s.finalizer = true) (m : Mach) (hm : m ∈ cache) (hl : s.sel m.labels = true) (hc : ControlledBy m.obj s.uid)
    (hnd : m.deleting = false) : .delete m.name ∈ (run e s cache).acts := by
  have hin : .delete m.name ∈ (replicas e s (claimed e s cache)).acts := by
    have hmem := claimed_of (e := e) hv m hm hl hc
    unfold replicas
    rw [hd, hf]
    simp only [Bool.not_true, Bool.false_eq_true, if_false, if_true]
    split
    · rename_i hemp
      rw [List.isEmpty_iff.1 hemp] at hmem
      exact (nomatch hmem)
    · exact (mem_dels _ _).2 ⟨m.view, List.mem_map_of_mem hmem, hnd, rfl⟩
  have hin : .delete m.name ∈ served e s cache := List.mem_append_right _ hin
  rcases run_cases e s cache with ⟨_, h | h⟩ | ⟨h, _⟩
  · rw [h]; exact hin
  · rw [h]; exact List.mem_append_left _ hin
  · exact absurd hs h

/-- **C105**: the number of machines that a run reports is that of the machines that belong to the set: at least those it controls, and nothing but machines that
belong to it. -/
theorem C105_reports_own_machines (e : Env) (s : SetObj) (cache : List Mach) (hv : ∀ m ∈ cache, OneController m.obj) (st : Status.SetStatus)
    (h : .status st ∈ (run e s cache).acts) :
    ∃ ms : List Mach, ms.Sublist cache ∧ st.replicas = ms.length ∧ (∀ m ∈ ms, Own s (run e s cache).acts m)
      ∧ ∀ m ∈ cache, s.sel m.labels = true → ControlledBy m.obj s.uid → m ∈ ms := by
  obtain ⟨hs, hw⟩ := work e s cache _ h (fun h => (nomatch h)) (fun f h => (nomatch h)) (fun l h => (nomatch h))
  rcases hw with hw | hw
  · exfalso
    have hno : ∀ l, Act.status st ∉ dels l := fun l h => by
      obtain ⟨_, _, _, he⟩ := (mem_dels l _).1 h; exact (nomatch he)
    unfold replicas at hw
    split at hw
    · have hw : Act.status st ∈ manage (MachineSet.manageReplicas e.srt e.createOut ((claimed e s cache).map Mach.view) { replicas := s.replicas, freezeLabel := s.freezeLabel }) := hw
      unfold manage at hw
      rcases List.mem_append.1 hw with hw | hw
      · rcases List.mem_append.1 hw with hw | hw
        · exact hno _ hw
        · obtain ⟨_, _, he⟩ := List.mem_map.1 hw; exact (nomatch he)
      · exact hno _ hw
    · split at hw
      · split at hw
        · have := List.mem_singleton.1 hw; exact (nomatch this)
        · exact (nomatch hw)
      · split at hw
        · exact hno _ hw
        · exact (nomatch hw)
  · injection hw with hw
    refine ⟨claimed e s cache, List.filter_sublist, ?_, fun m hm => (claimed_own hv hs m hm).2, fun m hm hl hc => claimed_of hv m hm hl hc⟩
    rw [hw]
    show (((claimed e s cache).map Mach.counted).length : Int) = _
    rw [List.length_map]

/-! ## When a run gets to its work, and what it does then -/

theorem sync_agreed (f : SyncMachines.Field) (want : SyncMachines.Spec) (att : String → List SyncMachines.Attempt) (ms : List SyncMachines.Mach)
    (h : ∀ m ∈ ms, m.cached.spec.get f = want.get f) : SyncMachines.sync f want att ms = (ms, true) := by
  induction ms with
  | nil => rfl
  | cons x xs ih =>
    have hx : SyncMachines.syncOne f want (att x.name) x = (x, true) := by
      unfold SyncMachines.syncOne
      split
      · rfl
      · rw [if_pos (h x List.mem_cons_self)]
    rw [SyncMachines.sync]
    dsimp only
    rw [hx, ih fun m hm => h m (List.mem_cons_of_mem _ hm)]
    rfl

theorem reconcile_agreed (want : SyncMachines.Spec) (att : SyncMachines.Field → String → List SyncMachines.Attempt) (ms : List SyncMachines.Mach)
    (h : ∀ m ∈ ms, m.cached.spec = want) : SyncMachines.reconcile want att ms = (ms, true) := by
  have hs : ∀ f, SyncMachines.sync f want (att f) ms = (ms, true) := fun f => sync_agreed f want (att f) ms (fun m hm => by rw [h m hm])
  unfold SyncMachines.reconcile
  dsimp only
  rw [hs .template]
  dsimp only
  rw [if_pos rfl, hs .config]
  dsimp only
  rw [if_pos rfl, hs .kind]

theorem claimAll_ok (self : Ctrl) (sel : SMap → Bool) (live : Option Ctrl) (ans : Obj → Option ApiErr) (ha : ∀ o, ans o = none)
    (hl : self.deleting = true ∨ canAdoptFunc self live = true) (os : List Obj) :
    ∀ memo, MemoOk self live memo → (claimAll self sel live ans memo os).2.1 = false := by
  induction os with
  | nil => intro _ _; rfl
  | cons o os ih =>
    intro memo hm
    rw [claimAll]
    dsimp only
    rw [ih _ (claimObject_memo self sel live ans memo o hm), Bool.or_false]
    unfold claimObject
    rw [ha o]
    split
    · (repeat' split) <;> first | rfl | (rename_i h; exact (nomatch h))
    · split
      · rfl
      · rename_i hx
        split
        · rfl
        · have hok : (canAdopt self live memo).1 = true := by
            have hc : canAdoptFunc self live = true := by
              rcases hl with hl | hl
              · rw [hl] at hx; exact absurd rfl hx
              · exact hl
            unfold canAdopt
            cases memo with
            | none => exact hc
            | some b => exact (hm b rfl).trans hc
          cases hcan : canAdopt self live memo with
          | mk ok effs =>
            rw [hcan] at hok
            dsimp only at hok ⊢
            rw [hok]
            rfl

/-- **C105**: a run serves its set – gets to creating, deleting and reporting – if the set is valid and the calls before succeed; if the machines already have the
set's specification, no update is needed. -/
theorem C105_serves (e : Env) (s : SetObj) (cache : List Mach) (hv : e.valid = true) (hsel : e.selectorOk = true) (hadd : e.addOk = true)
    (hl : ∃ c, e.live = some c ∧ c.uid = s.uid ∧ c.deleting = false) (hp : ∀ o, e.patch o = none)
    (hspec : ∀ m ∈ cache, s.sel m.labels = true → m.cached.spec = s.want) (hone : ∀ m ∈ cache, OneController m.obj) :
    Served e s cache := by
  have hcl : (claim e s cache).2.1 = false := claimAll_ok _ _ _ _ hp (by
    right
    obtain ⟨c, h1, h2, h3⟩ := hl
    unfold canAdoptFunc
    rw [h1]
    dsimp only
    rw [h2, h3]
    simp) _ _ (fun b hb => by simp at hb)
  refine ⟨hv, hsel, fun _ => hadd, hcl, ?_⟩
  rw [reconcile_agreed]
  intro m hm
  obtain ⟨x, hx, rfl⟩ := List.mem_map.1 hm
  unfold claimed at hx
  obtain ⟨hc, hx⟩ := List.mem_filter.1 hx
  have hx : x.obj ∈ (claim e s cache).1 := by simpa using hx
  have hd := C06_claim_decisions ⟨s.uid, s.deleting⟩ s.sel e.live e.patch (cache.map Mach.obj) (fun o ho => by
    obtain ⟨y, hy, he⟩ := List.mem_map.1 ho; rw [← he]; exact hone y hy)
  dsimp only at hd
  rcases ((hd.1 x.obj).1 hx).2 with ⟨_, h⟩ | ⟨h, _⟩
  · exact hspec x hc h
  · exact hspec x hc h.2.2.1

/-- **C105**: such a run asks for the next one, unless the status is refused. -/
theorem C105_served_comes_back (e : Env) (s : SetObj) (cache : List Mach) (hs : Served e s cache) (hst : e.statusOk = true) (hrm : e.removeOk = true) :
    (run e s cache).ending.again = true := by
  unfold run
  have hf : (needsFinalizer s && !e.addOk) = false := by
    cases hn : needsFinalizer s with
    | false => rfl
    | true => rw [hs.protected_ hn]; rfl
  rw [hs.valid, hf, hs.selector]
  simp only [Bool.not_true, Bool.false_eq_true, if_false]
  rw [hs.claimed]
  simp only [Bool.false_eq_true, if_false]
  unfold serve
  dsimp only
  rw [hs.synced]
  simp only [Bool.not_true, Bool.false_eq_true, if_false]
  have hstop : (replicas e s (claimed e s cache)).stop = false := by
    unfold replicas
    rw [hrm]
    (repeat' split) <;> rfl
  rw [hstop]
  simp only [Bool.false_eq_true, if_false]
  unfold report
  dsimp only
  rw [hst]
  split <;> rfl

/-- **C105**: what machines of other sets there are, and machines of nobody without the labels asked for, makes no difference to a run: it does the same, and ends the same way,
if they are left out. -/
theorem C105_others_do_not_matter (e : Env) (s : SetObj) (cache : List Mach) (hv : ∀ m ∈ cache, OneController m.obj) (keep : Mach → Bool)
    (hk : ∀ m ∈ cache, keep m = false → (∃ v, ControlledBy m.obj v ∧ v ≠ s.uid) ∨ (Orphan m.obj ∧ s.sel m.labels = false)) :
    run e s (cache.filter keep) = run e s cache := by
  have hk' : ∀ m ∈ cache, keep m = false → (∃ v, controllerOf m.obj = some v ∧ v ≠ s.uid) ∨ (controllerOf m.obj = none ∧ s.sel m.labels = false) := by
    intro m hm h
    rcases hk m hm h with ⟨v, h1, h2⟩ | ⟨h1, h2⟩
    · exact .inl ⟨v, (controllerOf_some _ (hv m hm) v).2 h1, h2⟩
    · exact .inr ⟨(controllerOf_none m.obj).2 h1, h2⟩
  have hclaim : claim e s (cache.filter keep) = claim e s cache := by
    unfold claim
    clear hv hk
    generalize (none : Option Bool) = memo
    induction cache generalizing memo with
    | nil => rfl
    | cons m l ih =>
      have ih := ih (fun a ha => hk' a (List.mem_cons_of_mem _ ha))
      rw [List.filter_cons]
      cases hkm : keep m with
      | true => simp only [if_true, List.map_cons, claimAll, ih]
      | false =>
        simp only [Bool.false_eq_true, if_false]
        rw [ih, List.map_cons]
        have h1 : claimObject ⟨s.uid, s.deleting⟩ s.sel e.live e.patch memo m.obj = ⟨false, false, [], memo⟩ := by
          unfold claimObject
          rcases hk' m List.mem_cons_self hkm with ⟨v, hv, hne⟩ | ⟨hn, hs⟩
          · rw [hv]; exact if_pos hne
          · rw [hn]; exact if_pos (by show (s.deleting || !s.sel m.labels) = true; rw [hs]; simp)
        rw [claimAll, h1]
        simp
  have hclaimed : claimed e s (cache.filter keep) = claimed e s cache := by
    unfold claimed
    rw [hclaim, List.filter_filter]
    refine List.filter_congr fun m hm => ?_
    cases hc : (claim e s cache).1.contains m.obj with
    | false => simp
    | true =>
      rw [List.contains_iff_mem] at hc
      have h1 := (claimAll_within _ none (by intro b hb; cases hb) _ (.inl hc)).2
      cases hkm : keep m with
      | true => simp
      | false =>
        exfalso
        rcases hk' m hm hkm with ⟨v, h2, h3⟩ | ⟨h2, h3⟩
        · rcases h1 with h1 | h1
          · exact h3 (Option.some.inj (h2.symm.trans h1))
          · rw [h2] at h1; cases h1.1
        · rcases h1 with h1 | h1
          · rw [h2] at h1; cases h1
          · rw [show s.sel m.obj.labels = false from h3] at h1; cases h1.2.1
  unfold run
  rw [hclaim, hclaimed]

/-- **C105**: the run is the one of the model `Fleet`, on which the theorems on the whole fleet (C97, C101 to C103) rest: if the machines claimed look like those of
the fleet, exactly the machines are deleted, and as many created, as there. -/
theorem C105_as_in_fleet (e : Env) (s : SetObj) (cache : List Mach) (hs : Served e s cache) (hd : s.deleting = false) (hc : e.createOut = Fleet.allCreated)
    (w : List Fleet.M) (hn : (w.map Fleet.M.name).Nodup) (hw : (claimed e s cache).map Mach.view = w.map Fleet.view) (hp : ∀ l, (e.srt l).Perm l) :
    let plan := Fleet.plan e.srt { replicas := s.replicas, freezeLabel := s.freezeLabel } w
    (∀ n, .delete n ∈ (run e s cache).acts ↔ n ∈ Fleet.targets plan ∧ ∃ m ∈ w, m.name = n ∧ m.isDying = false)
    ∧ ∀ k, .create k ∈ (run e s cache).acts ↔ ∃ r, plan.creation = some r ∧ k = r.issued := by
  intro plan
  have hacts : (replicas e s (claimed e s cache)).acts = manage plan := by
    unfold replicas
    rw [hd]
    simp only [Bool.not_false, if_true]
    rw [hc, hw]
    rfl
  have hmem : ∀ a, (∀ f, a ≠ .claim f) → (∀ l, a ≠ .propagate l) → a ≠ .addFinalizer → (∀ st, a ≠ .status st) →
      (a ∈ (run e s cache).acts ↔ a ∈ manage plan) := by
    intro a h1 h2 h3 h4
    constructor
    · intro ha
      rcases (work e s cache a ha h3 h1 h2).2 with h | h
      · rwa [hacts] at h
      · exact absurd h (h4 _)
    · intro ha
      rw [← hacts] at ha
      have hin : a ∈ served e s cache := List.mem_append_right _ ha
      rcases run_cases e s cache with ⟨_, h | h⟩ | ⟨h, _⟩
      · rw [h]; exact hin
      · rw [h]; exact List.mem_append_left _ hin
      · exact absurd hs h
  have hview : ∀ m : Fleet.M, (Fleet.view m).deleting = m.isDying ∧ (Fleet.view m).name = m.name := by
    intro m; cases m <;> exact ⟨rfl, rfl⟩
  have hsub : ∀ x ∈ plan.staleTerminated ++ plan.victims, ∃ m ∈ w, Fleet.view m = x := by
    intro x hx
    rcases List.mem_append.1 hx with hx | hx
    · have hx : x ∈ (w.map Fleet.view).filter MachineSet.isStale := by
        have := MachineSet.staleTerminated_eq e.srt Fleet.allCreated (w.map Fleet.view) { replicas := s.replicas, freezeLabel := s.freezeLabel }
        rw [← this]; exact hx
      exact List.mem_map.1 (List.mem_filter.1 hx).1
    · obtain ⟨K, hK⟩ := MachineSet.victims_perm e.srt Fleet.allCreated (w.map Fleet.view) { replicas := s.replicas, freezeLabel := s.freezeLabel } hp
      exact List.mem_map.1 (List.mem_filter.1 (hK.mem_iff.1 (List.mem_append_left _ hx))).1
  have hun : ∀ a ∈ w, ∀ b ∈ w, a.name = b.name → a = b := by
    clear hsub hmem hacts hw
    clear plan
    induction w with
    | nil => intro a ha; exact (nomatch ha)
    | cons x l ih =>
      rw [List.map_cons, List.nodup_cons] at hn
      intro a ha b hb hab
      rcases List.mem_cons.1 ha with ha' | ha' <;> rcases List.mem_cons.1 hb with hb' | hb'
      · rw [ha', hb']
      · exact absurd (show x.name ∈ l.map Fleet.M.name from List.mem_map.2 ⟨b, hb', by rw [← hab, ha']⟩) hn.1
      · exact absurd (show x.name ∈ l.map Fleet.M.name from List.mem_map.2 ⟨a, ha', by rw [hab, hb']⟩) hn.1
      · exact ih hn.2 a ha' b hb' hab
  refine ⟨fun n => ?_, fun k => ?_⟩
  · rw [hmem (.delete n) (fun f h => (nomatch h)) (fun l h => (nomatch h)) (fun h => (nomatch h)) (fun l h => (nomatch h))]
    have hdel : .delete n ∈ manage plan ↔ ∃ x ∈ plan.staleTerminated ++ plan.victims, x.deleting = false ∧ x.name = n := by
      unfold manage
      rw [List.mem_append, List.mem_append, mem_dels, mem_dels]
      constructor
      · rintro ((⟨x, hx, hxd, he⟩ | h) | ⟨x, hx, hxd, he⟩)
        · injection he with he
          exact ⟨x, List.mem_append_left _ hx, hxd, he.symm⟩
        · obtain ⟨_, _, he⟩ := List.mem_map.1 h; exact (nomatch he)
        · injection he with he
          exact ⟨x, List.mem_append_right _ hx, hxd, he.symm⟩
      · rintro ⟨x, hx, hxd, he⟩
        rcases List.mem_append.1 hx with hx | hx
        · exact .inl (.inl ⟨x, hx, hxd, by rw [he]⟩)
        · exact .inr ⟨x, hx, hxd, by rw [he]⟩
    rw [hdel]
    unfold Fleet.targets
    constructor
    · rintro ⟨x, hx, hxd, he⟩
      obtain ⟨m, hm, hmx⟩ := hsub x hx
      refine ⟨List.mem_map.2 ⟨x, hx, he⟩, m, hm, ?_, ?_⟩
      · rw [← (hview m).2, hmx]; exact he
      · rw [← (hview m).1, hmx]; exact hxd
    · rintro ⟨ht, m, hm, hmn, hmd⟩
      obtain ⟨x, hx, he⟩ := List.mem_map.1 ht
      obtain ⟨m', hm', hmx⟩ := hsub x hx
      have : m' = m := hun m' hm' m hm (by rw [hmn, ← he, ← hmx, (hview m').2])
      subst this
      exact ⟨x, hx, by rw [← hmx, (hview m').1]; exact hmd, he⟩
  · rw [hmem (.create k) (fun f h => (nomatch h)) (fun l h => (nomatch h)) (fun h => (nomatch h)) (fun l h => (nomatch h))]
    unfold manage
    rw [List.mem_append, List.mem_append, mem_dels, mem_dels]
    constructor
    · rintro ((⟨_, _, _, he⟩ | h) | ⟨_, _, _, he⟩)
      · exact (nomatch he)
      · obtain ⟨r, hr, he⟩ := List.mem_map.1 h
        injection he with he
        exact ⟨r, by simpa using hr, he.symm⟩
      · exact (nomatch he)
    · rintro ⟨r, hr, he⟩
      exact .inl (.inr (List.mem_map.2 ⟨r, by rw [hr]; simp, by rw [he]⟩))

/-! ## What stops a run -/

theorem sync_all (f : SyncMachines.Field) (want : SyncMachines.Spec) (att : String → List SyncMachines.Attempt) (ms : List SyncMachines.Mach)
    (h : (SyncMachines.sync f want att ms).2 = true) : ∀ m ∈ ms, (SyncMachines.syncOne f want (att m.name) m).2 = true := by
  induction ms with
  | nil => intro m hm; exact (nomatch hm)
  | cons x xs ih =>
    rw [SyncMachines.sync] at h
    dsimp only at h
    split at h
    · rename_i hx
      intro m hm
      rcases List.mem_cons.1 hm with rfl | hm
      · exact hx
      · exact ih h m hm
    · exact (nomatch h)

/-- **The isolation of machines fails**: as long as the update of a single machine of the set is refused – its node template is not the set's, and the write fails –
no run creates or deletes a machine of the set or reports its status, however many machines are missing or broken, and whatever else succeeds. -/
theorem C105_one_machine_blocks_false (e : Env) (s : SetObj) (cache : List Mach) (hv : ∀ m ∈ cache, OneController m.obj) (m : Mach) (hm : m ∈ cache)
    (hl : s.sel m.labels = true) (hc : ControlledBy m.obj s.uid) (hact : isMachineActive m.view = true) (hdiff : m.cached.spec.template ≠ s.want.template)
    (rest : List SyncMachines.Attempt) (b : Bool) (hatt : e.att .template m.name = ⟨b, true⟩ :: rest) :
    (∀ n, .create n ∉ (run e s cache).acts) ∧ (∀ n, .delete n ∉ (run e s cache).acts) ∧ (∀ st, .status st ∉ (run e s cache).acts)
    ∧ (run e s cache).ending.again = false := by
  have hns : ¬ Served e s cache := by
    intro hs
    have hy := hs.synced
    unfold SyncMachines.reconcile at hy
    dsimp only at hy
    split at hy
    · rename_i h1
      have hmem : m.sync ∈ (claimed e s cache).map Mach.sync := List.mem_map_of_mem (claimed_of hv m hm hl hc)
      have := sync_all _ _ _ _ h1 _ hmem
      unfold SyncMachines.syncOne at this
      have hskip : m.sync.skipped .template = false := by
        show (!(isMachineActive m.view)) = false
        rw [hact]; rfl
      rw [hskip, if_neg (by simp), if_neg (show ¬ (m.sync.cached.spec.get .template = s.want.get .template) from hdiff)] at this
      have hn : m.sync.name = m.name := rfl
      rw [hn, hatt] at this
      simp [SyncMachines.write] at this
    · rename_i h1; exact h1 hy
  refine ⟨fun n h => ?_, fun n h => ?_, fun st h => ?_, ?_⟩
  · exact hns (work e s cache _ h (fun h => (nomatch h)) (fun f h => (nomatch h)) (fun l h => (nomatch h))).1
  · exact hns (work e s cache _ h (fun h => (nomatch h)) (fun f h => (nomatch h)) (fun l h => (nomatch h))).1
  · exact hns (work e s cache _ h (fun h => (nomatch h)) (fun f h => (nomatch h)) (fun l h => (nomatch h))).1
  · rcases run_cases e s cache with ⟨h, _⟩ | ⟨_, h, _⟩
    · exact absurd h hns
    · exact h

/-! ## Examples -/

def exSpec : SyncMachines.Spec := ⟨"t", "c", "k"⟩
/-- a machine of the set `u` -/
def exMine (n : String) : Mach := { name := n, owners := [⟨"u", true⟩], labels := [("a", "b")], stored := ⟨0, exSpec⟩, cached := ⟨0, exSpec⟩ }
/-- a machine of another set with the same labels -/
def exOther : Mach := { exMine "other" with owners := [⟨"v", true⟩] }
/-- a machine without controller -/
def exOrphan : Mach := { exMine "orphan" with owners := [] }
def exSet : SetObj := { uid := "u", replicas := 5, finalizer := false, sel := fun l => l.get "a" == "b", want := exSpec }
/-- the environment of a run in which everything works -/
def exEnv : Env := { live := some ⟨"u", false⟩ }

-- a run adds the finalizer, takes over the orphan, creates the two missing machines (in two calls after the first) and reports the three it has
example : (run exEnv exSet [exMine "m1", exOther, exOrphan, exMine "m2"]).acts.filter (fun a => match a with | .propagate _ => false | _ => true)
    = [.addFinalizer, .claim (.recheck true), .claim (.adopt exOrphan.obj), .create 2,
        .status { replicas := 3, fullyLabeled := 3, ready := 3, available := 3 }] := by decide +kernel
-- the conditions of `C105_serves` and `C105_as_in_fleet` hold for it
example : (claimed exEnv exSet [exMine "m1", exOther, exOrphan, exMine "m2"]).map Mach.view
    = [Fleet.M.live [] { name := "m1", st := { phase := .running } } {}, Fleet.M.live [] { name := "orphan", st := { phase := .running } } {},
        Fleet.M.live [] { name := "m2", st := { phase := .running } } {}].map Fleet.view := by decide +kernel
-- scaling in: one of the own machines goes, not the other set's
example : (run exEnv { exSet with replicas := 1 } [exMine "m1", exOther, exMine "m2"]).acts.contains (.delete "m1") = true
    ∧ (run exEnv { exSet with replicas := 1 } [exMine "m1", exOther, exMine "m2"]).acts.contains (.delete "other") = false := by decide +kernel
example : run exEnv exSet ([exMine "m1", exOther, exOrphan].filter fun m => m.name != "other") = run exEnv exSet [exMine "m1", exOther, exOrphan] :=
  C105_others_do_not_matter _ _ _ (by unfold OneController; decide +kernel) _ (by
    intro m hm hk
    left
    refine ⟨"v", ?_, by decide +kernel⟩
    simp only [List.mem_cons, List.not_mem_nil, or_false] at hm
    rcases hm with rfl | rfl | rfl
    · exact absurd hk (by decide +kernel)
    · unfold ControlledBy; decide +kernel
    · exact absurd hk (by decide +kernel))
-- deletion: all own machines go, then the finalizer
example : (run exEnv { exSet with deleting := true, finalizer := true } [exMine "m1", exOther]).acts.contains (.delete "m1") = true
    ∧ (run exEnv { exSet with deleting := true, finalizer := true } [exOther]).acts.contains .removeFinalizer = true := by decide +kernel
-- the hypotheses of the theorem on blocking are met: a set with one machine of five, whose new node template is refused
example : (run { exEnv with att := fun _ _ => [⟨false, true⟩] } { exSet with want := ⟨"t2", "c", "k"⟩ } [exMine "m1"]).ending = { again := false, ok := false } := by
  decide +kernel

end MCM.SetRun
