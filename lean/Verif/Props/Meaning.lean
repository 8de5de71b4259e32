import Verif.Props.SetRun
import Verif.Props.Status
import Verif.Model.Rolling
/-!
# C137 – the status says what the API documentation says

machineset_types.go:107-137, machinedeployment_types.go:185-260: available machines are those "ready for at least minReadySeconds"; the replicas of a deployment are its "non-terminated
machines"; the condition ReplicaFailure "is added when one of its machines fails to be created or deleted".
-/
namespace MCM.Meaning
open MCM MCM.SetRun MCM.Status

/-! ## Independent specification -/

/-- one of the creations that were asked for was refused; a timeout is no answer -/
def Refused (e : Env) (acts : List Act) : Prop := ∃ n, Act.create n ∈ acts ∧ ∃ i, i < n ∧ (e.createOut i).err = .other

/-- a machine, and since when it is in phase Running -/
structure Watched where
  m : SMachine
  since : Option Int

/-- ready for so many seconds; times are nanoseconds -/
def ReadyFor (minReady now : Int) (w : Watched) : Prop := ∃ t, w.since = some t ∧ t + minReady * 1000000000 ≤ now

instance (minReady now : Int) (w : Watched) : Decidable (ReadyFor minReady now w) :=
  match h : w.since with
  | none => isFalse (by rintro ⟨t, ht, _⟩; rw [h] at ht; cases ht)
  | some t => if hb : t + minReady * 1000000000 ≤ now then isTrue ⟨t, h, hb⟩
    else isFalse (by rintro ⟨u, hu, hv⟩; rw [h] at hu; cases hu; exact hb hv)

/-- the number of available machines according to the documentation -/
def promised (minReady now : Int) (l : List Watched) : Nat := l.countP fun w => decide (ReadyFor minReady now w)

/-! ## Failed creations -/

theorem issued_refused (createOut : Nat → MachineSet.CreateOutcome) (d : Nat) :
    (SlowStart.slowStartBatch (fun i => MachineSet.createFnOk (createOut i)) d 1).failed = true ↔
      ∃ i, i < (SlowStart.slowStartBatch (fun i => MachineSet.createFnOk (createOut i)) d 1).issued ∧ (createOut i).err = .other := by
  obtain ⟨_, _, h, _⟩ := SlowStart.C01_slowStart_accounting (fun i => MachineSet.createFnOk (createOut i)) d 1 (by omega)
  rw [h]
  refine exists_congr fun i => and_congr_right fun _ => ?_
  unfold MachineSet.createFnOk
  cases (createOut i).err <;> simp

theorem create_dels (n : Nat) (l : List Machine) : Act.create n ∉ dels l := fun h => by
  obtain ⟨_, _, _, he⟩ := (mem_dels l _).1 h; exact (nomatch he)

theorem replicas_err (e : Env) (s : SetObj) (ms : List Mach) : (replicas e s ms).err = true ↔ Refused e (replicas e s ms).acts := by
  unfold Refused
  unfold SetRun.replicas
  split
  · dsimp only
    generalize hw : ms.map Mach.view = w
    have hm : ∀ o : MachineSet.Outcome, ∀ n, Act.create n ∈ manage o ↔ ∃ r, o.creation = some r ∧ r.issued = n := by
      intro o n
      unfold manage
      rw [List.mem_append, List.mem_append]
      constructor
      · rintro ((h | h) | h)
        · exact absurd h (create_dels n _)
        · obtain ⟨r, hr, he⟩ := List.mem_map.1 h
          injection he with he
          exact ⟨r, by simpa using hr, he⟩
        · exact absurd h (create_dels n _)
      · rintro ⟨r, hr, rfl⟩
        exact .inl (.inr (List.mem_map.2 ⟨r, by simpa using hr, rfl⟩))
    simp only [hm]
    rcases MachineSet.manageReplicas_cases e.srt e.createOut w { replicas := s.replicas, freezeLabel := s.freezeLabel } with ⟨_, _, h⟩ | ⟨_, _, h⟩ | ⟨_, h⟩ | ⟨_, h⟩ <;> rw [h]
    · simp
    · dsimp only
      rw [issued_refused]
      constructor
      · rintro ⟨i, h1, h2⟩; exact ⟨_, ⟨_, rfl, rfl⟩, i, h1, h2⟩
      · rintro ⟨n, ⟨r, hr, rfl⟩, i, h1, h2⟩
        obtain rfl := Option.some.inj hr
        exact ⟨i, h1, h2⟩
    · simp
    · simp
  · have hd : ∀ l n, Act.create n ∉ dels l := fun l n => create_dels n l
    split
    · split <;> simp
    · split <;> simp [hd]

theorem refused_served {e : Env} {s : SetObj} {cache : List Mach} (hs : Served e s cache) :
    Refused e (run e s cache).acts ↔ Refused e (replicas e s (claimed e s cache)).acts := by
  unfold Refused
  refine exists_congr fun n => and_congr_left fun _ => ?_
  constructor
  · intro h
    obtain ⟨_, h | h⟩ := work e s cache _ h (fun h => (nomatch h)) (fun f h => (nomatch h)) (fun l h => (nomatch h))
    · exact h
    · exact (nomatch h)
  · intro h
    have hin : Act.create n ∈ served e s cache := List.mem_append_right _ h
    rcases run_cases e s cache with ⟨_, h | h⟩ | ⟨h, _⟩
    · rw [h]; exact hin
    · rw [h]; exact List.mem_append_left _ hin
    · exact absurd hs h

theorem status_served {e : Env} {s : SetObj} {cache : List Mach} {st : SetStatus} (h : Act.status st ∈ (run e s cache).acts) :
    Served e s cache ∧ st = newStatus e s cache := by
  obtain ⟨hs, hw⟩ := work e s cache _ h (fun h => (nomatch h)) (fun f h => (nomatch h)) (fun l h => (nomatch h))
  refine ⟨hs, ?_⟩
  rcases hw with hw | hw
  · exfalso
    have hno : ∀ l, Act.status st ∉ dels l := fun l h => by
      obtain ⟨_, _, _, he⟩ := (mem_dels l _).1 h; exact (nomatch he)
    unfold SetRun.replicas at hw
    split at hw
    · dsimp only at hw
      unfold manage at hw
      rcases List.mem_append.1 hw with hw | hw
      · rcases List.mem_append.1 hw with hw | hw
        · exact hno _ hw
        · obtain ⟨_, _, he⟩ := List.mem_map.1 hw; exact (nomatch he)
      · exact hno _ hw
    · split at hw
      · split at hw
        · have := List.mem_singleton.1 hw; exact (nomatch this)
        · exact (nomatch hw)
      · split at hw
        · exact hno _ hw
        · exact (nomatch hw)
  · injection hw

/-- The status that a run writes shows ReplicaFailure exactly if a creation was refused in this run. -/
theorem C137_creation_failures (e : Env) (s : SetObj) (cache : List Mach) (st : SetStatus) (h : Act.status st ∈ (run e s cache).acts) :
    ofType st.conds "ReplicaFailure" ≠ [] ↔ Refused e (run e s cache).acts := by
  obtain ⟨hs, rfl⟩ := status_served h
  rw [refused_served hs, ← replicas_err]
  unfold newStatus
  exact C19_replica_failure_reported ..

/-- A run that comes to its end without writing the status leaves one that shows it exactly then. -/
theorem C137_creation_failures_known (e : Env) (s : SetObj) (cache : List Mach) (ha : (run e s cache).ending.again = true)
    (h : ∀ st, Act.status st ∉ (run e s cache).acts) : ofType s.status.conds "ReplicaFailure" ≠ [] ↔ Refused e (run e s cache).acts := by
  have hs : Served e s cache := by
    rcases run_cases e s cache with ⟨h, _⟩ | ⟨_, h, _⟩
    · exact h
    · rw [ha] at h; cases h
  have hconds : s.status.conds = (newStatus e s cache).conds := by
    have hr : run e s cache = serve e s (claimed e s cache) (protect s ++ (claim e s cache).2.2.map .claim) := by
      unfold run
      rw [hs.valid, hs.selector]
      dsimp only
      rw [hs.claimed]
      have : (needsFinalizer s && !e.addOk) = false := by
        cases hn : needsFinalizer s with
        | false => rfl
        | true => rw [hs.protected_ hn]; rfl
      rw [this]
      rfl
    rw [hr] at ha h
    unfold serve at ha h
    dsimp only at ha h
    rw [hs.synced] at ha h
    simp only [Bool.not_true, Bool.false_eq_true, if_false] at ha h
    split at ha
    · cases ha
    · rename_i hst
      rw [if_neg hst] at h
      unfold report at h
      dsimp only at h
      split at h
      · exfalso
        split at h <;> exact h _ (List.mem_append_right _ (List.mem_singleton.2 rfl))
      · rename_i hw
        have hw : setWriteNeeded s.status (newStatus e s cache) s.generation s.observed = false := by
          unfold newStatus; simpa using hw
        unfold setWriteNeeded at hw
        simp only [Bool.not_eq_false', Bool.and_eq_true, decide_eq_true_eq] at hw
        exact hw.1.2
  rw [hconds, refused_served hs, ← replicas_err]
  unfold newStatus
  exact C19_replica_failure_reported ..

/-- If fewer machines than wanted belong to the set, and the failure is new, its reason is FailedCreate. -/
theorem C137_reason_partial (e : Env) (s : SetObj) (cache : List Mach) (st : SetStatus) (h : Act.status st ∈ (run e s cache).acts) (hr : Refused e (run e s cache).acts)
    (hold : ofType s.status.conds "ReplicaFailure" = []) (hfew : st.replicas < s.replicas) :
    ∃ c, ofType st.conds "ReplicaFailure" = [c] ∧ c.status = "True" ∧ c.reason = "FailedCreate" := by
  obtain ⟨hs, rfl⟩ := status_served h
  rw [refused_served hs, ← replicas_err] at hr
  have hlen : (((claimed e s cache).map Mach.counted).length : Int) - s.replicas < 0 := by
    have : (newStatus e s cache).replicas = (((claimed e s cache).map Mach.counted).length : Int) := rfl
    omega
  have hg : getCond s.status.conds replicaFailure = none := by
    rw [getCond_eq]
    show (ofType s.status.conds "ReplicaFailure").head? = none
    rw [hold]; rfl
  refine ⟨newCond e.now replicaFailure "True" "FailedCreate", ?_, rfl, rfl⟩
  have hc : (newStatus e s cache).conds = setCondMS s.status.conds (newCond e.now replicaFailure "True" "FailedCreate") := by
    unfold newStatus calcSet
    dsimp only
    rw [hr, hg, if_pos hlen]
    rfl
  rw [hc]
  exact (C20_set_machineSet_condition s.status.conds (newCond e.now replicaFailure "True" "FailedCreate")).2.2 (by
    intro cur hcur
    change (ofType s.status.conds "ReplicaFailure").head? = some cur at hcur
    rw [hold] at hcur; cases hcur)

/-- a machine of the set `u` -/
def exMach (n : String) (p : Phase) (deleting : Bool) : Mach :=
  { name := n, labels := [("a", "b")], owners := [⟨"u", true⟩], phase := p, deleting := deleting, stored := ⟨1, ⟨"t", "c", "k"⟩⟩, cached := ⟨1, ⟨"t", "c", "k"⟩⟩ }

/-- a set of two machines -/
def exTwo : SetObj := { uid := "u", replicas := 2, sel := fun l => l == [("a", "b")], want := ⟨"t", "c", "k"⟩ }

/-- the hypotheses of the theorems above are met: one machine is missing, and its creation is refused -/
example : (run { createOut := fun _ => ⟨.other, false⟩ } exTwo [exMach "m1" .running false]).acts.contains
    (.status { replicas := 1, fullyLabeled := 1, ready := 1, available := 1, conds := [⟨"ReplicaFailure", "True", "FailedCreate", 0, 0⟩] }) = true := by decide +kernel

/-- The reason may be wrong: if machines are still being deleted, a refused creation is reported as a failed deletion. -/
theorem C137_reason_false : ∃ (e : Env) (s : SetObj) (cache : List Mach) (st : SetStatus), Act.status st ∈ (run e s cache).acts ∧ Refused e (run e s cache).acts ∧
    (∀ n, Act.delete n ∉ (run e s cache).acts) ∧ st.conds = [⟨"ReplicaFailure", "True", "FailedDelete", 0, 0⟩] := by
  refine ⟨{ createOut := fun _ => ⟨.other, false⟩ }, exTwo, [exMach "m1" .terminating true, exMach "m2" .terminating true, exMach "m3" .terminating true],
    { replicas := 3, fullyLabeled := 3, ready := 0, available := 0, conds := [⟨"ReplicaFailure", "True", "FailedDelete", 0, 0⟩] }, ?_, ⟨1, ?_, 0, by decide, rfl⟩, ?_, rfl⟩
  · exact List.contains_iff_mem.1 (by decide +kernel)
  · exact List.contains_iff_mem.1 (by decide +kernel)
  · intro n hn
    have : ((run { createOut := fun _ => ⟨.other, false⟩ } exTwo [exMach "m1" .terminating true, exMach "m2" .terminating true, exMach "m3" .terminating true]).acts.any
      fun a => match a with | .delete _ => true | _ => false) = false := by decide +kernel
    rw [List.any_eq_false] at this
    exact this _ hn rfl

/-- Failed deletions are not reported at all: whatever is answered to the calls that delete machines (the run does not look at it), the status shows no failure. -/
theorem C137_deletion_failure_false : ∃ (e : Env) (s : SetObj) (cache : List Mach) (st : SetStatus), Act.status st ∈ (run e s cache).acts ∧
    Act.delete "m1" ∈ (run e s cache).acts ∧ st.conds = [] :=
  ⟨{}, { exTwo with replicas := 0 }, [exMach "m1" .running false], { replicas := 1, fullyLabeled := 1, ready := 1, available := 1 },
    List.contains_iff_mem.1 (by decide +kernel), List.contains_iff_mem.1 (by decide +kernel), rfl⟩

/-! ## Numbers -/

/-- The replicas reported are the machines that are not terminated, and those that are being terminated. -/
theorem C137_replicas_partial (now spec : Int) (cur : SetStatus) (ms : List SMachine) (err : Bool) :
    (calcSet now spec cur ms err).replicas = inPhase ms (· ≠ .terminating) + inPhase ms (· = .terminating) := by
  show ((ms.length : Nat) : Int) = _
  unfold inPhase
  induction ms with
  | nil => rfl
  | cons m ms ih =>
    rw [List.countP_cons, List.countP_cons, List.length_cons]
    push_cast at ih ⊢
    rw [ih]
    by_cases h : m.phase = .terminating
    · simp only [h, ne_eq, not_true_eq_false, decide_false, decide_true, if_true, Bool.false_eq_true, if_false]; push_cast; omega
    · simp only [h, ne_eq, not_false_eq_true, decide_false, decide_true, if_true, Bool.false_eq_true, if_false]; push_cast; omega

/-- A machine that is being terminated counts: a deployment of one machine with a new set reports two machines, though only one is not terminated. -/
theorem C137_terminated_counted_false : ∃ (d : DDep) (l1 l2 : List SMachine), inPhase (l1 ++ l2) (· ≠ .terminating) = 1 ∧
    (calcDep 0 d [⟨"old", 0, calcSet 0 0 {} l1 false⟩, ⟨"new", 1, calcSet 0 1 {} l2 false⟩] (some ⟨"new", 1, calcSet 0 1 {} l2 false⟩)).replicas = 2 :=
  ⟨{ dep := { replicas := 1, maxSurge := some (.int 1), maxUnavailable := some (.int 0) } }, [{ name := "m1", phase := .terminating }], [{ name := "m2", phase := .running }],
    by decide, by decide +kernel⟩

/-- Without minReadySeconds, and for machines in none of the phases that no controller gives (Available), the available machines are those that are ready. -/
theorem C137_available_partial (now spec : Int) (cur : SetStatus) (l : List Watched) (err : Bool) (hrun : ∀ w ∈ l, w.m.phase = .running ↔ w.since.isSome = true)
    (hpast : ∀ w ∈ l, ∀ t, w.since = some t → t ≤ now) (hno : ∀ w ∈ l, w.m.phase ≠ .available) :
    (calcSet now spec cur (l.map (·.m)) err).available = promised 0 now l := by
  rw [calcSet_available]
  unfold inPhase promised
  rw [List.countP_map]
  congr 1
  refine List.countP_congr fun w hw => ?_
  have h1 := hrun w hw
  have h2 := hno w hw
  simp only [Function.comp, decide_eq_true_eq]
  constructor
  · rintro (h | h)
    · exact absurd h h2
    · cases hs : w.since with
      | none => have := h1.1 h; rw [hs] at this; cases this
      | some t => exact ⟨t, hs, by have := hpast w hw t hs; omega⟩
  · rintro ⟨t, ht, _⟩
    exact .inr (h1.2 (by rw [ht]; rfl))

example : (calcSet 5 2 {} ([⟨{ name := "a", phase := .running }, some 5⟩, ⟨{ name := "b", phase := .pending }, none⟩].map (Watched.m)) false).available = 1 := by decide +kernel

/-- how the deployment controller sees a set with these machines -/
def seen (name : String) (spec : Int) (now : Int) (l : List Watched) : Rolling.MS :=
  { name := name, spec := spec, status := (calcSet now spec {} (l.map (·.m)) false).replicas, avail := (calcSet now spec {} (l.map (·.m)) false).available }

/-- minReadySeconds has no effect: with ten minutes asked for and no unavailability allowed, the only machine that has been ready so long is removed at the moment another one becomes
Running. -/
theorem C137_min_ready_false : ∃ (d : Rolling.Dep) (now : Int) (old new : List Watched), Rolling.minAvailable d = 1 ∧ promised 600 now old = 1 ∧ promised 600 now new = 0 ∧
    (Rolling.rolloutStep d {} [seen "old" 1 now old] (seen "new" 1 now new)).1.map (·.spec) = [0] :=
  ⟨{ replicas := 1, maxSurge := some (.int 1), maxUnavailable := some (.int 0) }, 3600000000000, [⟨{ name := "m1", phase := .running }, some 0⟩],
    [⟨{ name := "m2", phase := .running }, some 3600000000000⟩], by decide +kernel, by decide +kernel, by decide +kernel, by decide +kernel⟩

end MCM.Meaning
