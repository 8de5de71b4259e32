import Verif.Props.SetRun
/-!
C146: a run of the machine set controller that ends without an error has made the machines that were missing; failing deletions are not told.
-/
namespace MCM.SetRun
open MCM MCM.Claim Classical

/-! ## Specification -/

/-- the machines of the set that are in service: neither failed nor marked for deletion, nor going already -/
noncomputable def inService (s : SetObj) (acts : List Act) (cache : List Mach) : List Mach :=
  cache.filter fun m => decide (Own s acts m ∧ MachineSet.SpecLive m.view)

/-- what the run could not do: a create call that was answered with an error. After a timeout of the API server the machine may still come. -/
def Refused (e : Env) (n : Nat) : Prop := ∃ i < n, (e.createOut i).err = .other

/-! ## Proofs -/

/-- a run of a valid set that ends without an error got to the number of machines, had no error there, and comes back -/
theorem ended {e : Env} {s : SetObj} {cache : List Mach} (hv : e.valid = true) (hsel : e.selectorOk = true) (hok : (run e s cache).ending.ok = true) :
    Served e s cache ∧ (replicas e s (claimed e s cache)).err = false ∧ (run e s cache).ending.again = true := by
  unfold run at hok ⊢
  rw [hv, hsel] at hok ⊢
  simp only [Bool.not_true, Bool.false_eq_true, if_false] at hok ⊢
  cases hf : (needsFinalizer s && !e.addOk) with
  | true => rw [hf] at hok; exact (nomatch hok)
  | false =>
    rw [hf] at hok
    simp only [Bool.false_eq_true, if_false] at hok ⊢
    cases hc : (claim e s cache).2.1 with
    | true => rw [hc] at hok; exact (nomatch hok)
    | false =>
      rw [hc] at hok
      simp only [Bool.false_eq_true, if_false] at hok ⊢
      unfold serve at hok ⊢
      dsimp only at hok ⊢
      cases hy : (SyncMachines.reconcile s.want e.att ((claimed e s cache).map Mach.sync)).2 with
      | false => rw [hy] at hok; exact (nomatch hok)
      | true =>
        rw [hy] at hok
        simp only [Bool.not_true, Bool.false_eq_true, if_false] at hok ⊢
        cases hstop : (replicas e s (claimed e s cache)).stop with
        | true => rw [hstop] at hok; exact (nomatch hok)
        | false =>
          rw [hstop] at hok
          simp only [Bool.false_eq_true, if_false] at hok ⊢
          refine ⟨⟨hv, hsel, ?_, hc, hy⟩, ?_⟩
          · intro hn
            rw [hn] at hf
            simpa using hf
          · unfold report at hok ⊢
            dsimp only at hok ⊢
            split at hok
            · rename_i hw
              rw [if_pos hw]
              split at hok
              · rename_i hst
                rw [if_pos hst]
                exact ⟨by simpa using hok, rfl⟩
              · exact (nomatch hok)
            · rename_i hw
              rw [if_neg hw]
              exact ⟨by simpa using hok, rfl⟩

theorem served_part {e : Env} {s : SetObj} {cache : List Mach} (hs : Served e s cache) {a : Act} (ha : a ∈ (replicas e s (claimed e s cache)).acts) :
    a ∈ (run e s cache).acts := by
  rcases run_cases e s cache with ⟨_, h | h⟩ | ⟨h, _⟩
  · rw [h]; unfold served; exact List.mem_append_right _ ha
  · rw [h]; unfold served; exact List.mem_append_left _ (List.mem_append_right _ ha)
  · exact absurd hs h

/-- **C146**, as far as creations go (deletions: `C146_deletions_false`). A run that ends without an error, for a set that is neither going nor frozen, has made every create call that was due: together with the machines in service they make
up the size, unless there were a hundred of them. None was refused. And the run comes back after some time. -/
theorem C146_silent_made_all_partial (e : Env) (s : SetObj) (cache : List Mach) (hone : ∀ m ∈ cache, OneController m.obj) (hv : e.valid = true) (hsel : e.selectorOk = true)
    (hd : s.deleting = false) (hf : s.freezeLabel ≠ "True") (hok : (run e s cache).ending.ok = true) :
    (run e s cache).ending.again = true ∧ (s.replicas ≤ (inService s (run e s cache).acts cache).length ∨
      ∃ n, .create n ∈ (run e s cache).acts ∧ ¬ Refused e n ∧ (n = 100 ∨ s.replicas ≤ n + (inService s (run e s cache).acts cache).length)) := by
  obtain ⟨hs, herr, hag⟩ := ended hv hsel hok
  refine ⟨hag, ?_⟩
  have hle : (((claimed e s cache).map Mach.view).filter MachineSet.isLive).length ≤ (inService s (run e s cache).acts cache).length := by
    unfold inService
    rw [List.filter_map, List.length_map]
    show ((claimed e s cache).filter (MachineSet.isLive ∘ Mach.view)).length ≤ _
    have hsub : ((claimed e s cache).filter (MachineSet.isLive ∘ Mach.view)) =
        cache.filter fun m => (MachineSet.isLive ∘ Mach.view) m && (claim e s cache).1.contains m.obj := by
      unfold claimed
      rw [List.filter_filter]
    rw [hsub, ← List.countP_eq_length_filter, ← List.countP_eq_length_filter]
    apply List.countP_mono_left
    intro m hm hx
    rw [Bool.and_eq_true] at hx
    have hmc : m ∈ claimed e s cache := by unfold claimed; exact List.mem_filter.2 ⟨hm, hx.2⟩
    exact decide_eq_true ⟨(claimed_own hone hs m hmc).2, (MachineSet.isLive_iff _).1 hx.1⟩
  have hrep : replicas e s (claimed e s cache) =
      { acts := manage (MachineSet.manageReplicas e.srt e.createOut ((claimed e s cache).map Mach.view) { replicas := s.replicas, freezeLabel := s.freezeLabel }),
        err := (MachineSet.manageReplicas e.srt e.createOut ((claimed e s cache).map Mach.view) { replicas := s.replicas, freezeLabel := s.freezeLabel }).err } := by
    unfold replicas
    rw [hd]
    rfl
  rcases MachineSet.manageReplicas_cases e.srt e.createOut ((claimed e s cache).map Mach.view) { replicas := s.replicas, freezeLabel := s.freezeLabel } with
    ⟨_, h, _⟩ | ⟨h1, _, h⟩ | ⟨h, _⟩ | ⟨h, _⟩
  · exact absurd h.1 hf
  · right
    dsimp only at h1
    generalize hc : MachineSet.manageReplicas e.srt e.createOut ((claimed e s cache).map Mach.view) { replicas := s.replicas, freezeLabel := s.freezeLabel } = o at h hrep
    have hfail : (SlowStart.slowStartBatch (fun i => MachineSet.createFnOk (e.createOut i))
        (min (s.replicas - (((claimed e s cache).map Mach.view).filter MachineSet.isLive).length) MachineSet.burstReplicas) 1).failed = false := by
      rw [hrep, h] at herr
      exact herr
    obtain ⟨_, _, k3, k4⟩ := SlowStart.C01_slowStart_accounting (fun i => MachineSet.createFnOk (e.createOut i))
      (min (s.replicas - (((claimed e s cache).map Mach.view).filter MachineSet.isLive).length) MachineSet.burstReplicas) 1 Nat.one_pos
    have k4 := (k4 hfail).1
    dsimp only at h
    generalize SlowStart.slowStartBatch _ _ _ = r at h hfail k3 k4
    refine ⟨r.issued, served_part hs (by
      rw [hrep, h]
      unfold manage
      exact List.mem_append_left _ (List.mem_append_right _ (List.mem_map.2 ⟨r, Option.mem_toList.2 rfl, rfl⟩))), ?_, ?_⟩
    · rintro ⟨i, hi, hc⟩
      rw [k3.2 ⟨i, hi, by unfold MachineSet.createFnOk; rw [hc]; rfl⟩] at hfail
      cases hfail
    · rw [k4]
      have hb : MachineSet.burstReplicas = 100 := rfl
      rw [hb]
      omega
  · left; dsimp only at h; omega
  · left; dsimp only at h; omega

/-- **C146**, the other way round: when a create call is refused, the run ends with an error. -/
theorem C146_refused_is_told (e : Env) (s : SetObj) (cache : List Mach) (n : Nat) (hc : .create n ∈ (run e s cache).acts) (hr : Refused e n) :
    (run e s cache).ending.ok = false := by
  obtain ⟨hs, hw⟩ := work e s cache _ hc (fun h => (nomatch h)) (fun f h => (nomatch h)) (fun l h => (nomatch h))
  rcases hw with hw | hw
  case inr => exact (nomatch hw)
  rw [← Bool.not_eq_true]
  intro hok
  obtain ⟨_, herr, _⟩ := ended hs.valid hs.selector hok
  have hno : ∀ l, Act.create n ∉ dels l := fun l h => by
    obtain ⟨_, _, _, he⟩ := (mem_dels l _).1 h; exact (nomatch he)
  unfold replicas at hw herr
  split at hw
  · rename_i hd
    rw [if_pos hd] at herr
    dsimp only at hw herr
    rcases MachineSet.manageReplicas_cases e.srt e.createOut ((claimed e s cache).map Mach.view) { replicas := s.replicas, freezeLabel := s.freezeLabel } with
      ⟨_, _, h⟩ | ⟨h1, _, h⟩ | ⟨_, h⟩ | ⟨_, h⟩
    case inr.inl =>
      rw [h] at hw herr
      unfold manage at hw
      dsimp only at hw herr
      rcases List.mem_append.1 hw with hw | hw
      case inr => exact hno _ hw
      rcases List.mem_append.1 hw with hw | hw
      case inl => exact hno _ hw
      obtain ⟨r, hr', he⟩ := List.mem_map.1 hw
      injection he with he
      have hr' := Option.some.inj (Option.mem_toList.1 hr')
      obtain ⟨_, _, k3, _⟩ := SlowStart.C01_slowStart_accounting (fun i => MachineSet.createFnOk (e.createOut i))
        (min (s.replicas - (((claimed e s cache).map Mach.view).filter MachineSet.isLive).length) MachineSet.burstReplicas) 1 Nat.one_pos
      obtain ⟨i, hi, hx⟩ := hr
      rw [k3.2 ⟨i, by rw [hr', he]; exact hi, by unfold MachineSet.createFnOk; rw [hx]; rfl⟩] at herr
      cases herr
    all_goals
      rw [h] at hw
      unfold manage at hw
      dsimp only at hw
      rcases List.mem_append.1 hw with hw | hw
      · rcases List.mem_append.1 hw with hw | hw
        · exact hno _ hw
        · exact (nomatch hw)
      · exact hno _ hw
  · split at hw
    · split at hw
      · have := List.mem_singleton.1 hw; exact (nomatch this)
      · exact (nomatch hw)
    · split at hw
      · exact hno _ hw
      · exact (nomatch hw)

/-- **Failing deletions are not told**: a set that wants one of its two machines, where the API server refuses every call about machines. Nothing changes, and the run ends without an
error; so does the run on the set when it is being deleted itself. -/
theorem C146_deletions_false :
    let cache := [exMine "m1", exMine "m2"]
    let s := { exSet with replicas := 1, finalizer := true }
    let refuse : String → MachineSet.TermOutcome := fun _ => ⟨false, false⟩
    (run exEnv s cache).ending = { again := true, ok := true } ∧ .delete "m1" ∈ (run exEnv s cache).acts
      ∧ MachineSet.apply refuse (MachineSet.manageReplicas exEnv.srt exEnv.createOut (cache.map Mach.view) { replicas := 1 }) [] (cache.map Mach.view) = cache.map Mach.view
      ∧ (run exEnv { s with deleting := true } cache).ending = { again := true, ok := true }
      ∧ .delete "m1" ∈ (run exEnv { s with deleting := true } cache).acts ∧ .delete "m2" ∈ (run exEnv { s with deleting := true } cache).acts := by
  decide +kernel

/-! ## Instances -/

-- two machines are missing, both are made: no error; the second is refused: an error
example : (run exEnv exSet [exMine "m1", exMine "m2", exMine "m3"]).ending = { again := true, ok := true }
    ∧ .create 2 ∈ (run exEnv exSet [exMine "m1", exMine "m2", exMine "m3"]).acts
    ∧ (run { exEnv with createOut := fun i => if i = 1 then ⟨.other, false⟩ else ⟨.none, true⟩ } exSet [exMine "m1", exMine "m2", exMine "m3"]).ending.ok = false := by decide +kernel
-- after a timeout of the API server the run does not complain
example : (run { exEnv with createOut := fun _ => ⟨.timeout, false⟩ } exSet [exMine "m1", exMine "m2", exMine "m3"]).ending.ok = true := by decide +kernel

end MCM.SetRun
