import Verif.Lemmas.MachineSet
import Verif.Props.SlowStart
/-!
# C02, C03, C04, C05, C54 – replica management of a MachineSet

Specification vocabulary: the *live* machines of a set are those that are neither Failed, nor Terminating, nor
marked for deletion; the *stale* ones are Failed or marked for deletion (priority "1" or trigger
annotation "true").
-/
namespace MCM.MachineSet
open MCM

/-! ## Independent specification -/

/-- marked for deletion by annotation -/
def SpecMarked (m : Machine) : Prop :=
  List.lookup "machinepriority.machine.sapcloud.io" m.annotations = some "1"
  ∨ List.lookup "node.machine.sapcloud.io/trigger-deletion-by-mcm" m.annotations = some "true"

def SpecStale (m : Machine) : Prop := m.phase = .failed ∨ SpecMarked m
def SpecLive (m : Machine) : Prop := ¬ SpecStale m ∧ m.phase ≠ .terminating

/-- number of live machines -/
noncomputable def specLiveCount (w : List Machine) : Nat :=
  open Classical in (w.filter (fun m => decide (SpecLive m))).length

/-- deletion priority: the annotation if it is a number, else 3 -/
def specPriority (m : Machine) : Int :=
  match List.lookup "machinepriority.machine.sapcloud.io" m.annotations with
  | none => 3
  | some s => match atoi s with
    | none => 3
    | some n => n

/-- the documented phase order, most disposable first -/
def docPhases : List Phase :=
  [.terminating, .failed, .crashLoopBackOff, .unknown, .pending, .available, .running]

/-- position in the documented order; phases outside it count as most disposable -/
def specPhasePos (p : Phase) : Nat := if p ∈ docPhases then docPhases.idxOf p else 0

/-- `a` is strictly preferable for deletion to `b` -/
def Preferable (a b : Machine) : Prop :=
  specPriority a < specPriority b
  ∨ (specPriority a = specPriority b ∧ specPhasePos a.phase < specPhasePos b.phase)
  ∨ (specPriority a = specPriority b ∧ specPhasePos a.phase = specPhasePos b.phase ∧ a.creation < b.creation)

/-! ## The model's notions agree with the specification -/

theorem get_eq_iff (m : SMap) (k v : String) (hv : v ≠ "") : m.get k = v ↔ List.lookup k m = some v := by
  unfold SMap.get
  cases h : List.lookup k m <;> simp [eq_comm, hv]

theorem isStale_iff (m : Machine) : isStale m = true ↔ SpecStale m := by
  unfold isStale SpecStale SpecMarked isMachineFailed isMachineTriggeredForDeletion machinePriorityKey triggerDeletionKey
  simp only [Bool.or_eq_true, beq_iff_eq]
  rw [get_eq_iff _ _ _ (by decide), get_eq_iff _ _ _ (by decide)]

theorem isLive_iff (m : Machine) : isLive m = true ↔ SpecLive m := by
  unfold isLive SpecLive
  rw [Bool.and_eq_true, ← isStale_iff]
  unfold isStale isMachineActive isMachineFailed
  rcases hp : m.phase <;> simp

theorem specLiveCount_eq (w : List Machine) : specLiveCount w = (w.filter isLive).length := by
  unfold specLiveCount
  congr 2
  funext m
  by_cases h : SpecLive m
  · simp [h, (isLive_iff m).2 h]
  · have : isLive m = false := by
      cases hl : isLive m
      · rfl
      · exact absurd ((isLive_iff m).1 hl) h
    simp [h, this]

theorem specPriority_eq (m : Machine) : specPriority m = priorityOf m := by
  unfold specPriority priorityOf SMap.get machinePriorityKey
  cases h : List.lookup "machinepriority.machine.sapcloud.io" m.annotations with
  | none => simp
  | some s =>
    by_cases hs : s = ""
    · subst hs
      simp [show atoi "" = none by decide +kernel]
    · simp [hs]
      cases atoi s <;> rfl

theorem specPhasePos_eq (p : Phase) : (specPhasePos p : Int) = phaseRank p := by
  cases p <;> decide

theorem less_iff (a b : Machine) : less a b = true ↔ Preferable a b := by
  unfold less Preferable
  rw [specPriority_eq, specPriority_eq]
  have ha := specPhasePos_eq a.phase
  have hb := specPhasePos_eq b.phase
  split
  · simp; omega
  · split
    · simp; omega
    · split
      · simp; omega
      · simp; omega

/-! ## C03 -/

/-- The comparison used is a strict weak order (what `sort.Sort` requires). -/
theorem C03_comparison_is_strict_weak_order :
    (∀ a, ¬ Preferable a a)
    ∧ (∀ a b c, Preferable a b → Preferable b c → Preferable a c)
    ∧ (∀ a b c, ¬ Preferable a b → ¬ Preferable b c → ¬ Preferable a c) := by
  refine ⟨?_, ?_, ?_⟩
  · intro a; unfold Preferable; omega
  · intro a b c; unfold Preferable; omega
  · intro a b c; unfold Preferable; omega

/-- **C03**.  For every list of machines, every number `d` of machines to remove and every permutation the
(unstable) library sort may produce: exactly `d` machines are chosen, chosen and kept machines together
are exactly the given ones, and no kept machine is strictly preferable for deletion to a chosen one. -/
theorem C03_victims_are_least_valuable (srt : List Machine → List Machine)
    (hs : ∀ l, IsSortOf less (srt l) l) (ms : List Machine) (d : Nat) (hd : d ≤ ms.length) :
    ∃ kept, (getMachinesToDelete srt ms d).length = d
      ∧ (getMachinesToDelete srt ms d ++ kept).Perm ms
      ∧ ∀ a ∈ getMachinesToDelete srt ms d, ∀ b ∈ kept, ¬ Preferable b a := by
  refine ⟨if d < ms.length then (srt ms).drop d else ms.drop d,
    victims_length srt (fun l => (hs l).perm) ms d hd, ?_, ?_⟩
  · unfold getMachinesToDelete
    split <;> rw [List.take_append_drop]
    exact (hs ms).perm
  · unfold getMachinesToDelete
    split
    · have hp := (hs ms).sorted
      rw [← List.take_append_drop d (srt ms), List.pairwise_append] at hp
      intro a ha b hb hpref
      have := hp.2.2 a ha b hb
      rw [← less_iff] at hpref
      simp [this] at hpref
    · have : ms.drop d = [] := by simp; omega
      simp [this]

/-- the hypothesis of C03 is satisfiable: a merge sort is one of the allowed sorts -/
theorem C03_sort_exists : ∀ l : List Machine, IsSortOf less (l.mergeSort (fun a b => !less b a)) l := by
  intro l
  refine ⟨List.mergeSort_perm l _, ?_⟩
  have h := List.pairwise_mergeSort (le := fun a b => !less b a) ?_ ?_ l
  · refine h.imp ?_
    intro a b hab
    simpa using hab
  · intro a b c hab hbc
    simp only [Bool.not_eq_true', ← Bool.not_eq_true, less_iff] at *
    have := C03_comparison_is_strict_weak_order.2.2 c b a
    simp_all
  · intro a b
    have h1 := less_iff a b
    have h2 := less_iff b a
    unfold Preferable at h1 h2
    cases hx : less b a <;> cases hy : less a b <;> simp_all <;> omega

/-- concrete case: of a running, a pending and an explicitly de-prioritised machine, scale-down by two keeps the running one -/
example :
    let run : Machine := { name := "r", phase := .running, creation := 1 }
    let pend : Machine := { name := "p", phase := .pending, creation := 5 }
    let low : Machine := { name := "l", phase := .running, creation := 9,
                           annotations := [("machinepriority.machine.sapcloud.io", "2")] }
    IsSortOf less [low, pend, run] [run, pend, low]
    ∧ (getMachinesToDelete (fun _ => [low, pend, run]) [run, pend, low] 2).map Machine.name = ["l", "p"] := by
  refine ⟨⟨by decide, by decide +kernel⟩, by decide⟩

/-! ## C04, C05 -/

/-- **C04**.  A frozen, not deleting MachineSet never issues a create call, whatever the machine
population; stale machines and surplus machines are handled as if it were not frozen. -/
theorem C04_frozen_never_creates (srt createOut) (all : List Machine) (ms : MSet)
    (hf : ms.freezeLabel = "True") (hd : ms.deleting = false) :
    (manageReplicas srt createOut all ms).issued = 0
    ∧ (manageReplicas srt createOut all ms).creation = none
    ∧ (manageReplicas srt createOut all ms).staleTerminated
        = (manageReplicas srt createOut all { ms with freezeLabel := "" }).staleTerminated
    ∧ (manageReplicas srt createOut all ms).victims
        = (manageReplicas srt createOut all { ms with freezeLabel := "" }).victims := by
  have e1 := manageReplicas_cases srt createOut all ms
  have e2 := manageReplicas_cases srt createOut all { ms with freezeLabel := "" }
  rcases e1 with ⟨a, _, h⟩ | ⟨_, hz, _⟩ | ⟨a, h⟩ | ⟨a, h⟩
  · rcases e2 with ⟨_, hz, _⟩ | ⟨_, _, h'⟩ | ⟨b, h'⟩ | ⟨b, h'⟩
    · simp at hz
    · rw [h, h']; simp [Outcome.issued]
    · simp at b; omega
    · simp at b; omega
  · exact absurd ⟨hf, hd⟩ hz
  · rcases e2 with ⟨b, _, _⟩ | ⟨b, _, h'⟩ | ⟨b, h'⟩ | ⟨b, h'⟩
    · simp at b; omega
    · simp at b; omega
    · rw [h, h']; simp [Outcome.issued]
    · simp at b; omega
  · rcases e2 with ⟨b, _, _⟩ | ⟨b, _, h'⟩ | ⟨b, h'⟩ | ⟨b, h'⟩
    · simp at b; omega
    · simp at b; omega
    · simp at b; omega
    · rw [h, h']; simp [Outcome.issued]

/-- and the label really is what blocks creation: any other label value lets the missing machines be requested -/
theorem C04_unfrozen_creates (srt createOut) (all : List Machine) (ms : MSet)
    (hf : ms.freezeLabel ≠ "True" ∨ ms.deleting = true) (hlt : specLiveCount all < ms.replicas) :
    0 < (manageReplicas srt createOut all ms).issued := by
  rw [specLiveCount_eq] at hlt
  rcases manageReplicas_cases srt createOut all ms with ⟨_, hz, h⟩ | ⟨_, _, h⟩ | ⟨_, h⟩ | ⟨_, h⟩
  · rcases hf with hf | hf <;> simp [hf] at hz
  rotate_left
  · omega
  · omega
  rw [h]
  unfold Outcome.issued
  dsimp only
  have hpos : 0 < min (ms.replicas - (all.filter isLive).length) burstReplicas := by
    unfold burstReplicas; omega
  generalize min (ms.replicas - (all.filter isLive).length) burstReplicas = d at hpos
  have hacc := SlowStart.C01_slowStart_accounting (fun i => createFnOk (createOut i)) d 1 (by omega)
  obtain ⟨h1, h2, h3, h4⟩ := hacc
  cases hfail : (SlowStart.slowStartBatch (fun i => createFnOk (createOut i)) d 1).failed
  · have := (h4 hfail).1; omega
  · obtain ⟨i, hi, _⟩ := h3.1 hfail
    omega

example : specLiveCount [{ name := "a", phase := .running }] < 3 := by
  rw [specLiveCount_eq]; decide

/-- **C05**.  In every `manageReplicas` call the machines terminated as stale are exactly the Failed or
marked ones; no other machine is terminated unless there are more live machines than desired; and the
machines terminated for surplus are live ones, never stale ones. -/
theorem C05_stale_always_terminated (srt createOut) (hs : ∀ l, (srt l).Perm l) (all : List Machine) (ms : MSet) :
    (∀ m, m ∈ (manageReplicas srt createOut all ms).staleTerminated ↔ m ∈ all ∧ SpecStale m)
    ∧ (∀ m ∈ (manageReplicas srt createOut all ms).victims,
        m ∈ all ∧ SpecLive m ∧ ms.replicas < specLiveCount all) := by
  constructor
  · intro m
    rw [staleTerminated_eq, List.mem_filter, isStale_iff]
  · intro m hm
    obtain ⟨K, hK⟩ := victims_perm srt createOut all ms hs
    have := List.mem_filter.1 (hK.subset (List.mem_append.2 (Or.inl hm)))
    rw [specLiveCount_eq]
    refine ⟨this.1, (isLive_iff m).1 this.2, ?_⟩
    rcases manageReplicas_cases srt createOut all ms with ⟨_, _, h⟩ | ⟨_, _, h⟩ | ⟨_, h⟩ | ⟨_, h⟩
    · simp [h] at hm
    · simp [h] at hm
    · assumption
    · simp [h] at hm

/-- Stale machines never count: how many machines are requested or removed depends only on the number of
live machines. -/
theorem C05_only_live_count (srt createOut) (hs : ∀ l, (srt l).Perm l) (all : List Machine) (ms : MSet)
    (hf : ms.freezeLabel ≠ "True") (hok : ∀ i, (createOut i).err = .none) :
    (manageReplicas srt createOut all ms).issued = min 100 (ms.replicas - specLiveCount all)
    ∧ (manageReplicas srt createOut all ms).victims.length = min 100 (specLiveCount all - ms.replicas) := by
  rw [specLiveCount_eq]
  rcases manageReplicas_cases srt createOut all ms with ⟨_, hz, h⟩ | ⟨_, _, h⟩ | ⟨_, h⟩ | ⟨_, h⟩ <;> rw [h] <;>
    unfold Outcome.issued <;> dsimp only
  · exact absurd hz.1 hf
  · generalize hd : min (ms.replicas - (all.filter isLive).length) burstReplicas = d
    obtain ⟨h1, h2, h3, h4⟩ := SlowStart.C01_slowStart_accounting (fun i => createFnOk (createOut i)) d 1 (by omega)
    have hnf : (SlowStart.slowStartBatch (fun i => createFnOk (createOut i)) d 1).failed = false := by
      cases hx : (SlowStart.slowStartBatch (fun i => createFnOk (createOut i)) d 1).failed
      · rfl
      · obtain ⟨i, _, hi⟩ := h3.1 hx
        simp [createFnOk, hok] at hi
    have := (h4 hnf).1
    clear h2 h3 h4
    unfold burstReplicas at hd
    simp only [List.length_nil]
    constructor <;> omega
  · rw [victims_length srt hs _ _ (by omega)]
    unfold burstReplicas
    constructor <;> omega
  · simp only [List.length_nil]
    constructor <;> omega

/-! ## C02 -/

/-- **C02** (per-reconcile bounds).  For any machine population and any outcome of the API calls: create
calls are issued only when live < desired and never more than min(100, desired - live); victims are
chosen only when live > desired, and exactly min(100, live - desired) of them; never both. -/
theorem C02_reconcile_bounds (srt createOut) (hs : ∀ l, (srt l).Perm l) (all : List Machine) (ms : MSet) :
    let out := manageReplicas srt createOut all ms
    out.issued ≤ min 100 (ms.replicas - specLiveCount all)
    ∧ out.victims.length = min 100 (specLiveCount all - ms.replicas)
    ∧ (out.issued = 0 ∨ out.victims = []) := by
  intro out
  rw [specLiveCount_eq]
  show (manageReplicas srt createOut all ms).issued ≤ _ ∧ (manageReplicas srt createOut all ms).victims.length = _
    ∧ ((manageReplicas srt createOut all ms).issued = 0 ∨ (manageReplicas srt createOut all ms).victims = [])
  rcases manageReplicas_cases srt createOut all ms with ⟨_, hz, h⟩ | ⟨_, _, h⟩ | ⟨_, h⟩ | ⟨_, h⟩ <;> rw [h] <;>
    unfold Outcome.issued <;> dsimp only
  · simp only [List.length_nil]; refine ⟨by omega, by omega, Or.inl trivial⟩
  · generalize hd : min (ms.replicas - (all.filter isLive).length) burstReplicas = d
    obtain ⟨h1, -⟩ := SlowStart.C01_slowStart_accounting (fun i => createFnOk (createOut i)) d 1 (by omega)
    unfold burstReplicas at hd
    simp only [List.length_nil]
    refine ⟨by omega, by omega, Or.inr trivial⟩
  · rw [victims_length srt hs _ _ (by omega)]
    unfold burstReplicas
    refine ⟨by omega, by omega, Or.inl rfl⟩
  · simp only [List.length_nil]; refine ⟨by omega, by omega, Or.inl trivial⟩

/-- Side conditions every stored population satisfies: names are unique, and the machines created in this
round are new objects. -/
structure Fresh (w new : List Machine) : Prop where
  names : ((w ++ new).map Machine.name).Nodup
  newLive : ∀ m ∈ new, SpecLive m ∧ m.deleting = false

/-- **C02** (never past the desired count, for arbitrary failures).  The cache shows the stored machines `w`.
Whatever the API calls answer, and whichever create calls left an object behind, the number of live
machines afterwards does not overshoot: it stays ≤ desired if it was ≤ desired, and ≥ desired if it
was ≥ desired. -/
theorem C02_never_past_desired (srt createOut termOut) (hs : ∀ l, (srt l).Perm l) (w new : List Machine) (ms : MSet)
    (hnew : new.length = landedCount createOut (manageReplicas srt createOut w ms).issued)
    (hfresh : Fresh w new) :
    let w' := apply termOut (manageReplicas srt createOut w ms) new w
    (specLiveCount w ≤ ms.replicas → specLiveCount w' ≤ ms.replicas)
    ∧ (ms.replicas ≤ specLiveCount w → ms.replicas ≤ specLiveCount w') := by
  intro w'
  have hb := C02_reconcile_bounds srt createOut hs w ms
  obtain ⟨hb1, hb2, hb3⟩ := hb
  have hst : (manageReplicas srt createOut w ms).staleTerminated = w.filter isStale := staleTerminated_eq ..
  have hnames : (w.map Machine.name).Nodup := by
    have := hfresh.names
    rw [List.map_append, List.nodup_append] at this
    exact this.1
  have hnl : (new.filter isLive).length = new.length := by
    rw [List.filter_eq_self.2]
    intro m hm
    exact (isLive_iff m).2 (hfresh.newLive m hm).1
  have hlanded : new.length ≤ (manageReplicas srt createOut w ms).issued := by
    rw [hnew]; unfold landedCount
    have := List.length_filter_le (fun i => (createOut i).landed) (List.range (manageReplicas srt createOut w ms).issued)
    simpa using this
  have hcount : specLiveCount w' = ((terminateMachines termOut (manageReplicas srt createOut w ms).victims
      (terminateMachines termOut (w.filter isStale) w)).filter isLive).length + new.length := by
    rw [specLiveCount_eq]
    show ((apply termOut (manageReplicas srt createOut w ms) new w).filter isLive).length = _
    unfold apply
    rw [List.filter_append, List.length_append, hnl, hst]
  have hw1 := filter_live_terminate_stale termOut w hnames
  have hle := live_after_victims_le termOut (terminateMachines termOut (w.filter isStale) w)
    (manageReplicas srt createOut w ms).victims
  rw [hw1] at hle
  rw [specLiveCount_eq w] at hb1 hb2 ⊢
  constructor
  · intro hlt
    rw [hcount]
    omega
  · intro hge
    rw [hcount]
    -- victims split
    obtain ⟨K, hK⟩ := victims_perm srt createOut w ms hs
    have hge2 := live_after_victims_ge termOut (w := terminateMachines termOut (w.filter isStale) w)
      (by rw [names_terminate]; exact hnames) (by rw [hw1]; exact hK)
    have hlen := hK.length_eq
    rw [List.length_append] at hlen
    omega

/-- One undisturbed round: the cache is current, all API calls succeed, and live machines are not already
being deleted. -/
structure Round (ms : MSet) (w w' : List Machine) : Prop where
  intro ::
  run : ∃ (srt : List Machine → List Machine) (createOut : Nat → CreateOutcome) (termOut : String → TermOutcome)
      (new : List Machine),
    (∀ l, (srt l).Perm l) ∧ (∀ i, createOut i = { err := .none, landed := true })
    ∧ (∀ n, termOut n = { deleteOk := true, statusOk := true })
    ∧ new.length = landedCount createOut (manageReplicas srt createOut w ms).issued
    ∧ Fresh w new
    ∧ w' = apply termOut (manageReplicas srt createOut w ms) new w

/-- unique names and live machines not being deleted -/
structure WF (w : List Machine) : Prop where
  names : (w.map Machine.name).Nodup
  live : ∀ m ∈ w, SpecLive m → m.deleting = false

/-- distance to the desired count -/
noncomputable def dist (ms : MSet) (w : List Machine) : Nat :=
  (ms.replicas - specLiveCount w) + (specLiveCount w - ms.replicas)

/-- **C02** (one round).  An undisturbed round shortens the distance to the desired count by
min(100, distance) and keeps the population well-formed. -/
theorem C02_round_progress (ms : MSet) (hf : ms.freezeLabel ≠ "True") (w w' : List Machine) (hw : WF w)
    (hr : Round ms w w') :
    WF w' ∧ dist ms w' = dist ms w - min 100 (dist ms w) := by
  obtain ⟨srt, createOut, termOut, new, hs, hc, ht, hnew, hfresh, rfl⟩ := hr.run
  have hst : (manageReplicas srt createOut w ms).staleTerminated = w.filter isStale := staleTerminated_eq ..
  have hcnt := C05_only_live_count srt createOut hs w ms hf (by intro i; rw [hc])
  obtain ⟨hi, hv⟩ := hcnt
  have hlen : new.length = (manageReplicas srt createOut w ms).issued := by
    rw [hnew]; unfold landedCount
    rw [List.filter_eq_self.2]
    · simp
    · intro i _; rw [hc]
  have hnl : (new.filter isLive).length = new.length := by
    rw [List.filter_eq_self.2]
    intro m hm
    exact (isLive_iff m).2 (hfresh.newLive m hm).1
  have hso : ∀ n, (termOut n).statusOk = true := by intro n; rw [ht]
  have hnd : ∀ m ∈ w, isLive m = true → m.deleting = false :=
    fun m hm hl => hw.live m hm ((isLive_iff m).1 hl)
  have hnd1 := live_not_deleting_terminate termOut (w.filter isStale) w hnd hso
  have hnd2 := live_not_deleting_terminate termOut (manageReplicas srt createOut w ms).victims _ hnd1 hso
  have hw1 := filter_live_terminate_stale termOut w hw.names
  refine ⟨⟨?_, ?_⟩, ?_⟩
  · unfold apply
    rw [List.map_append, names_terminate, names_terminate, ← List.map_append]
    exact hfresh.names
  · intro m hm hl
    unfold apply at hm
    rw [hst] at hm
    rcases List.mem_append.1 hm with hm | hm
    · exact hnd2 m hm ((isLive_iff m).2 hl)
    · exact (hfresh.newLive m hm).2
  · obtain ⟨K, hK⟩ := victims_perm srt createOut w ms hs
    have heq := live_after_victims_eq termOut hso (w := terminateMachines termOut (w.filter isStale) w)
      (by rw [names_terminate]; exact hw.names) hnd1 (by rw [hw1]; exact hK)
    have hcount : specLiveCount (apply termOut (manageReplicas srt createOut w ms) new w) = K.length + new.length := by
      rw [specLiveCount_eq]
      unfold apply
      rw [List.filter_append, List.length_append, hnl, hst, heq]
    have hlen2 := hK.length_eq
    rw [List.length_append] at hlen2
    unfold dist
    rw [hcount, hlen, hi]
    rw [specLiveCount_eq w] at *
    omega

/-- A chain of `n` undisturbed rounds. -/
inductive Rounds (ms : MSet) : Nat → List Machine → List Machine → Prop
  | zero (w) : Rounds ms 0 w w
  | succ {n w w1 w2} : Round ms w w1 → Rounds ms n w1 w2 → Rounds ms (n + 1) w w2

/-- **C02** (convergence).  From any well-formed population, any chain of `n` undisturbed rounds with
`100 * n ≥ distance` ends with exactly the desired number of live machines. -/
theorem C02_converges (ms : MSet) (hf : ms.freezeLabel ≠ "True") (n : Nat) (w w' : List Machine)
    (hw : WF w) (hr : Rounds ms n w w') (hn : dist ms w ≤ 100 * n) :
    specLiveCount w' = ms.replicas := by
  induction hr with
  | zero w => unfold dist at hn; omega
  | @succ n w w1 w2 h1 _ ih =>
    obtain ⟨hw1, hd⟩ := C02_round_progress ms hf w w1 hw h1
    exact ih hw1 (by omega)

/-- hypotheses of `C02_converges` are met: from an empty population with three machines wanted there is a round -/
example : ∃ w', Round { replicas := 3 } [] w' ∧ WF ([] : List Machine) := by
  refine ⟨_, ⟨id, fun _ => ⟨.none, true⟩, fun _ => ⟨true, true⟩,
    [{ name := "a" }, { name := "b" }, { name := "c" }], ?_, ?_, ?_, ?_, ?_, rfl⟩, ⟨by decide, by simp⟩⟩
  · intro l; exact List.Perm.refl _
  · intro i; rfl
  · intro n; rfl
  · decide +kernel
  · refine ⟨by decide, ?_⟩
    intro m hm
    rw [← isLive_iff]
    simp at hm
    rcases hm with rfl | rfl | rfl <;> decide

/-- The MachineSet controller does not consult its expectations (machineset.go:540 is commented out): with a
cache that does not yet show the machines created by the previous reconcile, the second reconcile creates
them again, so the stored population overshoots.  (The convergence theorem therefore needs an up-to-date
cache.) -/
theorem C02_stale_cache_overshoots :
    ∃ (ms : MSet) (cached : List Machine) (createOut : Nat → CreateOutcome),
      (manageReplicas id createOut cached ms).issued + (manageReplicas id createOut cached ms).issued > ms.replicas
      ∧ cached = [] :=
  ⟨{ replicas := 3 }, [], fun _ => ⟨.none, true⟩, by decide +kernel, rfl⟩

/-! ## C54 – a failed delete call -/

/-- **C54 is false of the code**: a Failed machine whose delete call fails (while the subsequent status
write succeeds) is left in phase Terminating without a deletion timestamp, and no later
reconcile of the set – whatever its size – ever terminates it, replaces it as stale, or counts it. -/
theorem C54_failed_delete_is_not_retried_false :
    ∃ m : Machine, SpecStale m ∧ m.deleting = false ∧
      let m' := prepareMachineForDeletion { deleteOk := false, statusOk := true } m
      m'.deleting = false ∧
      ∀ (srt : List Machine → List Machine) (createOut : Nat → CreateOutcome) (others : List Machine) (ms : MSet),
        (∀ l, (srt l).Perm l) → m'.name ∉ others.map Machine.name →
        m' ∉ (manageReplicas srt createOut (m' :: others) ms).staleTerminated
        ∧ m' ∉ (manageReplicas srt createOut (m' :: others) ms).victims := by
  refine ⟨{ name := "m", phase := .failed }, Or.inl rfl, rfl, ?_⟩
  intro m'
  refine ⟨rfl, ?_⟩
  intro srt createOut others ms hs hn
  have hc := C05_stale_always_terminated srt createOut hs (m' :: others) ms
  constructor
  · intro h
    have := ((hc.1 m').1 h).2
    rw [← isStale_iff] at this
    revert this
    decide
  · intro h
    have := (hc.2 m' h).2.1
    exact this.2 rfl

/-- **C54 partial**: a machine that is marked for deletion by annotation (and not merely Failed) *is* sent to
termination again after a failed delete call, in every later reconcile that still sees the annotation. -/
theorem C54_marked_machine_retried_partial (srt createOut) (hs : ∀ l, (srt l).Perm l) (m : Machine) (o : TermOutcome)
    (hm : SpecMarked m) (all : List Machine) (ms : MSet) (hmem : prepareMachineForDeletion o m ∈ all) :
    prepareMachineForDeletion o m ∈ (manageReplicas srt createOut all ms).staleTerminated := by
  rw [(C05_stale_always_terminated srt createOut hs all ms).1]
  refine ⟨hmem, Or.inr ?_⟩
  have : (prepareMachineForDeletion o m).annotations = m.annotations := by
    unfold prepareMachineForDeletion
    split
    · rfl
    · dsimp only; split <;> split <;> rfl
  unfold SpecMarked at *
  rw [this]
  exact hm

example : SpecMarked { name := "m", annotations := [("machinepriority.machine.sapcloud.io", "1")] } := by
  left; decide

end MCM.MachineSet
