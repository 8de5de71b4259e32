import Verif.Model.Stuck
import Verif.Props.Status
/-!
C121: a rollout that is stuck is reported as such soon after its deadline.

The runs of the controller are those of `Model/Stuck.lean`; what is demanded of them is stated with the condition found in the stored status,
by type, status and reason, and with the times of the runs.
-/
namespace MCM.Stuck
open MCM MCM.Status

/-- the condition a reader finds, by type -/
def shown (st : DStatus) (t : String) : Option Cond := (ofType st.conds t).head?

/-- the status says that the deadline was exceeded -/
def Reported (st : DStatus) : Prop :=
  ∃ k, shown st "Progressing" = some k ∧ k.status = "False" ∧ k.reason = "ProgressDeadlineExceeded"

/-- The rollout is not finished: counted over the sets, there are not exactly the wanted number of machines, all of the current template and
all available. -/
def Unfinished (d : DDep) (all : List DSet) (new : Option DSet) : Prop :=
  ¬ ((all.map (·.st.replicas)).sum = d.dep.replicas ∧ (new.toList.map (·.st.replicas)).sum = d.dep.replicas ∧
    (all.map (·.st.available)).sum = d.dep.replicas)

theorem unfinished_iff (d : DDep) (all : List DSet) (new : Option DSet) (st : DStatus) (now : Int) :
    Unfinished d all new ↔ ¬ Finished (at_ d st) (calcDep now (at_ d st) all new) := by
  constructor
  · intro h hf
    exact h ⟨hf.1, hf.2.1, hf.2.2.1⟩
  · intro h hf
    exact h ⟨hf.1, hf.2.1, hf.2.2, Int.le_refl _⟩

/-! ### the condition after a run -/

theorem whole_le (t : Int) : whole t ≤ t := by
  unfold whole second
  omega

theorem shown_stored (n : DStatus) (t : String) :
    shown (stored n) t = (shown n t).map fun c => { c with updated := whole c.updated, transitioned := whole c.transitioned } := by
  show ((n.conds.map _).filter _).head? = ((n.conds.filter _).head?).map _
  rw [List.filter_map, List.head?_map]
  rfl

theorem shown_eq (st : DStatus) (t : String) : getCond st.conds t = shown st t := getCond_eq _ _

/-- the condition after a run is the one the run arrived at, but for the precision of times -/
theorem shown_after (d : DDep) (all : List DSet) (new : Option DSet) (st : DStatus) (now : Int) (t : String) (k : Cond)
    (h : shown (aim d all new st now) t = some k) :
    ∃ k', shown (after d all new st now) t = some k' ∧ k'.status = k.status ∧ k'.reason = k.reason ∧ k'.updated ≤ k.updated := by
  unfold after
  by_cases e : aim d all new st now = st
  · rw [if_pos e]
    rw [e] at h
    exact ⟨k, h, rfl, rfl, Int.le_refl _⟩
  · rw [if_neg e, shown_stored, h]
    exact ⟨_, rfl, rfl, rfl, whole_le _⟩

theorem aim_outcome (d : DDep) (all : List DSet) (new : Option DSet) (st : DStatus) (now : Int) :
    Outcome now (at_ d st) (calcDep now (at_ d st) all new) (shown st "Progressing") (shown (aim d all new st now) "Progressing") := by
  have h := C50_progress_condition now (at_ d st) all new
  rw [getCond_eq, getCond_eq] at h
  exact h

/-- after a run there is no progress to be seen as long as the sets stay as they are -/
theorem no_progress_after (d : DDep) (all : List DSet) (new : Option DSet) (st : DStatus) (now now' : Int) :
    ¬ Progress (after d all new st now) (calcDep now' (at_ d (after d all new st now)) all new) := by
  have hc : ∀ s : DStatus, s.updated = (aim d all new st now).updated → s.replicas = (aim d all new st now).replicas →
      s.ready = (aim d all new st now).ready → s.available = (aim d all new st now).available →
      ¬ Progress s (calcDep now' (at_ d s) all new) := by
    intro s h1 h2 h3 h4 hp
    have e1 : (calcDep now' (at_ d s) all new).updated = (aim d all new st now).updated := rfl
    have e2 : (calcDep now' (at_ d s) all new).replicas = (aim d all new st now).replicas := rfl
    have e3 : (calcDep now' (at_ d s) all new).ready = (aim d all new st now).ready := rfl
    have e4 : (calcDep now' (at_ d s) all new).available = (aim d all new st now).available := rfl
    unfold Progress at hp
    rw [e1, e2, e3, e4, h1, h2, h3, h4] at hp
    omega
  unfold after
  by_cases e : aim d all new st now = st
  · rw [if_pos e]
    apply hc <;> rw [e]
  · rw [if_neg e]
    apply hc <;> rfl

/-- A run that sees no progress: a report stays or is made once the deadline is over; otherwise the condition stays. -/
theorem quiet_run {d : DDep} {all : List DSet} {new : Option DSet} {st : DStatus} {now dl : Int} {k : Cond} (hd : d.deadline = some dl)
    (hu : Unfinished d all new) (hp : ¬ Progress st (calcDep now (at_ d st) all new)) (hk : shown st "Progressing" = some k)
    (hr : k.reason ≠ "NewMachineSetAvailable") :
    ((k.reason = "ProgressDeadlineExceeded" ∨ k.updated + dl * second < now) → Reported (after d all new st now)) ∧
    (¬ (k.reason = "ProgressDeadlineExceeded" ∨ k.updated + dl * second < now) →
      ∃ k', shown (after d all new st now) "Progressing" = some k' ∧ k'.reason = k.reason ∧ k'.updated ≤ k.updated) := by
  have hf := (unfinished_iff d all new st now).1 hu
  have hrep : ∀ k', shown (aim d all new st now) "Progressing" = some k' → k'.status = "False" → k'.reason = "ProgressDeadlineExceeded" →
      Reported (after d all new st now) := by
    intro k' h1 h2 h3
    obtain ⟨k2, a1, a2, a3, _⟩ := shown_after d all new st now _ k' h1
    exact ⟨k2, a1, a2.trans h2, a3.trans h3⟩
  cases aim_outcome d all new st now with
  | done h h2 _ =>
    obtain ⟨c, h3, h4⟩ := h2
    rw [hk] at h3
    cases h3
    exact absurd h4 hr
  | finished h _ => exact absurd h hf
  | progress h _ => exact absurd h hp
  | timedOut _ _ h2 h3 =>
    obtain ⟨k', h4, h5, h6⟩ := h3
    refine ⟨fun _ => hrep k' h4 h5 h6, fun hno => ?_⟩
    obtain ⟨dl', c, h7, h8, _, h9⟩ := h2
    rw [hk] at h8
    cases h8
    have : d.deadline = some dl' := h7
    rw [hd] at this
    cases this
    exact absurd h9 hno
  | waiting _ _ h2 h3 =>
    have h4 := h2 dl k hd hk
    refine ⟨fun hyes => ?_, fun _ => ?_⟩
    · rcases h4 with h4 | ⟨h4, h5⟩
      · exact absurd h4 hr
      · rcases hyes with hyes | hyes
        · exact absurd hyes h4
        · unfold second at hyes
          omega
    · obtain ⟨k', a1, _, a3, a4⟩ := shown_after d all new st now "Progressing" k (h3.trans hk)
      exact ⟨k', a1, a3, a4⟩

/-! ### sequences of runs -/

variable {d : DDep} {all : List DSet} {new : Option DSet} {slack : Int}

theorem quiet (r : Runs d all new slack) (i : Nat) (now : Int) :
    ¬ Progress (r.st (i + 1)) (calcDep now (at_ d (r.st (i + 1))) all new) := by
  rw [r.next]
  exact no_progress_after d all new (r.st i) (r.time i) now

/-- a condition that is reported already, or was last updated no later than the first run -/
def Kept (t0 : Int) (st : DStatus) : Prop :=
  ∃ k, shown st "Progressing" = some k ∧ k.reason ≠ "NewMachineSetAvailable" ∧ (k.reason = "ProgressDeadlineExceeded" ∨ k.updated ≤ t0)

theorem reported_kept {t0 : Int} {st : DStatus} (h : Reported st) : Kept t0 st := by
  obtain ⟨k, h1, _, h3⟩ := h
  exact ⟨k, h1, by rw [h3]; decide, .inl h3⟩

theorem kept_first {dl : Int} (r : Runs d all new slack) (hd : d.deadline = some dl) (hu : Unfinished d all new)
    (h0 : Kept (r.time 0) (r.st 0)) : Kept (r.time 0) (r.st 1) := by
  by_cases hp : Progress (r.st 0) (calcDep (r.time 0) (at_ d (r.st 0)) all new)
  · cases aim_outcome d all new (r.st 0) (r.time 0) with
    | done h h2 _ =>
      obtain ⟨k, h3, h4, _⟩ := h0
      obtain ⟨c, h5, h6⟩ := h2
      rw [h3] at h5
      cases h5
      exact absurd h6 h4
    | finished h _ => exact absurd h ((unfinished_iff d all new _ _).1 hu)
    | progress _ h =>
      obtain ⟨k, h1, h2, h3, h4⟩ := h
      obtain ⟨k', a1, _, a3, a4⟩ := shown_after d all new (r.st 0) (r.time 0) _ k h1
      rw [show (1 : Nat) = 0 + 1 from rfl, r.next]
      exact ⟨k', a1, by rw [a3, h3]; decide, .inr (by omega)⟩
    | timedOut _ h _ _ => exact absurd hp h
    | waiting _ h _ _ => exact absurd hp h
  · obtain ⟨k, h1, h2, h3⟩ := h0
    obtain ⟨q1, q2⟩ := quiet_run hd hu hp h1 h2
    rw [show (1 : Nat) = 0 + 1 from rfl, r.next]
    by_cases hy : k.reason = "ProgressDeadlineExceeded" ∨ k.updated + dl * second < r.time 0
    · exact reported_kept (q1 hy)
    · obtain ⟨k', a1, a2, a3⟩ := q2 hy
      refine ⟨k', a1, by rw [a2]; exact h2, ?_⟩
      rcases h3 with h3 | h3
      · exact .inl (a2.trans h3)
      · exact .inr (by omega)

theorem kept_all {dl : Int} (r : Runs d all new slack) (hd : d.deadline = some dl) (hu : Unfinished d all new)
    (h0 : Kept (r.time 0) (r.st 0)) (i : Nat) : Kept (r.time 0) (r.st i) := by
  have h1 : ∀ i, Kept (r.time 0) (r.st (i + 1)) := by
    intro i
    induction i with
    | zero => exact kept_first r hd hu h0
    | succ i ih =>
      obtain ⟨k, h1, h2, h3⟩ := ih
      obtain ⟨q1, q2⟩ := quiet_run hd hu (quiet r i (r.time (i + 1))) h1 h2
      rw [r.next (i + 1)]
      by_cases hy : k.reason = "ProgressDeadlineExceeded" ∨ k.updated + dl * second < r.time (i + 1)
      · exact reported_kept (q1 hy)
      · obtain ⟨k', a1, a2, a3⟩ := q2 hy
        refine ⟨k', a1, by rw [a2]; exact h2, ?_⟩
        rcases h3 with h3 | h3
        · exact .inl (a2.trans h3)
        · exact .inr (by omega)
  cases i with
  | zero => exact h0
  | succ i => exact h1 i

/-- once reported, it stays reported -/
theorem reported_stays {dl : Int} (r : Runs d all new slack) (hd : d.deadline = some dl) (hu : Unfinished d all new) (i : Nat)
    (h : Reported (r.st (i + 1))) (n : Nat) : Reported (r.st (i + 1 + n)) := by
  induction n with
  | zero => exact h
  | succ n ih =>
    have e : i + 1 + n = i + n + 1 := by omega
    rw [e] at ih
    rw [show i + 1 + (n + 1) = i + n + 1 + 1 by omega, r.next (i + n + 1)]
    obtain ⟨k, h1, _, h3⟩ := ih
    exact (quiet_run hd hu (quiet r (i + n) (r.time (i + n + 1))) h1 (by rw [h3]; decide)).1 (.inl h3)

/-- the run at which a moment has passed -/
theorem crossing (f : Nat → Int) (t : Int) (h0 : f 0 ≤ t) (h : ∃ i, t < f i) : ∃ i, f i ≤ t ∧ t < f (i + 1) := by
  obtain ⟨i, h⟩ := h
  induction i with
  | zero => omega
  | succ i ih =>
    by_cases h2 : t < f i
    · exact ih h2
    · exact ⟨i, by omega, h⟩

/-- **C121.** The full statement: whenever the sets of an unfinished rollout with a deadline stay as they are, the rollout is reported as
having exceeded its deadline no later than one second and the slack after the deadline, counted from the first run that sees this state, and
is reported from then on. It is false for a deployment that says that its current set is available (`C121_available_false`); proved here for
all others. -/
theorem C121_reported_partial (r : Runs d all new slack) (dl : Int) (k : Cond) (hd : d.deadline = some dl) (hdl : 0 ≤ dl) (hs : 0 ≤ slack)
    (hu : Unfinished d all new) (hk : shown (r.st 0) "Progressing" = some k) (hr : k.reason ≠ "NewMachineSetAvailable")
    (ht : k.updated ≤ r.time 0) :
    ∃ i, r.time i ≤ r.time 0 + dl * 1000000000 + 1000000000 + slack ∧ ∀ j, i < j → Reported (r.st j) := by
  have h0 : Kept (r.time 0) (r.st 0) := ⟨k, hk, hr, .inr ht⟩
  have fin : ∀ i, Reported (r.st (i + 1)) → r.time i ≤ r.time 0 + dl * 1000000000 + 1000000000 + slack →
      ∃ i, r.time i ≤ r.time 0 + dl * 1000000000 + 1000000000 + slack ∧ ∀ j, i < j → Reported (r.st j) := by
    intro i h1 h2
    refine ⟨i, h2, fun j hj => ?_⟩
    have := reported_stays r hd hu i h1 (j - (i + 1))
    rwa [show i + 1 + (j - (i + 1)) = j by omega] at this
  have hmul : 0 ≤ dl * 1000000000 := by omega
  obtain ⟨i, h1, h2⟩ := crossing r.time (r.time 0 + dl * 1000000000) (by omega) (r.goesOn _)
  -- the next run is in time, or the report was there before
  have hnext : Reported (r.st (i + 1)) ∨ r.time (i + 1) ≤ r.time 0 + dl * 1000000000 + 1000000000 + slack := by
    by_cases e : aim d all new (r.st i) (r.time i) = r.st i
    · obtain ⟨c, c1, c2, c3⟩ := kept_all r hd hu h0 i
      by_cases hc : c.reason = "ProgressDeadlineExceeded"
      · left
        rw [r.next]
        have ho := aim_outcome d all new (r.st i) (r.time i)
        have ha : after d all new (r.st i) (r.time i) = r.st i := by
          unfold after
          rw [if_pos e]
        rw [ha]
        rw [e] at ho
        cases ho with
        | done _ h _ =>
          obtain ⟨x, h3, h4⟩ := h
          rw [c1] at h3
          cases h3
          exact absurd h4 c2
        | finished h _ => exact absurd h ((unfinished_iff d all new _ _).1 hu)
        | progress _ h =>
          obtain ⟨x, h3, _, h4, _⟩ := h
          rw [c1] at h3
          cases h3
          rw [hc] at h4
          exact absurd h4 (by decide)
        | timedOut _ _ _ h => exact h
        | waiting _ _ h _ =>
          rcases h dl c hd c1 with h3 | h3
          · exact absurd h3 c2
          · exact absurd hc h3.1
      · right
        have hcu : c.updated ≤ r.time 0 := c3.resolve_left hc
        have hcomp : complete (at_ d (r.st i)) (aim d all new (r.st i) (r.time i)) = false := by
          cases hb : complete (at_ d (r.st i)) (aim d all new (r.st i) (r.time i)) with
          | false => rfl
          | true =>
            have := (complete_iff _ _).1 hb
            exact absurd ⟨this.1, this.2.1, this.2.2.1⟩ hu
        have hcr : (c.reason == timedOutReason) = false := by simpa [timedOutReason] using hc
        have hreq : requeueStuck (r.time i) (at_ d (r.st i)) (aim d all new (r.st i) (r.time i)) =
            if c.updated + dl * 1000000000 - r.time i < 1000000000 then some 0
            else some (c.updated + dl * 1000000000 - r.time i + 1000000000) := by
          unfold requeueStuck
          rw [show (at_ d (r.st i)).deadline = some dl from hd,
            show getCond (at_ d (r.st i)).status.conds progressing = some c from (getCond_eq _ _).trans c1]
          dsimp only
          rw [hcomp, hcr]
          rfl
        have hdelay : delay d all new (r.st i) (r.time i) =
            if c.updated + dl * 1000000000 - r.time i < 1000000000 then some 0
            else some (c.updated + dl * 1000000000 - r.time i + 1000000000) := by
          unfold delay
          rw [if_pos e, hreq]
        by_cases hl : c.updated + dl * 1000000000 - r.time i < 1000000000
        · rw [if_pos hl] at hdelay
          have := r.soon i 0 hdelay
          omega
        · rw [if_neg hl] at hdelay
          have := r.soon i _ hdelay
          omega
    · right
      have := r.soon i 0 (by unfold delay; rw [if_neg e])
      omega
  rcases hnext with h | h
  · exact fin i h (by omega)
  · -- the run after the deadline
    obtain ⟨c, c1, c2, c3⟩ := kept_all r hd hu h0 (i + 1)
    refine fin (i + 1) ?_ h
    rw [r.next (i + 1)]
    refine (quiet_run hd hu (quiet r i (r.time (i + 1))) c1 c2).1 ?_
    rcases c3 with c3 | c3
    · exact .inl c3
    · refine .inr ?_
      unfold second
      omega

/-- A report is never made early: a run that puts it there finds the condition older than the deadline. -/
theorem C121_not_early (d : DDep) (all : List DSet) (new : Option DSet) (st : DStatus) (now dl : Int) (hd : d.deadline = some dl)
    (h : Reported (after d all new st now)) (hn : ∀ k, shown st "Progressing" = some k → k.reason ≠ "ProgressDeadlineExceeded") :
    ∃ k, shown st "Progressing" = some k ∧ k.reason ≠ "NewMachineSetAvailable" ∧ k.updated + dl * 1000000000 < now := by
  obtain ⟨k, h1, _, h3⟩ := h
  have hk : ∃ x, shown (aim d all new st now) "Progressing" = some x ∧ x.reason = "ProgressDeadlineExceeded" := by
    unfold after at h1
    by_cases e : aim d all new st now = st
    · rw [if_pos e] at h1
      exact absurd h3 (hn k h1)
    · rw [if_neg e, shown_stored] at h1
      cases hx : shown (aim d all new st now) "Progressing" with
      | none => rw [hx] at h1; cases h1
      | some x =>
        rw [hx] at h1
        cases h1
        exact ⟨x, rfl, h3⟩
  obtain ⟨x, hx, hxr⟩ := hk
  have ho := aim_outcome d all new st now
  rw [hx] at ho
  cases ho with
  | done h _ _ => exact absurd hxr (hn x h.symm)
  | finished _ h =>
    obtain ⟨y, h4, _, h5⟩ := h
    cases h4
    rw [hxr] at h5
    exact absurd h5 (by decide)
  | progress _ h =>
    obtain ⟨y, h4, _, h5, _⟩ := h
    cases h4
    rw [hxr] at h5
    exact absurd h5 (by decide)
  | timedOut _ _ h _ =>
    obtain ⟨dl', c, h4, h5, h6, h7⟩ := h
    have : d.deadline = some dl' := h4
    rw [hd] at this
    cases this
    exact ⟨c, h5, h6, h7.resolve_left (hn c h5)⟩
  | waiting _ _ _ h => exact absurd hxr (hn x h.symm)

/-! ### a case, and where the statement fails -/

/-- one new machine that never becomes available, beside one of the old template -/
def caseDep : DDep :=
  { dep := ⟨1, .rolling, some (.int 1), some (.int 0)⟩, generation := 2, deadline := some 600 }
def caseOld : DSet := ⟨"old", 1, { replicas := 1, ready := 1, available := 1 }⟩
def caseNew : DSet := ⟨"new", 1, { replicas := 1 }⟩
/-- the status written when the set was created at second 100 -/
def caseStart : DStatus :=
  { observed := 2, replicas := 1, updated := 0, ready := 1, available := 1,
    conds := [⟨"Available", "True", "MinimumReplicasAvailable", 0, 0⟩, ⟨"Progressing", "True", "NewMachineSetCreated", 100000000000, 100000000000⟩] }

/-- the status after the run at second 101 -/
def caseMid : DStatus := after caseDep [caseOld, caseNew] (some caseNew) caseStart 101500000000
/-- the status after the first run past the deadline, at second 702 -/
def caseEnd : DStatus := after caseDep [caseOld, caseNew] (some caseNew) caseMid 702000000000

/-- runs every half second, from 101.5 seconds on -/
def caseTime (i : Nat) : Int := 101500000000 + i * 500000000

example : Unfinished caseDep [caseOld, caseNew] (some caseNew) ∧
    shown caseStart "Progressing" = some ⟨"Progressing", "True", "NewMachineSetCreated", 100000000000, 100000000000⟩ ∧
    shown caseMid "Progressing" = some ⟨"Progressing", "True", "MachineSetUpdated", 101000000000, 100000000000⟩ ∧
    after caseDep [caseOld, caseNew] (some caseNew) caseMid 300000000000 = caseMid ∧
    delay caseDep [caseOld, caseNew] (some caseNew) caseMid 300000000000 = some 402000000000 ∧
    shown caseEnd "Progressing" = some ⟨"Progressing", "False", "ProgressDeadlineExceeded", 702000000000, 702000000000⟩ ∧
    after caseDep [caseOld, caseNew] (some caseNew) caseEnd 800000000000 = caseEnd := by
  refine ⟨by unfold Unfinished; decide, ?_⟩
  decide +kernel

/-- every sequence of times and the start determine runs, as long as the times are in time -/
def runsFrom (d : DDep) (all : List DSet) (new : Option DSet) (time : Nat → Int) (st : DStatus) : Nat → DStatus
  | 0 => st
  | i + 1 => after d all new (runsFrom d all new time st i) (time i)

theorem requeue_nonneg {now : Int} {d : DDep} {n : DStatus} {w : Int} (h : requeueStuck now d n = some w) : 0 ≤ w := by
  unfold requeueStuck at h
  split at h
  · split at h
    · cases h
    · dsimp only at h
      split at h
      · cases h; omega
      · cases h; omega
  · cases h

theorem delay_nonneg {d : DDep} {all : List DSet} {new : Option DSet} {st : DStatus} {now w : Int} (h : delay d all new st now = some w) : 0 ≤ w := by
  unfold delay at h
  split at h
  · exact requeue_nonneg h
  · cases h; omega

/-- runs at regular times are runs, if the slack covers their distance -/
def regular (d : DDep) (all : List DSet) (new : Option DSet) (st : DStatus) (start step : Int) (h : 0 < step) : Runs d all new step where
  time i := start + i * step
  st := runsFrom d all new (fun i => start + i * step) st
  next _ := rfl
  mono i := by
    have : ((i + 1 : Nat) : Int) * step = i * step + step := by rw [Int.natCast_add, Int.add_mul]; simp
    omega
  soon i w hw := by
    have := delay_nonneg hw
    have : ((i + 1 : Nat) : Int) * step = i * step + step := by rw [Int.natCast_add, Int.add_mul]; simp
    omega
  goesOn t := by
    refine ⟨(t - start).toNat + 1, ?_⟩
    have h1 : (((t - start).toNat + 1 : Nat) : Int) ≤ (((t - start).toNat + 1 : Nat) : Int) * step := by
      have h2 : (((t - start).toNat + 1 : Nat) : Int) * 1 ≤ (((t - start).toNat + 1 : Nat) : Int) * step :=
        Int.mul_le_mul_of_nonneg_left h (by omega)
      omega
    omega

/-- the hypotheses are met: the case above, looked at every half second -/
example : ∃ i, (regular caseDep [caseOld, caseNew] (some caseNew) caseStart 101500000000 500000000 (by decide)).time i ≤ 703000000000 ∧
    ∀ j, i < j → Reported ((regular caseDep [caseOld, caseNew] (some caseNew) caseStart 101500000000 500000000 (by decide)).st j) := by
  obtain ⟨i, h1, h2⟩ := C121_reported_partial (regular caseDep [caseOld, caseNew] (some caseNew) caseStart 101500000000 500000000 (by decide)) 600
    ⟨"Progressing", "True", "NewMachineSetCreated", 100000000000, 100000000000⟩ rfl (by decide) (by decide) (by unfold Unfinished; decide)
    (by decide +kernel) (by decide) (by decide)
  refine ⟨i, ?_, h2⟩
  have : (regular caseDep [caseOld, caseNew] (some caseNew) caseStart 101500000000 500000000 (by decide)).time 0 = 101500000000 := by decide
  omega

/-- When the condition says that the current set is available and the first run sees no progress, an unfinished rollout is never reported. -/
theorem C121_available_never (r : Runs d all new slack) (k : Cond) (hu : Unfinished d all new) (hk : shown (r.st 0) "Progressing" = some k)
    (hr : k.reason = "NewMachineSetAvailable") (hp : ¬ Progress (r.st 0) (calcDep (r.time 0) (at_ d (r.st 0)) all new)) (i : Nat) :
    ¬ Reported (r.st i) := by
  have hq : ∀ i, ¬ Progress (r.st i) (calcDep (r.time i) (at_ d (r.st i)) all new) := by
    intro i
    cases i with
    | zero => exact hp
    | succ i => exact quiet r i _
  have hall : ∃ c, shown (r.st i) "Progressing" = some c ∧ c.reason = "NewMachineSetAvailable" := by
    induction i with
    | zero => exact ⟨k, hk, hr⟩
    | succ i ih =>
      obtain ⟨c, h1, h2⟩ := ih
      have hsame : shown (aim d all new (r.st i) (r.time i)) "Progressing" = some c := by
        cases aim_outcome d all new (r.st i) (r.time i) with
        | done h _ _ => exact h.trans h1
        | finished h _ => exact absurd h ((unfinished_iff d all new _ _).1 hu)
        | progress h _ => exact absurd h (hq i)
        | timedOut _ _ h _ =>
          obtain ⟨_, x, _, h4, h5, _⟩ := h
          rw [h1] at h4
          cases h4
          exact absurd h2 h5
        | waiting _ _ _ h => exact h.trans h1
      obtain ⟨c', a1, _, a3, _⟩ := shown_after d all new (r.st i) (r.time i) _ c hsame
      rw [r.next]
      exact ⟨c', a1, a3.trans h2⟩
  obtain ⟨c, h1, h2⟩ := hall
  intro ⟨x, h3, _, h4⟩
  rw [h1] at h3
  cases h3
  rw [h2] at h4
  exact absurd h4 (by decide)

/-- **C121 is false in full:** a deployment that has returned to a template whose set is there already, with the condition of the rollout
before; the new machine never comes, and this is never reported. -/
theorem C121_available_false :
    ∃ (d : DDep) (all : List DSet) (new : Option DSet) (r : Runs d all new 1000000000) (k : Cond), d.deadline = some 600 ∧ Unfinished d all new ∧
      shown (r.st 0) "Progressing" = some k ∧ k.updated ≤ r.time 0 ∧ ∀ i, ¬ Reported (r.st i) := by
  refine ⟨caseDep, [caseOld, ⟨"new", 1, {}⟩], some ⟨"new", 1, {}⟩,
    regular caseDep [caseOld, ⟨"new", 1, {}⟩] (some ⟨"new", 1, {}⟩) { observed := 2, replicas := 1, updated := 0, ready := 1, available := 1, conds := [⟨"Available", "True", "MinimumReplicasAvailable", 0, 0⟩, ⟨"Progressing", "True", "NewMachineSetAvailable", 0, 0⟩] } 0 1000000000 (by decide),
    ⟨"Progressing", "True", "NewMachineSetAvailable", 0, 0⟩, rfl, by unfold Unfinished; decide, by decide +kernel, by decide, ?_⟩
  exact C121_available_never _ ⟨"Progressing", "True", "NewMachineSetAvailable", 0, 0⟩ (by unfold Unfinished; decide) (by decide +kernel) rfl (by decide +kernel)

/-! ### failing writes -/

/-- the first run from `i` on that does not fail, among `k` -/
def seek (ok : Nat → Bool) (i : Nat) : Nat → Nat
  | 0 => i
  | k + 1 => if ok i then i else seek ok (i + 1) k

theorem seek_ge (ok : Nat → Bool) (k : Nat) : ∀ i, i ≤ seek ok i k := by
  induction k with
  | zero => exact fun i => Nat.le_refl i
  | succ k ih =>
    intro i
    unfold seek
    split
    · exact Nat.le_refl i
    · exact Nat.le_trans (Nat.le_succ i) (ih (i + 1))

theorem seek_le (ok : Nat → Bool) (k : Nat) : ∀ i, seek ok i k ≤ i + k := by
  induction k with
  | zero => exact fun i => Nat.le_refl i
  | succ k ih =>
    intro i
    unfold seek
    split
    · omega
    · have := ih (i + 1); omega

theorem seek_before (ok : Nat → Bool) (k : Nat) : ∀ i j, i ≤ j → j < seek ok i k → ok j = false := by
  induction k with
  | zero => intro i j h1 h2; unfold seek at h2; omega
  | succ k ih =>
    intro i j h1 h2
    unfold seek at h2
    split at h2
    · omega
    · rename_i hf
      rcases Nat.eq_or_lt_of_le h1 with rfl | h1
      · simpa using hf
      · exact ih (i + 1) j h1 h2

theorem seek_ok (ok : Nat → Bool) (k : Nat) : ∀ i, (∃ j, i ≤ j ∧ j ≤ i + k ∧ ok j = true) → ok (seek ok i k) = true := by
  induction k with
  | zero =>
    intro i ⟨j, h1, h2, h3⟩
    obtain rfl : j = i := by omega
    exact h3
  | succ k ih =>
    intro i ⟨j, h1, h2, h3⟩
    unfold seek
    split
    · assumption
    · rename_i hf
      refine ih (i + 1) ⟨j, ?_, by omega, h3⟩
      rcases Nat.eq_or_lt_of_le h1 with rfl | h1
      · exact absurd h3 hf
      · exact h1

variable {m : Nat}

/-- over runs that fail nothing changes but the time, by at most the slack each -/
theorem Flaky.over (r : Flaky d all new slack m) (i : Nat) : ∀ n, (∀ j, i ≤ j → j < i + n → r.ok j = false) →
    r.st (i + n) = r.st i ∧ r.time (i + n) ≤ r.time i + n * slack := by
  intro n
  induction n with
  | zero => intro _; exact ⟨rfl, by simp⟩
  | succ n ih =>
    intro h
    obtain ⟨h1, h2⟩ := ih fun j a b => h j a (by omega)
    have hf := h (i + n) (by omega) (by omega)
    refine ⟨?_, ?_⟩
    · rw [← Nat.add_assoc, r.next, hf, ← h1]; rfl
    · have := r.again (i + n) hf
      have e : ((n + 1 : Nat) : Int) * slack = n * slack + slack := by rw [Int.natCast_add, Int.add_mul]; simp
      rw [e, ← Nat.add_assoc]
      omega

theorem Flaky.mono_le (r : Flaky d all new slack m) (i : Nat) : ∀ n, r.time i ≤ r.time (i + n) := by
  intro n
  induction n with
  | zero => exact Int.le_refl _
  | succ n ih => exact Int.le_trans ih (r.mono (i + n))

/-- the runs that do not fail -/
def Flaky.nth (r : Flaky d all new slack m) : Nat → Nat
  | 0 => seek r.ok 0 m
  | n + 1 => seek r.ok (r.nth n + 1) m

theorem Flaky.nth_ok (r : Flaky d all new slack m) (n : Nat) : r.ok (r.nth n) = true := by
  cases n with
  | zero => exact seek_ok _ _ _ (r.often 0)
  | succ n => exact seek_ok _ _ _ (r.often _)

theorem Flaky.nth_ge (r : Flaky d all new slack m) (n : Nat) : n ≤ r.nth n := by
  induction n with
  | zero => exact Nat.zero_le _
  | succ n ih => exact Nat.le_trans (Nat.succ_le_succ ih) (seek_ge _ _ _)

theorem mul_slack {a b : Nat} (h : a ≤ b) {s : Int} (hs : 0 ≤ s) : (a : Int) * s ≤ b * s := Int.mul_le_mul_of_nonneg_right (by omega) hs

/-- they are runs, with a larger slack -/
def Flaky.good (r : Flaky d all new slack m) (hs : 0 ≤ slack) : Runs d all new ((m + 1 : Nat) * slack) where
  time n := r.time (r.nth n)
  st n := r.st (r.nth n)
  next n := by
    have hge := seek_ge r.ok m (r.nth n + 1)
    obtain ⟨h1, _⟩ := r.over (r.nth n + 1) (seek r.ok (r.nth n + 1) m - (r.nth n + 1)) fun j a b => seek_before r.ok m _ j a (by omega)
    rw [show r.nth n + 1 + (seek r.ok (r.nth n + 1) m - (r.nth n + 1)) = seek r.ok (r.nth n + 1) m by omega, r.next, r.nth_ok n] at h1
    exact h1
  mono n := by
    have hge := seek_ge r.ok m (r.nth n + 1)
    have := r.mono_le (r.nth n) (r.nth (n + 1) - r.nth n)
    rwa [show r.nth n + (r.nth (n + 1) - r.nth n) = r.nth (n + 1) by
      show r.nth n + (seek r.ok (r.nth n + 1) m - r.nth n) = seek r.ok (r.nth n + 1) m
      omega] at this
  soon n w hw := by
    have hge := seek_ge r.ok m (r.nth n + 1)
    have hle := seek_le r.ok m (r.nth n + 1)
    obtain ⟨_, h2⟩ := r.over (r.nth n + 1) (seek r.ok (r.nth n + 1) m - (r.nth n + 1)) fun j a b => seek_before r.ok m _ j a (by omega)
    rw [show r.nth n + 1 + (seek r.ok (r.nth n + 1) m - (r.nth n + 1)) = seek r.ok (r.nth n + 1) m by omega] at h2
    have h1 := r.soon (r.nth n) w (r.nth_ok n) hw
    have h3 := mul_slack (show seek r.ok (r.nth n + 1) m - (r.nth n + 1) ≤ m by omega) hs
    have e : ((m + 1 : Nat) : Int) * slack = m * slack + slack := by rw [Int.natCast_add, Int.add_mul]; simp
    show r.time (seek r.ok (r.nth n + 1) m) ≤ _
    omega
  goesOn t := by
    obtain ⟨i, hi⟩ := r.goesOn t
    refine ⟨i, ?_⟩
    have h1 := r.nth_ge i
    have := r.mono_le i (r.nth i - i)
    rw [show i + (r.nth i - i) = r.nth i by omega] at this
    omega

/-- **C121**, with failing writes: If at most `m` runs in a row cannot write the status, the report comes `m + 1` times the slack later, or twice that: also the run that
starts the clock may be delayed. **Partial** as `C121_reported_partial`. -/
theorem C121_flaky_partial (r : Flaky d all new slack m) (dl : Int) (k : Cond) (hd : d.deadline = some dl) (hdl : 0 ≤ dl) (hs : 0 ≤ slack)
    (hu : Unfinished d all new) (hk : shown (r.st 0) "Progressing" = some k) (hr : k.reason ≠ "NewMachineSetAvailable")
    (ht : k.updated ≤ r.time 0) :
    ∃ i, r.time i ≤ r.time 0 + dl * 1000000000 + 1000000000 + 2 * ((m + 1 : Nat) * slack) ∧ ∀ j, i < j → Reported (r.st j) := by
  have hle := seek_le r.ok m 0
  obtain ⟨h1, h2⟩ := r.over 0 (seek r.ok 0 m) fun j a b => seek_before r.ok m 0 j a (by omega)
  rw [Nat.zero_add] at h1 h2
  have h3 := mul_slack (show seek r.ok 0 m ≤ m + 1 by omega) hs
  have hslack : (0 : Int) ≤ ((m + 1 : Nat) : Int) * slack := Int.mul_nonneg (by omega) hs
  have hmono := r.mono_le 0 (seek r.ok 0 m)
  rw [Nat.zero_add] at hmono
  have e0 : (r.good hs).time 0 = r.time (seek r.ok 0 m) := rfl
  obtain ⟨n, g1, g2⟩ := C121_reported_partial (r.good hs) dl k hd hdl hslack hu (by show shown (r.st (seek r.ok 0 m)) _ = _; rw [h1]; exact hk) hr (by rw [e0]; omega)
  have e1 : (r.good hs).time n = r.time (r.nth n) := rfl
  refine ⟨r.nth n, by rw [e0, e1] at g1; omega, fun j hj => ?_⟩
  -- the last run before `j` that did not fail
  have key : ∀ t, r.nth n + 1 + t = j → Reported (r.st (r.nth n + 1 + t)) := by
    have all : ∀ t, ∃ q, n ≤ q ∧ r.nth q < r.nth n + 1 + t ∧ ∀ i, r.nth q < i → i < r.nth n + 1 + t → r.ok i = false := by
      intro t
      induction t with
      | zero => exact ⟨n, Nat.le_refl _, by omega, fun i a b => by omega⟩
      | succ t ih =>
        obtain ⟨q, a1, a2, a3⟩ := ih
        by_cases hx : r.ok (r.nth n + 1 + t) = true
        · have : r.nth (q + 1) = r.nth n + 1 + t := by
            have hge := seek_ge r.ok m (r.nth q + 1)
            have hok := r.nth_ok (q + 1)
            have hlt : ¬ seek r.ok (r.nth q + 1) m < r.nth n + 1 + t := fun h => by
              have := a3 _ (show r.nth q < r.nth (q + 1) by show r.nth q < seek r.ok (r.nth q + 1) m; omega) h
              rw [hok] at this; cases this
            have hgt : ¬ r.nth n + 1 + t < seek r.ok (r.nth q + 1) m := fun h => by
              have := seek_before r.ok m (r.nth q + 1) _ (by omega) h
              rw [hx] at this; cases this
            show seek r.ok (r.nth q + 1) m = _
            omega
          exact ⟨q + 1, by omega, by omega, fun i b1 b2 => by omega⟩
        · refine ⟨q, a1, by omega, fun i b1 b2 => ?_⟩
          by_cases hi : i = r.nth n + 1 + t
          · rw [hi]; simpa using hx
          · exact a3 i b1 (by omega)
    intro t _
    obtain ⟨q, a1, a2, a3⟩ := all t
    have hst := (r.over (r.nth q + 1) (r.nth n + 1 + t - (r.nth q + 1)) fun i b1 b2 => a3 i (by omega) (by omega)).1
    rw [show r.nth q + 1 + (r.nth n + 1 + t - (r.nth q + 1)) = r.nth n + 1 + t by omega] at hst
    have hg := g2 (q + 1) (by omega)
    rw [(r.good hs).next q] at hg
    rw [hst, r.next, r.nth_ok q]
    exact hg
  have := key (j - (r.nth n + 1)) (by omega)
  rwa [show r.nth n + 1 + (j - (r.nth n + 1)) = j by omega] at this

/-- the statuses of runs of which two of three fail -/
def flakyFrom (d : DDep) (all : List DSet) (new : Option DSet) (time : Nat → Int) (st : DStatus) : Nat → DStatus
  | 0 => st
  | i + 1 => if i % 3 == 2 then after d all new (flakyFrom d all new time st i) (time i) else flakyFrom d all new time st i

def thirds (d : DDep) (all : List DSet) (new : Option DSet) (st : DStatus) (start step : Int) (h : 0 < step) : Flaky d all new step 2 where
  time i := start + i * step
  st := flakyFrom d all new (fun i => start + i * step) st
  ok i := i % 3 == 2
  next _ := rfl
  mono := (regular d all new st start step h).mono
  soon i w _ hw := by
    have := delay_nonneg hw
    have : ((i + 1 : Nat) : Int) * step = i * step + step := by rw [Int.natCast_add, Int.add_mul]; simp
    omega
  again i _ := by
    have : ((i + 1 : Nat) : Int) * step = i * step + step := by rw [Int.natCast_add, Int.add_mul]; simp
    omega
  often i := ⟨i + (2 - i % 3), by omega, by omega, by
    have : (i + (2 - i % 3)) % 3 = 2 := by omega
    simpa using this⟩
  goesOn := (regular d all new st start step h).goesOn

/-- the case above, looked at every half second, with two of three writes failing: three seconds later -/
example : ∃ i, (thirds caseDep [caseOld, caseNew] (some caseNew) caseStart 101500000000 500000000 (by decide)).time i ≤ 705500000000 ∧
    ∀ j, i < j → Reported ((thirds caseDep [caseOld, caseNew] (some caseNew) caseStart 101500000000 500000000 (by decide)).st j) := by
  obtain ⟨i, h1, h2⟩ := C121_flaky_partial (thirds caseDep [caseOld, caseNew] (some caseNew) caseStart 101500000000 500000000 (by decide)) 600
    ⟨"Progressing", "True", "NewMachineSetCreated", 100000000000, 100000000000⟩ rfl (by decide) (by decide) (by unfold Unfinished; decide)
    (by decide +kernel) (by decide) (by decide)
  refine ⟨i, ?_, h2⟩
  have : (thirds caseDep [caseOld, caseNew] (some caseNew) caseStart 101500000000 500000000 (by decide)).time 0 = 101500000000 := by decide
  omega

end MCM.Stuck
