import Verif.Model.Election
/-!
C112: at most one process works at a time, and another one takes over when it ends.
-/
namespace MCM.Election

/-! ## Specification -/

/-- all processes have just been started; the lock may be left from former times -/
def Begun (s : S) : Prop := (∀ i, s.procs i = { id := (s.procs i).id }) ∧ ∀ r, s.lock = some r → r.at_ ≤ s.time

/-- at most one process leads -/
def OneLeader (s : S) : Prop := ∀ i j, (s.procs i).leads = true → (s.procs j).leads = true → i = j

/-! ## Invariant -/

theorem set_self (s : S) (i : Nat) (p : Proc) : (s.set i p).procs i = p := if_pos rfl
theorem set_other (s : S) {i j : Nat} (p : Proc) (h : j ≠ i) : (s.set i p).procs j = s.procs j := if_neg h

/-- what holds for one process -/
structure Fine (t : Times) (name : String) (time : Nat) (lock : Option Rec) (p : Proc) : Prop where
  id : p.id = name
  known : ∀ v, p.seen = some v → ∃ r, lock = some r ∧ v ≤ r.ver ∧ (v = r.ver → r.at_ ≤ p.seenAt)
  flight : ∀ w, p.flight = some w → time ≤ w.1 + t.slow ∧ ∃ r, lock = some r ∧ r.holder = name ∧ w.1 ≤ r.at_ ∧ w.2 ≤ r.ver
  leads : p.leads = true → p.ack ≤ time ∧ time ≤ p.ack + t.retry + t.renew ∧ ∃ r, lock = some r ∧ r.holder = name ∧ p.ack ≤ r.at_ + t.slow

structure Inv (t : Times) (names : Nat → String) (s : S) : Prop where
  past : ∀ r, s.lock = some r → r.at_ ≤ s.time
  fine : ∀ i, Fine t (names i) s.time s.lock (s.procs i)

/-- only process `i` changes -/
theorem inv_set {t : Times} {names : Nat → String} {s : S} (h : Inv t names s) (i : Nat) (p : Proc) (hp : Fine t (names i) s.time s.lock p) : Inv t names (s.set i p) := by
  refine ⟨h.past, fun j => ?_⟩
  by_cases hj : j = i
  · subst hj; rw [set_self]; exact hp
  · rw [set_other _ _ hj]; exact h.fine j

/-- a write by `i`, when nobody else leads or waits for an answer -/
theorem written_inv {t : Times} {names : Nat → String} {s : S} (h : Inv t names s) (i : Nat)
    (hal : ∀ j, j ≠ i → (s.procs j).leads = false ∧ (s.procs j).flight = none) :
    Inv t names { s.set i { s.procs i with flight := some (s.time, (s.written (s.procs i)).ver) } with lock := some (s.written (s.procs i)) } := by
  have known : ∀ j v, (s.procs j).seen = some v → v < (s.written (s.procs i)).ver := by
    intro j v hv
    obtain ⟨r, hr, hle, _⟩ := (h.fine j).known v hv
    simp only [S.written, hr, Option.map_some, Option.getD_some]
    omega
  refine ⟨fun r hr => by cases hr; exact Nat.le_refl _, fun j => ?_⟩
  by_cases hj : j = i
  · subst hj
    have hf := h.fine j
    show Fine t (names j) s.time _ ((s.set j _).procs j)
    rw [set_self]
    refine ⟨hf.id, fun v hv => ⟨_, rfl, Nat.le_of_lt (known j v hv), fun he => absurd (known j v hv) (by omega)⟩, fun w hw => ?_, fun hl => ?_⟩
    · cases hw; exact ⟨Nat.le_add_right _ _, _, rfl, hf.id, Nat.le_refl _, Nat.le_refl _⟩
    · obtain ⟨a, b, _⟩ := hf.leads hl
      exact ⟨a, b, _, rfl, hf.id, Nat.le_trans a (Nat.le_add_right _ _)⟩
  · have hf := h.fine j
    show Fine t (names j) s.time _ ((s.set i _).procs j)
    rw [set_other _ _ hj]
    refine ⟨hf.id, fun v hv => ⟨_, rfl, Nat.le_of_lt (known j v hv), fun he => absurd (known j v hv) (by omega)⟩, fun w hw => ?_, fun hl => ?_⟩
    · rw [(hal j hj).2] at hw; cases hw
    · rw [(hal j hj).1] at hl; cases hl

theorem inv_step {t : Times} {names : Nat → String} (hn : ∀ i j, names i = names j → i = j) (hne : ∀ i, names i ≠ "") (ht : t.slow + t.retry + t.renew < t.lease) {s u : S} (h : Inv t names s)
    (hs : Step t s u) : Inv t names u := by
  cases hs with
  | tick hin =>
    refine ⟨fun r hr => Nat.le_succ_of_le (h.past r hr), fun i => ?_⟩
    have hf := h.fine i
    refine ⟨hf.id, hf.known, fun w hw => ⟨(hin i).2 w hw, (hf.flight w hw).2⟩, fun hl => ?_⟩
    obtain ⟨a, b, c⟩ := hf.leads hl
    exact ⟨Nat.le_succ_of_le a, (hin i).1 hl, c⟩
  | observe i r hr hsn =>
    refine inv_set h i _ ?_
    have hf := h.fine i
    refine ⟨hf.id, fun v hv => ?_, hf.flight, hf.leads⟩
    cases hv
    exact ⟨r, hr, Nat.le_refl _, fun _ => h.past r hr⟩
  | create i hl hfl =>
    refine written_inv h i fun j _ => ⟨?_, ?_⟩
    · cases hle : (s.procs j).leads with
      | false => rfl
      | true => obtain ⟨_, _, r, hr, _⟩ := (h.fine j).leads hle; rw [hl] at hr; cases hr
    · cases hfl' : (s.procs j).flight with
      | none => rfl
      | some w => obtain ⟨_, r, hr, _⟩ := (h.fine j).flight w hfl'; rw [hl] at hr; cases hr
  | write i r hr hfl hsn hm =>
    refine written_inv h i fun j hj => ?_
    obtain ⟨r', hr', _, hat⟩ := (h.fine i).known _ hsn
    rw [hr] at hr'; cases hr'
    have hat := hat rfl
    -- the lock is another's only if it has not been written for the time of the lease
    have late : r.holder = names j → r.at_ + t.lease ≤ s.time := by
      intro hh
      simp only [mayWrite, Bool.or_eq_true, beq_iff_eq, decide_eq_true_eq] at hm
      rcases hm with (hm | hm) | hm
      · exact absurd (hh.symm.trans hm) (hne j)
      · rw [(h.fine i).id] at hm; exact absurd (hn j i (hh.symm.trans hm)) hj
      · omega
    refine ⟨?_, ?_⟩
    · cases hle : (s.procs j).leads with
      | false => rfl
      | true =>
        obtain ⟨_, hti, r', hr', hh, hack⟩ := (h.fine j).leads hle
        rw [hr] at hr'; cases hr'
        have := late hh
        omega
    · cases hfl' : (s.procs j).flight with
      | none => rfl
      | some w =>
        obtain ⟨hti, r', hr', hh, hw, _⟩ := (h.fine j).flight w hfl'
        rw [hr] at hr'; cases hr'
        have := late hh
        omega
  | answer i w ver hfl =>
    refine inv_set h i _ ?_
    have hf := h.fine i
    obtain ⟨hti, r, hr, hh, hw, hv⟩ := hf.flight _ hfl
    refine ⟨hf.id, fun v hv' => ?_, (fun w hw => by cases hw), fun _ => ⟨Nat.le_refl _, by show s.time ≤ s.time + t.retry + t.renew; omega, r, hr, hh, ?_⟩⟩
    · cases hv'; exact ⟨r, hr, hv, fun _ => h.past r hr⟩
    · show s.time ≤ r.at_ + t.slow
      dsimp only at hw hti
      omega
  | lose i =>
    refine inv_set h i _ ?_
    have hf := h.fine i
    exact ⟨hf.id, hf.known, (fun w hw => by cases hw), hf.leads⟩
  | restart i =>
    refine inv_set h i _ ?_
    exact ⟨(h.fine i).id, (fun v hv => by cases hv), (fun w hw => by cases hw), fun hl => by cases hl⟩

theorem inv_begun {t : Times} {s : S} (h : Begun s) : Inv t (fun i => (s.procs i).id) s := by
  refine ⟨h.2, fun i => ?_⟩
  rw [h.1 i]
  exact ⟨rfl, (fun v hv => by cases hv), (fun w hw => by cases hw), fun hl => by cases hl⟩

/-- C112: At most one process leads, at any time and in every execution, if the host names differ (and are not empty), every write is answered within `slow`, and the time until a leader gives
up, together with `slow`, is less than the lease. With the default times this is so for answers within two seconds. -/
theorem C112_one_leader_partial (t : Times) (ht : t.slow + t.retry + t.renew < t.lease) (s u : S) (h : Begun s) (hn : ∀ i j, (s.procs i).id = (s.procs j).id → i = j)
    (hne : ∀ i, (s.procs i).id ≠ "") (hs : Steps t s u) : OneLeader u := by
  have hi : Inv t (fun i => (s.procs i).id) u := by
    induction hs with
    | refl => exact inv_begun h
    | tail _ hst ih => exact inv_step hn hne ht ih hst
  intro i j hl hl'
  obtain ⟨_, _, r, hr, hh, _⟩ := (hi.fine i).leads hl
  obtain ⟨_, _, r', hr', hh', _⟩ := (hi.fine j).leads hl'
  rw [hr] at hr'; cases hr'
  exact hn i j (hh.symm.trans hh')

/-! ## The other side -/

theorem steps_trans {t : Times} {a b c : S} (h : Steps t a b) (h' : Steps t b c) : Steps t a c := by
  induction h' with
  | refl => exact h
  | tail _ hst ih => exact .tail ih hst

/-- time passes while nobody has to stop or to give up waiting -/
theorem passes {t : Times} (s : S) (n : Nat) (hl : ∀ i, (s.procs i).leads = true → s.time + n ≤ (s.procs i).ack + t.retry + t.renew)
    (hf : ∀ i w, (s.procs i).flight = some w → s.time + n ≤ w.1 + t.slow) : Steps t s { s with time := s.time + n } := by
  induction n with
  | zero => exact .refl
  | succ n ih =>
    refine .tail (ih (fun i h => Nat.le_trans (by omega) (hl i h)) fun i w h => Nat.le_trans (by omega) (hf i w h)) (.tick (s := { s with time := s.time + n }) fun i => ⟨fun h => ?_, fun w h => ?_⟩)
    · exact hl i h
    · exact hf i w h

/-- observations are not in the future -/
theorem seen_past {t : Times} {s u : S} (h : Begun s) (hs : Steps t s u) : ∀ i, (u.procs i).seenAt ≤ u.time := by
  induction hs with
  | refl => intro i; rw [h.1 i]; exact Nat.zero_le _
  | tail _ hst ih =>
    rename_i a b _
    have key : ∀ (i j : Nat) (p : Proc), p.seenAt ≤ a.time → ((a.set i p).procs j).seenAt ≤ a.time := by
      intro i j p hp
      by_cases hj : j = i
      · subst hj; rw [set_self]; exact hp
      · rw [set_other _ _ hj]; exact ih j
    cases hst with
    | tick => exact fun i => Nat.le_succ_of_le (ih i)
    | observe i => exact fun j => key i j _ (Nat.le_refl _)
    | create i => exact fun j => key i j _ (ih i)
    | write i => exact fun j => key i j _ (ih i)
    | answer i => exact fun j => key i j _ (Nat.le_refl _)
    | lose i => exact fun j => key i j _ (ih i)
    | restart i => exact fun j => key i j _ (Nat.zero_le _)

/-- C112: When nobody leads or waits for an answer, any process can take over when the time of a lease has passed, without the help of others. -/
theorem C112_takeover (t : Times) (s₀ s : S) (hb : Begun s₀) (hs₀ : Steps t s₀ s) (hq : ∀ i, (s.procs i).leads = false ∧ (s.procs i).flight = none) (i : Nat) :
    ∃ u, Steps t s u ∧ (u.procs i).leads = true ∧ u.time ≤ s.time + t.lease ∧ ∀ j, j ≠ i → u.procs j = s.procs j := by
  cases hl : s.lock with
  | none =>
    refine ⟨_, .tail (.tail .refl (.create i hl (hq i).2)) (.answer i s.time (s.written (s.procs i)).ver ?_), ?_, ?_, fun j hj => ?_⟩
    · show ((s.set i _).procs i).flight = _
      rw [set_self]
    · rw [set_self]
    · exact Nat.le_add_right _ _
    · rw [set_other _ _ hj]; exact set_other _ _ hj
  | some r =>
    obtain ⟨s1, h1, hs1, hl1, hat1, ht1, hq1, ho1⟩ : ∃ s1, Steps t s s1 ∧ (s1.procs i).seen = some r.ver ∧ s1.lock = some r ∧ (s1.procs i).seenAt ≤ s1.time ∧ s1.time = s.time ∧
        (∀ j, (s1.procs j).leads = false ∧ (s1.procs j).flight = none) ∧ ∀ j, j ≠ i → s1.procs j = s.procs j := by
      by_cases hsn : (s.procs i).seen = some r.ver
      · exact ⟨s, .refl, hsn, hl, seen_past hb hs₀ i, rfl, hq, fun _ _ => rfl⟩
      · refine ⟨_, .tail .refl (.observe i r hl hsn), by rw [set_self], hl, by rw [set_self]; exact Nat.le_refl _, rfl, fun j => ?_, fun j hj => set_other _ _ hj⟩
        by_cases hj : j = i
        · subst hj; rw [set_self]; exact hq j
        · rw [set_other _ _ hj]; exact hq j
    have h2 : Steps t s1 { s1 with time := s1.time + t.lease } :=
      passes s1 t.lease (fun j h => by rw [(hq1 j).1] at h; cases h) (fun j w h => by rw [(hq1 j).2] at h; cases h)
    have h3 : mayWrite t { s1 with time := s1.time + t.lease } (s1.procs i) r = true := by
      simp only [mayWrite, Bool.or_eq_true, decide_eq_true_eq]
      exact .inr (by omega)
    refine ⟨_, .tail (.tail (steps_trans h1 h2) (.write i r hl1 (hq1 i).2 hs1 h3)) (.answer i (s1.time + t.lease) _ (by show ((S.set _ i _).procs i).flight = _; rw [set_self])), ?_, ?_, fun j hj => ?_⟩
    · rw [set_self]
    · show s1.time + t.lease ≤ _
      omega
    · rw [set_other _ _ hj]
      exact (set_other _ _ hj).trans (ho1 j hj)

/-- host names, all different -/
def host (i : Nat) : String := String.ofList (List.replicate (i + 1) 'h')

theorem host_inj (i j : Nat) (h : host i = host j) : i = j := by
  have := congrArg (fun s => s.toList.length) h
  simpa [host] using this

theorem host_ne (i : Nat) : host i ≠ "" := by
  intro h
  have := congrArg (fun s => s.toList.length) h
  simp [host] at this

/-- processes that have just been started, and no lock -/
def start (names : Nat → String) : S := { time := 0, lock := none, procs := fun i => { id := names i } }

theorem start_begun (names : Nat → String) : Begun (start names) := ⟨fun _ => rfl, fun r h => by cases h⟩

/-- the first leader: process 0 writes the lock at time 0, process 1 observes it, and the answer comes after `n` -/
theorem led (t : Times) (names : Nat → String) (n : Nat) (hn : n ≤ t.slow) : ∃ s, Steps t (start names) s ∧ s.time = n ∧ s.lock = some ⟨names 0, 1, 0⟩ ∧
    s.procs 0 = { id := names 0, seen := some 1, seenAt := n, leads := true, ack := n } ∧ s.procs 1 = { id := names 1, seen := some 1, seenAt := 0 } ∧
    ∀ j, 2 ≤ j → s.procs j = { id := names j } := by
  let s1 : S := { time := 0, lock := some ⟨names 0, 1, 0⟩, procs := fun j => if j = 0 then { id := names 0, flight := some (0, 1) } else { id := names j } }
  have h1 : Step t (start names) s1 := by
    have := Step.create (t := t) (s := start names) 0 rfl rfl
    exact this
  let s2 : S := { s1 with procs := fun j => if j = 1 then { id := names 1, seen := some 1, seenAt := 0 } else s1.procs j }
  have h2 : Step t s1 s2 := Step.observe (t := t) (s := s1) 1 ⟨names 0, 1, 0⟩ rfl (by simp [s1])
  have h3 : Steps t s2 { s2 with time := n } := by
    have := passes (t := t) s2 n (fun i h => ?_) (fun i w h => ?_)
    · simpa [s2, s1] using this
    · by_cases h1' : i = 1
      · subst h1'; cases h
      · by_cases h0 : i = 0
        · subst h0; cases h
        · simp [s2, s1, h1', h0] at h
    · by_cases h1' : i = 1
      · subst h1'; cases h
      · by_cases h0 : i = 0
        · subst h0; cases h; show 0 + n ≤ 0 + t.slow; omega
        · simp [s2, s1, h1', h0] at h
  have h4 := Step.answer (t := t) (s := { s2 with time := n }) 0 0 1 rfl
  refine ⟨_, .tail (steps_trans (.tail (.tail .refl h1) h2) h3) h4, rfl, rfl, rfl, rfl, fun j hj => ?_⟩
  have hj0 : j ≠ 0 := by omega
  have hj1 : j ≠ 1 := by omega
  rw [set_other _ _ hj0]
  simp [s2, s1, hj0, hj1]

/-- then process 1 writes, too -/
theorem second {t : Times} {names : Nat → String} {s : S} (hl : s.lock = some ⟨names 0, 1, 0⟩) (h0 : (s.procs 0).leads = true) (h1 : s.procs 1 = { id := names 1, seen := some 1, seenAt := 0 })
    (hm : names 0 = names 1 ∨ t.lease ≤ s.time) : ∃ u, Steps t s u ∧ (u.procs 0).leads = true ∧ (u.procs 1).leads = true := by
  have hw : Step t s _ := .write 1 ⟨names 0, 1, 0⟩ hl (by rw [h1]) (by rw [h1]) (by
    simp only [mayWrite, h1, Bool.or_eq_true, beq_iff_eq, decide_eq_true_eq]
    rcases hm with hm | hm
    · exact .inl (.inr hm)
    · exact .inr (by omega))
  refine ⟨_, .tail (.tail .refl hw) (.answer 1 s.time (s.written (s.procs 1)).ver rfl), ?_, by rw [set_self]⟩
  rw [set_other _ _ (by decide)]
  exact h0

theorem two {s : S} (h0 : (s.procs 0).leads = true) (h1 : (s.procs 1).leads = true) : ¬ OneLeader s := fun h => absurd (h 0 1 h0 h1) (by decide)

/-- C112, false part: The identity is the host name. Two processes on hosts of the same name both lead at once, with any times: each of them takes the lock of the other for its own. -/
theorem C112_same_host_false (t : Times) (names : Nat → String) (h : names 0 = names 1) : ∃ u, Steps t (start names) u ∧ ¬ OneLeader u := by
  obtain ⟨s, hs, _, hl, h0, h1, _⟩ := led t names 0 (Nat.zero_le _)
  obtain ⟨u, hu, a, b⟩ := second (t := t) hl (by rw [h0]) h1 (.inl h)
  exact ⟨u, steps_trans hs hu, two a b⟩

/-- time passes for the first leader -/
theorem led_until {t : Times} {names : Nat → String} {s : S} {n : Nat} (ht : s.time = n) (h0 : s.procs 0 = { id := names 0, seen := some 1, seenAt := n, leads := true, ack := n })
    (h1 : s.procs 1 = { id := names 1, seen := some 1, seenAt := 0 }) (ho : ∀ j, 2 ≤ j → s.procs j = { id := names j }) (m : Nat) (hm : m ≤ t.retry + t.renew) :
    Steps t s { s with time := s.time + m } := by
  refine passes s m (fun i h => ?_) (fun i w h => ?_)
  · match i, h with
    | 0, _ => rw [h0, ht]; show n + m ≤ n + t.retry + t.renew; omega
    | 1, h => rw [h1] at h; cases h
    | i + 2, h => rw [ho (i + 2) (by omega)] at h; cases h
  · match i, h with
    | 0, h => rw [h0] at h; cases h
    | 1, h => rw [h1] at h; cases h
    | i + 2, h => rw [ho (i + 2) (by omega)] at h; cases h

/-- C112, false part: With the default times an answer that takes nine seconds is enough for two leaders: the leader counts from the answer, the others from the write. -/
theorem C112_slow_answer_false : accepted (defaults 9) = true ∧ ∃ u, Steps (defaults 9) (start host) u ∧ ¬ OneLeader u := by
  refine ⟨by decide, ?_⟩
  obtain ⟨s, hs, ht, hl, h0, h1, ho⟩ := led (defaults 9) host 9 (by decide)
  have hp := led_until (t := defaults 9) ht h0 h1 ho 6 (by decide)
  obtain ⟨u, hu, a, b⟩ := second (t := defaults 9) (names := host) (s := { s with time := s.time + 6 }) hl (by show (s.procs 0).leads = true; rw [h0]) h1 (.inr (by show 15 ≤ s.time + 6; omega))
  exact ⟨u, steps_trans (steps_trans hs hp) hu, two a b⟩

/-- C112, false part: The times are checked by the library only, which compares them two by two. With a lease of 15 s, a deadline of 14 s and a retry period of 11 s there can be two leaders
although every answer comes at once. -/
theorem C112_times_false : ∃ t : Times, accepted t = true ∧ t.slow = 0 ∧ ∃ u, Steps t (start host) u ∧ ¬ OneLeader u := by
  refine ⟨⟨15, 14, 11, 0⟩, by decide, rfl, ?_⟩
  obtain ⟨s, hs, ht, hl, h0, h1, ho⟩ := led ⟨15, 14, 11, 0⟩ host 0 (by decide)
  have hp := led_until (t := ⟨15, 14, 11, 0⟩) ht h0 h1 ho 15 (by decide)
  obtain ⟨u, hu, a, b⟩ := second (t := ⟨15, 14, 11, 0⟩) (names := host) (s := { s with time := s.time + 15 }) hl (by show (s.procs 0).leads = true; rw [h0]) h1 (.inr (by show 15 ≤ s.time + 15; omega))
  exact ⟨u, steps_trans (steps_trans hs hp) hu, two a b⟩

/-- a deadline as long as the lease, or 1.2 retry periods long, is refused -/
example : accepted ⟨10, 10, 2, 0⟩ = false ∧ accepted ⟨15, 12, 10, 0⟩ = false ∧ accepted ⟨15, 13, 10, 0⟩ = true ∧ accepted ⟨15, 10, 0, 0⟩ = false := by decide
/-- the default times with answers within two seconds -/
example (u : S) (h : Steps (defaults 2) (start host) u) : OneLeader u :=
  C112_one_leader_partial (defaults 2) (by decide) (start host) u (start_begun host) host_inj host_ne h
example : ∃ u, Steps (defaults 2) (start host) u ∧ (u.procs 0).leads = true := by
  obtain ⟨s, hs, _, _, h0, _⟩ := led (defaults 2) host 2 (by decide)
  exact ⟨s, hs, by rw [h0]⟩

end MCM.Election
