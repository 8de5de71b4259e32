import Verif.Model.Permits
/-!
C30: permits give mutual exclusion.
-/
namespace MCM.Permits

/-- threads that hold a permit for the key -/
def holders (s : State) (k : String) : Nat := (s.holding.filter fun p => p.1 = k).length

/-- no key that a thread waits for or holds is dropped from the map in this step -/
def Quiet (s s' : State) : Prop := ∀ k, (∃ e, s.map k = some e) → s'.map k = none → ∀ p ∈ s.waiting ++ s.holding, p.1 ≠ k

structure Inv (n : Nat) (s : State) : Prop where
  cur : ∀ p ∈ s.waiting ++ s.holding, ∃ e, s.map p.1 = some e ∧ e.chan = p.2
  old : ∀ k e, s.map k = some e → e.chan < s.next
  inj : ∀ k k' e e', s.map k = some e → s.map k' = some e' → e.chan = e'.chan → k = k'
  cap : ∀ k e, s.map k = some e → (s.chans e.chan).cap = n
  count : ∀ k e, s.map k = some e → (s.chans e.chan).used = holders s k
  bound : ∀ k, holders s k ≤ n

theorem setMap_self (f : String → Option Entry) (k : String) (e : Option Entry) : setMap f k e k = e := if_pos rfl
theorem setMap_ne (f : String → Option Entry) (k : String) (e : Option Entry) (x : String) (h : x ≠ k) : setMap f k e x = f x := if_neg h
theorem setChan_self (f : Nat → Chan) (k : Nat) (e : Chan) : setChan f k e k = e := if_pos rfl
theorem setChan_ne (f : Nat → Chan) (k : Nat) (e : Chan) (x : Nat) (h : x ≠ k) : setChan f k e x = f x := if_neg h

theorem holders_erase (l : List (String × Nat)) (k : String) (c : Nat) (h : (k, c) ∈ l) (x : String) :
    ((l.erase (k, c)).filter fun p => p.1 = x).length + (if x = k then 1 else 0) = (l.filter fun p => p.1 = x).length := by
  induction l with
  | nil => cases h
  | cons p l ih =>
    by_cases hp : p = (k, c)
    · subst hp
      rw [List.erase_cons_head]
      by_cases hx : x = k
      · subst hx
        simp
      · rw [if_neg hx, List.filter_cons_of_neg (by simpa using fun h => hx h.symm)]
        rfl
    · rw [List.erase_cons_tail (by simpa using hp)]
      have hin : (k, c) ∈ l := (List.mem_cons.1 h).resolve_left fun e => hp e.symm
      have := ih hin
      by_cases hq : p.1 = x
      · rw [List.filter_cons_of_pos (by simpa using hq), List.filter_cons_of_pos (by simpa using hq), List.length_cons, List.length_cons]
        omega
      · rw [List.filter_cons_of_neg (by simpa using hq), List.filter_cons_of_neg (by simpa using hq)]
        exact this

theorem mem_of_mem_erase' {p q : String × Nat} {l : List (String × Nat)} (h : p ∈ l.erase q) : p ∈ l := List.mem_of_mem_erase h

theorem Inv.step {timeout : Int} {n : Nat} {s s' : State} (hi : Inv n s) (h : Step timeout n s s') (hq : Quiet s s') : Inv n s' := by
  obtain ⟨cur, old, inj, cap, count, bound⟩ := hi
  cases h with
  | register k now =>
    unfold State.register
    cases hk : s.map k with
    | some e => exact ⟨cur, old, inj, cap, count, bound⟩
    | none =>
      dsimp only
      have hz : holders s k = 0 := by
        unfold holders
        rw [List.length_eq_zero_iff, List.filter_eq_nil_iff]
        intro p hp hpk
        obtain ⟨e, he, _⟩ := cur p (List.mem_append_right _ hp)
        have : p.1 = k := by simpa using hpk
        rw [this, hk] at he
        cases he
      refine ⟨?_, ?_, ?_, ?_, ?_, bound⟩
      · intro p hp
        obtain ⟨e, he, hc⟩ := cur p hp
        have : p.1 ≠ k := fun h => by rw [h, hk] at he; cases he
        exact ⟨e, (setMap_ne _ _ _ _ this).trans he, hc⟩
      · intro x e hx
        change setMap s.map k _ x = some e at hx
        by_cases hxk : x = k
        · subst hxk; rw [setMap_self] at hx; cases hx; exact Nat.lt_succ_self _
        · rw [setMap_ne _ _ _ _ hxk] at hx; exact Nat.lt_succ_of_lt (old x e hx)
      · intro x y e e' hx hy hc
        change setMap s.map k _ x = some e at hx
        change setMap s.map k _ y = some e' at hy
        by_cases hxk : x = k <;> by_cases hyk : y = k
        · rw [hxk, hyk]
        · subst hxk
          rw [setMap_self] at hx; cases hx
          rw [setMap_ne _ _ _ _ hyk] at hy
          have := old y e' hy
          dsimp only at hc
          omega
        · subst hyk
          rw [setMap_self] at hy; cases hy
          rw [setMap_ne _ _ _ _ hxk] at hx
          have := old x e hx
          dsimp only at hc
          omega
        · rw [setMap_ne _ _ _ _ hxk] at hx
          rw [setMap_ne _ _ _ _ hyk] at hy
          exact inj x y e e' hx hy hc
      · intro x e hx
        change setMap s.map k _ x = some e at hx
        change (setChan s.chans s.next _ e.chan).cap = n
        by_cases hxk : x = k
        · subst hxk; rw [setMap_self] at hx; cases hx; rw [setChan_self]
        · rw [setMap_ne _ _ _ _ hxk] at hx
          rw [setChan_ne _ _ _ _ (Nat.ne_of_lt (old x e hx))]
          exact cap x e hx
      · intro x e hx
        change setMap s.map k _ x = some e at hx
        change (setChan s.chans s.next _ e.chan).used = holders s x
        by_cases hxk : x = k
        · subst hxk; rw [setMap_self] at hx; cases hx; rw [setChan_self]; exact hz.symm
        · rw [setMap_ne _ _ _ _ hxk] at hx
          rw [setChan_ne _ _ _ _ (Nat.ne_of_lt (old x e hx))]
          exact count x e hx
  | load k e he =>
    refine ⟨?_, old, inj, cap, count, bound⟩
    intro p hp
    rcases List.mem_append.1 hp with hp | hp
    · rcases List.mem_cons.1 hp with rfl | hp
      · exact ⟨e, he, rfl⟩
      · exact cur p (List.mem_append_left _ hp)
    · exact cur p (List.mem_append_right _ hp)
  | acquire k c now hw hcl hlt =>
    obtain ⟨e, he, rfl⟩ := cur (k, c) (List.mem_append_left _ hw)
    have hholders : ∀ x, ((((k, e.chan) :: s.holding).filter fun p => p.1 = x).length = holders s x + if x = k then 1 else 0) := by
      intro x
      unfold holders
      by_cases hx : x = k
      · subst hx; simp
      · rw [if_neg hx, List.filter_cons_of_neg (by simpa using fun h => hx h.symm)]; rfl
    refine ⟨?_, old, inj, ?_, ?_, ?_⟩
    · intro p hp
      rcases List.mem_append.1 hp with hp | hp
      · exact cur p (List.mem_append_left _ (List.mem_of_mem_erase hp))
      · rcases List.mem_cons.1 hp with rfl | hp
        · exact ⟨e, he, rfl⟩
        · exact cur p (List.mem_append_right _ hp)
    · intro x e' hx
      change (setChan s.chans e.chan _ e'.chan).cap = n
      by_cases hc : e'.chan = e.chan
      · rw [hc, setChan_self]; exact cap k e he
      · rw [setChan_ne _ _ _ _ hc]; exact cap x e' hx
    · intro x e' hx
      change (setChan s.chans e.chan _ e'.chan).used = (((k, e.chan) :: s.holding).filter fun p => p.1 = x).length
      rw [hholders]
      by_cases hc : e'.chan = e.chan
      · have hxk := inj x k e' e hx he hc
        subst hxk
        rw [hc, setChan_self, if_pos rfl]
        change (s.chans e.chan).used + 1 = _
        rw [count x e he]
      · have hxk : x ≠ k := fun h => by subst h; change s.map x = some e at he; rw [he] at hx; cases hx; exact hc rfl
        rw [setChan_ne _ _ _ _ hc, if_neg hxk]
        exact count x e' hx
    · intro x
      change (((k, e.chan) :: s.holding).filter fun p => p.1 = x).length ≤ n
      rw [hholders]
      by_cases hx : x = k
      · subst hx
        rw [if_pos rfl]
        have h1 := count x e he
        have h2 := cap x e he
        omega
      · rw [if_neg hx]
        exact bound x
  | panic k c hw hcl => exact ⟨cur, old, inj, cap, count, bound⟩
  | giveUp k c hw =>
    refine ⟨?_, old, inj, cap, count, bound⟩
    intro p hp
    rcases List.mem_append.1 hp with hp | hp
    · exact cur p (List.mem_append_left _ (List.mem_of_mem_erase hp))
    · exact cur p (List.mem_append_right _ hp)
  | release k c hh =>
    obtain ⟨e, he, hc⟩ := cur (k, c) (List.mem_append_right _ hh)
    dsimp only at he hc
    subst hc
    have herase := holders_erase s.holding k e.chan hh
    have hpos : 1 ≤ holders s k := by
      have := herase k
      rw [if_pos rfl] at this
      unfold holders
      omega
    have hne : ¬ (s.chans e.chan).used = 0 := by rw [count k e he]; omega
    unfold State.release
    dsimp only
    rw [he]
    dsimp only
    rw [if_neg hne]
    refine ⟨?_, old, inj, ?_, ?_, ?_⟩
    · intro p hp
      rcases List.mem_append.1 hp with hp | hp
      · exact cur p (List.mem_append_left _ hp)
      · exact cur p (List.mem_append_right _ (List.mem_of_mem_erase hp))
    · intro x e' hx
      change (setChan s.chans e.chan _ e'.chan).cap = n
      by_cases hc : e'.chan = e.chan
      · rw [hc, setChan_self]; exact cap k e he
      · rw [setChan_ne _ _ _ _ hc]; exact cap x e' hx
    · intro x e' hx
      change (setChan s.chans e.chan _ e'.chan).used = ((s.holding.erase (k, e.chan)).filter fun p => p.1 = x).length
      have h1 := herase x
      by_cases hc : e'.chan = e.chan
      · have hxk := inj x k e' e hx he hc
        subst hxk
        rw [hc, setChan_self]
        change (s.chans e.chan).used - 1 = _
        rw [if_pos rfl] at h1
        rw [count x e he]
        unfold holders
        omega
      · have hxk : x ≠ k := fun h => by subst h; rw [he] at hx; cases hx; exact hc rfl
        rw [if_neg hxk] at h1
        rw [setChan_ne _ _ _ _ hc, count x e' hx]
        unfold holders
        omega
    · intro x
      change ((s.holding.erase (k, e.chan)).filter fun p => p.1 = x).length ≤ n
      have h1 := herase x
      have h2 := bound x
      unfold holders at h2
      omega
  | check k now hs => exact ⟨cur, old, inj, cap, count, bound⟩
  | delete k hd =>
    have hnone : ∀ x e, setMap s.map k none x = some e → x ≠ k ∧ s.map x = some e := by
      intro x e hx
      by_cases hxk : x = k
      · subst hxk; rw [setMap_self] at hx; cases hx
      · rw [setMap_ne _ _ _ _ hxk] at hx; exact ⟨hxk, hx⟩
    refine ⟨?_, ?_, ?_, ?_, ?_, bound⟩
    · intro p hp
      obtain ⟨e, he, hc⟩ := cur p hp
      have hne : p.1 ≠ k := by
        intro hpk
        refine hq k ⟨e, by rw [← hpk]; exact he⟩ (setMap_self _ _ _) p hp hpk
      exact ⟨e, (setMap_ne _ _ _ _ hne).trans he, hc⟩
    · intro x e hx; exact old x e (hnone x e hx).2
    · intro x y e e' hx hy; exact inj x y e e' (hnone x e hx).2 (hnone y e' hy).2
    · intro x e hx; exact cap x e (hnone x e hx).2
    · intro x e hx; exact count x e (hnone x e hx).2
  | close => exact ⟨cur, old, inj, cap, count, bound⟩

theorem inv_reach {timeout : Int} {n : Nat} {s : State} (h : Reach timeout n Quiet s) : Inv n s := by
  induction h with
  | start => exact ⟨fun _ h => (nomatch h), fun _ _ h => (nomatch h), fun _ _ _ _ h => (nomatch h), fun _ _ h => (nomatch h), fun _ _ h => (nomatch h), fun _ => Nat.zero_le _⟩
  | step _ hs hq ih => exact ih.step hs hq

/-- C30: At most `n` threads hold a permit for a key at any time, in all interleavings in which the janitor does not drop a key that a
thread waits for or holds. The full statement is without this condition; it is refuted below. -/
theorem C30_exclusion_partial (timeout : Int) (n : Nat) (s : State) (h : Reach timeout n Quiet s) (k : String) : holders s k ≤ n :=
  (inv_reach h).bound k

/-- C30: In these no permit is lost: a thread that waits for a key of which fewer than `n` permits are held can go on, unless the permit
giver has been closed. -/
theorem C30_no_lost_permit_partial (timeout : Int) (n : Nat) (s : State) (h : Reach timeout n Quiet s) (k : String) (c : Nat) (hw : (k, c) ∈ s.waiting)
    (hfree : holders s k < n) (hopen : (s.chans c).closed = false) : ∃ s', Step timeout n s s' ∧ holders s' k = holders s k + 1 := by
  have hi := inv_reach h
  obtain ⟨e, he, hc⟩ := hi.cur (k, c) (List.mem_append_left _ hw)
  dsimp only at he hc
  subst hc
  refine ⟨_, Step.acquire k e.chan 0 hw hopen ?_, ?_⟩
  · rw [hi.count k e he, hi.cap k e he]; exact hfree
  · unfold holders
    simp

/-- after this step no thread waits for a key that the janitor has found stale and not dropped yet -/
def Calm (_ s' : State) : Prop := ∀ k, s'.doomed = some k → ∀ p ∈ s'.waiting, p.1 ≠ k

theorem unheld_of_stale {timeout : Int} {n : Nat} {s : State} (hi : Inv n s) (k : String) (now : Int) (hs : s.stale timeout k now = true) :
    ∀ p ∈ s.holding, p.1 ≠ k := by
  unfold State.stale at hs
  split at hs
  · cases hs
  · rename_i e he
    rw [Bool.and_eq_true] at hs
    have h0 : holders s k = 0 := by
      rw [← hi.count k e he]
      simpa using hs.2
    intro p hp hpk
    unfold holders at h0
    rw [List.length_eq_zero_iff, List.filter_eq_nil_iff] at h0
    exact h0 p hp (by simpa using hpk)

theorem quiet_of_calm {timeout : Int} {n : Nat} {s : State} (h : Reach timeout n Calm s) :
    Reach timeout n Quiet s ∧ ∀ k, s.doomed = some k → ∀ p ∈ s.waiting ++ s.holding, p.1 ≠ k := by
  induction h with
  | start => exact ⟨.start, fun k h => (nomatch h)⟩
  | @step s s' hr hs hc ih =>
    obtain ⟨hq, hd⟩ := ih
    have hi := inv_reach hq
    have hd' : ∀ k, s'.doomed = some k → ∀ p ∈ s'.holding, p.1 ≠ k := by
      intro k hk p hp
      cases hs with
      | register k' now =>
        unfold State.register at hk hp
        split at hk <;> split at hp <;> exact hd k hk p (List.mem_append_right _ hp)
      | load k' e he => exact hd k hk p (List.mem_append_right _ hp)
      | acquire k' c now hw hcl hlt =>
        rcases List.mem_cons.1 hp with rfl | hp
        · exact hd k hk _ (List.mem_append_left _ hw)
        · exact hd k hk p (List.mem_append_right _ hp)
      | panic k' c hw hcl => exact hd k hk p (List.mem_append_right _ hp)
      | giveUp k' c hw => exact hd k hk p (List.mem_append_right _ hp)
      | release k' c hh =>
        have h1 : (s.release k' c).doomed = s.doomed := by
          unfold State.release; dsimp only; repeat' split
          all_goals rfl
        have h2 : (s.release k' c).holding = s.holding.erase (k', c) := by
          unfold State.release; dsimp only; repeat' split
          all_goals rfl
        rw [h1] at hk
        rw [h2] at hp
        exact hd k hk p (List.mem_append_right _ (List.mem_of_mem_erase hp))
      | check k' now hst =>
        cases hk
        exact unheld_of_stale hi k now hst p hp
      | delete k' hdm => cases hk
      | close => exact hd k hk p (List.mem_append_right _ hp)
    refine ⟨.step hq hs ?_, fun k hk p hp => ?_⟩
    · intro k hex hnone p hp hpk
      have hsame : ∀ m : String → Option Entry, s'.map = m → m = s.map → False := by
        intro m h1 h2
        obtain ⟨e, he⟩ := hex
        rw [h1, h2, he] at hnone
        cases hnone
      cases hs with
      | register k' now =>
        obtain ⟨e, he⟩ := hex
        unfold State.register at hnone
        split at hnone
        · rw [he] at hnone; cases hnone
        · rename_i hk'
          change setMap s.map k' _ k = none at hnone
          by_cases hkk : k = k'
          · subst hkk; rw [he] at hk'; cases hk'
          · rw [setMap_ne _ _ _ _ hkk, he] at hnone; cases hnone
      | load k' e he => exact hsame _ rfl rfl
      | acquire k' c now hw hcl hlt => exact hsame _ rfl rfl
      | panic k' c hw hcl => exact hsame _ rfl rfl
      | giveUp k' c hw => exact hsame _ rfl rfl
      | release k' c hh =>
        refine hsame _ rfl ?_
        unfold State.release; dsimp only; repeat' split
        all_goals rfl
      | check k' now hst => exact hsame _ rfl rfl
      | delete k' hdm =>
        by_cases hkk : k = k'
        · subst hkk; exact hd k hdm p hp hpk
        · obtain ⟨e, he⟩ := hex
          change setMap s.map k' none k = none at hnone
          rw [setMap_ne _ _ _ _ hkk, he] at hnone
          cases hnone
      | close => exact hsame _ rfl rfl
    · rcases List.mem_append.1 hp with hp | hp
      · exact hc k hk p hp
      · exact hd' k hk p hp

/-- C30: The same under a weaker condition: threads that hold a permit need not be considered, because the janitor looks for them. It suffices that
no thread is inside `TryPermit` for a key between the janitor's test of that key and its deletion. -/
theorem C30_exclusion_calm_partial (timeout : Int) (n : Nat) (s : State) (h : Reach timeout n Calm s) (k : String) : holders s k ≤ n :=
  C30_exclusion_partial timeout n s (quiet_of_calm h).1 k

/-- C30: The janitor never finds a key stale while a permit for it is held (same condition). -/
theorem C30_held_not_stale_partial (timeout : Int) (n : Nat) (s : State) (h : Reach timeout n Calm s) (k : String) (now : Int) (hh : 0 < holders s k) :
    s.stale timeout k now = false := by
  cases hs : s.stale timeout k now with
  | false => rfl
  | true =>
    have := unheld_of_stale (inv_reach (quiet_of_calm h).1) k now hs
    unfold holders at hh
    obtain ⟨p, hp⟩ := List.exists_mem_of_length_pos hh
    rw [List.mem_filter] at hp
    exact absurd (by simpa using hp.2) (this p hp.1)

/-- C30: A key that is registered anew is not dropped before the timeout has passed since; after that it is unless it is held. -/
theorem C30_kept_for_timeout (timeout : Int) (n : Nat) (s : State) (k : String) (t now : Int) (h : s.map k = none) :
    (s.register k n t).stale timeout k now = true ↔ t + timeout < now := by
  have hr : s.register k n t = { s with map := setMap s.map k (some { chan := s.next, time := t }), chans := setChan s.chans s.next { cap := n }, next := s.next + 1 } := by
    unfold State.register; rw [h]
  rw [hr]
  unfold State.stale
  dsimp only
  have h1 : setMap s.map k (some ⟨s.next, t⟩) k = some ⟨s.next, t⟩ := if_pos rfl
  have h2 : setChan s.chans s.next { cap := n } s.next = { cap := n } := if_pos rfl
  rw [h1]
  dsimp only
  rw [h2, Bool.and_eq_true, decide_eq_true_iff]
  constructor
  · rintro ⟨h, _⟩; omega
  · intro h; exact ⟨by omega, rfl⟩

/-- C30, false part: The janitor drops a key while a thread is about to take its permit; the key is registered again, another thread takes
a permit of the new channel, then the first thread takes that of the old one. -/
theorem C30_janitor_false : ¬ ∀ (timeout : Int) (s : State), Reach timeout 1 (fun _ _ => True) s → ∀ k, holders s k ≤ 1 := by
  intro h
  have r1 := Reach.step (timeout := 3600) (n := 1) (ok := fun _ _ => True) Reach.start (Step.register "d" 0) trivial
  have r2 := Reach.step r1 (Step.load "d" ⟨0, 0⟩ rfl) trivial
  have r3 := Reach.step r2 (Step.check "d" 4000 (by decide)) trivial
  have r4 := Reach.step r3 (Step.delete "d" rfl) trivial
  have r5 := Reach.step r4 (Step.register "d" 4000) trivial
  have r6 := Reach.step r5 (Step.load "d" ⟨1, 4000⟩ (by decide)) trivial
  have r7 := Reach.step r6 (Step.acquire "d" 1 4000 (by decide) (by decide) (by decide)) trivial
  have r8 := Reach.step r7 (Step.acquire "d" 0 4001 (by decide) (by decide) (by decide)) trivial
  exact absurd (h 3600 _ r8 "d") (by decide)

/-- C30, false part: The same without a thread that waits when the janitor tests: the permit is taken between test and deletion. -/
theorem C30_janitor_holder_false : ¬ ∀ (timeout : Int) (s : State), Reach timeout 1 (fun s s' => s.waiting ≠ [] → s'.doomed = s.doomed) s → ∀ k, holders s k ≤ 1 := by
  intro h
  have r1 := Reach.step (timeout := 3600) (n := 1) (ok := fun s s' => s.waiting ≠ [] → s'.doomed = s.doomed) Reach.start (Step.register "d" 0) (fun _ => rfl)
  have r3 := Reach.step r1 (Step.check "d" 4000 (by decide)) (fun h => absurd rfl h)
  have r2 := Reach.step r3 (Step.load "d" ⟨0, 0⟩ rfl) (fun _ => rfl)
  have r8 := Reach.step r2 (Step.acquire "d" 0 4000 (by decide) (by decide) (by decide)) (fun _ => rfl)
  have r4 := Reach.step r8 (Step.delete "d" rfl) (fun h => absurd rfl h)
  have r5 := Reach.step r4 (Step.register "d" 4000) (fun _ => rfl)
  have r6 := Reach.step r5 (Step.load "d" ⟨1, 4000⟩ (by decide)) (fun _ => rfl)
  have r7 := Reach.step r6 (Step.acquire "d" 1 4001 (by decide) (by decide) (by decide)) (fun _ => rfl)
  exact absurd (h 3600 _ r7 "d") (by decide)

/-- C30, false part: A key is dropped although it was in use a moment ago, because the time of use is written into a copy: each key is
dropped at the first clean-up more than the timeout after its registration at which it happens not to be held. -/
theorem C30_use_not_recorded_false : ¬ ∀ (timeout : Int) (s : State), Reach timeout 1 Quiet s → ∀ k now, s.stale timeout k now = true →
    now - timeout > s.lastUse k := by
  intro h
  have r1 := Reach.step (timeout := 3600) (n := 1) (ok := Quiet) Reach.start (Step.register "d" 0) (fun _ h => by obtain ⟨e, he⟩ := h; cases he)
  have r2 := Reach.step r1 (Step.load "d" ⟨0, 0⟩ rfl) (fun k h h' => by obtain ⟨e, he⟩ := h; exact absurd (he.symm.trans h') (by simp))
  have r3 := Reach.step r2 (Step.acquire "d" 0 4000 (by decide) (by decide) (by decide)) (fun k h h' => by obtain ⟨e, he⟩ := h; exact absurd (he.symm.trans h') (by simp))
  have r4 := Reach.step r3 (Step.release "d" 0 (by decide)) (fun k h h' => by obtain ⟨e, he⟩ := h; exact absurd (he.symm.trans h') (by simp))
  exact absurd (h 3600 _ r4 "d" 4001 (by decide)) (by decide)

/-- C30, false part: When the permit giver is closed while a thread is about to take a permit, the process can panic. -/
theorem C30_close_panics_false : ¬ ∀ (timeout : Int) (s : State), Reach timeout 1 Quiet s → s.panic = false := by
  intro h
  have r1 := Reach.step (timeout := 3600) (n := 1) (ok := Quiet) Reach.start (Step.register "d" 0) (fun _ h => by obtain ⟨e, he⟩ := h; cases he)
  have r2 := Reach.step r1 (Step.load "d" ⟨0, 0⟩ rfl) (fun k h h' => by obtain ⟨e, he⟩ := h; exact absurd (he.symm.trans h') (by simp))
  have r3 := Reach.step r2 Step.close (fun k h h' => by obtain ⟨e, he⟩ := h; exact absurd (he.symm.trans h') (by simp))
  have r4 := Reach.step r3 (Step.panic "d" 0 (by decide) (by decide)) (fun k h h' => by obtain ⟨e, he⟩ := h; exact absurd (he.symm.trans h') (by simp))
  exact absurd (h 3600 _ r4) (by decide)

/-- an execution as in `C30_exclusion_partial` in which the permit is held -/
example : ∃ s : State, Reach 3600 1 Quiet s ∧ holders s "d" = 1 := by
  have r1 := Reach.step (timeout := 3600) (n := 1) (ok := Quiet) Reach.start (Step.register "d" 0) (fun _ h => by obtain ⟨e, he⟩ := h; cases he)
  have r2 := Reach.step r1 (Step.load "d" ⟨0, 0⟩ rfl) (fun k h h' => by obtain ⟨e, he⟩ := h; exact absurd (he.symm.trans h') (by simp))
  have r3 := Reach.step r2 (Step.acquire "d" 0 4000 (by decide) (by decide) (by decide)) (fun k h h' => by obtain ⟨e, he⟩ := h; exact absurd (he.symm.trans h') (by simp))
  exact ⟨_, r3, by decide⟩

end MCM.Permits
