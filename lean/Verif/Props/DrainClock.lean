import Verif.Model.DrainClock
import Verif.Props.Drain
/-!
C131: how long a drain takes, and whether there is time left for deleting pods that could not be evicted.
-/
namespace MCM.DrainClock
open MCM.Drain

/-! ### times -/

theorem send_le (d t : Nat) (c : Call) : t ≤ (send d t c).2 ∧ (send d t c).2 ≤ max t d := by
  unfold send; split <;> dsimp only <;> omega

theorem send_late (d t : Nat) (c : Call) (h : d ≤ t) : send d t c = (.error, t) := by
  unfold send; rw [if_neg (by omega)]; congr 1; omega

theorem read_le (d t : Nat) (l : Look) : t ≤ (read d t l).2 ∧ (read d t l).2 ≤ max t d := by
  unfold read; split <;> dsimp only <;> omega

theorem read_late (d t : Nat) (l : Look) (h : d ≤ t) : (read d t l).1 = .error := by
  unfold read; rw [if_neg (by omega)]

/-- waiting for the end of a pod ends at most one interval after the deadline -/
theorem watch_le (d stop : Nat) (p : Pod) (looks : Nat → Look) (i t : Nat) (h : t ≤ d + pollInterval) : (watch d stop p looks i t).2 ≤ d + pollInterval := by
  fun_induction watch d stop p looks i t with
  | case1 i t hc => have := read_le d t (looks i); dsimp only; unfold pollInterval at *; omega
  | case2 i t hc ih =>
    dsimp only
    apply ih
    have hl := read_le d t (looks i)
    have : t < d := by
      rcases Nat.lt_or_ge t d with h' | h'
      · exact h'
      · exact absurd (Or.inr (Or.inr (Or.inl (read_late d t (looks i) h')))) hc
    unfold pollInterval at *
    omega

theorem afterT_le (c : Cfg) (force : Bool) (e : Env1) (p : Pod) (t : Nat) (h : t ≤ c.deadline) : ∀ x ∈ afterT c force e p t, x.1 ≤ c.deadline + pollInterval := by
  intro x hx
  unfold afterT at hx
  split at hx
  · rw [List.mem_singleton] at hx; subst hx; unfold pollInterval; dsimp only; omega
  · rw [List.mem_singleton] at hx; subst hx
    exact watch_le _ _ _ _ _ _ (by unfold pollInterval; omega)

theorem send_ok_le (d t : Nat) (c : Call) (h : (send d t c).1 ≠ .error) : t < d ∧ (send d t c).2 < d ∧ (send d t c) = (c.resp, t + c.dur) := by
  unfold send at h ⊢
  split at h
  · rename_i hlt
    rw [if_pos hlt]
    exact ⟨by omega, hlt, rfl⟩
  · exact absurd rfl h

theorem noPvT_le (c : Cfg) (attempt force : Bool) (e : Env1) (p : Pod) (n : Nat) : ∀ t i, ∀ x ∈ noPvT c attempt force e p t i n, x.1 ≤ max t (c.deadline + retryInterval) := by
  have hdel : ∀ t i (v : Verb) (x : Nat × Ev), x ∈ ((send c.deadline t (e.call i)).2, Ev.req p v (send c.deadline t (e.call i)).1) :: (match (send c.deadline t (e.call i)).1 with
      | .ok => afterT c force e p (send c.deadline t (e.call i)).2
      | .notFound => [((send c.deadline t (e.call i)).2, .result p true)]
      | _ => [((send c.deadline t (e.call i)).2, .result p false)]) → x.1 ≤ max t (c.deadline + retryInterval) := by
    intro t i v x hx
    have hs := send_le c.deadline t (e.call i)
    have hr : retryInterval = 20000 := rfl
    rcases List.mem_cons.1 hx with rfl | hx
    · dsimp only; omega
    · cases hk : (send c.deadline t (e.call i)).1 with
      | ok =>
        rw [hk] at hx
        have h1 := send_ok_le c.deadline t (e.call i) (by rw [hk]; exact Resp.noConfusion)
        have := afterT_le c force e p _ (by omega) x hx
        unfold pollInterval at this
        omega
      | _ => rw [hk] at hx; rw [List.mem_singleton] at hx; subst hx; dsimp only; omega
  induction n with
  | zero => intro t i x hx; exact hdel t i .delete x hx
  | succ n ih =>
    intro t i x hx
    unfold noPvT at hx
    split at hx
    · have hs := send_le c.deadline t (e.call i)
      have hr : retryInterval = 20000 := rfl
      rcases List.mem_cons.1 hx with rfl | hx'
      · dsimp only; omega
      · cases hk : (send c.deadline t (e.call i)).1 with
        | ok =>
          rw [hk] at hx'
          have h1 := send_ok_le c.deadline t (e.call i) (by rw [hk]; exact Resp.noConfusion)
          have := afterT_le c force e p _ (by omega) x hx'
          unfold pollInterval at this
          omega
        | tooMany =>
          rw [hk] at hx'
          dsimp only at hx'
          split at hx'
          · rw [List.mem_singleton] at hx'; subst hx'; dsimp only; omega
          · have h1 := send_ok_le c.deadline t (e.call i) (by rw [hk]; exact Resp.noConfusion)
            have := ih _ _ x hx'
            omega
        | _ => rw [hk] at hx'; rw [List.mem_singleton] at hx'; subst hx'; dsimp only; omega
    · exact hdel t i .delete x hx

theorem detachT_le (dl : Nat) (polls : Nat → Nat × NodeRead) (i t : Nat) (h : t ≤ dl + detachInterval) : t ≤ (detachT dl polls i t).2 ∧ (detachT dl polls i t).2 ≤ dl + detachInterval := by
  fun_induction detachT dl polls i t with
  | case1 => dsimp only; omega
  | case2 => dsimp only; omega
  | case3 => dsimp only; omega
  | case4 i t h1 h2 h3 ih => have := ih (by unfold detachInterval; omega); omega
  | case5 => dsimp only; omega
  | case6 => dsimp only; omega

theorem detachFrom_le (c : Cfg) (e : Env) (p : Pod) (t : Nat) (h : t ≤ c.deadline) : t ≤ (detachFrom c e p t).2 ∧ (detachFrom c e p t).2 ≤ c.deadline + detachInterval := by
  unfold detachFrom
  split
  · have := detachT_le (min c.deadline (t + c.grace p + c.pvDetach)) e.polls 0 t (by omega)
    omega
  · dsimp only; omega

theorem reattachFrom_le (c : Cfg) (e : Env) (p : Pod) (t : Nat) : t ≤ (reattachFrom c e p t).2 ∧ (reattachFrom c e p t).2 ≤ max t c.deadline := by
  unfold reattachFrom
  split
  · unfold reattachT
    split
    · split <;> dsimp only <;> omega
    · dsimp only; omega
  · dsimp only; omega

/-- every event lies between two times, and so does the end -/
def Within (lo hi : Nat) (evs : List (Nat × Ev)) (t : Nat) : Prop := lo ≤ t ∧ t ≤ hi ∧ ∀ x ∈ evs, lo ≤ x.1 ∧ x.1 ≤ hi

theorem waitsT_within (c : Cfg) (e : Env) (p : Pod) (t : Nat) (h : t ≤ c.deadline) : Within t (c.deadline + detachInterval) (waitsT c e p t).1 (waitsT c e p t).2.2 := by
  have h1 := detachFrom_le c e p t h
  have h2 := reattachFrom_le c e p (detachFrom c e p t).2
  unfold waitsT
  dsimp only
  split <;> refine ⟨by dsimp only; omega, by dsimp only; omega, fun x hx => ?_⟩ <;> simp only [List.mem_cons, List.not_mem_nil, or_false] at hx
  · rcases hx with rfl | rfl <;> dsimp only <;> omega
  · rcases hx with rfl | rfl <;> dsimp only <;> omega
  · rcases hx with rfl | rfl | rfl <;> dsimp only <;> omega

theorem visitT_within (c : Cfg) (attempt : Bool) (e : Env) (p : Pod) (t : Nat) :
    Within t (max t (c.deadline + detachInterval)) (visitT c attempt e p t).1 (visitT c attempt e p t).2.2 := by
  have hs := send_le c.deadline t e.call
  unfold visitT
  split
  · refine ⟨Nat.le_refl _, by dsimp only; omega, fun x hx => ?_⟩
    rw [List.mem_singleton] at hx; subst hx; dsimp only; omega
  · dsimp only
    split
    · split <;> refine ⟨by dsimp only; omega, by dsimp only; omega, fun x hx => ?_⟩ <;> simp only [List.mem_cons, List.not_mem_nil, or_false] at hx
      · rcases hx with rfl | rfl <;> dsimp only <;> omega
      · rw [hx]; dsimp only; omega
    · split
      · refine ⟨by dsimp only; omega, by dsimp only; omega, fun x hx => ?_⟩
        simp only [List.mem_cons, List.not_mem_nil, or_false] at hx
        rcases hx with rfl | rfl <;> dsimp only <;> omega
      · have hw := waitsT_within c e p (send c.deadline t e.call).2 (by omega)
        refine ⟨?_, ?_, fun x hx => ?_⟩
        · have := hw.1; dsimp only; omega
        · have := hw.2.1; dsimp only; omega
        · rcases List.mem_cons.1 hx with rfl | hx
          · dsimp only; omega
          · have := hw.2.2 x hx; omega
      · refine ⟨by dsimp only; omega, by dsimp only; omega, fun x hx => ?_⟩
        rw [List.mem_singleton] at hx; subst hx; dsimp only; omega

theorem internalT_within (c : Cfg) (attempt : Bool) (e : Pod → Env) (ps : List Pod) : ∀ t,
    Within t (max t (c.deadline + detachInterval)) (internalT c attempt e ps t).evs (internalT c attempt e ps t).t := by
  induction ps with
  | nil => exact fun t => ⟨Nat.le_refl _, Nat.le_max_left .., fun x hx => nomatch hx⟩
  | cons p ps ih =>
    intro t
    have hv := visitT_within c attempt (e p) p t
    have hi := ih (visitT c attempt (e p) p t).2.2
    obtain ⟨v1, v2, v3⟩ := hv
    obtain ⟨i1, i2, i3⟩ := hi
    unfold internalT
    dsimp only
    split
    · exact ⟨v1, v2, v3⟩
    all_goals
      refine ⟨by dsimp only; omega, by dsimp only; omega, fun x hx => ?_⟩
      rcases List.mem_append.1 hx with hx | hx
      · exact v3 x hx
      · have := i3 x hx; omega

/-- once the deadline has passed, a round ends at once -/
theorem internalT_late (c : Cfg) (attempt : Bool) (e : Pod → Env) (ps : List Pod) (t : Nat) (h : c.deadline ≤ t) :
    (internalT c attempt e ps t).t = t ∧ ((internalT c attempt e ps t).fast = true ∨ (internalT c attempt e ps t).rem = []) := by
  cases ps with
  | nil => exact ⟨rfl, .inr rfl⟩
  | cons p ps =>
    unfold internalT visitT
    rw [if_pos h]
    exact ⟨rfl, .inl rfl⟩

/-- how much later than its deadline a drain may end -/
def slack : Nat := detachInterval + retryInterval

theorem roundsT_within (c : Cfg) (e : Nat → Pod → Env) (n : Nat) : ∀ r ps t,
    Within t (max t (c.deadline + slack)) (roundsT c e r n ps t).evs (roundsT c e r n ps t).t := by
  have hsl : slack = detachInterval + retryInterval := rfl
  induction n with
  | zero => exact fun r ps t => ⟨Nat.le_refl _, Nat.le_max_left .., fun x hx => nomatch hx⟩
  | succ n ih =>
    intro r ps t
    obtain ⟨i1, i2, i3⟩ := internalT_within c true (e r) ps t
    unfold roundsT
    dsimp only
    split
    · refine ⟨i1, by omega, fun x hx => ?_⟩
      have := i3 x hx; omega
    · rename_i hf
      have hlt : t < c.deadline := by
        rcases Nat.lt_or_ge t c.deadline with h | h
        · exact h
        · rcases (internalT_late c true (e r) ps t h).2 with h' | h' <;> simp [h'] at hf
      split
      · refine ⟨by dsimp only; omega, by dsimp only; omega, fun x hx => ?_⟩
        have := i3 x hx; omega
      · obtain ⟨j1, j2, j3⟩ := ih (r + 1) (internalT c true (e r) ps t).rem ((internalT c true (e r) ps t).t + retryInterval)
        refine ⟨by dsimp only; omega, by dsimp only; omega, fun x hx => ?_⟩
        rcases List.mem_append.1 hx with hx | hx
        · have := i3 x hx; omega
        · have := j3 x hx; omega

theorem withPvT_le (c : Cfg) (attempt : Bool) (n : Nat) (e : Nat → Pod → Env) (ps : List Pod) (t : Nat) :
    ∀ x ∈ withPvT c attempt n e ps t, x.1 ≤ max t (c.deadline + slack) := by
  have hsl : slack = detachInterval + retryInterval := rfl
  intro x hx
  unfold withPvT at hx
  dsimp only at hx
  split at hx
  · obtain ⟨i1, i2, i3⟩ := roundsT_within c e n 0 ps t
    obtain ⟨j1, j2, j3⟩ := internalT_within c false (e n) (roundsT c e 0 n ps t).rem (roundsT c e 0 n ps t).t
    split at hx
    · rcases List.mem_append.1 hx with hx | hx
      · rcases List.mem_append.1 hx with hx | hx
        · exact (i3 x hx).2
        · have := j3 x hx; omega
      · obtain ⟨p, _, rfl⟩ := List.mem_map.1 hx
        dsimp only; omega
    · rcases List.mem_append.1 hx with hx | hx
      · exact (i3 x hx).2
      · obtain ⟨p, _, rfl⟩ := List.mem_map.1 hx
        dsimp only; omega
  · obtain ⟨j1, j2, j3⟩ := internalT_within c false (e 0) ps t
    rcases List.mem_append.1 hx with hx | hx
    · have := j3 x hx; omega
    · obtain ⟨p, _, rfl⟩ := List.mem_map.1 hx
      dsimp only; omega

/-! ### the same events as without a clock -/

theorem noPv_congr (attempt force : Bool) (p : Pod) (gets : List GetAns) (n : Nat) : ∀ (f f' : Nat → Resp) (g g' : Nat → Bool) (i : Nat),
    (∀ j, i ≤ j → f j = f' j) → (∀ j, i ≤ j → g j = g' j) → noPv attempt force ⟨f, g, gets⟩ p i n = noPv attempt force ⟨f', g', gets⟩ p i n := by
  induction n with
  | zero => intro f f' g g' i hf hg; unfold noPv; dsimp only; rw [hf i (Nat.le_refl _)]; rfl
  | succ n ih =>
    intro f f' g g' i hf hg
    unfold noPv
    dsimp only
    have h1 := hf i (Nat.le_refl _)
    have h2 := hg i (Nat.le_refl _)
    have h3 := ih f f' g g' (i + 1) (fun j hj => hf j (by omega)) (fun j hj => hg j (by omega))
    simp only [h1, h2, h3]
    rfl

theorem afterT_snd (c : Cfg) (force : Bool) (e : Env1) (p : Pod) (t : Nat) : ∃ gets, ∀ f g, (afterT c force e p t).map (·.2) = afterNoPv force ⟨f, g, gets⟩ p := by
  refine ⟨(watch c.deadline (t + min (c.grace p) c.timeout + buffer) p e.looks 0 t).1, fun f g => ?_⟩
  unfold afterT afterNoPv
  split <;> rfl

/-- the run with a clock is one of the runs of the model without -/
theorem noPvT_snd (c : Cfg) (attempt force : Bool) (e : Env1) (p : Pod) (n : Nat) : ∀ t i, ∃ a, (noPvT c attempt force e p t i n).map (·.2) = noPv attempt force a p i n := by
  have hone : ∀ t i (v : Verb), ∃ gets, ∀ g, (((send c.deadline t (e.call i)).2, Ev.req p v (send c.deadline t (e.call i)).1) :: (match (send c.deadline t (e.call i)).1 with
      | .ok => afterT c force e p (send c.deadline t (e.call i)).2
      | .notFound => [((send c.deadline t (e.call i)).2, .result p true)]
      | _ => [((send c.deadline t (e.call i)).2, .result p false)])).map (·.2) =
      Ev.req p v (send c.deadline t (e.call i)).1 :: match (send c.deadline t (e.call i)).1 with
      | .ok => afterNoPv force ⟨fun _ => (send c.deadline t (e.call i)).1, g, gets⟩ p
      | .notFound => [.result p true]
      | _ => [.result p false] := by
    intro t i v
    obtain ⟨gets, hg⟩ := afterT_snd c force e p (send c.deadline t (e.call i)).2
    refine ⟨gets, fun g => ?_⟩
    cases hk : (send c.deadline t (e.call i)).1 <;> simp [hg (fun _ => .ok) g]
  induction n with
  | zero =>
    intro t i
    obtain ⟨gets, hg⟩ := hone t i .delete
    exact ⟨⟨fun _ => (send c.deadline t (e.call i)).1, fun _ => false, gets⟩, hg fun _ => false⟩
  | succ n ih =>
    intro t i
    unfold noPvT
    cases attempt with
    | false =>
      obtain ⟨gets, hg⟩ := hone t i .delete
      exact ⟨⟨fun _ => (send c.deadline t (e.call i)).1, fun _ => false, gets⟩, hg fun _ => false⟩
    | true =>
      rw [if_pos rfl]
      cases hk : (send c.deadline t (e.call i)).1 with
      | ok =>
        obtain ⟨gets, hg⟩ := afterT_snd c force e p (send c.deadline t (e.call i)).2
        refine ⟨⟨fun _ => .ok, fun _ => false, gets⟩, ?_⟩
        simp only [List.map_cons, hg (fun _ => .ok) (fun _ => false), noPv, if_true]
      | notFound => exact ⟨⟨fun _ => .notFound, fun _ => false, []⟩, rfl⟩
      | error => exact ⟨⟨fun _ => .error, fun _ => false, []⟩, rfl⟩
      | tooMany =>
        dsimp only
        split
        · exact ⟨⟨fun _ => .tooMany, fun _ => true, []⟩, rfl⟩
        · obtain ⟨⟨f, g, gets⟩, ha⟩ := ih ((send c.deadline t (e.call i)).2 + retryInterval) (i + 1)
          refine ⟨⟨fun j => if j = i then .tooMany else f j, fun j => if j = i then false else g j, gets⟩, ?_⟩
          rw [List.map_cons, ha, noPv_congr true force p gets n f (fun j => if j = i then .tooMany else f j) g (fun j => if j = i then false else g j) (i + 1)
            (fun j hj => by rw [if_neg (by omega)]) (fun j hj => by rw [if_neg (by omega)])]
          conv => rhs; unfold noPv
          simp

theorem visitT_snd (c : Cfg) (attempt : Bool) (e : Env) (p : Pod) (t : Nat) :
    ∃ a, visit attempt a p = ((visitT c attempt e p t).1.map (·.2), (visitT c attempt e p t).2.1) := by
  unfold visitT
  split
  · exact ⟨{ done := true }, rfl⟩
  · dsimp only
    cases hk : (send c.deadline t e.call).1 with
    | tooMany =>
      cases attempt
      · exact ⟨{ resp := .tooMany }, rfl⟩
      · cases e.pdb
        · exact ⟨{ resp := .tooMany, pdb := false }, rfl⟩
        · exact ⟨{ resp := .tooMany, pdb := true }, rfl⟩
    | notFound => exact ⟨{ resp := .notFound }, by cases attempt <;> rfl⟩
    | error => exact ⟨{ resp := .error }, by cases attempt <;> rfl⟩
    | ok =>
      refine ⟨{ resp := .ok, detach := (detachFrom c e p (send c.deadline t e.call).2).1, reattach := (reattachFrom c e p (detachFrom c e p (send c.deadline t e.call).2).2).1 }, ?_⟩
      have hre : (reattachFrom c e p (detachFrom c e p (send c.deadline t e.call).2).2).1 ≠ .error := by
        unfold reattachFrom reattachT
        split
        · split
          · split <;> exact Reattach.noConfusion
          · exact Reattach.noConfusion
        · exact Reattach.noConfusion
      rw [if_neg (by simp)]
      unfold visit waits waitsT
      dsimp only
      rw [if_neg (by simp), if_neg (by simp)]
      cases (detachFrom c e p (send c.deadline t e.call).2).1 with
      | ok =>
        dsimp only
        cases hr : (reattachFrom c e p (detachFrom c e p (send c.deadline t e.call).2).2).1 with
        | error => exact absurd hr hre
        | _ => rfl
      | _ => rfl

theorem internal_congr (attempt : Bool) (ps : List Pod) : ∀ (a b : Pod → Ans), (∀ p ∈ ps, a p = b p) → internal attempt a ps = internal attempt b ps := by
  induction ps with
  | nil => exact fun _ _ _ => rfl
  | cons p ps ih =>
    intro a b h
    unfold internal
    rw [h p List.mem_cons_self, ih a b fun q hq => h q (List.mem_cons_of_mem _ hq)]

theorem internalT_snd (c : Cfg) (attempt : Bool) (e : Pod → Env) (ps : List Pod) (hn : ps.Nodup) : ∀ t,
    ∃ a, internal attempt a ps = ⟨(internalT c attempt e ps t).evs.map (·.2), (internalT c attempt e ps t).rem, (internalT c attempt e ps t).fast⟩ := by
  induction ps with
  | nil => exact fun _ => ⟨fun _ => {}, rfl⟩
  | cons p ps ih =>
    intro t
    rw [List.nodup_cons] at hn
    obtain ⟨a0, h0⟩ := visitT_snd c attempt (e p) p t
    obtain ⟨a, ha⟩ := ih hn.2 (visitT c attempt (e p) p t).2.2
    refine ⟨fun q => if q = p then a0 else a q, ?_⟩
    have hc : internal attempt (fun q => if q = p then a0 else a q) ps = internal attempt a ps :=
      internal_congr attempt ps _ _ fun q hq => if_neg fun (h : q = p) => hn.1 (h ▸ hq)
    unfold internal internalT
    dsimp only
    rw [if_pos rfl, h0, hc, ha]
    dsimp only
    cases (visitT c attempt (e p) p t).2.1 <;> simp

theorem rounds_congr (n : Nat) : ∀ (r : Nat) (ps : List Pod) (a b : Nat → Pod → Ans), (∀ j, r ≤ j → a j = b j) → rounds a r n ps = rounds b r n ps := by
  induction n with
  | zero => exact fun _ _ _ _ _ => rfl
  | succ n ih =>
    intro r ps a b h
    unfold rounds
    rw [h r (Nat.le_refl _), ih (r + 1) _ a b fun j hj => h j (by omega)]

theorem roundsT_snd (c : Cfg) (e : Nat → Pod → Env) (n : Nat) : ∀ (r : Nat) (ps : List Pod), ps.Nodup → ∀ t,
    ∃ a, rounds a r n ps = ⟨(roundsT c e r n ps t).evs.map (·.2), (roundsT c e r n ps t).rem, (roundsT c e r n ps t).fast⟩ := by
  induction n with
  | zero => exact fun _ _ _ _ => ⟨fun _ _ => {}, rfl⟩
  | succ n ih =>
    intro r ps hn t
    obtain ⟨a0, h0⟩ := internalT_snd c true (e r) ps hn t
    have hsub : (internalT c true (e r) ps t).rem.Sublist ps := by
      have := internal_rem true a0 ps
      rw [h0] at this
      exact this
    obtain ⟨a, ha⟩ := ih (r + 1) _ (hn.sublist hsub) ((internalT c true (e r) ps t).t + retryInterval)
    refine ⟨fun j => if j = r then a0 else a j, ?_⟩
    have hc : ∀ qs, rounds (fun j => if j = r then a0 else a j) (r + 1) n qs = rounds a (r + 1) n qs := fun qs =>
      rounds_congr n (r + 1) qs _ _ fun j hj => if_neg (by omega)
    unfold rounds roundsT
    dsimp only
    rw [if_pos rfl, h0, hc]
    dsimp only
    cases h1 : (internalT c true (e r) ps t).fast || (internalT c true (e r) ps t).rem.isEmpty with
    | true => simp
    | false =>
      by_cases hz : n = 0
      · simp [hz]
      · simp [hz, ha]

theorem withPvT_snd (c : Cfg) (attempt : Bool) (n : Nat) (e : Nat → Pod → Env) (ps : List Pod) (hn : ps.Nodup) (t : Nat) :
    ∃ a, withPv attempt n a ps = (withPvT c attempt n e ps t).map (·.2) := by
  cases attempt with
  | false =>
    obtain ⟨a, ha⟩ := internalT_snd c false (e 0) ps hn t
    refine ⟨fun _ => a, ?_⟩
    unfold withPv withPvT
    simp [ha, Function.comp_def]
  | true =>
    obtain ⟨a, ha⟩ := roundsT_snd c e n 0 ps hn t
    have hsub : (roundsT c e 0 n ps t).rem.Sublist ps := by
      have := rounds_rem a n 0 ps
      rw [ha] at this
      exact this
    obtain ⟨b, hb⟩ := internalT_snd c false (e n) _ (hn.sublist hsub) (roundsT c e 0 n ps t).t
    have hpre : ∀ (m : Nat) (r : Nat) (qs : List Pod) (f g : Nat → Pod → Ans), (∀ j, j < r + m → f j = g j) → rounds f r m qs = rounds g r m qs := by
      intro m
      induction m with
      | zero => exact fun _ _ _ _ _ => rfl
      | succ m ih =>
        intro r qs f g h
        unfold rounds
        rw [h r (by omega), ih (r + 1) _ f g fun j hj => h j (by omega)]
    refine ⟨fun j => if j = n then b else a j, ?_⟩
    unfold withPv withPvT
    dsimp only
    rw [if_pos rfl, if_pos rfl, if_pos rfl, hpre n 0 ps (fun j => if j = n then b else a j) a fun j hj => if_neg (by omega), ha]
    dsimp only
    rw [hb]
    split <;> simp [Function.comp_def]

/-! ### C131 -/

/-- the pods for which a result is there by time `t` -/
def settledBy (t : Nat) (evs : List (Nat × Ev)) : List Pod := subjects ((evs.filter fun x => x.1 ≤ t).map (·.2))

theorem settledBy_all (t : Nat) (evs : List (Nat × Ev)) (h : ∀ x ∈ evs, x.1 ≤ t) : settledBy t evs = subjects (evs.map (·.2)) := by
  unfold settledBy
  rw [List.filter_eq_self.2 fun x hx => by simpa using h x hx]

/-- C131: A drain whose number of evictions is not zero ends at the latest 25 seconds after its deadline (or after its start, if that is later): by then there is exactly one
result for each pod, and nothing happens afterwards. For all answers, durations of requests and behaviours of pods and volumes. -/
theorem C131_ends_partial (c : Cfg) (force supported : Bool) (n : Nat) (e : Nat → Pod → Env) (e1 : Pod → Env1) (ps sorted : List Pod) (t t1 : Nat)
    (hn : ps.Nodup) (hs : Sorted (splitPv ps).1 sorted) (hb : attempts force supported = false ∨ 0 < n) :
    (settledBy (max (max t t1) (c.deadline + 25000)) (processesT c force (attempts force supported) n e e1 ps sorted t t1).flatten).Perm ps ∧
    ∀ x ∈ (processesT c force (attempts force supported) n e e1 ps sorted t t1).flatten, x.1 ≤ max (max t t1) (c.deadline + 25000) := by
  have hle : ∀ x ∈ (processesT c force (attempts force supported) n e e1 ps sorted t t1).flatten, x.1 ≤ max (max t t1) (c.deadline + 25000) := by
    intro x hx
    obtain ⟨l, hl, hx⟩ := List.mem_flatten.1 hx
    have hr : retryInterval = 20000 := rfl
    have hsl : slack = 25000 := rfl
    have h1 : ∀ p, x ∈ noPvT c (attempts force supported) force (e1 p) p t1 0 n → x.1 ≤ max (max t t1) (c.deadline + 25000) := by
      intro p h
      have := noPvT_le c (attempts force supported) force (e1 p) p n t1 0 x h
      omega
    unfold processesT at hl
    split at hl
    · obtain ⟨p, _, rfl⟩ := List.mem_map.1 hl
      exact h1 p hx
    · rcases List.mem_cons.1 hl with rfl | hl
      · have := withPvT_le c (attempts force supported) n e sorted t x hx
        omega
      · obtain ⟨p, _, rfl⟩ := List.mem_map.1 hl
        exact h1 p hx
  refine ⟨?_, hle⟩
  rw [settledBy_all _ _ hle]
  have hsn : sorted.Nodup := by
    refine hs.1.nodup_iff.2 ?_
    rw [splitPv_eq]
    exact hn.filter _
  obtain ⟨a, ha⟩ := withPvT_snd c (attempts force supported) n e sorted hsn t
  have h1 : ∀ p, ∃ a, (noPvT c (attempts force supported) force (e1 p) p t1 0 n).map (·.2) = noPv (attempts force supported) force a p 0 n := fun p =>
    noPvT_snd c (attempts force supported) force (e1 p) p n t1 0
  have hch : ∃ a1 : Pod → Ans1, ∀ p, (noPvT c (attempts force supported) force (e1 p) p t1 0 n).map (·.2) = noPv (attempts force supported) force (a1 p) p 0 n :=
    ⟨fun p => Classical.choose (h1 p), fun p => Classical.choose_spec (h1 p)⟩
  obtain ⟨a1, ha1⟩ := hch
  have heq : (processesT c force (attempts force supported) n e e1 ps sorted t t1).flatten.map (·.2) = (processes force (attempts force supported) n a a1 ps sorted).flatten := by
    rw [List.map_flatten]
    unfold processesT processes
    split
    · simp only [List.map_map, Function.comp_def, ha1]
    · simp only [List.map_cons, List.map_map, Function.comp_def, ha1, ha]
  rw [heq]
  exact C36_one_result_partial force supported n a a1 ps sorted hs hb

theorem noPvT_forced (c : Cfg) (e : Env1) (p : Pod) (t i n : Nat) :
    ∃ b, noPvT c false true e p t i n = [((send c.deadline t (e.call i)).2, .req p .delete (send c.deadline t (e.call i)).1), ((send c.deadline t (e.call i)).2, .result p b)] := by
  cases n <;> unfold noPvT afterT <;> cases (send c.deadline t (e.call i)).1 <;> exact ⟨_, rfl⟩

/-- C131: A forced drain ends by its deadline, a minute after its start: it neither sleeps nor waits for pods or volumes. -/
theorem C131_forced (c : Cfg) (supported : Bool) (n : Nat) (e : Nat → Pod → Env) (e1 : Pod → Env1) (ps sorted : List Pod) (t t1 : Nat) :
    settledBy (max t1 c.deadline) (processesT c true (attempts true supported) n e e1 ps sorted t t1).flatten = ps ∧
    ∀ x ∈ (processesT c true (attempts true supported) n e e1 ps sorted t t1).flatten, x.1 ≤ max t1 c.deadline := by
  have hp : processesT c true (attempts true supported) n e e1 ps sorted t t1 = ps.map fun p => noPvT c false true (e1 p) p t1 0 n := rfl
  rw [hp]
  have hle : ∀ x ∈ (ps.map fun p => noPvT c false true (e1 p) p t1 0 n).flatten, x.1 ≤ max t1 c.deadline := by
    intro x hx
    obtain ⟨l, hl, hx⟩ := List.mem_flatten.1 hx
    obtain ⟨p, _, rfl⟩ := List.mem_map.1 hl
    obtain ⟨b, hb⟩ := noPvT_forced c (e1 p) p t1 0 n
    rw [hb] at hx
    have := send_le c.deadline t1 ((e1 p).call 0)
    simp only [List.mem_cons, List.not_mem_nil, or_false] at hx
    rcases hx with rfl | rfl <;> exact this.2
  refine ⟨?_, hle⟩
  rw [settledBy_all _ _ hle]
  clear hle hp
  induction ps with
  | nil => rfl
  | cons p ps ih =>
    obtain ⟨b, hb⟩ := noPvT_forced c (e1 p) p t1 0 n
    rw [List.map_cons, List.flatten_cons, List.map_append, subjects_append, ih, hb]
    rfl

/-- two pods with volumes -/
def p1 : Pod := { name := "a", uid := "1", node := "n", vols := [.pvc "x"] }
def p2 : Pod := { name := "b", uid := "2", node := "n", vols := [.pvc "y"] }

/-- a minute for the drain, ten for the detachment of volumes -/
def minute : Cfg := { deadline := 60000, timeout := 60000, grace := fun _ => 30000, pvDetach := 600000, pvReattach := 90000, awaited := fun _ => true }

/-- the first pod is refused; the second leaves, and its volume stays attached -/
def lateEnv (_ : Nat) (p : Pod) : Env := if p = p1 then { call := ⟨0, .tooMany⟩ } else { call := ⟨4999, .ok⟩, polls := fun _ => (0, .attached true) }

/-- C131, false part: It may end later than its deadline, by as much as just below 25 seconds: the sleeps between two rounds and between two looks at the volumes are not
cut short. -/
theorem C131_later_false : ¬ ∀ (c : Cfg) (n : Nat) (e : Nat → Pod → Env) (e1 : Pod → Env1) (ps sorted : List Pod), ps.Nodup → Sorted (splitPv ps).1 sorted → 0 < n →
    (settledBy (c.deadline + 24998) (processesT c false (attempts false true) n e e1 ps sorted 0 0).flatten).Perm ps := by
  intro h
  have := (h minute 3 lateEnv (fun _ => ⟨fun _ => ⟨0, .ok⟩, fun _ => false, fun _ => ⟨0, 0, .notFound⟩⟩) [p1, p2] [p1, p2] (by decide) ⟨.refl _, by
    refine .cons ?_ (.cons (fun _ h => nomatch h) .nil)
    intro q hq a b ha hb
    rw [List.mem_singleton] at hq
    subst hq
    cases ha; cases hb; decide⟩ (by decide)).length_eq
  exact absurd this (by decide +kernel)

/-- a pod without volumes that takes half a minute to end -/
def p3 : Pod := { name := "c", uid := "3", node := "n" }

/-- the drain of these three pods: the third is gone after half a minute, the second fails when its volume is not detached by the deadline, the first is reported 25 seconds
later -/
example : ((processesT minute false (attempts false true) 3 lateEnv
      (fun _ => ⟨fun _ => ⟨100, .ok⟩, fun _ => false, fun i => ⟨5000, 100, if i < 6 then .found "3" else .notFound⟩⟩) [p1, p2, p3] [p1, p2] 0 0).map
      fun l => l.filter fun x => match x.2 with | .result _ _ => true | _ => false) =
    [[(64999, .result p2 false), (84999, .result p1 true)], [(30800, .result p3 true)]] := by decide +kernel

/-! #### pods that cannot be evicted -/

/-- C131: A pod without volumes whose evictions are all refused is deleted at the latest after all intervals and requests, if that is before the deadline. -/
theorem C131_deleted_in_time (c : Cfg) (force : Bool) (e : Env1) (p : Pod) (L : Nat) (hL : ∀ i, (e.call i).dur ≤ L) (hp : ∀ i, e.pdb i = false) (n : Nat) : ∀ (t i : Nat),
    (∀ j, j < n → (e.call (i + j)).resp = .tooMany) → t + n * (20000 + L) + L < c.deadline →
    ∃ t', t' ≤ t + n * (20000 + L) + L ∧ (t', Ev.req p .delete (e.call (i + n)).resp) ∈ noPvT c true force e p t i n := by
  induction n with
  | zero =>
    intro t i _ hd
    have := hL i
    have hs : send c.deadline t (e.call i) = ((e.call i).resp, t + (e.call i).dur) := by unfold send; rw [if_pos (by omega)]
    refine ⟨t + (e.call i).dur, by omega, ?_⟩
    unfold noPvT
    rw [hs]
    exact List.mem_cons_self
  | succ n ih =>
    intro t i hr hd
    have hl := hL i
    have hm : (n + 1) * (20000 + L) = n * (20000 + L) + (20000 + L) := Nat.succ_mul ..
    have hs : send c.deadline t (e.call i) = (.tooMany, t + (e.call i).dur) := by
      unfold send
      rw [if_pos (by omega)]
      have := hr 0 (by omega)
      rw [Nat.add_zero] at this
      rw [this]
    have hri : retryInterval = 20000 := rfl
    obtain ⟨t', h1, h2⟩ := ih (t + (e.call i).dur + retryInterval) (i + 1) (fun j hj => by
      have := hr (j + 1) (by omega)
      rw [show i + 1 + j = i + (j + 1) by omega]
      exact this) (by omega)
    refine ⟨t', by omega, ?_⟩
    unfold noPvT
    rw [if_pos rfl, hs]
    dsimp only
    rw [hp i, if_neg (by decide)]
    rw [show i + 1 + n = i + (n + 1) by omega] at h2
    exact List.mem_cons_of_mem _ h2

/-- two evictions are refused, then the pod is deleted, after 40 seconds -/
example : noPvT minute true false ⟨fun i => ⟨100, if i < 2 then .tooMany else .ok⟩, fun _ => false, fun _ => ⟨0, 100, .notFound⟩⟩ p3 0 0 2 =
    [(100, .req p3 .evict .tooMany), (20200, .req p3 .evict .tooMany), (40300, .req p3 .delete .ok), (40400, .result p3 true)] := by decide +kernel

theorem afterT_no_req (c : Cfg) (force : Bool) (e : Env1) (p q : Pod) (t t' : Nat) (v : Verb) (r : Resp) : (t', Ev.req q v r) ∉ afterT c force e p t := by
  unfold afterT
  split <;> simp

theorem noPvT_no_time (c : Cfg) (force : Bool) (e : Env1) (p q : Pod) (n : Nat) : ∀ (t i : Nat), c.deadline ≤ t + 20000 * n →
    ∀ t' r, (t', Ev.req q .delete r) ∈ noPvT c true force e p t i n → r = .error := by
  induction n with
  | zero =>
    intro t i hd t' r h
    unfold noPvT at h
    rw [send_late c.deadline t (e.call i) (by omega)] at h
    simp at h
    exact h.2.2
  | succ n ih =>
    intro t i hd t' r h
    unfold noPvT at h
    rw [if_pos rfl] at h
    rcases List.mem_cons.1 h with h | h
    · cases h
    · have hs := send_le c.deadline t (e.call i)
      have hri : retryInterval = 20000 := rfl
      cases hk : (send c.deadline t (e.call i)).1 with
      | ok => rw [hk] at h; exact (afterT_no_req c force e p q _ t' .delete r h).elim
      | tooMany =>
        rw [hk] at h
        dsimp only at h
        split at h
        · simp at h
        · exact ih _ _ (by omega) t' r h
      | _ => rw [hk] at h; simp at h

theorem roundsT_slow (c : Cfg) (e : Nat → Pod → Env) (n : Nat) : ∀ r ps t, (roundsT c e r n ps t).fast = false → (roundsT c e r n ps t).rem ≠ [] →
    t + 20000 * n ≤ (roundsT c e r n ps t).t := by
  induction n with
  | zero => intro r ps t _ h; exact absurd rfl h
  | succ n ih =>
    intro r ps t
    have hi := (internalT_within c true (e r) ps t).1
    have hri : retryInterval = 20000 := rfl
    unfold roundsT
    dsimp only
    split
    · rename_i h
      intro h1 h2
      rw [h1, Bool.false_or, List.isEmpty_iff] at h
      exact absurd h h2
    · split
      · intro _ _
        dsimp only
        omega
      · intro h1 h2
        have := ih _ _ _ h1 h2
        dsimp only
        omega

theorem withPvT_no_time (c : Cfg) (e : Nat → Pod → Env) (n : Nat) (ps : List Pod) (hn : ps.Nodup) (t : Nat) (hd : c.deadline ≤ t + 20000 * n) (t' : Nat) (q : Pod) (r : Resp) :
    (t', Ev.req q .delete r) ∉ withPvT c true n e ps t := by
  intro h
  have hrounds : (t', Ev.req q .delete r) ∉ (roundsT c e 0 n ps t).evs := by
    intro h
    obtain ⟨a, ha⟩ := roundsT_snd c e n 0 ps hn t
    have h0 := rounds_no_delete a q n 0 ps
    rw [ha] at h0
    have := mem_answers (List.mem_map_of_mem (f := (·.2)) h)
    rw [h0] at this
    cases this
  unfold withPvT at h
  rw [if_pos rfl] at h
  dsimp only at h
  split at h
  · rename_i hf
    rw [Bool.and_eq_true, Bool.not_eq_true', Bool.not_eq_true', ← Bool.not_eq_true, ← Bool.not_eq_true, List.isEmpty_iff, Bool.not_eq_true] at hf
    have hs := roundsT_slow c e n 0 ps t hf.1 hf.2
    rcases List.mem_append.1 h with h | h
    · rcases List.mem_append.1 h with h | h
      · exact hrounds h
      · cases hrem : (roundsT c e 0 n ps t).rem with
        | nil => exact hf.2 hrem
        | cons p rest =>
          rw [hrem] at h
          unfold internalT visitT at h
          rw [if_pos (by omega)] at h
          simp at h
    · simp at h
  · rcases List.mem_append.1 h with h | h
    · exact hrounds h
    · simp at h

/-- the deadline and the number of evictions that follow from a drain timeout of `s` seconds and a limit `m` (machine_util.go:1065, drain.go:219-220), for a drain that
starts at time 0 -/
def Normal (c : Cfg) (n s m : Nat) : Prop := c.deadline = 1000 * s ∧ n = retries false m s

/-- C131, false part: With a drain timeout that is a multiple of the twenty seconds between two evictions and no lower limit on the evictions, as with the default values (two
hours and 360 evictions), no pod that cannot be evicted is deleted: when all evictions have been refused the deadline has come, however fast all answers are. Requests for the
deletion of pods without volumes fail, and none is made for pods with volumes. -/
theorem C131_never_deleted_false (c : Cfg) (n s m : Nat) (hc : Normal c n s m) (h20 : 20 ∣ s) (hm : s / 20 ≤ m) (e : Nat → Pod → Env) (e1 : Pod → Env1) (ps sorted : List Pod)
    (hn : ps.Nodup) (hs : Sorted (splitPv ps).1 sorted) (t t1 : Nat) (t' : Nat) (q : Pod) (r : Resp)
    (h : (t', Ev.req q .delete r) ∈ (processesT c false (attempts false true) n e e1 ps sorted t t1).flatten) : r = .error := by
  have hd : c.deadline ≤ 20000 * n := by
    obtain ⟨k, rfl⟩ := h20
    have : n = k := by
      rw [hc.2]
      unfold retries
      rw [if_neg (by decide), Nat.min_eq_right hm]
      omega
    rw [hc.1, this]
    omega
  obtain ⟨l, hl, hx⟩ := List.mem_flatten.1 h
  rw [show processesT c false (attempts false true) n e e1 ps sorted t t1 =
    withPvT c true n e sorted t :: (splitPv ps).2.map fun p => noPvT c true false (e1 p) p t1 0 n from rfl] at hl
  rcases List.mem_cons.1 hl with rfl | hl
  · have hsn : sorted.Nodup := by
      refine hs.1.nodup_iff.2 ?_
      rw [splitPv_eq]
      exact hn.filter _
    exact absurd hx (withPvT_no_time c e n sorted hsn t (by omega) t' q r)
  · obtain ⟨p, _, rfl⟩ := List.mem_map.1 hl
    exact noPvT_no_time c false (e1 p) p q n t1 0 (by omega) t' r hx

/-- the default values are such -/
example (grace : Pod → Nat) (a b : Nat) (w : Pod → Bool) : Normal ⟨7200000, 7200000, grace, a, b, w⟩ 360 7200 360 ∧ 20 ∣ 7200 ∧ 7200 / 20 ≤ 360 := by
  refine ⟨⟨rfl, rfl⟩, by decide, by decide⟩

theorem visitT_refused (c : Cfg) (e : Env) (p : Pod) (t : Nat) (hr : e.call.resp = .tooMany) (hp : e.pdb = false) (ht : t < c.deadline) :
    ∃ r t', r ≠ .ok ∧ visitT c true e p t = ([(t', .req p .evict r)], .retry, t') := by
  unfold visitT
  rw [if_neg (by omega)]
  dsimp only
  unfold send
  split
  · rw [hr, hp]
    exact ⟨.tooMany, _, by decide, rfl⟩
  · exact ⟨.error, _, by decide, rfl⟩

theorem roundsT_refused (c : Cfg) (e : Nat → Pod → Env) (p : Pod) (hr : ∀ r, (e r p).call.resp = .tooMany) (hp : ∀ r, (e r p).pdb = false) (n : Nat) : ∀ r t,
    (∀ x ∈ (roundsT c e r (n + 1) [p] t).evs, ∀ q v, x.2 ≠ .req q v .ok) ∧
    (((roundsT c e r (n + 1) [p] t).fast = true ∧ (roundsT c e r (n + 1) [p] t).rem = [] ∧ results ((roundsT c e r (n + 1) [p] t).evs.map (·.2)) = [(p, true)]) ∨
     ((roundsT c e r (n + 1) [p] t).fast = false ∧ (roundsT c e r (n + 1) [p] t).rem = [p] ∧ results ((roundsT c e r (n + 1) [p] t).evs.map (·.2)) = [])) := by
  induction n with
  | zero =>
    intro r t
    by_cases ht : t < c.deadline
    · obtain ⟨x, t', hx, hv⟩ := visitT_refused c (e r p) p t (hr r) (hp r) ht
      simp [roundsT, internalT, hv, results]
      exact hx
    · have hv : visitT c true (e r p) p t = ([(t, .result p true)], .stop, t) := by unfold visitT; rw [if_pos (by omega)]
      simp [roundsT, internalT, hv, results]
  | succ n ih =>
    intro r t
    by_cases ht : t < c.deadline
    · obtain ⟨x, t', hx, hv⟩ := visitT_refused c (e r p) p t (hr r) (hp r) ht
      have hi : internalT c true (e r) [p] t = ⟨[(t', .req p .evict x)], [p], false, t'⟩ := by simp [internalT, hv]
      have hro : roundsT c e r (n + 1 + 1) [p] t = ⟨(t', .req p .evict x) :: (roundsT c e (r + 1) (n + 1) [p] (t' + retryInterval)).evs,
          (roundsT c e (r + 1) (n + 1) [p] (t' + retryInterval)).rem, (roundsT c e (r + 1) (n + 1) [p] (t' + retryInterval)).fast,
          (roundsT c e (r + 1) (n + 1) [p] (t' + retryInterval)).t⟩ := by
        rw [roundsT, hi]
        simp
      obtain ⟨h1, h2⟩ := ih (r + 1) (t' + retryInterval)
      rw [hro]
      refine ⟨fun y hy q v hq => ?_, ?_⟩
      · rcases List.mem_cons.1 hy with rfl | hy
        · cases hq; exact hx rfl
        · exact h1 y hy q v hq
      · simpa only [List.map_cons, results] using h2
    · have hv : visitT c true (e r p) p t = ([(t, .result p true)], .stop, t) := by unfold visitT; rw [if_pos (by omega)]
      simp [roundsT, internalT, hv, results]

/-- C131, false part: With such settings the drain even reports success for a pod with volumes that it could not evict and never tried to delete, if it is the only one with
volumes: no request for it was accepted, so it still runs when the machine's VM is deleted. -/
theorem C131_unnoticed_false (c : Cfg) (n s m : Nat) (hc : Normal c n s m) (h20 : 20 ∣ s) (h0 : 0 < s) (hm : s / 20 ≤ m) (e : Nat → Pod → Env) (p : Pod) (t : Nat)
    (hr : ∀ r, (e r p).call.resp = .tooMany) (hp : ∀ r, (e r p).pdb = false) :
    results ((withPvT c true n e [p] t).map (·.2)) = [(p, true)] ∧ ∀ t' q v, (t', Ev.req q v .ok) ∉ withPvT c true n e [p] t := by
  obtain ⟨k, hk, hk0⟩ : ∃ k, n = k + 1 ∧ c.deadline ≤ 20000 * n := by
    obtain ⟨k, rfl⟩ := h20
    have : n = k := by
      rw [hc.2]
      unfold retries
      rw [if_neg (by decide), Nat.min_eq_right hm]
      omega
    exact ⟨k - 1, by omega, by rw [hc.1]; omega⟩
  subst hk
  obtain ⟨h1, h2⟩ := roundsT_refused c e p hr hp k 0 t
  unfold withPvT
  rw [if_pos rfl]
  dsimp only
  rcases h2 with ⟨hf, hrem, hres⟩ | ⟨hf, hrem, hres⟩
  · rw [hf, hrem]
    refine ⟨by simpa using hres, fun t' q v h => ?_⟩
    exact h1 _ (by simpa using h) q v rfl
  · have hs := roundsT_slow c e (k + 1) 0 [p] t hf (by rw [hrem]; exact List.cons_ne_nil _ _)
    have hi : internalT c false (e (k + 1)) [p] (roundsT c e 0 (k + 1) [p] t).t = ⟨[((roundsT c e 0 (k + 1) [p] t).t, .result p true)], [], true, (roundsT c e 0 (k + 1) [p] t).t⟩ := by
      unfold internalT visitT
      rw [if_pos (by omega)]
    rw [hf, hrem, hi]
    refine ⟨?_, fun t' q v h => ?_⟩
    · simp [results_append, hres, results]
    · simp at h
      exact h1 _ h q v rfl

/-- a pod with a volume whose budget allows no disruption -/
example : results ((withPvT { minute with deadline := 60000 } true 3 (fun _ _ => { call := ⟨100, .tooMany⟩ }) [p1] 0).map (·.2)) = [(p1, true)] := by decide +kernel

/-- C131, false part: Without evictions (a drain timeout below twenty seconds) pods with volumes get no result at all, and the drain never ends. -/
theorem C131_never_ends_false : ¬ ∀ (c : Cfg) (n : Nat) (e : Nat → Pod → Env) (e1 : Pod → Env1) (ps sorted : List Pod), ps.Nodup → Sorted (splitPv ps).1 sorted →
    n = retries false 360 (c.timeout / 1000) → ∃ t, (settledBy t (processesT c false (attempts false true) n e e1 ps sorted 0 0).flatten).Perm ps := by
  intro h
  obtain ⟨t, ht⟩ := h { minute with timeout := 19000 } 0 lateEnv (fun _ => ⟨fun _ => ⟨0, .ok⟩, fun _ => false, fun _ => ⟨0, 0, .notFound⟩⟩) [p1] [p1] (by decide)
    ⟨.refl _, .cons (fun _ h => nomatch h) .nil⟩ (by decide)
  have : settledBy t (processesT { minute with timeout := 19000 } false (attempts false true) 0 lateEnv
    (fun _ => ⟨fun _ => ⟨0, .ok⟩, fun _ => false, fun _ => ⟨0, 0, .notFound⟩⟩) [p1] [p1] 0 0).flatten = [] := rfl
  rw [this] at ht
  exact absurd ht.length_eq (by decide)

end MCM.DrainClock
