import Verif.Props.DrainClock
import Mathlib.Data.List.Chain
/-!
# C140 – a drain is patient

How long pods and volumes are waited for before the drain gives them up; /repo/pkg/util/provider/drain/drain.go:768-816, 861-986, 1025-1121.
-/
namespace MCM.Patience
open MCM.Drain MCM.DrainClock

/-! ## Specification, on the log of a drain -/

/-- What two successive entries of the log of one process have to do with each other. A volume whose detachment is given up was asked to go at least grace period and detach timeout
ago; one whose attachment elsewhere is given up was detached at least the reattach timeout ago; a pod without volumes that is given up after a successful request had its grace period
(at most the drain timeout) and thirty seconds. Each unless the time of the drain is up. -/
def Patient (c : Cfg) (a b : Nat × Ev) : Prop :=
  (∀ p, b.2 = .detach p .error → (∃ v, a.2 = .req p v .ok) ∧ min c.deadline (a.1 + c.grace p + c.pvDetach) ≤ b.1) ∧
  (∀ p, b.2 = .reattach p .timeout → a.2 = .detach p .ok ∧ min c.deadline (a.1 + c.pvReattach) ≤ b.1) ∧
  (∀ p v, a.2 = .req p v .ok → b.2 = .result p false → min c.deadline (a.1 + min (c.grace p) c.timeout + 30000) ≤ b.1)

/-! ## Lemmas -/

/-- a part of a log that can follow another one and be followed -/
def Block (c : Cfg) (l : List (Nat × Ev)) : Prop :=
  l.IsChain (Patient c) ∧ (∀ x ∈ l.getLast?, ∀ p v, x.2 ≠ .req p v .ok) ∧ ∀ y ∈ l.head?, (∀ p d, y.2 ≠ .detach p d) ∧ ∀ p d, y.2 ≠ .reattach p d

theorem Block.nil (c : Cfg) : Block c [] := ⟨.nil, (fun _ h => nomatch h), (fun _ h => nomatch h)⟩

theorem Block.append {c : Cfg} {l m : List (Nat × Ev)} (h : Block c l) (k : Block c m) : Block c (l ++ m) := by
  obtain ⟨h1, h2, h3⟩ := h
  obtain ⟨k1, k2, k3⟩ := k
  refine ⟨h1.append k1 fun x hx y hy => ⟨fun p hp => absurd hp ((k3 y hy).1 p _), fun p hp => absurd hp ((k3 y hy).2 p _), fun p v hp => absurd hp (h2 x hx p v)⟩, ?_, ?_⟩
  · intro x hx
    rw [List.getLast?_append] at hx
    cases hm : m.getLast? with
    | none => rw [hm] at hx; exact h2 x hx
    | some z => rw [hm] at hx; exact k2 x (by rw [hm]; exact hx)
  · intro y hy
    rw [List.head?_append] at hy
    cases hl : l.head? with
    | none => rw [hl] at hy; exact k3 y hy
    | some z => rw [hl] at hy; exact h3 y (by rw [hl]; exact hy)

theorem Block.result (c : Cfg) (t : Nat) (p : Pod) (ok : Bool) : Block c [(t, .result p ok)] :=
  ⟨.singleton _, fun x hx => by cases hx; exact fun _ _ => nofun, fun y hy => by cases hy; exact ⟨fun _ _ => nofun, fun _ _ => nofun⟩⟩

theorem Block.results (c : Cfg) (t : Nat) (ok : Bool) (ps : List Pod) : Block c (ps.map fun p => (t, Ev.result p ok)) := by
  induction ps with
  | nil => exact .nil c
  | cons p ps ih => exact (Block.result c t p ok).append ih

theorem Block.refused (c : Cfg) (t : Nat) (p : Pod) (v : Verb) (r : Resp) (hr : r ≠ .ok) : Block c [(t, .req p v r)] :=
  ⟨.singleton _, fun x hx => by cases hx; intro _ _ h; cases h; exact hr rfl, fun y hy => by cases hy; exact ⟨fun _ _ => nofun, fun _ _ => nofun⟩⟩

/-- a request followed by a result -/
theorem Block.done (c : Cfg) (t t' : Nat) (p : Pod) (v : Verb) (r : Resp) (ok : Bool)
    (h : r = .ok → ok = false → min c.deadline (t + min (c.grace p) c.timeout + 30000) ≤ t') : Block c [(t, .req p v r), (t', .result p ok)] := by
  refine ⟨.cons_cons ⟨fun _ => nofun, fun _ => nofun, fun q w ha hb => ?_⟩ (.singleton _), fun x hx => by cases hx; exact fun _ _ => nofun,
    fun y hy => by cases hy; exact ⟨fun _ _ => nofun, fun _ _ => nofun⟩⟩
  cases ha
  cases hb
  exact h rfl rfl

/-- the wait for a pod that is not seen to be gone goes on to its end -/
theorem watch_patient (d stop : Nat) (p : Pod) (looks : Nat → Look) (hl : ∀ i, (looks i).ans ≠ .error) (i t : Nat)
    (h : waitForDelete p (watch d stop p looks i t).1 ≠ .gone) : min d stop ≤ (watch d stop p looks i t).2 := by
  fun_induction watch d stop p looks i t with
  | case1 i t hc =>
    dsimp only at h ⊢
    rcases hc with hc | hc | hc | hc
    · exact absurd (by rw [waitForDelete, if_pos (.inl hc)]) h
    · exact absurd (by rw [waitForDelete, if_pos (.inr hc)]) h
    · unfold DrainClock.read at hc ⊢
      split at hc
      · exact absurd hc (hl i)
      · rename_i hlt
        rw [if_neg hlt]
        dsimp only
        omega
    · omega
  | case2 i t hc ih =>
    dsimp only at h ⊢
    apply ih
    simp only [not_or] at hc
    rw [waitForDelete, if_neg (by rintro (h' | h') <;> simp_all), if_neg hc.2.2.1] at h
    exact h

theorem afterT_block (c : Cfg) (force : Bool) (e : Env1) (hl : ∀ i, (e.looks i).ans ≠ .error) (p : Pod) (v : Verb) (t : Nat) :
    Block c ((t, Ev.req p v .ok) :: afterT c force e p t) := by
  unfold afterT
  split
  · exact Block.done c t t p v .ok true fun _ h => nomatch h
  · refine Block.done c t _ p v .ok _ fun _ h => ?_
    exact watch_patient c.deadline (t + min (c.grace p) c.timeout + 30000) p e.looks hl 0 t (of_decide_eq_false h)

theorem noPvT_block (c : Cfg) (attempt force : Bool) (e : Env1) (hl : ∀ i, (e.looks i).ans ≠ .error) (p : Pod) (n : Nat) : ∀ t i, Block c (noPvT c attempt force e p t i n) := by
  have hdel : ∀ t i (v : Verb), Block c (((send c.deadline t (e.call i)).2, Ev.req p v (send c.deadline t (e.call i)).1) :: match (send c.deadline t (e.call i)).1 with
      | .ok => afterT c force e p (send c.deadline t (e.call i)).2
      | .notFound => [((send c.deadline t (e.call i)).2, .result p true)]
      | _ => [((send c.deadline t (e.call i)).2, .result p false)]) := by
    intro t i v
    cases hr : (send c.deadline t (e.call i)).1 with
    | ok => exact afterT_block c force e hl p v _
    | notFound => exact Block.done c _ _ p v _ _ (fun h => nomatch h)
    | tooMany => exact Block.done c _ _ p v _ _ (fun h => nomatch h)
    | error => exact Block.done c _ _ p v _ _ (fun h => nomatch h)
  induction n with
  | zero => exact fun t i => hdel t i .delete
  | succ n ih =>
    intro t i
    unfold noPvT
    split
    · cases hr : (send c.deadline t (e.call i)).1 with
      | ok => exact afterT_block c force e hl p .evict _
      | notFound => exact Block.done c _ _ p .evict _ _ (fun h => nomatch h)
      | error => exact Block.done c _ _ p .evict _ _ (fun h => nomatch h)
      | tooMany =>
        dsimp only
        split
        · exact Block.done c _ _ p .evict _ _ (fun h => nomatch h)
        · exact (Block.refused c _ p .evict .tooMany (fun h => nomatch h)).append (ih _ _)
    · exact hdel t i .delete

theorem detachT_patient (dl : Nat) (polls : Nat → Nat × NodeRead) (hp : ∀ i, (polls i).2 ≠ .error) (i t : Nat) (h : (detachT dl polls i t).1 = .error) : dl ≤ (detachT dl polls i t).2 := by
  fun_induction detachT dl polls i t with
  | case1 => assumption
  | case2 => cases h
  | case3 i t h1 h2 h3 => exact absurd h3 (hp i)
  | case4 i t h1 h2 h3 ih => exact ih h
  | case5 => cases h
  | case6 => exact Nat.le_refl _

theorem waitsT_block (c : Cfg) (e : Env) (he : ∀ i, (e.polls i).2 ≠ .error) (p : Pod) (v : Verb) (t : Nat) : Block c ((t, Ev.req p v .ok) :: (waitsT c e p t).1) := by
  have hh : ∀ (l : List (Nat × Ev)), ∀ y ∈ ((t, Ev.req p v .ok) :: l).head?, (∀ p d, y.2 ≠ .detach p d) ∧ ∀ p d, y.2 ≠ .reattach p d := by
    intro l y hy
    cases hy
    exact ⟨fun _ _ => nofun, fun _ _ => nofun⟩
  unfold waitsT
  dsimp only
  cases hd : (detachFrom c e p t).1 with
  | nodeGone =>
    exact ⟨.cons_cons ⟨fun _ => nofun, fun _ => nofun, fun _ _ _ => nofun⟩ (.cons_cons ⟨fun _ => nofun, fun _ => nofun, fun _ _ => nofun⟩ (.singleton _)),
      fun x hx => by cases hx; exact fun _ _ => nofun, hh _⟩
  | error =>
    refine ⟨.cons_cons ⟨fun q hq => ?_, fun _ => nofun, fun _ _ _ => nofun⟩ (.cons_cons ⟨fun _ => nofun, fun _ => nofun, fun _ _ => nofun⟩ (.singleton _)),
      fun x hx => by cases hx; exact fun _ _ => nofun, hh _⟩
    cases hq
    refine ⟨⟨v, rfl⟩, ?_⟩
    dsimp only
    unfold detachFrom at hd ⊢
    split at hd
    · rename_i ha
      rw [if_pos ha]
      exact detachT_patient _ _ he _ _ hd
    · cases hd
  | ok =>
    refine ⟨.cons_cons ⟨fun _ => nofun, fun _ => nofun, fun _ _ _ => nofun⟩ (.cons_cons ⟨fun _ => nofun, fun q hq => ?_, fun _ _ => nofun⟩
      (.cons_cons ⟨fun _ => nofun, fun _ => nofun, fun _ _ => nofun⟩ (.singleton _))), fun x hx => by cases hx; exact fun _ _ => nofun, hh _⟩
    dsimp only at hq ⊢
    have h1 : (reattachFrom c e p (detachFrom c e p t).2).1 = .timeout := by
      injection hq
    have h2 : p = q := by injection hq
    refine ⟨by rw [h2], ?_⟩
    unfold reattachFrom at h1 ⊢
    split at h1
    · rename_i ha
      rw [if_pos ha]
      unfold reattachT at h1 ⊢
      split at h1
      · split at h1
        · cases h1
        · rename_i hlt
          rw [if_neg hlt]
          exact Nat.le_max_right ..
      · exact Nat.le_max_right ..
    · cases h1

theorem visitT_block (c : Cfg) (attempt : Bool) (e : Env) (he : ∀ i, (e.polls i).2 ≠ .error) (p : Pod) (t : Nat) : Block c (visitT c attempt e p t).1 := by
  unfold visitT
  split
  · exact .result c t p true
  · dsimp only
    split
    · split
      · exact Block.done c _ _ p .evict _ _ (fun h => nomatch h)
      · exact Block.refused c _ p .evict .tooMany (fun h => nomatch h)
    · split
      · exact Block.done c _ _ p _ _ _ (fun h => nomatch h)
      · exact waitsT_block c e he p _ _
      · rename_i r _ hr
        exact Block.refused c _ p _ _ hr

theorem internalT_block (c : Cfg) (attempt : Bool) (e : Pod → Env) (he : ∀ p i, ((e p).polls i).2 ≠ .error) (ps : List Pod) : ∀ t, Block c (internalT c attempt e ps t).evs := by
  induction ps with
  | nil => exact fun _ => .nil c
  | cons p ps ih =>
    intro t
    have hv := visitT_block c attempt (e p) (he p) p t
    unfold internalT
    dsimp only
    split
    · exact hv
    · exact hv.append (ih _)
    · exact hv.append (ih _)

theorem roundsT_block (c : Cfg) (e : Nat → Pod → Env) (he : ∀ r p i, ((e r p).polls i).2 ≠ .error) (n : Nat) : ∀ r ps t, Block c (roundsT c e r n ps t).evs := by
  induction n with
  | zero => exact fun _ _ _ => .nil c
  | succ n ih =>
    intro r ps t
    have hv := internalT_block c true (e r) (he r) ps t
    unfold roundsT
    dsimp only
    split
    · exact hv
    · split
      · exact hv
      · exact hv.append (ih _ _ _)

theorem withPvT_block (c : Cfg) (attempt : Bool) (n : Nat) (e : Nat → Pod → Env) (he : ∀ r p i, ((e r p).polls i).2 ≠ .error) (ps : List Pod) (t : Nat) :
    Block c (withPvT c attempt n e ps t) := by
  unfold withPvT
  split
  · dsimp only
    split
    · exact ((roundsT_block c e he n 0 ps t).append (internalT_block c false (e n) (he n) _ _)).append (Block.results c _ false _)
    · exact (roundsT_block c e he n 0 ps t).append (Block.results c _ _ _)
  · exact (internalT_block c false (e 0) (he 0) ps t).append (Block.results c _ false _)

/-! ## Theorems -/

/-- In every process of a drain, as long as pods and node can be read: nothing is given up before its time. -/
theorem C140_patient (c : Cfg) (force attempt : Bool) (n : Nat) (e : Nat → Pod → Env) (e1 : Pod → Env1) (ps sorted : List Pod) (t t1 : Nat)
    (he : ∀ r p i, ((e r p).polls i).2 ≠ .error) (hl : ∀ p i, ((e1 p).looks i).ans ≠ .error) :
    ∀ l ∈ processesT c force attempt n e e1 ps sorted t t1, l.IsChain (Patient c) := by
  intro l hm
  unfold processesT at hm
  split at hm
  · obtain ⟨p, _, rfl⟩ := List.mem_map.1 hm
    exact (noPvT_block c attempt force (e1 p) (hl p) p n t1 0).1
  · rcases List.mem_cons.1 hm with rfl | hm
    · exact (withPvT_block c attempt n e he sorted t).1
    · obtain ⟨p, _, rfl⟩ := List.mem_map.1 hm
      exact (noPvT_block c attempt force (e1 p) (hl p) p n t1 0).1

/-- The detachment of volumes is noticed soon: if the reading after `k` others shows it, none takes longer than `L` and there is time for all, the wait ends well, five seconds and `L` for
each reading after its start. -/
theorem C140_detachment_noticed (dl : Nat) (polls : Nat → Nat × NodeRead) (L : Nat) (hL : ∀ i, (polls i).1 ≤ L) (k : Nat) : ∀ (i t : Nat),
    (∀ j, j < k → (polls (i + j)).2 = .attached true) → (polls (i + k)).2 = .attached false → t + k * (5000 + L) + L < dl →
    (detachT dl polls i t).1 = .ok ∧ (detachT dl polls i t).2 ≤ t + k * (5000 + L) + L := by
  induction k with
  | zero =>
    intro i t _ h0 hd
    have := hL i
    unfold detachT
    rw [if_neg (by omega), if_pos (by omega)]
    rw [Nat.add_zero] at h0
    rw [h0]
    exact ⟨rfl, by dsimp only; omega⟩
  | succ k ih =>
    intro i t h1 h0 hd
    have := hL i
    have hk : (k + 1) * (5000 + L) = k * (5000 + L) + (5000 + L) := Nat.succ_mul ..
    unfold detachT
    rw [if_neg (by omega), if_pos (by omega)]
    have h10 := h1 0 (by omega)
    rw [Nat.add_zero] at h10
    rw [h10]
    dsimp only
    have := ih (i + 1) (t + (polls i).1 + detachInterval) (fun j hj => by rw [Nat.add_assoc, Nat.add_comm 1 j]; exact h1 (j + 1) (by omega))
      (by rw [Nat.add_assoc, Nat.add_comm 1 k]; exact h0) (by unfold detachInterval; omega)
    unfold detachInterval at this ⊢
    exact ⟨this.1, by omega⟩

/-- The end of a pod is noticed soon: if the reading after `k` others shows it, the wait ends well, five seconds and `L` for each reading after its start. -/
theorem C140_end_noticed (d stop : Nat) (p : Pod) (looks : Nat → Look) (L : Nat) (hL : ∀ i, (looks i).dur ≤ L) (k : Nat) : ∀ (i t : Nat),
    (∀ j, j < k → (looks (i + j)).ans = .found p.uid) → (looks (i + k)).ans = .notFound → t + k * (5000 + L) + L < min d stop →
    waitForDelete p (watch d stop p looks i t).1 = .gone ∧ (watch d stop p looks i t).2 ≤ t + k * (5000 + L) + L := by
  have hread : ∀ i t, t + L < d → DrainClock.read d t (looks i) = ((looks i).ans, t + (looks i).dur) := by
    intro i t h
    have := hL i
    unfold DrainClock.read
    rw [if_pos (by omega)]
  induction k with
  | zero =>
    intro i t _ h0 hd
    rw [Nat.add_zero] at h0
    have := hL i
    unfold watch
    rw [hread i t (by omega), h0, if_pos (.inl rfl)]
    exact ⟨by rw [waitForDelete, if_pos (.inl rfl)], by dsimp only; omega⟩
  | succ k ih =>
    intro i t h1 h0 hd
    have := hL i
    have hk : (k + 1) * (5000 + L) = k * (5000 + L) + (5000 + L) := Nat.succ_mul ..
    have h10 := h1 0 (by omega)
    rw [Nat.add_zero] at h10
    unfold watch
    rw [hread i t (by omega), h10, if_neg (by
      rintro (h | h | h | h)
      · cases h
      · exact h rfl
      · cases h
      · dsimp only at h; omega)]
    dsimp only
    have hw : max 1 (min (looks (i + 1)).wait pollInterval) ≤ 5000 := by unfold pollInterval; omega
    generalize hs : min (t + (looks i).dur + max 1 (min (looks (i + 1)).wait pollInterval)) stop = s
    have := ih (i + 1) s (fun j hj => by rw [Nat.add_assoc, Nat.add_comm 1 j]; exact h1 (j + 1) (by omega)) (by rw [Nat.add_assoc, Nat.add_comm 1 k]; exact h0) (by omega)
    refine ⟨?_, by omega⟩
    rw [waitForDelete, if_neg (by rintro (h | h); cases h; exact h rfl), if_neg (fun h => nomatch h)]
    exact this.1

/-- a pod that stays is taken for gone at the end of the drain's context -/
theorem watch_deadline (d stop : Nat) (p : Pod) (hu : p.uid ≠ "") (hs : d < stop) (looks : Nat → Look) (hl : ∀ i, (looks i).ans = .found p.uid) (i t : Nat) :
    waitForDelete p (watch d stop p looks i t).1 = .gone := by
  fun_induction watch d stop p looks i t with
  | case1 i t hc =>
    dsimp only
    by_cases hlt : t + (looks i).dur < d
    · have hr : DrainClock.read d t (looks i) = (.found p.uid, t + (looks i).dur) := by unfold DrainClock.read; rw [if_pos hlt, hl]
      rw [hr] at hc
      rcases hc with hc | hc | hc | hc
      · cases hc
      · exact absurd rfl hc
      · cases hc
      · dsimp only at hc; omega
    · have hr : (DrainClock.read d t (looks i)).1 = .error := by unfold DrainClock.read; rw [if_neg hlt]
      rw [hr, waitForDelete, if_pos (.inr (fun h => hu h.symm))]
  | case2 i t hc ih =>
    dsimp only
    simp only [not_or] at hc
    rw [waitForDelete, if_neg (by rintro (h' | h') <;> simp_all), if_neg hc.2.2.1]
    exact ih

/-- A pod that does not go is not given up but reported as evicted, if the time of the drain is up before that of the pod: the reading that the end of the drain's context interrupts
fails, and what a failed reading returns has another UID (C69). -/
theorem C140_deadline_false (c : Cfg) (p : Pod) (hu : p.uid ≠ "") (e : Env1) (hl : ∀ i, (e.looks i).ans = .found p.uid) (t n : Nat) (hc : e.call 0 = ⟨0, .ok⟩) (ht : t < c.deadline)
    (hd : c.deadline < t + min (c.grace p) c.timeout + 30000) :
    results ((noPvT c true false e p t 0 (n + 1)).map (·.2)) = [(p, true)] := by
  have hs : send c.deadline t (e.call 0) = (.ok, t) := by
    unfold send
    rw [hc, if_pos (by simpa using ht)]
    rfl
  have hw := watch_deadline c.deadline (t + min (c.grace p) c.timeout + 30000) p hu hd e.looks hl 0 t
  unfold noPvT
  rw [if_pos rfl, hs]
  dsimp only
  unfold afterT
  rw [if_neg (by decide)]
  have : decide (waitForDelete p (watch c.deadline (t + min (c.grace p) c.timeout + buffer) p e.looks 0 t).1 = .gone) = true := decide_eq_true hw
  rw [this]
  rfl

/-! ## Examples -/

/-- a volume that stays attached is given up ten minutes and a half after the request: grace period and detach timeout are 30 s and ten minutes, and it is looked at every five seconds -/
example : (withPvT { minute with deadline := 7200000 } true 3 (fun _ _ => { call := ⟨60000, .ok⟩, polls := fun _ => (0, .attached true) }) [p1] 0).map (·.1) = [60000, 690000, 690000] := by
  decide +kernel

/-- a pod with a grace period of 40 s and a drain timeout of a minute, which stays for ever -/
example : results ((noPvT { minute with grace := fun _ => 40000 } true false ⟨fun _ => ⟨0, .ok⟩, fun _ => false, fun _ => ⟨5000, 0, .found "u"⟩⟩ { p1 with uid := "u" } 0 0 3).map (·.2)) =
    [({ p1 with uid := "u" }, true)] :=
  C140_deadline_false _ _ (by decide) _ (fun _ => rfl) 0 2 rfl (by decide) (by decide)

end MCM.Patience
