import Verif.Model.Health
import Verif.Props.Conditions
/-!
C29: health transitions follow the timeouts. C31: one unhealthy machine of a deployment is replaced at a time. C68: failed is final.
-/
namespace MCM.Health
open MCM.Conditions

/-! ### C29 -/

/-- a node is healthy: it reports conditions, `Ready` is not other than true, and none of the bad conditions is other than false -/
def Healthy (bad : List String) (conds : List Cond) : Prop :=
  conds ≠ [] ∧ (∀ c ∈ conds, c.type = "Ready" → c.status = "True") ∧ ∀ c ∈ conds, c.type ∈ bad → c.status = "False"

theorem isHealthy_iff (bad : List String) (conds : List Cond) : isHealthy bad conds = true ↔ Healthy bad conds := by
  unfold isHealthy Healthy
  by_cases h : conds = []
  · subst h; simp
  · rw [if_neg (fun h' => h (List.length_eq_zero_iff.1 h')), List.all_eq_true]
    constructor
    · intro hall
      refine ⟨h, fun c hc ht => ?_, fun c hc hb => ?_⟩
      · have := hall c hc
        rw [Bool.and_eq_true] at this
        have h1 := this.1
        rw [ht] at h1
        simpa using h1
      · have := hall c hc
        rw [Bool.and_eq_true, List.all_eq_true] at this
        have h1 := this.2 c.type hb
        simpa using h1
    · rintro ⟨_, h1, h2⟩ c hc
      rw [Bool.and_eq_true, List.all_eq_true]
      constructor
      · by_cases ht : c.type = "Ready"
        · simp [ht, h1 c hc ht]
        · simp [ht]
      · intro b hb
        by_cases ht : c.type = b
        · subst ht
          simp [h2 c hc hb]
        · simp [ht]

/-- unchanged conditions are equally healthy -/
theorem healthy_of_unchanged (bad : List String) (old new : List Cond) (ho : (old.map (·.type)).Nodup)
    (h : haveChanged old new = false) : Healthy bad old ↔ Healthy bad new := by
  have hpair : ∀ c ∈ new, ∃ o ∈ old, o.type = c.type ∧ o.status = c.status := by
    intro c hc
    unfold haveChanged at h
    rw [Bool.or_eq_false_iff] at h
    have h1 : addedOrUpdated old new = [] := by simpa using h.1
    unfold addedOrUpdated at h1
    rw [List.filter_eq_nil_iff] at h1
    have := h1 c hc
    cases hb : byType old c.type with
    | none => rw [hb] at this; exact absurd rfl this
    | some o =>
      rw [hb] at this
      obtain ⟨h1, h2⟩ := byType_some hb
      exact ⟨o, h1, h2, by simpa using this⟩
  have huniq : ∀ l : List Cond, (l.map (·.type)).Nodup → ∀ a ∈ l, ∀ b ∈ l, a.type = b.type → a = b := by
    intro l
    induction l with
    | nil => exact fun _ _ h => (nomatch h)
    | cons x l ih =>
      intro hnd a ha b hb he
      rw [List.map_cons, List.nodup_cons] at hnd
      rcases List.mem_cons.1 ha with rfl | ha' <;> rcases List.mem_cons.1 hb with rfl | hb'
      · rfl
      · exact absurd (List.mem_map.2 ⟨b, hb', he.symm⟩) hnd.1
      · exact absurd (List.mem_map.2 ⟨a, ha', he⟩) hnd.1
      · exact ih hnd.2 a ha' b hb' he
  have hback : ∀ o ∈ old, ∃ c ∈ new, o.type = c.type ∧ o.status = c.status := by
    intro o hoo
    unfold haveChanged at h
    rw [Bool.or_eq_false_iff] at h
    have h1 : removed old new = [] := by simpa using h.2
    unfold removed at h1
    rw [List.filter_eq_nil_iff] at h1
    have := h1 o hoo
    cases hb : byType new o.type with
    | none => rw [hb] at this; exact absurd rfl this
    | some c =>
      obtain ⟨h1, h2⟩ := byType_some hb
      obtain ⟨o', ho', ht, hs⟩ := hpair c h1
      have : o' = o := huniq old ho o' ho' o hoo (ht.trans h2)
      subst this
      exact ⟨c, h1, h2.symm, hs⟩
  unfold Healthy
  constructor
  · rintro ⟨hne, h1, h2⟩
    refine ⟨fun he => ?_, fun c hc ht => ?_, fun c hc hb => ?_⟩
    · obtain ⟨o, l, hol⟩ := List.exists_cons_of_ne_nil hne
      obtain ⟨c, hc, _⟩ := hback o (by rw [hol]; exact List.mem_cons_self)
      rw [he] at hc
      cases hc
    · obtain ⟨o, hoo, ht', hs⟩ := hpair c hc
      rw [← hs]; exact h1 o hoo (ht'.trans ht)
    · obtain ⟨o, hoo, ht', hs⟩ := hpair c hc
      rw [← hs]; exact h2 o hoo (by rw [ht']; exact hb)
  · rintro ⟨hne, h1, h2⟩
    refine ⟨fun he => ?_, fun o hoo ht => ?_, fun o hoo hb => ?_⟩
    · obtain ⟨c, l, hcl⟩ := List.exists_cons_of_ne_nil hne
      obtain ⟨o, hoo, _⟩ := hpair c (by rw [hcl]; exact List.mem_cons_self)
      rw [he] at hoo
      cases hoo
    · obtain ⟨c, hc, ht', hs⟩ := hback o hoo
      rw [hs]; exact h1 c hc (ht'.symm.trans ht)
    · obtain ⟨c, hc, ht', hs⟩ := hback o hoo
      rw [hs]; exact h2 c hc (by rw [← ht']; exact hb)

/-- the condition types of machine and node are distinct, as the API demands -/
def Distinct (m : Machine) (n : Node) : Prop := (m.conds.map (·.type)).Nodup ∧ (n.conds.map (·.type)).Nodup

theorem healthy_conds (m : Machine) (n : Node) (hd : Distinct m n) :
    isHealthy m.bad (seen m n) = true ↔ Healthy m.bad n.conds := by
  rw [isHealthy_iff]
  unfold seen
  cases h : haveChanged m.conds n.conds with
  | true => rfl
  | false => exact healthy_of_unchanged m.bad m.conds n.conds hd.1 h

theorem timeouts_cases (now : Int) (m : Machine) :
    timeouts now m = .nothing ∨ timeouts now m = .recheck ∨
    (timeouts now m = .status (some .failed) m.conds false ∧ m.phase = .pending ∧ now - m.since > m.creationTimeout) ∨
    (timeouts now m = .tryFail ∧ m.phase = .unknown ∧ now - m.since > m.healthTimeout) := by
  unfold timeouts
  split
  · rename_i hp
    split
    · exact .inr (.inr (.inl ⟨rfl, hp, by omega⟩))
    · exact .inr (.inl rfl)
  · split
    · rename_i hp
      split
      · exact .inr (.inr (.inr ⟨rfl, hp, by omega⟩))
      · exact .inr (.inl rfl)
    · exact .inl rfl

/-- C29: A machine becomes failed only after more than the timeout in its phase: the creation timeout if it is pending, the health timeout
if it is unknown. -/
theorem C29_failed_after_timeout (now : Int) (m : Machine) (n : NodeLookup) (mark : Bool) (hp : m.phase ≠ .failed)
    (h : (m.after now mark (check now m n)).phase = .failed) :
    (m.phase = .pending ∧ now - m.since > m.creationTimeout) ∨ (m.phase = .unknown ∧ now - m.since > m.healthTimeout) := by
  have ht : (m.after now mark (timeouts now m)).phase = .failed →
      (m.phase = .pending ∧ now - m.since > m.creationTimeout) ∨ (m.phase = .unknown ∧ now - m.since > m.healthTimeout) := by
    rcases timeouts_cases now m with h | h | ⟨h, h'⟩ | ⟨h, h'⟩ <;> rw [h] <;> intro hf
    · exact absurd hf hp
    · exact absurd hf hp
    · exact .inl h'
    · exact .inr h'
  cases n with
  | error => exact absurd h hp
  | notFound =>
    rw [check] at h
    split at h
    · cases h
    · exact ht h
  | found n =>
    rw [check] at h
    split at h
    · split at h
      · cases h
      · split at h
        · exact absurd h hp
        · exact ht h
    · split at h
      · cases h
      · split at h
        · exact absurd h hp
        · exact ht h

/-- C29: A machine becomes running only if its node exists and is healthy, and, if the machine is pending, the node does not carry the
critical-components taint. -/
theorem C29_running_only_if_healthy (now : Int) (m : Machine) (n : NodeLookup) (mark : Bool) (hd : ∀ nd, n = .found nd → Distinct m nd)
    (hp : m.phase ≠ .running) (h : (m.after now mark (check now m n)).phase = .running) :
    ∃ nd, n = .found nd ∧ Healthy m.bad nd.conds ∧ ¬ (m.phase = .pending ∧ nd.critical = true) := by
  have ht : (m.after now mark (timeouts now m)).phase ≠ .running := by
    rcases timeouts_cases now m with h | h | ⟨h, h'⟩ | ⟨h, h'⟩ <;> rw [h]
    · exact hp
    · exact hp
    · exact fun h => (nomatch h)
    · cases mark
      · exact hp
      · exact fun h => (nomatch h)
  cases n with
  | error => exact absurd h hp
  | notFound =>
    rw [check] at h
    split at h
    · cases h
    · exact absurd h ht
  | found n =>
    refine ⟨n, rfl, ?_⟩
    rw [check] at h
    split at h
    · rename_i hh
      refine ⟨(healthy_conds m n (hd n rfl)).1 hh, ?_⟩
      split at h
      · rename_i hc; exact hc.2
      · split at h
        · exact absurd h hp
        · exact absurd h ht
    · split at h
      · exact absurd h hp
      · exact absurd h ht

/-- C29: A machine that is not running and whose node is healthy becomes running (a pending one if the node does not carry the taint). -/
theorem C29_healthy_runs (now : Int) (m : Machine) (n : Node) (mark : Bool) (hd : Distinct m n) (hh : Healthy m.bad n.conds)
    (hc : ¬ (m.phase = .pending ∧ n.critical = true)) : (m.after now mark (check now m (.found n))).phase = .running := by
  rw [check]
  rw [if_pos ((healthy_conds m n hd).2 hh)]
  by_cases hp : m.phase = .running
  · rw [if_neg (fun h => h.1 hp)]
    split
    · exact hp
    · unfold timeouts
      rw [if_neg (by rw [hp]; decide), if_neg (by rw [hp]; decide)]
      exact hp
  · rw [if_pos ⟨hp, hc⟩]
    rfl

/-- C29: A running machine whose node is unhealthy, or gone after having reported conditions, becomes unknown, from now on. -/
theorem C29_unhealthy_unknown_partial (now : Int) (m : Machine) (n : NodeLookup) (mark : Bool) (hp : m.phase = .running)
    (h : (∃ nd, n = .found nd ∧ Distinct m nd ∧ ¬ Healthy m.bad nd.conds) ∨ (n = .notFound ∧ m.conds ≠ [])) :
    (m.after now mark (check now m n)).phase = .unknown ∧ (m.after now mark (check now m n)).since = now := by
  rcases h with ⟨nd, rfl, hd, hh⟩ | ⟨rfl, hc⟩
  · rw [check]
    rw [if_neg (fun h => hh ((healthy_conds m nd hd).1 h)), if_pos hp]
    exact ⟨rfl, rfl⟩
  · rw [check, if_pos ⟨List.length_pos_iff.2 hc, hp⟩]
    exact ⟨rfl, rfl⟩

/-- C29: An expired timeout is acted upon by the next check that finds the conditions unchanged and the machine still not healthy. -/
theorem C29_expired_acted_upon_partial (now : Int) (m : Machine) (n : NodeLookup) (hn : n = .notFound ∨ ∃ nd, n = .found nd ∧ haveChanged m.conds nd.conds = false ∧ isHealthy m.bad m.conds = false) :
    (m.phase = .pending → now - m.since > m.creationTimeout → ∀ mark, (m.after now mark (check now m n)).phase = .failed) ∧
    (m.phase = .unknown → now - m.since > m.healthTimeout → check now m n = .tryFail) := by
  have hc : m.phase ≠ .running → check now m n = timeouts now m := by
    intro hp
    rcases hn with rfl | ⟨nd, rfl, h1, h2⟩
    · rw [check, if_neg (fun h => hp h.2)]
    · rw [check]
      have e : isHealthy m.bad (seen m nd) = false := by unfold seen; rw [h1]; exact h2
      rw [e, h1, if_neg (by decide), if_neg hp, if_neg (by decide)]
  refine ⟨fun hp h mark => ?_, fun hp h => ?_⟩
  · rw [hc (by rw [hp]; decide)]
    unfold timeouts
    rw [if_pos hp, if_pos (by omega)]
    rfl
  · rw [hc (by rw [hp]; decide)]
    unfold timeouts
    rw [if_neg (by rw [hp]; decide), if_pos hp, if_pos (by omega)]

/-- A machine through checks and other times of nothing; `entered`: when the present phase began. -/
inductive Run : Machine → Int → Int → Prop
  /-- created, or read at the start -/
  | start (m : Machine) (now : Int) : m.since ≤ now → Run m m.since now
  | wait {m : Machine} {entered now : Int} (now' : Int) : Run m entered now → now ≤ now' → Run m entered now'
  | check {m : Machine} {entered now : Int} (n : NodeLookup) (mark : Bool) : Run m entered now →
      Run (m.after now mark (check now m n)) (if (m.after now mark (check now m n)).phase = m.phase then entered else now) now

theorem check_since (now : Int) (m : Machine) (n : NodeLookup) (mark : Bool) :
    (m.after now mark (check now m n)).since = (if (m.after now mark (check now m n)).phase = m.phase then m.since else now) := by
  have ht : (m.after now mark (timeouts now m)).since = (if (m.after now mark (timeouts now m)).phase = m.phase then m.since else now) := by
    rcases timeouts_cases now m with h | h | ⟨h, h', _⟩ | ⟨h, h', _⟩ <;> rw [h]
    · exact (if_pos rfl).symm
    · exact (if_pos rfl).symm
    · rw [if_neg (by rw [h']; exact fun h => (nomatch h))]; rfl
    · cases mark
      · exact (if_pos rfl).symm
      · rw [if_neg (by rw [h']; exact fun h => (nomatch h))]; rfl
  cases n with
  | error => exact (if_pos rfl).symm
  | notFound =>
    rw [check]
    split
    · rename_i hc
      rw [if_neg (by rw [hc.2]; exact fun h => (nomatch h))]; rfl
    · exact ht
  | found n =>
    rw [check]
    split
    · split
      · rename_i hc
        rw [if_neg (fun h => hc.1 h.symm)]; rfl
      · split
        · exact (if_pos rfl).symm
        · exact ht
    · split
      · rename_i hc
        rw [if_neg (by rw [hc]; exact fun h => (nomatch h))]; rfl
      · split
        · exact (if_pos rfl).symm
        · exact ht

theorem run_since {m : Machine} {entered now : Int} (h : Run m entered now) : m.since = entered := by
  induction h with
  | start m now _ => rfl
  | wait _ _ _ ih => exact ih
  | check n mark _ ih => rw [check_since, ih]

/-- C29: Over any course of checks: when a machine becomes failed it has been in the phase unknown (or pending) without interruption for
more than the timeout. -/
theorem C29_continuously {m : Machine} {entered now : Int} (h : Run m entered now) (n : NodeLookup) (mark : Bool) (hp : m.phase ≠ .failed)
    (hf : (m.after now mark (check now m n)).phase = .failed) :
    (m.phase = .pending ∧ now - entered > m.creationTimeout) ∨ (m.phase = .unknown ∧ now - entered > m.healthTimeout) := by
  rw [← run_since h]
  exact C29_failed_after_timeout now m n mark hp hf

/-- C29, false part: A running machine that never reported conditions stays running when its node is gone. -/
theorem C29_no_conditions_false : ¬ ∀ (now : Int) (m : Machine) (mark : Bool), m.phase = .running → (m.after now mark (check now m .notFound)).phase = .unknown := by
  intro h
  exact absurd (h 0 { phase := .running, since := 0, conds := [], creationTimeout := 1, healthTimeout := 1, bad := [] } false rfl) (by decide)

/-- C29, false part: A node that does not report `Ready` at all counts as healthy. -/
theorem C29_no_ready_false : ¬ ∀ (now : Int) (m : Machine) (n : Node) (mark : Bool), Distinct m n → m.phase ≠ .running → (m.after now mark (check now m (.found n))).phase = .running →
    ∃ c ∈ n.conds, c.type = "Ready" ∧ c.status = "True" := by
  intro h
  obtain ⟨c, hc, ht, _⟩ := h 0 { phase := .pending, since := 0, conds := [], creationTimeout := 1, healthTimeout := 1, bad := [] }
    { conds := [{ type := "NetworkUnavailable", status := "True" }] } false (by unfold Distinct; decide) (by decide) (by decide)
  have := List.mem_singleton.1 hc
  subst this
  revert ht
  decide

/-- C29, false part: Conditions that change from check to check put off the reaction to an expired timeout, without limit: no number of checks is enough. -/
theorem C29_flapping_false : ¬ ∃ N : Nat, ∀ (m : Machine) (nodes : List Node) (now : Int), m.phase = .unknown → now - m.since > m.healthTimeout →
    (∀ n ∈ nodes, ¬ Healthy m.bad n.conds) → N ≤ nodes.length →
    ∃ n1 n2, n1 ++ n2 = nodes ∧ n1 ≠ [] ∧ (n1.foldl (fun m n => m.after now true (check now m (.found n))) m).phase = .failed := by
  intro ⟨N, h⟩
  let c (s : String) : Cond := { type := "Ready", status := s }
  let m0 (s : String) : Machine := { phase := .unknown, since := 0, conds := [c s], creationTimeout := 1, healthTimeout := 1, bad := [] }
  -- the status of `Ready` alternates between false and unknown
  let flap : Nat → Bool → List Node := fun k => Nat.rec (fun _ => []) (fun _ f b => { conds := [c (if b then "Unknown" else "False")] } :: f (!b)) k
  have hflap : ∀ k b, ∀ n ∈ flap k b, n.conds = [c "Unknown"] ∨ n.conds = [c "False"] := by
    intro k
    induction k with
    | zero => exact fun _ _ h => (nomatch h)
    | succ k ih =>
      intro b n hn
      rcases List.mem_cons.1 hn with rfl | hn
      · cases b
        · exact .inr rfl
        · exact .inl rfl
      · exact ih (!b) n hn
  have hlen : ∀ k b, (flap k b).length = k := by
    intro k
    induction k with
    | zero => exact fun _ => rfl
    | succ k ih => exact fun b => congrArg (· + 1) (ih (!b))
  have hstep1 : (m0 "False").after 10 true (check 10 (m0 "False") (.found { conds := [c "Unknown"] })) = m0 "Unknown" := by decide
  have hstep2 : (m0 "Unknown").after 10 true (check 10 (m0 "Unknown") (.found { conds := [c "False"] })) = m0 "False" := by decide
  have hrun : ∀ k b n1 n2, n1 ++ n2 = flap k b →
      (n1.foldl (fun m n => m.after 10 true (check 10 m (.found n))) (m0 (if b then "False" else "Unknown"))).phase = .unknown := by
    intro k
    induction k with
    | zero =>
      intro b n1 n2 he
      have : n1 = [] := (List.append_eq_nil_iff.1 he).1
      subst this
      rfl
    | succ k ih =>
      intro b n1 n2 he
      cases n1 with
      | nil => rfl
      | cons x n1 =>
        have hx : x = { conds := [c (if b then "Unknown" else "False")] } := (List.cons.inj he).1
        have ht : n1 ++ n2 = flap k (!b) := (List.cons.inj he).2
        subst hx
        rw [List.foldl_cons]
        have := ih (!b) n1 n2 ht
        cases b with
        | true =>
          have e : (m0 (if true then "False" else "Unknown")).after 10 true (check 10 (m0 (if true then "False" else "Unknown")) (.found { conds := [c (if true then "Unknown" else "False")] })) = m0 "Unknown" := hstep1
          rw [e]
          exact this
        | false =>
          have e : (m0 (if false then "False" else "Unknown")).after 10 true (check 10 (m0 (if false then "False" else "Unknown")) (.found { conds := [c (if false then "Unknown" else "False")] })) = m0 "False" := hstep2
          rw [e]
          exact this
  obtain ⟨n1, n2, he, _, hf⟩ := h (m0 "False") (flap N true) 10 rfl (by decide) (fun n hn hh => by
      rcases hflap N true n hn with e | e
      · have := hh.2.1 (c "Unknown") (by rw [e]; exact List.mem_singleton.2 rfl) rfl
        exact absurd this (by decide)
      · have := hh.2.1 (c "False") (by rw [e]; exact List.mem_singleton.2 rfl) rfl
        exact absurd this (by decide)) (Nat.le_of_eq (hlen N true).symm)
  have := hrun N true n1 n2 he
  rw [show (if true = true then "False" else "Unknown") = "False" from rfl] at this
  rw [this] at hf
  cases hf

/-! ### C68 -/

/-- C68, false: A machine that was given up as failed becomes running again when its node reports healthy conditions before the machine
set has deleted it; the machine set deletes it if it still sees it failed, so that a machine in service can be deleted. -/
theorem C68_failed_revived_false : ¬ ∀ (now : Int) (m : Machine) (n : NodeLookup) (mark : Bool), m.phase = .failed → (m.after now mark (check now m n)).phase = .failed := by
  intro h
  exact absurd (h 0 { phase := .failed, since := 0, conds := [], creationTimeout := 1, healthTimeout := 1, bad := [] }
    (.found { conds := [{ type := "Ready", status := "True" }] }) false rfl) (by decide)

/-- C68: As long as the node does not become healthy, a failed machine stays failed. -/
theorem C68_failed_stays_partial (now : Int) (m : Machine) (n : NodeLookup) (mark : Bool) (hp : m.phase = .failed)
    (hn : ∀ nd, n = .found nd → Distinct m nd ∧ ¬ Healthy m.bad nd.conds) : (m.after now mark (check now m n)).phase = .failed := by
  by_cases hr : (m.after now mark (check now m n)).phase = .failed
  · exact hr
  · exfalso
    have ht : timeouts now m = .nothing := by
      unfold timeouts
      rw [if_neg (by rw [hp]; decide), if_neg (by rw [hp]; decide)]
    cases n with
    | error => exact hr hp
    | notFound =>
      rw [check, if_neg (fun h => by rw [hp] at h; exact absurd h.2 (by decide)), ht] at hr
      exact hr hp
    | found n =>
      obtain ⟨hd, hh⟩ := hn n rfl
      rw [check] at hr
      rw [if_neg (fun h => hh ((healthy_conds m n hd).1 h)), if_neg (by rw [hp]; decide)] at hr
      split at hr
      · exact hr hp
      · rw [ht] at hr
        exact hr hp

example : check 100 { phase := .unknown, since := 0, conds := [{ type := "Ready", status := "False" }], creationTimeout := 10, healthTimeout := 10, bad := ["DiskPressure"] }
    (.found { conds := [{ type := "Ready", status := "False" }] }) = .tryFail := by decide

/-! ### C31 -/

/-- the machines of the deployment are running or unknown, as the cache shows them -/
def Calm (ms : List Mach) (d : String) : Prop := ∀ m ∈ ms, m.deploy = some d → m.cached = .running ∨ m.cached = .unknown

theorem weight_zero (p : Phase) : weight p = 0 ↔ p = .running ∨ p = .unknown := by cases p <;> decide

theorem sum_lt_one (l : List Nat) : l.sum < 1 ↔ ∀ x ∈ l, x = 0 := by
  induction l with
  | nil => simp
  | cons a l ih =>
    rw [List.sum_cons]
    constructor
    · intro h x hx
      rcases List.mem_cons.1 hx with rfl | hx
      · omega
      · exact ih.1 (by omega) x hx
    · intro h
      have h1 := h a List.mem_cons_self
      have h2 := ih.2 fun x hx => h x (List.mem_cons_of_mem _ hx)
      omega

/-- C31: A machine is marked failed exactly if all machines with its `name` label are running or unknown in the cache. -/
theorem C31_test (ms : List Mach) (d : String) : canMark ms (some d) = true ↔ Calm ms d := by
  unfold canMark Calm
  rw [decide_eq_true_iff, sum_lt_one]
  constructor
  · intro h m hm hd
    exact (weight_zero _).1 (h _ (List.mem_map.2 ⟨m, List.mem_filter.2 ⟨hm, by simpa using hd⟩, rfl⟩))
  · intro h x hx
    obtain ⟨m, hm, rfl⟩ := List.mem_map.1 hx
    obtain ⟨h1, h2⟩ := List.mem_filter.1 hm
    exact (weight_zero _).2 (h m h1 (by simpa using h2))

/-- machines of the deployment marked failed and neither gone nor revived -/
def marked (ms : List Mach) (d : String) : Nat := (ms.filter fun m => m.marked && decide (m.deploy = some d)).length

/-- a marked machine is failed or terminating, and the cache shows it so -/
def Seen (ms : List Mach) : Prop := ∀ m ∈ ms, m.marked = true → (m.phase = .failed ∨ m.phase = .terminating) ∧ (m.cached = .failed ∨ m.cached = .terminating)

theorem marked_append (l r : List Mach) (m : Mach) (d : String) : marked (l ++ m :: r) d = marked (l ++ r) d + marked [m] d := by
  unfold marked
  rw [List.filter_append, List.filter_append, List.length_append, List.length_append, List.filter_cons]
  split <;> rename_i h
  · rw [List.filter_cons, if_pos h, List.length_cons]
    rfl
  · rw [List.filter_cons, if_neg h]
    rfl

theorem marked_single (m : Mach) (d : String) : marked [m] d = if m.marked = true ∧ m.deploy = some d then 1 else 0 := by
  unfold marked
  rw [List.filter_cons]
  by_cases h : m.marked = true ∧ m.deploy = some d
  · rw [if_pos h, if_pos (by simp [h.1, h.2])]; rfl
  · rw [if_neg h, if_neg (by simpa using h)]; rfl

theorem seen_replace {l r : List Mach} {m m' : Mach} (h : Seen (l ++ m :: r))
    (hm : m'.marked = true → (m'.phase = .failed ∨ m'.phase = .terminating) ∧ (m'.cached = .failed ∨ m'.cached = .terminating)) : Seen (l ++ m' :: r) := by
  intro x hx
  rcases List.mem_append.1 hx with hx | hx
  · exact h x (List.mem_append_left _ hx)
  · rcases List.mem_cons.1 hx with rfl | hx
    · exact hm
    · exact h x (List.mem_append_right _ (List.mem_cons_of_mem _ hx))

theorem inv_step {l l' : List Mach} (h : Step true l l') (hs : Seen l) (hb : ∀ d, marked l d ≤ 1) : Seen l' ∧ ∀ d, marked l' d ≤ 1 := by
  have self : ∀ {l r : List Mach} {m : Mach}, Seen (l ++ m :: r) → m.marked = true → (m.phase = .failed ∨ m.phase = .terminating) ∧ (m.cached = .failed ∨ m.cached = .terminating) :=
    fun h hm => h _ (List.mem_append_right _ List.mem_cons_self) hm
  have same : ∀ (l r : List Mach) (m m' : Mach), (∀ d, marked [m'] d ≤ marked [m] d) → (∀ d, marked (l ++ m :: r) d ≤ 1) → ∀ d, marked (l ++ m' :: r) d ≤ 1 := by
    intro l r m m' h hb d
    have h1 := hb d
    have h2 := h d
    rw [marked_append] at h1 ⊢
    omega
  cases h with
  | @mark l r m synced hc hp hcan hsync =>
    have hs' := hsync rfl
    subst hs'
    refine ⟨seen_replace hs fun _ => ⟨.inl rfl, .inl rfl⟩, fun d => ?_⟩
    have hb' := hb d
    rw [marked_append] at hb' ⊢
    rw [marked_single]
    by_cases hd : m.deploy = some d
    · rw [if_pos ⟨rfl, hd⟩]
      rw [hd] at hcan
      have calm := (C31_test _ _).1 hcan
      have hz : marked (l ++ r) d = 0 := by
        unfold marked
        rw [List.length_eq_zero_iff, List.filter_eq_nil_iff]
        intro x hx hxm
        rw [Bool.and_eq_true] at hxm
        have hin : x ∈ l ++ m :: r := by
          rcases List.mem_append.1 hx with h | h
          · exact List.mem_append_left _ h
          · exact List.mem_append_right _ (List.mem_cons_of_mem _ h)
        have h1 := calm x hin (of_decide_eq_true hxm.2)
        have h2 := (hs x hin hxm.1).2
        rcases h1 with h1 | h1 <;> rw [h1] at h2 <;> rcases h2 with h2 | h2 <;> cases h2
      omega
    · rw [if_neg (fun h => hd h.2)]
      omega
  | @terminate l r m =>
    refine ⟨seen_replace hs fun hm => ⟨.inr rfl, (self hs hm).2⟩, same l r m _ (fun d => ?_) hb⟩
    rw [marked_single, marked_single]
    exact Nat.le_refl _
  | @other l r m p hm =>
    refine ⟨seen_replace hs fun hm' => absurd (hm.symm.trans hm') (by decide), same l r m _ (fun d => ?_) hb⟩
    rw [marked_single, marked_single]
    exact Nat.le_refl _
  | @revive l r m =>
    refine ⟨seen_replace hs fun hm' => (nomatch hm'), same l r m _ (fun d => ?_) hb⟩
    rw [marked_single, if_neg (fun h => (nomatch h.1))]
    exact Nat.zero_le _
  | @watch l r m =>
    refine ⟨seen_replace hs fun hm => ⟨(self hs hm).1, (self hs hm).1⟩, same l r m _ (fun d => ?_) hb⟩
    rw [marked_single, marked_single]
    exact Nat.le_refl _
  | @gone l r m =>
    refine ⟨fun x hx => ?_, fun d => ?_⟩
    · rcases List.mem_append.1 hx with hx | hx
      · exact hs x (List.mem_append_left _ hx)
      · exact hs x (List.mem_append_right _ (List.mem_cons_of_mem _ hx))
    · have := hb d
      rw [marked_append] at this
      omega
  | @new name deploy p q =>
    refine ⟨fun x hx => ?_, fun d => ?_⟩
    · rcases List.mem_cons.1 hx with rfl | hx
      · exact fun h => (nomatch h)
      · exact hs x hx
    · have e := marked_append [] l { name := deploy, deploy := p, phase := q, cached := q } d
      rw [List.nil_append, List.nil_append] at e
      rw [e, marked_single, if_neg (fun h => (nomatch h.1))]
      exact hb d

/-- C31: At most one machine with a given `name` label is marked failed by the health check at any time (until it is gone or healthy again), in all
executions in which the wait for the cache succeeds. The full statement is without this condition, and about deployments instead of labels; it is refuted below. -/
theorem C31_one_at_a_time_partial (ms : List Mach) (h : Reach true ms) (d : String) : marked ms d ≤ 1 := by
  have : Seen ms ∧ ∀ d, marked ms d ≤ 1 := by
    induction h with
    | start => exact ⟨fun _ h => (nomatch h), fun _ => Nat.zero_le _⟩
    | step _ hs ih => exact inv_step hs ih.1 ih.2
  exact this.2 d

/-- C31, false part: When the cache does not show the first machine's new phase in time, a second machine is marked. -/
theorem C31_slow_cache_false : ¬ ∀ (ms : List Mach), Reach false ms → ∀ d, marked ms d ≤ 1 := by
  intro h
  have r1 := Reach.step (Reach.start (allSynced := false)) (Step.new "a" (some "d") .unknown)
  have r2 := Reach.step r1 (Step.new "b" (some "d") .unknown)
  have r3 := Reach.step r2 (Step.mark (l := []) (r := [⟨"a", some "d", .unknown, .unknown, false⟩]) ⟨"b", some "d", .unknown, .unknown, false⟩ false rfl rfl (by decide) (by decide))
  have r4 := Reach.step r3 (Step.mark (l := [⟨"b", some "d", .failed, .unknown, true⟩]) (r := []) ⟨"a", some "d", .unknown, .unknown, false⟩ false rfl rfl (by decide) (by decide))
  exact absurd (h _ r4 "d") (by decide)

/-- C31, false part: Machines are recognised by the label `name`; without it there is no limit. -/
theorem C31_no_label_false : ¬ ∀ (ms : List Mach), Reach true ms → (ms.filter fun m => m.marked && decide (m.deploy = none)).length ≤ 1 := by
  intro h
  have r1 := Reach.step (Reach.start (allSynced := true)) (Step.new "a" none .unknown)
  have r2 := Reach.step r1 (Step.new "b" none .unknown)
  have r3 := Reach.step r2 (Step.mark (l := []) (r := [⟨"a", none, .unknown, .unknown, false⟩]) ⟨"b", none, .unknown, .unknown, false⟩ true rfl rfl (by decide) (by decide))
  have r4 := Reach.step r3 (Step.mark (l := [⟨"b", none, .failed, .failed, true⟩]) (r := []) ⟨"a", none, .unknown, .unknown, false⟩ true rfl rfl (by decide) (by decide))
  exact absurd (h _ r4) (by decide)

/-- executions, with the numbers of machines added and of machines newly marked -/
inductive Path : List Mach → List Mach → Nat → Nat → Prop
  | refl (l : List Mach) : Path l l 0 0
  | step {l l' l'' : List Mach} {a k a' k' : Nat} : Path l l' a k → Step true l' l'' → a' = a + (l''.length - l'.length) →
      k' = k + ((l''.filter (·.marked)).length - (l'.filter (·.marked)).length) → Path l l'' a' k'

/-- C31, false part: A machine is not counted any more once it is gone, even if its replacement does not exist yet (that terminating
machines are counted twice has no effect with a limit of one): machines are given up one after the other although none has been replaced. -/
theorem C31_gap_false : ¬ ∀ (l l' : List Mach) (added given : Nat), Reach true l → Path l l' added given → given ≤ added + 1 := by
  intro h
  have r1 := Reach.step (Reach.start (allSynced := true)) (Step.new "a" (some "d") .unknown)
  have r2 := Reach.step r1 (Step.new "b" (some "d") .unknown)
  have p1 := Path.step (Path.refl _) (Step.mark (l := []) (r := [⟨"a", some "d", .unknown, .unknown, false⟩]) ⟨"b", some "d", .unknown, .unknown, false⟩ true rfl rfl (by decide) (by decide)) rfl rfl
  have p2 := Path.step p1 (Step.terminate (l := []) (r := [⟨"a", some "d", .unknown, .unknown, false⟩]) ⟨"b", some "d", .failed, .failed, true⟩) rfl rfl
  have p3 := Path.step p2 (Step.gone (l := []) (r := [⟨"a", some "d", .unknown, .unknown, false⟩]) ⟨"b", some "d", .terminating, .failed, true⟩) rfl rfl
  have p4 := Path.step p3 (Step.mark (l := []) (r := []) ⟨"a", some "d", .unknown, .unknown, false⟩ true rfl rfl (by decide) (by decide)) rfl rfl
  exact absurd (h _ _ _ _ r2 p4) (by decide)

example : ∃ ms, Reach true ms ∧ marked ms "d" = 1 := by
  have r1 := Reach.step (Reach.start (allSynced := true)) (Step.new "a" (some "d") .unknown)
  exact ⟨_, Reach.step r1 (Step.mark (l := []) (r := []) ⟨"a", some "d", .unknown, .unknown, false⟩ true rfl rfl (by decide) (by decide)), by decide⟩

end MCM.Health
