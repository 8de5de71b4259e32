import Verif.Model.ApiFreeze
import Mathlib.Data.List.Induction
/-!
C28: the machine controller is stopped only during a sustained outage of an API server.
-/
namespace MCM.ApiFreeze

/-- an API server answered with an error other than "not found" -/
def Down (c : Check) : Prop := c.control = .error ∨ c.target = .error

theorem isUp_iff (c : Check) : isUp c.control c.target = true ↔ ¬ Down c := by
  unfold isUp Down
  cases c.control <;> cases c.target <;> simp

instance (c : Check) : Decidable (Down c) := by unfold Down; infer_instance

theorem run_append (timeout : Int) : ∀ (l₁ l₂ : List Check) (s : St × Store), run timeout s (l₁ ++ l₂) = run timeout (run timeout s l₁) l₂
  | [], _, _ => rfl
  | _ :: l₁, l₂, _ => run_append timeout l₁ l₂ _

/-- the state after the checks `h`, started from scratch -/
def after (timeout : Int) (store : Store) (h : List Check) : St × Store := run timeout ({}, store) h

theorem after_snoc (timeout : Int) (store : Store) (h : List Check) (c : Check) :
    after timeout store (h ++ [c]) =
      ((check timeout (after timeout store h).1 (after timeout store h).2 c).st, (check timeout (after timeout store h).1 (after timeout store h).2 c).store) := by
  unfold after
  rw [run_append]
  rfl

theorem not_up {c : Check} (h : Down c) : isUp c.control c.target = false := by
  cases hu : isUp c.control c.target with
  | false => rfl
  | true => exact absurd h ((isUp_iff c).1 hu)

theorem up_of {c : Check} (h : ¬ Down c) : isUp c.control c.target = true := (isUp_iff c).2 h

/-- the running timer is the time of a check that found a server down -/
theorem start_seen (timeout : Int) (store : Store) (h : List Check) :
    ∀ t, (after timeout store h).1.start = some t → ∃ c ∈ h, c.now = t ∧ Down c := by
  induction h using List.reverseRecOn with
  | nil => intro t ht; cases ht
  | append_singleton h c ih =>
    intro t ht
    rw [after_snoc] at ht
    have lift : (∃ c ∈ h, c.now = t ∧ Down c) → ∃ c' ∈ h ++ [c], c'.now = t ∧ Down c' := fun ⟨d, hd, h'⟩ =>
      ⟨d, List.mem_append_left _ hd, h'⟩
    unfold check at ht
    by_cases hf : (after timeout store h).1.frozen = true
    · rw [if_pos hf] at ht
      by_cases hu : Down c
      · rw [not_up hu] at ht
        exact lift (ih t ht)
      · rw [up_of hu, if_pos rfl] at ht
        split at ht
        · exact lift (ih t ht)
        · cases ht
    · rw [if_neg hf] at ht
      by_cases hu : Down c
      · rw [not_up hu, if_pos (by simp)] at ht
        dsimp only at ht
        cases hs : (after timeout store h).1.start with
        | none =>
          rw [hs] at ht
          cases ht
          exact ⟨c, List.mem_append_right _ List.mem_cons_self, rfl, hu⟩
        | some t0 =>
          rw [hs] at ht
          cases ht
          exact lift (ih t0 hs)
      · rw [up_of hu, if_neg (by simp)] at ht
        exact lift (ih t ht)

/-- C28: A check that stops the controller finds a server unreachable, and a check more than the timeout earlier did so too. -/
theorem C28_freeze_needs_old_outage (timeout : Int) (store : Store) (h : List Check) (c : Check) (hn : 0 ≤ timeout)
    (h0 : (after timeout store h).1.frozen = false) (h1 : (after timeout store (h ++ [c])).1.frozen = true) :
    Down c ∧ ∃ c₀ ∈ h, Down c₀ ∧ c.now - c₀.now > timeout := by
  rw [after_snoc] at h1
  unfold check at h1
  rw [if_neg (by rw [h0]; simp)] at h1
  by_cases hu : Down c
  · rw [not_up hu, if_pos (by simp)] at h1
    dsimp only at h1
    have h1 := of_decide_eq_true h1
    refine ⟨hu, ?_⟩
    cases hs : (after timeout store h).1.start with
    | none =>
      rw [hs] at h1
      have : c.now - c.now > timeout := h1
      omega
    | some t0 =>
      rw [hs] at h1
      obtain ⟨c₀, hc, he, hd⟩ := start_seen timeout store h t0 hs
      refine ⟨c₀, hc, hd, ?_⟩
      rw [he]
      exact h1
  · rw [up_of hu, if_neg (by simp)] at h1
    rw [h0] at h1
    cases h1

/-- no check of the history found the servers reachable while the timer was running and the controller was not stopped -/
def NoBlip (timeout : Int) (store : Store) (h : List Check) : Prop :=
  ∀ pre c post, h = pre ++ c :: post → (after timeout store pre).1.frozen = false → (after timeout store pre).1.start ≠ none → Down c

theorem noBlip_prefix {timeout : Int} {store : Store} {h : List Check} {c : Check} (hb : NoBlip timeout store (h ++ [c])) :
    NoBlip timeout store h := fun pre d post he => hb pre d (post ++ [c]) (by rw [he]; simp)

/-- without blips the timer stands for an uninterrupted outage -/
theorem start_sustained (timeout : Int) (store : Store) (h : List Check) (hb : NoBlip timeout store h)
    (h0 : (after timeout store h).1.frozen = false) :
    ∀ t, (after timeout store h).1.start = some t → ∃ pre c₀ post, h = pre ++ c₀ :: post ∧ c₀.now = t ∧ ∀ d ∈ c₀ :: post, Down d := by
  induction h using List.reverseRecOn with
  | nil => intro t ht; cases ht
  | append_singleton h c ih =>
    intro t ht
    have hb' := noBlip_prefix hb
    rw [after_snoc] at ht h0
    unfold check at ht h0
    by_cases hf : (after timeout store h).1.frozen = true
    · rw [if_pos hf] at ht h0
      by_cases hu : Down c
      · rw [not_up hu] at h0
        rw [show (after timeout store h).1.frozen = false from h0] at hf
        cases hf
      · rw [up_of hu, if_pos rfl] at ht h0
        split at ht
        · rename_i he
          rw [he] at h0
          rw [show (after timeout store h).1.frozen = false from h0] at hf
          cases hf
        · cases ht
    · rw [if_neg hf] at ht h0
      have hf' : (after timeout store h).1.frozen = false := by simpa using hf
      by_cases hu : Down c
      · rw [not_up hu, if_pos (by simp)] at ht
        dsimp only at ht
        cases hs : (after timeout store h).1.start with
        | none =>
          rw [hs] at ht
          cases ht
          exact ⟨h, c, [], rfl, rfl, fun d hd => by rw [List.mem_singleton.1 hd]; exact hu⟩
        | some t0 =>
          rw [hs] at ht
          cases ht
          obtain ⟨pre, c₀, post, he, hn, hd⟩ := ih hb' hf' t0 hs
          refine ⟨pre, c₀, post ++ [c], by rw [he]; simp, hn, fun d hm => ?_⟩
          rw [← List.cons_append] at hm
          rcases List.mem_append.1 hm with hm | hm
          · exact hd d hm
          · rw [List.mem_singleton.1 hm]; exact hu
      · rw [up_of hu, if_neg (by simp)] at ht
        exact absurd (hb h c [] rfl hf' (by rw [show (after timeout store h).1.start = some t from ht]; simp)) hu

/-- C28: If the servers were never found reachable again before the timeout had passed, the controller is stopped only after an
uninterrupted outage longer than the timeout. The full statement omits `NoBlip`; it is refuted below. -/
theorem C28_sustained_partial (timeout : Int) (store : Store) (h : List Check) (c : Check) (hn : 0 ≤ timeout)
    (hb : NoBlip timeout store h) (h0 : (after timeout store h).1.frozen = false) (h1 : (after timeout store (h ++ [c])).1.frozen = true) :
    ∃ pre c₀ post, h = pre ++ c₀ :: post ∧ c.now - c₀.now > timeout ∧ ∀ d ∈ c₀ :: (post ++ [c]), Down d := by
  have hdc := (C28_freeze_needs_old_outage timeout store h c hn h0 h1).1
  rw [after_snoc] at h1
  unfold check at h1
  rw [if_neg (by rw [h0]; simp), not_up hdc, if_pos (by simp)] at h1
  dsimp only at h1
  have h1 := of_decide_eq_true h1
  cases hs : (after timeout store h).1.start with
  | none =>
    rw [hs] at h1
    have : c.now - c.now > timeout := h1
    omega
  | some t0 =>
    rw [hs] at h1
    obtain ⟨pre, c₀, post, he, hnow, hd⟩ := start_sustained timeout store h hb h0 t0 hs
    refine ⟨pre, c₀, post, he, by rw [hnow]; exact h1, fun d hm => ?_⟩
    rw [← List.cons_append] at hm
    rcases List.mem_append.1 hm with hm | hm
    · exact hd d hm
    · rw [List.mem_singleton.1 hm]; exact hdc

/-- C28, false part: The time of the first failure is not forgotten when the servers answer again, so two short failures stop the
controller: here at times 0 and 100, with a timeout of 30 and the servers up in between. -/
theorem C28_two_blips_false : ¬ ∀ (timeout : Int) (store : Store) (h : List Check) (c : Check), 0 ≤ timeout →
    (after timeout store h).1.frozen = false → (after timeout store (h ++ [c])).1.frozen = true →
    ∃ pre c₀ post, h = pre ++ c₀ :: post ∧ c.now - c₀.now > timeout ∧ ∀ d ∈ c₀ :: (post ++ [c]), Down d := by
  intro h
  obtain ⟨pre, c₀, post, he, ht, hd⟩ := h 30 (fun _ => none)
    [{ now := 0, control := .error, target := .ok }, { now := 10, control := .notFound, target := .notFound }]
    { now := 100, control := .error, target := .ok } (by decide) (by decide) (by decide)
  match pre, he with
  | [], he =>
    injection he with h1 h2
    have : ({ now := 10, control := .notFound, target := .notFound } : Check) ∈ c₀ :: (post ++ [{ now := 100, control := .error, target := .ok }]) := by
      rw [← h2]; simp
    have := hd _ this
    revert this
    decide
  | [a], he =>
    injection he with h1 h2
    injection h2 with h2 h3
    have := hd c₀ List.mem_cons_self
    rw [← h2] at this
    revert this
    decide
  | a :: b :: l, he =>
    have := congrArg List.length he
    simp at this

/-- an outage that stays -/
theorem run_down {timeout : Int} : ∀ (h : List Check) (s : St × Store), (∀ c ∈ h, Down c) → s.1.start ≠ none →
    (run timeout s h).1.start = s.1.start ∧ (s.1.frozen = true → (run timeout s h).1.frozen = true)
  | [], s, _, _ => ⟨rfl, id⟩
  | c :: h, s, hd, hs => by
    have hc := hd c List.mem_cons_self
    have hst : (check timeout s.1 s.2 c).st.start = s.1.start ∧ (s.1.frozen = true → (check timeout s.1 s.2 c).st.frozen = true) := by
      unfold check
      by_cases hf : s.1.frozen = true
      · rw [if_pos hf, not_up hc]
        exact ⟨rfl, fun _ => hf⟩
      · rw [if_neg hf, not_up hc, if_pos (by simp)]
        refine ⟨?_, fun h => absurd h hf⟩
        cases hv : s.1.start with
        | none => exact absurd hv hs
        | some t => rfl
    obtain ⟨h1, h2⟩ := run_down (timeout := timeout) h ((check timeout s.1 s.2 c).st, (check timeout s.1 s.2 c).store)
      (fun d hm => hd d (List.mem_cons_of_mem _ hm)) (by rw [hst.1]; exact hs)
    exact ⟨h1.trans hst.1, fun hf => h2 (hst.2 hf)⟩

/-- C28: The controller is stopped once an uninterrupted outage has lasted longer than the timeout. -/
theorem C28_freezes (timeout : Int) (s : St × Store) (c₀ c : Check) (mid : List Check) (h0 : s.1.start = none ∨ s.1.frozen = true)
    (hd : ∀ d ∈ c₀ :: (mid ++ [c]), Down d) (ht : c.now - c₀.now > timeout) : (run timeout s (c₀ :: (mid ++ [c]))).1.frozen = true := by
  have hc0 := hd c₀ List.mem_cons_self
  have hcd := hd c (List.mem_cons_of_mem _ (List.mem_append_right _ List.mem_cons_self))
  have hmid : ∀ d ∈ mid, Down d := fun d hm => hd d (List.mem_cons_of_mem _ (List.mem_append_left _ hm))
  have frozenStays : ∀ (h : List Check) (s : St × Store), (∀ c ∈ h, Down c) → s.1.frozen = true → (run timeout s h).1.frozen = true := by
    intro h
    induction h with
    | nil => intro s _ hf; exact hf
    | cons c h ih =>
      intro s hd hf
      refine ih _ (fun d hm => hd d (List.mem_cons_of_mem _ hm)) ?_
      show (check timeout s.1 s.2 c).st.frozen = true
      unfold check
      rw [if_pos hf, not_up (hd c List.mem_cons_self)]
      exact hf
  by_cases hf : s.1.frozen = true
  · exact frozenStays _ s hd hf
  · have hnone : s.1.start = none := by
      rcases h0 with h0 | h0
      · exact h0
      · exact absurd h0 hf
    rw [show c₀ :: (mid ++ [c]) = [c₀] ++ (mid ++ [c]) from rfl, run_append, run_append]
    have h1 : (run timeout s [c₀]).1.start = some c₀.now := by
      show (check timeout s.1 s.2 c₀).st.start = _
      unfold check
      rw [if_neg hf, not_up hc0, if_pos (by simp), hnone]
      rfl
    have h2 : (run timeout (run timeout s [c₀]) mid).1.start = some c₀.now := by
      rw [(run_down mid _ hmid (by rw [h1]; simp)).1, h1]
    generalize run timeout (run timeout s [c₀]) mid = s' at h2 ⊢
    show (check timeout s'.1 s'.2 c).st.frozen = true
    unfold check
    by_cases hf' : s'.1.frozen = true
    · rw [if_pos hf', not_up hcd]
      exact hf'
    · rw [if_neg hf', not_up hcd, if_pos (by simp), h2]
      exact decide_eq_true ht

example : (after 30 (fun _ => none) [{ now := 0, control := .error, target := .ok }, { now := 20, control := .ok, target := .error },
    { now := 31, control := .error, target := .error }]).1.frozen = true ∧
    (after 30 (fun _ => none) [{ now := 0, control := .error, target := .ok }, { now := 20, control := .ok, target := .error },
    { now := 30, control := .error, target := .error }]).1.frozen = false := by decide

/-! ### Resuming -/

theorem resetAll_spec (api : Api) : ∀ (l : List (String × Phase)) (store : Store),
    (∀ n, (∀ p, (n, p) ∈ l → p ≠ .unknown) → (resetAll api store l).1 n = store n) ∧
    (∀ n, (resetAll api store l).1 n = store n ∨ (resetAll api store l).1 n = some .running) ∧
    ((resetAll api store l).2 = false → ∀ n, (n, .unknown) ∈ l → (resetAll api store l).1 n = some .running)
  | [], store => ⟨fun _ _ => rfl, fun _ => .inl rfl, fun _ _ h => (nomatch h)⟩
  | (m, p) :: l, store => by
    rw [resetAll]
    by_cases hp : p = .unknown
    · rw [if_pos hp]
      cases hs : store m with
      | none => exact ⟨fun _ _ => rfl, fun _ => .inl rfl, fun h => (nomatch h)⟩
      | some ph =>
        dsimp only
        by_cases hok : (api.get m && api.update m) = true
        · rw [if_pos hok]
          obtain ⟨h1, h2, h3⟩ := resetAll_spec api l (fun x => if x = m then some .running else store x)
          refine ⟨fun n hn => ?_, fun n => ?_, fun he n hn => ?_⟩
          · have hne : n ≠ m := fun e => hn p (by rw [e]; exact List.mem_cons_self) hp
            rw [h1 n (fun q hq => hn q (List.mem_cons_of_mem _ hq)), if_neg hne]
          · rcases h2 n with h | h
            · by_cases hne : n = m
              · rw [if_pos hne] at h; exact .inr h
              · rw [if_neg hne] at h; exact .inl h
            · exact .inr h
          · rcases List.mem_cons.1 hn with e | hn
            · injection e with e1 e2
              rcases h2 n with h | h
              · rw [if_pos e1] at h; exact h
              · exact h
            · exact h3 he n hn
        · rw [if_neg hok]
          exact ⟨fun _ _ => rfl, fun _ => .inl rfl, fun h => (nomatch h)⟩
    · rw [if_neg hp]
      obtain ⟨h1, h2, h3⟩ := resetAll_spec api l store
      refine ⟨fun n hn => h1 n (fun q hq => hn q (List.mem_cons_of_mem _ hq)), h2, fun he n hn => ?_⟩
      rcases List.mem_cons.1 hn with e | hn
      · injection e with e1 e2
        exact absurd e2.symm hp
      · exact h3 he n hn

/-- C28: Handling resumes only when both servers answer and after every machine that the cache shows as Unknown was set to
Running; no other machine is touched. -/
theorem C28_reset_before_resuming (timeout : Int) (s : St) (store : Store) (c : Check) (h0 : s.frozen = true)
    (h1 : (check timeout s store c).st.frozen = false) :
    ¬ Down c ∧ (check timeout s store c).st.start = none ∧
    (∀ n, (n, .unknown) ∈ c.cache → (check timeout s store c).store n = some .running) ∧
    (∀ n, (∀ p, (n, p) ∈ c.cache → p ≠ .unknown) → (check timeout s store c).store n = store n) := by
  unfold check at h1 ⊢
  rw [if_pos h0] at h1 ⊢
  by_cases hu : Down c
  · rw [not_up hu] at h1
    rw [show s.frozen = false from h1] at h0
    cases h0
  · rw [up_of hu, if_pos rfl] at h1 ⊢
    obtain ⟨r1, r2, r3⟩ := resetAll_spec c.api c.cache store
    generalize resetAll c.api store c.cache = r at *
    obtain ⟨st', b⟩ := r
    cases b with
    | true =>
      rw [show s.frozen = false from h1] at h0
      cases h0
    | false => exact ⟨hu, rfl, r3 rfl, r1⟩

/-- C28: When both servers answer and the requests succeed, handling resumes with the next check. -/
theorem C28_resumes (timeout : Int) (s : St) (store : Store) (c : Check) (hu : ¬ Down c)
    (hex : ∀ n, (n, .unknown) ∈ c.cache → store n ≠ none) (hok : ∀ n, c.api.get n = true ∧ c.api.update n = true) :
    (check timeout s store c).st.frozen = false := by
  have hres : ∀ (l : List (String × Phase)) (store : Store), (∀ n, (n, .unknown) ∈ l → store n ≠ none) → (resetAll c.api store l).2 = false := by
    intro l
    induction l with
    | nil => intro _ _; rfl
    | cons e l ih =>
      intro store hex
      obtain ⟨m, p⟩ := e
      rw [resetAll]
      by_cases hp : p = .unknown
      · rw [if_pos hp]
        cases hs : store m with
        | none => exact absurd hs (hex m (by rw [← hp]; exact List.mem_cons_self))
        | some ph =>
          dsimp only
          rw [if_pos (by rw [(hok m).1, (hok m).2]; rfl)]
          refine ih _ fun n hn => ?_
          by_cases hne : n = m
          · rw [if_pos hne]; simp
          · rw [if_neg hne]; exact hex n (List.mem_cons_of_mem _ hn)
      · rw [if_neg hp]
        exact ih _ fun n hn => hex n (List.mem_cons_of_mem _ hn)
  unfold check
  by_cases hf : s.frozen = true
  · rw [if_pos hf, up_of hu, if_pos rfl]
    have := hres c.cache store hex
    generalize resetAll c.api store c.cache = r at *
    obtain ⟨st', b⟩ := r
    cases this
    rfl
  · rw [if_neg hf, up_of hu, if_neg (by simp)]
    simpa using hf

/-- rounds of the loop with the same check -/
def rounds (timeout : Int) (w : St × Store × Worker.Q) (c : Check) : Nat → St × Store × Worker.Q
  | 0 => w
  | n + 1 => round timeout (rounds timeout w c n) c

/-- C28, false part: A check ending in an error is not repeated by itself but by the worker, which gives up after sixteen failures
in a row. Sixteen failing resets of one machine (here one that the cache still shows while it is already gone) end the loop: its
key is in the queue no more and the controller remains stopped, whatever happens later. -/
theorem C28_stopped_forever_false :
    ¬ ∀ (timeout : Int) (store : Store) (q : Worker.Q) (c : Check) (n : Nat) (later : List Check), q.queue = [""] → ¬ Down c →
      (∀ d ∈ later, ¬ Down d ∧ d.cache = []) → 0 < later.length →
      (later.foldl (round timeout) (rounds timeout ({ frozen := true, start := some 0 }, store, q) c n)).1.frozen = false := by
  intro h
  have := h 30 (fun _ => none) (({} : Worker.Q).add "") { now := 50, control := .ok, target := .ok, cache := [("m", .unknown)] } 16
    [{ now := 99, control := .ok, target := .ok }] rfl (by decide) (by intro d hd; rw [List.mem_singleton.1 hd]; exact ⟨by decide, rfl⟩) (by decide)
  revert this
  decide +kernel

end MCM.ApiFreeze
