import Verif.Model.Settings
import Verif.Props.Drain
import Verif.Props.Health
/-!
Properties C93 and C94: the settings of a machine mean what the documentation says (/repo/docs/FAQ.md:175-219 and the comments of the API,
/repo/pkg/apis/machine/v1alpha1/shared_types.go:30-59).
-/
namespace MCM.Settings
open MCM MCM.Drain

/-! ### Specification -/

/-- a setting: the machine's own, if it has one, otherwise the flag -/
def Set {α : Type} (own : Conf → Option α) (flag : Flags → α) (s : Source) (x : α) : Prop :=
  (∃ c, s.conf = some c ∧ own c = some x) ∨ ((∀ c, s.conf = some c → own c = none) ∧ flag s.flags = x)

/-- `k` evictions, twenty seconds apart, fit into the time `t`, and no more -/
def Fits (t : Int) (k : Int) : Prop := k * 20000000000 ≤ t ∧ t < (k + 1) * 20000000000

/-- The number of evictions of a pod during a drain that the FAQ promises (207-219). Given are the machine's own settings and those in force. If only
the drain timeout is set, the number follows from it; otherwise the number of evictions in force counts, as far as it fits into the drain timeout. -/
def Promised (s : Source) (k : Int) : Prop :=
  ∃ t m, Set Conf.drainTimeout Flags.drainTimeout s t ∧ Set Conf.maxEvictRetries Flags.maxEvictRetries s m ∧
    if (∃ c, s.conf = some c ∧ c.drainTimeout.isSome ∧ c.maxEvictRetries.isNone) then Fits t k
    else (k = m ∧ m * 20000000000 ≤ t) ∨ (k < m ∧ Fits t k)

/-! ### Lemmas -/

theorem set_drain (s : Source) : Set Conf.drainTimeout Flags.drainTimeout s (drainTimeout s) := by
  unfold Set drainTimeout
  cases h : s.conf with
  | none => exact .inr ⟨fun c h => (nomatch h), rfl⟩
  | some c =>
    cases h2 : c.drainTimeout with
    | none => exact .inr ⟨fun c' h' => by cases h'; exact h2, by simp [h2]⟩
    | some d => exact .inl ⟨c, rfl, by simp [h2]⟩

theorem set_evict (s : Source) : Set Conf.maxEvictRetries Flags.maxEvictRetries s (maxEvictRetries s) := by
  unfold Set maxEvictRetries
  cases h : s.conf with
  | none => exact .inr ⟨fun c h => (nomatch h), rfl⟩
  | some c =>
    cases h2 : c.maxEvictRetries with
    | none => exact .inr ⟨fun c' h' => by cases h'; exact h2, by simp [h2]⟩
    | some d => exact .inl ⟨c, rfl, by simp [h2]⟩

theorem set_health (s : Source) : Set Conf.healthTimeout Flags.healthTimeout s (healthTimeout s) := by
  unfold Set healthTimeout
  cases h : s.conf with
  | none => exact .inr ⟨fun c h => (nomatch h), rfl⟩
  | some c =>
    cases h2 : c.healthTimeout with
    | none => exact .inr ⟨fun c' h' => by cases h'; exact h2, by simp [h2]⟩
    | some d => exact .inl ⟨c, rfl, by simp [h2]⟩

theorem set_creation (s : Source) : Set Conf.creationTimeout Flags.creationTimeout s (creationTimeout s) := by
  unfold Set creationTimeout
  cases h : s.conf with
  | none => exact .inr ⟨fun c h => (nomatch h), rfl⟩
  | some c =>
    cases h2 : c.creationTimeout with
    | none => exact .inr ⟨fun c' h' => by cases h'; exact h2, by simp [h2]⟩
    | some d => exact .inl ⟨c, rfl, by simp [h2]⟩

theorem set_conditions (s : Source) : Set Conf.nodeConditions Flags.nodeConditions s (nodeConditions s) := by
  unfold Set nodeConditions
  cases h : s.conf with
  | none => exact .inr ⟨fun c h => (nomatch h), rfl⟩
  | some c =>
    cases h2 : c.nodeConditions with
    | none => exact .inr ⟨fun c' h' => by cases h'; exact h2, by simp [h2]⟩
    | some d => exact .inl ⟨c, rfl, by simp [h2]⟩

theorem set_unique {α : Type} {own : Conf → Option α} {flag : Flags → α} {s : Source} {x y : α} (h : Set own flag s x) (h' : Set own flag s y) : x = y := by
  rcases h with ⟨c, h1, h2⟩ | ⟨h1, h2⟩ <;> rcases h' with ⟨c', h3, h4⟩ | ⟨h3, h4⟩
  · rw [h1] at h3; cases h3; rw [h2] at h4; cases h4; rfl
  · have := h3 c h1; rw [h2] at this; cases this
  · have := h1 c' h3; rw [h4] at this; cases this
  · exact h2 ▸ h4 ▸ rfl

theorem limit_spec (m t : Int) (ht : 0 ≤ t) : (limit m t = m ∧ m * 20000000000 ≤ t) ∨ (limit m t < m ∧ Fits t (limit m t)) := by
  have hi : interval = 20000000000 := rfl
  unfold limit
  rw [hi]
  by_cases h : m * 20000000000 ≤ t
  · rw [if_pos h]; exact .inl ⟨rfl, h⟩
  · rw [if_neg h]
    rw [Int.tdiv_eq_ediv_of_nonneg ht]
    unfold Fits
    right
    omega

/-! ### C93 -/

/-- C93: The evictions of a drain that is not forced fit into the machine's drain timeout and are at most as many as the machine's limit; the next one
would break one of the two. -/
theorem C93_within_both (s : Source) (t m : Int) (ht : Set Conf.drainTimeout Flags.drainTimeout s t) (hm : Set Conf.maxEvictRetries Flags.maxEvictRetries s m)
    (h0 : 0 ≤ t) : evictions s false * 20000000000 ≤ t ∧ evictions s false ≤ m ∧ ((evictions s false + 1) * 20000000000 > t ∨ evictions s false = m) := by
  cases set_unique ht (set_drain s)
  cases set_unique hm (set_evict s)
  rcases limit_spec (maxEvictRetries s) (drainTimeout s) h0 with ⟨h1, h2⟩ | ⟨h1, h2, h3⟩
  · unfold evictions
    rw [if_neg (by decide), h1]
    exact ⟨h2, Int.le_refl _, .inr rfl⟩
  · unfold evictions
    rw [if_neg (by decide)]
    exact ⟨h2, Int.le_of_lt h1, .inl h3⟩

example : evictions ⟨some { drainTimeout := some (60 * 1000000000), maxEvictRetries := some 10 }, {}⟩ false = 3 := by decide +kernel
example : evictions ⟨some { maxEvictRetries := some 10 }, {}⟩ false = 10 := by decide +kernel
example : evictions ⟨none, {}⟩ false = 360 := by decide +kernel

/-- C93, partial: The number of evictions is the promised one, unless only a drain timeout is set that is longer than the flag for the number of
evictions allows (missing; see `C93_long_timeout_false`). -/
theorem C93_documented_partial (s : Source) (ht : 0 ≤ drainTimeout s)
    (hl : ∀ c d, s.conf = some c → c.drainTimeout = some d → c.maxEvictRetries = none → d < (s.flags.maxEvictRetries + 1) * 20000000000) :
    Promised s (evictions s false) := by
  refine ⟨drainTimeout s, maxEvictRetries s, set_drain s, set_evict s, ?_⟩
  have he : evictions s false = limit (maxEvictRetries s) (drainTimeout s) := by unfold evictions; rw [if_neg (by decide)]
  rw [he]
  have hs := limit_spec (maxEvictRetries s) (drainTimeout s) ht
  by_cases h : (∃ c, s.conf = some c ∧ c.drainTimeout.isSome ∧ c.maxEvictRetries.isNone)
  · rw [if_pos h]
    obtain ⟨c, h1, h2, h3⟩ := h
    obtain ⟨d, h2⟩ := Option.isSome_iff_exists.1 h2
    have h3 := Option.isNone_iff_eq_none.1 h3
    have hd : drainTimeout s = d := set_unique (set_drain s) (.inl ⟨c, h1, h2⟩)
    have hm : maxEvictRetries s = s.flags.maxEvictRetries := set_unique (set_evict s) (.inr ⟨fun c' h' => by rw [h1] at h'; cases h'; exact h3, rfl⟩)
    have := hl c d h1 h2 h3
    rcases hs with ⟨h4, h5⟩ | ⟨_, h5⟩
    · rw [h4]
      unfold Fits
      rw [hd, hm] at h5 ⊢
      exact ⟨h5, this⟩
    · exact h5
  · rw [if_neg h]
    exact hs

example : Promised ⟨some { drainTimeout := some (60 * 1000000000) }, {}⟩ 3 :=
  C93_documented_partial ⟨some { drainTimeout := some (60 * 1000000000) }, {}⟩ (by decide) (by
    intro c d h1 h2 h3
    cases h1
    cases h2
    decide)

/-- a pod that can never be evicted, although its disruption budget is well-formed -/
def refused : Ans1 := { resp := fun _ => .tooMany, pdb := fun _ => false, gets := [] }

theorem refused_trace (force : Bool) (p : Pod) (n : Nat) : ∀ i, noPv true force refused p i n =
    List.replicate n (Ev.req p .evict .tooMany) ++ [Ev.req p .delete .tooMany, Ev.result p false] := by
  induction n with
  | zero => intro i; rfl
  | succ n ih =>
    intro i
    rw [noPv, if_pos rfl]
    show Ev.req p .evict .tooMany :: noPv true force refused p (i + 1) n = _
    rw [ih]
    rfl

/-- C93, false part: With the flags as they are by default, a machine for which only a drain timeout of two hours and twenty seconds or more is set does
not get the promised evictions: pods that must not be evicted are deleted after 360 attempts, that is after two hours, however long the timeout. -/
theorem C93_long_timeout_false (d : Int) (hd : 361 * 20000000000 ≤ d) (p : Pod) :
    ¬ Promised ⟨some { drainTimeout := some d }, {}⟩ (evictions ⟨some { drainTimeout := some d }, {}⟩ false) ∧
    noPv true false refused p 0 (rounds ⟨some { drainTimeout := some d }, {}⟩ false) =
      List.replicate 360 (Ev.req p .evict .tooMany) ++ [Ev.req p .delete .tooMany, Ev.result p false] := by
  have he : evictions ⟨some { drainTimeout := some d }, {}⟩ false = 360 := by
    show limit 360 d = 360
    unfold limit
    rw [if_pos]
    show 360 * 20000000000 ≤ d
    omega
  constructor
  · rintro ⟨t, m, h1, _, h3⟩
    rw [if_pos ⟨_, rfl, rfl, rfl⟩, he] at h3
    have : t = d := set_unique h1 (.inl ⟨_, rfl, rfl⟩)
    unfold Fits at h3
    omega
  · rw [refused_trace]
    unfold rounds
    rw [he]
    rfl

/-- C93, false part: A drain timeout below twenty seconds, without any limit of evictions set, leaves no eviction at all. A drain of a node with a pod that
has volumes then never ends, whatever the surroundings do. -/
theorem C93_short_timeout_false (s : Source) (t : Int) (ht : Set Conf.drainTimeout Flags.drainTimeout s t) (h0 : 0 ≤ t) (h1 : t < 20000000000)
    (a : Nat → Pod → Ans) (a1 : Pod → Ans1) (ps sorted : List Pod) (hpv : ∃ p ∈ ps, ∃ c, Vol.pvc c ∈ p.vols) (rs : List (Pod × Bool))
    (hrs : rs.Perm (results (processes false (attempts false true) (rounds s false) a a1 ps sorted).flatten)) : collect ps.length rs = .blocked := by
  cases set_unique ht (set_drain s)
  have hr : rounds s false = 0 := by
    unfold rounds evictions
    rw [if_neg (by decide)]
    rcases limit_spec (maxEvictRetries s) (drainTimeout s) h0 with ⟨h2, h3⟩ | ⟨_, h3⟩
    · rw [h2]; omega
    · unfold Fits at h3; omega
  rw [hr] at hrs
  exact C36_no_evictions_false a a1 ps sorted hpv rs hrs

example : Set Conf.drainTimeout Flags.drainTimeout ⟨some { drainTimeout := some (19 * 1000000000) }, {}⟩ (19 * 1000000000) := .inl ⟨_, rfl, rfl⟩

/-! ### C94 -/

/-- a list of names as the flag and the API expect it: separated by commas -/
def commaList : List String → String
  | [] => ""
  | [a] => a
  | a :: b :: r => a ++ "," ++ commaList (b :: r)

theorem splitChars_name (n : List Char) (h : ',' ∉ n) : ∀ (cur : List Char) (rest : List Char),
    splitChars cur (n ++ rest) = splitChars (n.reverse ++ cur) rest := by
  induction n with
  | nil => intro cur rest; rfl
  | cons c n ih =>
    intro cur rest
    rw [List.mem_cons, not_or] at h
    rw [List.cons_append, splitChars, if_neg (fun hc => h.1 hc.symm), ih h.2, List.reverse_cons, List.append_assoc]
    rfl

theorem splitChars_last (n : List Char) (h : ',' ∉ n) (cur : List Char) : splitChars cur n = [String.ofList (cur.reverse ++ n)] := by
  have := splitChars_name n h cur []
  rw [List.append_nil] at this
  rw [this, splitChars, List.reverse_append, List.reverse_reverse]

theorem split_commaList (ns : List String) (hne : ns ≠ []) (h : ∀ n ∈ ns, ',' ∉ n.toList) : split (commaList ns) = ns := by
  induction ns with
  | nil => exact absurd rfl hne
  | cons a r ih =>
    have ha := h a List.mem_cons_self
    cases r with
    | nil =>
      unfold split commaList
      rw [splitChars_last _ ha]
      simp
    | cons b r =>
      have ih := ih (by simp) (fun n hn => h n (List.mem_cons_of_mem _ hn))
      unfold split at ih ⊢
      rw [commaList]
      rw [String.toList_append, String.toList_append, List.append_assoc, splitChars_name _ ha]
      show splitChars _ (',' :: (commaList (b :: r)).toList) = _
      rw [splitChars, if_pos rfl, ih, List.append_nil, List.reverse_reverse, String.ofList_toList]

theorem split_empty : split "" = [""] := by decide

/-- What a user expects of the lists of conditions and the timeouts: a machine's conditions are bad if the kubelet is not ready, or if a listed condition is
there and not false. -/
def Bad (ns : List String) (conds : List Conditions.Cond) : Prop :=
  conds = [] ∨ ∃ c ∈ conds, (c.type = "Ready" ∧ c.status ≠ "True") ∨ (c.type ∈ ns ∧ c.status ≠ "False")

/-- C94: For a list of names, written with commas, a machine counts as unhealthy exactly if its conditions are bad. -/
theorem C94_conditions (s : Source) (ns : List String) (hs : Set Conf.nodeConditions Flags.nodeConditions s (commaList ns)) (h : ∀ n ∈ ns, ',' ∉ n.toList ∧ n ≠ "")
    (p : Health.Phase) (t : Int) (conds : List Conditions.Cond) (cr : Bool) (hc : ∀ c ∈ conds, c.type ≠ "") :
    Health.isHealthy (machine s p t conds cr).bad conds = false ↔ Bad ns conds := by
  have hb : (machine s p t conds cr).bad = split (commaList ns) := by
    show split (nodeConditions s) = _
    rw [set_unique hs (set_conditions s)]
  have hmem : ∀ c ∈ conds, (c.type ∈ split (commaList ns) ↔ c.type ∈ ns) := by
    intro c hc'
    cases ns with
    | nil =>
      rw [show commaList [] = "" from rfl, split_empty, List.mem_singleton]
      exact ⟨fun h => absurd h (hc c hc'), fun h => (nomatch h)⟩
    | cons a r => rw [split_commaList _ (by simp) (fun n hn => (h n hn).1)]
  rw [hb]
  unfold Health.isHealthy Bad
  by_cases he : conds = []
  · subst he
    exact ⟨fun _ => .inl rfl, fun _ => rfl⟩
  · rw [if_neg (by cases conds with | nil => exact absurd rfl he | cons => simp)]
    rw [List.all_eq_false]
    constructor
    · rintro ⟨c, h1, h2⟩
      refine .inr ⟨c, h1, ?_⟩
      by_cases h3 : c.type = "Ready" ∧ c.status ≠ "True"
      · exact .inl h3
      · right
        rw [Bool.and_eq_true] at h2
        have h4 : (!(c.type == "Ready" && c.status != "True")) = true := by
          rw [Bool.not_eq_true', Bool.eq_false_iff]
          intro h4
          rw [Bool.and_eq_true] at h4
          exact h3 ⟨eq_of_beq h4.1, by simpa using h4.2⟩
        have h5 : ((split (commaList ns)).all fun b => !(c.type == b && c.status != "False")) = false := by
          rw [Bool.eq_false_iff]
          exact fun h5 => h2 ⟨h4, h5⟩
        obtain ⟨b, hb, h5⟩ := List.all_eq_false.1 h5
        have h5 : c.type = b ∧ c.status ≠ "False" := by simpa using h5
        exact ⟨(hmem c h1).1 (h5.1 ▸ hb), h5.2⟩
    · rintro (h1 | ⟨c, h1, h2⟩)
      · exact absurd h1 he
      · refine ⟨c, h1, ?_⟩
        rcases h2 with ⟨h2, h3⟩ | ⟨h2, h3⟩
        · simp [h2, h3]
        · have h2 := (hmem c h1).2 h2
          intro hall
          rw [Bool.and_eq_true, List.all_eq_true] at hall
          have := hall.2 _ h2
          simp [h3] at this

/-- the flag's default -/
example : commaList ["KernelDeadlock", "ReadonlyFilesystem", "DiskPressure", "NetworkUnavailable"] = ({} : Flags).nodeConditions := by decide

/-- C94: A machine is declared failed only after the creation timeout or health timeout set for it, or given by the flags if it has none. -/
theorem C94_timeouts (s : Source) (tc th : Int) (hc : Set Conf.creationTimeout Flags.creationTimeout s tc) (hh : Set Conf.healthTimeout Flags.healthTimeout s th)
    (p : Health.Phase) (since now : Int) (conds : List Conditions.Cond) (cr mark : Bool) (n : Health.NodeLookup) (hp : p ≠ .failed)
    (h : ((machine s p since conds cr).after now mark (Health.check now (machine s p since conds cr) n)).phase = .failed) :
    (p = .pending ∧ now - since > tc) ∨ (p = .unknown ∧ now - since > th) := by
  have := Health.C29_failed_after_timeout now (machine s p since conds cr) n mark hp h
  rw [set_unique hc (set_creation s), set_unique hh (set_health s)]
  exact this

/-- C94: When the time is over, a machine that has not joined is declared failed, and for one that is unhealthy this is tried. -/
theorem C94_timeouts_acted_upon (s : Source) (tc th : Int) (hc : Set Conf.creationTimeout Flags.creationTimeout s tc) (hh : Set Conf.healthTimeout Flags.healthTimeout s th)
    (since now : Int) (conds : List Conditions.Cond) (cr : Bool) :
    (now - since > tc → ∀ mark, ((machine s .pending since conds cr).after now mark (Health.check now (machine s .pending since conds cr) .notFound)).phase = .failed) ∧
    (now - since > th → Health.check now (machine s .unknown since conds cr) .notFound = .tryFail) := by
  cases set_unique hc (set_creation s)
  cases set_unique hh (set_health s)
  exact ⟨(Health.C29_expired_acted_upon_partial now (machine s .pending since conds cr) .notFound (.inl rfl)).1 rfl,
    (Health.C29_expired_acted_upon_partial now (machine s .unknown since conds cr) .notFound (.inl rfl)).2 rfl⟩

/-- C94, false part: With a blank after the comma a condition is not recognised: the machine is and stays healthy. -/
theorem C94_blank_false : ∃ (s : Source) (conds : List Conditions.Cond), s.conf.bind (·.nodeConditions) = some "KernelDeadlock, DiskPressure" ∧
    (∃ c ∈ conds, c.type = "DiskPressure" ∧ c.status = "True") ∧ ∀ p t cr, Health.isHealthy (machine s p t conds cr).bad conds = true :=
  ⟨⟨some { nodeConditions := some "KernelDeadlock, DiskPressure" }, {}⟩, [{ type := "DiskPressure", status := "True" }], rfl,
    ⟨_, List.mem_singleton.2 rfl, rfl, rfl⟩, fun p t cr => by
      show Health.isHealthy (split "KernelDeadlock, DiskPressure") _ = true
      decide⟩

/-- a ready node that does not know about one condition -/
def unsure : List Conditions.Cond := [{ type := "Ready", status := "True" }, { type := "KernelDeadlock", status := "Unknown" }]

/-- C94, false part: According to the documentation listed conditions count "when set to True". A condition whose state is not known makes a running machine
unknown, and after the health timeout the machine is declared failed. -/
theorem C94_unknown_false : ∃ (s : Source) (conds : List Conditions.Cond), (∀ c ∈ conds, c.type ≠ "Ready" → c.status ≠ "True") ∧
    (∃ c ∈ conds, c.type = "Ready" ∧ c.status = "True") ∧
    ∀ since now, (Health.check now (machine s .running since conds false) (.found { conds := conds })) = .status (some .unknown) conds false ∧
      (now - since > healthTimeout s → Health.check now (machine s .unknown since conds false) (.found { conds := conds }) = .tryFail) := by
  refine ⟨⟨none, {}⟩, unsure, by decide, by decide, ?_⟩
  intro since now
  have hu : ∀ p, Health.isHealthy (machine ⟨none, {}⟩ p since unsure false).bad
      unsure = false := by
    intro p
    show Health.isHealthy (split ({} : Flags).nodeConditions) _ = false
    decide
  have hsame : Conditions.haveChanged unsure
      unsure = false := by decide
  constructor
  · rw [Health.check]
    have hs : Health.seen (machine ⟨none, {}⟩ .running since unsure false)
      { conds := unsure } = unsure := by
      unfold Health.seen
      split <;> rfl
    rw [hs, if_neg (by rw [hu]; decide)]
    rfl
  · intro h
    exact (Health.C29_expired_acted_upon_partial now (machine ⟨none, {}⟩ .unknown since unsure false) (.found { conds := unsure }) (.inr ⟨_, rfl, hsame, hu _⟩)).2 rfl h

/-- C94, false part: According to the API a machine with `disableHealthTimeout: true` is never declared failed because of the health timeout; the setting has
no effect whatsoever. -/
theorem C94_disable_false : ¬ ∀ (s : Source) (since now : Int) (conds : List Conditions.Cond) (cr : Bool) (n : Health.NodeLookup),
    s.conf.bind (·.disableHealthTimeout) = some true → Health.check now (machine s .unknown since conds cr) n ≠ .tryFail := by
  intro h
  exact h ⟨some { disableHealthTimeout := some true }, {}⟩ 0 (11 * 60 * 1000000000) [] false .notFound rfl
    ((C94_timeouts_acted_upon _ _ _ (set_creation _) (set_health _) 0 _ [] false).2 (by decide))

-- a forced drain makes one attempt, whatever the settings say
example (s : Source) : rounds s true = 1 := rfl

end MCM.Settings
