import Verif.Model.Conditions
/-!
C41: node conditions are updated like a map. C52: changes of conditions are detected exactly.
-/
namespace MCM.Conditions

theorem addLoop_spec : ∀ (l acc : List Cond) (c : Cond),
    (addLoop acc c l).1 = acc ++ l.filter (fun e => e.type ≠ c.type) ∧
    (addLoop acc c l).2.type = c.type ∧ (addLoop acc c l).2.status = c.status ∧ (addLoop acc c l).2.reason = c.reason ∧
    (addLoop acc c l).2.message = c.message ∧ (addLoop acc c l).2.heartbeat = c.heartbeat
  | [], acc, c => by simp [addLoop]
  | e :: l, acc, c => by
    rw [addLoop]
    by_cases h1 : e.type = c.type
    · rw [if_neg (by simpa using h1)]
      split
      · obtain ⟨a, b⟩ := addLoop_spec l acc { c with transition := e.transition }
        refine ⟨?_, b⟩
        rw [a]; simp [h1]
      · obtain ⟨a, b⟩ := addLoop_spec l acc c
        refine ⟨?_, b⟩
        rw [a]; simp [h1]
    · rw [if_pos h1]
      obtain ⟨a, b⟩ := addLoop_spec l (acc ++ [e]) c
      refine ⟨?_, b⟩
      rw [a]; simp [h1]

/-- the transition time kept is that of the last condition with the same type, status and reason -/
theorem addLoop_transition : ∀ (l acc : List Cond) (c : Cond), (∀ e ∈ l, e.type = c.type → ¬ (e.status = c.status ∧ e.reason = c.reason)) →
    (addLoop acc c l).2 = c
  | [], _, _, _ => rfl
  | e :: l, acc, c, h => by
    rw [addLoop]
    have ih := fun acc => addLoop_transition l acc c fun e he => h e (List.mem_cons_of_mem _ he)
    split
    · exact ih _
    · rename_i ht
      rw [if_neg (h e List.mem_cons_self (by simpa using ht))]
      exact ih _

theorem addLoop_kept : ∀ (l acc : List Cond) (c e : Cond), e ∈ l → e.type = c.type → e.status = c.status → e.reason = c.reason →
    (∀ e' ∈ l, e'.type = c.type → e' = e) → (addLoop acc c l).2.transition = e.transition
  | [], _, _, _, h, _, _, _, _ => (nomatch h)
  | a :: l, acc, c, e, he, ht, hs, hr, hu => by
    rw [addLoop]
    by_cases ha : a.type = c.type
    · have hae : a = e := hu a List.mem_cons_self ha
      subst hae
      rw [if_neg (by simpa using ha), if_pos ⟨hs, hr⟩]
      by_cases hmem : a ∈ l
      · exact addLoop_kept l acc { c with transition := a.transition } a hmem ht hs hr fun e' he' => hu e' (List.mem_cons_of_mem _ he')
      · rw [addLoop_transition l acc { c with transition := a.transition } fun e' he' ht' => ?_]
        have := hu e' (List.mem_cons_of_mem _ he') ht'
        rw [this] at he'
        exact absurd he' hmem
    · rw [if_pos ha]
      rcases List.mem_cons.1 he with rfl | he
      · exact absurd ht ha
      · exact addLoop_kept l _ c e he ht hs hr fun e' he' => hu e' (List.mem_cons_of_mem _ he')

/-- C41: After adding a condition with a type and a status, exactly one condition has its type; it carries the new status, reason
and message. All conditions of other types are the same, in the same order. -/
theorem C41_add (conds : List Cond) (c : Cond) (ht : c.type ≠ "") (hs : c.status ≠ "") :
    ∃ new : Cond, (cloneAndAdd conds c).filter (·.type = c.type) = [new] ∧
      new.status = c.status ∧ new.reason = c.reason ∧ new.message = c.message ∧ new.heartbeat = c.heartbeat ∧
      (cloneAndAdd conds c).filter (·.type ≠ c.type) = conds.filter (·.type ≠ c.type) := by
  unfold cloneAndAdd
  rw [if_neg (fun h => h.elim ht hs)]
  obtain ⟨h1, h2, h3, h4, h5, h6⟩ := addLoop_spec conds [] c
  refine ⟨_, ?_, h3, h4, h5, h6, ?_⟩
  · rw [h1, List.nil_append, List.filter_append, List.filter_filter, List.filter_cons, h2]
    simp
  · rw [h1, List.nil_append, List.filter_append, List.filter_filter, List.filter_cons, h2]
    simp

/-- C41: The transition time is kept if the status and the reason stay the same, and is that of the new condition otherwise. (A node
has one condition per type.) -/
theorem C41_transition (conds : List Cond) (c : Cond) (ht : c.type ≠ "") (hs : c.status ≠ "") (hu : (conds.map (·.type)).Nodup)
    (new : Cond) (hn : new ∈ cloneAndAdd conds c) (hnt : new.type = c.type) :
    (∀ e ∈ conds, e.type = c.type → e.status = c.status → e.reason = c.reason → new.transition = e.transition) ∧
    ((∀ e ∈ conds, e.type = c.type → ¬ (e.status = c.status ∧ e.reason = c.reason)) → new.transition = c.transition) := by
  unfold cloneAndAdd at hn
  rw [if_neg (fun h => h.elim ht hs)] at hn
  obtain ⟨h1, h2, h3, h4, h5, h6⟩ := addLoop_spec conds [] c
  have hnew : new = (addLoop [] c conds).2 := by
    rcases List.mem_append.1 hn with h | h
    · rw [h1, List.nil_append] at h
      have := (List.mem_filter.1 h).2
      simp at this
      exact absurd hnt this
    · exact List.mem_singleton.1 h
  subst hnew
  have huniq : ∀ {l : List Cond}, (l.map (·.type)).Nodup → ∀ e ∈ l, ∀ e' ∈ l, e'.type = e.type → e' = e := by
    intro l
    induction l with
    | nil => intro _ _ h; cases h
    | cons a l ih =>
      intro hu e he e' he' heq
      rw [List.map_cons, List.nodup_cons] at hu
      rcases List.mem_cons.1 he with h1 | h1 <;> rcases List.mem_cons.1 he' with h2 | h2
      · rw [h1, h2]
      · rw [h1] at heq; exact absurd (heq ▸ List.mem_map_of_mem (f := (·.type)) h2) hu.1
      · rw [h2] at heq; exact absurd (heq ▸ List.mem_map_of_mem (f := (·.type)) h1) hu.1
      · exact ih hu.2 e h1 e' h2 heq
  refine ⟨fun e he h h' h'' => ?_, fun h => by rw [addLoop_transition conds [] c h]⟩
  exact addLoop_kept conds [] c e he h h' h'' fun e' he' ht' => huniq hu e he e' he' (ht'.trans h.symm)

/-- C41: Nothing happens for a condition without type or status. -/
theorem C41_empty (conds : List Cond) (c : Cond) (h : c.type = "" ∨ c.status = "") : cloneAndAdd conds c = conds := if_pos h

example : cloneAndAdd [{ type := "Ready", status := "True" }, { type := "Terminating", status := "True", reason := "Unhealthy", transition := 5 }]
    { type := "Terminating", status := "True", reason := "Unhealthy", message := "m", transition := 9 } =
    [{ type := "Ready", status := "True" }, { type := "Terminating", status := "True", reason := "Unhealthy", message := "m", transition := 5 }] := by
  decide

/-! ## C52 -/

theorem byType_some {l : List Cond} {t : String} {c : Cond} (h : byType l t = some c) : c ∈ l ∧ c.type = t := by
  induction l with
  | nil => cases h
  | cons a l ih =>
    rw [byType] at h
    split at h
    · rename_i d hd
      cases h
      exact ⟨List.mem_cons_of_mem _ (ih hd).1, (ih hd).2⟩
    · split at h
      · cases h
        exact ⟨List.mem_cons_self, ‹_›⟩
      · cases h

theorem byType_none {l : List Cond} {t : String} : byType l t = none ↔ ∀ c ∈ l, c.type ≠ t := by
  induction l with
  | nil => simp [byType]
  | cons a l ih =>
    rw [byType]
    cases hl : byType l t with
    | some d =>
      have := byType_some hl
      simp only [reduceCtorEq, false_iff]
      exact fun h => h d (List.mem_cons_of_mem _ this.1) this.2
    | none =>
      dsimp only
      have := ih.1 hl
      split
      · rename_i ha
        simp only [reduceCtorEq, false_iff]
        exact fun h => h a List.mem_cons_self ha
      · rename_i ha
        refine ⟨fun _ c hc => ?_, fun _ => rfl⟩
        rcases List.mem_cons.1 hc with rfl | hc
        · exact ha
        · exact this c hc

/-- the status a list of conditions gives a type -/
def HasStatus (l : List Cond) (t s : String) : Prop := ∃ c ∈ l, c.type = t ∧ c.status = s

/-- C52: A change is reported exactly if some type appears, disappears or changes its status. (The recorded conditions have one entry
per type, as those of every Kubernetes object.) -/
theorem C52_exact (old new : List Cond) (ho : (old.map (·.type)).Nodup) :
    haveChanged old new = false ↔ ∀ t s, HasStatus old t s ↔ HasStatus new t s := by
  have huniq : ∀ {l : List Cond}, (l.map (·.type)).Nodup → ∀ e ∈ l, ∀ e' ∈ l, e'.type = e.type → e' = e := by
    intro l
    induction l with
    | nil => intro _ _ h; cases h
    | cons a l ih =>
      intro hu e he e' he' heq
      rw [List.map_cons, List.nodup_cons] at hu
      rcases List.mem_cons.1 he with h1 | h1 <;> rcases List.mem_cons.1 he' with h2 | h2
      · rw [h1, h2]
      · rw [h1] at heq; exact absurd (heq ▸ List.mem_map_of_mem (f := (·.type)) h2) hu.1
      · rw [h2] at heq; exact absurd (heq ▸ List.mem_map_of_mem (f := (·.type)) h1) hu.1
      · exact ih hu.2 e h1 e' h2 heq
  have hiff : haveChanged old new = false ↔ addedOrUpdated old new = [] ∧ removed old new = [] := by
    unfold haveChanged
    simp
  rw [hiff]
  unfold addedOrUpdated removed
  rw [List.filter_eq_nil_iff, List.filter_eq_nil_iff]
  constructor
  · rintro ⟨h1, h2⟩ t s
    have fwd : ∀ c ∈ new, HasStatus old c.type c.status := by
      intro c hc
      have := h1 c hc
      cases hb : byType old c.type with
      | none => rw [hb] at this; simp at this
      | some o =>
        rw [hb] at this
        simp at this
        exact ⟨o, (byType_some hb).1, (byType_some hb).2, this⟩
    constructor
    · rintro ⟨c, hc, rfl, rfl⟩
      have := h2 c hc
      cases hb : byType new c.type with
      | none => rw [hb] at this; simp at this
      | some n =>
        obtain ⟨hm, ht⟩ := byType_some hb
        obtain ⟨o, hom, hot, hos⟩ := fwd n hm
        have : o = c := huniq ho c hc o hom (hot.trans ht)
        subst this
        exact ⟨n, hm, ht, hos.symm⟩
    · rintro ⟨c, hc, rfl, rfl⟩
      exact fwd c hc
  · intro h
    constructor
    · intro c hc
      obtain ⟨o, hom, hot, hos⟩ := (h c.type c.status).2 ⟨c, hc, rfl, rfl⟩
      cases hb : byType old c.type with
      | none => exact absurd hot (byType_none.1 hb o hom)
      | some o' =>
        have : o' = o := huniq ho o hom o' (byType_some hb).1 ((byType_some hb).2.trans hot.symm)
        subst this
        simp [hos]
    · intro c hc
      obtain ⟨n, hnm, hnt, hns⟩ := (h c.type c.status).1 ⟨c, hc, rfl, rfl⟩
      cases hb : byType new c.type with
      | none => exact absurd hnt (byType_none.1 hb n hnm)
      | some _ => simp

example : haveChanged [{ type := "Ready", status := "True", heartbeat := 1 }] [{ type := "Ready", status := "True", heartbeat := 2, message := "x" }] = false ∧
    haveChanged [{ type := "Ready", status := "True" }] [{ type := "Ready", status := "Unknown" }] = true ∧
    haveChanged [{ type := "Ready", status := "True" }, { type := "DiskPressure", status := "False" }] [{ type := "Ready", status := "True" }] = true := by
  decide

end MCM.Conditions
